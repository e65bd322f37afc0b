import Verif.Lemmas.XmlBack

/-! # Helper lemmas for XML: what an accepted text looks like; content and documents -/

namespace Duck.Xml

/-- `Fin`, whatever the parts of the parser that are not in use hold. -/
def At (t : Node) (st : St) (es : List Bytes) (b : Builder) (rest : Bytes) : Prop :=
  ∃ nx lit q d, Fin t (S st nx lit q d es .none 0) b rest

variable {t : Node} {st nx : St} {lit : Bytes} {q : UInt8} {d : Bytes} {es : List Bytes} {k : Nat}
  {b : Builder} {rest m : Bytes} {ch : UInt8} {dn : Option Node} {f : Frame} {l : List Frame}

/-! ## Content -/

def Content.ladd : Content → List Node → List Node
  | .nil, k => k
  | .char b c, k => c.ladd (appendText k [b])
  | .ref r c, k => c.ladd (appendText k (utf8Of r.value))
  | .cdata s c, k => c.ladd (addT k (cdataText false s))
  | .comment _ c, k => c.ladd k
  | .pi _ c, k => c.ladd k
  | .elem n as _ body _ c, k => c.ladd (k ++ [.elem n (lastValues as) (body.ladd [])])
  | .empty n as _ c, k => c.ladd (k ++ [.elem n (lastValues as) []])

theorem Fin.closeInner {n e : Bytes} {g : Frame} (h : At t .etag0 (n :: e :: es) (B dn (f :: g :: l) none) rest) :
    ∃ w m, rest = n ++ w ++ 0x3e :: m ∧ Blanks w ∧
      At t .misc2 (e :: es) (B dn ({ g with kids := g.kids ++ [.elem f.name f.attrs f.kids] } :: l) none) m := by
  obtain ⟨nx, lit, q, d, h⟩ := h
  obtain ⟨ch, m, rfl, h1, h2, h3⟩ := h.endTag
  rcases h1 with rfl | ⟨h1, hs⟩
  · refine ⟨[], m, by simp, by simp [Blanks], nx, lit, q, d, ?_⟩
    refine h3.step (c := ⟨.misc2, nx, lit, q⟩) (a := .elemcloseend) rfl (r := .elemend) (x := []) ?_ rfl rfl
    simp [aperform, aclose]
  · have h4 : Fin t (S .etag2 nx lit q d (e :: es) .none 0)
        (B dn ({ g with kids := g.kids ++ [.elem f.name f.attrs f.kids] } :: l) none) m := by
      refine h3.step (c := ⟨.etag2, nx, lit, q⟩) (a := .elemcloseend) (by simp [trans, h2, hs]) (r := .elemend) (x := []) ?_ rfl rfl
      simp [aperform, aclose]
    obtain ⟨w, c1, m1, rfl, h5, h6, h7⟩ := h4.blanks (by simp) (fun ch hc => by simp [trans, hc])
    by_cases hg : c1 = 0x3e
    · subst hg
      refine ⟨ch :: w, m1, by simp, ?_, nx, lit, q, d, h7.go rfl⟩
      intro y hy
      rcases List.mem_cons.mp hy with rfl | hy
      · exact blank_of hs
      · exact h5 y hy
    · exact (h7.stuck (by simp [trans, h6, hg])).elim

theorem Fin.content (n : Nat) : ∀ (rest e : Bytes) (es : List Bytes) (f : Frame) (l : List Frame), rest.length ≤ n →
    At t .misc2 (e :: es) (B dn (f :: l) none) rest →
    ∃ (c : Content) (m : Bytes), rest = c.bytes ++ 0x3c :: 0x2f :: m ∧ c.Taken ∧
      At t .etag0 (e :: es) (B dn ({ f with kids := c.ladd f.kids } :: l) none) m := by
  induction n with
  | zero =>
    rintro rest e es f l hl ⟨nx, lit, q, d, h⟩
    obtain ⟨ch, m, rfl, _⟩ := h.head (by simp)
    simp at hl
  | succ n ih =>
    rintro rest e es f l hl ⟨nx, lit, q, d, h⟩
    obtain ⟨ch, m, rfl, hp⟩ := h.head (by simp)
    simp only [List.length_cons] at hl
    by_cases h1 : ch = 0x26
    · subst h1
      have h2 := h.step (c := ⟨.misc2a, nx, lit, q⟩) (a := .refstart) rfl rfl rfl rfl
      obtain ⟨r, m', rfl, h3, h4⟩ := h2.contentRef
      simp only [List.length_append, List.length_cons] at hl
      obtain ⟨c, m2, rfl, h5, h6⟩ := ih m' e es _ l (by omega) ⟨_, _, _, _, h4⟩
      exact ⟨.ref r c, m2, by simp [Content.bytes, Ref.bytes_eq], ⟨h3, h5⟩, h6⟩
    by_cases h2 : ch = 0x3c
    · subst h2
      have hle := h.go (c := ⟨.le2, nx, lit, q⟩) rfl
      obtain ⟨c1, m, rfl, hp1⟩ := hle.head (by simp)
      simp only [List.length_cons] at hl
      by_cases hb : c1 = 0x21
      · subst hb
        have h3 := hle.go (c := ⟨.lee2, nx, lit, q⟩) rfl
        obtain ⟨c2, m, rfl, _⟩ := h3.head (by simp)
        simp only [List.length_cons] at hl
        by_cases hd : c2 = 0x2d
        · subst hd
          have h4 := h3.go (c := ⟨.comment1, .misc2, lit, q⟩) rfl
          obtain ⟨s, m1, rfl, h5, h6⟩ := h4.comment1
          simp only [List.length_append, List.length_cons] at hl
          obtain ⟨c, m2, rfl, h7, h8⟩ := ih m1 e es f l (by omega) ⟨_, _, _, _, h6⟩
          exact ⟨.comment s c, m2, by simp [Content.bytes, commentBytes_eq], ⟨h5, h7⟩, h8⟩
        · by_cases hk : c2 = 0x5b
          · subst hk
            have h4 := h3.go (c := ⟨.string, .cd0, [0x43, 0x44, 0x41, 0x54, 0x41, 0x5b], q⟩) rfl
            obtain ⟨m1, rfl, h5⟩ := h4.literal (by simp)
            obtain ⟨s, m2, d', e1, h6, h7, h8⟩ := (Fin.cdata m1.length m1 _ f (Nat.le_refl _)).1 h5
            simp only [List.nil_append] at e1
            subst e1
            simp only [List.length_append, List.length_cons] at hl
            obtain ⟨c, m3, rfl, h9, h10⟩ := ih m2 e es _ l (by omega) ⟨_, _, _, _, h8⟩
            refine ⟨.cdata s c, m3, by simp [Content.bytes, ascii], ⟨⟨h6, ?_⟩, h9⟩, h10⟩
            rw [show ascii "]]>" = [0x5d, 0x5d, 0x3e] by decide +kernel]
            exact h7
          · exact (h3.stuck (by simp [trans, hd, hk])).elim
      by_cases hqm : c1 = 0x3f
      · subst hqm
        have h3 := hle.go (c := ⟨.pi0, .misc2, lit, q⟩) rfl
        obtain ⟨p, m1, d', e1, h4, h5⟩ := h3.pi0
        have hl' : m1.length ≤ n := by
          have := congrArg List.length e1
          simp [PI.bytes_eq] at this
          omega
        obtain ⟨c, m2, rfl, h7, h8⟩ := ih m1 e es f l hl' ⟨_, _, _, _, h5⟩
        exact ⟨.pi p c, m2, by rw [e1]; simp [Content.bytes], ⟨h4, h7⟩, h8⟩
      by_cases hsl : c1 = 0x2f
      · subst hsl
        exact ⟨.nil, m, rfl, trivial, nx, lit, q, d, hle.go rfl⟩
      cases hns : isNameStart c1 with
      | false => exact (hle.stuck (by simp [trans, hb, hqm, hsl, hns])).elim
      | true =>
        have h3 := hle.step (c := ⟨.elem0, nx, lit, q⟩) (a := .elemstart) (by simp [trans, hb, hqm, hsl, hns]) rfl rfl rfl
        obtain ⟨cs, m1, rfl, h4, as, w, c2, m2, q', d', rfl, h5, h6, h7⟩ := h3.element (dn := dn) (l := f :: l) (fun _ => rfl)
        have hname : Name (c1 :: cs) := ⟨c1, cs, rfl, nameStart_of hns, h4⟩
        simp only [List.length_append, List.length_cons] at hl
        rcases h7 with ⟨rfl, h7⟩ | ⟨rfl, h7⟩
        · obtain ⟨body, m3, rfl, h8, h9⟩ := ih m2 (c1 :: cs) (e :: es) _ (f :: l) (by omega) ⟨_, _, _, _, h7⟩
          obtain ⟨wE, m4, rfl, h10, h11⟩ := Fin.closeInner h9
          simp only [List.length_append, List.length_cons] at hl
          obtain ⟨c, m5, rfl, h12, h13⟩ := ih m4 e es _ l (by omega) h11
          refine ⟨.elem (c1 :: cs) as w body wE c, m5, ?_, ⟨hname, h5, h6, h8, h10, h12⟩, ?_⟩
          · simp [Content.bytes, ascii]
          · exact h13
        · obtain ⟨c3, m3, rfl, _⟩ := h7.head (by simp)
          simp only [List.length_cons] at hl
          by_cases hg : c3 = 0x3e
          · subst hg
            have h8 := h7.step (c := ⟨.misc2, nx, lit, q'⟩) (a := .selfclose) rfl rfl rfl rfl
            obtain ⟨c, m5, rfl, h12, h13⟩ := ih m3 e es _ l (by omega) ⟨_, _, _, _, h8⟩
            refine ⟨.empty (c1 :: cs) as w c, m5, ?_, ⟨hname, h5, h6, h12⟩, ?_⟩
            · simp [Content.bytes, ascii]
            · exact h13
          · exact (h7.stuck (by simp [trans, hg])).elim
    · have h3 := h.step (c := ⟨.misc2, nx, lit, q⟩) (a := .datacontent) (by simp [trans, h1, h2]) rfl rfl rfl
      obtain ⟨c, m2, rfl, h4, h5⟩ := ih m e es _ l (by omega) ⟨_, _, _, _, h3⟩
      exact ⟨.char ch c, m2, rfl, ⟨⟨hp, h2, h1⟩, h4⟩, h5⟩

/-! ## The children -/

theorem squeezeText_snoc (z : Bool) (l : List (UInt8 × Bool)) (b : UInt8) (keep : Bool) :
    squeezeText z (l ++ [(b, keep)]) = squeezeText z l ++
      (if Num.isSpace b && !keep then (if (l.getLast?.map fun x => Num.isSpace x.1).getD z then [] else [0x20]) else [b]) := by
  induction l generalizing z with
  | nil => cases z <;> simp [squeezeText]
  | cons c l ih =>
    obtain ⟨c, kc⟩ := c
    have hg : (((c, kc) :: l).getLast?.map fun x => Num.isSpace x.1).getD z =
        (l.getLast?.map fun x => Num.isSpace x.1).getD (Num.isSpace c) := by
      cases l with
      | nil => simp
      | cons d l => simp [List.getLast?_cons]
    rw [hg]
    simp only [List.cons_append, squeezeText]
    by_cases hc : (Num.isSpace c && !kc) = true
    · simp only [Bool.and_eq_true, Bool.not_eq_true'] at hc
      obtain ⟨hc', rfl⟩ := hc
      cases z <;> simp [ih, hc']
    · simp only [hc]
      simp [ih]

theorem squeezeText_last (l : List (UInt8 × Bool)) (h : squeezeText true l ≠ []) :
    endsInSpace (squeezeText true l) = (l.getLast?.map fun x => Num.isSpace x.1).getD true := by
  rcases List.eq_nil_or_concat l with rfl | ⟨m, ⟨b, kb⟩, rfl⟩
  · simp [squeezeText] at h
  · rw [List.concat_eq_append] at h ⊢
    rw [squeezeText_snoc] at h ⊢
    simp only [List.getLast?_append, List.getLast?_singleton, Option.some_or, Option.map_some, Option.getD_some]
    by_cases hb : (Num.isSpace b && !kb) = true
    · rw [if_pos hb] at h ⊢
      have hb' : Num.isSpace b = true := by simp at hb; exact hb.1
      by_cases hm : ((m.getLast?.map fun x => Num.isSpace x.1).getD true) = true
      · rw [if_pos hm] at h ⊢
        rw [List.append_nil] at h ⊢
        have := squeezeText_last m h
        rw [this, hm, hb']
      · rw [if_neg hm] at h ⊢
        simp [endsInSpace, hb']
        decide
    · rw [if_neg hb] at h ⊢
      simp [endsInSpace]
termination_by l.length

theorem squeezeText_nil (l : List (UInt8 × Bool)) (h : squeezeText true l = []) :
    (l.getLast?.map fun x => Num.isSpace x.1).getD true = true := by
  rcases List.eq_nil_or_concat l with rfl | ⟨m, ⟨b, kb⟩, rfl⟩
  · rfl
  · rw [List.concat_eq_append] at h ⊢
    rw [squeezeText_snoc] at h
    by_cases hb : (Num.isSpace b && !kb) = true
    · have hb' : Num.isSpace b = true := by simp at hb; exact hb.1
      simp [hb']
    · rw [if_neg hb] at h
      simp at h

theorem addT1_text (k : List Node) (run : List (UInt8 × Bool)) (x : UInt8 × Bool) (h : NoText k) :
    addT1 (k ++ textChild run) x = k ++ textChild (run ++ [x]) := by
  obtain ⟨b, keep⟩ := x
  unfold textChild
  rw [squeezeText_snoc]
  by_cases h0 : squeezeText true run = []
  · have hl := squeezeText_nil run h0
    rw [if_pos h0, h0, hl]
    simp only [List.append_nil, List.nil_append, if_true]
    have key : appendText k [b] = if Num.isSpace b then k else k ++ [.text [b]] := by
      unfold appendText
      split
      · rename_i t ht
        exact absurd ht (h t)
      · rfl
    have key' : rawText k b = k ++ [.text [b]] := by
      unfold rawText
      split
      · rename_i t ht
        exact absurd ht (h t)
      · rfl
    cases keep with
    | true => simp [addT1, key']
    | false =>
      simp only [addT1, key]
      by_cases hb : Num.isSpace b = true
      · simp [hb]
      · simp [hb]
  · rw [if_neg h0]
    have hl := squeezeText_last run h0
    have h1 : (squeezeText true run ++ if (Num.isSpace b && !keep) = true then
        if (Option.map (fun x => Num.isSpace x.1) run.getLast?).getD true = true then [] else [0x20] else [b]) ≠ [] := by
      simp [h0]
    rw [if_neg h1, ← hl]
    cases keep with
    | true => simp [addT1, rawText]
    | false =>
      simp only [addT1, appendText]
      simp only [List.getLast?_append, List.getLast?_singleton, Option.some_or, List.headD_cons]
      by_cases hb : Num.isSpace b = true
      · simp only [hb]
        by_cases he : endsInSpace (squeezeText true run) = true
        · simp [he]
        · simp [he, h0]
      · simp [hb]

theorem addT_text (k : List Node) (run l : List (UInt8 × Bool)) (h : NoText k) :
    addT (k ++ textChild run) l = k ++ textChild (run ++ l) := by
  induction l generalizing run with
  | nil => simp [addT]
  | cons b l ih =>
    show addT (addT1 (k ++ textChild run) b) l = _
    rw [addT1_text k run b h, ih]
    simp

theorem utf8Of_cases (v : Nat) (hv : v < 0x110000) :
    (∃ c, utf8Of v = [c]) ∨ (utf8Of v ≠ [] ∧ ∀ c ∈ utf8Of v, Num.isSpace c = false) := by
  have big0 : ∀ x, x < 256 → 128 ≤ x → Num.isSpace (UInt8.ofNat x) = false := by decide +kernel
  have big : ∀ x, 128 ≤ x → x < 256 → Num.isSpace (UInt8.ofNat x) = false := fun x h1 h2 => big0 x h2 h1
  unfold utf8Of
  split
  · left; exact ⟨_, rfl⟩
  · right
    split
    · refine ⟨by simp, ?_⟩
      intro c hc
      simp only [List.map_cons, List.map_nil, List.mem_cons, List.not_mem_nil, or_false] at hc
      rcases hc with rfl | rfl <;> exact big _ (by omega) (by omega)
    · split
      · refine ⟨by simp, ?_⟩
        intro c hc
        simp only [List.map_cons, List.map_nil, List.mem_cons, List.not_mem_nil, or_false] at hc
        rcases hc with rfl | rfl | rfl <;> exact big _ (by omega) (by omega)
      · refine ⟨by simp, ?_⟩
        intro c hc
        simp only [List.map_cons, List.map_nil, List.mem_cons, List.not_mem_nil, or_false] at hc
        rcases hc with rfl | rfl | rfl | rfl <;> exact big _ (by omega) (by omega)

theorem addT_soft (k : List Node) (l : Bytes) : addT k (soft l) = addBytes k l := by
  simp only [addT, soft, addBytes, List.foldl_map]
  rfl

theorem append_value (k : List Node) (v : Nat) (hv : v < 0x110000) : appendText k (utf8Of v) = addT k (soft (utf8Of v)) := by
  rw [addT_soft]
  rcases utf8Of_cases v hv with ⟨c, hc⟩ | ⟨h1, h2⟩
  · rw [hc]; rfl
  · exact append_chunk k _ h1 h2

theorem ladd_children (c : Content) (hc : c.Taken) (k : List Node) (run : List (UInt8 × Bool)) (h : NoText k) :
    c.ladd (k ++ textChild run) = k ++ c.children run := by
  induction c generalizing k run with
  | nil => rfl
  | char b c ih =>
    simp only [Content.ladd, Content.children]
    have := addT1_text k run (b, false) h
    simp only [addT1] at this
    rw [← ih hc.2 k _ h, ← this]
    rfl
  | ref r c ih =>
    simp only [Content.ladd, Content.children]
    rw [append_value _ _ (by have := hc.1.2.2.1; omega), addT_text k run _ h]
    exact ih hc.2 k _ h
  | cdata s c ih =>
    simp only [Content.ladd, Content.children]
    rw [addT_text k run _ h]
    exact ih hc.2 k _ h
  | comment s c ih => exact ih hc.2 k _ h
  | pi p c ih => exact ih hc.2 k _ h
  | elem n as w body wEnd c ihb ihc =>
    simp only [Content.ladd, Content.children]
    have hb := ihb hc.2.2.2.1 [] [] (by intro t; simp)
    simp only [textChild, squeezeText, if_true, List.append_nil, List.nil_append] at hb
    have hc := ihc hc.2.2.2.2.2 (k ++ textChild run ++ [.elem n (lastValues as) (body.children [])]) [] (noText_elem _ _ _ _)
    simp only [textChild, squeezeText, if_true, List.append_nil] at hc
    rw [hb]
    simpa [textChild] using hc
  | empty n as w c ihc =>
    simp only [Content.ladd, Content.children]
    have hc := ihc hc.2.2.2 (k ++ textChild run ++ [.elem n (lastValues as) []]) [] (noText_elem _ _ _ _)
    simp only [textChild, squeezeText, if_true, List.append_nil] at hc
    simpa [textChild] using hc

theorem ladd_nil (c : Content) (h : c.Taken) : c.ladd [] = c.children [] := by
  have := ladd_children c h [] [] (by intro t; simp)
  simpa [textChild, squeezeText] using this

/-! ## After the root -/

theorem Fin.misc3 (n : Nat) : ∀ rest : Bytes, rest.length ≤ n → At t .misc3 [] b rest →
    ∃ after : List Misc, rest = after.flatMap Misc.bytes ∧ (∀ x ∈ after, x.Taken false) ∧ b.done = some t := by
  induction n with
  | zero =>
    rintro rest hl ⟨nx, lit, q, d, h⟩
    have : rest = [] := List.length_eq_zero_iff.mp (by omega)
    subst this
    obtain ⟨_, s1, b1, h1, _, h3⟩ := h
    simp only [aloop, Option.some.injEq, Except.ok.injEq, Prod.mk.injEq] at h1
    rw [← h1.2] at h3
    exact ⟨[], rfl, by simp, h3⟩
  | succ n ih =>
    rintro rest hl ⟨nx, lit, q, d, h⟩
    match rest, h with
    | [], h => exact ih [] (by simp) ⟨nx, lit, q, d, h⟩
    | ch :: m, h =>
      simp only [List.length_cons] at hl
      have cons : ∀ (x : Misc) (m' : Bytes), x.Taken false → ch :: m = x.bytes ++ m' → m'.length ≤ n → At t .misc3 [] b m' →
          ∃ after : List Misc, ch :: m = after.flatMap Misc.bytes ∧ (∀ x ∈ after, x.Taken false) ∧ b.done = some t := by
        intro x m' hx e hl' ha
        obtain ⟨after, h1, h2, h3⟩ := ih m' hl' ha
        refine ⟨x :: after, by rw [e, h1]; simp, ?_, h3⟩
        intro y hy
        rcases List.mem_cons.mp hy with rfl | hy
        · exact hx
        · exact h2 y hy
      cases hs : isSP ch with
      | true =>
        refine cons (.blanks [ch]) m ?_ rfl (by omega) ⟨nx, lit, q, d, h.go (c := ⟨.misc3, nx, lit, q⟩) (by simp [trans, hs])⟩
        intro y hy
        simp only [List.mem_singleton] at hy
        subst hy
        exact blank_of hs
      | false =>
        by_cases hc : ch = 0x3c
        · subst hc
          have h1 := h.go (c := ⟨.le3, nx, lit, q⟩) rfl
          obtain ⟨c1, m, rfl, _⟩ := h1.head (by simp)
          by_cases hb : c1 = 0x21
          · subst hb
            have h2 := h1.go (c := ⟨.comment0, .misc3, lit, q⟩) rfl
            obtain ⟨c2, m, rfl, _⟩ := h2.head (by simp)
            by_cases hd : c2 = 0x2d
            · subst hd
              have h3 := h2.go (c := ⟨.comment1, .misc3, lit, q⟩) rfl
              obtain ⟨s, m1, rfl, h5, h6⟩ := h3.comment1
              simp only [List.length_append, List.length_cons] at hl
              exact cons (.comment s) m1 h5 (by simp [Misc.bytes, commentBytes_eq]) (by omega) ⟨_, _, _, _, h6⟩
            · exact (h2.stuck (by simp [trans, hd])).elim
          · by_cases hqm : c1 = 0x3f
            · subst hqm
              have h2 := h1.go (c := ⟨.pi0, .misc3, lit, q⟩) rfl
              obtain ⟨p, m1, d', e1, h4, h5⟩ := h2.pi0
              have hl' : m1.length ≤ n := by
                have := congrArg List.length e1
                simp [PI.bytes_eq] at this
                simp only [List.length_cons] at hl
                omega
              exact cons (.pi p) m1 h4 e1 hl' ⟨_, _, _, _, h5⟩
            · exact (h1.stuck (by simp [trans, hb, hqm])).elim
        · exact (h.stuck (by simp [trans, hs, hc])).elim

/-! ## The root -/

/-- After the first byte of the root's name. -/
theorem Fin.root {c : UInt8} (hc : NameStart c) (h : At t .elem0 [[c]] emptyBuilder rest) :
    ∃ (r : Root) (z : UInt8) (m : Bytes), 0x3c :: c :: rest = r.endedBy z ++ m ∧ r.Taken ∧ (z = 0x3e ∨ Blank z) ∧
      At t .misc3 [] (B (some r.made) [] none) m := by
  obtain ⟨nx, lit, q, d, h⟩ := h
  obtain ⟨cs, m1, rfl, h4, as, w, c2, m2, q', d', rfl, h5, h6, h7⟩ := h.element (dn := none) (l := []) (fun _ => rfl)
  have hname : Name (c :: cs) := ⟨c, cs, rfl, hc, h4⟩
  rcases h7 with ⟨rfl, h7⟩ | ⟨rfl, h7⟩
  · obtain ⟨body, m3, rfl, h8, nx1, lit1, q1, d1, h9⟩ := Fin.content m2.length m2 (c :: cs) [] _ [] (Nat.le_refl _) ⟨_, _, _, _, h7⟩
    obtain ⟨z, m, rfl, hz, h10, h11⟩ := h9.endTag
    refine ⟨.elem (c :: cs) as w body, z, m, ?_, ⟨hname, h5, h6, h8⟩, ?_, ?_⟩
    · simp [Root.endedBy, ascii]
    · rcases hz with hz | ⟨_, hz⟩
      · exact Or.inl hz
      · exact Or.inr (blank_of hz)
    · have : ∃ st', trans ⟨.etag1, nx1, lit1, q1⟩ z = some (⟨st', nx1, lit1, q1⟩, .elemcloseend) := by
        rcases hz with rfl | ⟨_, hz⟩
        · exact ⟨.misc2, rfl⟩
        · exact ⟨.etag2, by simp [trans, h10, hz]⟩
      obtain ⟨st', ht⟩ := this
      refine ⟨nx1, lit1, q1, d1, ?_⟩
      refine h11.step ht (s' := S .misc3 nx1 lit1 q1 d1 [] .none 0) (r := .elemend) (x := []) ?_ rfl ?_
      · simp [aperform, aclose]
      · simp only [Root.made]
        rw [← ladd_nil body h8]
        rfl
  · obtain ⟨c3, m3, rfl, _⟩ := h7.head (by simp)
    by_cases hg : c3 = 0x3e
    · subst hg
      refine ⟨.empty (c :: cs) as w, 0x3e, m3, ?_, ⟨hname, h5, h6⟩, Or.inl rfl, ?_⟩
      · simp [Root.endedBy, ascii]
      · exact ⟨nx, lit, q', d', h7.step (c := ⟨.misc2, nx, lit, q'⟩) (a := .selfclose) rfl rfl rfl rfl⟩
    · exact (h7.stuck (by simp [trans, hg])).elim

/-! ## Document type declarations -/

theorem Fin.dtString (h : Fin t (S .dt1 nx lit q d [] .none 0) b rest) :
    ∃ s m, rest = s ++ q :: m ∧ (∀ c ∈ s, Plain c ∧ c ≠ q) ∧ Fin t (S nx nx lit q d [] .none 0) b m := by
  obtain ⟨s, ch, m, rfl, h1, h2, h3, h4⟩ := h.span (s' := fun _ => S .dt1 nx lit q d [] .none 0) (fun c => c != q)
    (fun w hw hp => loop_same fun c hc => ⟨hp c hc, by
      have : q ≠ c := by have := hw c hc; simp at this; exact fun e => this e.symm
      simp [trans, this]⟩) (fun _ => by simp)
  have : ch = q := by simpa using h3
  subst this
  exact ⟨s, m, rfl, fun c hc => ⟨h2 c hc, by simpa using h1 c hc⟩, h4.go (by simp [trans])⟩

theorem not_quote {c : UInt8} (h : ¬ (c = 0x27 ∨ c = 0x22)) : ¬ Quote c := fun hq => h (Or.symm hq)

/-- After the first byte of a declaration in the internal subset. -/
theorem Fin.dt4 (n : Nat) : ∀ rest : Bytes, rest.length ≤ n → At t .dt4 [] b rest →
    ∃ (as : List DtAtom) (m : Bytes), rest = as.flatMap DtAtom.bytes ++ 0x3e :: m ∧ (∀ a ∈ as, a.Taken true) ∧ At t .dt0 [] b m := by
  induction n with
  | zero =>
    rintro rest hl ⟨nx, lit, q, d, h⟩
    obtain ⟨ch, m, rfl, _⟩ := h.head (by simp)
    simp at hl
  | succ n ih =>
    rintro rest hl ⟨nx, lit, q, d, h⟩
    obtain ⟨ch, m, rfl, hp⟩ := h.head (by simp)
    simp only [List.length_cons] at hl
    by_cases hq : ch = 0x27 ∨ ch = 0x22
    · have h1 := h.go (c := ⟨.dt1, .dt4, lit, ch⟩) (by simp [trans, hq])
      obtain ⟨s, m1, rfl, h2, h3⟩ := h1.dtString
      simp only [List.length_append, List.length_cons] at hl
      obtain ⟨as, m2, rfl, h4, h5⟩ := ih m1 (by omega) ⟨_, _, _, _, h3⟩
      refine ⟨.str ch s :: as, m2, by simp [DtAtom.bytes], ?_, h5⟩
      intro a ha
      rcases List.mem_cons.mp ha with rfl | ha
      · exact ⟨Or.symm hq, h2⟩
      · exact h4 a ha
    · by_cases hg : ch = 0x3e
      · subst hg
        exact ⟨[], m, rfl, by simp, nx, lit, q, d, h.go rfl⟩
      · have h1 := h.go (c := ⟨.dt4, nx, lit, q⟩) (by simp [trans, hq, hg])
        obtain ⟨as, m2, rfl, h4, h5⟩ := ih m (by omega) ⟨_, _, _, _, h1⟩
        refine ⟨.char ch :: as, m2, by simp [DtAtom.bytes], ?_, h5⟩
        intro a ha
        rcases List.mem_cons.mp ha with rfl | ha
        · exact ⟨hp, not_quote hq, fun _ => rfl, hg⟩
        · exact h4 a ha

theorem Fin.dt0 (n : Nat) : ∀ rest : Bytes, rest.length ≤ n → At t .dt0 [] b rest →
    ∃ (is : List DtItem) (m : Bytes), rest = is.flatMap DtItem.bytes ++ 0x3e :: m ∧ (∀ i ∈ is, i.Taken) ∧ At t .misc1 [] b m := by
  induction n with
  | zero =>
    rintro rest hl ⟨nx, lit, q, d, h⟩
    obtain ⟨ch, m, rfl, _⟩ := h.head (by simp)
    simp at hl
  | succ n ih =>
    rintro rest hl ⟨nx, lit, q, d, h⟩
    obtain ⟨ch, m, rfl, hp⟩ := h.head (by simp)
    simp only [List.length_cons] at hl
    have cons : ∀ (x : DtItem) (m' : Bytes), x.Taken → ch :: m = x.bytes ++ m' → m'.length ≤ n → At t .dt0 [] b m' →
        ∃ (is : List DtItem) (m1 : Bytes), ch :: m = is.flatMap DtItem.bytes ++ 0x3e :: m1 ∧ (∀ i ∈ is, i.Taken) ∧
          At t .misc1 [] b m1 := by
      intro x m' hx e hl' ha
      obtain ⟨is, m1, h1, h2, h3⟩ := ih m' hl' ha
      refine ⟨x :: is, m1, by rw [e, h1]; simp, ?_, h3⟩
      intro y hy
      rcases List.mem_cons.mp hy with rfl | hy
      · exact hx
      · exact h2 y hy
    by_cases hg : ch = 0x3e
    · subst hg
      exact ⟨[], m, rfl, by simp, nx, lit, q, d, h.go rfl⟩
    by_cases hq : ch = 0x27 ∨ ch = 0x22
    · have h1 := h.go (c := ⟨.dt1, .dt0, lit, ch⟩) (by simp [trans, hq, hg])
      obtain ⟨s, m1, rfl, h2, h3⟩ := h1.dtString
      simp only [List.length_append, List.length_cons] at hl
      exact cons (.atom (.str ch s)) m1 ⟨Or.symm hq, h2⟩ (by simp [DtItem.bytes, DtAtom.bytes]) (by omega) ⟨_, _, _, _, h3⟩
    by_cases hl2 : ch = 0x3c
    · subst hl2
      have h1 := h.go (c := ⟨.dt2, nx, lit, q⟩) rfl
      obtain ⟨c1, m, rfl, _⟩ := h1.head (by simp)
      simp only [List.length_cons] at hl
      by_cases hqm : c1 = 0x3f
      · subst hqm
        have h2 := h1.go (c := ⟨.pi0, .dt0, lit, q⟩) rfl
        obtain ⟨p, m1, d', e1, h4, h5⟩ := h2.pi0
        have hl' : m1.length ≤ n := by
          have := congrArg List.length e1
          simp [PI.bytes_eq] at this
          omega
        exact cons (.pi p) m1 h4 e1 hl' ⟨_, _, _, _, h5⟩
      · by_cases hb : c1 = 0x21
        · subst hb
          have h2 := h1.go (c := ⟨.dt3, nx, lit, q⟩) rfl
          obtain ⟨c2, m, rfl, hp2⟩ := h2.head (by simp)
          simp only [List.length_cons] at hl
          by_cases hd : c2 = 0x2d
          · subst hd
            have h3 := h2.go (c := ⟨.comment1, .dt0, lit, q⟩) rfl
            obtain ⟨s, m1, rfl, h5, h6⟩ := h3.comment1
            simp only [List.length_append, List.length_cons] at hl
            exact cons (.comment s) m1 h5 (by simp [DtItem.bytes, commentBytes_eq]) (by omega) ⟨_, _, _, _, h6⟩
          · have h3 := h2.go (c := ⟨.dt4, nx, lit, q⟩) (by simp [trans, hd])
            obtain ⟨as, m1, rfl, h4, h5⟩ := Fin.dt4 m.length m (Nat.le_refl _) ⟨_, _, _, _, h3⟩
            simp only [List.length_append, List.length_cons] at hl
            exact cons (.decl c2 as) m1 ⟨⟨hp2, hd⟩, h4⟩ (by simp [DtItem.bytes, ascii]) (by omega) h5
        · exact (h1.stuck (by simp [trans, hqm, hb])).elim
    · have h1 := h.go (c := ⟨.dt0, nx, lit, q⟩) (by simp [trans, hg, hq, hl2])
      exact cons (.atom (.char ch)) m ⟨hp, not_quote hq, fun e => absurd e hl2, hg⟩ rfl (by omega) ⟨_, _, _, _, h1⟩

/-! ## Before the root -/

/-- After `<!`, before the root. -/
theorem Fin.lee1 (h : At t .lee1 [] b rest) :
    ∃ (x : Misc) (m : Bytes), 0x3c :: 0x21 :: rest = x.bytes ++ m ∧ m.length ≤ rest.length ∧ x.Taken true ∧
      At t .misc1 [] b m := by
  obtain ⟨nx, lit, q, d, h⟩ := h
  obtain ⟨ch, m, rfl, _⟩ := h.head (by simp)
  by_cases hd : ch = 0x2d
  · subst hd
    have h3 := h.go (c := ⟨.comment1, .misc1, lit, q⟩) rfl
    obtain ⟨s, m1, rfl, h5, h6⟩ := h3.comment1
    exact ⟨.comment s, m1, by simp [Misc.bytes, commentBytes_eq], by simp; omega, h5, ⟨_, _, _, _, h6⟩⟩
  · by_cases hD : ch = 0x44
    · subst hD
      have h3 := h.go (c := ⟨.string, .dt0, [0x4f, 0x43, 0x54, 0x59, 0x50, 0x45], q⟩) rfl
      obtain ⟨m1, rfl, h4⟩ := h3.literal (by simp)
      obtain ⟨is, m2, rfl, h5, h6⟩ := Fin.dt0 m1.length m1 (Nat.le_refl _) ⟨_, _, _, _, h4⟩
      exact ⟨.doctype is, m2, by simp [Misc.bytes, ascii], by simp; omega, ⟨rfl, h5⟩, h6⟩
    · exact (h.stuck (by simp [trans, hd, hD])).elim

theorem Fin.misc1 (n : Nat) : ∀ rest : Bytes, rest.length ≤ n → At t .misc1 [] b rest →
    ∃ (before : List Misc) (c : UInt8) (m : Bytes), rest = before.flatMap Misc.bytes ++ 0x3c :: c :: m ∧
      (∀ x ∈ before, x.Taken true) ∧ NameStart c ∧ At t .elem0 [[c]] b m := by
  induction n with
  | zero =>
    rintro rest hl ⟨nx, lit, q, d, h⟩
    obtain ⟨ch, m, rfl, _⟩ := h.head (by simp)
    simp at hl
  | succ n ih =>
    rintro rest hl ⟨nx, lit, q, d, h⟩
    obtain ⟨ch, m, rfl, hp⟩ := h.head (by simp)
    simp only [List.length_cons] at hl
    have cons : ∀ (x : Misc) (m' : Bytes), x.Taken true → ch :: m = x.bytes ++ m' → m'.length ≤ n → At t .misc1 [] b m' →
        ∃ (before : List Misc) (c : UInt8) (m1 : Bytes), ch :: m = before.flatMap Misc.bytes ++ 0x3c :: c :: m1 ∧
          (∀ x ∈ before, x.Taken true) ∧ NameStart c ∧ At t .elem0 [[c]] b m1 := by
      intro x m' hx e hl' ha
      obtain ⟨is, c, m1, h1, h2, h3⟩ := ih m' hl' ha
      refine ⟨x :: is, c, m1, by rw [e, h1]; simp, ?_, h3⟩
      intro y hy
      rcases List.mem_cons.mp hy with rfl | hy
      · exact hx
      · exact h2 y hy
    cases hs : isSP ch with
    | true =>
      refine cons (.blanks [ch]) m ?_ rfl (by omega) ⟨nx, lit, q, d, h.go (c := ⟨.misc1, nx, lit, q⟩) (by simp [trans, hs])⟩
      intro y hy
      simp only [List.mem_singleton] at hy
      subst hy
      exact blank_of hs
    | false =>
      by_cases hc : ch = 0x3c
      · subst hc
        have h1 := h.go (c := ⟨.le1, nx, lit, q⟩) rfl
        obtain ⟨c1, m, rfl, _⟩ := h1.head (by simp)
        simp only [List.length_cons] at hl
        by_cases hb : c1 = 0x21
        · subst hb
          have h2 := h1.go (c := ⟨.lee1, nx, lit, q⟩) rfl
          obtain ⟨x, m1, e1, hl', h3, h4⟩ := Fin.lee1 ⟨_, _, _, _, h2⟩
          exact cons x m1 h3 e1 (by omega) h4
        · by_cases hqm : c1 = 0x3f
          · subst hqm
            have h2 := h1.go (c := ⟨.pi0, .misc1, lit, q⟩) rfl
            obtain ⟨p, m1, d', e1, h4, h5⟩ := h2.pi0
            have hl' : m1.length ≤ n := by
              have := congrArg List.length e1
              simp [PI.bytes_eq] at this
              omega
            exact cons (.pi p) m1 h4 e1 hl' ⟨_, _, _, _, h5⟩
          · cases hns : isNameStart c1 with
            | false => exact (h1.stuck (by simp [trans, hb, hqm, hns])).elim
            | true =>
              have h3 := h1.step (c := ⟨.elem0, nx, lit, q⟩) (a := .elemstart) (by simp [trans, hb, hqm, hns]) rfl rfl rfl
              exact ⟨[], c1, m, rfl, by simp, nameStart_of hns, ⟨_, _, _, _, h3⟩⟩
      · exact (h.stuck (by simp [trans, hs, hc])).elim

/-! ## The XML declaration -/

theorem Fin.eqPart {st0 st1 : St} {c2 : Ctl} (h : Fin t (S st0 nx lit q d [] .none 0) b rest)
    (n0 : st0 ≠ .misc3) (n1 : st1 ≠ .misc3)
    (h0 : ∀ ch, isSP ch = true → trans ⟨st0, nx, lit, q⟩ ch = some (⟨st0, nx, lit, q⟩, .ok))
    (h0' : trans ⟨st0, nx, lit, q⟩ 0x3d = some (⟨st1, nx, lit, q⟩, .ok))
    (h0'' : ∀ ch, isSP ch = false → ch ≠ 0x3d → trans ⟨st0, nx, lit, q⟩ ch = none)
    (h1 : ∀ ch, isSP ch = true → trans ⟨st1, nx, lit, q⟩ ch = some (⟨st1, nx, lit, q⟩, .ok))
    (h1' : ∀ r, (r = 0x27 ∨ r = 0x22) → isSP r = false → trans ⟨st1, nx, lit, q⟩ r = some ({ c2 with quote := r }, .ok))
    (h1'' : ∀ r, ¬ (r = 0x27 ∨ r = 0x22) → isSP r = false → trans ⟨st1, nx, lit, q⟩ r = none) :
    ∃ w1 w2 r m, rest = w1 ++ 0x3d :: (w2 ++ r :: m) ∧ Blanks w1 ∧ Blanks w2 ∧ Quote r ∧
      Fin t (S c2.st c2.next c2.lit r d [] .none 0) b m := by
  obtain ⟨w1, ch, m, rfl, hw1, hs, h2⟩ := h.blanks n0 h0
  by_cases he : ch = 0x3d
  · subst he
    obtain ⟨w2, r, m, rfl, hw2, hs2, h3⟩ := (h2.go h0').blanks n1 h1
    by_cases hr : r = 0x27 ∨ r = 0x22
    · exact ⟨w1, w2, r, m, rfl, hw1, hw2, Or.symm hr, h3.go (h1' r hr hs2)⟩
    · exact (h3.stuck (h1'' r hr hs2)).elim
  · exact (h2.stuck (h0'' ch hs he)).elim

/-- White space after the version or the encoding; then no white space. -/
theorem Fin.declBlanks {st st' : St} (h : Fin t (S st nx lit q d [] .none 0) b rest) (n0 : st ≠ .misc3) (n1 : st' ≠ .misc3)
    (h0 : ∀ ch, isSP ch = true → trans ⟨st, nx, lit, q⟩ ch = some (⟨st', nx, lit, q⟩, .ok))
    (h1 : ∀ ch, isSP ch = true → trans ⟨st', nx, lit, q⟩ ch = some (⟨st', nx, lit, q⟩, .ok)) :
    ∃ w ch m, rest = w ++ ch :: m ∧ Blanks w ∧ isSP ch = false ∧
      (w = [] ∧ Fin t (S st nx lit q d [] .none 0) b (ch :: m) ∨ w ≠ [] ∧ Fin t (S st' nx lit q d [] .none 0) b (ch :: m)) := by
  obtain ⟨ch, m, rfl, _⟩ := h.head n0
  cases hs : isSP ch with
  | false => exact ⟨[], ch, m, rfl, by simp [Blanks], hs, Or.inl ⟨rfl, h⟩⟩
  | true =>
    obtain ⟨w, c1, m1, rfl, hw, hs1, h2⟩ := (h.go (h0 ch hs)).blanks n1 h1
    refine ⟨ch :: w, c1, m1, rfl, ?_, hs1, Or.inr ⟨by simp, h2⟩⟩
    intro y hy
    rcases List.mem_cons.mp hy with rfl | hy
    · exact blank_of hs
    · exact hw y hy

theorem Fin.ver (h : Fin t (S .xmldecl3 nx lit q d [] .none 0) b rest) :
    ∃ w w1 w2 r n m, rest = w ++ (ascii "version" ++ (w1 ++ 0x3d :: (w2 ++ r :: (ascii "1." ++ (n ++ r :: m))))) ∧ Blanks w ∧
      Blanks w1 ∧ Blanks w2 ∧ Quote r ∧ n ≠ [] ∧ (∀ c ∈ n, 0x30 ≤ c ∧ c ≤ 0x39) ∧ At t .xmldecl4 [] b m := by
  obtain ⟨w, ch, m, rfl, hw, hs, h1⟩ := h.blanks (by simp) (fun ch hc => by simp [trans, hc])
  by_cases hv : ch = 0x76
  · subst hv
    have h2 := h1.go (c := ⟨.string, .ver0, [0x65, 0x72, 0x73, 0x69, 0x6f, 0x6e], q⟩) rfl
    obtain ⟨m1, rfl, h3⟩ := h2.literal (by simp)
    obtain ⟨w1, w2, r, m2, rfl, hw1, hw2, hr, h4⟩ := h3.eqPart (st1 := .ver1) (c2 := ⟨.string, .ver2, [0x31, 0x2e], 0⟩)
      (by simp) (by simp) (fun ch hch => by simp [trans, hch]) rfl (fun ch hs hn => by simp [trans, hs, hn])
      (fun ch hch => by simp [trans, hch]) (fun r hr hs => by simp [trans, hr, hs]) (fun r hr hs => by simp [trans, hr, hs])
    obtain ⟨m3, rfl, h5⟩ := h4.literal (by simp)
    obtain ⟨c, m4, rfl, _⟩ := h5.head (by simp)
    cases hn : isNum c with
    | false => exact (h5.stuck (by simp [trans, hn])).elim
    | true =>
      have h6 := h5.go (c := ⟨.ver3, .ver2, [], r⟩) (by simp [trans, hn])
      obtain ⟨n, c1, m5, rfl, h7, h8, h9, h10⟩ := h6.span (s' := fun _ => S .ver3 .ver2 [] r d [] .none 0) isNum
        (fun w hw hp => loop_same fun c hc => ⟨hp c hc, by simp [trans, hw c hc]⟩) (fun _ => by simp)
      by_cases hq : c1 = r
      · subst hq
        refine ⟨w, w1, w2, c1, c :: n, m5, ?_, hw, hw1, hw2, hr, by simp, ?_, _, _, _, _, h10.go (c := ⟨.xmldecl4, .ver2, [], c1⟩) ?_⟩
        · simp [ascii]
        · intro y hy
          rcases List.mem_cons.mp hy with rfl | hy
          · exact digit_of hn
          · exact digit_of (h7 y hy)
        · simp [trans, h9]
      · exact (h10.stuck (by simp [trans, h9, Ne.symm hq])).elim
  · exact (h1.stuck (by simp [trans, hs, hv])).elim

theorem Fin.enc (h : Fin t (S .enc0 nx lit q d [] .none 0) b rest) :
    ∃ w1 w2 r n m, rest = w1 ++ 0x3d :: (w2 ++ r :: (n ++ r :: m)) ∧
      Blanks w1 ∧ Blanks w2 ∧ Quote r ∧ EncName n ∧ At t .xmldecl6 [] b m := by
  obtain ⟨w1, w2, r, m2, rfl, hw1, hw2, hr, h4⟩ := h.eqPart (st1 := .enc1) (c2 := ⟨.enc2, nx, lit, 0⟩)
    (by simp) (by simp) (fun ch hch => by simp [trans, hch]) rfl (fun ch hs hn => by simp [trans, hs, hn])
    (fun ch hch => by simp [trans, hch]) (fun r hr hs => by simp [trans, hr, hs]) (fun r hr hs => by simp [trans, hr, hs])
  obtain ⟨c, m4, rfl, _⟩ := h4.head (by simp)
  cases hn : isAlpha c with
  | false => exact (h4.stuck (by simp [trans, hn])).elim
  | true =>
    have h6 := h4.go (c := ⟨.enc3, nx, lit, r⟩) (by simp [trans, hn])
    obtain ⟨n, c1, m5, rfl, h7, h8, h9, h10⟩ := h6.span (s' := fun _ => S .enc3 nx lit r d [] .none 0) isEncName
      (fun w hw hp => loop_same fun c hc => ⟨hp c hc, by simp [trans, hw c hc]⟩) (fun _ => by simp)
    by_cases hq : c1 = r
    · subst hq
      refine ⟨w1, w2, c1, c :: n, m5, by simp, hw1, hw2, hr, ⟨c, n, rfl, alpha_of hn, fun y hy => encName_of (h7 y hy)⟩,
        _, _, _, _, h10.go (c := ⟨.xmldecl6, nx, lit, c1⟩) ?_⟩
      simp [trans, h9]
    · exact (h10.stuck (by simp [trans, h9, Ne.symm hq])).elim

theorem Fin.std (h : Fin t (S .std0 nx lit q d [] .none 0) b rest) :
    ∃ (w1 w2 : Bytes) (r : UInt8) (y : Bool) (m : Bytes), rest = w1 ++ 0x3d :: (w2 ++ r :: ((if y then ascii "yes" else ascii "no") ++ r :: m)) ∧
      Blanks w1 ∧ Blanks w2 ∧ Quote r ∧ At t .xmldecl8 [] b m := by
  obtain ⟨w1, w2, r, m2, rfl, hw1, hw2, hr, h4⟩ := h.eqPart (st1 := .std1) (c2 := ⟨.std2, nx, lit, 0⟩)
    (by simp) (by simp) (fun ch hch => by simp [trans, hch]) rfl (fun ch hs hn => by simp [trans, hs, hn])
    (fun ch hch => by simp [trans, hch]) (fun r hr hs => by simp [trans, hr, hs]) (fun r hr hs => by simp [trans, hr, hs])
  have fin : ∀ m, Fin t (S .std3 .std3 [] r d [] .none 0) b m → ∃ m1, m = r :: m1 ∧ At t .xmldecl8 [] b m1 := by
    intro m h5
    obtain ⟨c, m1, rfl, _⟩ := h5.head (by simp)
    by_cases hq : c = r
    · subst hq
      exact ⟨m1, rfl, _, _, _, _, h5.go (c := ⟨.xmldecl8, .std3, [], c⟩) (by simp [trans])⟩
    · exact (h5.stuck (by simp [trans, Ne.symm hq])).elim
  obtain ⟨c, m4, rfl, _⟩ := h4.head (by simp)
  by_cases hy : c = 0x79
  · subst hy
    obtain ⟨m5, rfl, h5⟩ := (h4.go (c := ⟨.string, .std3, [0x65, 0x73], r⟩) rfl).literal (by simp)
    obtain ⟨m6, rfl, h6⟩ := fin _ h5
    exact ⟨w1, w2, r, true, m6, by simp [ascii], hw1, hw2, hr, h6⟩
  · by_cases hn : c = 0x6e
    · subst hn
      obtain ⟨m5, rfl, h5⟩ := (h4.go (c := ⟨.string, .std3, [0x6f], r⟩) rfl).literal (by simp)
      obtain ⟨m6, rfl, h6⟩ := fin _ h5
      exact ⟨w1, w2, r, false, m6, by simp [ascii], hw1, hw2, hr, h6⟩
    · exact (h4.stuck (by simp [trans, hy, hn])).elim

theorem Fin.decl9 (h : Fin t (S .xmldecl9 nx lit q d [] .none 0) b rest) : ∃ m, rest = 0x3e :: m ∧ At t .misc1 [] b m := by
  obtain ⟨c, m, rfl, _⟩ := h.head (by simp)
  by_cases hc : c = 0x3e
  · subst hc
    exact ⟨m, rfl, _, _, _, _, h.go (c := ⟨.misc1, nx, lit, q⟩) rfl⟩
  · exact (h.stuck (by simp [trans, hc])).elim

theorem Fin.decl8 (h : At t .xmldecl8 [] b rest) : ∃ w m, rest = w ++ 0x3f :: 0x3e :: m ∧ Blanks w ∧ At t .misc1 [] b m := by
  obtain ⟨nx, lit, q, d, h⟩ := h
  obtain ⟨w, ch, m, rfl, hw, hs, h1⟩ := h.blanks (by simp) (fun ch hc => by simp [trans, hc])
  by_cases hq : ch = 0x3f
  · subst hq
    obtain ⟨m1, rfl, h2⟩ := (h1.go (c := ⟨.xmldecl9, nx, lit, q⟩) rfl).decl9
    exact ⟨w, m1, rfl, hw, h2⟩
  · exact (h1.stuck (by simp [trans, hs, hq])).elim

/-- The rest of the declaration: standalone or not, the end. -/
def StdEnd (std : Option (Eq × Bool)) (w : Bytes) : Bytes :=
  (match std with
    | some (e, y) => e.bytes (ascii "standalone") (if y then ascii "yes" else ascii "no")
    | none => []) ++ w ++ ascii "?>"

theorem Fin.stdEnd {w : Bytes} (hw : Blanks1 w)
    (h : Fin t (S .string .std0 [0x74, 0x61, 0x6e, 0x64, 0x61, 0x6c, 0x6f, 0x6e, 0x65] q d [] .none 0) b rest) :
    ∃ std v m, w ++ 0x73 :: rest = StdEnd std v ++ m ∧ (∀ e y, std = some (e, y) → e.OK) ∧ Blanks v ∧ At t .misc1 [] b m := by
  obtain ⟨m1, rfl, h1⟩ := h.literal (by simp)
  obtain ⟨w1, w2, r, y, m2, rfl, h2, h3, h4, h5⟩ := h1.std
  obtain ⟨v, m3, rfl, h6, h7⟩ := Fin.decl8 h5
  refine ⟨some (⟨w, w1, w2, r⟩, y), v, m3, ?_, ?_, h6, h7⟩
  · simp [StdEnd, Eq.bytes, ascii]
  · rintro e y he
    cases he
    exact ⟨hw, h2, h3, h4⟩

theorem Fin.decl6 (h : At t .xmldecl6 [] b rest) :
    ∃ std v m, rest = StdEnd std v ++ m ∧ (∀ e y, std = some (e, y) → e.OK) ∧ Blanks v ∧ At t .misc1 [] b m := by
  obtain ⟨nx, lit, q, d, h⟩ := h
  obtain ⟨w, ch, m, rfl, hw, hs, h1⟩ := h.declBlanks (st' := .xmldecl7) (by simp) (by simp)
    (fun ch hc => by simp [trans, hc]) (fun ch hc => by simp [trans, hc])
  by_cases hq : ch = 0x3f
  · subst hq
    have h2 : Fin t (S .xmldecl9 nx lit q d [] .none 0) b m := by
      rcases h1 with ⟨_, h1⟩ | ⟨_, h1⟩ <;> exact h1.go (c := ⟨.xmldecl9, nx, lit, q⟩) rfl
    obtain ⟨m1, rfl, h3⟩ := h2.decl9
    exact ⟨none, w, m1, by simp [StdEnd, ascii], by simp, hw, h3⟩
  · rcases h1 with ⟨_, h1⟩ | ⟨hn, h1⟩
    · exact (h1.stuck (by simp [trans, hs, hq])).elim
    · by_cases hS : ch = 0x73
      · subst hS
        exact (h1.go (c := ⟨.string, .std0, [0x74, 0x61, 0x6e, 0x64, 0x61, 0x6c, 0x6f, 0x6e, 0x65], q⟩) rfl).stdEnd ⟨hn, hw⟩
      · exact (h1.stuck (by simp [trans, hs, hq, hS])).elim

/-- The rest of the declaration: the encoding, standalone or not, the end. -/
def EncEnd (enc : Option (Eq × Bytes)) (std : Option (Eq × Bool)) (w : Bytes) : Bytes :=
  (match enc with
    | some (e, n) => e.bytes (ascii "encoding") n
    | none => []) ++ StdEnd std w

theorem Fin.decl4 (h : At t .xmldecl4 [] b rest) :
    ∃ enc std v m, rest = EncEnd enc std v ++ m ∧ (∀ e n, enc = some (e, n) → e.OK ∧ EncName n) ∧
      (∀ e y, std = some (e, y) → e.OK) ∧ Blanks v ∧ At t .misc1 [] b m := by
  obtain ⟨nx, lit, q, d, h⟩ := h
  obtain ⟨w, ch, m, rfl, hw, hs, h1⟩ := h.declBlanks (st' := .xmldecl5) (by simp) (by simp)
    (fun ch hc => by simp [trans, hc]) (fun ch hc => by simp [trans, hc])
  by_cases hq : ch = 0x3f
  · subst hq
    have h2 : Fin t (S .xmldecl9 nx lit q d [] .none 0) b m := by
      rcases h1 with ⟨_, h1⟩ | ⟨_, h1⟩ <;> exact h1.go (c := ⟨.xmldecl9, nx, lit, q⟩) rfl
    obtain ⟨m1, rfl, h3⟩ := h2.decl9
    exact ⟨none, none, w, m1, by simp [EncEnd, StdEnd, ascii], by simp, by simp, hw, h3⟩
  · rcases h1 with ⟨_, h1⟩ | ⟨hn, h1⟩
    · exact (h1.stuck (by simp [trans, hs, hq])).elim
    · by_cases hS : ch = 0x73
      · subst hS
        obtain ⟨std, v, m1, h2, h3, h4, h5⟩ :=
          (h1.go (c := ⟨.string, .std0, [0x74, 0x61, 0x6e, 0x64, 0x61, 0x6c, 0x6f, 0x6e, 0x65], q⟩) rfl).stdEnd ⟨hn, hw⟩
        exact ⟨none, std, v, m1, by simpa [EncEnd] using h2, by simp, h3, h4, h5⟩
      · by_cases hE : ch = 0x65
        · subst hE
          obtain ⟨m1, rfl, h2⟩ :=
            (h1.go (c := ⟨.string, .enc0, [0x6e, 0x63, 0x6f, 0x64, 0x69, 0x6e, 0x67], q⟩) rfl).literal (by simp)
          obtain ⟨w1, w2, r, n, m2, rfl, h3, h4, h5, h6, h7⟩ := h2.enc
          obtain ⟨std, v, m3, rfl, h8, h9, h10⟩ := Fin.decl6 h7
          refine ⟨some (⟨w, w1, w2, r⟩, n), std, v, m3, ?_, ?_, h8, h9, h10⟩
          · simp [EncEnd, Eq.bytes, ascii]
          · rintro e n he
            cases he
            exact ⟨⟨⟨hn, hw⟩, h3, h4, h5⟩, h6⟩
        · exact (h1.stuck (by simp [trans, hs, hq, hS, hE])).elim

/-- After `<?` at the very beginning. -/
theorem Fin.leq0 (h : At t .leq0 [] b rest) :
    (∃ (p : PI) (m : Bytes), 0x3c :: 0x3f :: rest = p.bytes ++ m ∧ p.Taken ∧ At t .misc1 [] b m) ∨
    ∃ (x : Decl) (m : Bytes), 0x3c :: 0x3f :: rest = x.bytes ++ m ∧ x.OK ∧ At t .misc1 [] b m := by
  obtain ⟨nx, lit, q, d, h⟩ := h
  -- a target that begins with `pre`
  have pi : ∀ (pre r1 : Bytes) (d : Bytes), Name pre → rest = pre ++ r1 → Fin t (S .pi1 .misc1 lit q d [] (.pi pre) 0) b r1 →
      (∃ (p : PI) (m : Bytes), 0x3c :: 0x3f :: rest = p.bytes ++ m ∧ p.Taken ∧ At t .misc1 [] b m) := by
    intro pre r1 d hn e h1
    obtain ⟨l, sep, text, m', d', rfl, h2, h3, h4, h5, h6⟩ := h1.pi1
    obtain ⟨c, l', rfl, h7, h8⟩ := hn
    refine ⟨⟨c :: l' ++ l, sep, text⟩, m', ?_, ⟨⟨c, l' ++ l, rfl, h7, ?_⟩, h3, h4, h5⟩, _, _, _, _, h6⟩
    · rw [e]; simp [PI.bytes_eq]
    · intro y hy
      rcases List.mem_append.mp hy with hy | hy
      · exact h8 y hy
      · exact h2 y hy
  -- the target ends here
  have tail : ∀ (st : St) (pre m : Bytes) (ch : UInt8) (d : Bytes), Name pre → rest = pre ++ ch :: m →
      Fin t (S st .misc1 lit q d [] (.pi pre) 0) b (ch :: m) →
      (ch = 0x3f → trans ⟨st, .misc1, lit, q⟩ ch = some (⟨.pi4, .misc1, lit, q⟩, .pinameend)) →
      (isSP ch = true → trans ⟨st, .misc1, lit, q⟩ ch = some (⟨.pi2, .misc1, lit, q⟩, .pinameend)) →
      ch = 0x3f ∨ isSP ch = true →
      (∃ (p : PI) (m : Bytes), 0x3c :: 0x3f :: rest = p.bytes ++ m ∧ p.Taken ∧ At t .misc1 [] b m) := by
    intro st pre m ch d hn e h1 hq hs hc
    obtain ⟨sep, text, m', d', h2, h3, h4, h5, h6⟩ := h1.piTail hq hs hc
    refine ⟨⟨pre, sep, text⟩, m', ?_, ⟨hn, h3, h4, h5⟩, _, _, _, _, h6⟩
    rw [e, h2]; simp [PI.bytes_eq]
  have nx0 : NameStart 0x78 := nameStart_of (by decide)
  have nm : NameChar 0x6d := nameChar_of (by decide)
  have nl : NameChar 0x6c := nameChar_of (by decide)
  obtain ⟨ch, r1, rfl, _⟩ := h.head (by simp)
  by_cases hx : ch = 0x78
  · subst hx
    have h1 := h.step (c := ⟨.xmldecl0, .misc1, lit, q⟩) (a := .pistart) rfl rfl rfl rfl
    obtain ⟨c1, r2, rfl, _⟩ := h1.head (by simp)
    by_cases hm : c1 = 0x6d
    · subst hm
      have h2 := h1.step (c := ⟨.xmldecl1, .misc1, lit, q⟩) (a := .piname) rfl rfl rfl rfl
      obtain ⟨c2, r3, rfl, _⟩ := h2.head (by simp)
      by_cases hl : c2 = 0x6c
      · subst hl
        have h3 := h2.step (c := ⟨.xmldecl2, .misc1, lit, q⟩) (a := .piname) rfl rfl rfl rfl
        obtain ⟨c3, r4, rfl, _⟩ := h3.head (by simp)
        cases hs : isSP c3 with
        | true =>
          have h4 := h3.step (c := ⟨.xmldecl3, .misc1, lit, q⟩) (a := .piabort) (by simp [trans, hs]) rfl rfl rfl
          obtain ⟨w, w1, w2, r, n, m, rfl, h5, h6, h7, h8, h9, h10, h11⟩ := h4.ver
          obtain ⟨enc, std, v, m1, rfl, h12, h13, h14, h15⟩ := Fin.decl4 h11
          refine Or.inr ⟨⟨⟨c3 :: w, w1, w2, r⟩, n, enc, std, v⟩, m1, ?_, ⟨⟨⟨by simp, ?_⟩, h6, h7, h8⟩, ⟨h9, h10⟩, h12, h13, h14⟩, h15⟩
          · cases enc <;> cases std <;> simp [Decl.bytes, Eq.bytes, ascii, EncEnd, StdEnd]
          · intro y hy
            rcases List.mem_cons.mp hy with rfl | hy
            · exact blank_of hs
            · exact h5 y hy
        | false =>
          cases hn : isName c3 with
          | true =>
            refine Or.inl (pi [0x78, 0x6d, 0x6c, c3] r4 _ ⟨0x78, [0x6d, 0x6c, c3], rfl, nx0, ?_⟩ rfl
              (h3.step (c := ⟨.pi1, .misc1, lit, q⟩) (a := .piname) (by simp [trans, hs, hn]) rfl rfl rfl))
            simp [nm, nl, nameChar_of hn]
          | false => exact (h3.stuck (by simp [trans, hs, hn])).elim
      · cases hn : isName c2 with
        | true =>
          refine Or.inl (pi [0x78, 0x6d, c2] r3 _ ⟨0x78, [0x6d, c2], rfl, nx0, ?_⟩ rfl
            (h2.step (c := ⟨.pi1, .misc1, lit, q⟩) (a := .piname) (by simp [trans, hl, hn]) rfl rfl rfl))
          simp [nm, nameChar_of hn]
        | false =>
          by_cases hc : c2 = 0x3f ∨ isSP c2 = true
          · refine Or.inl (tail .xmldecl1 [0x78, 0x6d] r3 c2 _ ⟨0x78, [0x6d], rfl, nx0, by simp [nm]⟩ rfl h2 ?_ ?_ hc)
            · rintro rfl; rfl
            · intro hs
              have : c2 ≠ 0x3f := by rintro rfl; exact absurd hs (by decide)
              simp [trans, hl, hn, hs, this]
          · simp only [not_or, Bool.not_eq_true] at hc
            exact (h2.stuck (by simp [trans, hl, hn, hc])).elim
    · cases hn : isName c1 with
      | true =>
        refine Or.inl (pi [0x78, c1] r2 _ ⟨0x78, [c1], rfl, nx0, ?_⟩ rfl
          (h1.step (c := ⟨.pi1, .misc1, lit, q⟩) (a := .piname) (by simp [trans, hm, hn]) rfl rfl rfl))
        simp [nameChar_of hn]
      | false =>
        by_cases hc : c1 = 0x3f ∨ isSP c1 = true
        · refine Or.inl (tail .xmldecl0 [0x78] r2 c1 _ ⟨0x78, [], rfl, nx0, by simp⟩ rfl h1 ?_ ?_ hc)
          · rintro rfl; rfl
          · intro hs
            have : c1 ≠ 0x3f := by rintro rfl; exact absurd hs (by decide)
            simp [trans, hm, hn, hs, this]
        · simp only [not_or, Bool.not_eq_true] at hc
          exact (h1.stuck (by simp [trans, hm, hn, hc])).elim
  · cases hn : isNameStart ch with
    | true =>
      exact Or.inl (pi [ch] r1 _ ⟨ch, [], rfl, nameStart_of hn, by simp⟩ rfl
        (h.step (c := ⟨.pi1, .misc1, lit, q⟩) (a := .pistart) (by simp [trans, hx, hn]) rfl rfl rfl))
    | false => exact (h.stuck (by simp [trans, hx, hn])).elim

/-! ## Whole texts -/

/-- After the byte order mark and the leading white space and `<`. -/
theorem Fin.le0 (h : At t .le0 [] b rest) :
    ∃ (x : Option Decl) (before : List Misc) (c : UInt8) (m : Bytes),
      0x3c :: rest = (match x with
        | some x => x.bytes
        | none => []) ++ before.flatMap Misc.bytes ++ 0x3c :: c :: m ∧
      (∀ y, x = some y → y.OK) ∧ (∀ x ∈ before, x.Taken true) ∧ NameStart c ∧ At t .elem0 [[c]] b m := by
  obtain ⟨nx, lit, q, d, h⟩ := h
  have go : ∀ m, At t .misc1 [] b m → _ := fun m hm => Fin.misc1 m.length m (Nat.le_refl _) hm
  obtain ⟨ch, m, rfl, _⟩ := h.head (by simp)
  by_cases hb : ch = 0x21
  · subst hb
    obtain ⟨x, m1, e, _, h2, h3⟩ := Fin.lee1 ⟨_, _, _, _, h.go (c := ⟨.lee1, nx, lit, q⟩) rfl⟩
    obtain ⟨before, c, m2, rfl, h4, h5, h6⟩ := go m1 h3
    refine ⟨none, x :: before, c, m2, by rw [e]; simp, by simp, ?_, h5, h6⟩
    intro y hy
    rcases List.mem_cons.mp hy with rfl | hy
    · exact h2
    · exact h4 y hy
  · by_cases hq : ch = 0x3f
    · subst hq
      rcases Fin.leq0 ⟨_, _, _, _, h.go (c := ⟨.leq0, nx, lit, q⟩) rfl⟩ with ⟨p, m1, e, h2, h3⟩ | ⟨x, m1, e, h2, h3⟩
      · obtain ⟨before, c, m2, rfl, h4, h5, h6⟩ := go m1 h3
        refine ⟨none, .pi p :: before, c, m2, by rw [e]; simp [Misc.bytes], by simp, ?_, h5, h6⟩
        intro y hy
        rcases List.mem_cons.mp hy with rfl | hy
        · exact h2
        · exact h4 y hy
      · obtain ⟨before, c, m2, rfl, h4, h5, h6⟩ := go m1 h3
        refine ⟨some x, before, c, m2, by rw [e]; simp, ?_, h4, h5, h6⟩
        intro y hy
        cases hy
        exact h2
    · cases hns : isNameStart ch with
      | false => exact (h.stuck (by simp [trans, hb, hq, hns])).elim
      | true =>
        have h3 := h.step (c := ⟨.elem0, nx, lit, q⟩) (a := .elemstart) (by simp [trans, hb, hq, hns]) rfl rfl rfl
        exact ⟨none, [], ch, m, by simp, by simp, by simp, nameStart_of hns, ⟨_, _, _, _, h3⟩⟩

/-- After the byte order mark and the leading white space. -/
theorem Fin.misc0 (h : At t .misc0 [] b rest) : ∃ w m, rest = w ++ 0x3c :: m ∧ Blanks w ∧ At t .le0 [] b m := by
  obtain ⟨nx, lit, q, d, h⟩ := h
  obtain ⟨w, ch, m, rfl, hw, hs, h1⟩ := h.blanks (by simp) (fun ch hc => by simp [trans, hc])
  by_cases hc : ch = 0x3c
  · subst hc
    exact ⟨w, m, rfl, hw, _, _, _, _, h1.go (c := ⟨.le0, nx, lit, q⟩) rfl⟩
  · exact (h1.stuck (by simp [trans, hs, hc])).elim

theorem Fin.init (h : At t .init [] b rest) :
    ∃ (bom : Bool) (w m : Bytes), rest = (if bom then [0xef, 0xbb, 0xbf] else []) ++ w ++ 0x3c :: m ∧ Blanks w ∧ At t .le0 [] b m := by
  obtain ⟨nx, lit, q, d, h⟩ := h
  obtain ⟨ch, m, rfl, _⟩ := h.head (by simp)
  by_cases hb : ch = 0xef
  · subst hb
    obtain ⟨m1, rfl, h1⟩ := (h.go (c := ⟨.string, .misc0, [0xbb, 0xbf], q⟩) rfl).literal (by simp)
    obtain ⟨w, m2, rfl, hw, h2⟩ := Fin.misc0 ⟨_, _, _, _, h1⟩
    exact ⟨true, w, m2, by simp, hw, h2⟩
  · cases hs : isSP ch with
    | true =>
      obtain ⟨w, m2, rfl, hw, h2⟩ := Fin.misc0 ⟨_, _, _, _, h.go (c := ⟨.misc0, nx, lit, q⟩) (by simp [trans, hb, hs])⟩
      refine ⟨false, ch :: w, m2, by simp, ?_, h2⟩
      intro y hy
      rcases List.mem_cons.mp hy with rfl | hy
      · exact blank_of hs
      · exact hw y hy
    | false =>
      by_cases hc : ch = 0x3c
      · subst hc
        exact ⟨false, [], m, by simp, by simp [Blanks], _, _, _, _, h.go (c := ⟨.le0, nx, lit, q⟩) rfl⟩
      · exact (h.stuck (by simp [trans, hb, hs, hc])).elim

/-- What the parser takes is a text of the loose grammar, and its answer is what that text describes. -/
theorem aparse_taken {xml : Bytes} (hcr : ∀ c ∈ xml, c ≠ 0x0d) (h : aparse xml = some t) :
    ∃ d : TakenText, d.Taken ∧ d.bytes = xml ∧ d.root.made = t := by
  have hf : At t .init [] emptyBuilder xml := by
    refine ⟨.string, [], 0, [], hcr, ?_⟩
    unfold aparse at h
    split at h
    · rename_i s b e
      split at h
      · exact ⟨s, b, e, by assumption, h⟩
      · cases h
    · cases h
  obtain ⟨bom, lead, m, rfl, h1, h2⟩ := Fin.init hf
  obtain ⟨x, before, c, m1, e, h3, h4, h5, h6⟩ := Fin.le0 h2
  obtain ⟨r, z, m2, e2, h7, h8, h9⟩ := Fin.root h5 h6
  obtain ⟨after, rfl, h10, h11⟩ := Fin.misc3 m2.length m2 (Nat.le_refl _) h9
  refine ⟨⟨bom, lead, x, before, r, z, after⟩, ⟨h1, h3, h4, h7, h8, h10⟩, ?_, by simpa using h11⟩
  rw [e, e2]
  cases x <;> simp [TakenText.bytes]

end Duck.Xml
