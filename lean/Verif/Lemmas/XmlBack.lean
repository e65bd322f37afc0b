import Verif.Lemmas.XmlFin
import Verif.Lemmas.XmlDoc

/-! # Helper lemmas for XML: what an accepted text looks like; comments, instructions, tags, CDATA sections -/

namespace Duck.Xml

variable {t : Node} {st nx : St} {lit : Bytes} {q : UInt8} {d : Bytes} {es : List Bytes} {top : Top} {k : Nat}
  {b : Builder} {rest m : Bytes} {ch : UInt8} {dn : Option Node} {f : Frame} {l : List Frame}

/-! ## References -/

theorem Fin.attrRef {v : Bytes} (h : Fin t (S .attr4 nx lit q [] es top 0) (B dn l (some v)) rest) :
    ∃ (r : Ref) (m : Bytes), rest = r.inner ++ 0x3b :: m ∧ r.Taken ∧
      Fin t (S .attr3 nx lit q (utf8Of r.value) es top 0) (B dn l (some (v ++ utf8Of r.value))) m := by
  obtain ⟨y, m, rfl, h7, h1⟩ := h.refBytes (by simp) (by simp) (fun ch hc => by simp [trans, hc])
    (fun ch hc h3 => by simp [trans, hc, h3])
  simp only [List.nil_append] at h7 h1
  cases hr : refRejected (refValue y) with
  | true => exact (h1.err (c := ⟨.attr3, nx, lit, q⟩) (a := .refattrval) rfl (s' := S .attr3 nx lit q y es top 0)
      (r := .eref) (x := []) (by simp [aperform, arefend, hr]) rfl).elim
  | false =>
    obtain ⟨r, rfl, ht, hv⟩ := value_ref h7 hr
    refine ⟨r, m, rfl, ht, ?_⟩
    have hlt : r.value < 0x110000 := by have := ht.2.2.1; omega
    refine h1.step (c := ⟨.attr3, nx, lit, q⟩) (a := .refattrval) rfl (r := .attrval) (x := utf8Of r.value) ?_ rfl rfl
    rw [← hv] at hr
    simp [aperform, arefend, hr, ← hv, utf8Of_eq hlt]

theorem Fin.contentRef (h : Fin t (S .misc2a nx lit q [] es top 0) (B dn (f :: l) none) rest) :
    ∃ (r : Ref) (m : Bytes), rest = r.inner ++ 0x3b :: m ∧ r.Taken ∧
      Fin t (S .misc2 nx lit q (utf8Of r.value) es top 0)
        (B dn ({ f with kids := appendText f.kids (utf8Of r.value) } :: l) none) m := by
  obtain ⟨y, m, rfl, h7, h1⟩ := h.refBytes (by simp) (by simp) (fun ch hc => by simp [trans, hc])
    (fun ch hc h3 => by simp [trans, hc, h3])
  simp only [List.nil_append] at h7 h1
  cases hr : refRejected (refValue y) with
  | true => exact (h1.err (c := ⟨.misc2, nx, lit, q⟩) (a := .refcontent) rfl (s' := S .misc2 nx lit q y es top 0)
      (r := .eref) (x := []) (by simp [aperform, arefend, hr]) rfl).elim
  | false =>
    obtain ⟨r, rfl, ht, hv⟩ := value_ref h7 hr
    refine ⟨r, m, rfl, ht, ?_⟩
    have hlt : r.value < 0x110000 := by have := ht.2.2.1; omega
    refine h1.step (c := ⟨.misc2, nx, lit, q⟩) (a := .refcontent) rfl (r := .content) (x := utf8Of r.value) ?_ rfl rfl
    rw [← hv] at hr
    simp [aperform, arefend, hr, ← hv, utf8Of_eq hlt]

/-! ## Comments -/

theorem pair_cons {a c x : UInt8} {l : Bytes} : [a, c] <:+: x :: l ↔ (a = x ∧ ∃ r, l = c :: r) ∨ [a, c] <:+: l := by
  rw [List.infix_cons_iff]
  constructor
  · rintro (h | h)
    · obtain ⟨r, hr⟩ := h
      simp only [List.cons_append, List.nil_append, List.cons.injEq] at hr
      exact Or.inl ⟨hr.1, r, hr.2.symm⟩
    · exact Or.inr h
  · rintro (⟨rfl, r, rfl⟩ | h)
    · exact Or.inl ⟨r, rfl⟩
    · exact Or.inr h

theorem Fin.comment (n : Nat) : ∀ rest : Bytes, rest.length ≤ n →
    (Fin t (S .comment2 nx lit q d es top k) b rest → ∃ s m, rest = s ++ 0x2d :: 0x2d :: 0x3e :: m ∧
      (∀ c ∈ s, Plain c) ∧ ¬ ([0x2d, 0x2d] <:+: s ++ [0x2d]) ∧ Fin t (S nx nx lit q d es top k) b m) ∧
    (Fin t (S .comment3 nx lit q d es top k) b rest → ∃ s m, 0x2d :: rest = s ++ 0x2d :: 0x2d :: 0x3e :: m ∧
      (∀ c ∈ s, Plain c) ∧ ¬ ([0x2d, 0x2d] <:+: s ++ [0x2d]) ∧ Fin t (S nx nx lit q d es top k) b m) := by
  induction n with
  | zero =>
    intro rest hl
    have : rest = [] := List.length_eq_zero_iff.mp (by omega)
    subst this
    refine ⟨fun h => ?_, fun h => ?_⟩ <;> (obtain ⟨ch, m, h1, _⟩ := h.head (by simp); simp at h1)
  | succ n ih =>
    intro rest hl
    refine ⟨fun h => ?_, fun h => ?_⟩
    · obtain ⟨ch, m, rfl, hp⟩ := h.head (by simp)
      simp only [List.length_cons] at hl
      by_cases hc : ch = 0x2d
      · subst hc
        exact (ih m (by omega)).2 (h.go rfl)
      · obtain ⟨s, m', rfl, h1, h2, h3⟩ := (ih m (by omega)).1 (h.go (c := ⟨.comment2, nx, lit, q⟩) (by simp [trans, hc]))
        refine ⟨ch :: s, m', rfl, ?_, ?_, h3⟩
        · intro x hx
          rcases List.mem_cons.mp hx with rfl | hx
          · exact hp
          · exact h1 x hx
        · rw [List.cons_append, pair_cons]
          rintro (⟨h4, _⟩ | h4)
          · exact hc h4.symm
          · exact h2 h4
    · obtain ⟨ch, m, rfl, hp⟩ := h.head (by simp)
      simp only [List.length_cons] at hl
      by_cases hc : ch = 0x2d
      · subst hc
        have h1 := h.go (c := ⟨.comment4, nx, lit, q⟩) rfl
        obtain ⟨ch, m, rfl, hp⟩ := h1.head (by simp)
        by_cases hc : ch = 0x3e
        · subst hc
          refine ⟨[], m, rfl, by simp, ?_, h1.go rfl⟩
          rintro ⟨x, y, hx⟩
          have := congrArg List.length hx
          simp at this
          omega
        · exact (h1.stuck (by simp [trans, hc])).elim
      · obtain ⟨s, m', rfl, h1, h2, h3⟩ := (ih m (by omega)).1 (h.go (c := ⟨.comment2, nx, lit, q⟩) (by simp [trans, hc]))
        refine ⟨0x2d :: ch :: s, m', rfl, ?_, ?_, h3⟩
        · intro x hx
          rcases List.mem_cons.mp hx with rfl | hx
          · exact plain_lit
          · rcases List.mem_cons.mp hx with rfl | hx
            · exact hp
            · exact h1 x hx
        · rw [List.cons_append, pair_cons, List.cons_append, pair_cons]
          rintro (⟨_, r, h4⟩ | ⟨h4, _⟩ | h4)
          · simp only [List.cons.injEq] at h4
            exact hc h4.1
          · exact hc h4.symm
          · exact h2 h4

/-- After `<!-`. -/
theorem Fin.comment1 (h : Fin t (S .comment1 nx lit q d es top k) b rest) :
    ∃ s m, rest = 0x2d :: (s ++ 0x2d :: 0x2d :: 0x3e :: m) ∧ CommentOK s ∧ Fin t (S nx nx lit q d es top k) b m := by
  obtain ⟨ch, m, rfl, hp⟩ := h.head (by simp)
  by_cases hc : ch = 0x2d
  · subst hc
    have h1 := h.go (c := ⟨.comment2, nx, lit, q⟩) rfl
    obtain ⟨s, m', rfl, h2, h3, h4⟩ := (Fin.comment m.length m (Nat.le_refl _)).1 h1
    exact ⟨s, m', rfl, ⟨h2, by simpa [ascii] using h3⟩, h4⟩
  · exact (h.stuck (by simp [trans, hc])).elim

/-! ## Processing instructions -/

theorem Fin.piText {x : Bytes} (n : Nat) : ∀ (rest : Bytes) (d : Bytes), rest.length ≤ n →
    Fin t (S .pi2 nx lit q d es (.pi x) k) b rest →
    ∃ s m d', rest = s ++ 0x3f :: 0x3e :: m ∧ PiText s ∧ Fin t (S nx nx lit q d' es .none k) b m := by
  induction n with
  | zero =>
    intro rest d hl h
    obtain ⟨ch, m, rfl, _⟩ := h.head (by simp)
    simp at hl
  | succ n ih =>
    intro rest d hl h
    obtain ⟨ch, m, rfl, hp⟩ := h.head (by simp)
    simp only [List.length_cons] at hl
    by_cases hc : ch = 0x3f
    · subst hc
      have h1 := h.go (c := ⟨.pi3, nx, lit, q⟩) rfl
      obtain ⟨ch, m, rfl, hp⟩ := h1.head (by simp)
      simp only [List.length_cons] at hl
      by_cases hc : ch = 0x3e
      · subst hc
        exact ⟨[], m, d, rfl, .nil, h1.step (c := ⟨nx, nx, lit, q⟩) (a := .pivalend) rfl rfl rfl rfl⟩
      · have h2 := h1.step (c := ⟨.pi2, nx, lit, q⟩) (a := .datapi2) (by simp [trans, hc]) rfl rfl rfl
        obtain ⟨s, m', d', rfl, h3, h4⟩ := ih m _ (by omega) h2
        exact ⟨0x3f :: ch :: s, m', d', rfl, .mark ch s hp hc h3, h4⟩
    · have h2 := h.step (c := ⟨.pi2, nx, lit, q⟩) (a := .datapi1) (by simp [trans, hc]) rfl rfl rfl
      obtain ⟨s, m', d', rfl, h3, h4⟩ := ih m _ (by omega) h2
      exact ⟨ch :: s, m', d', rfl, .char ch s hp hc h3, h4⟩

theorem or32_lower {c : UInt8} : (lower c = 0x78 → (c ||| 32) = 0x78) ∧ (lower c = 0x6d → (c ||| 32) = 0x6d) ∧
    (lower c = 0x6c → (c ||| 32) = 0x6c) :=
  all_bytes (P := fun c => (lower c = 0x78 → (c ||| 32) = 0x78) ∧ (lower c = 0x6d → (c ||| 32) = 0x6d) ∧
    (lower c = 0x6c → (c ||| 32) = 0x6c)) (by decide +kernel) c

theorem xml_name {x : Bytes} (h : isXmlName x = false) : x.map lower ≠ ascii "xml" := by
  intro h1
  rw [show ascii "xml" = [0x78, 0x6d, 0x6c] by decide +kernel] at h1
  match x, h1 with
  | [], h1 => simp at h1
  | [_], h1 => simp at h1
  | [_, _], h1 => simp at h1
  | _ :: _ :: _ :: _ :: _, h1 => simp at h1
  | [a, b, c], h1 =>
    simp only [List.map_cons, List.map_nil, List.cons.injEq, and_true] at h1
    obtain ⟨h2, h3, h4⟩ := h1
    simp [isXmlName, or32_lower.1 h2, or32_lower.2.1 h3, or32_lower.2.2 h4] at h

/-- The byte after the target. -/
theorem Fin.piTail {x : Bytes} (h : Fin t (S st nx lit q d es (.pi x) k) b (ch :: m))
    (hq : ch = 0x3f → trans ⟨st, nx, lit, q⟩ ch = some (⟨.pi4, nx, lit, q⟩, .pinameend))
    (hs : isSP ch = true → trans ⟨st, nx, lit, q⟩ ch = some (⟨.pi2, nx, lit, q⟩, .pinameend))
    (hc : ch = 0x3f ∨ isSP ch = true) :
    ∃ sep text m' d', ch :: m = sep ++ text ++ 0x3f :: 0x3e :: m' ∧ x.map lower ≠ ascii "xml" ∧
      (sep = [] ∧ text = [] ∨ Blanks1 sep) ∧ PiText text ∧ Fin t (S nx nx lit q d' es .none k) b m' := by
  have hx : ∀ c, trans ⟨st, nx, lit, q⟩ ch = some (c, .pinameend) → isXmlName x = false := by
    intro c h1
    cases hx : isXmlName x with
    | false => rfl
    | true => exact (h.err h1 (s' := ⟨c, 0, d, es, .pi x, k⟩) (r := .esyn) (x := []) (by simp [aperform, hx]) rfl).elim
  rcases hc with rfl | hc
  · have h1 := hx _ (hq rfl)
    have h2 := h.step (hq rfl) (s' := S .pi4 nx lit q d es (.pi x) k) (r := .pistart) (x := []) (b' := b)
      (by simp [aperform, h1]) rfl rfl
    obtain ⟨ch, m, rfl, hp⟩ := h2.head (by simp)
    by_cases hc : ch = 0x3e
    · subst hc
      exact ⟨[], [], m, d, rfl, xml_name h1, Or.inl ⟨rfl, rfl⟩, .nil,
        h2.step (c := ⟨nx, nx, lit, q⟩) (a := .pivalend) rfl rfl rfl rfl⟩
    · exact (h2.stuck (by simp [trans, hc])).elim
  · have h1 := hx _ (hs hc)
    have h2 := h.step (hs hc) (s' := S .pi2 nx lit q d es (.pi x) k) (r := .pistart) (x := []) (b' := b)
      (by simp [aperform, h1]) rfl rfl
    obtain ⟨s, m', d', rfl, h3, h4⟩ := Fin.piText m.length m d (Nat.le_refl _) h2
    refine ⟨[ch], s, m', d', by simp, xml_name h1, Or.inr ⟨by simp, ?_⟩, h3, h4⟩
    intro y hy
    simp only [List.mem_singleton] at hy
    subst hy
    exact blank_of hc

theorem Fin.pi1 {x : Bytes} (h : Fin t (S .pi1 nx lit q d es (.pi x) 0) b rest) :
    ∃ l sep text m d', rest = l ++ (sep ++ text ++ 0x3f :: 0x3e :: m) ∧ (∀ c ∈ l, NameChar c) ∧
      (x ++ l).map lower ≠ ascii "xml" ∧ (sep = [] ∧ text = [] ∨ Blanks1 sep) ∧ PiText text ∧
      Fin t (S nx nx lit q d' es .none 0) b m := by
  obtain ⟨w, ch, m, rfl, h1, _, h2, h3⟩ := h.span (s' := fun w => S .pi1 nx lit q d es (.pi (x ++ w)) 0) isName
    (fun w hw _ => pi_name fun c hc => nameChar_of (hw c hc)) (fun _ => by simp)
  by_cases hc : ch = 0x3f ∨ isSP ch = true
  · obtain ⟨sep, text, m', d', h4, h5, h6, h7, h8⟩ := h3.piTail (fun e => by subst e; rfl)
      (fun hs => by
        have : ch ≠ 0x3f := by rintro rfl; simp [isSP] at hs
        simp [trans, h2, hs, this]) hc
    exact ⟨w, sep, text, m', d', by rw [h4], fun c hc => nameChar_of (h1 c hc), h5, h6, h7, h8⟩
  · rw [not_or] at hc
    exact (h3.stuck (by simp [trans, h2, hc.1, hc.2])).elim

/-- After `<?`. -/
theorem Fin.pi0 (h : Fin t (S .pi0 nx lit q d es .none 0) b rest) :
    ∃ (p : PI) (m d' : Bytes), 0x3c :: 0x3f :: rest = p.bytes ++ m ∧ p.Taken ∧ Fin t (S nx nx lit q d' es .none 0) b m := by
  obtain ⟨ch, m, rfl, hp⟩ := h.head (by simp)
  cases hc : isNameStart ch with
  | false => exact (h.stuck (by simp [trans, hc])).elim
  | true =>
    have h1 := h.step (c := ⟨.pi1, nx, lit, q⟩) (a := .pistart) (by simp [trans, hc]) rfl rfl rfl
    obtain ⟨l, sep, text, m', d', rfl, h2, h3, h4, h5, h6⟩ := h1.pi1
    refine ⟨⟨ch :: l, sep, text⟩, m', d', ?_, ⟨⟨ch, l, rfl, nameStart_of hc, h2⟩, h3, h4, h5⟩, h6⟩
    simp [PI.bytes_eq]

/-! ## CDATA sections -/

/-- A character added as it is. -/
def rawText (k : List Node) (c : UInt8) : List Node :=
  match k.getLast? with
  | some (.text t) => k.dropLast ++ [.text (t ++ [c])]
  | _ => k ++ [.text [c]]

def addT1 (k : List Node) (x : UInt8 × Bool) : List Node := if x.2 then rawText k x.1 else appendText k [x.1]
def addT (k : List Node) (l : List (UInt8 × Bool)) : List Node := l.foldl addT1 k

theorem addT1_hard (k : List Node) (c : UInt8) (h : Num.isSpace c = false) (z : Bool) :
    addT1 k (c, z) = appendText k [c] := by
  cases z with
  | false => rfl
  | true =>
    simp only [addT1, rawText, appendText, if_true, List.headD_cons, h, Bool.not_false]
    match k.getLast? with
    | some (.text t) => rfl
    | some (.elem ..) => rfl
    | none => rfl

theorem chunk_any (k : List Node) (x : UInt8) (xs : Bytes) (c : UInt8) (hx : Num.isSpace x = false) :
    appendText k (x :: xs ++ [c]) = rawText (appendText k (x :: xs)) c := by
  have key : ∀ y, appendText k (x :: y) =
      match k.getLast? with
      | some (.text t) => k.dropLast ++ [.text (t ++ x :: y)]
      | _ => k ++ [.text (x :: y)] := by
    intro y
    unfold appendText
    simp only [List.headD_cons, hx]
    rfl
  rw [List.cons_append, key, key]
  match k.getLast? with
  | some (.text t) => simp [rawText]
  | some (.elem ..) => simp [rawText]
  | none => simp [rawText]

theorem bracket_hard : Num.isSpace 0x5d = false := by decide

theorem cdataText_bracket (z : Bool) (k : List Node) (s : Bytes) :
    addT k (cdataText z (0x5d :: s)) = addT (appendText k [0x5d]) (cdataText true s) := by
  simp [cdataText, addT, addT1_hard k 0x5d bracket_hard z]

theorem triple_cons {a c e x : UInt8} {l : Bytes} :
    [a, c, e] <:+: x :: l ↔ (a = x ∧ ∃ r, l = c :: e :: r) ∨ [a, c, e] <:+: l := by
  rw [List.infix_cons_iff]
  constructor
  · rintro (h | h)
    · obtain ⟨r, hr⟩ := h
      simp only [List.cons_append, List.nil_append, List.cons.injEq] at hr
      exact Or.inl ⟨hr.1, r, hr.2.symm⟩
    · exact Or.inr h
  · rintro (⟨rfl, r, rfl⟩ | h)
    · exact Or.inl ⟨r, rfl⟩
    · exact Or.inr h

/-- The state after a section that began with the brackets `pre` and goes on with `rest`. -/
def CdEnd (t : Node) (pre rest : Bytes) (nx : St) (lit : Bytes) (q : UInt8) (es : List Bytes) (dn : Option Node) (f : Frame)
    (l : List Frame) : Prop :=
  ∃ s m d', pre ++ rest = s ++ 0x5d :: 0x5d :: 0x3e :: m ∧ (∀ c ∈ s, Plain c) ∧ ¬ ([0x5d, 0x5d, 0x3e] <:+: s) ∧
    Fin t (S .misc2 nx lit q d' es .none 0) (B dn ({ f with kids := addT f.kids (cdataText false s) } :: l) none) m

theorem plain_cons {s : Bytes} {c : UInt8} (hc : Plain c) (h : ∀ x ∈ s, Plain x) : ∀ x ∈ c :: s, Plain x := by
  intro x hx
  rcases List.mem_cons.mp hx with rfl | hx
  · exact hc
  · exact h x hx

theorem Fin.cdata (n : Nat) : ∀ (rest d : Bytes) (f : Frame), rest.length ≤ n →
    (Fin t (S .cd0 nx lit q d es .none 0) (B dn (f :: l) none) rest → CdEnd t [] rest nx lit q es dn f l) ∧
    (Fin t (S .cd1 nx lit q d es .none 0) (B dn (f :: l) none) rest → CdEnd t [0x5d] rest nx lit q es dn f l) ∧
    (Fin t (S .cd2 nx lit q d es .none 0) (B dn (f :: l) none) rest → CdEnd t [0x5d, 0x5d] rest nx lit q es dn f l) := by
  induction n with
  | zero =>
    intro rest d f hl
    have : rest = [] := List.length_eq_zero_iff.mp (by omega)
    subst this
    refine ⟨fun h => ?_, fun h => ?_, fun h => ?_⟩ <;> (obtain ⟨ch, m, h1, _⟩ := h.head (by simp); simp at h1)
  | succ n ih =>
    intro rest d f hl
    refine ⟨fun h => ?_, fun h => ?_, fun h => ?_⟩
    · obtain ⟨ch, m, rfl, hp⟩ := h.head (by simp)
      simp only [List.length_cons] at hl
      by_cases hc : ch = 0x5d
      · subst hc
        exact (ih m d f (by omega)).2.1 (h.go rfl)
      · have h1 := h.step (c := ⟨.cd0, nx, lit, q⟩) (a := .datacontent) (by simp [trans, hc]) rfl rfl rfl
        obtain ⟨s, m', d', h2, h3, h4, h5⟩ := (ih m _ _ (by omega)).1 h1
        refine ⟨ch :: s, m', d', by simpa using h2, plain_cons hp h3, ?_, ?_⟩
        · rw [triple_cons]
          rintro (⟨e, _⟩ | e)
          · exact hc e.symm
          · exact h4 e
        · have : (ch == 0x5d) = false := by simpa using hc
          simpa [cdataText, addT, addT1, this] using h5
    · obtain ⟨ch, m, rfl, hp⟩ := h.head (by simp)
      simp only [List.length_cons] at hl
      by_cases hc : ch = 0x5d
      · subst hc
        exact (ih m d f (by omega)).2.2 (h.go rfl)
      · have h1 := h.step (c := ⟨.cd0, nx, lit, q⟩) (a := .datacd1) (by simp [trans, hc]) rfl rfl rfl
        obtain ⟨s, m', d', h2, h3, h4, h5⟩ := (ih m _ _ (by omega)).1 h1
        refine ⟨0x5d :: ch :: s, m', d', by simpa using h2, plain_cons plain_lit (plain_cons hp h3), ?_, ?_⟩
        · rw [triple_cons, triple_cons]
          rintro (⟨_, r, e⟩ | ⟨e, _⟩ | e)
          · simp only [List.cons.injEq] at e; exact hc e.1
          · exact hc e.symm
          · exact h4 e
        · have h6 : (ch == 0x5d) = false := by simpa using hc
          have h7 := chunk_any f.kids 0x5d [] ch bracket_hard
          simp only [List.cons_append, List.nil_append] at h7
          rw [h7] at h5
          rw [cdataText_bracket]
          simpa [cdataText, addT, addT1, h6] using h5
    · obtain ⟨ch, m, rfl, hp⟩ := h.head (by simp)
      simp only [List.length_cons] at hl
      by_cases hc : ch = 0x5d
      · subst hc
        have h1 := h.step (c := ⟨.cd2, nx, lit, q⟩) (a := .datacontent) rfl rfl rfl rfl
        obtain ⟨s, m', d', h2, h3, h4, h5⟩ := (ih m _ _ (by omega)).2.2 h1
        refine ⟨0x5d :: s, m', d', by simpa using h2, plain_cons plain_lit h3, ?_, ?_⟩
        · rw [triple_cons]
          rintro (⟨_, r, e⟩ | e)
          · subst e
            simp at h2
          · exact h4 e
        · rw [cdataText_bracket]
          match s, h2, h5 with
          | [], _, h5 => exact h5
          | c :: s, h2, h5 =>
            simp only [List.cons_append, List.nil_append, List.cons.injEq] at h2
            obtain ⟨rfl, _⟩ := h2
            rw [cdataText_bracket] at h5 ⊢
            exact h5
      · by_cases hg : ch = 0x3e
        · subst hg
          exact ⟨[], m, d, rfl, by simp, by simp, h.go rfl⟩
        · have h1 := h.step (c := ⟨.cd0, nx, lit, q⟩) (a := .datacd2) (by simp [trans, hc, hg]) rfl rfl rfl
          obtain ⟨s, m', d', h2, h3, h4, h5⟩ := (ih m _ _ (by omega)).1 h1
          refine ⟨0x5d :: 0x5d :: ch :: s, m', d', by simpa using h2,
            plain_cons plain_lit (plain_cons plain_lit (plain_cons hp h3)), ?_, ?_⟩
          · rw [triple_cons, triple_cons, triple_cons]
            rintro (⟨_, r, e⟩ | ⟨_, r, e⟩ | ⟨e, _⟩ | e)
            · simp only [List.cons.injEq] at e; exact hg e.2.1
            · simp only [List.cons.injEq] at e; exact hc e.1
            · exact hc e.symm
            · exact h4 e
          · have h6 : (ch == 0x5d) = false := by simpa using hc
            have h7 := chunk_any f.kids 0x5d [0x5d] ch bracket_hard
            have h8 := chunk_any f.kids 0x5d [] 0x5d bracket_hard
            simp only [List.cons_append, List.nil_append] at h7 h8
            have h9 := addT1_hard (appendText f.kids [0x5d]) 0x5d bracket_hard true
            simp only [addT1, if_true] at h9
            rw [h7, h8, h9] at h5
            rw [cdataText_bracket, cdataText_bracket]
            simpa [cdataText, addT, addT1, h6] using h5

/-! ## Attributes -/

theorem Fin.attrItems {x : Bytes} (hq : Quote q) (n : Nat) : ∀ (rest d v : Bytes), rest.length ≤ n →
    Fin t (S .attr3 nx lit q d es (.attr x) 0) (B dn (f :: l) (some v)) rest →
    ∃ (is : List AItem) (m d' : Bytes), rest = is.flatMap AItem.bytes ++ q :: m ∧ (∀ i ∈ is, i.taken q) ∧
      Fin t (S .elem2 nx lit q d' es .none 0)
        (B dn ({ f with attrs := setAttr f.attrs x (v ++ is.flatMap AItem.text) } :: l) none) m := by
  induction n with
  | zero =>
    intro rest d v hl h
    obtain ⟨ch, m, rfl, _⟩ := h.head (by simp)
    simp at hl
  | succ n ih =>
    intro rest d v hl h
    obtain ⟨ch, m, rfl, hp⟩ := h.head (by simp)
    simp only [List.length_cons] at hl
    by_cases h1 : ch = 0x26
    · subst h1
      have h2 := h.step (c := ⟨.attr4, nx, lit, q⟩) (a := .refstart) (by simp [trans]) rfl rfl rfl
      obtain ⟨r, m', rfl, h3, h4⟩ := h2.attrRef
      simp only [List.length_append, List.length_cons] at hl
      obtain ⟨is, m'', d', rfl, h5, h6⟩ := ih m' _ _ (by omega) h4
      refine ⟨.ref r :: is, m'', d', by simp [AItem.bytes, Ref.bytes_eq], ?_, by simpa [AItem.text] using h6⟩
      intro i hi
      rcases List.mem_cons.mp hi with rfl | hi
      · exact h3
      · exact h5 i hi
    · by_cases h2 : ch = q
      · subst h2
        refine ⟨[], m, d, rfl, by simp, ?_⟩
        have := h.step (c := ⟨.elem2, nx, lit, ch⟩) (a := .attrvalend) (by simp [trans, h1]) rfl rfl rfl
        simpa using this
      · by_cases h3 : ch = 0x3c
        · refine (h.stuck ?_).elim
          subst h3
          simp [trans]
          exact fun e => h2 e.symm
        · have h4 := h.step (c := ⟨.attr3, nx, lit, q⟩) (a := .dataattr) (by simp [trans, h1, h2, h3]) rfl rfl rfl
          obtain ⟨is, m'', d', rfl, h5, h6⟩ := ih m _ _ (by omega) h4
          refine ⟨.char ch :: is, m'', d', rfl, ?_, ?_⟩
          · intro i hi
            rcases List.mem_cons.mp hi with rfl | hi
            · exact ⟨hp, h2, h3, h1⟩
            · exact h5 i hi
          · have hc : (if ch = 0x09 ∨ ch = 0x0a then [(0x20 : UInt8)] else [ch]) =
                [if ch = 0x09 ∨ ch = 0x0a then 0x20 else ch] := by split <;> rfl
            simpa [AItem.text, hc] using h6

/-- After the first byte of an attribute's name. -/
theorem Fin.attr {c : UInt8} (h : Fin t (S .attr0 nx lit q d es (.attr [c]) 0) (B dn (f :: l) none) rest) :
    ∃ (cs w1 w2 : Bytes) (qt : UInt8) (is : List AItem) (m d' : Bytes),
      rest = cs ++ w1 ++ 0x3d :: w2 ++ qt :: is.flatMap AItem.bytes ++ qt :: m ∧
      (∀ c ∈ cs, NameChar c) ∧ Blanks w1 ∧ Blanks w2 ∧ Quote qt ∧ (∀ i ∈ is, i.taken qt) ∧
      Fin t (S .elem2 nx lit qt d' es .none 0)
        (B dn ({ f with attrs := setAttr f.attrs (c :: cs) (is.flatMap AItem.text) } :: l) none) m := by
  obtain ⟨cs, ch, m, rfl, h1, _, h2, h3⟩ := h.span (s' := fun w => S .attr0 nx lit q d es (.attr ([c] ++ w)) 0) isName
    (fun w hw _ => attr_name fun c hc => nameChar_of (hw c hc)) (fun _ => by simp)
  -- up to the value
  have key : ∃ w1 m1, ch :: m = w1 ++ 0x3d :: m1 ∧ Blanks w1 ∧
      Fin t (S .attr2 nx lit q d es (.attr ([c] ++ cs)) 0) (B dn (f :: l) (some [])) m1 := by
    cases hs : isSP ch with
    | true =>
      have h4 := h3.step (c := ⟨.attr1, nx, lit, q⟩) (a := .attrnameend) (by simp [trans, h2, hs]) rfl rfl rfl
      obtain ⟨w, c1, m1, rfl, h5, h6, h7⟩ := h4.blanks (by simp) (fun ch hc => by simp [trans, hc])
      by_cases he : c1 = 0x3d
      · subst he
        refine ⟨ch :: w, m1, rfl, ?_, h7.go rfl⟩
        intro y hy
        rcases List.mem_cons.mp hy with rfl | hy
        · exact blank_of hs
        · exact h5 y hy
      · exact (h7.stuck (by simp [trans, h6, he])).elim
    | false =>
      by_cases he : ch = 0x3d
      · subst he
        exact ⟨[], m, rfl, by simp [Blanks], h3.step (c := ⟨.attr2, nx, lit, q⟩) (a := .attrnameend) rfl rfl rfl rfl⟩
      · exact (h3.stuck (by simp [trans, h2, hs, he])).elim
  obtain ⟨w1, m1, e1, hw1, h4⟩ := key
  obtain ⟨w2, qt, m2, rfl, hw2, h5, h6⟩ := h4.blanks (by simp) (fun ch hc => by simp [trans, hc])
  by_cases hq : qt = 0x27 ∨ qt = 0x22
  · have h7 := h6.go (c := ⟨.attr3, nx, lit, qt⟩) (by simp [trans, h5, hq])
    obtain ⟨is, m3, d', rfl, h8, h9⟩ := Fin.attrItems (Or.symm hq) m2.length m2 d [] (Nat.le_refl _) h7
    refine ⟨cs, w1, w2, qt, is, m3, d', ?_, fun c hc => nameChar_of (h1 c hc), hw1, hw2, Or.symm hq, h8, by simpa using h9⟩
    rw [e1]; simp
  · exact (h6.stuck (by simp [trans, h5, hq])).elim

theorem lastPut_eq (k v : Bytes) (x : List (Bytes × Bytes)) : lastPut k v x = setAttr x k v := by
  induction x with
  | nil => rfl
  | cons y x ih =>
    obtain ⟨k', v'⟩ := y
    simp only [lastPut, setAttr]
    split
    · rename_i e; rw [e]
    · rw [ih]

/-- The end of a start tag. -/
def TagEnd (t : Node) (rest : Bytes) (nx : St) (lit : Bytes) (e : Bytes) (es : List Bytes) (dn : Option Node) (f : Frame)
    (l : List Frame) : Prop :=
  ∃ (as : List Attr) (w : Bytes) (c : UInt8) (m : Bytes) (q' : UInt8) (d' : Bytes),
    rest = attrsBytes as ++ w ++ c :: m ∧ (∀ a ∈ as, a.Taken) ∧ Blanks w ∧
    ((c = 0x3e ∧ Fin t (S .misc2 nx lit q' d' (e :: es) .none 0)
        (B dn ({ f with attrs := as.foldl (fun m a => lastPut a.name a.text m) f.attrs } :: l) none) m) ∨
     (c = 0x2f ∧ Fin t (S .elem3 nx lit q' d' (e :: es) .none 0)
        (B dn ({ f with attrs := as.foldl (fun m a => lastPut a.name a.text m) f.attrs } :: l) none) m))

theorem Fin.tag {e : Bytes} (n : Nat) : ∀ (rest d : Bytes) (q : UInt8) (st : St) (b : Builder) (f : Frame), rest.length ≤ n →
    Fin t (S st nx lit q d (e :: es) .none 0) b rest → TagAt st b e (B dn (f :: l) none) →
    (st = .elem0 → ∀ c r, rest = c :: r → isName c = false) → TagEnd t rest nx lit e es dn f l := by
  induction n with
  | zero =>
    intro rest d q st b f hl h ht _
    obtain ⟨ch, m, rfl, _⟩ := h.head (by rcases ht with ⟨rfl, _⟩ | ⟨rfl, _⟩ <;> simp)
    simp at hl
  | succ n ih =>
    intro rest d q st b f hl h ht hn
    obtain ⟨ch, m, rfl, hp⟩ := h.head (by rcases ht with ⟨rfl, _⟩ | ⟨rfl, _⟩ <;> simp)
    simp only [List.length_cons] at hl
    have hn' : st = .elem0 → isName ch = false := fun e => hn e ch m rfl
    have go : ∀ st', trans ⟨.elem0, nx, lit, q⟩ ch = some (⟨st', nx, lit, q⟩, .elemnameend) →
        trans ⟨.elem2, nx, lit, q⟩ ch = some (⟨st', nx, lit, q⟩, .ok) →
        Fin t (S st' nx lit q d (e :: es) .none 0) (B dn (f :: l) none) m := fun st' h0 h2 =>
      Fin.after (l := [ch]) h (tag_step ht hp h0 h2)
    cases hs : isSP ch with
    | true =>
      have hb := blank_of hs
      have hf := blank_facts hb
      have h1 := go .elem1 (by simp [trans, hf, hs]) (by simp [trans, hs])
      obtain ⟨w, c1, m1, rfl, h5, h6, h7⟩ := h1.blanks (by simp) (fun ch hc => by simp [trans, hc])
      have hw : Blanks (ch :: w) := by
        intro y hy
        rcases List.mem_cons.mp hy with rfl | hy
        · exact hb
        · exact h5 y hy
      by_cases hg : c1 = 0x3e
      · subst hg
        exact ⟨[], ch :: w, 0x3e, m1, q, d, rfl, by simp, hw, Or.inl ⟨rfl, h7.go rfl⟩⟩
      · by_cases hsl : c1 = 0x2f
        · subst hsl
          exact ⟨[], ch :: w, 0x2f, m1, q, d, rfl, by simp, hw, Or.inr ⟨rfl, h7.go rfl⟩⟩
        · cases hns : isNameStart c1 with
          | false => exact (h7.stuck (by simp [trans, h6, hg, hsl, hns])).elim
          | true =>
            have h8 := h7.step (c := ⟨.attr0, nx, lit, q⟩) (a := .attrstart) (by simp [trans, h6, hg, hsl, hns]) rfl rfl rfl
            obtain ⟨cs, w1, w2, qt, is, m2, d', rfl, a1, a2, a3, a4, a5, a6⟩ := h8.attr
            simp only [List.length_append, List.length_cons] at hl
            obtain ⟨as, w', c', m3, q', d'', e1, e2, e3, e4⟩ := ih m2 d' qt .elem2 _ _ (by omega) a6 (Or.inr ⟨rfl, rfl⟩)
              (fun e => by cases e)
            refine ⟨⟨ch :: w, c1 :: cs, w1, w2, qt, is⟩ :: as, w', c', m3, q', d'', ?_, ?_, e3, ?_⟩
            · rw [e1]
              simp [attrsBytes, Attr.bytes, ascii]
            · intro a ha
              rcases List.mem_cons.mp ha with rfl | ha
              · exact ⟨⟨by simp, hw⟩, ⟨c1, cs, rfl, nameStart_of hns, a1⟩, a2, a3, a4, a5⟩
              · exact e2 a ha
            · simp only [List.foldl_cons]
              rw [show lastPut (c1 :: cs) (Attr.text ⟨ch :: w, c1 :: cs, w1, w2, qt, is⟩) f.attrs =
                setAttr f.attrs (c1 :: cs) (is.flatMap AItem.text) from lastPut_eq _ _ _]
              exact e4
    | false =>
      by_cases hg : ch = 0x3e
      · subst hg
        exact ⟨[], [], 0x3e, m, q, d, rfl, by simp, by simp [Blanks], Or.inl ⟨rfl, go .misc2 rfl rfl⟩⟩
      · by_cases hsl : ch = 0x2f
        · subst hsl
          exact ⟨[], [], 0x2f, m, q, d, rfl, by simp, by simp [Blanks], Or.inr ⟨rfl, go .elem3 rfl rfl⟩⟩
        · rcases ht with ⟨rfl, _⟩ | ⟨rfl, _⟩
          · exact (h.stuck (by simp [trans, hs, hg, hsl, hn' rfl])).elim
          · exact (h.stuck (by simp [trans, hs, hg, hsl])).elim

/-- After the first byte of an element's name. -/
theorem Fin.element {c : UInt8} (h : Fin t (S .elem0 nx lit q d ([c] :: es) .none 0) b rest)
    (hb : ∀ n, build b .elemstart n = some (B dn (⟨n, [], []⟩ :: l) none)) :
    ∃ cs m, rest = cs ++ m ∧ (∀ x ∈ cs, NameChar x) ∧ TagEnd t m nx lit (c :: cs) es dn ⟨c :: cs, [], []⟩ l := by
  obtain ⟨cs, ch, m, rfl, h1, _, h2, h3⟩ := h.span (s' := fun w => S .elem0 nx lit q d (([c] ++ w) :: es) .none 0) isName
    (fun w hw _ => elem_name fun c hc => nameChar_of (hw c hc)) (fun _ => by simp)
  refine ⟨cs, ch :: m, rfl, fun c hc => nameChar_of (h1 c hc), ?_⟩
  refine Fin.tag (ch :: m).length (ch :: m) d q .elem0 b _ (Nat.le_refl _) h3 (Or.inl ⟨rfl, hb _⟩) ?_
  intro _ x r hx
  simp only [List.cons.injEq] at hx
  rw [← hx.1]; exact h2

/-! ## End tags -/

theorem Fin.endName {e : Bytes} (n : Nat) : ∀ (rest : Bytes) (k : Nat), rest.length ≤ n →
    Fin t (S .etag1 nx lit q d (e :: es) .none k) b rest → k ≤ e.length →
    ∃ ch m, rest = e.drop k ++ ch :: m ∧ isName ch = false ∧ Fin t (S .etag1 nx lit q d (e :: es) .none e.length) b (ch :: m) := by
  induction n with
  | zero =>
    intro rest k hl h _
    obtain ⟨ch, m, rfl, _⟩ := h.head (by simp)
    simp at hl
  | succ n ih =>
    intro rest k hl h hk
    obtain ⟨ch, m, rfl, hp⟩ := h.head (by simp)
    simp only [List.length_cons] at hl
    cases hn : isName ch with
    | true =>
      by_cases he : e[k]? = some ch
      · have hlt : k < e.length := by
          apply Classical.byContradiction
          intro h0
          rw [List.getElem?_eq_none (by omega)] at he
          simp at he
        have h1 := h.step (c := ⟨.etag1, nx, lit, q⟩) (a := .elemclose) (by simp [trans, hn])
          (s' := S .etag1 nx lit q d (e :: es) .none (k + 1)) (r := .ok) (x := []) (b' := b)
          (by simp [aperform, he]) rfl rfl
        obtain ⟨c, m', rfl, h2, h3⟩ := ih m (k + 1) (by omega) h1 (by omega)
        refine ⟨c, m', ?_, h2, h3⟩
        rw [List.getElem?_eq_getElem hlt, Option.some.injEq] at he
        rw [List.drop_eq_getElem_cons hlt, he]
        rfl
      · exact (h.err (c := ⟨.etag1, nx, lit, q⟩) (a := .elemclose) (by simp [trans, hn])
          (s' := S .etag1 nx lit q d (e :: es) .none k) (r := .eclose) (x := []) (by simp [aperform, he]) rfl).elim
    | false =>
      have hc : isSP ch = true ∨ ch = 0x3e := by
        apply Classical.byContradiction
        intro h0
        rw [not_or] at h0
        exact h.stuck (by simp [trans, hn, h0.1, h0.2])
      have hke : k = e.length := by
        apply Classical.byContradiction
        intro h0
        have : ∃ st', trans ⟨.etag1, nx, lit, q⟩ ch = some (⟨st', nx, lit, q⟩, .elemcloseend) := by
          rcases hc with hc | rfl
          · exact ⟨.etag2, by simp [trans, hn, hc]⟩
          · exact ⟨.misc2, rfl⟩
        obtain ⟨st', ht⟩ := this
        exact h.err ht (s' := S st' nx lit q d (e :: es) .none k) (r := .eclose) (x := []) (by simp [aperform, h0]) rfl
      subst hke
      exact ⟨ch, m, by simp, hn, h⟩

/-- After `</`: the name, and the byte after it. -/
theorem Fin.endTag {e : Bytes} (h : Fin t (S .etag0 nx lit q d (e :: es) .none 0) b rest) :
    ∃ ch m, rest = e ++ ch :: m ∧ (ch = 0x3e ∨ (ch ≠ 0x3e ∧ isSP ch = true)) ∧ isName ch = false ∧
      Fin t (S .etag1 nx lit q d (e :: es) .none e.length) b (ch :: m) := by
  obtain ⟨c, m, rfl, hp⟩ := h.head (by simp)
  cases hn : isNameStart c with
  | false => exact (h.stuck (by simp [trans, hn])).elim
  | true =>
    by_cases h0 : e[0]? = some c
    · have hlt : 0 < e.length := by
        apply Classical.byContradiction
        intro h1
        rw [List.getElem?_eq_none (by omega)] at h0
        simp at h0
      have h1 := h.step (c := ⟨.etag1, nx, lit, q⟩) (a := .elemclose) (by simp [trans, hn])
        (s' := S .etag1 nx lit q d (e :: es) .none 1) (r := .ok) (x := []) (b' := b)
        (by simp [aperform, h0]) rfl rfl
      obtain ⟨ch, m', rfl, h2, h3⟩ := Fin.endName m.length m 1 (Nat.le_refl _) h1 hlt
      refine ⟨ch, m', ?_, ?_, h2, h3⟩
      · rw [List.getElem?_eq_getElem hlt, Option.some.injEq] at h0
        rw [← List.cons_append, ← h0, ← List.drop_eq_getElem_cons hlt]
        rfl
      · by_cases hg : ch = 0x3e
        · exact Or.inl hg
        · refine Or.inr ⟨hg, ?_⟩
          cases hs : isSP ch with
          | true => rfl
          | false => exact (h3.stuck (by simp [trans, h2, hs, hg])).elim
    · exact (h.err (c := ⟨.etag1, nx, lit, q⟩) (a := .elemclose) (by simp [trans, hn])
        (s' := S .etag1 nx lit q d (e :: es) .none 0) (r := .eclose) (x := []) (by simp [aperform, h0]) rfl).elim

end Duck.Xml
