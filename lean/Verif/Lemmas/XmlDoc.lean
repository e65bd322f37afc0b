import Verif.Lemmas.XmlTag

/-! # Helper lemmas for XML: content, elements, documents -/

namespace Duck.Xml

/-- From one state to another, whatever the parts of the parser that are not in use hold. -/
def Leads (st : St) (es : List Bytes) (b : Builder) (l : Bytes) (st' : St) (es' : List Bytes) (b' : Builder) : Prop :=
  ∀ nx lit q d, ∃ nx' lit' q' d', Runs (S st nx lit q d es .none 0) b l (S st' nx' lit' q' d' es' .none 0) b'

theorem Leads.nil (st : St) (es : List Bytes) (b : Builder) : Leads st es b [] st es b :=
  fun nx lit q d => ⟨nx, lit, q, d, Runs.nil _ _⟩

theorem Leads.append {st st' st'' : St} {es es' es'' : List Bytes} {b b' b'' : Builder} {l m : Bytes}
    (h : Leads st es b l st' es' b') (h' : Leads st' es' b' m st'' es'' b'') :
    Leads st es b (l ++ m) st'' es'' b'' := by
  intro nx lit q d
  obtain ⟨nx1, lit1, q1, d1, h1⟩ := h nx lit q d
  obtain ⟨nx2, lit2, q2, d2, h2⟩ := h' nx1 lit1 q1 d1
  exact ⟨nx2, lit2, q2, d2, h1.append h2⟩

/-! ## Text -/

def addBytes (k : List Node) (l : Bytes) : List Node := l.foldl (fun k b => appendText k [b]) k

theorem addBytes_append (k : List Node) (l m : Bytes) : addBytes k (l ++ m) = addBytes (addBytes k l) m := by
  simp [addBytes]

theorem chunk_snoc (k : List Node) (x : UInt8) (xs : Bytes) (c : UInt8) (hx : Num.isSpace x = false)
    (hc : Num.isSpace c = false) : appendText k (x :: xs ++ [c]) = appendText (appendText k (x :: xs)) [c] := by
  have key : ∀ y, appendText k (x :: y) =
      match k.getLast? with
      | some (.text t) => k.dropLast ++ [.text (t ++ x :: y)]
      | _ => k ++ [.text (x :: y)] := by
    intro y
    unfold appendText
    simp only [List.headD_cons, hx]
    rfl
  rw [List.cons_append, key, key]
  match k.getLast? with
  | some (.text t) => simp [appendText, hc]
  | some (.elem ..) => simp [appendText, hc]
  | none => simp [appendText, hc]

theorem append_chunk (k : List Node) (l : Bytes) (h0 : l ≠ []) (h : ∀ c ∈ l, Num.isSpace c = false) :
    appendText k l = addBytes k l := by
  induction hn : l.length generalizing l with
  | zero => exact absurd (List.length_eq_zero_iff.mp hn) h0
  | succ n ih =>
    rcases List.eq_nil_or_concat l with rfl | ⟨m, c, rfl⟩
    · exact absurd rfl h0
    · rw [List.concat_eq_append] at *
      match m with
      | [] => rfl
      | x :: xs =>
        rw [chunk_snoc _ _ _ _ (h x (by simp)) (h c (by simp)), addBytes_append,
          ih (x :: xs) (by simp) (fun y hy => h y (by simp at hy ⊢; rcases hy with rfl | hy <;> simp_all)) (by simpa using hn)]
        rfl

/-- A character reference stands for one byte, or for several that are no white space. -/
theorem chars_cases (r : Ref) (h : r.Legal) :
    (∃ c, r.chars = [c]) ∨ (r.chars ≠ [] ∧ ∀ c ∈ r.chars, Num.isSpace c = false) := by
  have hv : r.value < 0xd800 ∨ (0xdfff < r.value ∧ r.value < 0x110000) := h.2.2.1
  have big0 : ∀ x, x < 256 → 128 ≤ x → Num.isSpace (UInt8.ofNat x) = false := by decide +kernel
  have big : ∀ x, 128 ≤ x → x < 256 → Num.isSpace (UInt8.ofNat x) = false := fun x h1 h2 => big0 x h2 h1
  rw [← chars_eq r h, setutf8_eq (by omega)]
  unfold Unicode.encNat
  split
  · left; exact ⟨_, rfl⟩
  · right
    split
    · refine ⟨by simp, ?_⟩
      intro c hc
      simp only [List.mem_cons, List.not_mem_nil, or_false] at hc
      rcases hc with rfl | rfl <;> exact big _ (by omega) (by omega)
    · split
      · refine ⟨by simp, ?_⟩
        intro c hc
        simp only [List.mem_cons, List.not_mem_nil, or_false] at hc
        rcases hc with rfl | rfl | rfl <;> exact big _ (by omega) (by omega)
      · refine ⟨by simp, ?_⟩
        intro c hc
        simp only [List.mem_cons, List.not_mem_nil, or_false] at hc
        rcases hc with rfl | rfl | rfl | rfl <;> exact big _ (by omega) (by omega)

theorem append_ref (k : List Node) (r : Ref) (h : r.Legal) : appendText k r.chars = addBytes k r.chars := by
  rcases chars_cases r h with ⟨c, hc⟩ | ⟨h1, h2⟩
  · rw [hc]; rfl
  · exact append_chunk k _ h1 h2

/-! ## CDATA sections -/

theorem cdata_ok_tail {c : UInt8} {s : Bytes} (h : CDataOK (c :: s)) : CDataOK s :=
  ⟨fun x hx => h.1 x (by simp [hx]), infix_tail h.2.1, fun b hb => infix_tail (h.2.2 b hb)⟩

theorem content_step {st st' nx : St} {lit : Bytes} {q : UInt8} {d : Bytes} {es : List Bytes} {dn : Option Node}
    {f : Frame} {l : List Frame} {c : UInt8} {a : Act} {t : Bytes} (hp : Plain c)
    (ht : trans ⟨st, nx, lit, q⟩ c = some (⟨st', nx, lit, q⟩, a))
    (ha : ∀ s : Abs, aperform a s c = some (adata s .content t)) :
    Runs (S st nx lit q d es .none 0) (B dn (f :: l) none) [c] (S st' nx lit q t es .none 0)
      (B dn ({ f with kids := appendText f.kids t } :: l) none) :=
  step1 hp ht (ha _) rfl rfl

theorem cdata_run (s : Bytes) {es : List Bytes} {dn : Option Node} {l : List Frame} :
    (∀ f : Frame, CDataOK s → Leads .cd0 es (B dn (f :: l) none) (s ++ [0x5d, 0x5d, 0x3e]) .misc2 es
      (B dn ({ f with kids := addBytes f.kids s } :: l) none)) ∧
    (∀ f : Frame, CDataOK (0x5d :: s) → Leads .cd1 es (B dn (f :: l) none) (s ++ [0x5d, 0x5d, 0x3e]) .misc2 es
      (B dn ({ f with kids := addBytes f.kids (0x5d :: s) } :: l) none)) ∧
    (∀ f : Frame, CDataOK (0x5d :: 0x5d :: s) → Leads .cd2 es (B dn (f :: l) none) (s ++ [0x5d, 0x5d, 0x3e]) .misc2 es
      (B dn ({ f with kids := addBytes f.kids (0x5d :: 0x5d :: s) } :: l) none)) := by
  have bra : ∀ {nx lit q d} {f : Frame}, Runs (S .cd2 nx lit q d es .none 0) (B dn (f :: l) none) [0x5d]
      (S .cd2 nx lit q [0x5d] es .none 0) (B dn ({ f with kids := appendText f.kids [0x5d] } :: l) none) :=
    fun {nx lit q d f} => content_step (a := .datacontent) plain_lit rfl fun _ => rfl
  have fin : ∀ {nx lit q d} {f : Frame}, Runs (S .cd2 nx lit q d es .none 0) (B dn (f :: l) none) [0x3e]
      (S .misc2 nx lit q d es .none 0) (B dn (f :: l) none) := fun {nx lit q d f} => step_ok1 plain_lit rfl
  induction s with
  | nil =>
    refine ⟨fun f _ => ?_, fun f _ => ?_, fun f _ => ?_⟩
    · intro nx lit q d
      refine ⟨nx, lit, q, d, ?_⟩
      refine Runs.cons (s' := S .cd1 nx lit q d es .none 0) (step_ok1 plain_lit rfl) ?_
      refine Runs.cons (s' := S .cd2 nx lit q d es .none 0) (step_ok1 plain_lit rfl) ?_
      exact fin
    · intro nx lit q d
      refine ⟨nx, lit, q, [0x5d], ?_⟩
      refine Runs.cons (s' := S .cd2 nx lit q d es .none 0) (step_ok1 plain_lit rfl) ?_
      exact Runs.cons bra fin
    · intro nx lit q d
      exact ⟨nx, lit, q, [0x5d], Runs.cons bra (Runs.cons bra fin)⟩
  | cons c s ih =>
    obtain ⟨ih0, ih1, ih2⟩ := ih
    refine ⟨fun f h => ?_, fun f h => ?_, fun f h => ?_⟩
    · have hc := h.1 c (by simp)
      by_cases h1 : c = 0x5d
      · subst h1
        intro nx lit q d
        obtain ⟨nx', lit', q', d', hr⟩ := ih1 f h nx lit q d
        exact ⟨nx', lit', q', d', Runs.cons (s' := S .cd1 nx lit q d es .none 0) (step_ok1 plain_lit rfl) hr⟩
      · intro nx lit q d
        obtain ⟨nx', lit', q', d', hr⟩ := ih0 { f with kids := appendText f.kids [c] } (cdata_ok_tail h) nx lit q [c]
        exact ⟨nx', lit', q', d', Runs.cons
          (content_step (st' := .cd0) (a := .datacontent) hc (by simp [trans, h1]) fun _ => rfl) hr⟩
    · have hc := h.1 c (by simp)
      by_cases h1 : c = 0x5d
      · subst h1
        intro nx lit q d
        obtain ⟨nx', lit', q', d', hr⟩ := ih2 f h nx lit q d
        exact ⟨nx', lit', q', d', Runs.cons (s' := S .cd2 nx lit q d es .none 0) (step_ok1 plain_lit rfl) hr⟩
      · have hs : Num.isSpace c = false := by
          apply Decidable.byContradiction
          intro hx
          exact h.2.2 c (by simpa using hx) ⟨[], s, by simp⟩
        intro nx lit q d
        obtain ⟨nx', lit', q', d', hr⟩ := ih0 { f with kids := appendText f.kids [0x5d, c] }
          (cdata_ok_tail (cdata_ok_tail h)) nx lit q [0x5d, c]
        refine ⟨nx', lit', q', d', Runs.cons
          (content_step (st' := .cd0) (a := .datacd1) hc (by simp [trans, h1]) fun _ => rfl) ?_⟩
        have e : addBytes f.kids (0x5d :: c :: s) = addBytes (appendText f.kids [0x5d, c]) s := by
          rw [append_chunk _ [0x5d, c] (by simp) (by simp [hs]; decide), ← addBytes_append]
          rfl
        rw [e]
        exact hr
    · have hc := h.1 c (by simp)
      by_cases h1 : c = 0x5d
      · subst h1
        intro nx lit q d
        obtain ⟨nx', lit', q', d', hr⟩ := ih2 { f with kids := appendText f.kids [0x5d] } (cdata_ok_tail h) nx lit q [0x5d]
        exact ⟨nx', lit', q', d', Runs.cons bra hr⟩
      · have hs : Num.isSpace c = false := by
          apply Decidable.byContradiction
          intro hx
          exact h.2.2 c (by simpa using hx) ⟨[0x5d], s, by simp⟩
        have h2 : c ≠ 0x3e := by
          rintro rfl
          exact h.2.1 ⟨[], s, by simp [ascii]⟩
        intro nx lit q d
        obtain ⟨nx', lit', q', d', hr⟩ := ih0 { f with kids := appendText f.kids [0x5d, 0x5d, c] }
          (cdata_ok_tail (cdata_ok_tail (cdata_ok_tail h))) nx lit q [0x5d, 0x5d, c]
        refine ⟨nx', lit', q', d', Runs.cons
          (content_step (st' := .cd0) (a := .datacd2) hc (by simp [trans, h1, h2]) fun _ => rfl) ?_⟩
        have e : addBytes f.kids (0x5d :: 0x5d :: c :: s) = addBytes (appendText f.kids [0x5d, 0x5d, c]) s := by
          rw [append_chunk _ [0x5d, 0x5d, c] (by simp) (by simp [hs]; decide), ← addBytes_append]
          rfl
        rw [e]
        exact hr

/-! ## Tags -/

theorem open_name {st nx : St} {lit : Bytes} {q : UInt8} {d n : Bytes} {es : List Bytes} {b : Builder}
    (hst : st = .le0 ∨ st = .le1 ∨ st = .le2) (h : Name n) :
    Runs (S st nx lit q d es .none 0) b n (S .elem0 nx lit q d (n :: es) .none 0) b := by
  obtain ⟨c, l, rfl, hc, hl⟩ := h
  have hf := name_facts (Or.inl hc)
  refine Runs.cons (s' := S .elem0 nx lit q d ([c] :: es) .none 0) (b' := b) ?_ (elem_name hl)
  refine step1 (c := ⟨.elem0, nx, lit, q⟩) (a := .elemstart) (name_plain (Or.inl hc)) ?_ rfl rfl rfl
  rcases hst with rfl | rfl | rfl <;> simp [trans, hf, isNameStart_of hc]

theorem open_attrs {st nx : St} {lit : Bytes} {q : UInt8} {d n : Bytes} {es : List Bytes} {b : Builder}
    {dn : Option Node} {l : List Frame} {as : List Attr}
    (hst : st = .le0 ∨ st = .le1 ∨ st = .le2) (h : Name n) (ha : AttrsOK as)
    (hb : build b .elemstart n = some (B dn (⟨n, [], []⟩ :: l) none)) :
    ∃ st' q' d' b', Runs (S st nx lit q d es .none 0) b (n ++ attrsBytes as) (S st' nx lit q' d' (n :: es) .none 0) b' ∧
      TagAt st' b' n (B dn (⟨n, attrsValue as, []⟩ :: l) none) := by
  obtain ⟨st', q', d', b', h1, h2⟩ := attrs_run (nx := nx) (lit := lit) (q := q) (d := d) (es := es) as ha.1
    (Or.inl ⟨rfl, hb⟩)
  refine ⟨st', q', d', b', (open_name hst h).append h1, ?_⟩
  rw [attrs_fold as ha.2 [] (by simp)] at h2
  exact h2

theorem open_tag {st : St} {n w : Bytes} {es : List Bytes} {b : Builder}
    {dn : Option Node} {l : List Frame} {as : List Attr}
    (hst : st = .le0 ∨ st = .le1 ∨ st = .le2) (h : Name n) (ha : AttrsOK as) (hw : Blanks w)
    (hb : build b .elemstart n = some (B dn (⟨n, [], []⟩ :: l) none)) :
    Leads st es b (n ++ attrsBytes as ++ (w ++ [0x3e])) .misc2 (n :: es) (B dn (⟨n, attrsValue as, []⟩ :: l) none) := by
  intro nx lit q d
  obtain ⟨st', q', d', b', h1, h2⟩ := open_attrs (nx := nx) (lit := lit) (q := q) (d := d) (es := es) hst h ha hb
  exact ⟨nx, lit, q', d', h1.append (tag_gt h2 hw)⟩

theorem empty_tag {st : St} {n w : Bytes} {es : List Bytes} {b : Builder}
    {dn : Option Node} {l : List Frame} {as : List Attr}
    (hst : st = .le0 ∨ st = .le1 ∨ st = .le2) (h : Name n) (ha : AttrsOK as) (hw : Blanks w)
    (hb : build b .elemstart n = some (B dn (⟨n, [], []⟩ :: l) none)) :
    Leads st es b (n ++ attrsBytes as ++ (w ++ [0x2f])) .elem3 (n :: es) (B dn (⟨n, attrsValue as, []⟩ :: l) none) := by
  intro nx lit q d
  obtain ⟨st', q', d', b', h1, h2⟩ := open_attrs (nx := nx) (lit := lit) (q := q) (d := d) (es := es) hst h ha hb
  exact ⟨nx, lit, q', d', h1.append (tag_slash h2 hw)⟩

theorem close_inner {e n : Bytes} {es : List Bytes} {dn : Option Node} {f g : Frame} {l : List Frame} :
    Leads .elem3 (n :: e :: es) (B dn (f :: g :: l) none) [0x3e] .misc2 (e :: es)
      (B dn ({ g with kids := g.kids ++ [.elem f.name f.attrs f.kids] } :: l) none) := by
  intro nx lit q d
  refine ⟨nx, lit, q, d, ?_⟩
  exact step1 (c := ⟨.misc2, nx, lit, q⟩) (a := .selfclose) plain_lit rfl rfl rfl rfl

theorem close_root {n : Bytes} {dn : Option Node} {f : Frame} :
    Leads .elem3 [n] (B dn [f] none) [0x3e] .misc3 [] (B (some (.elem f.name f.attrs f.kids)) [] none) := by
  intro nx lit q d
  refine ⟨nx, lit, q, d, ?_⟩
  exact step1 (c := ⟨.misc2, nx, lit, q⟩) (a := .selfclose) plain_lit rfl rfl rfl rfl

/-- The name in an end tag. -/
theorem close_name {nx : St} {lit : Bytes} {q : UInt8} {d : Bytes} {es : List Bytes} {b : Builder}
    (a l : Bytes) (h : ∀ c ∈ l, NameChar c) :
    Runs (S .etag1 nx lit q d ((a ++ l) :: es) .none a.length) b l
      (S .etag1 nx lit q d ((a ++ l) :: es) .none (a ++ l).length) b := by
  induction l generalizing a with
  | nil => simpa using Runs.nil _ _
  | cons c l ih =>
    have hc := h c (by simp)
    have := ih (a ++ [c]) fun x hx => h x (by simp [hx])
    refine Runs.cons (s' := S .etag1 nx lit q d ((a ++ c :: l) :: es) .none (a ++ [c]).length) (b' := b) ?_ ?_
    · refine step1 (c := ⟨.etag1, nx, lit, q⟩) (a := .elemclose) (name_plain hc) (by simp [trans, isName_of hc])
        (r := .ok) (t := []) ?_ rfl rfl
      simp [aperform]
    · simpa using this

theorem etag_name {n : Bytes} {nx : St} {lit : Bytes} {q : UInt8} {d : Bytes} {es : List Bytes} {b : Builder} (h : Name n) :
    Runs (S .misc2 nx lit q d (n :: es) .none 0) b (0x3c :: 0x2f :: n) (S .etag1 nx lit q d (n :: es) .none n.length) b := by
  obtain ⟨c, l, rfl, hc, hl⟩ := h
  refine Runs.cons (s' := S .le2 nx lit q d ((c :: l) :: es) .none 0) (step_ok1 plain_lit rfl) ?_
  refine Runs.cons (s' := S .etag0 nx lit q d ((c :: l) :: es) .none 0) (step_ok1 plain_lit rfl) ?_
  refine Runs.cons (s' := S .etag1 nx lit q d ((c :: l) :: es) .none 1) (b' := b) ?_ (close_name [c] l hl)
  refine step1 (c := ⟨.etag1, nx, lit, q⟩) (a := .elemclose) (name_plain (Or.inl hc))
    (by simp [trans, isNameStart_of hc]) (r := .ok) (t := []) ?_ rfl rfl
  simp [aperform]

theorem end_tag {e n w : Bytes} {es : List Bytes} {dn : Option Node} {f g : Frame} {l : List Frame} (h : Name n)
    (hw : Blanks w) :
    Leads .misc2 (n :: e :: es) (B dn (f :: g :: l) none) (0x3c :: 0x2f :: n ++ (w ++ [0x3e])) .misc2 (e :: es)
      (B dn ({ g with kids := g.kids ++ [.elem f.name f.attrs f.kids] } :: l) none) := by
  intro nx lit q d
  refine ⟨nx, lit, q, d, Runs.append (etag_name h) ?_⟩
  match w, hw with
  | [], _ =>
    refine step1 (c := ⟨.misc2, nx, lit, q⟩) (a := .elemcloseend) plain_lit rfl (r := .elemend) (t := []) ?_ rfl rfl
    simp [aperform, aclose]
  | c :: w, hw =>
    have hc := hw c (by simp)
    have hf := blank_facts hc
    refine Runs.cons (s' := S .etag2 nx lit q d (e :: es) .none 0)
      (b' := B dn ({ g with kids := g.kids ++ [.elem f.name f.attrs f.kids] } :: l) none) ?_ ?_
    · refine step1 (c := ⟨.etag2, nx, lit, q⟩) (a := .elemcloseend) (blank_plain hc)
        (by simp [trans, hf, isSP_of hc]) (r := .elemend) (t := []) ?_ rfl rfl
      simp [aperform, aclose]
    · refine Runs.append (blanks_same (fun x hx => hw x (by simp [hx])) fun ch hch => by simp [trans, hch]) ?_
      exact step_ok1 plain_lit rfl

theorem end_root {n : Bytes} {dn : Option Node} {f : Frame} (h : Name n) :
    Leads .misc2 [n] (B dn [f] none) (0x3c :: 0x2f :: n ++ [0x3e]) .misc3 []
      (B (some (.elem f.name f.attrs f.kids)) [] none) := by
  intro nx lit q d
  refine ⟨nx, lit, q, d, Runs.append (etag_name h) ?_⟩
  refine step1 (c := ⟨.misc2, nx, lit, q⟩) (a := .elemcloseend) plain_lit rfl (r := .elemend) (t := []) ?_ rfl rfl
  simp [aperform, aclose]

/-! ## Content -/

def Content.add : Content → List Node → List Node
  | .nil, k => k
  | .char b c, k => c.add (appendText k [b])
  | .ref r c, k => c.add (addBytes k r.chars)
  | .cdata s c, k => c.add (addBytes k s)
  | .comment _ c, k => c.add k
  | .pi _ c, k => c.add k
  | .elem n as _ body _ c, k => c.add (k ++ [.elem n (attrsValue as) (body.add [])])
  | .empty n as _ c, k => c.add (k ++ [.elem n (attrsValue as) []])

theorem lead1 {st st' : St} {es : List Bytes} {b : Builder} {c : UInt8} (hp : Plain c)
    (h : ∀ nx lit q, ∃ nx' lit' q', trans ⟨st, nx, lit, q⟩ c = some (⟨st', nx', lit', q'⟩, .ok)) :
    Leads st es b [c] st' es b := by
  intro nx lit q d
  obtain ⟨nx', lit', q', h1⟩ := h nx lit q
  exact ⟨nx', lit', q', d, step_ok1 hp h1⟩

theorem comment_content {es : List Bytes} {b : Builder} {s : Bytes} (h : CommentOK s) :
    Leads .misc2 es b (commentBytes s) .misc2 es b := by
  intro nx lit q d
  refine ⟨.misc2, lit, q, d, ?_⟩
  rw [commentBytes_eq]
  refine Runs.cons (s' := S .le2 nx lit q d es .none 0) (step_ok1 plain_lit rfl) ?_
  refine Runs.cons (s' := S .lee2 nx lit q d es .none 0) (step_ok1 plain_lit rfl) ?_
  refine Runs.cons (s' := S .comment1 .misc2 lit q d es .none 0) (step_ok1 plain_lit rfl) ?_
  exact comment_run' h

theorem pi_content {es : List Bytes} {b : Builder} {p : PI} (h : p.OK) : Leads .misc2 es b p.bytes .misc2 es b := by
  intro nx lit q d
  obtain ⟨d', hd⟩ := pi_run (nx := .misc2) (lit := lit) (q := q) (d := d) (es := es) (b := b) h
  refine ⟨.misc2, lit, q, d', ?_⟩
  rw [PI.bytes_eq]
  refine Runs.cons (s' := S .le2 nx lit q d es .none 0) (step_ok1 plain_lit rfl) ?_
  refine Runs.cons (s' := S .pi0 .misc2 lit q d es .none 0) (step_ok1 plain_lit rfl) ?_
  exact hd

theorem cdata_content {es : List Bytes} {dn : Option Node} {f : Frame} {l : List Frame} {s : Bytes} (h : CDataOK s) :
    Leads .misc2 es (B dn (f :: l) none) (ascii "<![CDATA[" ++ s ++ ascii "]]>") .misc2 es
      (B dn ({ f with kids := addBytes f.kids s } :: l) none) := by
  intro nx lit q d
  obtain ⟨nx', lit', q', d', hr⟩ := (cdata_run s (es := es) (dn := dn) (l := l)).1 f h .cd0 [] q d
  refine ⟨nx', lit', q', d', ?_⟩
  have e : ascii "<![CDATA[" ++ s ++ ascii "]]>" =
      0x3c :: 0x21 :: 0x5b :: ([0x43, 0x44, 0x41, 0x54, 0x41, 0x5b] ++ (s ++ [0x5d, 0x5d, 0x3e])) := by simp [ascii]
  rw [e]
  refine Runs.cons (s' := S .le2 nx lit q d es .none 0) (step_ok1 plain_lit rfl) ?_
  refine Runs.cons (s' := S .lee2 nx lit q d es .none 0) (step_ok1 plain_lit rfl) ?_
  refine Runs.cons (s' := S .string .cd0 [0x43, 0x44, 0x41, 0x54, 0x41, 0x5b] q d es .none 0) (step_ok1 plain_lit rfl) ?_
  exact Runs.append (lit_run (by simp) (by unfold Plain; decide)) hr

theorem lt_content {es : List Bytes} {b : Builder} : Leads .misc2 es b [0x3c] .le2 es b :=
  lead1 plain_lit fun nx lit q => ⟨nx, lit, q, rfl⟩

theorem content_run (c : Content) (h : c.OK) (e : Bytes) (es : List Bytes) (dn : Option Node) (f : Frame) (l : List Frame) :
    Leads .misc2 (e :: es) (B dn (f :: l) none) c.bytes .misc2 (e :: es)
      (B dn ({ f with kids := c.add f.kids } :: l) none) := by
  induction c generalizing e es f l with
  | nil => exact Leads.nil _ _ _
  | char b c ih =>
    have h1 : Leads .misc2 (e :: es) (B dn (f :: l) none) [b] .misc2 (e :: es)
        (B dn ({ f with kids := appendText f.kids [b] } :: l) none) := by
      intro nx lit q d
      exact ⟨nx, lit, q, [b], content_step (a := .datacontent) h.1.1 (by simp [trans, h.1.2]) fun _ => rfl⟩
    have := h1.append (ih h.2 e es { f with kids := appendText f.kids [b] } l)
    exact this
  | ref r c ih =>
    have h1 : Leads .misc2 (e :: es) (B dn (f :: l) none) r.bytes .misc2 (e :: es)
        (B dn ({ f with kids := addBytes f.kids r.chars } :: l) none) := by
      intro nx lit q d
      refine ⟨nx, lit, q, r.chars, ref_content r h.1 ?_⟩
      rw [← append_ref _ _ h.1.1]
      rfl
    have := h1.append (ih h.2 e es { f with kids := addBytes f.kids r.chars } l)
    exact this
  | cdata s c ih =>
    have := (cdata_content (es := e :: es) (dn := dn) (f := f) (l := l) h.1).append
      (ih h.2 e es { f with kids := addBytes f.kids s } l)
    exact this
  | comment s c ih => exact (comment_content h.1).append (ih h.2 e es f l)
  | pi p c ih => exact (pi_content h.1).append (ih h.2 e es f l)
  | elem n as w body wEnd c ihb ihc =>
    obtain ⟨hn, ha, hw, hb, hwe, hc⟩ := h
    have r1 := lt_content (es := e :: es) (b := B dn (f :: l) none)
    have r2 := open_tag (st := .le2) (es := e :: es) (b := B dn (f :: l) none) (dn := dn) (l := f :: l) (by simp) hn ha
      hw rfl
    have r3 := ihb hb n (e :: es) ⟨n, attrsValue as, []⟩ (f :: l)
    have r4 := end_tag (e := e) (es := es) (dn := dn) (f := ⟨n, attrsValue as, body.add []⟩) (g := f) (l := l) hn hwe
    have r5 := ihc hc e es { f with kids := f.kids ++ [.elem n (attrsValue as) (body.add [])] } l
    have := r1.append (r2.append (r3.append (r4.append r5)))
    simpa [Content.bytes, Content.add, ascii] using this
  | empty n as w c ihc =>
    obtain ⟨hn, ha, hw, hc⟩ := h
    have r1 := lt_content (es := e :: es) (b := B dn (f :: l) none)
    have r2 := empty_tag (st := .le2) (es := e :: es) (b := B dn (f :: l) none) (dn := dn) (l := f :: l) (by simp) hn ha
      hw rfl
    have r4 := close_inner (n := n) (e := e) (es := es) (dn := dn) (f := ⟨n, attrsValue as, []⟩) (g := f) (l := l)
    have r5 := ihc hc e es { f with kids := f.kids ++ [.elem n (attrsValue as) []] } l
    have := r1.append (r2.append (r4.append r5))
    simpa [Content.bytes, Content.add, ascii] using this

/-! ## The children -/

/-- The children so far do not end in a text. -/
def NoText (k : List Node) : Prop := ∀ t, k.getLast? ≠ some (.text t)

theorem squeeze_snoc (f : Bool) (l : Bytes) (b : UInt8) :
    squeeze f (l ++ [b]) = squeeze f l ++
      (if Num.isSpace b then (if (l.getLast?.map Num.isSpace).getD f then [] else [0x20]) else [b]) := by
  induction l generalizing f with
  | nil => cases f <;> simp [squeeze]
  | cons c l ih =>
    have hg : ∀ g : Bool, ((c :: l).getLast?.map Num.isSpace).getD f = (l.getLast?.map Num.isSpace).getD (Num.isSpace c) := by
      intro _
      cases l with
      | nil => simp
      | cons d l => simp [List.getLast?_cons]
    rw [hg f]
    simp only [List.cons_append, squeeze]
    by_cases hc : Num.isSpace c = true
    · simp only [hc, if_true]
      cases f <;> simp [ih]
    · simp only [hc]
      simp [ih]

theorem squeeze_last (l : Bytes) (h : squeeze true l ≠ []) :
    endsInSpace (squeeze true l) = (l.getLast?.map Num.isSpace).getD true := by
  rcases List.eq_nil_or_concat l with rfl | ⟨m, b, rfl⟩
  · simp [squeeze] at h
  · rw [List.concat_eq_append] at h ⊢
    rw [squeeze_snoc] at h ⊢
    simp only [List.getLast?_append, List.getLast?_singleton, Option.some_or, Option.map_some, Option.getD_some]
    by_cases hb : Num.isSpace b = true
    · rw [if_pos hb] at h ⊢
      by_cases hm : ((m.getLast?.map Num.isSpace).getD true) = true
      · rw [if_pos hm] at h ⊢
        rw [List.append_nil] at h ⊢
        have := squeeze_last m h
        rw [this, hm, hb]
      · rw [if_neg hm] at h ⊢
        simp [endsInSpace, hb]
        decide
    · rw [if_neg hb] at h ⊢
      simp [endsInSpace]
termination_by l.length

theorem squeeze_nil (l : Bytes) (h : squeeze true l = []) : (l.getLast?.map Num.isSpace).getD true = true := by
  rcases List.eq_nil_or_concat l with rfl | ⟨m, b, rfl⟩
  · rfl
  · rw [List.concat_eq_append] at h ⊢
    rw [squeeze_snoc] at h
    by_cases hb : Num.isSpace b = true
    · simp [hb]
    · rw [if_neg hb] at h
      simp at h

theorem append_text (k : List Node) (run : Bytes) (b : UInt8) (h : NoText k) :
    appendText (k ++ textNode run) [b] = k ++ textNode (run ++ [b]) := by
  unfold textNode
  rw [squeeze_snoc]
  by_cases h0 : squeeze true run = []
  · have hl := squeeze_nil run h0
    rw [if_pos h0, h0, hl]
    simp only [List.append_nil, List.nil_append, if_true]
    have key : appendText k [b] = if Num.isSpace b then k else k ++ [.text [b]] := by
      unfold appendText
      split
      · rename_i t ht
        exact absurd ht (h t)
      · rfl
    rw [key]
    by_cases hb : Num.isSpace b = true
    · simp [hb]
    · simp [hb]
  · rw [if_neg h0]
    have hl := squeeze_last run h0
    have h1 : (squeeze true run ++ if Num.isSpace b = true then
        if (Option.map Num.isSpace run.getLast?).getD true = true then [] else [0x20] else [b]) ≠ [] := by simp [h0]
    rw [if_neg h1, ← hl]
    unfold appendText
    simp only [List.getLast?_append, List.getLast?_singleton, Option.some_or, List.headD_cons]
    by_cases hb : Num.isSpace b = true
    · simp only [hb, if_true]
      by_cases he : endsInSpace (squeeze true run) = true
      · simp [he]
      · simp [he, h0]
    · simp [hb]

theorem addBytes_text (k : List Node) (run l : Bytes) (h : NoText k) :
    addBytes (k ++ textNode run) l = k ++ textNode (run ++ l) := by
  induction l generalizing run with
  | nil => simp [addBytes]
  | cons b l ih =>
    show addBytes (appendText (k ++ textNode run) [b]) l = _
    rw [append_text k run b h, ih]
    simp

theorem noText_elem (k : List Node) (n : Bytes) (as : List (Bytes × Bytes)) (c : List Node) : NoText (k ++ [.elem n as c]) := by
  intro t
  simp

theorem add_kids (c : Content) (k : List Node) (run : Bytes) (h : NoText k) :
    c.add (k ++ textNode run) = k ++ c.kids run := by
  induction c generalizing k run with
  | nil => rfl
  | char b c ih =>
    simp only [Content.add, Content.kids]
    rw [append_text k run b h]
    exact ih k _ h
  | ref r c ih =>
    simp only [Content.add, Content.kids]
    rw [addBytes_text k run _ h]
    exact ih k _ h
  | cdata s c ih =>
    simp only [Content.add, Content.kids]
    rw [addBytes_text k run _ h]
    exact ih k _ h
  | comment s c ih => exact ih k _ h
  | pi p c ih => exact ih k _ h
  | elem n as w body wEnd c ihb ihc =>
    simp only [Content.add, Content.kids]
    have hb := ihb [] [] (by intro t; simp)
    simp only [textNode, squeeze, if_true, List.append_nil, List.nil_append] at hb
    have hc := ihc (k ++ textNode run ++ [.elem n (attrsValue as) (body.kids [])]) [] (noText_elem _ _ _ _)
    simp only [textNode, squeeze, if_true, List.append_nil] at hc
    rw [hb]
    simpa [textNode] using hc
  | empty n as w c ihc =>
    simp only [Content.add, Content.kids]
    have hc := ihc (k ++ textNode run ++ [.elem n (attrsValue as) []]) [] (noText_elem _ _ _ _)
    simp only [textNode, squeeze, if_true, List.append_nil] at hc
    simpa [textNode] using hc

theorem add_nil (c : Content) : c.add [] = c.kids [] := by
  have := add_kids c [] [] (by intro t; simp)
  simpa [textNode, squeeze] using this

/-! ## The root -/

theorem root_run (r : Root) (h : r.OK) {st : St} (hst : st = .le0 ∨ st = .le1) :
    ∃ rest, r.bytes = 0x3c :: rest ∧
      Leads st [] emptyBuilder rest .misc3 [] (B (some r.tree) [] none) := by
  have hst' : st = .le0 ∨ st = .le1 ∨ st = .le2 := by rcases hst with h | h <;> simp [h]
  cases r with
  | elem n as w body =>
    obtain ⟨hn, ha, hw, hb⟩ := h
    have r2 := open_tag (es := []) (b := emptyBuilder) (dn := none) (l := []) hst' hn ha hw rfl
    have r3 := content_run body hb n [] none ⟨n, attrsValue as, []⟩ []
    dsimp only at r3
    rw [add_nil] at r3
    have r4 := end_root (dn := none) (f := ⟨n, attrsValue as, body.kids []⟩) hn
    refine ⟨_, ?_, r2.append (r3.append r4)⟩
    simp [Root.bytes, ascii]
  | empty n as w =>
    obtain ⟨hn, ha, hw⟩ := h
    have r2 := empty_tag (es := []) (b := emptyBuilder) (dn := none) (l := []) hst' hn ha hw rfl
    refine ⟨_, ?_, r2.append (close_root (f := ⟨n, attrsValue as, []⟩))⟩
    simp [Root.bytes, ascii]

/-! ## Before and after the root -/

/-- Before the root. -/
def Pre (st : St) : Prop := st = .init ∨ st = .misc0 ∨ st = .misc1

theorem pre_lt {st : St} {b : Builder} (h : Pre st) :
    ∃ st', (st' = .le0 ∨ st' = .le1) ∧ (st = .misc1 ∨ st' = .le0) ∧ Leads st [] b [0x3c] st' [] b := by
  rcases h with rfl | rfl | rfl
  · exact ⟨.le0, by simp, by simp, lead1 plain_lit fun nx lit q => ⟨nx, lit, q, rfl⟩⟩
  · exact ⟨.le0, by simp, by simp, lead1 plain_lit fun nx lit q => ⟨nx, lit, q, rfl⟩⟩
  · exact ⟨.le1, by simp, by simp, lead1 plain_lit fun nx lit q => ⟨nx, lit, q, rfl⟩⟩

theorem lead_blanks {st : St} {es : List Bytes} {b : Builder} {w : Bytes} (hw : Blanks w)
    (h : ∀ nx lit q ch, isSP ch = true → trans ⟨st, nx, lit, q⟩ ch = some (⟨st, nx, lit, q⟩, .ok)) :
    Leads st es b w st es b :=
  fun nx lit q d => ⟨nx, lit, q, d, blanks_same hw (h nx lit q)⟩

theorem pre_blanks {st : St} {b : Builder} {w : Bytes} (h : Pre st) (hw : Blanks w) :
    ∃ st', Pre st' ∧ Leads st [] b w st' [] b := by
  rcases h with rfl | rfl | rfl
  · match w, hw with
    | [], _ => exact ⟨.init, by simp [Pre], Leads.nil _ _ _⟩
    | c :: w, hw =>
      refine ⟨.misc0, by simp [Pre], ?_⟩
      have hc := hw c (by simp)
      refine Leads.append (l := [c]) (m := w) (st' := .misc0) (es' := []) (b' := b) ?_ ?_
      · refine lead1 (blank_plain hc) fun nx lit q => ⟨nx, lit, q, ?_⟩
        have : c ≠ 0xef := by rcases hc with rfl | rfl | rfl <;> decide
        simp [trans, isSP_of hc, this]
      · exact lead_blanks (fun x hx => hw x (by simp [hx])) fun nx lit q ch hch => by simp [trans, hch]
  · exact ⟨.misc0, by simp [Pre], lead_blanks hw fun nx lit q ch hch => by simp [trans, hch]⟩
  · exact ⟨.misc1, by simp [Pre], lead_blanks hw fun nx lit q ch hch => by simp [trans, hch]⟩

theorem bang {st : St} {b : Builder} (h : st = .le0 ∨ st = .le1) : Leads st [] b [0x21] .lee1 [] b := by
  rcases h with rfl | rfl <;> exact lead1 plain_lit fun nx lit q => ⟨nx, lit, q, rfl⟩

theorem pre_comment {st : St} {b : Builder} {s : Bytes} (h : Pre st) (hs : CommentOK s) :
    Leads st [] b (commentBytes s) .misc1 [] b := by
  obtain ⟨st', h1, _, h2⟩ := pre_lt (b := b) h
  have h3 : Leads .lee1 [] b (0x2d :: 0x2d :: (s ++ [0x2d, 0x2d, 0x3e])) .misc1 [] b := by
    intro nx lit q d
    refine ⟨.misc1, lit, q, d, ?_⟩
    refine Runs.cons (s' := S .comment1 .misc1 lit q d [] .none 0) (step_ok1 plain_lit rfl) ?_
    exact comment_run' hs
  rw [commentBytes_eq]
  exact h2.append ((bang h1).append h3)

theorem leq_pi {b : Builder} {p : PI} (h : p.OK) :
    Leads .leq0 [] b (p.target ++ p.sep ++ p.text ++ [0x3f, 0x3e]) .misc1 [] b := by
  intro nx lit q d
  obtain ⟨c, l, ht, hc, hl⟩ := h.1
  obtain ⟨st1, h0, h1⟩ : ∃ st1, trans ⟨.leq0, nx, lit, q⟩ c = some (⟨st1, .misc1, lit, q⟩, .pistart) ∧ PiAt st1 [c] := by
    by_cases hx : c = 0x78
    · subst hx; exact ⟨.xmldecl0, by simp [trans], Or.inr (Or.inl ⟨rfl, rfl⟩)⟩
    · exact ⟨.pi1, by simp [trans, hx, isNameStart_of hc], Or.inl rfl⟩
  obtain ⟨st', h2, h3⟩ := pi_target (nx := .misc1) (lit := lit) (q := q) (d := d) (es := []) (b := b) h1 hl
  have ht' : [c] ++ l = p.target := by rw [ht]; rfl
  rw [ht'] at h2 h3
  obtain ⟨d', h4⟩ := pi_end (nx := .misc1) (lit := lit) (q := q) (d := d) (es := []) (b := b) h h2
  refine ⟨.misc1, lit, q, d', ?_⟩
  have := h3.append h4
  rw [ht]
  simp only [List.cons_append, List.append_assoc] at this ⊢
  refine Runs.cons (s' := S st1 .misc1 lit q d [] (.pi [c]) 0) (b' := b) ?_ this
  exact step1 (a := .pistart) (name_plain (Or.inl hc)) h0 rfl rfl rfl

theorem pre_pi {st : St} {b : Builder} {p : PI} (h : Pre st) (hp : p.OK) : Leads st [] b p.bytes .misc1 [] b := by
  obtain ⟨st', h1, _, h2⟩ := pre_lt (b := b) h
  rw [PI.bytes_eq]
  refine h2.append ?_
  rcases h1 with rfl | rfl
  · exact Leads.append (l := [0x3f]) (lead1 plain_lit fun nx lit q => ⟨nx, lit, q, rfl⟩) (leq_pi hp)
  · intro nx lit q d
    obtain ⟨d', h3⟩ := pi_run (nx := .misc1) (lit := lit) (q := q) (d := d) (es := []) (b := b) hp
    exact ⟨_, _, _, _, Runs.cons (s' := S .pi0 .misc1 lit q d [] .none 0) (step_ok1 plain_lit rfl) h3⟩

theorem dt_string {nx : St} {lit : Bytes} {q : UInt8} {d : Bytes} {b : Builder} {s : Bytes} (hq : Quote q)
    (h : ∀ c ∈ s, Plain c ∧ c ≠ q) :
    Runs (S .dt1 nx lit q d [] .none 0) b (s ++ [q]) (S nx nx lit q d [] .none 0) b := by
  refine Runs.append (loop_same fun c hc => ⟨(h c hc).1, ?_⟩) ?_
  · have h0 : ¬ q = c := fun h0 => (h c hc).2 h0.symm
    simp [trans, h0]
  · refine step_ok1 ?_ ?_
    · rcases hq with rfl | rfl <;> exact plain_lit
    · simp [trans]

theorem dt_atom {b : Builder} {a : DtAtom} (h : a.OK) :
    Leads .dt0 [] b a.bytes .dt0 [] b ∧ Leads .dt4 [] b a.bytes .dt4 [] b := by
  cases a with
  | char c =>
    obtain ⟨h1, h2, h3, h4⟩ := h
    have h2 : c ≠ 0x22 ∧ c ≠ 0x27 := by simpa [Quote] using h2
    exact ⟨lead1 h1 fun nx lit q => ⟨nx, lit, q, by simp [trans, h2, h3, h4]⟩,
      lead1 h1 fun nx lit q => ⟨nx, lit, q, by simp [trans, h2, h4]⟩⟩
  | str r s =>
    obtain ⟨hq, hs⟩ := h
    have hp : Plain r := by rcases hq with rfl | rfl <;> exact plain_lit
    refine ⟨?_, ?_⟩
    · intro nx lit q d
      refine ⟨.dt0, lit, r, d, ?_⟩
      refine Runs.cons (s' := S .dt1 .dt0 lit r d [] .none 0) (b' := b) ?_ (dt_string hq hs)
      exact step_ok1 hp (by rcases hq with rfl | rfl <;> simp [trans])
    · intro nx lit q d
      refine ⟨.dt4, lit, r, d, ?_⟩
      refine Runs.cons (s' := S .dt1 .dt4 lit r d [] .none 0) (b' := b) ?_ (dt_string hq hs)
      exact step_ok1 hp (by rcases hq with rfl | rfl <;> simp [trans])

theorem dt_atoms {b : Builder} {l : List DtAtom} (h : ∀ a ∈ l, a.OK) : Leads .dt4 [] b (l.flatMap DtAtom.bytes) .dt4 [] b := by
  induction l with
  | nil => exact Leads.nil _ _ _
  | cons a l ih =>
    rw [List.flatMap_cons]
    exact (dt_atom (h a (by simp))).2.append (ih fun x hx => h x (by simp [hx]))

theorem dt_item {b : Builder} {i : DtItem} (h : i.OK) : Leads .dt0 [] b i.bytes .dt0 [] b := by
  cases i with
  | atom a => exact (dt_atom h).1
  | comment s =>
    intro nx lit q d
    refine ⟨.dt0, lit, q, d, ?_⟩
    simp only [DtItem.bytes, commentBytes_eq]
    refine Runs.cons (s' := S .dt2 nx lit q d [] .none 0) (step_ok1 plain_lit rfl) ?_
    refine Runs.cons (s' := S .dt3 nx lit q d [] .none 0) (step_ok1 plain_lit rfl) ?_
    refine Runs.cons (s' := S .comment1 .dt0 lit q d [] .none 0) (step_ok1 plain_lit rfl) ?_
    exact comment_run' h
  | pi p =>
    intro nx lit q d
    obtain ⟨d', h3⟩ := pi_run (nx := .dt0) (lit := lit) (q := q) (d := d) (es := []) (b := b) h
    refine ⟨.dt0, lit, q, d', ?_⟩
    simp only [DtItem.bytes, PI.bytes_eq]
    refine Runs.cons (s' := S .dt2 nx lit q d [] .none 0) (step_ok1 plain_lit rfl) ?_
    exact Runs.cons (s' := S .pi0 .dt0 lit q d [] .none 0) (step_ok1 plain_lit rfl) h3
  | decl c l =>
    obtain ⟨hc, hl⟩ := h
    have r1 : Leads .dt0 [] b [0x3c] .dt2 [] b := lead1 plain_lit fun nx lit q => ⟨nx, lit, q, rfl⟩
    have r2 : Leads .dt2 [] b [0x21] .dt3 [] b := lead1 plain_lit fun nx lit q => ⟨nx, lit, q, rfl⟩
    have r3 : Leads .dt3 [] b [c] .dt4 [] b := lead1 (name_plain (Or.inl hc)) fun nx lit q =>
      ⟨nx, lit, q, by simp [trans, (start_facts hc).1]⟩
    have r5 : Leads .dt4 [] b [0x3e] .dt0 [] b := lead1 plain_lit fun nx lit q => ⟨nx, lit, q, rfl⟩
    have := r1.append (r2.append (r3.append ((dt_atoms hl).append r5)))
    simpa [DtItem.bytes, ascii] using this

theorem dt_items {b : Builder} {l : List DtItem} (h : ∀ a ∈ l, a.OK) : Leads .dt0 [] b (l.flatMap DtItem.bytes) .dt0 [] b := by
  induction l with
  | nil => exact Leads.nil _ _ _
  | cons a l ih =>
    rw [List.flatMap_cons]
    exact (dt_item (h a (by simp))).append (ih fun x hx => h x (by simp [hx]))

theorem pre_doctype {st : St} {b : Builder} {l : List DtItem} (h : Pre st) (hl : ∀ i ∈ l, i.OK) :
    Leads st [] b (Misc.doctype l).bytes .misc1 [] b := by
  obtain ⟨st', h1, _, h2⟩ := pre_lt (b := b) h
  have r3 : Leads .lee1 [] b ([0x44] ++ [0x4f, 0x43, 0x54, 0x59, 0x50, 0x45]) .dt0 [] b := by
    intro nx lit q d
    refine ⟨.dt0, [], q, d, ?_⟩
    refine Runs.cons (s' := S .string .dt0 [0x4f, 0x43, 0x54, 0x59, 0x50, 0x45] q d [] .none 0) (step_ok1 plain_lit rfl) ?_
    exact lit_run (by simp) (by unfold Plain; decide)
  have r5 : Leads .dt0 [] b [0x3e] .misc1 [] b := lead1 plain_lit fun nx lit q => ⟨nx, lit, q, rfl⟩
  have := h2.append ((bang h1).append (r3.append ((dt_items hl).append r5)))
  simpa [Misc.bytes, ascii] using this

theorem pre_misc {st : St} {b : Builder} {l : List Misc} (h : Pre st) (hl : ∀ m ∈ l, m.OK true) :
    ∃ st', Pre st' ∧ Leads st [] b (l.flatMap Misc.bytes) st' [] b := by
  induction l generalizing st with
  | nil => exact ⟨st, h, Leads.nil _ _ _⟩
  | cons m l ih =>
    have hm := hl m (by simp)
    have h1 : ∃ st', Pre st' ∧ Leads st [] b m.bytes st' [] b := by
      cases m with
      | blanks w => exact pre_blanks h hm
      | comment s => exact ⟨.misc1, by simp [Pre], pre_comment h hm⟩
      | pi p => exact ⟨.misc1, by simp [Pre], pre_pi h hm⟩
      | doctype l => exact ⟨.misc1, by simp [Pre], pre_doctype h hm.2⟩
    obtain ⟨st1, h2, h3⟩ := h1
    obtain ⟨st2, h4, h5⟩ := ih h2 fun x hx => hl x (by simp [hx])
    rw [List.flatMap_cons]
    exact ⟨st2, h4, h3.append h5⟩

theorem post_misc {b : Builder} {l : List Misc} (hl : ∀ m ∈ l, m.OK false) :
    Leads .misc3 [] b (l.flatMap Misc.bytes) .misc3 [] b := by
  induction l with
  | nil => exact Leads.nil _ _ _
  | cons m l ih =>
    have hm := hl m (by simp)
    rw [List.flatMap_cons]
    refine Leads.append ?_ (ih fun x hx => hl x (by simp [hx]))
    cases m with
    | blanks w => exact lead_blanks hm fun nx lit q ch hch => by simp [trans, hch]
    | comment s =>
      intro nx lit q d
      refine ⟨.misc3, lit, q, d, ?_⟩
      simp only [Misc.bytes, commentBytes_eq]
      refine Runs.cons (s' := S .le3 nx lit q d [] .none 0) (step_ok1 plain_lit rfl) ?_
      refine Runs.cons (s' := S .comment0 .misc3 lit q d [] .none 0) (step_ok1 plain_lit rfl) ?_
      refine Runs.cons (s' := S .comment1 .misc3 lit q d [] .none 0) (step_ok1 plain_lit rfl) ?_
      exact comment_run' hm
    | pi p =>
      intro nx lit q d
      obtain ⟨d', h3⟩ := pi_run (nx := .misc3) (lit := lit) (q := q) (d := d) (es := []) (b := b) hm
      refine ⟨.misc3, lit, q, d', ?_⟩
      simp only [Misc.bytes, PI.bytes_eq]
      refine Runs.cons (s' := S .le3 nx lit q d [] .none 0) (step_ok1 plain_lit rfl) ?_
      exact Runs.cons (s' := S .pi0 .misc3 lit q d [] .none 0) (step_ok1 plain_lit rfl) h3
    | doctype l => exact absurd hm.1 (by simp)

/-! ## The XML declaration -/

/-- White space around the equals sign, and the quote. -/
theorem eq_part {st0 st1 : St} {b : Builder} {w1 w2 : Bytes} {nx : St} {lit : Bytes} {q r : UInt8} {d : Bytes} {c2 : Ctl}
    (hr : Quote r) (hw1 : Blanks w1) (hw2 : Blanks w2)
    (h0 : ∀ ch, isSP ch = true → trans ⟨st0, nx, lit, q⟩ ch = some (⟨st0, nx, lit, q⟩, .ok))
    (h0' : trans ⟨st0, nx, lit, q⟩ 0x3d = some (⟨st1, nx, lit, q⟩, .ok))
    (h1 : ∀ ch, isSP ch = true → trans ⟨st1, nx, lit, q⟩ ch = some (⟨st1, nx, lit, q⟩, .ok))
    (h1' : ∀ r, (r = 0x27 ∨ r = 0x22) → isSP r = false → trans ⟨st1, nx, lit, q⟩ r = some ({ c2 with quote := r }, .ok)) :
    Runs (S st0 nx lit q d [] .none 0) b (w1 ++ ([0x3d] ++ (w2 ++ [r])))
      (S c2.st c2.next c2.lit r d [] .none 0) b := by
  refine Runs.append (blanks_same hw1 h0) (Runs.append (step_ok1 plain_lit h0') (Runs.append (blanks_same hw2 h1) ?_))
  have hp : Plain r := by rcases hr with rfl | rfl <;> exact plain_lit
  have := step_ok1 (b := b) (d := d) (es := []) (top := .none) (k := 0) hp
    (h1' r (by rcases hr with rfl | rfl <;> simp) (by rcases hr with rfl | rfl <;> decide))
  exact this

theorem quote_facts {r : UInt8} (h : Quote r) : Plain r ∧ isNum r = false ∧ isEncName r = false := by
  rcases h with rfl | rfl <;> (unfold Plain; decide)

theorem ver_run {b : Builder} {e : Eq} {m : Bytes} (he : e.OK) (hm : m ≠ [] ∧ ∀ c ∈ m, 0x30 ≤ c ∧ c ≤ 0x39)
    {nx : St} {lit : Bytes} {q : UInt8} {d : Bytes} :
    ∃ nx' lit' q' d', Runs (S .xmldecl2 nx lit q d [] (.pi [0x78, 0x6d, 0x6c]) 0) b
      (e.bytes (ascii "version") (ascii "1." ++ m)) (S .xmldecl4 nx' lit' q' d' [] .none 0) b := by
  obtain ⟨⟨hp0, hp⟩, hw1, hw2, hq⟩ := he
  refine ⟨.ver2, [], e.quote, d, ?_⟩
  have r1 : Runs (S .xmldecl2 nx lit q d [] (.pi [0x78, 0x6d, 0x6c]) 0) b e.pre (S .xmldecl3 nx lit q d [] .none 0) b := by
    match he : e.pre, hp0, hp with
    | c :: w, _, hp =>
      have hc := hp c (by simp)
      refine Runs.cons (s' := S .xmldecl3 nx lit q d [] .none 0) (b' := b) ?_ ?_
      · exact step1 (c := ⟨.xmldecl3, nx, lit, q⟩) (a := .piabort) (blank_plain hc) (by simp [trans, isSP_of hc]) rfl rfl rfl
      · exact blanks_same (fun x hx => hp x (by simp [hx])) fun ch hch => by simp [trans, hch]
  have r2 : Runs (S .xmldecl3 nx lit q d [] .none 0) b ([0x76] ++ [0x65, 0x72, 0x73, 0x69, 0x6f, 0x6e])
      (S .ver0 .ver0 [] q d [] .none 0) b := by
    refine Runs.cons (s' := S .string .ver0 [0x65, 0x72, 0x73, 0x69, 0x6f, 0x6e] q d [] .none 0) (step_ok1 plain_lit rfl) ?_
    exact lit_run (by simp) (by unfold Plain; decide)
  have r3 := eq_part (st0 := .ver0) (st1 := .ver1) (b := b) (nx := .ver0) (lit := []) (q := q) (r := e.quote) (d := d)
    (c2 := ⟨.string, .ver2, [0x31, 0x2e], 0⟩) hq hw1 hw2
    (fun ch hch => by simp [trans, hch]) rfl (fun ch hch => by simp [trans, hch])
    (fun r hr hs => by simp [trans, hr, hs])
  have r4 : Runs (S .string .ver2 [0x31, 0x2e] e.quote d [] .none 0) b [0x31, 0x2e] (S .ver2 .ver2 [] e.quote d [] .none 0) b :=
    lit_run (by simp) (by unfold Plain; decide)
  have r5 : Runs (S .ver2 .ver2 [] e.quote d [] .none 0) b m (S .ver3 .ver2 [] e.quote d [] .none 0) b := by
    match m, hm.1, hm.2 with
    | c :: m, _, hm =>
      have hc := isNum_digit (hm c (by simp))
      refine Runs.cons (s' := S .ver3 .ver2 [] e.quote d [] .none 0) (b' := b) ?_ ?_
      · exact step_ok1 hc.2.2.2.1 (by simp [trans, hc.2.1])
      · refine loop_same fun x hx => ?_
        have hx := isNum_digit (hm x (by simp [hx]))
        exact ⟨hx.2.2.2.1, by simp [trans, hx.2.1]⟩
  have r6 : Runs (S .ver3 .ver2 [] e.quote d [] .none 0) b [e.quote] (S .xmldecl4 .ver2 [] e.quote d [] .none 0) b := by
    have hf := quote_facts hq
    exact step_ok1 hf.1 (by simp [trans, hf])
  have := r1.append (r2.append (r3.append (r4.append (r5.append r6))))
  simpa [Eq.bytes, ascii] using this

theorem encName_facts {c : UInt8} : ((0x61 ≤ c ∧ c ≤ 0x7a) ∨ (0x41 ≤ c ∧ c ≤ 0x5a)) → isAlpha c = true ∧ Plain c :=
  all_bytes (P := fun c => ((0x61 ≤ c ∧ c ≤ 0x7a) ∨ (0x41 ≤ c ∧ c ≤ 0x5a)) → isAlpha c = true ∧ Plain c)
    (by unfold Plain; decide +kernel) c

theorem encName_facts' {c : UInt8} :
    ((0x61 ≤ c ∧ c ≤ 0x7a) ∨ (0x41 ≤ c ∧ c ≤ 0x5a) ∨ (0x30 ≤ c ∧ c ≤ 0x39) ∨ c = 0x2e ∨ c = 0x5f ∨ c = 0x2d) →
      isEncName c = true ∧ Plain c :=
  all_bytes (P := fun c =>
    ((0x61 ≤ c ∧ c ≤ 0x7a) ∨ (0x41 ≤ c ∧ c ≤ 0x5a) ∨ (0x30 ≤ c ∧ c ≤ 0x39) ∨ c = 0x2e ∨ c = 0x5f ∨ c = 0x2d) →
      isEncName c = true ∧ Plain c) (by unfold Plain; decide +kernel) c

/-- After the version or the encoding, `st'` with white space. -/
theorem decl_blanks {st st' : St} {b : Builder} {w : Bytes} (hw : Blanks1 w)
    (h0 : ∀ nx lit q ch, isSP ch = true → trans ⟨st, nx, lit, q⟩ ch = some (⟨st', nx, lit, q⟩, .ok))
    (h1 : ∀ nx lit q ch, isSP ch = true → trans ⟨st', nx, lit, q⟩ ch = some (⟨st', nx, lit, q⟩, .ok)) :
    Leads st [] b w st' [] b := by
  match w, hw with
  | c :: w, ⟨_, hw⟩ =>
    have hc := hw c (by simp)
    refine Leads.append (l := [c]) (m := w) (st' := st') (es' := []) (b' := b) ?_ ?_
    · exact lead1 (blank_plain hc) fun nx lit q => ⟨nx, lit, q, h0 nx lit q c (isSP_of hc)⟩
    · exact lead_blanks (fun x hx => hw x (by simp [hx])) h1
  | [], hw => exact absurd rfl hw.1

theorem enc_run {b : Builder} {e : Eq} {n : Bytes} (he : e.OK) (hn : EncName n) :
    Leads .xmldecl4 [] b (e.bytes (ascii "encoding") n) .xmldecl6 [] b := by
  obtain ⟨hp, hw1, hw2, hq⟩ := he
  have r1 : Leads .xmldecl4 [] b e.pre .xmldecl5 [] b :=
    decl_blanks hp (fun nx lit q ch hch => by simp [trans, hch]) (fun nx lit q ch hch => by simp [trans, hch])
  have r2 : Leads .xmldecl5 [] b ([0x65] ++ [0x6e, 0x63, 0x6f, 0x64, 0x69, 0x6e, 0x67]) .enc0 [] b := by
    intro nx lit q d
    refine ⟨.enc0, [], q, d, ?_⟩
    refine Runs.cons (s' := S .string .enc0 [0x6e, 0x63, 0x6f, 0x64, 0x69, 0x6e, 0x67] q d [] .none 0) (step_ok1 plain_lit rfl) ?_
    exact lit_run (by simp) (by unfold Plain; decide)
  have r3 : Leads .enc0 [] b (e.w1 ++ ([0x3d] ++ (e.w2 ++ [e.quote])) ++ (n ++ [e.quote])) .xmldecl6 [] b := by
    intro nx lit q d
    refine ⟨nx, lit, e.quote, d, ?_⟩
    refine Runs.append (eq_part (st0 := .enc0) (st1 := .enc1) (b := b) (nx := nx) (lit := lit) (q := q) (r := e.quote) (d := d)
      (c2 := ⟨.enc2, nx, lit, 0⟩) hq hw1 hw2
      (fun ch hch => by simp [trans, hch]) rfl (fun ch hch => by simp [trans, hch])
      (fun r hr hs => by simp [trans, hr, hs])) ?_
    obtain ⟨c, l, rfl, hc, hl⟩ := hn
    have hf := encName_facts hc
    refine Runs.cons (s' := S .enc3 nx lit e.quote d [] .none 0) (b' := b) ?_ ?_
    · exact step_ok1 hf.2 (by simp [trans, hf.1])
    · refine Runs.append (loop_same fun x hx => ?_) ?_
      · have hx := encName_facts' (hl x hx)
        exact ⟨hx.2, by simp [trans, hx.1]⟩
      · have hf := quote_facts hq
        exact step_ok1 hf.1 (by simp [trans, hf])
  have := r1.append (r2.append r3)
  simpa [Eq.bytes, ascii] using this

theorem std_run {st : St} {b : Builder} {e : Eq} {y : Bool} (hst : st = .xmldecl4 ∨ st = .xmldecl6) (he : e.OK) :
    Leads st [] b (e.bytes (ascii "standalone") (if y then ascii "yes" else ascii "no")) .xmldecl8 [] b := by
  obtain ⟨hp, hw1, hw2, hq⟩ := he
  have hf := quote_facts hq
  have r1 : ∃ st', (st' = .xmldecl5 ∨ st' = .xmldecl7) ∧ Leads st [] b e.pre st' [] b := by
    rcases hst with rfl | rfl
    · exact ⟨.xmldecl5, by simp, decl_blanks hp (fun nx lit q ch hch => by simp [trans, hch])
        (fun nx lit q ch hch => by simp [trans, hch])⟩
    · exact ⟨.xmldecl7, by simp, decl_blanks hp (fun nx lit q ch hch => by simp [trans, hch])
        (fun nx lit q ch hch => by simp [trans, hch])⟩
  obtain ⟨st', hst', r1⟩ := r1
  have r2 : Leads st' [] b ([0x73] ++ [0x74, 0x61, 0x6e, 0x64, 0x61, 0x6c, 0x6f, 0x6e, 0x65]) .std0 [] b := by
    intro nx lit q d
    refine ⟨.std0, [], q, d, ?_⟩
    refine Runs.cons (s' := S .string .std0 [0x74, 0x61, 0x6e, 0x64, 0x61, 0x6c, 0x6f, 0x6e, 0x65] q d [] .none 0) (b' := b) ?_ ?_
    · rcases hst' with rfl | rfl <;> exact step_ok1 plain_lit rfl
    · exact lit_run (by simp) (by unfold Plain; decide)
  have r3 : Leads .std0 [] b (e.w1 ++ ([0x3d] ++ (e.w2 ++ [e.quote])) ++
      ((if y then ascii "yes" else ascii "no") ++ [e.quote])) .xmldecl8 [] b := by
    intro nx lit q d
    refine ⟨.std3, [], e.quote, d, ?_⟩
    refine Runs.append (eq_part (st0 := .std0) (st1 := .std1) (b := b) (nx := nx) (lit := lit) (q := q) (r := e.quote) (d := d)
      (c2 := ⟨.std2, nx, lit, 0⟩) hq hw1 hw2
      (fun ch hch => by simp [trans, hch]) rfl (fun ch hch => by simp [trans, hch])
      (fun r hr hs => by simp [trans, hr, hs])) ?_
    refine Runs.append (s' := S .std3 .std3 [] e.quote d [] .none 0) (b' := b) ?_ ?_
    · cases y
      · refine Runs.cons (ch := 0x6e) (s' := S .string .std3 [0x6f] e.quote d [] .none 0) (step_ok1 plain_lit rfl) ?_
        exact lit_run (l := [0x6f]) (by simp) (by unfold Plain; decide)
      · refine Runs.cons (ch := 0x79) (s' := S .string .std3 [0x65, 0x73] e.quote d [] .none 0) (step_ok1 plain_lit rfl) ?_
        exact lit_run (l := [0x65, 0x73]) (by simp) (by unfold Plain; decide)
    · exact step_ok1 hf.1 (by simp [trans])
  have := r1.append (r2.append r3)
  simpa [Eq.bytes, ascii] using this

theorem decl_end {st : St} {b : Builder} {w : Bytes} (hst : st = .xmldecl4 ∨ st = .xmldecl6 ∨ st = .xmldecl8) (hw : Blanks w) :
    Leads st [] b (w ++ [0x3f, 0x3e]) .misc1 [] b := by
  have fin : Leads .xmldecl9 [] b [0x3e] .misc1 [] b := lead1 plain_lit fun nx lit q => ⟨nx, lit, q, rfl⟩
  have q : ∀ {st}, (st = .xmldecl4 ∨ st = .xmldecl5 ∨ st = .xmldecl6 ∨ st = .xmldecl7 ∨ st = .xmldecl8) →
      Leads st [] b [0x3f, 0x3e] .misc1 [] b := by
    rintro st (rfl | rfl | rfl | rfl | rfl) <;>
      exact Leads.append (l := [0x3f]) (lead1 plain_lit fun nx lit q => ⟨nx, lit, q, rfl⟩) fin
  by_cases h0 : w = []
  · subst h0
    exact q (by rcases hst with h | h | h <;> simp [h])
  · rcases hst with rfl | rfl | rfl
    · exact (decl_blanks (st' := .xmldecl5) ⟨h0, hw⟩ (fun nx lit q ch hch => by simp [trans, hch])
        (fun nx lit q ch hch => by simp [trans, hch])).append (q (by simp))
    · exact (decl_blanks (st' := .xmldecl7) ⟨h0, hw⟩ (fun nx lit q ch hch => by simp [trans, hch])
        (fun nx lit q ch hch => by simp [trans, hch])).append (q (by simp))
    · exact (decl_blanks (st' := .xmldecl8) ⟨h0, hw⟩ (fun nx lit q ch hch => by simp [trans, hch])
        (fun nx lit q ch hch => by simp [trans, hch])).append (q (by simp))

theorem decl_run {st : St} {b : Builder} {x : Decl} (hst : st = .init ∨ st = .misc0) (h : x.OK) :
    Leads st [] b x.bytes .misc1 [] b := by
  obtain ⟨hv, hm, he, hs, hw⟩ := h
  have hpre : Pre st := by rcases hst with rfl | rfl <;> simp [Pre]
  obtain ⟨st', _, h1, h2⟩ := pre_lt (b := b) hpre
  have h1 : st' = .le0 := by
    rcases h1 with h1 | h1
    · rcases hst with rfl | rfl <;> simp at h1
    · exact h1
  subst h1
  have r1 : Leads .le0 [] b ([0x3f] ++ ([0x78, 0x6d, 0x6c] ++ x.ver.bytes (ascii "version") (ascii "1." ++ x.minor)))
      .xmldecl4 [] b := by
    intro nx lit q d
    obtain ⟨nx', lit', q', d', hr⟩ := ver_run (b := b) hv hm (nx := .misc1) (lit := lit) (q := q) (d := d)
    refine ⟨nx', lit', q', d', ?_⟩
    refine Runs.cons (s' := S .leq0 nx lit q d [] .none 0) (step_ok1 plain_lit rfl) ?_
    refine Runs.cons (s' := S .xmldecl0 .misc1 lit q d [] (.pi [0x78]) 0) (b' := b) (step1 plain_lit rfl rfl rfl rfl) ?_
    refine Runs.cons (s' := S .xmldecl1 .misc1 lit q d [] (.pi [0x78, 0x6d]) 0) (b' := b) (step1 plain_lit rfl rfl rfl rfl) ?_
    exact Runs.cons (s' := S .xmldecl2 .misc1 lit q d [] (.pi [0x78, 0x6d, 0x6c]) 0) (b' := b)
      (step1 plain_lit rfl rfl rfl rfl) hr
  have r2 : ∃ st2, (st2 = .xmldecl4 ∨ st2 = .xmldecl6) ∧
      Leads .xmldecl4 [] b (match x.enc with | some (e, n) => e.bytes (ascii "encoding") n | none => []) st2 [] b := by
    match hx : x.enc with
    | none => exact ⟨.xmldecl4, by simp, Leads.nil _ _ _⟩
    | some (e, n) =>
      have := he e n hx
      exact ⟨.xmldecl6, by simp, enc_run this.1 this.2⟩
  obtain ⟨st2, hst2, r2⟩ := r2
  have r3 : ∃ st3, (st3 = .xmldecl4 ∨ st3 = .xmldecl6 ∨ st3 = .xmldecl8) ∧
      Leads st2 [] b (match x.std with
        | some (e, y) => e.bytes (ascii "standalone") (if y then ascii "yes" else ascii "no") | none => []) st3 [] b := by
    match hx : x.std with
    | none => exact ⟨st2, by rcases hst2 with rfl | rfl <;> simp, Leads.nil _ _ _⟩
    | some (e, y) => exact ⟨.xmldecl8, by simp, std_run hst2 (hs e y hx)⟩
  obtain ⟨st3, hst3, r3⟩ := r3
  have := h2.append (r1.append (r2.append (r3.append (decl_end hst3 hw))))
  have e : x.bytes = [0x3c] ++ (([0x3f] ++ ([0x78, 0x6d, 0x6c] ++ x.ver.bytes (ascii "version") (ascii "1." ++ x.minor))) ++
      ((match x.enc with | some (e, n) => e.bytes (ascii "encoding") n | none => []) ++
      ((match x.std with
        | some (e, y) => e.bytes (ascii "standalone") (if y then ascii "yes" else ascii "no") | none => []) ++
        (x.w ++ [0x3f, 0x3e])))) := by
    unfold Decl.bytes
    simp only [List.append_assoc]
    rfl
  rw [e]
  exact this

theorem bom_run {b : Builder} : Leads .init [] b [0xef, 0xbb, 0xbf] .misc0 [] b := by
  intro nx lit q d
  refine ⟨.misc0, [], q, d, ?_⟩
  refine Runs.cons (s' := S .string .misc0 [0xbb, 0xbf] q d [] .none 0) (step_ok1 plain_lit rfl) ?_
  exact lit_run (by simp) (by unfold Plain; decide)

/-- The parser on a document. -/
theorem doc_run (x : Doc) (h : x.OK) : Leads .init [] emptyBuilder x.bytes .misc3 [] (B (some x.root.tree) [] none) := by
  obtain ⟨hd, hb, hr, ha⟩ := h
  have r1 : ∃ st, (st = .init ∨ st = .misc0) ∧
      Leads .init [] emptyBuilder (if x.bom then [0xef, 0xbb, 0xbf] else []) st [] emptyBuilder := by
    cases x.bom
    · exact ⟨.init, by simp, Leads.nil _ _ _⟩
    · exact ⟨.misc0, by simp, bom_run⟩
  obtain ⟨st, hst, r1⟩ := r1
  have r2 : ∃ st2, Pre st2 ∧
      Leads st [] emptyBuilder (match x.decl with | some x => x.bytes | none => []) st2 [] emptyBuilder := by
    match hx : x.decl with
    | none => exact ⟨st, by rcases hst with rfl | rfl <;> simp [Pre], Leads.nil _ _ _⟩
    | some y => exact ⟨.misc1, by simp [Pre], decl_run hst (hd y hx)⟩
  obtain ⟨st2, hst2, r2⟩ := r2
  obtain ⟨st3, hst3, r3⟩ := pre_misc (b := emptyBuilder) hst2 hb
  obtain ⟨st4, hst4, _, r4⟩ := pre_lt (b := emptyBuilder) hst3
  obtain ⟨rest, he, r5⟩ := root_run x.root hr hst4
  have := r1.append (r2.append (r3.append (r4.append (r5.append (post_misc ha)))))
  have e : x.bytes = (if x.bom then [0xef, 0xbb, 0xbf] else []) ++ ((match x.decl with | some x => x.bytes | none => []) ++
      (x.before.flatMap Misc.bytes ++ ([0x3c] ++ (rest ++ x.after.flatMap Misc.bytes)))) := by
    unfold Doc.bytes
    rw [he]
    simp only [List.append_assoc, List.cons_append, List.nil_append]
    rfl
  rw [e]
  exact this

theorem aparse_doc (x : Doc) (h : x.OK) : aparse x.bytes = some x.root.tree := by
  obtain ⟨nx, lit, q, d, hr⟩ := doc_run x h .string [] 0 []
  unfold Runs at hr
  unfold aparse
  have hr' : aloop astart emptyBuilder x.bytes = _ := hr
  rw [hr']
  rfl

end Duck.Xml
