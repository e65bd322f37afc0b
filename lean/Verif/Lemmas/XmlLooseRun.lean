import Verif.Lemmas.XmlAccept

/-! # Helper lemmas for XML: the parser on every text of the loose grammar -/

namespace Duck.Xml.Loose

/-! ## References -/

theorem inner_taken (r : Ref) (h : r.Taken) :
    (∀ c ∈ r.inner, isRef c = true ∧ Plain c) ∧ r.inner.length ≤ 7 ∧ refValue r.inner = r.value := by
  obtain ⟨hl, _⟩ := h
  cases r with
  | lt | gt | amp | apos | quot => unfold Plain; decide
  | dec ds =>
    have hd : ∀ c ∈ ds, _ := fun c hc => isNum_digit (hl.2 c hc)
    refine ⟨?_, by have := hl.1; simp only [Ref.inner, List.length_cons]; omega, ?_⟩
    · intro c hc
      simp only [Ref.inner, List.mem_cons] at hc
      rcases hc with rfl | hc
      · unfold Plain; decide
      · exact ⟨(hd c hc).1, (hd c hc).2.2.2.1⟩
    · simp only [Ref.inner]
      unfold refValue
      split
      · rename_i r heq
        simp only [List.cons.injEq, true_and] at heq
        exact absurd rfl (hd 0x78 (by rw [heq]; simp)).2.2.2.2
      · rename_i r _ heq
        simp only [List.cons.injEq, true_and] at heq
        subst heq
        have h2 := all_dropWhile (p := isNum) (l := ds) fun c hc => (hd c hc).2.1
        rw [h2.1, h2.2, if_pos rfl]
        exact foldl_digit (fun c hc => (hd c hc).2.2.1) 0
      · rename_i h1 h2
        exact absurd rfl (h2 ds)
  | hex ds =>
    have hd : ∀ c ∈ ds, _ := fun c hc => isRef_digit (hl.2 c hc)
    refine ⟨?_, by have := hl.1; simp only [Ref.inner, List.length_cons]; omega, ?_⟩
    · intro c hc
      simp only [Ref.inner, List.mem_cons] at hc
      rcases hc with rfl | rfl | hc
      · unfold Plain; decide
      · unfold Plain; decide
      · exact ⟨(hd c hc).1, (hd c hc).2.2.2⟩
    · simp only [Ref.inner, refValue]
      have h2 := all_dropWhile (p := isHex) (l := ds) fun c hc => (hd c hc).2.1
      rw [h2.1, h2.2, if_pos rfl]
      exact foldl_digit (fun c hc => (hd c hc).2.2.1) 0

theorem rejected_not {r : Ref} (h : r.Taken) : refRejected r.value = false := by
  obtain ⟨_, h0, h1, h2, h3, h4⟩ := h
  unfold refRejected
  simp only [Bool.or_eq_false_iff, beq_eq_false_iff_ne, decide_eq_false_iff_not]
  refine ⟨⟨⟨⟨h0, by omega⟩, h2⟩, h3⟩, by omega⟩

theorem setutf8_taken {r : Ref} (h : r.Taken) : setutf8 r.value = utf8Of r.value := utf8Of_eq (by have := h.2.2.1; omega)

theorem ref_content {nx : St} {lit : Bytes} {q : UInt8} {d : Bytes} {es : List Bytes} {b b' : Builder} (r : Ref)
    (h : r.Taken) (hb : build b .content (utf8Of r.value) = some b') :
    Runs (S .misc2 nx lit q d es .none 0) b r.bytes (S .misc2 nx lit q (utf8Of r.value) es .none 0) b' := by
  obtain ⟨h1, h2, h3⟩ := inner_taken r h
  rw [Ref.bytes_eq]
  refine Runs.cons (s' := S .misc2a nx lit q [] es .none 0) (b' := b) ?_ ?_
  · exact step1 (by unfold Plain; decide) rfl rfl rfl rfl
  · refine Runs.append (ref_bytes (d := []) (fun ch hc => by simp [trans, hc]) h1 (by simpa using h2)) ?_
    refine step1 (by unfold Plain; decide) (c := ⟨.misc2, nx, lit, q⟩) (a := .refcontent) rfl ?_ rfl hb
    simp only [aperform, arefend, List.nil_append, h3, rejected_not h, Bool.false_eq_true, if_false,
      setutf8_taken h]

theorem ref_attr {nx : St} {lit : Bytes} {q : UInt8} {d : Bytes} {es : List Bytes} {t : Bytes} {b b' : Builder}
    (r : Ref) (h : r.Taken) (hb : build b .attrval (utf8Of r.value) = some b') :
    Runs (S .attr3 nx lit q d es (.attr t) 0) b r.bytes (S .attr3 nx lit q (utf8Of r.value) es (.attr t) 0) b' := by
  obtain ⟨h1, h2, h3⟩ := inner_taken r h
  rw [Ref.bytes_eq]
  refine Runs.cons (s' := S .attr4 nx lit q [] es (.attr t) 0) (b' := b) ?_ ?_
  · exact step1 (c := ⟨.attr4, nx, lit, q⟩) (a := .refstart) (by unfold Plain; decide) (by simp [trans]) rfl rfl rfl
  · refine Runs.append (ref_bytes (d := []) (fun ch hc => by simp [trans, hc]) h1 (by simpa using h2)) ?_
    refine step1 (by unfold Plain; decide) (c := ⟨.attr3, nx, lit, q⟩) (a := .refattrval) rfl ?_ rfl hb
    simp only [aperform, arefend, List.nil_append, h3, rejected_not h, Bool.false_eq_true, if_false,
      setutf8_taken h]

/-! ## Processing instructions -/

theorem pi_text {nx : St} {lit : Bytes} {q : UInt8} {es : List Bytes} {b : Builder} {t : Bytes} {s : Bytes} (h : PiText s) :
    ∀ d, ∃ d', Runs (S .pi2 nx lit q d es (.pi t) 0) b (s ++ [0x3f, 0x3e]) (S nx nx lit q d' es .none 0) b := by
  induction h with
  | nil =>
    intro d
    refine ⟨d, ?_⟩
    refine Runs.cons (s' := S .pi3 nx lit q d es (.pi t) 0) (step_ok1 plain_lit rfl) ?_
    exact step1 plain_lit rfl rfl rfl rfl
  | char c l hp hc _ ih =>
    intro d
    obtain ⟨d', hd⟩ := ih [c]
    refine ⟨d', Runs.cons (s' := S .pi2 nx lit q [c] es (.pi t) 0) (b' := b) ?_ hd⟩
    exact step1 (c := ⟨.pi2, nx, lit, q⟩) (a := .datapi1) hp (by simp [trans, hc]) rfl rfl rfl
  | mark c l hp hc _ ih =>
    intro d
    obtain ⟨d', hd⟩ := ih [0x3f, c]
    refine ⟨d', Runs.cons (s' := S .pi3 nx lit q d es (.pi t) 0) (step_ok1 plain_lit rfl) ?_⟩
    refine Runs.cons (s' := S .pi2 nx lit q [0x3f, c] es (.pi t) 0) (b' := b) ?_ hd
    exact step1 (c := ⟨.pi2, nx, lit, q⟩) (a := .datapi2) hp (by simp [trans, hc]) rfl rfl rfl

/-- From the end of the target to the end of the instruction. -/
theorem pi_end {st nx : St} {lit : Bytes} {q : UInt8} {d : Bytes} {es : List Bytes} {b : Builder} {p : PI}
    (h : p.Taken) (hst : PiAt st p.target) :
    ∃ d', Runs (S st nx lit q d es (.pi p.target) 0) b (p.sep ++ p.text ++ [0x3f, 0x3e]) (S nx nx lit q d' es .none 0) b := by
  obtain ⟨hn, hx, hs, hp⟩ := h
  have hx := not_xml hx
  have hst' : st = .pi1 ∨ st = .xmldecl0 ∨ st = .xmldecl1 := by
    rcases hst with rfl | ⟨rfl, _⟩ | ⟨rfl, _⟩ | ⟨rfl, h3⟩
    · exact Or.inl rfl
    · exact Or.inr (Or.inl rfl)
    · exact Or.inr (Or.inr rfl)
    · rw [h3] at hx; exact absurd hx (by decide)
  have hperf : ∀ c ch, aperform .pinameend ⟨c, 0, d, es, .pi p.target, 0⟩ ch =
      some (⟨c, 0, d, es, .pi p.target, 0⟩, .pistart, []) := by
    intro c ch; simp [aperform, hx]
  match hsep : p.sep, hs with
  | [], hs =>
    have ht : p.text = [] := by
      rcases hs with hs | hs
      · exact hs.2
      · exact absurd rfl hs.1
    rw [ht]
    refine ⟨d, ?_⟩
    refine Runs.cons (s' := S .pi4 nx lit q d es (.pi p.target) 0) (b' := b) ?_ ?_
    · refine step1 (c := ⟨.pi4, nx, lit, q⟩) (a := .pinameend) plain_lit ?_ (hperf _ _) rfl rfl
      rcases hst' with rfl | rfl | rfl <;> rfl
    · exact step1 plain_lit rfl rfl rfl rfl
  | w0 :: w, hs =>
    have hb : Blanks (w0 :: w) := by
      rcases hs with hs | hs
      · exact absurd hs.1 (by simp)
      · exact hs.2
    have hw0 := hb w0 (by simp)
    obtain ⟨d1, hd1⟩ := pi_blanks (nx := nx) (lit := lit) (q := q) (d := d) (es := es) (b := b) (t := p.target)
      (w := w) fun x hx => hb x (by simp [hx])
    obtain ⟨d2, hd2⟩ := pi_text (nx := nx) (lit := lit) (q := q) (es := es) (b := b) (t := p.target) hp d1
    refine ⟨d2, ?_⟩
    simp only [List.cons_append, List.append_assoc]
    refine Runs.cons (s' := S .pi2 nx lit q d es (.pi p.target) 0) (b' := b) ?_ (hd1.append hd2)
    refine step1 (c := ⟨.pi2, nx, lit, q⟩) (a := .pinameend) (blank_plain hw0) ?_ (hperf _ _) rfl rfl
    have hf := blank_facts hw0
    have hsp := isSP_of hw0
    have : w0 ≠ 0x6d ∧ w0 ≠ 0x6c := by rcases hw0 with rfl | rfl | rfl <;> decide
    rcases hst' with rfl | rfl | rfl <;> simp [trans, hf.2.2.1, hf.2.2.2.2.2.2.1, hsp, this]

/-- A processing instruction after `<?`. -/
theorem pi_run {nx : St} {lit : Bytes} {q : UInt8} {d : Bytes} {es : List Bytes} {b : Builder} {p : PI} (h : p.Taken) :
    ∃ d', Runs (S .pi0 nx lit q d es .none 0) b (p.target ++ p.sep ++ p.text ++ [0x3f, 0x3e])
      (S nx nx lit q d' es .none 0) b := by
  obtain ⟨c, l, ht, hc, hl⟩ := h.1
  have h1 : PiAt .pi1 [c] := Or.inl rfl
  obtain ⟨st', h2, h3⟩ := pi_target (nx := nx) (lit := lit) (q := q) (d := d) (es := es) (b := b) h1 hl
  have ht' : [c] ++ l = p.target := by rw [ht]; rfl
  rw [ht'] at h2 h3
  obtain ⟨d', h4⟩ := pi_end (nx := nx) (lit := lit) (q := q) (d := d) (es := es) (b := b) h h2
  refine ⟨d', ?_⟩
  have := h3.append h4
  rw [ht]
  simp only [List.cons_append, List.append_assoc] at this ⊢
  refine Runs.cons (s' := S .pi1 nx lit q d es (.pi [c]) 0) (b' := b) ?_ this
  exact step1 (c := ⟨.pi1, nx, lit, q⟩) (a := .pistart) (name_plain (Or.inl hc))
    (by simp [trans, isNameStart_of hc]) rfl rfl rfl

/-! ## Attributes and tags -/

theorem attr_items {nx : St} {lit : Bytes} {q : UInt8} {d t : Bytes} {es : List Bytes} {dn : Option Node}
    {l : List Frame} {v : Bytes} (is : List AItem) (h : ∀ i ∈ is, i.taken q) :
    ∃ d', Runs (S .attr3 nx lit q d es (.attr t) 0) (B dn l (some v)) (is.flatMap AItem.bytes)
      (S .attr3 nx lit q d' es (.attr t) 0) (B dn l (some (v ++ is.flatMap AItem.text))) := by
  induction is generalizing d v with
  | nil => exact ⟨d, by simpa using Runs.nil _ _⟩
  | cons i is ih =>
    have hi := h i (by simp)
    obtain ⟨d', hd⟩ := ih (d := i.text) (v := v ++ i.text) fun x hx => h x (by simp [hx])
    refine ⟨d', ?_⟩
    simp only [List.flatMap_cons]
    rw [← List.append_assoc]
    refine Runs.append (s' := S .attr3 nx lit q i.text es (.attr t) 0) (b' := B dn l (some (v ++ i.text))) ?_ hd
    cases i with
    | char c =>
      have hc : (if c = 0x09 ∨ c = 0x0a then [(0x20 : UInt8)] else [c]) = [if c = 0x09 ∨ c = 0x0a then 0x20 else c] := by
        split <;> rfl
      refine step1 (c := ⟨.attr3, nx, lit, q⟩) (a := .dataattr) hi.1 (by simp [trans, hi.2]) (r := .attrval)
        (t := AItem.text (.char c)) ?_ rfl rfl
      simp only [aperform, adata, AItem.text, hc]
    | ref r => exact ref_attr r hi rfl

theorem attr_run {st nx : St} {lit : Bytes} {q : UInt8} {d e : Bytes} {es : List Bytes} {b : Builder}
    {dn : Option Node} {f : Frame} {l : List Frame} (a : Attr) (ha : a.Taken) (h : TagAt st b e (B dn (f :: l) none)) :
    ∃ q' d', Runs (S st nx lit q d (e :: es) .none 0) b a.bytes (S .elem2 nx lit q' d' (e :: es) .none 0)
      (B dn ({ f with attrs := setAttr f.attrs a.name a.text } :: l) none) := by
  obtain ⟨hpre, ⟨c, cs, hn, hc, hcs⟩, hw1, hw2, hq, hi⟩ := ha
  have hcf := name_facts (Or.inl hc)
  -- white space and name
  have r1 := tag_blanks1 (nx := nx) (lit := lit) (q := q) (d := d) (es := es) h hpre
  have r2 : Runs (S .elem1 nx lit q d (e :: es) .none 0) (B dn (f :: l) none) [c]
      (S .attr0 nx lit q d (e :: es) (.attr [c]) 0) (B dn (f :: l) none) :=
    step1 (c := ⟨.attr0, nx, lit, q⟩) (a := .attrstart) (name_plain (Or.inl hc))
      (by simp [trans, hcf, isNameStart_of hc]) rfl rfl rfl
  have r3 := attr_name (nx := nx) (lit := lit) (q := q) (d := d) (e := [c]) (es := e :: es)
    (b := B dn (f :: l) none) hcs
  rw [show [c] ++ cs = a.name by rw [hn]; rfl] at r3
  -- equals sign
  have r4 : Runs (S .attr0 nx lit q d (e :: es) (.attr a.name) 0) (B dn (f :: l) none) (a.w1 ++ [0x3d])
      (S .attr2 nx lit q d (e :: es) (.attr a.name) 0) (B dn (f :: l) (some [])) := by
    match hw : a.w1, hw1 with
    | [], _ => exact step1 plain_lit rfl rfl rfl rfl
    | w :: ws, hw1 =>
      have hw' := hw1 w (by simp)
      refine Runs.cons (s' := S .attr1 nx lit q d (e :: es) (.attr a.name) 0) (b' := B dn (f :: l) (some [])) ?_ ?_
      · exact step1 (c := ⟨.attr1, nx, lit, q⟩) (a := .attrnameend) (blank_plain hw')
          (by simp [trans, blank_facts hw', isSP_of hw']) rfl rfl rfl
      · refine Runs.append (blanks_same (fun x hx => hw1 x (by simp [hx])) fun ch hch => by simp [trans, hch]) ?_
        exact step_ok1 plain_lit rfl
  have r5 : Runs (S .attr2 nx lit q d (e :: es) (.attr a.name) 0) (B dn (f :: l) (some [])) (a.w2 ++ [a.quote])
      (S .attr3 nx lit a.quote d (e :: es) (.attr a.name) 0) (B dn (f :: l) (some [])) := by
    refine Runs.append (blanks_same hw2 fun ch hch => by simp [trans, hch]) ?_
    rcases hq with hq | hq <;> rw [hq] <;> exact step_ok1 plain_lit rfl
  obtain ⟨d', r6⟩ := attr_items (nx := nx) (lit := lit) (q := a.quote) (d := d) (t := a.name) (es := e :: es)
    (dn := dn) (l := f :: l) (v := []) a.items hi
  have r7 : Runs (S .attr3 nx lit a.quote d' (e :: es) (.attr a.name) 0)
      (B dn (f :: l) (some ([] ++ a.items.flatMap AItem.text))) [a.quote]
      (S .elem2 nx lit a.quote d' (e :: es) .none 0)
      (B dn ({ f with attrs := setAttr f.attrs a.name a.text } :: l) none) := by
    refine step1 (c := ⟨.elem2, nx, lit, a.quote⟩) (a := .attrvalend) ?_ ?_ rfl rfl rfl
    · rcases hq with hq | hq <;> rw [hq] <;> exact plain_lit
    · rcases hq with hq | hq <;> rw [hq] <;> rfl
  refine ⟨a.quote, d', ?_⟩
  have := r1.append (r2.append (r3.append (r4.append (r5.append (r6.append r7)))))
  have hb : a.bytes = a.pre ++ ([c] ++ (cs ++ (a.w1 ++ [0x3d] ++ (a.w2 ++ [a.quote] ++
      (a.items.flatMap AItem.bytes ++ [a.quote]))))) := by
    simp [Attr.bytes, hn, ascii]
  rw [hb]
  exact this

theorem attrs_run {st nx : St} {lit : Bytes} {q : UInt8} {d e : Bytes} {es : List Bytes} {b : Builder}
    {dn : Option Node} {f : Frame} {l : List Frame} (as : List Attr) (ha : ∀ a ∈ as, a.Taken)
    (h : TagAt st b e (B dn (f :: l) none)) :
    ∃ st' q' d' b', Runs (S st nx lit q d (e :: es) .none 0) b (attrsBytes as) (S st' nx lit q' d' (e :: es) .none 0) b' ∧
      TagAt st' b' e (B dn ({ f with attrs := as.foldl (fun m a => setAttr m a.name a.text) f.attrs } :: l) none) := by
  induction as generalizing st q d b f with
  | nil => exact ⟨st, q, d, b, by simpa [attrsBytes] using Runs.nil _ _, h⟩
  | cons a as ih =>
    obtain ⟨q1, d1, h1⟩ := attr_run (nx := nx) (lit := lit) (q := q) (d := d) (es := es) a (ha a (by simp)) h
    obtain ⟨st', q2, d2, b', h2, h3⟩ := ih (st := .elem2) (q := q1) (d := d1)
      (f := { f with attrs := setAttr f.attrs a.name a.text }) (fun x hx => ha x (by simp [hx])) (Or.inr ⟨rfl, rfl⟩)
    exact ⟨st', q2, d2, b', by simpa [attrsBytes] using h1.append h2, h3⟩

theorem values_fold (as : List Attr) : as.foldl (fun m a => setAttr m a.name a.text) [] = lastValues as := by
  unfold lastValues
  congr 1
  funext m a
  exact (lastPut_eq a.name a.text m).symm

theorem open_attrs {st nx : St} {lit : Bytes} {q : UInt8} {d n : Bytes} {es : List Bytes} {b : Builder}
    {dn : Option Node} {l : List Frame} {as : List Attr}
    (hst : st = .le0 ∨ st = .le1 ∨ st = .le2) (h : Name n) (ha : ∀ a ∈ as, a.Taken)
    (hb : build b .elemstart n = some (B dn (⟨n, [], []⟩ :: l) none)) :
    ∃ st' q' d' b', Runs (S st nx lit q d es .none 0) b (n ++ attrsBytes as) (S st' nx lit q' d' (n :: es) .none 0) b' ∧
      TagAt st' b' n (B dn (⟨n, lastValues as, []⟩ :: l) none) := by
  obtain ⟨st', q', d', b', h1, h2⟩ := attrs_run (nx := nx) (lit := lit) (q := q) (d := d) (es := es) as ha
    (Or.inl ⟨rfl, hb⟩)
  refine ⟨st', q', d', b', (open_name hst h).append h1, ?_⟩
  dsimp only at h2
  rw [values_fold] at h2
  exact h2

theorem open_tag {st : St} {n w : Bytes} {es : List Bytes} {b : Builder}
    {dn : Option Node} {l : List Frame} {as : List Attr}
    (hst : st = .le0 ∨ st = .le1 ∨ st = .le2) (h : Name n) (ha : ∀ a ∈ as, a.Taken) (hw : Blanks w)
    (hb : build b .elemstart n = some (B dn (⟨n, [], []⟩ :: l) none)) :
    Leads st es b (n ++ attrsBytes as ++ (w ++ [0x3e])) .misc2 (n :: es) (B dn (⟨n, lastValues as, []⟩ :: l) none) := by
  intro nx lit q d
  obtain ⟨st', q', d', b', h1, h2⟩ := open_attrs (nx := nx) (lit := lit) (q := q) (d := d) (es := es) hst h ha hb
  exact ⟨nx, lit, q', d', h1.append (tag_gt h2 hw)⟩

theorem empty_tag {st : St} {n w : Bytes} {es : List Bytes} {b : Builder}
    {dn : Option Node} {l : List Frame} {as : List Attr}
    (hst : st = .le0 ∨ st = .le1 ∨ st = .le2) (h : Name n) (ha : ∀ a ∈ as, a.Taken) (hw : Blanks w)
    (hb : build b .elemstart n = some (B dn (⟨n, [], []⟩ :: l) none)) :
    Leads st es b (n ++ attrsBytes as ++ (w ++ [0x2f])) .elem3 (n :: es) (B dn (⟨n, lastValues as, []⟩ :: l) none) := by
  intro nx lit q d
  obtain ⟨st', q', d', b', h1, h2⟩ := open_attrs (nx := nx) (lit := lit) (q := q) (d := d) (es := es) hst h ha hb
  exact ⟨nx, lit, q', d', h1.append (tag_slash h2 hw)⟩

theorem end_root {n : Bytes} {dn : Option Node} {f : Frame} {z : UInt8} (h : Name n) (hz : z = 0x3e ∨ Blank z) :
    Leads .misc2 [n] (B dn [f] none) (0x3c :: 0x2f :: n ++ [z]) .misc3 []
      (B (some (.elem f.name f.attrs f.kids)) [] none) := by
  intro nx lit q d
  refine ⟨nx, lit, q, d, Runs.append (etag_name h) ?_⟩
  obtain ⟨st', ht⟩ : ∃ st', trans ⟨.etag1, nx, lit, q⟩ z = some (⟨st', nx, lit, q⟩, .elemcloseend) := by
    rcases hz with rfl | hz
    · exact ⟨.misc2, rfl⟩
    · have hf := blank_facts hz
      exact ⟨.etag2, by simp [trans, hf, isSP_of hz]⟩
  have hp : Plain z := by
    rcases hz with rfl | hz
    · exact plain_lit
    · exact blank_plain hz
  refine step1 hp ht (s' := S .misc3 nx lit q d [] .none 0) (r := .elemend) (t := []) ?_ rfl rfl
  simp [aperform, aclose]

/-! ## CDATA sections -/

theorem bracket2 (k : List Node) (c : UInt8) (s : Bytes) (hc : c ≠ 0x5d) :
    addT (appendText k [0x5d, c]) (cdataText false s) = addT (appendText k [0x5d]) (cdataText true (c :: s)) := by
  have h6 : (c == 0x5d) = false := by simpa using hc
  have h7 := chunk_any k 0x5d [] c bracket_hard
  simp only [List.cons_append, List.nil_append] at h7
  rw [h7]
  simp [cdataText, addT, addT1, h6]

theorem bracket3 (k : List Node) (c : UInt8) (s : Bytes) (hc : c ≠ 0x5d) :
    addT (appendText k [0x5d, 0x5d, c]) (cdataText false s) =
      addT (appendText k [0x5d]) (cdataText true (0x5d :: c :: s)) := by
  have h6 : (c == 0x5d) = false := by simpa using hc
  have h7 := chunk_any k 0x5d [0x5d] c bracket_hard
  have h8 := chunk_any k 0x5d [] 0x5d bracket_hard
  simp only [List.cons_append, List.nil_append] at h7 h8
  rw [h7, h8]
  simp [cdataText, addT, addT1, h6]

/-- No `]]>`. -/
def CD (s : Bytes) : Prop := (∀ b ∈ s, Plain b) ∧ ¬ ([0x5d, 0x5d, 0x3e] <:+: s)

theorem CD.tail {c : UInt8} {s : Bytes} (h : CD (c :: s)) : CD s :=
  ⟨fun x hx => h.1 x (by simp [hx]), infix_tail h.2⟩

theorem cdata_run (s : Bytes) {es : List Bytes} {dn : Option Node} {l : List Frame} :
    (∀ f : Frame, CD s → Leads .cd0 es (B dn (f :: l) none) (s ++ [0x5d, 0x5d, 0x3e]) .misc2 es
      (B dn ({ f with kids := addT f.kids (cdataText false s) } :: l) none)) ∧
    (∀ f : Frame, CD (0x5d :: s) → Leads .cd1 es (B dn (f :: l) none) (s ++ [0x5d, 0x5d, 0x3e]) .misc2 es
      (B dn ({ f with kids := addT (appendText f.kids [0x5d]) (cdataText true s) } :: l) none)) ∧
    (∀ f : Frame, CD (0x5d :: 0x5d :: s) → Leads .cd2 es (B dn (f :: l) none) (s ++ [0x5d, 0x5d, 0x3e]) .misc2 es
      (B dn ({ f with kids := addT (appendText f.kids [0x5d]) (cdataText true (0x5d :: s)) } :: l) none)) := by
  have bra : ∀ {nx lit q d} {f : Frame}, Runs (S .cd2 nx lit q d es .none 0) (B dn (f :: l) none) [0x5d]
      (S .cd2 nx lit q [0x5d] es .none 0) (B dn ({ f with kids := appendText f.kids [0x5d] } :: l) none) :=
    fun {nx lit q d f} => content_step (a := .datacontent) plain_lit rfl fun _ => rfl
  have fin : ∀ {nx lit q d} {f : Frame}, Runs (S .cd2 nx lit q d es .none 0) (B dn (f :: l) none) [0x3e]
      (S .misc2 nx lit q d es .none 0) (B dn (f :: l) none) := fun {nx lit q d f} => step_ok1 plain_lit rfl
  induction s with
  | nil =>
    refine ⟨fun f _ => ?_, fun f _ => ?_, fun f _ => ?_⟩
    · intro nx lit q d
      refine ⟨nx, lit, q, d, ?_⟩
      refine Runs.cons (s' := S .cd1 nx lit q d es .none 0) (step_ok1 plain_lit rfl) ?_
      refine Runs.cons (s' := S .cd2 nx lit q d es .none 0) (step_ok1 plain_lit rfl) ?_
      exact fin
    · intro nx lit q d
      refine ⟨nx, lit, q, [0x5d], ?_⟩
      refine Runs.cons (s' := S .cd2 nx lit q d es .none 0) (step_ok1 plain_lit rfl) ?_
      exact Runs.cons bra fin
    · intro nx lit q d
      rw [cdataText_bracket]
      exact ⟨nx, lit, q, [0x5d], Runs.cons bra (Runs.cons bra fin)⟩
  | cons c s ih =>
    obtain ⟨ih0, ih1, ih2⟩ := ih
    refine ⟨fun f h => ?_, fun f h => ?_, fun f h => ?_⟩
    · have hc := h.1 c (by simp)
      by_cases h1 : c = 0x5d
      · subst h1
        intro nx lit q d
        obtain ⟨nx', lit', q', d', hr⟩ := ih1 f h nx lit q d
        rw [cdataText_bracket]
        exact ⟨nx', lit', q', d', Runs.cons (s' := S .cd1 nx lit q d es .none 0) (step_ok1 plain_lit rfl) hr⟩
      · intro nx lit q d
        obtain ⟨nx', lit', q', d', hr⟩ := ih0 { f with kids := appendText f.kids [c] } h.tail nx lit q [c]
        refine ⟨nx', lit', q', d', Runs.cons
          (content_step (st' := .cd0) (a := .datacontent) hc (by simp [trans, h1]) fun _ => rfl) ?_⟩
        have h6 : (c == 0x5d) = false := by simpa using h1
        simpa [cdataText, addT, addT1, h6] using hr
    · have hc := h.1 c (by simp)
      by_cases h1 : c = 0x5d
      · subst h1
        intro nx lit q d
        obtain ⟨nx', lit', q', d', hr⟩ := ih2 f h nx lit q d
        exact ⟨nx', lit', q', d', Runs.cons (s' := S .cd2 nx lit q d es .none 0) (step_ok1 plain_lit rfl) hr⟩
      · intro nx lit q d
        obtain ⟨nx', lit', q', d', hr⟩ := ih0 { f with kids := appendText f.kids [0x5d, c] } h.tail.tail nx lit q [0x5d, c]
        refine ⟨nx', lit', q', d', Runs.cons
          (content_step (st' := .cd0) (a := .datacd1) hc (by simp [trans, h1]) fun _ => rfl) ?_⟩
        rw [← bracket2 _ _ _ h1]
        exact hr
    · have hc := h.1 c (by simp)
      by_cases h1 : c = 0x5d
      · subst h1
        intro nx lit q d
        obtain ⟨nx', lit', q', d', hr⟩ := ih2 { f with kids := appendText f.kids [0x5d] } h.tail nx lit q [0x5d]
        rw [cdataText_bracket]
        exact ⟨nx', lit', q', d', Runs.cons bra hr⟩
      · have h2 : c ≠ 0x3e := by
          rintro rfl
          exact h.2 ⟨[], s, by simp⟩
        intro nx lit q d
        obtain ⟨nx', lit', q', d', hr⟩ := ih0 { f with kids := appendText f.kids [0x5d, 0x5d, c] }
          h.tail.tail.tail nx lit q [0x5d, 0x5d, c]
        refine ⟨nx', lit', q', d', Runs.cons
          (content_step (st' := .cd0) (a := .datacd2) hc (by simp [trans, h1, h2]) fun _ => rfl) ?_⟩
        rw [← bracket3 _ _ _ h1]
        exact hr

theorem cd_of {s : Bytes} (h : (∀ b ∈ s, Plain b) ∧ ¬ (ascii "]]>" <:+: s)) : CD s := by
  rw [show ascii "]]>" = [0x5d, 0x5d, 0x3e] by decide +kernel] at h
  exact h

/-! ## Content -/

theorem pi_content {es : List Bytes} {b : Builder} {p : PI} (h : p.Taken) : Leads .misc2 es b p.bytes .misc2 es b := by
  intro nx lit q d
  obtain ⟨d', hd⟩ := pi_run (nx := .misc2) (lit := lit) (q := q) (d := d) (es := es) (b := b) h
  refine ⟨.misc2, lit, q, d', ?_⟩
  rw [PI.bytes_eq]
  refine Runs.cons (s' := S .le2 nx lit q d es .none 0) (step_ok1 plain_lit rfl) ?_
  refine Runs.cons (s' := S .pi0 .misc2 lit q d es .none 0) (step_ok1 plain_lit rfl) ?_
  exact hd

theorem cdata_content {es : List Bytes} {dn : Option Node} {f : Frame} {l : List Frame} {s : Bytes} (h : CD s) :
    Leads .misc2 es (B dn (f :: l) none) (ascii "<![CDATA[" ++ s ++ ascii "]]>") .misc2 es
      (B dn ({ f with kids := addT f.kids (cdataText false s) } :: l) none) := by
  intro nx lit q d
  obtain ⟨nx', lit', q', d', hr⟩ := (cdata_run s (es := es) (dn := dn) (l := l)).1 f h .cd0 [] q d
  refine ⟨nx', lit', q', d', ?_⟩
  have e : ascii "<![CDATA[" ++ s ++ ascii "]]>" =
      0x3c :: 0x21 :: 0x5b :: ([0x43, 0x44, 0x41, 0x54, 0x41, 0x5b] ++ (s ++ [0x5d, 0x5d, 0x3e])) := by simp [ascii]
  rw [e]
  refine Runs.cons (s' := S .le2 nx lit q d es .none 0) (step_ok1 plain_lit rfl) ?_
  refine Runs.cons (s' := S .lee2 nx lit q d es .none 0) (step_ok1 plain_lit rfl) ?_
  refine Runs.cons (s' := S .string .cd0 [0x43, 0x44, 0x41, 0x54, 0x41, 0x5b] q d es .none 0) (step_ok1 plain_lit rfl) ?_
  exact Runs.append (lit_run (by simp) (by unfold Plain; decide)) hr

theorem content_run (c : Content) (h : c.Taken) (e : Bytes) (es : List Bytes) (dn : Option Node) (f : Frame) (l : List Frame) :
    Leads .misc2 (e :: es) (B dn (f :: l) none) c.bytes .misc2 (e :: es)
      (B dn ({ f with kids := c.ladd f.kids } :: l) none) := by
  induction c generalizing e es f l with
  | nil => exact Leads.nil _ _ _
  | char b c ih =>
    have h1 : Leads .misc2 (e :: es) (B dn (f :: l) none) [b] .misc2 (e :: es)
        (B dn ({ f with kids := appendText f.kids [b] } :: l) none) := by
      intro nx lit q d
      exact ⟨nx, lit, q, [b], content_step (a := .datacontent) h.1.1 (by simp [trans, h.1.2]) fun _ => rfl⟩
    have := h1.append (ih h.2 e es { f with kids := appendText f.kids [b] } l)
    exact this
  | ref r c ih =>
    have h1 : Leads .misc2 (e :: es) (B dn (f :: l) none) r.bytes .misc2 (e :: es)
        (B dn ({ f with kids := appendText f.kids (utf8Of r.value) } :: l) none) := by
      intro nx lit q d
      exact ⟨nx, lit, q, utf8Of r.value, ref_content r h.1 rfl⟩
    have := h1.append (ih h.2 e es { f with kids := appendText f.kids (utf8Of r.value) } l)
    exact this
  | cdata s c ih =>
    have := (cdata_content (es := e :: es) (dn := dn) (f := f) (l := l) (cd_of h.1)).append
      (ih h.2 e es { f with kids := addT f.kids (cdataText false s) } l)
    exact this
  | comment s c ih => exact (comment_content h.1).append (ih h.2 e es f l)
  | pi p c ih => exact (pi_content h.1).append (ih h.2 e es f l)
  | elem n as w body wEnd c ihb ihc =>
    obtain ⟨hn, ha, hw, hb, hwe, hc⟩ := h
    have r1 := lt_content (es := e :: es) (b := B dn (f :: l) none)
    have r2 := open_tag (st := .le2) (es := e :: es) (b := B dn (f :: l) none) (dn := dn) (l := f :: l) (by simp) hn ha
      hw rfl
    have r3 := ihb hb n (e :: es) ⟨n, lastValues as, []⟩ (f :: l)
    have r4 := end_tag (e := e) (es := es) (dn := dn) (f := ⟨n, lastValues as, body.ladd []⟩) (g := f) (l := l) hn hwe
    have r5 := ihc hc e es { f with kids := f.kids ++ [.elem n (lastValues as) (body.ladd [])] } l
    have := r1.append (r2.append (r3.append (r4.append r5)))
    simpa [Content.bytes, Content.ladd, ascii] using this
  | empty n as w c ihc =>
    obtain ⟨hn, ha, hw, hc⟩ := h
    have r1 := lt_content (es := e :: es) (b := B dn (f :: l) none)
    have r2 := empty_tag (st := .le2) (es := e :: es) (b := B dn (f :: l) none) (dn := dn) (l := f :: l) (by simp) hn ha
      hw rfl
    have r4 := close_inner (n := n) (e := e) (es := es) (dn := dn) (f := ⟨n, lastValues as, []⟩) (g := f) (l := l)
    have r5 := ihc hc e es { f with kids := f.kids ++ [.elem n (lastValues as) []] } l
    have := r1.append (r2.append (r4.append r5))
    simpa [Content.bytes, Content.ladd, ascii] using this

theorem root_run (r : Root) (h : r.Taken) {st : St} {z : UInt8} (hz : z = 0x3e ∨ Blank z) (hst : st = .le0 ∨ st = .le1) :
    ∃ rest, r.endedBy z = 0x3c :: rest ∧
      Leads st [] emptyBuilder rest .misc3 [] (B (some r.made) [] none) := by
  have hst' : st = .le0 ∨ st = .le1 ∨ st = .le2 := by rcases hst with h | h <;> simp [h]
  cases r with
  | elem n as w body =>
    obtain ⟨hn, ha, hw, hb⟩ := h
    have r2 := open_tag (es := []) (b := emptyBuilder) (dn := none) (l := []) hst' hn ha hw rfl
    have r3 := content_run body hb n [] none ⟨n, lastValues as, []⟩ []
    dsimp only at r3
    rw [ladd_nil _ hb] at r3
    have r4 := end_root (dn := none) (f := ⟨n, lastValues as, body.children []⟩) hn hz
    refine ⟨_, ?_, r2.append (r3.append r4)⟩
    simp [Root.endedBy, ascii]
  | empty n as w =>
    obtain ⟨hn, ha, hw⟩ := h
    have r2 := empty_tag (es := []) (b := emptyBuilder) (dn := none) (l := []) hst' hn ha hw rfl
    refine ⟨_, ?_, r2.append (close_root (f := ⟨n, lastValues as, []⟩))⟩
    simp [Root.endedBy, ascii]

/-! ## Documents -/

theorem leq_pi {b : Builder} {p : PI} (h : p.Taken) :
    Leads .leq0 [] b (p.target ++ p.sep ++ p.text ++ [0x3f, 0x3e]) .misc1 [] b := by
  intro nx lit q d
  obtain ⟨c, l, ht, hc, hl⟩ := h.1
  obtain ⟨st1, h0, h1⟩ : ∃ st1, trans ⟨.leq0, nx, lit, q⟩ c = some (⟨st1, .misc1, lit, q⟩, .pistart) ∧ PiAt st1 [c] := by
    by_cases hx : c = 0x78
    · subst hx; exact ⟨.xmldecl0, by simp [trans], Or.inr (Or.inl ⟨rfl, rfl⟩)⟩
    · exact ⟨.pi1, by simp [trans, hx, isNameStart_of hc], Or.inl rfl⟩
  obtain ⟨st', h2, h3⟩ := pi_target (nx := .misc1) (lit := lit) (q := q) (d := d) (es := []) (b := b) h1 hl
  have ht' : [c] ++ l = p.target := by rw [ht]; rfl
  rw [ht'] at h2 h3
  obtain ⟨d', h4⟩ := pi_end (nx := .misc1) (lit := lit) (q := q) (d := d) (es := []) (b := b) h h2
  refine ⟨.misc1, lit, q, d', ?_⟩
  have := h3.append h4
  rw [ht]
  simp only [List.cons_append, List.append_assoc] at this ⊢
  refine Runs.cons (s' := S st1 .misc1 lit q d [] (.pi [c]) 0) (b' := b) ?_ this
  exact step1 (a := .pistart) (name_plain (Or.inl hc)) h0 rfl rfl rfl

theorem pre_pi {st : St} {b : Builder} {p : PI} (h : Pre st) (hp : p.Taken) : Leads st [] b p.bytes .misc1 [] b := by
  obtain ⟨st', h1, _, h2⟩ := pre_lt (b := b) h
  rw [PI.bytes_eq]
  refine h2.append ?_
  rcases h1 with rfl | rfl
  · exact Leads.append (l := [0x3f]) (lead1 plain_lit fun nx lit q => ⟨nx, lit, q, rfl⟩) (leq_pi hp)
  · intro nx lit q d
    obtain ⟨d', h3⟩ := pi_run (nx := .misc1) (lit := lit) (q := q) (d := d) (es := []) (b := b) hp
    exact ⟨_, _, _, _, Runs.cons (s' := S .pi0 .misc1 lit q d [] .none 0) (step_ok1 plain_lit rfl) h3⟩

theorem dt_atom0 {b : Builder} {a : DtAtom} (h : a.Taken false) : Leads .dt0 [] b a.bytes .dt0 [] b := by
  cases a with
  | char c =>
    obtain ⟨h1, h2, h3, h4⟩ := h
    have h2 : c ≠ 0x22 ∧ c ≠ 0x27 := by simpa [Quote] using h2
    have h3 : c ≠ 0x3c := fun e => absurd (h3 e) (by decide)
    exact lead1 h1 fun nx lit q => ⟨nx, lit, q, by simp [trans, h2, h3, h4]⟩
  | str r s =>
    obtain ⟨hq, hs⟩ := h
    have hp : Plain r := by rcases hq with rfl | rfl <;> exact plain_lit
    intro nx lit q d
    refine ⟨.dt0, lit, r, d, ?_⟩
    refine Runs.cons (s' := S .dt1 .dt0 lit r d [] .none 0) (b' := b) ?_ (dt_string hq hs)
    exact step_ok1 hp (by rcases hq with rfl | rfl <;> simp [trans])

theorem dt_atom4 {b : Builder} {a : DtAtom} (h : a.Taken true) : Leads .dt4 [] b a.bytes .dt4 [] b := by
  cases a with
  | char c =>
    obtain ⟨h1, h2, h3, h4⟩ := h
    have h2 : c ≠ 0x22 ∧ c ≠ 0x27 := by simpa [Quote] using h2
    exact lead1 h1 fun nx lit q => ⟨nx, lit, q, by simp [trans, h2, h4]⟩
  | str r s =>
    obtain ⟨hq, hs⟩ := h
    have hp : Plain r := by rcases hq with rfl | rfl <;> exact plain_lit
    intro nx lit q d
    refine ⟨.dt4, lit, r, d, ?_⟩
    refine Runs.cons (s' := S .dt1 .dt4 lit r d [] .none 0) (b' := b) ?_ (dt_string hq hs)
    exact step_ok1 hp (by rcases hq with rfl | rfl <;> simp [trans])

theorem dt_atoms {b : Builder} {l : List DtAtom} (h : ∀ a ∈ l, a.Taken true) : Leads .dt4 [] b (l.flatMap DtAtom.bytes) .dt4 [] b := by
  induction l with
  | nil => exact Leads.nil _ _ _
  | cons a l ih =>
    rw [List.flatMap_cons]
    exact (dt_atom4 (h a (by simp))).append (ih fun x hx => h x (by simp [hx]))

theorem dt_item {b : Builder} {i : DtItem} (h : i.Taken) : Leads .dt0 [] b i.bytes .dt0 [] b := by
  cases i with
  | atom a => exact dt_atom0 h
  | comment s =>
    intro nx lit q d
    refine ⟨.dt0, lit, q, d, ?_⟩
    simp only [DtItem.bytes, commentBytes_eq]
    refine Runs.cons (s' := S .dt2 nx lit q d [] .none 0) (step_ok1 plain_lit rfl) ?_
    refine Runs.cons (s' := S .dt3 nx lit q d [] .none 0) (step_ok1 plain_lit rfl) ?_
    refine Runs.cons (s' := S .comment1 .dt0 lit q d [] .none 0) (step_ok1 plain_lit rfl) ?_
    exact comment_run' h
  | pi p =>
    intro nx lit q d
    obtain ⟨d', h3⟩ := pi_run (nx := .dt0) (lit := lit) (q := q) (d := d) (es := []) (b := b) h
    refine ⟨.dt0, lit, q, d', ?_⟩
    simp only [DtItem.bytes, PI.bytes_eq]
    refine Runs.cons (s' := S .dt2 nx lit q d [] .none 0) (step_ok1 plain_lit rfl) ?_
    exact Runs.cons (s' := S .pi0 .dt0 lit q d [] .none 0) (step_ok1 plain_lit rfl) h3
  | decl c l =>
    obtain ⟨hc, hl⟩ := h
    have r1 : Leads .dt0 [] b [0x3c] .dt2 [] b := lead1 plain_lit fun nx lit q => ⟨nx, lit, q, rfl⟩
    have r2 : Leads .dt2 [] b [0x21] .dt3 [] b := lead1 plain_lit fun nx lit q => ⟨nx, lit, q, rfl⟩
    have r3 : Leads .dt3 [] b [c] .dt4 [] b := lead1 (hc.1) fun nx lit q =>
      ⟨nx, lit, q, by simp [trans, hc.2]⟩
    have r5 : Leads .dt4 [] b [0x3e] .dt0 [] b := lead1 plain_lit fun nx lit q => ⟨nx, lit, q, rfl⟩
    have := r1.append (r2.append (r3.append ((dt_atoms hl).append r5)))
    simpa [DtItem.bytes, ascii] using this

theorem dt_items {b : Builder} {l : List DtItem} (h : ∀ a ∈ l, a.Taken) : Leads .dt0 [] b (l.flatMap DtItem.bytes) .dt0 [] b := by
  induction l with
  | nil => exact Leads.nil _ _ _
  | cons a l ih =>
    rw [List.flatMap_cons]
    exact (dt_item (h a (by simp))).append (ih fun x hx => h x (by simp [hx]))

theorem pre_doctype {st : St} {b : Builder} {l : List DtItem} (h : Pre st) (hl : ∀ i ∈ l, i.Taken) :
    Leads st [] b (Misc.doctype l).bytes .misc1 [] b := by
  obtain ⟨st', h1, _, h2⟩ := pre_lt (b := b) h
  have r3 : Leads .lee1 [] b ([0x44] ++ [0x4f, 0x43, 0x54, 0x59, 0x50, 0x45]) .dt0 [] b := by
    intro nx lit q d
    refine ⟨.dt0, [], q, d, ?_⟩
    refine Runs.cons (s' := S .string .dt0 [0x4f, 0x43, 0x54, 0x59, 0x50, 0x45] q d [] .none 0) (step_ok1 plain_lit rfl) ?_
    exact lit_run (by simp) (by unfold Plain; decide)
  have r5 : Leads .dt0 [] b [0x3e] .misc1 [] b := lead1 plain_lit fun nx lit q => ⟨nx, lit, q, rfl⟩
  have := h2.append ((bang h1).append (r3.append ((dt_items hl).append r5)))
  simpa [Misc.bytes, ascii] using this

theorem pre_misc {st : St} {b : Builder} {l : List Misc} (h : Pre st) (hl : ∀ m ∈ l, m.Taken true) :
    ∃ st', Pre st' ∧ Leads st [] b (l.flatMap Misc.bytes) st' [] b := by
  induction l generalizing st with
  | nil => exact ⟨st, h, Leads.nil _ _ _⟩
  | cons m l ih =>
    have hm := hl m (by simp)
    have h1 : ∃ st', Pre st' ∧ Leads st [] b m.bytes st' [] b := by
      cases m with
      | blanks w => exact pre_blanks h hm
      | comment s => exact ⟨.misc1, by simp [Pre], pre_comment h hm⟩
      | pi p => exact ⟨.misc1, by simp [Pre], pre_pi h hm⟩
      | doctype l => exact ⟨.misc1, by simp [Pre], pre_doctype h hm.2⟩
    obtain ⟨st1, h2, h3⟩ := h1
    obtain ⟨st2, h4, h5⟩ := ih h2 fun x hx => hl x (by simp [hx])
    rw [List.flatMap_cons]
    exact ⟨st2, h4, h3.append h5⟩

theorem post_misc {b : Builder} {l : List Misc} (hl : ∀ m ∈ l, m.Taken false) :
    Leads .misc3 [] b (l.flatMap Misc.bytes) .misc3 [] b := by
  induction l with
  | nil => exact Leads.nil _ _ _
  | cons m l ih =>
    have hm := hl m (by simp)
    rw [List.flatMap_cons]
    refine Leads.append ?_ (ih fun x hx => hl x (by simp [hx]))
    cases m with
    | blanks w => exact lead_blanks hm fun nx lit q ch hch => by simp [trans, hch]
    | comment s =>
      intro nx lit q d
      refine ⟨.misc3, lit, q, d, ?_⟩
      simp only [Misc.bytes, commentBytes_eq]
      refine Runs.cons (s' := S .le3 nx lit q d [] .none 0) (step_ok1 plain_lit rfl) ?_
      refine Runs.cons (s' := S .comment0 .misc3 lit q d [] .none 0) (step_ok1 plain_lit rfl) ?_
      refine Runs.cons (s' := S .comment1 .misc3 lit q d [] .none 0) (step_ok1 plain_lit rfl) ?_
      exact comment_run' hm
    | pi p =>
      intro nx lit q d
      obtain ⟨d', h3⟩ := pi_run (nx := .misc3) (lit := lit) (q := q) (d := d) (es := []) (b := b) hm
      refine ⟨.misc3, lit, q, d', ?_⟩
      simp only [Misc.bytes, PI.bytes_eq]
      refine Runs.cons (s' := S .le3 nx lit q d [] .none 0) (step_ok1 plain_lit rfl) ?_
      exact Runs.cons (s' := S .pi0 .misc3 lit q d [] .none 0) (step_ok1 plain_lit rfl) h3
    | doctype l => exact absurd hm.1 (by simp)

/-- The parser on a document. -/
theorem doc_run (x : TakenText) (h : x.Taken) : Leads .init [] emptyBuilder x.bytes .misc3 [] (B (some x.root.made) [] none) := by
  obtain ⟨hl, hd, hb, hr, hz, ha⟩ := h
  have r1 : ∃ st, (st = .init ∨ st = .misc0) ∧
      Leads .init [] emptyBuilder (if x.bom then [0xef, 0xbb, 0xbf] else []) st [] emptyBuilder := by
    cases x.bom
    · exact ⟨.init, by simp, Leads.nil _ _ _⟩
    · exact ⟨.misc0, by simp, bom_run⟩
  obtain ⟨st, hst, r1⟩ := r1
  have r0 : ∃ st1, (st1 = .init ∨ st1 = .misc0) ∧ Leads st [] emptyBuilder x.lead st1 [] emptyBuilder := by
    rcases hst with rfl | rfl
    · match x.lead, hl with
      | [], _ => exact ⟨.init, by simp, Leads.nil _ _ _⟩
      | c :: w, hw =>
        refine ⟨.misc0, by simp, ?_⟩
        have hc := hw c (by simp)
        refine Leads.append (l := [c]) (m := w) (st' := .misc0) (es' := []) (b' := emptyBuilder) ?_ ?_
        · refine lead1 (blank_plain hc) fun nx lit q => ⟨nx, lit, q, ?_⟩
          have : c ≠ 0xef := by rcases hc with rfl | rfl | rfl <;> decide
          simp [trans, isSP_of hc, this]
        · exact lead_blanks (fun x hx => hw x (by simp [hx])) fun nx lit q ch hch => by simp [trans, hch]
    · exact ⟨.misc0, by simp, lead_blanks hl fun nx lit q ch hch => by simp [trans, hch]⟩
  obtain ⟨st1, hst1, r0⟩ := r0
  have r2 : ∃ st2, Pre st2 ∧
      Leads st1 [] emptyBuilder (match x.decl with | some x => x.bytes | none => []) st2 [] emptyBuilder := by
    match hx : x.decl with
    | none => exact ⟨st1, by rcases hst1 with rfl | rfl <;> simp [Pre], Leads.nil _ _ _⟩
    | some y => exact ⟨.misc1, by simp [Pre], decl_run hst1 (hd y hx)⟩
  obtain ⟨st2, hst2, r2⟩ := r2
  obtain ⟨st3, hst3, r3⟩ := pre_misc (b := emptyBuilder) hst2 hb
  obtain ⟨st4, hst4, _, r4⟩ := pre_lt (b := emptyBuilder) hst3
  obtain ⟨rest, he, r5⟩ := root_run x.root hr hz hst4
  have := r1.append (r0.append (r2.append (r3.append (r4.append (r5.append (post_misc ha))))))
  have e : x.bytes = (if x.bom then [0xef, 0xbb, 0xbf] else []) ++ (x.lead ++ ((match x.decl with | some x => x.bytes | none => []) ++
      (x.before.flatMap Misc.bytes ++ ([0x3c] ++ (rest ++ x.after.flatMap Misc.bytes))))) := by
    unfold TakenText.bytes
    rw [he]
    simp only [List.append_assoc, List.cons_append, List.nil_append]
    rfl
  rw [e]
  exact this

theorem aparse_loose (x : TakenText) (h : x.Taken) : aparse x.bytes = some x.root.made := by
  obtain ⟨nx, lit, q, d, hr⟩ := doc_run x h .string [] 0 []
  unfold Runs at hr
  unfold aparse
  have hr' : aloop astart emptyBuilder x.bytes = _ := hr
  rw [hr']
  rfl

end Duck.Xml.Loose
