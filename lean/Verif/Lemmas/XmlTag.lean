import Verif.Lemmas.XmlRun

/-! # Helper lemmas for XML: comments, processing instructions, attributes, CDATA sections -/

namespace Duck.Xml

theorem plain_lit {c : UInt8} (h : c ≠ 0 ∧ c ≠ 0x0d := by decide) : Plain c := h

/-! ## Comments -/

theorem infix_tail {p : Bytes} {c : UInt8} {l : Bytes} (h : ¬ p <:+: c :: l) : ¬ p <:+: l := by
  intro h1
  exact h (h1.trans ⟨[c], [], by simp⟩)

theorem comment_run {nx : St} {lit : Bytes} {q : UInt8} {d : Bytes} {es : List Bytes} {b : Builder} (s : Bytes)
    (hp : ∀ c ∈ s, Plain c) :
    (¬ ([0x2d, 0x2d] <:+: s ++ [0x2d]) →
      Runs (S .comment2 nx lit q d es .none 0) b (s ++ [0x2d, 0x2d, 0x3e]) (S nx nx lit q d es .none 0) b) ∧
    (¬ ([0x2d, 0x2d] <:+: 0x2d :: (s ++ [0x2d])) →
      Runs (S .comment3 nx lit q d es .none 0) b (s ++ [0x2d, 0x2d, 0x3e]) (S nx nx lit q d es .none 0) b) := by
  induction s with
  | nil =>
    refine ⟨fun _ => ?_, fun h => ?_⟩
    · refine Runs.cons (s' := S .comment3 nx lit q d es .none 0) (step_ok1 plain_lit rfl) ?_
      refine Runs.cons (s' := S .comment4 nx lit q d es .none 0) (step_ok1 plain_lit rfl) ?_
      exact step_ok1 plain_lit rfl
    · exact absurd ⟨[], [], by simp⟩ h
  | cons c s ih =>
    obtain ⟨ih2, ih3⟩ := ih fun x hx => hp x (by simp [hx])
    have hc := hp c (by simp)
    refine ⟨fun h => ?_, fun h => ?_⟩
    · by_cases h2 : c = 0x2d
      · subst h2
        refine Runs.cons (s' := S .comment3 nx lit q d es .none 0) (step_ok1 plain_lit rfl) ?_
        exact ih3 (by simpa using h)
      · refine Runs.cons (s' := S .comment2 nx lit q d es .none 0) (step_ok1 hc (by simp [trans, h2])) ?_
        exact ih2 (infix_tail (by simpa using h))
    · have h2 : c ≠ 0x2d := by
        rintro rfl
        exact h ⟨[], s ++ [0x2d], by simp⟩
      refine Runs.cons (s' := S .comment2 nx lit q d es .none 0) (step_ok1 hc (by simp [trans, h2])) ?_
      exact ih2 (infix_tail (infix_tail (by simpa using h)))

theorem commentBytes_eq (s : Bytes) : commentBytes s = 0x3c :: 0x21 :: 0x2d :: 0x2d :: (s ++ [0x2d, 0x2d, 0x3e]) := by
  simp [commentBytes, ascii]

/-- From the second dash on. -/
theorem comment_run' {nx : St} {lit : Bytes} {q : UInt8} {d : Bytes} {es : List Bytes} {b : Builder} {s : Bytes}
    (h : CommentOK s) :
    Runs (S .comment1 nx lit q d es .none 0) b (0x2d :: (s ++ [0x2d, 0x2d, 0x3e])) (S nx nx lit q d es .none 0) b := by
  refine Runs.cons (s' := S .comment2 nx lit q d es .none 0) (step_ok1 plain_lit rfl) ?_
  exact (comment_run s h.1).1 (by simpa [ascii] using h.2)

/-! ## Processing instructions -/

theorem pi_text {nx : St} {lit : Bytes} {q : UInt8} {es : List Bytes} {b : Builder} {t : Bytes} (s : Bytes)
    (hp : ∀ c ∈ s, Plain c) :
    (∀ d, ¬ ([0x3f, 0x3e] <:+: s) → ¬ ([0x3f, 0x3f] <:+: s ++ [0x3f]) →
      ∃ d', Runs (S .pi2 nx lit q d es (.pi t) 0) b (s ++ [0x3f, 0x3e]) (S nx nx lit q d' es .none 0) b) ∧
    (∀ d, ¬ ([0x3f, 0x3e] <:+: 0x3f :: s) → ¬ ([0x3f, 0x3f] <:+: 0x3f :: (s ++ [0x3f])) →
      ∃ d', Runs (S .pi3 nx lit q d es (.pi t) 0) b (s ++ [0x3f, 0x3e]) (S nx nx lit q d' es .none 0) b) := by
  induction s with
  | nil =>
    refine ⟨fun d _ _ => ⟨d, ?_⟩, fun _ _ h => ?_⟩
    · refine Runs.cons (s' := S .pi3 nx lit q d es (.pi t) 0) (step_ok1 plain_lit rfl) ?_
      exact step1 plain_lit rfl rfl rfl rfl
    · exact absurd ⟨[], [], by simp⟩ h
  | cons c s ih =>
    obtain ⟨ih2, ih3⟩ := ih fun x hx => hp x (by simp [hx])
    have hc := hp c (by simp)
    refine ⟨fun d h h' => ?_, fun d h h' => ?_⟩
    · by_cases h2 : c = 0x3f
      · subst h2
        obtain ⟨d', hd⟩ := ih3 d (by simpa using h) (by simpa using h')
        exact ⟨d', Runs.cons (s' := S .pi3 nx lit q d es (.pi t) 0) (step_ok1 plain_lit rfl) hd⟩
      · obtain ⟨d', hd⟩ := ih2 [c] (infix_tail h) (infix_tail (by simpa using h'))
        refine ⟨d', Runs.cons (s' := S .pi2 nx lit q [c] es (.pi t) 0) (b' := b) ?_ hd⟩
        exact step1 (c := ⟨.pi2, nx, lit, q⟩) (a := .datapi1) hc (by simp [trans, h2]) rfl rfl rfl
    · have h2 : c ≠ 0x3e := by
        rintro rfl
        exact h ⟨[], s, by simp⟩
      obtain ⟨d', hd⟩ := ih2 [0x3f, c] (infix_tail (infix_tail h)) (infix_tail (infix_tail (by simpa using h')))
      refine ⟨d', Runs.cons (s' := S .pi2 nx lit q [0x3f, c] es (.pi t) 0) (b' := b) ?_ hd⟩
      exact step1 (c := ⟨.pi2, nx, lit, q⟩) (a := .datapi2) hc (by simp [trans, h2]) rfl rfl rfl

theorem pi_blanks {nx : St} {lit : Bytes} {q : UInt8} {d : Bytes} {es : List Bytes} {b : Builder} {t w : Bytes}
    (hw : Blanks w) :
    ∃ d', Runs (S .pi2 nx lit q d es (.pi t) 0) b w (S .pi2 nx lit q d' es (.pi t) 0) b := by
  induction w generalizing d with
  | nil => exact ⟨d, Runs.nil _ _⟩
  | cons c w ih =>
    have hc := hw c (by simp)
    obtain ⟨d', hd⟩ := ih (d := [c]) fun x hx => hw x (by simp [hx])
    refine ⟨d', Runs.cons (s' := S .pi2 nx lit q [c] es (.pi t) 0) (b' := b) ?_ hd⟩
    exact step1 (c := ⟨.pi2, nx, lit, q⟩) (a := .datapi1) (blank_plain hc)
      (by simp [trans, (blank_facts hc).2.2.2.2.2.2.1]) rfl rfl rfl

/-- A state in which the target of a processing instruction is read, and the part read so far. -/
def PiAt (st : St) (t : Bytes) : Prop :=
  st = .pi1 ∨ (st = .xmldecl0 ∧ t = [0x78]) ∨ (st = .xmldecl1 ∧ t = [0x78, 0x6d]) ∨
    (st = .xmldecl2 ∧ t = [0x78, 0x6d, 0x6c])

theorem pi_target {st nx : St} {lit : Bytes} {q : UInt8} {d t : Bytes} {es : List Bytes} {b : Builder} {l : Bytes}
    (hst : PiAt st t) (h : ∀ c ∈ l, NameChar c) :
    ∃ st', PiAt st' (t ++ l) ∧
      Runs (S st nx lit q d es (.pi t) 0) b l (S st' nx lit q d es (.pi (t ++ l)) 0) b := by
  induction l generalizing st t with
  | nil => exact ⟨st, by simpa using hst, by simpa using Runs.nil _ _⟩
  | cons c l ih =>
    have hc := h c (by simp)
    have key : ∃ st', PiAt st' (t ++ [c]) ∧
        trans ⟨st, nx, lit, q⟩ c = some (⟨st', nx, lit, q⟩, .piname) := by
      rcases hst with rfl | ⟨rfl, rfl⟩ | ⟨rfl, rfl⟩ | ⟨rfl, rfl⟩
      · exact ⟨.pi1, Or.inl rfl, by simp [trans, isName_of hc]⟩
      · by_cases h1 : c = 0x6d
        · subst h1; exact ⟨.xmldecl1, Or.inr (Or.inr (Or.inl ⟨rfl, rfl⟩)), by simp [trans]⟩
        · exact ⟨.pi1, Or.inl rfl, by simp [trans, isName_of hc, h1]⟩
      · by_cases h1 : c = 0x6c
        · subst h1; exact ⟨.xmldecl2, Or.inr (Or.inr (Or.inr ⟨rfl, rfl⟩)), by simp [trans]⟩
        · exact ⟨.pi1, Or.inl rfl, by simp [trans, isName_of hc, h1]⟩
      · exact ⟨.pi1, Or.inl rfl, by simp [trans, isName_of hc, (name_facts hc).2.2.1]⟩
    obtain ⟨st', h1, h2⟩ := key
    obtain ⟨st'', h3, h4⟩ := ih h1 fun x hx => h x (by simp [hx])
    refine ⟨st'', by simpa using h3, ?_⟩
    refine Runs.cons (s' := S st' nx lit q d es (.pi (t ++ [c])) 0) (b' := b) ?_ (by simpa using h4)
    exact step1 (name_plain hc) h2 rfl rfl rfl

theorem or32 {c : UInt8} : ((c ||| 32) = 0x78 → c = 0x78 ∨ c = 0x58) ∧ ((c ||| 32) = 0x6d → c = 0x6d ∨ c = 0x4d) ∧
    ((c ||| 32) = 0x6c → c = 0x6c ∨ c = 0x4c) :=
  all_bytes (P := fun c => ((c ||| 32) = 0x78 → c = 0x78 ∨ c = 0x58) ∧ ((c ||| 32) = 0x6d → c = 0x6d ∨ c = 0x4d) ∧
    ((c ||| 32) = 0x6c → c = 0x6c ∨ c = 0x4c)) (by decide +kernel) c

theorem not_xml {t : Bytes} (h : t.map lower ≠ ascii "xml") : isXmlName t = false := by
  apply Decidable.byContradiction
  intro hx
  have hx : isXmlName t = true := by simpa using hx
  unfold isXmlName at hx
  have hm : t.map (· ||| 32) = [0x78, 0x6d, 0x6c] := by simpa using hx
  match t, h, hm with
  | [], _, hm => simp at hm
  | [_], _, hm => simp at hm
  | [_, _], _, hm => simp at hm
  | _ :: _ :: _ :: _ :: _, _, hm => simp at hm
  | [a, b, c], h, hm =>
    simp only [List.map_cons, List.map_nil, List.cons.injEq, and_true] at hm
    obtain ⟨h1, h2, h3⟩ := hm
    refine h ?_
    have e : ascii "xml" = [0x78, 0x6d, 0x6c] := by decide +kernel
    rw [e]
    rcases or32.1 h1 with rfl | rfl <;> rcases or32.2.1 h2 with rfl | rfl <;> rcases or32.2.2 h3 with rfl | rfl <;> decide

/-- From the end of the target to the end of the instruction. -/
theorem pi_end {st nx : St} {lit : Bytes} {q : UInt8} {d : Bytes} {es : List Bytes} {b : Builder} {p : PI}
    (h : p.OK) (hst : PiAt st p.target) :
    ∃ d', Runs (S st nx lit q d es (.pi p.target) 0) b (p.sep ++ p.text ++ [0x3f, 0x3e]) (S nx nx lit q d' es .none 0) b := by
  obtain ⟨hn, hx, hs, hp, h1, h2⟩ := h
  have hx := not_xml hx
  have hst' : st = .pi1 ∨ st = .xmldecl0 ∨ st = .xmldecl1 := by
    rcases hst with rfl | ⟨rfl, _⟩ | ⟨rfl, _⟩ | ⟨rfl, h3⟩
    · exact Or.inl rfl
    · exact Or.inr (Or.inl rfl)
    · exact Or.inr (Or.inr rfl)
    · rw [h3] at hx; exact absurd hx (by decide)
  have hperf : ∀ c ch, aperform .pinameend ⟨c, 0, d, es, .pi p.target, 0⟩ ch =
      some (⟨c, 0, d, es, .pi p.target, 0⟩, .pistart, []) := by
    intro c ch; simp [aperform, hx]
  match hsep : p.sep, hs with
  | [], hs =>
    have ht : p.text = [] := by
      rcases hs with hs | hs
      · exact hs.2
      · exact absurd rfl hs.1
    rw [ht]
    refine ⟨d, ?_⟩
    refine Runs.cons (s' := S .pi4 nx lit q d es (.pi p.target) 0) (b' := b) ?_ ?_
    · refine step1 (c := ⟨.pi4, nx, lit, q⟩) (a := .pinameend) plain_lit ?_ (hperf _ _) rfl rfl
      rcases hst' with rfl | rfl | rfl <;> rfl
    · exact step1 plain_lit rfl rfl rfl rfl
  | w0 :: w, hs =>
    have hb : Blanks (w0 :: w) := by
      rcases hs with hs | hs
      · exact absurd hs.1 (by simp)
      · exact hs.2
    have hw0 := hb w0 (by simp)
    obtain ⟨d1, hd1⟩ := pi_blanks (nx := nx) (lit := lit) (q := q) (d := d) (es := es) (b := b) (t := p.target)
      (w := w) fun x hx => hb x (by simp [hx])
    obtain ⟨d2, hd2⟩ := (pi_text (nx := nx) (lit := lit) (q := q) (es := es) (b := b) (t := p.target) p.text hp).1 d1
      (by simpa [ascii] using h1) (by simpa [ascii] using h2)
    refine ⟨d2, ?_⟩
    simp only [List.cons_append, List.append_assoc]
    refine Runs.cons (s' := S .pi2 nx lit q d es (.pi p.target) 0) (b' := b) ?_ (hd1.append hd2)
    refine step1 (c := ⟨.pi2, nx, lit, q⟩) (a := .pinameend) (blank_plain hw0) ?_ (hperf _ _) rfl rfl
    have hf := blank_facts hw0
    have hsp := isSP_of hw0
    have : w0 ≠ 0x6d ∧ w0 ≠ 0x6c := by rcases hw0 with rfl | rfl | rfl <;> decide
    rcases hst' with rfl | rfl | rfl <;> simp [trans, hf.2.2.1, hf.2.2.2.2.2.2.1, hsp, this]

/-- A processing instruction after `<?`. -/
theorem pi_run {nx : St} {lit : Bytes} {q : UInt8} {d : Bytes} {es : List Bytes} {b : Builder} {p : PI} (h : p.OK) :
    ∃ d', Runs (S .pi0 nx lit q d es .none 0) b (p.target ++ p.sep ++ p.text ++ [0x3f, 0x3e])
      (S nx nx lit q d' es .none 0) b := by
  obtain ⟨c, l, ht, hc, hl⟩ := h.1
  have h1 : PiAt .pi1 [c] := Or.inl rfl
  obtain ⟨st', h2, h3⟩ := pi_target (nx := nx) (lit := lit) (q := q) (d := d) (es := es) (b := b) h1 hl
  have ht' : [c] ++ l = p.target := by rw [ht]; rfl
  rw [ht'] at h2 h3
  obtain ⟨d', h4⟩ := pi_end (nx := nx) (lit := lit) (q := q) (d := d) (es := es) (b := b) h h2
  refine ⟨d', ?_⟩
  have := h3.append h4
  rw [ht]
  simp only [List.cons_append, List.append_assoc] at this ⊢
  refine Runs.cons (s' := S .pi1 nx lit q d es (.pi [c]) 0) (b' := b) ?_ this
  exact step1 (c := ⟨.pi1, nx, lit, q⟩) (a := .pistart) (name_plain (Or.inl hc))
    (by simp [trans, isNameStart_of hc]) rfl rfl rfl

theorem PI.bytes_eq (p : PI) : p.bytes = 0x3c :: 0x3f :: (p.target ++ p.sep ++ p.text ++ [0x3f, 0x3e]) := by
  simp [PI.bytes, ascii]

/-! ## Attributes -/

/-- A state after the name or after an attribute of a start tag; `b1` is the builder once the element is there. -/
def TagAt (st : St) (b : Builder) (e : Bytes) (b1 : Builder) : Prop :=
  (st = .elem0 ∧ build b .elemstart e = some b1) ∨ (st = .elem2 ∧ b = b1)

theorem tag_step {st st' nx : St} {lit : Bytes} {q : UInt8} {d e : Bytes} {es : List Bytes} {b b1 : Builder} {c : UInt8}
    (h : TagAt st b e b1) (hp : Plain c)
    (h0 : trans ⟨.elem0, nx, lit, q⟩ c = some (⟨st', nx, lit, q⟩, .elemnameend))
    (h2 : trans ⟨.elem2, nx, lit, q⟩ c = some (⟨st', nx, lit, q⟩, .ok)) :
    Runs (S st nx lit q d (e :: es) .none 0) b [c] (S st' nx lit q d (e :: es) .none 0) b1 := by
  rcases h with ⟨rfl, hb⟩ | ⟨rfl, rfl⟩
  · exact step1 hp h0 (r := .elemstart) (t := e) (by simp [aperform]) rfl hb
  · exact step_ok1 hp h2

/-- White space in a start tag. -/
theorem tag_blanks1 {st nx : St} {lit : Bytes} {q : UInt8} {d e : Bytes} {es : List Bytes} {b b1 : Builder} {w : Bytes}
    (h : TagAt st b e b1) (hw : Blanks1 w) :
    Runs (S st nx lit q d (e :: es) .none 0) b w (S .elem1 nx lit q d (e :: es) .none 0) b1 := by
  match w, hw with
  | c :: w, hw =>
    have hc := hw.2 c (by simp)
    have hf := blank_facts hc
    have hsp := isSP_of hc
    refine Runs.cons (s' := S .elem1 nx lit q d (e :: es) .none 0) (b' := b1) ?_ ?_
    · exact tag_step h (blank_plain hc) (by simp [trans, hf, hsp]) (by simp [trans, hsp])
    · exact blanks_same (fun x hx => hw.2 x (by simp [hx])) fun ch hch => by simp [trans, hch]
  | [], hw => exact absurd rfl hw.1

/-- The end of a start tag. -/
theorem tag_gt {st nx : St} {lit : Bytes} {q : UInt8} {d e : Bytes} {es : List Bytes} {b b1 : Builder} {w : Bytes}
    (h : TagAt st b e b1) (hw : Blanks w) :
    Runs (S st nx lit q d (e :: es) .none 0) b (w ++ [0x3e]) (S .misc2 nx lit q d (e :: es) .none 0) b1 := by
  by_cases h0 : w = []
  · subst h0
    exact tag_step h plain_lit rfl rfl
  · exact (tag_blanks1 h ⟨h0, hw⟩).append (step_ok1 plain_lit rfl)

theorem tag_slash {st nx : St} {lit : Bytes} {q : UInt8} {d e : Bytes} {es : List Bytes} {b b1 : Builder} {w : Bytes}
    (h : TagAt st b e b1) (hw : Blanks w) :
    Runs (S st nx lit q d (e :: es) .none 0) b (w ++ [0x2f]) (S .elem3 nx lit q d (e :: es) .none 0) b1 := by
  by_cases h0 : w = []
  · subst h0
    exact tag_step h plain_lit rfl rfl
  · exact (tag_blanks1 h ⟨h0, hw⟩).append (step_ok1 plain_lit rfl)

abbrev B (dn : Option Node) (l : List Frame) (a : Option Bytes) : Builder := ⟨true, dn, l, a⟩

theorem attr_items {nx : St} {lit : Bytes} {q : UInt8} {d t : Bytes} {es : List Bytes} {dn : Option Node}
    {l : List Frame} {v : Bytes} (is : List AItem) (h : ∀ i ∈ is, i.OK q) :
    ∃ d', Runs (S .attr3 nx lit q d es (.attr t) 0) (B dn l (some v)) (is.flatMap AItem.bytes)
      (S .attr3 nx lit q d' es (.attr t) 0) (B dn l (some (v ++ is.flatMap AItem.chars))) := by
  induction is generalizing d v with
  | nil => exact ⟨d, by simpa using Runs.nil _ _⟩
  | cons i is ih =>
    have hi := h i (by simp)
    obtain ⟨d', hd⟩ := ih (d := i.chars) (v := v ++ i.chars) fun x hx => h x (by simp [hx])
    refine ⟨d', ?_⟩
    simp only [List.flatMap_cons]
    rw [← List.append_assoc]
    refine Runs.append (s' := S .attr3 nx lit q i.chars es (.attr t) 0) (b' := B dn l (some (v ++ i.chars))) ?_ hd
    cases i with
    | char c =>
      have hc : (if c = 0x09 ∨ c = 0x0a then [(0x20 : UInt8)] else [c]) = [if c = 0x09 ∨ c = 0x0a then 0x20 else c] := by
        split <;> rfl
      refine step1 (c := ⟨.attr3, nx, lit, q⟩) (a := .dataattr) hi.1 (by simp [trans, hi.2]) (r := .attrval)
        (t := AItem.chars (.char c)) ?_ rfl rfl
      simp only [aperform, adata, AItem.chars, hc]
    | ref r => exact ref_attr r hi rfl

theorem attr_run {st nx : St} {lit : Bytes} {q : UInt8} {d e : Bytes} {es : List Bytes} {b : Builder}
    {dn : Option Node} {f : Frame} {l : List Frame} (a : Attr) (ha : a.OK) (h : TagAt st b e (B dn (f :: l) none)) :
    ∃ q' d', Runs (S st nx lit q d (e :: es) .none 0) b a.bytes (S .elem2 nx lit q' d' (e :: es) .none 0)
      (B dn ({ f with attrs := setAttr f.attrs a.name a.value } :: l) none) := by
  obtain ⟨hpre, ⟨c, cs, hn, hc, hcs⟩, hw1, hw2, hq, hi⟩ := ha
  have hcf := name_facts (Or.inl hc)
  -- white space and name
  have r1 := tag_blanks1 (nx := nx) (lit := lit) (q := q) (d := d) (es := es) h hpre
  have r2 : Runs (S .elem1 nx lit q d (e :: es) .none 0) (B dn (f :: l) none) [c]
      (S .attr0 nx lit q d (e :: es) (.attr [c]) 0) (B dn (f :: l) none) :=
    step1 (c := ⟨.attr0, nx, lit, q⟩) (a := .attrstart) (name_plain (Or.inl hc))
      (by simp [trans, hcf, isNameStart_of hc]) rfl rfl rfl
  have r3 := attr_name (nx := nx) (lit := lit) (q := q) (d := d) (e := [c]) (es := e :: es)
    (b := B dn (f :: l) none) hcs
  rw [show [c] ++ cs = a.name by rw [hn]; rfl] at r3
  -- equals sign
  have r4 : Runs (S .attr0 nx lit q d (e :: es) (.attr a.name) 0) (B dn (f :: l) none) (a.w1 ++ [0x3d])
      (S .attr2 nx lit q d (e :: es) (.attr a.name) 0) (B dn (f :: l) (some [])) := by
    match hw : a.w1, hw1 with
    | [], _ => exact step1 plain_lit rfl rfl rfl rfl
    | w :: ws, hw1 =>
      have hw' := hw1 w (by simp)
      refine Runs.cons (s' := S .attr1 nx lit q d (e :: es) (.attr a.name) 0) (b' := B dn (f :: l) (some [])) ?_ ?_
      · exact step1 (c := ⟨.attr1, nx, lit, q⟩) (a := .attrnameend) (blank_plain hw')
          (by simp [trans, blank_facts hw', isSP_of hw']) rfl rfl rfl
      · refine Runs.append (blanks_same (fun x hx => hw1 x (by simp [hx])) fun ch hch => by simp [trans, hch]) ?_
        exact step_ok1 plain_lit rfl
  have r5 : Runs (S .attr2 nx lit q d (e :: es) (.attr a.name) 0) (B dn (f :: l) (some [])) (a.w2 ++ [a.quote])
      (S .attr3 nx lit a.quote d (e :: es) (.attr a.name) 0) (B dn (f :: l) (some [])) := by
    refine Runs.append (blanks_same hw2 fun ch hch => by simp [trans, hch]) ?_
    rcases hq with hq | hq <;> rw [hq] <;> exact step_ok1 plain_lit rfl
  obtain ⟨d', r6⟩ := attr_items (nx := nx) (lit := lit) (q := a.quote) (d := d) (t := a.name) (es := e :: es)
    (dn := dn) (l := f :: l) (v := []) a.items hi
  have r7 : Runs (S .attr3 nx lit a.quote d' (e :: es) (.attr a.name) 0)
      (B dn (f :: l) (some ([] ++ a.items.flatMap AItem.chars))) [a.quote]
      (S .elem2 nx lit a.quote d' (e :: es) .none 0)
      (B dn ({ f with attrs := setAttr f.attrs a.name a.value } :: l) none) := by
    refine step1 (c := ⟨.elem2, nx, lit, a.quote⟩) (a := .attrvalend) ?_ ?_ rfl rfl rfl
    · rcases hq with hq | hq <;> rw [hq] <;> exact plain_lit
    · rcases hq with hq | hq <;> rw [hq] <;> rfl
  refine ⟨a.quote, d', ?_⟩
  have := r1.append (r2.append (r3.append (r4.append (r5.append (r6.append r7)))))
  have hb : a.bytes = a.pre ++ ([c] ++ (cs ++ (a.w1 ++ [0x3d] ++ (a.w2 ++ [a.quote] ++
      (a.items.flatMap AItem.bytes ++ [a.quote]))))) := by
    simp [Attr.bytes, hn, ascii]
  rw [hb]
  exact this

theorem attrs_run {st nx : St} {lit : Bytes} {q : UInt8} {d e : Bytes} {es : List Bytes} {b : Builder}
    {dn : Option Node} {f : Frame} {l : List Frame} (as : List Attr) (ha : ∀ a ∈ as, a.OK)
    (h : TagAt st b e (B dn (f :: l) none)) :
    ∃ st' q' d' b', Runs (S st nx lit q d (e :: es) .none 0) b (attrsBytes as) (S st' nx lit q' d' (e :: es) .none 0) b' ∧
      TagAt st' b' e (B dn ({ f with attrs := as.foldl (fun m a => setAttr m a.name a.value) f.attrs } :: l) none) := by
  induction as generalizing st q d b f with
  | nil => exact ⟨st, q, d, b, by simpa [attrsBytes] using Runs.nil _ _, h⟩
  | cons a as ih =>
    obtain ⟨q1, d1, h1⟩ := attr_run (nx := nx) (lit := lit) (q := q) (d := d) (es := es) a (ha a (by simp)) h
    obtain ⟨st', q2, d2, b', h2, h3⟩ := ih (st := .elem2) (q := q1) (d := d1)
      (f := { f with attrs := setAttr f.attrs a.name a.value }) (fun x hx => ha x (by simp [hx])) (Or.inr ⟨rfl, rfl⟩)
    exact ⟨st', q2, d2, b', by simpa [attrsBytes] using h1.append h2, h3⟩

theorem setAttr_new (m : List (Bytes × Bytes)) (k v : Bytes) (h : k ∉ m.map Prod.fst) : setAttr m k v = m ++ [(k, v)] := by
  induction m with
  | nil => rfl
  | cons x m ih =>
    obtain ⟨k', v'⟩ := x
    simp only [List.map_cons, List.mem_cons, not_or] at h
    simp only [setAttr]
    rw [if_neg (fun h0 => h.1 h0.symm), ih h.2]
    rfl

theorem attrs_fold (as : List Attr) (h : (as.map Attr.name).Nodup) (m : List (Bytes × Bytes))
    (hm : ∀ a ∈ as, a.name ∉ m.map Prod.fst) :
    as.foldl (fun m a => setAttr m a.name a.value) m = m ++ attrsValue as := by
  induction as generalizing m with
  | nil => simp [attrsValue]
  | cons a as ih =>
    simp only [List.map_cons, List.nodup_cons] at h
    simp only [List.foldl_cons]
    rw [setAttr_new _ _ _ (hm a (by simp)), ih h.2]
    · simp [attrsValue]
    · intro x hx
      simp only [List.map_append, List.mem_append, List.map_cons, List.map_nil, List.mem_singleton, not_or]
      refine ⟨hm x (by simp [hx]), ?_⟩
      intro h0
      exact h.1 (h0 ▸ List.mem_map_of_mem hx)

end Duck.Xml
