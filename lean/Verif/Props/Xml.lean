import Verif.Lemmas.XmlReject

/-!
# XML

`parse junk fuel xml` is `DKXMLParse` on the bytes `xml` with a stack buffer that holds `junk`: `none` is a crash or
a recursion deeper than `fuel`, `some none` is NULL, `some (some t)` is the tree `t`.  One call per doubling of the
buffer is made, so more calls than `xml` has bytes are never needed.
-/

namespace Duck.Xml

/-! ## C74: every input is answered -/

/-- Every string of bytes, well formed or not, is answered with a tree or with NULL: there is no access outside the
buffer, no NULL dereference and no endless retry, and the answer depends on nothing but the string. -/
theorem C74_total (xml : Bytes) :
    ∃ r : Option Node, ∀ junk fuel, xml.length < fuel → parse junk fuel xml = some r :=
  ⟨aparse xml, fun junk fuel hf => parse_ok junk fuel xml hf⟩

example : parse (fun _ => 0x5a) 100 (ascii "<a><b/>x</a>") =
    some (some (.elem (ascii "a") [] [.elem (ascii "b") [] [], .text (ascii "x")])) := by
  rw [parse_ok _ _ _ (by decide +kernel)]; rfl
example : parse (fun _ => 0x5a) 100 (ascii "<a><b></a>") = some none := by
  rw [parse_ok _ _ _ (by decide +kernel)]; rfl

/-- The answer is `r`, whatever the buffer holds and however often the call may recur. -/
def Answers (xml : Bytes) (r : Option Node) : Prop := ∀ junk fuel, xml.length < fuel → parse junk fuel xml = some r

theorem answers (xml : Bytes) : Answers xml (aparse xml) := fun junk fuel hf => parse_ok junk fuel xml hf

theorem answers_of {xml : Bytes} {r : Option Node} (h : aparse xml = r) : Answers xml r := h ▸ answers xml

/-! ## C73: documents -/

/-- Full claim: a well-formed document is answered with the tree it stands for, everything else with NULL.

Proved here: the first half, for documents in the grammar of `Spec/Xml.lean`.  Missing: documents with white space
before the last `>` of the root, with references of more than seven characters or to U+E000 to U+E7FD, with `]`
before white space in a CDATA section, with `??` in a processing instruction (all refuted below); character
encodings other than UTF-8; entities declared by the document. -/
theorem C73_document_partial (d : Doc) (h : d.OK) : Answers d.bytes (some d.root.tree) :=
  answers_of (aparse_doc d h)

/-- Line ends: CR LF and a CR alone count as LF. -/
theorem C73_line_ends (xml : Bytes) (r : Option Node) : Answers xml r ↔ Answers (normLines xml) r := by
  have key : ∀ x, Answers x r ↔ aparse x = r := by
    intro x
    constructor
    · intro h
      have h1 := h (fun _ => 0) (x.length + 1) (by omega)
      have h2 := answers x (fun _ => 0) (x.length + 1) (by omega)
      rw [h1] at h2
      simpa using h2.symm
    · exact answers_of
  rw [key, key, aparse_lines]

/-- An end tag whose name is not that of the innermost open element. -/
theorem C73_mismatched_tags (d : Doc) (h : d.OK) (o : Opened) (l : List Opened) (hl : ∀ p ∈ o :: l, p.OK) (n : Bytes)
    (hn : Name n) (hne : ((o :: l).map Opened.name).getLast? ≠ some n) (z : UInt8) (hz : Blank z ∨ z = 0x3e)
    (rest : Bytes) :
    Answers (d.prolog ++ (o :: l).flatMap Opened.bytes ++ ascii "</" ++ n ++ [z] ++ rest) none :=
  answers_of (mismatch_none d h o l hl hn hne hz rest)

/-- A document that stops before its root element is complete. -/
theorem C73_truncated (d : Doc) (h : d.OK) (p q : Bytes) (hq : q ≠ []) (hpq : d.prolog ++ d.root.bytes = p ++ q) :
    Answers p none :=
  answers_of (truncated_none d h p q hq hpq)

/-- Text or a second element after the root. -/
theorem C73_trailing (d : Doc) (h : d.OK) (c : UInt8) (rest : Bytes) :
    (Plain c → ¬ Blank c → c ≠ 0x3c → Answers (d.bytes ++ c :: rest) none) ∧
    (NameStart c → Answers (d.bytes ++ 0x3c :: c :: rest) none) :=
  ⟨fun h1 h2 h3 => answers_of (trailing_none d h h1 h2 h3 rest), fun h1 => answers_of (second_none d h h1 rest)⟩

theorem take5 {d x : Bytes} (hx : x.length < 5) (h : d.take 5 = x) : d = x := by
  have h1 : (d.take 5).length = x.length := by rw [h]
  rw [List.length_take] at h1
  rw [List.take_of_length_le (by omega)] at h
  exact h

theorem letter_ref {c : UInt8} : ((0x61 ≤ c ∧ c ≤ 0x7a) ∨ (0x41 ≤ c ∧ c ≤ 0x5a)) → isRef c = true ∧ Plain c ∧ c ≠ 0x23 :=
  all_bytes (P := fun c => ((0x61 ≤ c ∧ c ≤ 0x7a) ∨ (0x41 ≤ c ∧ c ≤ 0x5a)) → isRef c = true ∧ Plain c ∧ c ≠ 0x23)
    (by unfold Plain; decide +kernel) c

theorem content_bad (d : Doc) (h : d.OK) (o : Opened) (l : List Opened) (hl : ∀ p ∈ o :: l, p.OK) (n rest : Bytes)
    (hn : ∀ c ∈ n, isRef c = true ∧ Plain c) (hv : refRejected (refValue n) = true) :
    aparse (d.prolog ++ (o :: l).flatMap Opened.bytes ++ ascii "&" ++ n ++ ascii ";" ++ rest) = none := by
  obtain ⟨f, fs, r⟩ := opened_run d h o l hl
  obtain ⟨nx, lit, q, dd, r⟩ := r.start
  have := error_none r (ref_bad (m := rest) hn hv)
  simpa [ascii] using this

/-- In content, a reference to an entity other than the five predefined ones. -/
theorem C73_unknown_entity (d : Doc) (h : d.OK) (o : Opened) (l : List Opened) (hl : ∀ p ∈ o :: l, p.OK) (n rest : Bytes)
    (hn : ∀ c ∈ n, (0x61 ≤ c ∧ c ≤ 0x7a) ∨ (0x41 ≤ c ∧ c ≤ 0x5a))
    (hne : n ∉ [ascii "lt", ascii "gt", ascii "amp", ascii "apos", ascii "quot"]) :
    Answers (d.prolog ++ (o :: l).flatMap Opened.bytes ++ ascii "&" ++ n ++ ascii ";" ++ rest) none := by
  refine answers_of (content_bad d h o l hl n rest (fun c hc => ⟨(letter_ref (hn c hc)).1, (letter_ref (hn c hc)).2.1⟩) ?_)
  have h0 : refValue n = 0 := by
    unfold refValue
    split
    · exact absurd rfl (letter_ref (hn 0x23 (by simp))).2.2
    · exact absurd rfl (letter_ref (hn 0x23 (by simp))).2.2
    · simp only [List.mem_cons, List.not_mem_nil, or_false, not_or] at hne
      rw [if_neg, if_neg, if_neg, if_neg, if_neg]
      · intro h1; exact hne.2.2.2.2 (take5 (by decide) h1)
      · intro h1; exact hne.2.2.2.1 (take5 (by decide) h1)
      · intro h1; exact hne.2.2.1 (take5 (by decide) h1)
      · intro h1; exact hne.2.1 (take5 (by decide) h1)
      · intro h1; exact hne.1 (take5 (by decide) h1)
  rw [h0]
  rfl

/-- In content, a decimal reference to no character: zero, above U+10FFFF, or one of the two code points that are
not characters of XML. -/
theorem C73_bad_number (d : Doc) (h : d.OK) (o : Opened) (l : List Opened) (hl : ∀ p ∈ o :: l, p.OK) (ds rest : Bytes)
    (hd : ∀ c ∈ ds, 0x30 ≤ c ∧ c ≤ 0x39)
    (hv : number 10 ds = 0 ∨ 0x10FFFF < number 10 ds ∨ number 10 ds = 0xFFFE ∨ number 10 ds = 0xFFFF) :
    Answers (d.prolog ++ (o :: l).flatMap Opened.bytes ++ ascii "&#" ++ ds ++ ascii ";" ++ rest) none := by
  have hv' : refValue (0x23 :: ds) = number 10 ds := by
    unfold refValue
    split
    · rename_i r heq
      simp only [List.cons.injEq, true_and] at heq
      exact absurd rfl (isNum_digit (hd 0x78 (by rw [heq]; simp))).2.2.2.2
    · rename_i r _ heq
      simp only [List.cons.injEq, true_and] at heq
      subst heq
      have h2 := all_dropWhile (p := isNum) (l := ds) fun c hc => (isNum_digit (hd c hc)).2.1
      rw [h2.1, h2.2, if_pos rfl]
      exact foldl_digit (fun c hc => (isNum_digit (hd c hc)).2.2.1) 0
    · rename_i h1 h2
      exact absurd rfl (h2 ds)
  have := content_bad d h o l hl (0x23 :: ds) rest (fun c hc => by
    simp only [List.mem_cons] at hc
    rcases hc with rfl | hc
    · exact ⟨by decide, plain_lit⟩
    · exact ⟨(isNum_digit (hd c hc)).1, (isNum_digit (hd c hc)).2.2.2.1⟩) (by
    rw [hv']
    unfold refRejected
    simp only [Bool.or_eq_true, beq_iff_eq, decide_eq_true_eq]
    omega)
  refine answers_of ?_
  simpa [ascii] using this

/-! ### A document for the hypotheses -/

instance (w : Bytes) : Decidable (Blanks w) := by unfold Blanks; infer_instance
instance (w : Bytes) : Decidable (Blanks1 w) := by unfold Blanks1; infer_instance
instance (q : UInt8) : Decidable (Quote q) := by unfold Quote; infer_instance
instance (b : UInt8) : Decidable (Plain b) := by unfold Plain; infer_instance

/-- `<?xml version="1.0" encoding='UTF-8' standalone="yes" ?>`, a document type with a comment in it, an
element with two attributes, text with a reference and white space, a CDATA section, a comment, a processing
instruction, an empty element, and a comment after the root. -/
def exDoc : Doc where
  bom := true
  decl := some {
    ver := ⟨ascii " ", [], [], 0x22⟩, minor := ascii "0", enc := some (⟨ascii " ", [], [], 0x27⟩, ascii "UTF-8")
    std := some (⟨ascii " ", [], [], 0x22⟩, true), w := ascii " " }
  before := [.blanks (ascii "\n"),
    .doctype [.atom (.char 0x20), .atom (.char 0x61), .comment (ascii "c"), .decl 0x45 [.str 0x22 (ascii ">")]]]
  root := .elem (ascii "a")
    [⟨ascii " ", ascii "x", [], [], 0x22, [.char 0x31, .ref .lt]⟩, ⟨ascii "\n", ascii "y", ascii " ", [], 0x27, []⟩] []
    (.char 0x20 (.char 0x68 (.ref (.hex (ascii "e9")) (.char 0x20 (.char 0x0a (.cdata (ascii "<b>]") (.comment (ascii "-x")
      (.pi ⟨ascii "p", ascii " ", ascii "q"⟩ (.empty (ascii "e") [] (ascii " ") .nil)))))))))
  after := [.comment (ascii " end ")]

theorem name1 {c : UInt8} (h : NameStart c) : Name [c] := ⟨c, [], rfl, h, by simp⟩

def occurs (p : Bytes) : Bytes → Bool
  | [] => p.isPrefixOf []
  | c :: l => p.isPrefixOf (c :: l) || occurs p l

theorem no_infix {p s : Bytes} (h : occurs p s = false) : ¬ p <:+: s := by
  rintro ⟨a, b, rfl⟩
  have hp : p.isPrefixOf (p ++ b) = true := by rw [List.isPrefixOf_iff_prefix]; exact List.prefix_append _ _
  have h1 : ∀ l, p.isPrefixOf l = true → occurs p l = true := by
    intro l hl
    cases l <;> simp [occurs, hl]
  have h2 : ∀ a : Bytes, occurs p (a ++ (p ++ b)) = true := by
    intro a
    induction a with
    | nil => exact h1 _ hp
    | cons c a ih => simp [occurs, ih]
  rw [List.append_assoc, h2] at h
  exact absurd h (by decide)

theorem exDoc_ok : exDoc.OK := by
  refine ⟨?_, ?_, ?_, ?_⟩
  · intro x hx
    simp only [exDoc, Option.some.injEq] at hx
    subst hx
    refine ⟨by unfold Eq.OK; decide +kernel, by decide +kernel, ?_, ?_, by decide +kernel⟩
    · intro e n he
      simp only [Option.some.injEq, Prod.mk.injEq] at he
      obtain ⟨rfl, rfl⟩ := he
      refine ⟨by unfold Eq.OK; decide +kernel, 0x55, ascii "TF-8", by decide +kernel, by decide +kernel, by decide +kernel⟩
    · intro e y he
      simp only [Option.some.injEq, Prod.mk.injEq] at he
      obtain ⟨rfl, rfl⟩ := he
      unfold Eq.OK; decide +kernel
  · intro m hm
    simp only [exDoc, List.mem_cons, List.not_mem_nil, or_false] at hm
    rcases hm with rfl | rfl
    · show Blanks _; decide +kernel
    · refine ⟨rfl, ?_⟩
      intro i hi
      simp only [List.mem_cons, List.not_mem_nil, or_false] at hi
      rcases hi with rfl | rfl | rfl | rfl
      · show Plain _ ∧ ¬ Quote _ ∧ _ ∧ _; decide
      · show Plain _ ∧ ¬ Quote _ ∧ _ ∧ _; decide
      · exact ⟨by decide +kernel, no_infix (by decide +kernel)⟩
      · refine ⟨by decide, ?_⟩
        intro a ha
        simp only [List.mem_cons, List.not_mem_nil, or_false] at ha
        subst ha
        show Quote _ ∧ _; decide +kernel
  · refine ⟨name1 (by decide), ⟨?_, by decide +kernel⟩, by decide, ?_⟩
    · intro a ha
      simp only [List.mem_cons, List.not_mem_nil, or_false] at ha
      rcases ha with rfl | rfl
      · refine ⟨by decide +kernel, name1 (by decide), by decide, by decide, by decide, ?_⟩
        intro i hi
        simp only [List.mem_cons, List.not_mem_nil, or_false] at hi
        rcases hi with rfl | rfl
        · show Plain _ ∧ _; decide
        · exact ⟨⟨trivial, by decide, by decide, by decide, by decide⟩, trivial, by decide⟩
      · exact ⟨by decide +kernel, name1 (by decide), by decide +kernel, by decide, by decide, by simp⟩
    · refine ⟨by decide, by decide, ⟨⟨⟨by decide +kernel, by decide +kernel⟩, by decide +kernel, by decide +kernel, by decide +kernel,
        by decide +kernel⟩, by show _ ≤ _; decide +kernel, by decide +kernel⟩, by decide, by decide, ?_, ?_, ?_, ?_⟩
      · refine ⟨by decide +kernel, no_infix (by decide +kernel), ?_⟩
        intro b
        exact all_bytes (P := fun b => Num.isSpace b = true → ¬ [0x5d, b] <:+: ascii "<b>]")
          (fun n hn hs => no_infix (by
            have : ∀ n, n < 256 → Num.isSpace (UInt8.ofNat n) = true → occurs [0x5d, UInt8.ofNat n] (ascii "<b>]") = false := by
              decide +kernel
            exact this n hn hs)) b
      · exact ⟨by decide +kernel, no_infix (by decide +kernel)⟩
      · exact ⟨name1 (by decide), by decide +kernel, Or.inr (by decide +kernel), by decide +kernel,
          no_infix (by decide +kernel), no_infix (by decide +kernel)⟩
      · exact ⟨name1 (by decide), ⟨by simp, by decide⟩, by decide +kernel, trivial⟩
  · intro m hm
    simp only [exDoc, List.mem_cons, List.not_mem_nil, or_false] at hm
    subst hm
    exact ⟨by decide +kernel, no_infix (by decide +kernel)⟩

/-- The hypotheses of `C73_document_partial` are met, and the tree is what one expects. -/
example : Answers exDoc.bytes (some (.elem (ascii "a") [(ascii "x", ascii "1<"), (ascii "y", [])]
    [.text (ascii "h" ++ [0xc3, 0xa9] ++ ascii " <b>]"), .elem (ascii "e") [] []])) := C73_document_partial exDoc exDoc_ok

/-- Line ends. -/
example : Answers (ascii "<a>x\r\ny\rz</a>") (some (.elem (ascii "a") [] [.text (ascii "x y z")])) :=
  (C73_line_ends _ _).mpr (answers_of rfl)

/-- `<a><b>x</b` and `<a><b>x</a>`: hypotheses of the theorems on documents that are rejected. -/
def exOpen : List Opened := [⟨ascii "a", [], [], .nil⟩, ⟨ascii "b", [], [], .char 0x78 .nil⟩]

theorem exOpen_ok : ∀ p ∈ exOpen, p.OK := by
  intro p hp
  simp only [exOpen, List.mem_cons, List.not_mem_nil, or_false] at hp
  rcases hp with rfl | rfl
  · exact ⟨name1 (by decide), ⟨by simp, by decide⟩, by decide, trivial⟩
  · exact ⟨name1 (by decide), ⟨by simp, by decide⟩, by decide, by decide, trivial⟩

example : Answers (exDoc.prolog ++ exOpen.flatMap Opened.bytes ++ ascii "</" ++ ascii "a" ++ [0x3e] ++ ascii "</a>") none :=
  C73_mismatched_tags exDoc exDoc_ok _ _ exOpen_ok _ (name1 (by decide)) (by decide +kernel) _ (Or.inr rfl) _

example : Answers (exDoc.prolog ++ exOpen.flatMap Opened.bytes ++ ascii "&" ++ ascii "nbsp" ++ ascii ";" ++ ascii "</b></a>") none :=
  C73_unknown_entity exDoc exDoc_ok _ _ exOpen_ok _ _ (by decide +kernel) (by decide +kernel)

example : Answers (exDoc.prolog ++ exOpen.flatMap Opened.bytes ++ ascii "&#" ++ ascii "1114112" ++ ascii ";" ++ ascii "</b></a>") none :=
  C73_bad_number exDoc exDoc_ok _ _ exOpen_ok _ _ (by decide +kernel) (by decide +kernel)

example : Answers (exDoc.prolog ++ exDoc.root.bytes.dropLast) none :=
  C73_truncated exDoc exDoc_ok _ [0x3e] (by simp) (by decide +kernel)

example : Answers (exDoc.bytes ++ ascii "x") none ∧ Answers (exDoc.bytes ++ ascii "<b/>") none :=
  ⟨(C73_trailing exDoc exDoc_ok 0x78 []).1 (by decide) (by decide) (by decide),
    (C73_trailing exDoc exDoc_ok 0x62 (ascii "/>")).2 (by decide)⟩

/-! ### Where the code is wrong

Each theorem is about a document that the recommendation decides the other way. -/

/-- White space in the end tag of the root: `<a></a >` is well formed and rejected, `<a></a ` is neither and
accepted. -/
theorem C73_root_space_refuted :
    Answers (ascii "<a></a >") none ∧ Answers (ascii "<a></a ") (some (.elem (ascii "a") [] [])) :=
  ⟨answers_of rfl, answers_of rfl⟩

/-- References: U+E000 is a character and rejected, U+D800 is none and accepted; U+10FFFF is a character, but its
reference is too long for the parser. -/
theorem C73_reference_refuted :
    Answers (ascii "<a>&#xE000;</a>") none ∧
    Answers (ascii "<a>&#xD800;</a>") (some (.elem (ascii "a") [] [.text [0xed, 0xa0, 0x80]])) ∧
    Answers (ascii "<a>&#x10FFFF;</a>") none :=
  ⟨answers_of rfl, answers_of rfl, answers_of rfl⟩

/-- White space after `]` in a CDATA section is kept as it is, elsewhere it becomes one blank. -/
theorem C73_cdata_refuted :
    Answers (ascii "<a><![CDATA[x]\t\ty]]></a>") (some (.elem (ascii "a") [] [.text (ascii "x]\ty")])) ∧
    Answers (ascii "<a><![CDATA[x)\t\ty]]></a>") (some (.elem (ascii "a") [] [.text (ascii "x) y")])) :=
  ⟨answers_of rfl, answers_of rfl⟩

/-- Two attributes with one name are not well formed; the last one wins. -/
theorem C73_duplicate_refuted :
    Answers (ascii "<a x='1' x='2'/>") (some (.elem (ascii "a") [(ascii "x", ascii "2")] [])) := answers_of rfl

/-- A processing instruction that ends in `??>` is not over. -/
theorem C73_instruction_refuted : Answers (ascii "<a><?p x??></a>") none := answers_of rfl

end Duck.Xml
