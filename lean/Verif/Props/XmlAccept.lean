import Verif.Lemmas.XmlLooseRun
import Verif.Props.Xml

/-!
# XML: the texts that are accepted

The converse half of C73.  `Spec/XmlLoose.lean` is the grammar of what `DKXMLParse` takes, with a comment wherever it is
not the grammar of XML.
-/

namespace Duck.Xml

theorem normLines_no_cr (l : Bytes) : ∀ c ∈ normLines l, c ≠ 0x0d := by
  fun_induction normLines l with
  | case1 => simp
  | case2 => simp
  | case3 b h => simpa using h
  | case4 l ih =>
    intro c hc
    rcases List.mem_cons.mp hc with rfl | hc
    · decide
    · exact ih c hc
  | case5 b l h1 h2 ih =>
    intro c hc
    rcases List.mem_cons.mp hc with rfl | hc
    · split
      · decide
      · assumption
    · exact ih c hc

/-- A text is answered with a tree exactly when it belongs to the grammar of `Spec/XmlLoose.lean`, and the tree is the
one the text describes: elements nest and close in order, there is one root, every name, reference, comment, section,
instruction and declaration has its form, and every other text is answered with NULL. -/
theorem C73_accepted (xml : Bytes) (t : Node) :
    Answers xml (some t) ↔ ∃ d : TakenText, d.Taken ∧ d.bytes = normLines xml ∧ d.root.made = t := by
  rw [C73_line_ends]
  constructor
  · intro h
    have h1 := h (fun _ => 0) _ (Nat.lt_succ_self _)
    have h2 := answers (normLines xml) (fun _ => 0) _ (Nat.lt_succ_self _)
    rw [h1] at h2
    exact aparse_taken (normLines_no_cr xml) (by simpa using h2.symm)
  · rintro ⟨d, h1, h2, rfl⟩
    rw [← h2]
    exact answers_of (Loose.aparse_loose d h1)

/-- Every other text is answered with NULL. -/
theorem C73_rejected (xml : Bytes) :
    Answers xml none ↔ ¬ ∃ d : TakenText, d.Taken ∧ d.bytes = normLines xml := by
  constructor
  · rintro h ⟨d, h1, h2⟩
    have h3 := (C73_accepted xml d.root.made).mpr ⟨d, h1, h2, rfl⟩
    have h4 := h (fun _ => 0) _ (Nat.lt_succ_self _)
    rw [h3 (fun _ => 0) _ (Nat.lt_succ_self _)] at h4
    cases h4
  · intro h
    obtain ⟨r, hr⟩ := C74_total xml
    cases r with
    | none => exact hr
    | some t =>
      obtain ⟨d, h1, h2, _⟩ := (C73_accepted xml t).mp hr
      exact absurd ⟨d, h1, h2⟩ h

/-! ### A text for the hypotheses

A blank before the XML declaration, an attribute given twice, a surrogate, `]]>` in text, white space after `]`, and a
line feed in the place of the last `>`. -/

def exText : TakenText where
  bom := false
  lead := ascii " "
  decl := some { ver := ⟨ascii " ", [], [], 0x22⟩, minor := ascii "0", enc := none, std := none, w := [] }
  before := [.doctype [.atom (.char 0x20), .decl 0x3c [.char 0x3c]]]
  root := .elem (ascii "a") [⟨ascii " ", ascii "x", [], [], 0x22, [.char 0x31]⟩, ⟨ascii " ", ascii "x", [], [], 0x27, [.char 0x32]⟩] []
    (.ref (.hex (ascii "D800")) (.char 0x5d (.char 0x5d (.char 0x3e (.cdata (ascii "]\t y") (.pi ⟨ascii "p", ascii " ", ascii "??"⟩ .nil))))))
  z := 0x0a
  after := [.comment (ascii "c")]

theorem exText_taken : exText.Taken := by
  refine ⟨by decide +kernel, ?_, ?_, ?_, by right; decide, ?_⟩
  · intro x hx
    simp only [exText, Option.some.injEq] at hx
    subst hx
    exact ⟨by unfold Eq.OK; decide +kernel, by decide +kernel, by simp, by simp, by decide +kernel⟩
  · intro m hm
    simp only [exText, List.mem_singleton] at hm
    subst hm
    refine ⟨rfl, ?_⟩
    intro i hi
    simp only [List.mem_cons, List.not_mem_nil, or_false] at hi
    rcases hi with rfl | rfl
    · exact ⟨by decide, by decide, by decide, by decide⟩
    · refine ⟨by decide, ?_⟩
      intro a ha
      simp only [List.mem_singleton] at ha
      subst ha
      exact ⟨by decide, by decide, by decide, by decide⟩
  · refine ⟨name1 (by decide), ?_, by decide, ?_⟩
    · intro a ha
      simp only [List.mem_cons, List.not_mem_nil, or_false] at ha
      rcases ha with rfl | rfl
      · refine ⟨by decide +kernel, name1 (by decide), by decide, by decide, by decide, ?_⟩
        intro i hi
        simp only [List.mem_singleton] at hi
        subst hi
        exact ⟨by decide, by decide, by decide, by decide⟩
      · refine ⟨by decide +kernel, name1 (by decide), by decide, by decide, by decide, ?_⟩
        intro i hi
        simp only [List.mem_singleton] at hi
        subst hi
        exact ⟨by decide, by decide, by decide, by decide⟩
    · refine ⟨⟨by decide +kernel, by decide +kernel⟩, by decide, by decide, by decide, ⟨by decide +kernel, no_infix (by decide +kernel)⟩,
        ⟨name1 (by decide), by decide +kernel, Or.inr (by decide +kernel), ?_⟩, trivial⟩
      have e : ascii "??" = [0x3f, 0x3f] := by decide +kernel
      rw [e]
      exact .mark _ _ (by decide) (by decide) .nil
  · intro m hm
    simp only [exText, List.mem_singleton] at hm
    subst hm
    exact ⟨by decide +kernel, no_infix (by decide +kernel)⟩

theorem exText_bytes : exText.bytes =
    ascii " <?xml version=\"1.0\"?><!DOCTYPE <!<<>><a x=\"1\" x='2'>&#xD800;]]><![CDATA[]\t y]]><?p ???></a\n<!--c-->" := by
  decide +kernel

example : Answers
    (ascii " <?xml version=\"1.0\"?><!DOCTYPE <!<<>><a x=\"1\" x='2'>&#xD800;]]><![CDATA[]\t y]]><?p ???></a\r\n<!--c-->")
    (some (.elem (ascii "a") [(ascii "x", ascii "2")] [.text ([0xed, 0xa0, 0x80] ++ ascii "]]>]\ty")])) :=
  (C73_accepted _ _).mpr ⟨exText, exText_taken, by rw [exText_bytes]; decide +kernel, rfl⟩

/-! ### Texts that are no documents -/

/-- `]]>` in text and white space before the XML declaration are not well formed, and are accepted; so is a second
document type declaration. -/
theorem C73_malformed_refuted :
    Answers (ascii "<a>]]></a>") (some (.elem (ascii "a") [] [.text (ascii "]]>")])) ∧
    Answers (ascii " <?xml version='1.0'?><a/>") (some (.elem (ascii "a") [] [])) ∧
    Answers (ascii "<!DOCTYPE a><!DOCTYPE a><a/>") (some (.elem (ascii "a") [] [])) :=
  ⟨answers_of rfl, answers_of rfl, answers_of rfl⟩

end Duck.Xml
