import Verif.Lemmas.XmlDesc
import Verif.Props.Xml
/-!
C89: the description of an XML element is an XML document of the same tree.
-/
namespace Duck
namespace Xml
open Printf

/-- **C89 (partial).** The description of an element without markup in its texts and values can be parsed, for every order of the attributes, and gives the same tree, except
    that every text ends in a blank.
    Missing from the full property: the texts that do not end in a blank (`C89_blank_fails`), markup (`C89_markup_fails`, `C89_quote_fails`). -/
theorem C89_description_partial (libc : Libc) (order : List (Bytes × Bytes) → List (Bytes × Bytes)) (ho : ∀ l, (order l).Perm l) (t : Node) (he : IsElement t) (h : Writable t) :
    ∃ text t', description libc order t = some text ∧ Answers text (some t') ∧ Same (settle t) t' := by
  cases t with
  | text s => exact absurd he id
  | elem name attrs kids =>
      refine ⟨_, result order (.elem name attrs kids), description_eq order _, ?_, same_result order ho _⟩
      have := C73_document_partial (docOf order name attrs kids) (docOf_ok order ho h)
      rw [docOf_bytes, docOf_tree order ho h] at this
      exact this

/-- A tree with attributes, nested elements and texts. -/
def sample : Node := .elem (ascii "a") [(ascii "x", ascii "1 2"), (ascii "y", [])] [.text (ascii "b c"), .elem (ascii "d") [] [.text (ascii "e ")], .elem (ascii "f") [] []]

theorem sample_writable : Writable sample := by
  simp only [sample, Writable, WritableAll, TextOK, Name, ValueOK, NameStart, NameChar, Plain]
  refine ⟨⟨0x61, [], by decide, by decide, nofun⟩, ?_, by decide, ⟨by decide, by decide, by decide⟩, by decide,
    ⟨⟨0x64, [], by decide, by decide, nofun⟩, nofun, by decide, ⟨⟨by decide, by decide, by decide⟩, by decide, trivial⟩⟩, by decide,
    ⟨⟨0x66, [], by decide, by decide, nofun⟩, nofun, by decide, trivial⟩, by decide, trivial⟩
  intro a ha
  simp only [List.mem_cons, List.not_mem_nil, or_false] at ha
  rcases ha with rfl | rfl
  · exact ⟨⟨0x78, [], by decide, by decide, nofun⟩, by decide⟩
  · exact ⟨⟨0x79, [], by decide, by decide, nofun⟩, by decide⟩

example : IsElement sample ∧ Writable sample := ⟨trivial, sample_writable⟩

/-- What the description looks like. -/
example (libc : Libc) : description libc id sample = some (ascii "<a x=\"1 2\" y=\"\">\n  b c\n  <d>\n    e \n  </d>\n  <f>\n  </f>\n</a>\n") := by
  rw [description_eq]; rfl

/-- The description of a tree whose texts end in blanks gives the tree; and that is the case for the tree that comes back. -/
theorem C89_again_partial (libc : Libc) (order : List (Bytes × Bytes) → List (Bytes × Bytes)) (ho : ∀ l, (order l).Perm l) (t : Node) (he : IsElement t) (h : Writable t) :
    ∃ text t', description libc order (settle t) = some text ∧ Answers text (some t') ∧ Same (settle t) t' := by
  have he' : IsElement (settle t) := by
    cases t with
    | text s => exact absurd he id
    | elem name attrs kids => rw [settle]; trivial
  have := C89_description_partial libc order ho (settle t) he' (settle_writable t h)
  rw [settle_idem] at this
  exact this

/-- For documents: the tree of a document of the grammar, if nothing in it has to be escaped. -/
theorem C89_document_partial (libc : Libc) (order : List (Bytes × Bytes) → List (Bytes × Bytes)) (ho : ∀ l, (order l).Perm l) (d : Doc) (h : d.OK) (hm : NoMarkup d.root.tree) :
    ∃ t text t', Answers d.bytes (some t) ∧ description libc order t = some text ∧ Answers text (some t') ∧ Same (settle t) t' := by
  have he : IsElement d.root.tree := by cases hd : d.root <;> rw [Root.tree] <;> trivial
  obtain ⟨text, t', h1, h2, h3⟩ := C89_description_partial libc order ho d.root.tree he (tree_writable h hm)
  exact ⟨_, text, t', C73_document_partial d h, h1, h2, h3⟩

/-- `<a>b</a>` -/
def sampleDoc : Doc := ⟨false, none, [], .elem (ascii "a") [] [] (.char 0x62 .nil), []⟩

example : sampleDoc.OK ∧ NoMarkup sampleDoc.root.tree := by
  refine ⟨⟨nofun, nofun, ⟨⟨0x61, [], rfl, by unfold NameStart; decide, nofun⟩, ⟨nofun, List.nodup_nil⟩, nofun, ⟨by unfold Plain; decide, trivial⟩⟩, nofun⟩, ?_⟩
  have : sampleDoc.root.tree = .elem (ascii "a") [] [.text [0x62]] := rfl
  rw [this]
  simp only [NoMarkup, NoMarkupAll, Plain]
  exact ⟨nofun, by decide, trivial⟩

/-- **C89 fails for texts that do not end in a blank.** `<a>b</a>` has the text `b`; what its description is parsed to has the text `b` followed by a blank. -/
theorem C89_blank_fails (libc : Libc) : ∃ t text t', Answers (ascii "<a>b</a>") (some t) ∧ description libc id t = some text ∧ Answers text (some t') ∧ ¬ Same t t' := by
  refine ⟨.elem (ascii "a") [] [.text (ascii "b")], ascii "<a>\n  b\n</a>\n", .elem (ascii "a") [] [.text (ascii "b ")], answers_of rfl, by rw [description_eq]; rfl,
    answers_of rfl, ?_⟩
  intro h
  cases h with
  | elem _ _ hk =>
      cases hk with
      | cons h1 _ => generalize hx : ascii "b" = x at h1; generalize hy : ascii "b " = y at h1; cases h1; exact absurd (hx.trans hy.symm) (by decide)

/-- **C89 fails for markup in texts.** The text of `<a>&lt;b&gt;&lt;/b&gt;</a>` becomes an element. -/
theorem C89_markup_fails (libc : Libc) : ∃ text, Answers (ascii "<a>&lt;b&gt;&lt;/b&gt;</a>") (some (.elem (ascii "a") [] [.text (ascii "<b></b>")])) ∧
    description libc id (.elem (ascii "a") [] [.text (ascii "<b></b>")]) = some text ∧ Answers text (some (.elem (ascii "a") [] [.elem (ascii "b") [] []])) :=
  ⟨ascii "<a>\n  <b></b>\n</a>\n", answers_of rfl, by rw [description_eq]; rfl, answers_of rfl⟩

/-- **C89 fails for quotes in values.** The description of `<a x='"'/>` is not an XML document. -/
theorem C89_quote_fails (libc : Libc) : ∃ text, Answers (ascii "<a x='\"'/>") (some (.elem (ascii "a") [(ascii "x", ascii "\"")] [])) ∧
    description libc id (.elem (ascii "a") [(ascii "x", ascii "\"")] []) = some text ∧ Answers text none :=
  ⟨ascii "<a x=\"\"\">\n</a>\n", answers_of rfl, by rw [description_eq]; rfl, answers_of rfl⟩

end Xml
end Duck
