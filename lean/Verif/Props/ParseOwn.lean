import Verif.Lemmas.ParseOwnXmlRun
/-! # C111: the memory of the parsers -/
namespace Duck
namespace ParseOwn

/-- **C111, JSON.** Whenever a text has a value (`Json.parse`), the parse with its objects returns an object that shows this
    value, with nothing freed twice or used after it was freed (`none`).  What exists then is exactly what belongs to the
    result, every object has exactly as many owners as references, and when the result is released nothing is left. -/
theorem C111_json (H : Json.Host) (m : Unicode.Mem) (v : Json.Json) (hv : Json.parse H m = some v) :
    ∃ r h, parseJson H m = some (r, h) ∧ Val h r v ∧ Exact h r ∧ ∃ h', release h r = some h' ∧ ∀ i, get h' i = none := by
  obtain ⟨r, h, e, b, w⟩ := json_same H m v hv
  obtain ⟨h', e', b', _⟩ := release_ok r (R := []) (by rw [List.append_nil]; exact b)
  exact ⟨r, h, e, w, b.exact, h', e', b'.empty⟩

/-- `{"a":[1],"a":2}`: the first value for `a` is gone, the copy of the second key too. -/
example (H : Json.Host) : parseJson H [0x7b, 0x22, 0x61, 0x22, 0x3a, 0x5b, 0x31, 0x5d, 0x2c, 0x22, 0x61, 0x22, 0x3a, 0x32, 0x7d, 0] =
    some (.ptr 0, [some (1, .dict [([0x61], .ptr 4, .ptr 6)]), none, none, none, some (1, .leaf (.str [0x61])), none,
      some (1, .leaf (.num (.int 2))), none]) := rfl
/-- `[[1],2 3]` is rejected and leaves nothing. -/
example (H : Json.Host) : parseJson H [0x5b, 0x5b, 0x31, 0x5d, 0x2c, 0x32, 0x20, 0x33, 0x5d, 0] = some (null, [none, none, none, none]) := rfl
example (H : Json.Host) : Json.parse H [0x5b, 0x5b, 0x31, 0x5d, 0x2c, 0x32, 0x20, 0x33, 0x5d, 0] = some .null := rfl

/-- **C111, XML.** For every text the parse returns; the result is NULL or an element that shows the tree the text stands for
    (`Xml.parse`).  What exists then is exactly what belongs to the result, every object has exactly as many owners as
    references, and when the result is released nothing is left: also when the text is rejected at any byte, and when the
    parse starts again with a larger buffer. -/
theorem C111_xml (junk : Nat → UInt8) (fuel : Nat) (xml : Bytes) (hf : xml.length < fuel) :
    ∃ t r h, Xml.parse junk fuel xml = some t ∧ parseXml junk fuel xml = some (r, h) ∧ (t = none → r = null) ∧
      (∀ n, t = some n → Shows h r n) ∧ Exact h r ∧ ∃ h', release h r = some h' ∧ ∀ i, get h' i = none := by
  have ht := Xml.parse_ok junk fuel xml hf
  obtain ⟨r, h, e, b, w⟩ := xml_same junk fuel xml _ ht
  obtain ⟨h', e', b', _⟩ := release_ok r (R := []) (by rw [List.append_nil]; exact b)
  refine ⟨_, r, h, ht, e, fun hn => ?_, fun n hn => ?_, b.exact, h', e', b'.empty⟩
  · rw [hn] at w; exact w
  · rw [hn] at w; exact w

/-- `<a b='c' b='d'>x<e/></a>`: what exists in the end -/
example : (parseOnce (fun _ => 0) 32 [0x3c, 0x61, 0x20, 0x62, 0x3d, 0x27, 0x63, 0x27, 0x20, 0x62, 0x3d, 0x27, 0x64, 0x27, 0x3e, 0x78, 0x3c, 0x65, 0x2f, 0x3e,
      0x3c, 0x2f, 0x61, 0x3e] []) =
    some (.ok, .ptr 1, [none, some (1, .element (.ptr 2) (.ptr 3) (.ptr 4)), some (1, .leaf (.str [0x61])),
      some (1, .dict [([0x62], .ptr 6, .ptr 7)]), some (1, .list [.ptr 9, .ptr 10]), none, some (1, .leaf (.str [0x62])),
      some (1, .leaf (.str [0x64])), none, some (1, .leaf (.str [0x78])), some (1, .element (.ptr 11) (.ptr 12) (.ptr 13)),
      some (1, .leaf (.str [0x65])), some (1, .dict []), some (1, .list [])]) := rfl
/-- `<a b='c` ends in the value of an attribute and leaves nothing. -/
example : (parseOnce (fun _ => 0) 32 [0x3c, 0x61, 0x20, 0x62, 0x3d, 0x27, 0x63] []) = some (.ok, null, [none, none, none, none, none, none]) := rfl
/-- `<a b` does not fit into four bytes: the parse gives up, frees everything and starts again. -/
example : (parseOnce (fun _ => 0) 4 [0x3c, 0x61, 0x20, 0x62] []) = some (.estack, null, [none, none, none, none, none]) := rfl

/-- **C111, NULL.** With NULL as the result no object is left. -/
theorem C111_null (h : Heap) (e : Exact h null) (i : Nat) : get h i = none := by
  cases c : get h i with
  | none => rfl
  | some q =>
    obtain ⟨j, hj, _⟩ := e.found i q.1 q.2 c
    cases hj

end ParseOwn
end Duck
