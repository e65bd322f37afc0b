import Verif.Lemmas.Query
/-! # C39 URL escapes with the real table, C80 query parameters, C81 style declarations -/
namespace Duck
namespace Query
open Unicode Text Url

/-! ## C39 -/

/-- The order in which the program enumerates its table of escapes. -/
theorem C39_order : order = enumeration.map fun c => (utf8 [c], utf8 (percent [c])) := by
  rw [order_eq, adding, List.map_map]; rfl

/-- **C39 (violated).** What adding the escapes to an ASCII text gives: the characters that are enumerated before '%' are escaped
    twice. -/
theorem C39_add (fuel : Nat) (s : List Char) (h : Writable fuel s) : addEscapes fuel (utf8 s) = some (utf8 (doubled s)) := (writable_add h).1

/-- **C39, partial.** Removing the escapes of an escaped text gives the text.  Missing: texts with '%' and other than ASCII. -/
theorem C39_remove_partial (fuel : Nat) (s : List Char) (h : Fits fuel s) : removeEscapes fuel (utf8 (percent s)) = some (utf8 s) :=
  remove_text h.1 h.2.1 h.2.2

/-- What removing the escapes after adding them gives, for ASCII texts without '%'. -/
theorem C39_back (fuel : Nat) (s : List Char) (h : Fits fuel s) :
    (addEscapes fuel (utf8 s)).bind (removeEscapes fuel) = some (utf8 (comesBack s)) := by
  rw [C39_add fuel s ⟨fun c hc => ⟨(h.1 c hc).1, (h.1 c hc).2.1⟩, h.2⟩, Option.bind_some]
  exact remove_doubled h.1 h.2.1 h.2.2

/-- **C39, decided** for ASCII texts without '%': exactly the texts without any of =>?@}{|~[\]^#$ and blanks come back. -/
theorem C39_exact (fuel : Nat) (s : List Char) (h : Fits fuel s) :
    (addEscapes fuel (utf8 s)).bind (removeEscapes fuel) = some (utf8 s) ↔ ∀ c ∈ s, c ∉ early := by
  have hz : ∀ t : List Char, (∀ c ∈ t, c ≠ '\x00') → '\x00' ∉ t := fun t ht hm => ht _ hm rfl
  rw [C39_back fuel s h, Option.some.injEq, ← comesBack_iff]
  refine ⟨fun e => utf8_inj (hz _ ?_) (hz _ fun c hc => (h.1 c hc).2.1) e, fun e => by rw [e]⟩
  intro c hc
  simp only [comesBack] at hc
  obtain ⟨d, hd, hc⟩ := List.mem_flatMap.mp hc
  have hm := mem_ascii (h.1 d hd).1 (h.1 d hd).2.1
  split at hc
  · exact ((percent_free d hm).2 c hc).2.2
  · simp at hc; rw [hc]; exact (h.1 d hd).2.1

/-- "a/b:c" comes back, "a b" comes back as "a%20b". -/
example : Fits 25 ['a', '/', 'b', ':', 'c'] ∧ (∀ c ∈ ['a', '/', 'b', ':', 'c'], c ∉ early) ∧
    addEscapes 25 (utf8 ['a', '/', 'b', ':', 'c']) = some (utf8 ['a', '%', '2', 'F', 'b', '%', '3', 'A', 'c']) ∧
    addEscapes 25 (utf8 ['a', ' ', 'b']) = some (utf8 ['a', '%', '2', '5', '2', '0', 'b']) ∧
    (addEscapes 25 (utf8 ['a', ' ', 'b'])).bind (removeEscapes 25) = some (utf8 ['a', '%', '2', '0', 'b']) := by
  refine ⟨⟨?_, by decide, by decide⟩, by decide, ?_, ?_, ?_⟩
  · unfold Decodable; decide
  · rw [C39_add 25 _ ⟨by decide, by decide, by decide⟩]; rfl
  · rw [C39_add 25 _ ⟨by decide, by decide, by decide⟩]; rfl
  · rw [C39_back 25 _ ⟨by unfold Decodable; decide, by decide, by decide⟩]; rfl

/-! ## C80 -/

/-- **C80, partial.** Splitting a query of named values gives a dictionary that has, for every name, the value of the last parameter
    of that name, and no other names.  It fits if there are at most ten parameters.
    Missing: '%' in names and values, other than ASCII characters, empty names and values (false, below), and dictionaries of more
    entries, where an insertion may fail (C07). -/
theorem C80_read_partial (fuel : Nat) (ps : Pairs) (hne : ps ≠ []) (h : ps.All (Fits fuel)) :
    ∃ r, splitQuery fuel (utf8 (queryText percent ps)) = some (some r) ∧ (ps.length ≤ 10 → ∃ d, r = .ok d) ∧
      ∀ d, r = .ok d →
        (∀ name, '\x00' ∉ name → (Dict.entry eqv d (utf8 name)).map (·.2) = (lastValue ps name).map (Option.map utf8)) ∧
        ∀ e ∈ HTable.entries d.rows, ∃ p ∈ ps, e.1 = utf8 p.1 := by
  refine ⟨_, splitQuery_text codec_percent hne h, fun hl => build_ok (by simpa using hl), fun d hd => ⟨fun name hn => ?_, fun e he => ?_⟩⟩
  · exact build_last ps (Option.map utf8) (fun p hp hz => ((h p hp).2.1.1 _ hz).2.1 rfl) hd hn
  · obtain ⟨c, h1, h2⟩ := build_keys hd e he
    obtain ⟨p, hp, rfl⟩ := List.mem_map.mp h1
    exact ⟨p, hp, h2.symm⟩

/-- **C80, partial.** Combining parameters gives their query, except that characters enumerated before '%' are escaped twice. -/
theorem C80_write_partial (fuel : Nat) (libc : Printf.Libc) (d : Params) (ps : Pairs)
    (hd : HTable.entries d.rows = ps.map fun p => (utf8 p.1, p.2.map utf8))
    (h : ∀ p ∈ ps, p.1 ≠ [] ∧ Writable fuel p.1 ∧ ∀ v, p.2 = some v → Writable fuel v) :
    combineQuery fuel libc (some d) = some (utf8 (queryText doubled ps)) := combineQuery_text libc hd h

/-- **C80 (violated).** What the parameters come back as: with the characters =>?@}{|~[\]^#$ and blanks still escaped. -/
theorem C80_back (fuel : Nat) (libc : Printf.Libc) (d : Params) (ps : Pairs) (hne : ps ≠ [])
    (hd : HTable.entries d.rows = ps.map fun p => (utf8 p.1, p.2.map utf8)) (h : ps.All (Fits fuel)) :
    (combineQuery fuel libc (some d)).bind (splitQuery fuel) =
      some (some (build (ps.map fun p => (utf8 (comesBack p.1), p.2.map fun v => utf8 (comesBack v))))) := by
  rw [C80_write_partial fuel libc d ps hd (fun p hp => ⟨(h p hp).1, ⟨fun c hc => ⟨((h p hp).2.1.1 c hc).1, ((h p hp).2.1.1 c hc).2.1⟩, (h p hp).2.1.2⟩,
    fun v hv => ⟨fun c hc => ⟨(((h p hp).2.2 v hv).2.1 c hc).1, (((h p hp).2.2 v hv).2.1 c hc).2.1⟩, ((h p hp).2.2 v hv).2.2⟩⟩), Option.bind_some]
  exact splitQuery_text codec_doubled hne h

/-- **C80, partial.** A dictionary of parameters without such characters, '%', empty names or empty values comes back from its query:
    every lookup finds the same entry. -/
theorem C80_roundtrip_partial (fuel : Nat) (libc : Printf.Libc) (hist : List (Dict.Op (List UInt8) (List UInt8))) (d : Params)
    (hr : Dict.run hash eqv id hist = .ok d) (ps : Pairs) (hne : ps ≠ []) (hd : HTable.entries d.rows = ps.map fun p => (utf8 p.1, p.2.map utf8))
    (h : ps.All fun s => Fits fuel s ∧ ∀ c ∈ s, c ∉ early) :
    combineQuery fuel libc (some d) = some (utf8 (queryText percent ps)) ∧
    ∃ r, splitQuery fuel (utf8 (queryText percent ps)) = some (some r) ∧ (ps.length ≤ 10 → ∃ d', r = .ok d') ∧
      ∀ d', r = .ok d' → ∀ name, Dict.entry eqv d' name = Dict.entry eqv d name := by
  have hf : ps.All (Fits fuel) := fun p hp => ⟨(h p hp).1, (h p hp).2.1.1, fun v hv => ⟨((h p hp).2.2 v hv).1, ((h p hp).2.2 v hv).2.1⟩⟩
  have e : queryText doubled ps = queryText percent ps := by
    rw [queryText, queryText, List.map_congr_left]
    rintro ⟨k, o⟩ hp
    obtain ⟨-, hk, hv⟩ := h _ hp
    cases o with
    | none => exact doubled_plain hk.2
    | some v => simp only [pairText]; rw [doubled_plain hk.2, doubled_plain (hv v rfl).2.2]
  refine ⟨?_, _, splitQuery_text codec_percent hne hf, fun hl => build_ok (by simpa using hl), fun d' hd' name => ?_⟩
  · rw [← e]
    exact C80_write_partial fuel libc d ps hd (fun p hp => ⟨(hf p hp).1, ⟨fun c hc => ⟨((hf p hp).2.1.1 c hc).1, ((hf p hp).2.1.1 c hc).2.1⟩,
      (hf p hp).2.1.2⟩, fun v hv => ⟨fun c hc => ⟨(((hf p hp).2.2 v hv).2.1 c hc).1, (((hf p hp).2.2 v hv).2.1 c hc).2.1⟩,
        ((hf p hp).2.2 v hv).2.2⟩⟩)
  · exact build_same hr (by rw [hd]; exact hd') name

/-- A library for examples without numbers. -/
def noLibc : Printf.Libc := fun _ _ => none

/-- The dictionary of "b&x/y" = "1,2" and "flag", its query, and back. -/
def exampleOps : List (Dict.Op (List UInt8) (List UInt8)) :=
  [.set (utf8 ['f', 'l', 'a', 'g']) none, .set (utf8 ['b', '&', 'x']) (some (utf8 ['1', ',', '2']))]

def examplePairs : Pairs := [(['b', '&', 'x'], some ['1', ',', '2']), (['f', 'l', 'a', 'g'], none)]

def exampleDict : Option (List (List UInt8 × Option (List UInt8))) :=
  match Dict.run hash eqv id exampleOps with
  | .ok d => some (HTable.entries d.rows)
  | .error _ => none

example : exampleDict = some (examplePairs.map fun p => (utf8 p.1, p.2.map utf8)) := by decide +kernel

example : examplePairs.All (fun s => Fits 20 s ∧ ∀ c ∈ s, c ∉ early) := by
  intro p hp
  simp only [examplePairs, List.mem_cons, List.not_mem_nil, or_false] at hp
  rcases hp with rfl | rfl
  · refine ⟨by decide, ⟨⟨by unfold Decodable; decide, by decide, by decide⟩, by decide⟩, ?_⟩
    rintro v ⟨⟩
    exact ⟨by decide, ⟨by unfold Decodable; decide, by decide, by decide⟩, by decide⟩
  · exact ⟨by decide, ⟨⟨by unfold Decodable; decide, by decide, by decide⟩, by decide⟩, by rintro v ⟨⟩⟩

/-- The query is "b%26x=1%2C2&flag". -/
example : queryText percent examplePairs = ['b', '%', '2', '6', 'x', '=', '1', '%', '2', 'C', '2', '&', 'f', 'l', 'a', 'g'] := by decide +kernel

/-- The entries a query gives, in the order of the table. -/
def readEntries (s : List Char) : Option (List (List UInt8 × Option (List UInt8))) :=
  match splitQuery 100 (utf8 s) with
  | some (some (.ok d)) => some (HTable.entries d.rows)
  | _ => none

/-- **C80 (violated).** An empty value is read as NULL, so that "a=" and "a" are the same. -/
theorem C80_empty_value_fails : readEntries ['a', '='] = some [(utf8 ['a'], none)] ∧ readEntries ['a'] = some [(utf8 ['a'], none)] := by
  decide +kernel

/-- **C80 (violated).** After an empty parameter the rest of the query is one name: "a&&b=1" has the name "&b" with value "1". -/
theorem C80_empty_parameter_fails : readEntries ['a', '&', '&', 'b', '=', '1'] = some [(utf8 ['&', 'b'], some (utf8 ['1'])), (utf8 ['a'], none)] := by decide +kernel

/-- **C80 (violated).** An empty name is joined with its value: "=1" has the name "=1" and no value. -/
theorem C80_empty_name_fails : readEntries ['=', '1'] = some [(utf8 ['=', '1'], none)] := by decide +kernel

/-- **C80 (violated).** What follows a second '=' is lost: "a=b=c" has the value "b". -/
theorem C80_equals_fails : readEntries ['a', '=', 'b', '=', 'c'] = some [(utf8 ['a'], some (utf8 ['b']))] := by decide +kernel

/-- **C80 (violated).** The dictionary without parameters does not come back: its query is "", for which NULL is returned. -/
theorem C80_none_fails (fuel : Nat) (libc : Printf.Libc) :
    combineQuery fuel libc (some HTable.init) = some [] ∧ splitQuery fuel [] = some none := ⟨rfl, rfl⟩

/-- **C80 (violated).** A value with a blank comes back with "%20" instead, whatever its other characters. -/
theorem C80_blank_fails (fuel : Nat) (libc : Printf.Libc) (d : Params) (k v : List Char) (hk : k ≠ [] ∧ Fits fuel k) (hv : v ≠ [] ∧ Fits fuel v)
    (hd : HTable.entries d.rows = [(utf8 k, some (utf8 v))]) (hb : ' ' ∈ v) :
    ∃ v', (combineQuery fuel libc (some d)).bind (splitQuery fuel) = some (some (build [(utf8 (comesBack k), some (utf8 v'))])) ∧ v' ≠ v := by
  refine ⟨comesBack v, ?_, fun e => (comesBack_iff v).mp e ' ' hb (by decide)⟩
  have := C80_back fuel libc d [(k, some v)] (by simp) hd (by
    intro p hp
    simp only [List.mem_singleton] at hp
    subst hp
    exact ⟨hk.1, hk.2, by rintro w ⟨⟩; exact hv⟩)
  exact this

/-! ## C81 -/

/-- **C81, partial.** Splitting style declarations gives a dictionary that has, for every name, the value of the last declaration of
    that name, without the white space around it, and no other names; texts without a colon between the semicolons are ignored.
    Missing: empty names, values and declarations, values with ':' (false, below), characters from U+0100 on (C75). -/
theorem C81_read_partial (is : List Item) (hne : is ≠ []) (h : ∀ i ∈ is, i.Ok) (final : Bool) :
    ∃ r, splitStyles (utf8 (stylesText is final)) = some (some r) ∧ ((declared is).length ≤ 10 → ∃ d, r = .ok d) ∧
      ∀ d, r = .ok d →
        (∀ name, '\x00' ∉ name → (Dict.entry eqv d (utf8 name)).map (·.2) = (lastValue (declared is) name).map fun v => some (utf8 v)) ∧
        ∀ e ∈ HTable.entries d.rows, ∃ p ∈ declared is, e.1 = utf8 p.1 := by
  have hz : ∀ p ∈ declared is, '\x00' ∉ p.1 := by
    clear hne
    induction is with
    | nil => intro p hp; cases hp
    | cons i is ih =>
      have ih := ih (fun j hj => h j (by simp [hj]))
      cases i with
      | other t => exact ih
      | decl d =>
        intro p hp
        rcases List.mem_cons.mp hp with rfl | hp
        · have hd : d.Ok := h (.decl d) (by simp)
          exact fun hm => (hd.name.chars _ hm).2.2.1 rfl
        · exact ih p hp
  refine ⟨_, splitStyles_text h hne final, fun hl => build_ok (by simpa using hl), fun d hd => ⟨fun name hn => ?_, fun e he => ?_⟩⟩
  · exact build_last (declared is) (fun v => some (utf8 v)) hz hd hn
  · obtain ⟨c, h1, h2⟩ := build_keys hd e he
    obtain ⟨p, hp, rfl⟩ := List.mem_map.mp h1
    exact ⟨p, hp, h2.symm⟩

/-- " color : red; margin:0 auto ;\n" -/
def exampleItems : List Item :=
  [.decl ⟨[' '], ['c', 'o', 'l', 'o', 'r'], [' '], [' '], ['r', 'e', 'd'], []⟩,
   .decl ⟨[' '], ['m', 'a', 'r', 'g', 'i', 'n'], [], [], ['0', ' ', 'a', 'u', 't', 'o'], [' ']⟩, .other ['\n']]

example : stylesText exampleItems false = " color : red; margin:0 auto ;\n".toList ∧ ∀ i ∈ exampleItems, i.Ok := by
  refine ⟨by decide, ?_⟩
  intro i hi
  simp only [exampleItems, List.mem_cons, List.not_mem_nil, or_false] at hi
  rcases hi with rfl | rfl | rfl
  · exact ⟨⟨⟨_, rfl, by decide⟩, ⟨_, rfl, by decide⟩, by decide⟩, ⟨⟨_, rfl, by decide⟩, ⟨_, rfl, by decide⟩, by decide⟩, by decide⟩
  · exact ⟨⟨⟨_, rfl, by decide⟩, ⟨_, rfl, by decide⟩, by decide⟩, ⟨⟨_, rfl, by decide⟩, ⟨_, rfl, by decide⟩, by decide⟩, by decide⟩
  · exact ⟨by decide, by decide⟩

/-- The entries a text of styles gives. -/
def styleEntries (s : List Char) : Option (List (List UInt8 × Option (List UInt8))) :=
  match splitStyles (utf8 s) with
  | some (some (.ok d)) => some (HTable.entries d.rows)
  | _ => none

/-- **C81 (violated).** A declaration whose value has a colon, such as "background: url(http://x)", is dropped. -/
theorem C81_colon_fails (name : List Char) (parts : List (List Char)) (h : ∀ p ∈ name :: parts, p ≠ [] ∧ ∀ c ∈ p, c ≠ ':' ∧ c ≠ ';' ∧ c ≠ '\x00')
    (h2 : 2 ≤ parts.length) : splitStyles (utf8 ([':'].intercalate (name :: parts))) = some (some (build [])) := by
  have hp := stylePair_parts (parts := name :: parts) (fun p hp => ⟨(h p hp).1, fun c hc => ⟨((h p hp).2 c hc).1, ((h p hp).2 c hc).2.2⟩⟩)
    (by simp; omega)
  have hmem : ∀ c ∈ [':'].intercalate (name :: parts), c ≠ ';' ∧ c ≠ '\x00' := by
    have : ∀ ps : List (List Char), (∀ p ∈ ps, ∀ c ∈ p, c ≠ ';' ∧ c ≠ '\x00') → ∀ c ∈ [':'].intercalate ps, c ≠ ';' ∧ c ≠ '\x00' := by
      intro ps
      induction ps with
      | nil => intro _ c hc; simp at hc
      | cons p ps ih =>
        intro hps c hc
        have ih := ih (fun q hq => hps q (by simp [hq]))
        cases ps with
        | nil => simp at hc; exact hps p (by simp) c hc
        | cons q qs =>
          rw [List.intercalate_cons_cons] at hc
          simp only [List.mem_append, List.mem_singleton] at hc
          rcases hc with (hc | rfl) | hc
          · exact hps p (by simp) c hc
          · decide
          · exact ih c hc
    exact this _ (fun p hp c hc => ((h p hp).2 c hc).2)
  have hne : [':'].intercalate (name :: parts) ≠ [] := by
    cases parts with
    | nil => simp at h2
    | cons q qs => simp
  have hs := split_parts (c := ';') (by decide) [[':'].intercalate (name :: parts)] (by simpa using fun hz => (hmem _ hz).2 rfl)
    (by simpa using ⟨hne, fun hz => (hmem _ hz).1 rfl⟩)
  rw [semi_eq, List.intercalate_singleton] at hs
  rw [splitStyles, if_pos (List.length_pos_iff.mpr (utf8_ne hne)), hs]
  simp only [List.map_cons, List.map_nil, Option.bind_some, forAll, hp, Option.map_some]
  rfl

example : styleEntries ['a', ':', 'u', '(', 'h', ':', '/', ')'] = some [] := by decide +kernel

/-- **C81 (violated).** An empty declaration joins the rest: after "a:1;;b:2" there is a style named ";b". -/
theorem C81_empty_fails : styleEntries ['a', ':', '1', ';', ';', 'b', ':', '2'] = some [(utf8 [';', 'b'], some (utf8 ['2'])), (utf8 ['a'], some (utf8 ['1']))] := by decide +kernel

end Query
end Duck
