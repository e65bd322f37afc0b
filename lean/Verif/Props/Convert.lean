import Verif.Lemmas.Convert
/-! # C99 conversions between numbers and texts -/
namespace Duck
namespace Convert
open Num (Digits value signText)

/-- **C99.** The text of a number shows its elements in order, with the separator between them. -/
theorem C99_text (real : Number.Ty → Nat → List UInt8) (sep : List UInt8) (a : Number.Obj) (ha : a.Ok) (hc : 0 < a.enc.count) :
    ∃ ts : List (List UInt8), formatString real sep a = some (joined sep ts) ∧ ts.length = a.enc.count ∧
      ∀ i t, ts[i]? = some t → Shows real a.enc.ty (Number.elem a.enc.ty a.value i) t := by
  refine ⟨texts real a 0 a.enc.count, formatString_eq real sep ha hc, by simp [texts], ?_⟩
  intro i t h
  have hi : i < a.enc.count := by
    have := (List.getElem?_eq_some_iff.mp h).1
    simpa [texts] using this
  simp only [texts, List.getElem?_map, List.getElem?_range hi, Option.map_some, Nat.zero_add, Option.some.injEq] at h
  rw [← h]
  exact elemText_shows real _ (element_eq ha hi).2

/-- Three 16-bit integers: "3, -20, 0". -/
example : formatString (fun _ _ => []) [0x2c, 0x20] ⟨Number.vec .i16 3, [3, 0, 236, 255, 0, 0]⟩ =
    some [0x33, 0x2c, 0x20, 0x2d, 0x32, 0x30, 0x2c, 0x20, 0x30] := by decide +kernel

/-- **C99.** The integer of a string is the number it begins with after white space, or the nearest number of 64 bits; 0 if it
does not begin with a number.  The scan stays within the string and its terminator, whatever the bytes are. -/
theorem C99_int64 (s : List UInt8) :
    (∀ neg ds, Begins s neg ds → getInt64 (some (.string s)) = some (clamp (signed neg ds))) ∧
    ((∀ neg ds, ¬ Begins s neg ds) → getInt64 (some (.string s)) = some 0) := by
  refine ⟨fun neg ds h => ?_, fun h => ?_⟩
  · simp only [getInt64, stringInt64, if_pos (begins_ne h)]
    exact strtol_begins h
  · simp only [getInt64, stringInt64]
    split
    · exact strtol_none h
    · rfl

/-- " -12x" begins with -12; "99999999999999999999" is out of range. -/
example : Begins [0x20, 0x2d, 0x31, 0x32, 0x78] true [0x31, 0x32] ∧ getInt64 (some (.string [0x20, 0x2d, 0x31, 0x32, 0x78])) = some (-12) ∧
    getInt64 (some (.string (List.replicate 20 0x39))) = some (2 ^ 63 - 1) ∧ getInt64 (some (.string [0x2d, 0x78, 0x31])) = some 0 :=
  ⟨⟨[0x20], false, [0x78], by unfold White; decide, by unfold Digits; decide, by decide, by simp, rfl⟩, by decide +kernel, by decide +kernel, by decide +kernel⟩

/-- **C99, partial.** The 32-bit integer of a string is the number it begins with.  Missing: numbers of more than 32 bits, for which it is
not the nearest number of 32 bits (`C99_int32_fails`). -/
theorem C99_int32_partial (s : List UInt8) :
    (∀ neg ds, Begins s neg ds → -(2 ^ 31) ≤ signed neg ds → signed neg ds < 2 ^ 31 → getInt32 (some (.string s)) = some (signed neg ds)) ∧
    ((∀ neg ds, ¬ Begins s neg ds) → getInt32 (some (.string s)) = some 0) := by
  refine ⟨fun neg ds h h1 h2 => ?_, fun h => ?_⟩
  · simp only [getInt32, stringInt32, if_pos (begins_ne h), strtol_begins h, Option.map_some]
    rw [show clamp (signed neg ds) = signed neg ds by unfold clamp; omega, toInt32_id h1 h2]
  · simp only [getInt32, stringInt32]
    split
    · rw [strtol_none h]; rfl
    · rfl

example : getInt32 (some (.string [0x2b, 0x37, 0x2e])) = some 7 := by decide +kernel

/-- C99 is false of 32-bit integers of strings out of range: "4294967297" is 1 and "2147483648" is negative, while the same text
read as 64 bits saturates. -/
theorem C99_int32_fails :
    getInt32 (some (.string [0x34, 0x32, 0x39, 0x34, 0x39, 0x36, 0x37, 0x32, 0x39, 0x37])) = some 1 ∧
    getInt32 (some (.string [0x32, 0x31, 0x34, 0x37, 0x34, 0x38, 0x33, 0x36, 0x34, 0x38])) = some (-(2 ^ 31)) ∧
    getInt32 (some (.string (List.replicate 20 0x39))) = some (-1) := by decide +kernel

theorem description_begins (real : Number.Ty → Nat → List UInt8) (a : Number.Obj) (ha : a.Ok) (hc : 0 < a.enc.count) (ht : a.enc.ty.fmt = none) :
    ∃ s neg ds, description real a = some s ∧ Begins s neg ds ∧ signed neg ds = intAt a 0 := by
  have h := formatString_eq real [0x20] ha hc
  obtain ⟨n, hn⟩ : ∃ n, a.enc.count = n + 1 := ⟨a.enc.count - 1, by omega⟩
  have hw := elemText_shows real a.enc.ty (element_eq ha hc).2
  unfold Shows at hw
  rw [ht] at hw
  rw [hn, texts_succ] at h
  have hj : ∃ rest, joined [0x20] (elemText real a.enc.ty (Number.elem a.enc.ty a.value 0) :: texts real a (0 + 1) n) =
      elemText real a.enc.ty (Number.elem a.enc.ty a.value 0) ++ rest ∧ (∀ b, rest.head? = some b → ¬ (48 ≤ b.toNat ∧ b.toNat ≤ 57)) := by
    cases texts real a (0 + 1) n with
    | nil => exact ⟨[], by simp [joined], fun b hb => by simp at hb⟩
    | cons t ts =>
      refine ⟨0x20 :: joined [0x20] (t :: ts), by simp [joined], fun b hb => ?_⟩
      simp only [List.head?_cons, Option.some.injEq] at hb
      rw [← hb]; decide
  obtain ⟨rest, hr1, hr2⟩ := hj
  obtain ⟨neg, ds, hb, hs⟩ := writes_begins hw hr2
  rw [hr1] at h
  exact ⟨_, neg, ds, h, hb, hs⟩

/-- **C99, partial.** The text of an integer number, read as a 64-bit integer, is the number, and so is the number read directly; of a
vector or matrix both are its first element.  Missing: unsigned numbers from 2^63 up (`C99_large_fails`), and floating point. -/
theorem C99_back_partial (real : Number.Ty → Nat → List UInt8) (a : Number.Obj) (ha : a.Ok) (hc : 0 < a.enc.count) (ht : a.enc.ty.fmt = none)
    (h63 : intAt a 0 < 2 ^ 63) :
    ∃ s, getString real (some (.number a)) = some (some s) ∧ getInt64 (some (.string s)) = some (intAt a 0) ∧
      getInt64 (some (.number a)) = some (intAt a 0) := by
  obtain ⟨s, neg, ds, h1, h2, h3⟩ := description_begins real a ha hc ht
  have hlo : -(2 ^ 63) ≤ intAt a 0 := by
    have := (Number.intVal_range a.enc.ty (element_eq ha hc).2).1
    have hl : -(2 ^ 63) ≤ a.enc.ty.lo := by
      cases a.enc.ty <;> decide
    exact Int.le_trans hl this
  refine ⟨s, by simp only [getString, h1, Option.map_some], ?_, ?_⟩
  · rw [(C99_int64 s).1 neg ds h2, h3]
    rw [show clamp (intAt a 0) = intAt a 0 by unfold clamp; omega]
  · obtain ⟨c, g1, g2, _⟩ := getScalar_int ha hc ht .i64 (.inr rfl) ⟨hlo, by
      show intAt a 0 ≤ 2 ^ 63 - 1
      omega⟩
    simp only [getInt64, g1, Option.map_some, g2]

/-- **C99, partial.** Likewise for 32 bits, of integers of 32 bits. -/
theorem C99_back32_partial (real : Number.Ty → Nat → List UInt8) (a : Number.Obj) (ha : a.Ok) (hc : 0 < a.enc.count) (ht : a.enc.ty.fmt = none)
    (hlo : -(2 ^ 31) ≤ intAt a 0) (hhi : intAt a 0 < 2 ^ 31) :
    ∃ s, getString real (some (.number a)) = some (some s) ∧ getInt32 (some (.string s)) = some (intAt a 0) ∧
      getInt32 (some (.number a)) = some (intAt a 0) ∧ getBool (some (.number a)) = some (decide (intAt a 0 ≠ 0)) := by
  obtain ⟨s, neg, ds, h1, h2, h3⟩ := description_begins real a ha hc ht
  obtain ⟨c, g1, g2, g3⟩ := getScalar_int ha hc ht .i32 (.inl rfl) ⟨hlo, by
      show intAt a 0 ≤ 2 ^ 31 - 1
      omega⟩
  refine ⟨s, by simp only [getString, h1, Option.map_some], ?_, ?_, ?_⟩
  · rw [(C99_int32_partial s).1 neg ds h2 (by omega) (by omega), h3]
  · simp only [getInt32, g1, Option.map_some, g2]
  · simp only [getBool, Number.getBool, g1, Option.map_some, Option.some.injEq]
    rw [← g2]
    by_cases h0 : c = 0
    · subst h0; rfl
    · have : Number.intVal .i32 c ≠ 0 := fun h => h0 (Number.intVal_inj .i32 g3 (Nat.pow_pos (by decide)) (by rw [h]; rfl))
      simp [h0, this]

/-- -300 in 16 bits; a vector of 7 and 8. -/
example : getString (fun _ _ => []) (some (.number (Number.scalar .i16 0xfed4))) = some (some [0x2d, 0x33, 0x30, 0x30]) ∧
    intAt (Number.scalar .i16 0xfed4) 0 = -300 ∧
    getString (fun _ _ => []) (some (.number ⟨Number.vec .u8 2, [7, 8]⟩)) = some (some [0x37, 0x20, 0x38]) ∧
    getInt64 (some (.string [0x37, 0x20, 0x38])) = some 7 := by decide +kernel

/-- C99 is false of unsigned numbers from 2^63 up: 2^64 - 1 is -1, but its text is 2^63 - 1. -/
theorem C99_large_fails : ∃ s, getString (fun _ _ => []) (some (.number (Number.scalar .u64 (2 ^ 64 - 1)))) = some (some s) ∧
    getInt64 (some (.number (Number.scalar .u64 (2 ^ 64 - 1)))) = some (-1) ∧ getInt64 (some (.string s)) = some (2 ^ 63 - 1) :=
  ⟨[0x31, 0x38, 0x34, 0x34, 0x36, 0x37, 0x34, 0x34, 0x30, 0x37, 0x33, 0x37, 0x30, 0x39, 0x35, 0x35, 0x31, 0x36, 0x31, 0x35],
    by decide +kernel, by decide +kernel, by decide +kernel⟩

/-- **C99.** A string is true if its first character is a digit other than 0, or one of "t", "T", "y" and "Y". -/
theorem C99_bool (s : List UInt8) : getBool (some (.string s)) =
    some (decide (∃ c, s.head? = some c ∧ ((49 ≤ c.toNat ∧ c.toNat ≤ 57) ∨ c.toNat ∈ [116, 84, 121, 89]))) := by
  simp only [getBool, Option.some.injEq]
  cases s with
  | nil => simp [stringBool]
  | cons c s =>
    simp only [stringBool, List.head?_cons, Option.some.injEq, exists_eq_left', yes]
    rw [Bool.eq_iff_iff]
    simp only [Bool.or_eq_true, Bool.and_eq_true, Num.isDigit_iff, bne_iff_ne, beq_iff_eq, decide_eq_true_eq, List.mem_cons, List.not_mem_nil, or_false,
      ← UInt8.toNat_inj, ne_eq]
    have e1 : (0x30 : UInt8).toNat = 48 := rfl
    have e2 : (0x74 : UInt8).toNat = 116 := rfl
    have e3 : (0x54 : UInt8).toNat = 84 := rfl
    have e4 : (0x79 : UInt8).toNat = 121 := rfl
    have e5 : (0x59 : UInt8).toNat = 89 := rfl
    rw [e1, e2, e3, e4, e5]
    omega

/-- **C99, partial.** A number from 0 to 2^31 - 1 is as true as its text.  Missing: negative numbers (`C99_bool_fails`). -/
theorem C99_bool_back_partial (real : Number.Ty → Nat → List UInt8) (a : Number.Obj) (ha : a.Ok) (hc : 0 < a.enc.count) (ht : a.enc.ty.fmt = none)
    (hlo : 0 ≤ intAt a 0) (hhi : intAt a 0 < 2 ^ 31) :
    ∃ s, getString real (some (.number a)) = some (some s) ∧ getBool (some (.string s)) = getBool (some (.number a)) := by
  obtain ⟨s, h1, _, _, h4⟩ := C99_back32_partial real a ha hc ht (by omega) hhi
  refine ⟨s, h1, ?_⟩
  rw [h4, C99_bool, Option.some.injEq, decide_eq_decide]
  have h := formatString_eq real [0x20] ha hc
  obtain ⟨n, hn⟩ : ∃ n, a.enc.count = n + 1 := ⟨a.enc.count - 1, by omega⟩
  have hw := elemText_shows real a.enc.ty (element_eq ha hc).2
  unfold Shows at hw
  rw [ht] at hw
  change Writes _ (intAt a 0) at hw
  rw [hn, texts_succ] at h
  simp only [getString, description, h, Option.map_some, Option.some.injEq] at h1
  obtain ⟨ds, d1, d2, d3, d4, d5⟩ := hw
  rw [if_neg (by omega), List.nil_append] at d5
  obtain ⟨d, ds', rfl⟩ : ∃ d ds', ds = d :: ds' := by
    match ds, d2 with
    | d :: ds, _ => exact ⟨d, ds, rfl⟩
  have hh : s.head? = some d := by
    rw [← h1, d5]
    cases texts real a (0 + 1) n <;> simp [joined]
  rw [hh]
  simp only [Option.some.injEq, exists_eq_left']
  have hd := d1 d (by simp)
  by_cases h0 : d = 0x30
  · subst h0
    have hz := d4 rfl
    rw [hz] at d3
    have : value [0x30] = 0 := rfl
    rw [this] at d3
    have e : intAt a 0 = 0 := by omega
    rw [e]
    decide
  · have hdn : d.toNat ≠ 48 := fun he => h0 (UInt8.toNat_inj.mp he)
    refine iff_of_true (.inl ⟨by omega, hd.2⟩) ?_
    intro hz
    rw [hz] at d3
    have hm := Num.foldl_mono ds' (d.toNat - 48)
    have : value (d :: ds') = ds'.foldl (fun a b => a * 10 + (b.toNat - 48)) (d.toNat - 48) := by simp [value]
    omega

example : getBool (some (.string [0x37])) = some true ∧ getBool (some (.number (Number.scalar .u8 7))) = some true ∧
    getBool (some (.string [0x59, 0x65, 0x73])) = some true ∧ getBool (some (.string [0x6e, 0x6f])) = some false := by decide +kernel

/-- C99 is false of negative numbers: -1 is true and its text "-1" is false; so are the texts " 1" and "01", and of 2^32 the number is
false and its text true. -/
theorem C99_bool_fails :
    getString (fun _ _ => []) (some (.number (Number.scalar .i32 (2 ^ 32 - 1)))) = some (some [0x2d, 0x31]) ∧
    getBool (some (.number (Number.scalar .i32 (2 ^ 32 - 1)))) = some true ∧ getBool (some (.string [0x2d, 0x31])) = some false ∧
    getBool (some (.string [0x20, 0x31])) = some false ∧ getBool (some (.string [0x30, 0x31])) = some false ∧
    getBool (some (.number (Number.scalar .i64 (2 ^ 32)))) = some false ∧
    (getString (fun _ _ => []) (some (.number (Number.scalar .i64 (2 ^ 32))))).bind (fun s => getBool (s.map .string)) = some true := by
  decide +kernel

/-- **C99.** The booleans: 1 and 0 as integers, "1" and "0" as text, themselves as booleans, through the text too; no object is NULL,
false and 0. -/
theorem C99_boolean (real : Number.Ty → Nat → List UInt8) (b : Bool) :
    getBool (some (.boolean b)) = some b ∧ getInt32 (some (.boolean b)) = some (if b then 1 else 0) ∧
    getInt64 (some (.boolean b)) = some (if b then 1 else 0) ∧
    (∃ s, getString real (some (.boolean b)) = some (some s) ∧ Writes s (if b then 1 else 0) ∧ getBool (some (.string s)) = some b) ∧
    getString real none = some none ∧ getBool none = some false ∧ getInt32 none = some 0 ∧ getInt64 none = some 0 := by
  refine ⟨rfl, ?_, ?_, ⟨[if b then 0x31 else 0x30], ?_, ⟨[if b then 0x31 else 0x30], ?_⟩, ?_⟩, rfl, rfl, rfl, rfl⟩
  · cases b <;> decide +kernel
  · cases b <;> decide +kernel
  · cases b <;> rfl
  · unfold Digits; cases b <;> decide
  · cases b <;> rfl

/-- C99 is false of descriptions: the description of a boolean is "true" or "false", and not its text "1" or "0"; read back as a
boolean both agree. -/
theorem C99_description_fails (real : Number.Ty → Nat → List UInt8) (c : List UInt8) :
    getDescription real c (some (.boolean true)) = some [0x74, 0x72, 0x75, 0x65] ∧ getString real (some (.boolean true)) = some (some [0x31]) ∧
    getDescription real c (some (.boolean false)) = some [0x66, 0x61, 0x6c, 0x73, 0x65] ∧
    getBool (some (.string [0x74, 0x72, 0x75, 0x65])) = some true ∧ getBool (some (.string [0x66, 0x61, 0x6c, 0x73, 0x65])) = some false :=
  ⟨rfl, rfl, rfl, rfl, rfl⟩

end Convert
end Duck
