import Verif.Lemmas.Enum
/-! C56: names and values of enumerations. -/
namespace Duck
namespace Enum
open HTable Dict

/-- **C56 (partial), values.** For every list of names and values (names may repeat, in any order) from which an
    enumeration could be made, looking up a name that finishes gives the value registered last for that name,
    0 if there is none; looking up NULL gives 0.
    Missing: making the enumeration or looking a name up may fail (`C56_fails`). -/
theorem C56_value_partial (l : List (Name × BitVec 64)) (e : Enum) (he : init64 l = .ok e) (s : Key) (v : BitVec 64)
    (hv : fromString64 e s = .ok v) : v = match s with
      | some name => (valueOf l name).getD 0
      | none => 0 := by
  obtain ⟨hi, hnone, hent⟩ := init_entry he
  obtain ⟨r, h1, h2⟩ := mapOk hv
  have h3 := get_entry keys hi h1
  cases s with
  | none => rw [hnone] at h3; subst h3; exact h2.symm
  | some s =>
      rw [hent s] at h3
      simp only
      cases hl : valueOf l s with
      | none => rw [hl] at h3; subst h3; exact h2.symm
      | some w => rw [hl] at h3; subst h3; exact h2.symm

/-- "one", "two", "uno". -/
def one : Name := [111, 110, 101]
def two : Name := [116, 119, 111]
def uno : Name := [117, 110, 111]

example : ∃ e, init64 [(one, 7), (two, 2), (uno, 1), (one, 1)] = .ok e ∧ fromString64 e (some one) = .ok 1 ∧
    fromString64 e (some two) = .ok 2 ∧ fromString64 e (some [120]) = .ok 0 ∧ fromString64 e none = .ok 0 :=
  ⟨_, rfl, by decide +kernel, by decide +kernel, by decide +kernel, by decide +kernel⟩

/-- **C56, names.** In every enumeration, the name given for a value is a name whose value it is; no name is given
    only if no name has that value. -/
theorem C56_name (l : List (Name × BitVec 64)) (e : Enum) (he : init64 l = .ok e) (v : BitVec 64) :
    match stringFromEnum64 (some e) v with
    | some name => valueOf l name = some v
    | none => ∀ name, valueOf l name ≠ some v := by
  obtain ⟨hi, hnone, hent⟩ := init_entry he
  rw [stringFromEnum64, scan_eq]
  cases hf : (entries e.rows).find? fun x => x.2 = v with
  | none =>
      simp only [Option.map_none, Option.getD_none]
      intro name hn
      have h1 := hent name
      rw [hn] at h1
      have := (entry_some keys hi).mp h1
      rw [List.find?_eq_none] at hf
      exact hf _ this.1 (by simp)
  | some x =>
      obtain ⟨k, w⟩ := x
      have hw : w = v := by simpa using List.find?_some hf
      have hm := (mem_entry keys hi _).mp (List.mem_of_find?_eq_some hf)
      cases k with
      | none => rw [hnone] at hm; cases hm
      | some s =>
          rw [hent s] at hm
          simp only [Option.map_some, Option.getD_some]
          cases hl : valueOf l s with
          | none => rw [hl] at hm; cases hm
          | some u => rw [hl] at hm; simp only [Option.map_some, Option.some.injEq, Prod.mk.injEq, true_and] at hm; rw [hm, hw]

example : ∃ e, init64 [(one, 7), (two, 2), (uno, 1), (one, 1)] = .ok e ∧ stringFromEnum64 (some e) 7 = none ∧
    stringFromEnum64 (some e) 2 = some two := ⟨_, rfl, by decide +kernel, by decide +kernel⟩

/-- **C56, `int` enumerations.** With `int` values, whatever their signs, the `int` read back for a name is the one
    registered last for it (0 for no name), and the name given for an `int` is a name with that value. -/
theorem C56_int_partial (l : List (Name × BitVec 32)) (e : Enum) (he : init32 l = .ok e) :
    (∀ name v, fromString e (some name) = .ok v → v = (valueOf l name).getD 0) ∧
    ∀ v, match stringFromEnum (some e) v with
      | some name => valueOf l name = some v
      | none => ∀ name, valueOf l name ≠ some v := by
  have back : ∀ a : BitVec 32, (a.signExtend 64).truncate 32 = a := by
    intro a
    apply BitVec.eq_of_getLsbD_eq
    intro i hi
    rw [BitVec.truncate, BitVec.getLsbD_setWidth, BitVec.getLsbD_signExtend]
    simp [hi, show i < 64 by omega]
  have inj : ∀ a b : BitVec 32, a.signExtend 64 = b.signExtend 64 → a = b := by
    intro a b h
    have h2 := congrArg (BitVec.truncate 32) h
    rwa [back, back] at h2
  refine ⟨fun name v hv => ?_, fun v => ?_⟩
  · obtain ⟨w, h1, h2⟩ := mapOk hv
    have h3 := C56_value_partial _ e he (some name) w h1
    simp only [valueOf_map] at h3
    rw [← h2, h3]
    cases valueOf l name with
    | none => rfl
    | some u => exact back u
  · have h := C56_name _ e he (v.signExtend 64)
    rw [stringFromEnum]
    revert h
    cases stringFromEnum64 (some e) (v.signExtend 64) with
    | none =>
        simp only [valueOf_map]
        intro h name hn
        exact h name (by rw [hn]; rfl)
    | some name =>
        simp only [valueOf_map]
        intro h
        obtain ⟨u, h1, h2⟩ := Option.map_eq_some_iff.mp h
        rw [h1, inj _ _ h2]

example : ∃ e, init32 [(one, -1), (two, -2)] = .ok e ∧ fromString e (some two) = .ok (-2) ∧
    stringFromEnum (some e) (-1) = some one := ⟨_, rfl, by decide +kernel, by decide +kernel⟩

/-- **C56, up to ten entries.** An enumeration of at most ten entries can always be made, and every lookup of a name
    in it succeeds and gives the value registered last for it. -/
theorem C56_short (l : List (Name × BitVec 64)) (hl : l.length ≤ 10) : ∃ e, init64 l = .ok e ∧
    ∀ name, fromString64 e (some name) = .ok ((valueOf l name).getD 0) := by
  obtain ⟨e, h1, h2, h3, h4⟩ := fold_small l HTable.init 0 (Or.inl rfl) (by simp [HTable.init]) (by simp [HTable.init, occ]) (by omega)
  refine ⟨e, h1, fun name => ?_⟩
  obtain ⟨r, hr⟩ := get_small h2 h3 h4 (some name)
  have h5 : ∃ v, fromString64 e (some name) = .ok v := by rw [fromString64, hr]; exact ⟨_, rfl⟩
  obtain ⟨v, h5⟩ := h5
  rw [h5, C56_value_partial l e h1 (some name) v h5]

example : [(one, (7 : BitVec 64)), (two, 2), (uno, 1), (one, 1)].length ≤ 10 := by decide

/-- Eleven names of one letter: c, d, e, h, j, m, o, r, t, w, y. -/
def letters : List Name := [[99], [100], [101], [104], [106], [109], [111], [114], [116], [119], [121]]

/-- **C56 (violated).** With eleven ordinary names an enumeration can be made in which looking up a word it does not
    contain ("2") reads outside its table. -/
theorem C56_fails : ∃ e, init64 (letters.map fun n => (n, 1)) = .ok e ∧ fromString64 e (some [50]) = .error .outOfTable := by
  refine ⟨_, rfl, ?_⟩
  decide +kernel

end Enum
end Duck
