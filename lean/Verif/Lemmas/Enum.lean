import Verif.Model.Enum
import Verif.Spec.Enum
import Verif.Lemmas.Dictionary
namespace Duck
namespace Enum
open HTable Dict

theorem keys : KeyClass hashKey eqKey := by
  refine ⟨?_, ?_, ?_, ?_⟩ <;> simp only [eqKey, beq_iff_eq]
  · intro a; trivial
  · intro a b h; exact h.symm
  · intro a b c h h'; exact h.trans h'
  · intro a b h; rw [h]

/-- The entry of a name in a table. -/
theorem add_entry {e e' : Enum} {x : Name × BitVec 64} (hi : Inv hashKey eqKey e) (h : add e x = .ok e') :
    Inv hashKey eqKey e' ∧ ∀ q, entry eqKey e' q = if some x.1 = q then some (some x.1, x.2) else entry eqKey e q := by
  obtain ⟨⟨t, b⟩, h1, h2⟩ := mapOk h
  cases h2
  obtain ⟨h3, h4⟩ := insert_entry keys hi h1
  refine ⟨h3, fun q => ?_⟩
  rw [h4 q]
  by_cases hq : some x.1 = q
  · subst hq
    rw [if_pos (by simp [eqKey]), if_pos rfl]
    cases he : entry eqKey e (some x.1) with
    | none => rfl
    | some r =>
        have := ((entry_some keys hi).mp he).2
        simp only [eqKey, beq_iff_eq] at this
        simp only [putRow, this]
  · rw [if_neg (by simpa [eqKey] using hq), if_neg hq]

theorem fold_entry : ∀ (l : List (Name × BitVec 64)) {e e' : Enum}, Inv hashKey eqKey e → l.foldlM add e = .ok e' →
    Inv hashKey eqKey e' ∧ entry eqKey e' none = entry eqKey e none ∧ ∀ s, entry eqKey e' (some s) =
      match valueOf l s with
      | some v => some (some s, v)
      | none => entry eqKey e (some s)
  | [], e, e', hi, h => by cases h; exact ⟨hi, rfl, fun _ => rfl⟩
  | x :: l, e, e', hi, h => by
      obtain ⟨e1, h1, h2⟩ := foldlOk h
      obtain ⟨h3, h4⟩ := add_entry hi h1
      obtain ⟨h5, h6, h7⟩ := fold_entry l h3 h2
      refine ⟨h5, by rw [h6, h4, if_neg (by simp)], fun s => ?_⟩
      rw [h7 s, h4, valueOf]
      cases hv : valueOf l s with
      | some v => rfl
      | none =>
          by_cases hx : x.1 = s
          · simp only [hx, if_true]
          · simp only [hx, if_false, Option.some.injEq]

theorem init_entry {l : List (Name × BitVec 64)} {e : Enum} (h : init64 l = .ok e) :
    Inv hashKey eqKey e ∧ entry eqKey e none = none ∧ ∀ s, entry eqKey e (some s) = (valueOf l s).map fun v => (some s, v) := by
  obtain ⟨h1, h2, h3⟩ := fold_entry l (Or.inl rfl) h
  refine ⟨h1, h2, fun s => ?_⟩
  rw [h3 s]
  cases valueOf l s <;> rfl

theorem scan_eq (v : BitVec 64) : ∀ rows, scan v rows = (((entries rows).find? fun x => x.2 = v).map (·.1)).getD none
  | [] => rfl
  | .active s w :: rows => by
      rw [scan, entries_cons_active, List.find?_cons]
      by_cases h : w = v
      · simp [h]
      · simp [h, scan_eq v rows]
  | .empty :: rows => by rw [scan, entries_cons_empty, scan_eq v rows]; nofun
  | .deleted :: rows => by
      rw [scan, scan_eq v rows]
      · rfl
      · nofun

theorem fold_small : ∀ (l : List (Name × BitVec 64)) (e : Enum) (n : Nat), Inv hashKey eqKey e → e.rows.length ≤ 25 →
    occ e.rows ≤ n → n + l.length ≤ 10 → ∃ e', l.foldlM add e = .ok e' ∧ Inv hashKey eqKey e' ∧ e'.rows.length ≤ 25 ∧ occ e'.rows ≤ 10
  | [], e, n, hi, h25, hn, h => ⟨e, rfl, hi, h25, by omega⟩
  | x :: l, e, n, hi, h25, hn, h => by
      simp only [List.length_cons] at h
      have hk := insert_ok keys hi (some x.1) x.2 .always
      cases hins : HTable.insert hashKey eqKey e (some x.1) x.2 .always with
      | error f => rw [hins] at hk; rcases hk with ⟨_, _, h2⟩ | ⟨_, h2⟩ <;> omega
      | ok r =>
          obtain ⟨e1, b⟩ := r
          rw [hins] at hk
          obtain ⟨h3, h4⟩ := insert_small keys hi h25 hn (by omega) hins
          obtain ⟨e', h5, h6⟩ := fold_small l e1 (n + 1) hk.1 h3 h4 (by omega)
          refine ⟨e', ?_, h6⟩
          rw [List.foldlM_cons, add, hins]
          exact h5

theorem get_small {e : Enum} (hi : Inv hashKey eqKey e) (h25 : e.rows.length ≤ 25) (ho : occ e.rows ≤ 10) (s : Key) :
    ∃ r, HTable.get hashKey eqKey e s = .ok r := by
  have hk := get_ok keys hi s
  cases hg : HTable.get hashKey eqKey e s with
  | ok r => exact ⟨r, rfl⟩
  | error f => rw [hg] at hk; rcases hk with ⟨_, _, h2⟩ | ⟨_, h2⟩ <;> omega

theorem valueOf_map {W W' : Type} (f : W → W') : ∀ (l : List (Name × W)) (s : Name),
    valueOf (l.map fun x => (x.1, f x.2)) s = (valueOf l s).map f
  | [], _ => rfl
  | x :: l, s => by
      simp only [List.map_cons, valueOf, valueOf_map f l s]
      cases valueOf l s with
      | some v => rfl
      | none => simp only [Option.map_none]; split <;> rfl

end Enum
end Duck
