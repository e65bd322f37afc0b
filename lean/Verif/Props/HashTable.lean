import Verif.Lemmas.HashTableRefine
/-! C06, C07: the hash table is a finite map, and its probes stay inside the table. -/
namespace Duck
namespace HTable
variable {K V : Type} {hash : K → Nat} {eqv : K → K → Bool}

/-- **C06 (partial).** For every key class and every history from an empty table: if the history runs, every
    reported value (lookups, insert results, counts) is that of the finite map, and iterating the table visits
    exactly the map's entries, each once.  It can only go wrong at a call made on a table of exactly 25 rows of
    which exactly 11 are occupied (`C07_fails`), or one that has exhausted the table of sizes.
    Missing from the full property: those 25-row tables, where the property is false. -/
theorem C06_map_partial (kc : KeyClass hash eqv) (ops : List (Op K V)) :
    match run hash eqv init ops with
    | .ok (t, outs) =>
        outs = (specRun eqv [] ops).2 ∧ (entries t.rows).Perm (specRun eqv [] ops).1
    | .error e => ∃ pre op post t outs, ops = pre ++ op :: post ∧ run hash eqv init pre = .ok (t, outs) ∧
        step hash eqv t op = .error e ∧
        ((e = .outOfTable ∧ t.rows.length = 25 ∧ occupied t = 11) ∨
         (e = .tooBig ∧ 1675364863 ≤ t.rows.length)) := by
  have h := run_ok kc ops init [] (Or.inl rfl) (List.Perm.refl _)
  generalize hr : run hash eqv init ops = res at h
  match res, h with
  | .ok (t, outs), h => exact ⟨h.2.2, h.2.1⟩
  | .error e, h => exact h

/-- Natural numbers with a constant hash: every key collides with every other. -/
theorem constant_hash_keys : KeyClass (fun _ : Nat => 7) (fun a b => a == b) :=
  ⟨by simp, by simp, by simp, by simp⟩

/-- A history with collisions, tombstones, reuse and two rehashes that runs to the end. -/
example : ∃ t, run (fun _ : Nat => 7) (fun a b => a == b) init
    [.insert 1 10 .always, .insert 2 20 .always, .remove 1, .insert 3 30 .ifNotFound, .insert 4 40 .always,
     .insert 5 50 .always, .insert 6 60 .always, .insert 2 21 .ifFound, .insert 8 80 .ifFound, .get 2, .get 1, .count] =
    .ok (t, [.changed true, .changed true, .done, .changed true, .changed true, .changed true, .changed true,
      .changed true, .changed false, .value (some 21), .value none, .count 5]) ∧ t.rows.length = 17 := by
  refine ⟨_, rfl, rfl⟩

/-- **C06, for short histories.** For every key class, any history with at most ten insertions (and any number of
    lookups, removals and clears, in any order) runs to its end, every report is that of the finite map, and so are
    the entries.  Eleven insertions are too many: `C07_fails`. -/
theorem C06_map_short (kc : KeyClass hash eqv) (ops : List (Op K V)) (h : insertions ops ≤ 10) :
    ∃ t outs, run hash eqv init ops = .ok (t, outs) ∧ outs = (specRun eqv [] ops).2 ∧
      (entries t.rows).Perm (specRun eqv [] ops).1 := by
  obtain ⟨t, outs, h1, _⟩ := run_small kc ops init 0 (Or.inl rfl) (by simp [init]) (by simp [init, occ]) (by omega)
  have h2 := run_ok kc ops init [] (Or.inl rfl) (List.Perm.refl _)
  rw [h1] at h2
  exact ⟨t, outs, h1, h2.2.2, h2.2.1⟩

example : insertions (K := Nat) (V := Nat) ([.count] ++ (List.range 10).flatMap (fun k => [.insert k k .always, .remove k, .get k])) ≤ 10 := by
  decide

/-- **C07 (partial).** In every reachable table other than one with 25 rows and 11 occupied, the probe for any
    key terminates at a row inside the table. -/
theorem C07_in_bounds_partial (kc : KeyClass hash eqv) (ops : List (Op K V)) (t : Table K V) (outs : List (Out V))
    (h : run hash eqv init ops = .ok (t, outs)) (hrows : t.rows ≠ [])
    (h25 : ¬ (t.rows.length = 25 ∧ occupied t = 11)) (key : K) :
    ∃ x s, find hash eqv t.rows key = .ok (x, s) ∧ x < t.rows.length := by
  have hr := run_ok kc ops init [] (Or.inl rfl) (List.Perm.refl _)
  rw [h] at hr
  rcases hr.1 with rfl | ⟨m, g, ho⟩
  · exact absurd rfl hrows
  · have hf := find_cases (hash := hash) (eqv := eqv) t.rows key g.size ho
    generalize find hash eqv t.rows key = res at hf
    match res, hf with
    | .error e, hf => exact absurd hf.2 h25
    | .ok (x, s), hf =>
      refine ⟨x, s, rfl, ?_⟩
      by_cases hs : s = .active
      · subst hs
        obtain ⟨k, v, h1, _⟩ := hf.active
        exact (List.getElem?_eq_some_iff.mp h1).1
      · rcases (hf.free hs).2 with ⟨_, h1⟩ | ⟨_, h1⟩
        · exact (List.getElem?_eq_some_iff.mp h1).1
        · exact (List.getElem?_eq_some_iff.mp h1).1

example : ∃ (t : Table Nat Nat) (outs : List (Out Nat)), run id (fun a b => a == b) init
    [.insert 1 10 .always, .insert 12 20 .always, .insert 23 30 .always] = .ok (t, outs) ∧ t.rows ≠ [] ∧
    ¬ (t.rows.length = 25 ∧ occupied t = 11) := by
  refine ⟨_, _, rfl, by decide, by decide⟩

/-- **C07, for short histories.** After at most ten insertions, mixed with any other calls, the probe for any key
    stops at a row inside the table. -/
theorem C07_in_bounds_short (kc : KeyClass hash eqv) (ops : List (Op K V)) (h : insertions ops ≤ 10) (t : Table K V)
    (outs : List (Out V)) (hr : run hash eqv init ops = .ok (t, outs)) (hrows : t.rows ≠ []) (key : K) :
    ∃ x s, find hash eqv t.rows key = .ok (x, s) ∧ x < t.rows.length := by
  obtain ⟨t', outs', h1, h2, _, h4⟩ := run_small kc ops init 0 (Or.inl rfl) (by simp [init]) (by simp [init, occ]) (by omega)
  rw [hr] at h1; cases h1
  exact C07_in_bounds_partial kc ops t outs hr hrows (fun h => by have h5 : occ t.rows = 11 := h.2; omega) key

example : ∃ (t : Table Nat Nat) (outs : List (Out Nat)), run id (fun a b => a == b) init
    (([0, 1, 4, 6, 9, 11, 14, 16, 19, 21, 24].take 10).map (fun k => .insert k k .always)) = .ok (t, outs) ∧ t.rows.length = 25 ∧ t.rows ≠ [] :=
  ⟨_, _, rfl, rfl, by decide⟩

/-- The keys whose hash codes are the quadratic residues modulo 25. -/
def squares25 : List Nat := [0, 1, 4, 6, 9, 11, 14, 16, 19, 21, 24]

/-- **C06, C07 (violated).** Eleven inserts of ordinary keys lead to a table in which looking up (or inserting, or
    removing) an absent key reads outside the table. -/
theorem C07_fails : ∃ (t : Table Nat Nat) (outs : List (Out Nat)),
    run id (fun a b => a == b) init (squares25.map (fun k => .insert k k .always)) = .ok (t, outs) ∧
    get id (fun a b => a == b) t 25 = .error .outOfTable ∧
    insert id (fun a b => a == b) t 25 25 .always = .error .outOfTable ∧
    remove id (fun a b => a == b) t 25 = .error .outOfTable := by
  refine ⟨_, _, rfl, ?_, ?_, ?_⟩ <;> decide +kernel

end HTable
end Duck
