import Verif.Lemmas.LastWrites
/-! # C120 The finalizer sees every write, and no write comes after it, on machines with store buffers -/
namespace Duck
namespace LastWrites

/-- While the finalizer runs, whichever thread runs it, each field reads as it was written last by any thread. -/
theorem C120_seen {as : List Action} {s : State} {i : Nat} (hl : ∀ a ∈ as, Locked a) (ho : Ordered init as) (h : run init as = some s) (hf : s.stage = .finalizing i) (k : Nat) :
    read s i k = lastWritten as k := by
  have inv := run_inv as inv_init hl h
  have val := run_val as val_init ho h
  have hz : s.rc = 0 := by
    by_cases e : s.rc = 0
    · exact e
    · have := inv.owned.mpr e
      rw [hf] at this; cases this
  have he : s.owners = [] := List.eq_nil_of_length_eq_zero (inv.count ▸ hz)
  have hb : ∀ j, s.buf j = [] := by
    intro j
    by_cases e : s.buf j = []
    · exact e
    · have := inv.buf j e
      rw [he] at this; cases this
  have hm := val.mem k fun j => by rw [hb j]; rfl
  unfold read
  rw [hb i]
  exact hm

/-- From the start of the finalizer on, no thread has a write on its way, even if threads wrote the same field at the same time; so nothing is written to the memory of the object after it is freed. -/
theorem C120_quiet {as : List Action} {s : State} (hl : ∀ a ∈ as, Locked a) (h : run init as = some s) : (s.stage ≠ .owned → ∀ i, s.buf i = []) ∧ s.late = false := by
  have inv := run_inv as inv_init hl h
  refine ⟨fun hs i => ?_, inv.late⟩
  by_cases e : s.buf i = []
  · exact e
  · have h1 := List.length_pos_of_mem (inv.buf i e)
    have h2 := inv.count
    exact absurd (inv.owned.mpr (by omega)) hs

/-- The finalizer runs once: once it has started, no action gives the object another reference, starts it again or writes a field. -/
theorem C120_once {as bs : List Action} {s s' : State} (hl : ∀ a ∈ as ++ bs, Locked a) (h : run init as = some s) (hs : s.stage ≠ .owned) (hb : run s bs = some s') :
    s'.rc = 0 ∧ s'.owners = [] ∧ s'.field = s.field ∧ (s'.stage = s.stage ∨ s'.stage = .freed) := by
  have inv := run_inv as inv_init (fun a ha => hl a (List.mem_append_left _ ha)) h
  have hq := (C120_quiet (fun a ha => hl a (List.mem_append_left _ ha)) h).1 hs
  have hz : s.rc = 0 := by
    by_cases e : s.rc = 0
    · exact e
    · exact absurd (inv.owned.mpr e) hs
  have he : s.owners = [] := List.eq_nil_of_length_eq_zero (inv.count ▸ hz)
  clear inv h hs hl
  induction bs generalizing s with
  | nil =>
    simp only [run, Option.some.injEq] at hb
    subst hb; exact ⟨hz, he, rfl, .inl rfl⟩
  | cons b bs ih =>
    simp only [run] at hb
    cases hs1 : act s b with
    | none => rw [hs1] at hb; cases hb
    | some s1 =>
      rw [hs1, Option.bind_some] at hb
      cases b with
      | free i =>
        simp only [act] at hs1
        split at hs1
        · cases hs1
          obtain ⟨h1, h2, h3, h4⟩ := ih hb hq hz he
          exact ⟨h1, h2, h3, .inr (h4.elim id id)⟩
        · cases hs1
      | commit i j => simp only [act, hq i] at hs1; cases hs1
      | _ => simp [act, he, hz] at hs1

/-- DKTryRelease either gives up the last reference and runs the finalizer, or leaves the object and its count as they are. -/
theorem C120_try {s s' : State} {i : Nat} (ht : act s (.tryRelease i) = some s') :
    s' = s ∧ s.rc ≠ 1 ∨ s.rc = 1 ∧ s'.rc = 0 ∧ s'.stage = .finalizing i ∧ s'.owners = s.owners.erase i ∧ s'.field = s.field := by
  simp only [act] at ht
  split at ht
  · split at ht
    · rename_i h1
      split at ht
      · cases ht
        exact .inr ⟨h1, by simp [drop, h1], by simp [drop, h1], rfl, rfl⟩
      · cases ht
    · rename_i h1
      cases ht
      exact .inl ⟨rfl, h1⟩
  · cases ht

example : ∃ s s', run init [.retain 0] = some s ∧ act s (.tryRelease 0) = some s' ∧ s'.rc = 2 := ⟨_, _, rfl, rfl, rfl⟩
example : ∃ s', act init (.tryRelease 0) = some s' ∧ s'.stage = .finalizing 0 := ⟨_, rfl, rfl⟩

/-- If a reference is given to another thread through a plain variable, the finalizer can miss a write, and the write can land in freed memory. -/
theorem C120_plain_fails : ∃ (as : List Action) (s s' : State), Ordered init as ∧ run init as = some s ∧ s.stage = .finalizing 1 ∧ lastWritten as 4 = 7 ∧ read s 1 4 = 0 ∧
    run s [.free 1, .commit 0 0] = some s' ∧ s'.late = true := by
  refine ⟨[.write 0 4 7, .give 0 1 false, .release 1], _, _, ?_, rfl, rfl, rfl, rfl, rfl, rfl⟩
  refine ⟨fun i k v _ j _ => rfl, fun s' _ => ⟨fun i k v h => (nomatch h), fun s' _ => ⟨fun i k v h => (nomatch h), fun _ _ => trivial⟩⟩⟩

/-- Two threads with references write; the last release is by DKTryRelease of the second one. -/
example : ∃ (as : List Action) (s : State), (∀ a ∈ as, Locked a) ∧ run init as = some s ∧ s.stage = .finalizing 1 ∧ read s 1 4 = 8 ∧ lastWritten as 4 = 8 ∧ lastWritten as 5 = 3 ∧ read s 1 5 = 3 ∧ s.late = false :=
  ⟨[.retain 0, .give 0 1 true, .write 0 4 7, .write 1 5 3, .write 0 4 8, .commit 0 0, .commit 0 0, .release 0, .commit 1 0, .tryRelease 1], _, by
    intro a ha
    simp only [List.mem_cons, List.not_mem_nil, or_false] at ha
    rcases ha with rfl | rfl | rfl | rfl | rfl | rfl | rfl | rfl | rfl | rfl <;> first | trivial | rfl, rfl, rfl, rfl, rfl, rfl, rfl, rfl⟩

/-- Such executions are ordered: here two threads write a field one after the other. -/
example : ∃ (as : List Action) (s : State), Ordered init as ∧ run init as = some s ∧ s.stage = .finalizing 1 ∧ lastWritten as 4 = 9 :=
  ⟨[.write 0 4 7, .commit 0 0, .give 0 1 true, .write 1 4 9, .commit 1 0, .release 1], _, by
    refine ⟨fun i k v _ j _ => rfl, fun s1 h1 => ⟨fun i k v h => (nomatch h), fun s2 h2 => ⟨fun i k v h => (nomatch h), fun s3 h3 => ⟨?_, fun s4 _ => ⟨fun i k v h => (nomatch h), fun s5 _ => ⟨fun i k v h => (nomatch h), fun s6 _ => trivial⟩⟩⟩⟩⟩⟩
    intro i k v h j hj
    cases h1; cases h2; cases h3
    by_cases e : j = 0
    · subst e; rfl
    · show pending (if j = 0 then _ else if j = 0 then _ else _) k = none
      rw [if_neg e, if_neg e]; rfl, rfl, rfl, rfl⟩

/-- A release with a write on its way waits; writes to different fields can reach memory in any order, those to one field not. -/
example : run init [.write 0 4 7, .release 0] = none ∧ run init [.write 0 4 7, .write 0 4 8, .commit 0 1] = none ∧
    (∃ s, run init [.write 0 4 7, .write 0 5 8, .commit 0 1] = some s ∧ s.field 5 = 8 ∧ s.field 4 = 0) := ⟨rfl, rfl, _, rfl, rfl, rfl⟩

end LastWrites
end Duck
