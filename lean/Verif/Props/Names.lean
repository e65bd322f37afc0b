import Verif.Lemmas.Names
/-!
C88: a class or selector is found under its name, from its creation to its end, and no two have the same name.
-/
namespace Duck
namespace Names
open HTable Enum

/-- **C88 (partial).** For every history of calls: if it runs, every call returned what the plain list of classes says — a search gives the class that has the
    name and is not gone, or NULL — and the classes are those of the list.  A history can only stop at a second class of the same name (a fatal
    error), at the finalization of a class without a name (`C88_unnamed_fails`), or at a table that fails (C06, C07).
    Missing from the full property: these two failures, and a class that is found while its last reference is gone (`C88_dying_fails`). -/
theorem C88_database_partial (ops : List Op) :
    match run init ops with
    | .ok (s, outs) => expectedRun [] ops = some (s.classes, outs)
    | .error e => ∃ pre op post s outs, ops = pre ++ op :: post ∧ run init pre = .ok (s, outs) ∧ expectedRun [] pre = some (s.classes, outs) ∧
        step s op = .error e ∧
        (((e = .fatal ∨ e = .illegal) ∧ expected s.classes op = none) ∨ Unnamed s.classes op ∨
          (e = .table .outOfTable ∧ s.table.rows.length = 25 ∧ occupied s.table = 11) ∨ (e = .table .tooBig ∧ 1675364863 ≤ s.table.rows.length)) := by
  have h := run_ok ops init ok_init
  cases hr : run init ops with
  | ok r => rw [hr] at h; exact h.2
  | error e =>
      rw [hr] at h
      obtain ⟨pre, op, post, s, outs, h1, h2, h3, h4, h5⟩ := h
      refine ⟨pre, op, post, s, outs, h1, h2, h3, h4, ?_⟩
      rcases h5 with h5 | h5 | ⟨f, rfl, ⟨rfl, h5⟩ | ⟨rfl, h5⟩⟩
      · exact Or.inl h5
      · exact Or.inr (Or.inl h5)
      · exact Or.inr (Or.inr (Or.inl ⟨rfl, h5⟩))
      · exact Or.inr (Or.inr (Or.inr ⟨rfl, h5⟩))

/-- "A" -/
def nameA : Key := some [0x41]
/-- "B" -/
def nameB : Key := some [0x42]

/-- A name is free again when its class is gone. -/
example : (run init [.create nameA, .create nameB, .find nameB, .drop 0, .finalize 0, .find nameA, .create nameA, .find nameA, .create none]).toOption.map (·.2) =
    some [.class 0, .class 1, .found (some 1), .done, .done, .found none, .class 2, .found (some 2), .class 3] := by decide +kernel

/-- **C88, for short histories.** If at most ten classes with a name are made, and no class without a name ends, the history runs whenever the plain list of classes
    allows it, with the same results. -/
theorem C88_short (ops : List Op) (cs : List Cls) (outs : List Out) (h10 : creations ops ≤ 10) (h : expectedRun [] ops = some (cs, outs))
    (hu : ∀ c ∈ cs, c.name ≠ none ∨ c.phase ≠ .gone) : ∃ s, run init ops = .ok (s, outs) ∧ s.classes = cs :=
  run_short ops init 0 cs outs ok_init (by simp [init, HTable.init]) (by simp [init, HTable.init, occ]) (by omega) h hu

example : ∃ cs outs, expectedRun [] ((List.range 10).map (fun i => .create (some [UInt8.ofNat i])) ++ [.drop 3, .finalize 3, .find (some [3])]) = some (cs, outs) ∧
    (∀ c ∈ cs, c.name ≠ none ∨ c.phase ≠ .gone) := ⟨_, _, rfl, by decide⟩

/-- Asking for the name of a class, and for the class of this name, gives the class, as long as it is not gone. -/
theorem C88_name_partial (ops : List Op) (s : State) (outs : List Out) (h : run init ops = .ok (s, outs)) (i : Nat) (c : Cls) (hc : s.classes[i]? = some c)
    (hp : c.phase ≠ .gone) (n : Name) (hn : nameOf s i = some (some n)) (r : Option Nat) (hr : fromString s (some n) = .ok r) : r = some i := by
  have hk := run_ok ops init ok_init
  rw [h] at hk
  have hs := step_ok hk.1 (.find (some n))
  simp only [step, hr] at hs
  rw [nameOf, hc] at hn
  have ha : c.answers n = true := by
    have : c.name = some n := by simpa using hn
    simp [Cls.answers, this, hp]
  have e : some (s.classes, Out.found (s.classes.findIdx? (·.answers n))) = some (s.classes, Out.found r) := hs.2
  rw [hk.1.find, (hk.1.mem n i).mpr ⟨c, hc, ha⟩] at e
  simpa using e.symm

example : ∃ s outs, run init [.create nameA, .create nameB, .drop 0] = .ok (s, outs) ∧ s.classes[1]? = some ⟨nameB, .live⟩ ∧ nameOf s 1 = some nameB ∧
    fromString s nameB = .ok (some 1) := by
  refine ⟨_, _, rfl, rfl, rfl, rfl⟩

/-- No two classes that are not gone have the same name, in any state a program gets to. -/
theorem C88_unique (ops : List Op) (s : State) (outs : List Out) (h : run init ops = .ok (s, outs)) (i j : Nat) (c d : Cls) (hi : s.classes[i]? = some c)
    (hj : s.classes[j]? = some d) (hc : c.phase ≠ .gone) (hd : d.phase ≠ .gone) (n : Name) (hn : c.name = some n) (hm : d.name = some n) : i = j := by
  have hk := run_ok ops init ok_init
  rw [h] at hk
  have e1 := (hk.1.mem n i).mpr ⟨c, hi, by simp [Cls.answers, hn, hc]⟩
  have e2 := (hk.1.mem n j).mpr ⟨d, hj, by simp [Cls.answers, hm, hd]⟩
  rw [e1] at e2
  simpa using e2

/-- A class that is found is not dying if every class whose last reference was released has been finalized. -/
theorem C88_alive_partial (ops : List Op) (s : State) (outs : List Out) (h : run init ops = .ok (s, outs)) (hd : ∀ c ∈ s.classes, c.phase ≠ .dying)
    (n : Key) (i : Nat) (hf : fromString s n = .ok (some i)) : ∃ c, s.classes[i]? = some c ∧ c.phase = .live ∧ c.name = n := by
  have hk := run_ok ops init ok_init
  rw [h] at hk
  cases n with
  | none => cases hf
  | some n =>
      have hs := step_ok hk.1 (.find (some n))
      simp only [step, hf] at hs
      have e : some (s.classes, Out.found (s.classes.findIdx? (·.answers n))) = some (s.classes, Out.found (some i)) := hs.2
      rw [hk.1.find] at e
      have e' : (Dict.entry eqKey s.table (some n)).map (·.2) = some i := by simpa using e
      obtain ⟨c, h1, h2⟩ := (hk.1.mem n i).mp e'
      have h3 := hd c (List.mem_of_getElem? h1)
      simp only [Cls.answers, Bool.and_eq_true, beq_iff_eq, bne_iff_ne, ne_eq] at h2
      refine ⟨c, h1, ?_, h2.1⟩
      cases hp : c.phase with
      | live => rfl
      | dying => exact absurd hp h3
      | gone => exact absurd hp h2.2

/-- **C88 fails for classes without references.** A class is found after its last reference was released, while another thread deallocates it. -/
theorem C88_dying_fails : ∃ s, run init [.create nameA, .drop 0, .find nameA] = .ok (s, [.class 0, .done, .found (some 0)]) ∧ s.classes = [⟨nameA, .dying⟩] := by
  refine ⟨_, rfl, rfl⟩

/-- **C88 fails for classes without a name.** Releasing a class without a name dereferences NULL if there is a class whose name happens to be in the first row of the table. -/
theorem C88_unnamed_fails : run init [.create nameB, .create none, .drop 1, .finalize 1] = .error .crash ∧
    (expectedRun [] [.create nameB, .create none, .drop 1, .finalize 1]).isSome = true := ⟨by rfl, by rfl⟩

end Names
end Duck
