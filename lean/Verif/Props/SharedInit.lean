import Verif.Lemmas.SharedInit

/-!
# Properties of shared objects

C53: A shared accessor creates its object exactly once and every caller on every thread gets that object.
-/

namespace Duck
namespace Shared

/-- C53: However many threads call the accessor and however they are scheduled, at most one object is created, every call that returns gives that
    object, and it was completely built before. -/
theorem C53_once {s : State} (h : Reach s) :
    s.allocated ≤ 1 ∧ ∀ r, .done r ∈ s.callers → ∃ o, r = some o ∧ o ∈ s.built ∧ ∀ r', .done r' ∈ s.callers → r' = some o := by
  have inv := reach_inv h
  refine ⟨?_, fun r hr => ?_⟩
  · cases hs : s.shared with
    | none => rcases inv.alloc hs with h | ⟨h, _⟩ <;> omega
    | some o => have := (inv.shared o hs).2.1; omega
  · have key : ∀ r, .done r ∈ s.callers → r ≠ none ∧ r = s.shared := by
      intro r hr
      obtain ⟨i, hi⟩ := List.mem_iff_getElem?.mp hr
      exact (inv.ok i _ hi).finished r rfl
    obtain ⟨h1, h2⟩ := key r hr
    obtain ⟨o, rfl⟩ := Option.ne_none_iff_exists'.mp h1
    obtain ⟨rfl, _, hb⟩ := inv.shared o h2.symm
    exact ⟨0, rfl, hb, fun r' hr' => by rw [(key r' hr').2, ← h2]⟩

/-- A series of steps of the callers. -/
inductive Steps : Nat → State → State → Prop
  | nil (s) : Steps 0 s s
  | cons {n s i s' s''} : act s (.step i) = some s' → Steps n s' s'' → Steps (n + 1) s s''

/-- C53: The callers do not block each other for ever: they make at most eight steps each (besides spinning), and when no step can be made all have
    returned, and exactly one object was created if there was any call. -/
theorem C53_progress {s s' : State} {n : Nat} (h : Reach s) (hr : Steps n s s') :
    n ≤ 8 * s.callers.length ∧
    ((∀ i, act s' (.step i) = none) → (∀ pc ∈ s'.callers, ∃ o, pc = .done (some o)) ∧ (s'.callers ≠ [] → s'.allocated = 1)) := by
  refine ⟨?_, fun hq => ?_⟩
  · have h1 : n + left s' ≤ left s := by
      clear h
      induction hr with
      | nil => omega
      | cons ha _ ih => have := step_left ha; omega
    have h2 : left s ≤ 8 * s.callers.length := by
      simp only [left]
      generalize s.callers = l
      induction l with
      | nil => simp
      | cons x l ih =>
        have : x.left ≤ 8 := by cases x <;> simp [Pc.left]
        simp; omega
    omega
  · have hreach : Reach s' := by
      clear hq
      induction hr with
      | nil => exact h
      | cons ha _ ih => exact ih (.step h ha)
    have inv := reach_inv hreach
    -- nobody has the lock, or its owner could go on
    have hl : s'.lock = none := by
      cases hl : s'.lock with
      | none => rfl
      | some i =>
        obtain ⟨pc, hi, hin⟩ := inv.held i hl
        have := hq i
        simp only [act, hi, Option.bind_some] at this
        cases pc <;> simp [Pc.inside] at hin <;> simp [step] at this
    have hd : ∀ pc ∈ s'.callers, ∃ o, pc = .done (some o) := by
      intro pc hpc
      obtain ⟨i, hi⟩ := List.mem_iff_getElem?.mp hpc
      have := hq i
      simp only [act, hi, Option.bind_some] at this
      cases pc <;> simp [step, hl] at this
      rename_i r
      have := ((inv.ok i _ hi).finished r rfl).1
      obtain ⟨o, rfl⟩ := Option.ne_none_iff_exists'.mp this
      exact ⟨o, rfl⟩
    refine ⟨hd, fun hne => ?_⟩
    obtain ⟨pc, hpc⟩ := List.exists_mem_of_ne_nil _ hne
    obtain ⟨o, rfl⟩ := hd pc hpc
    obtain ⟨i, hi⟩ := List.mem_iff_getElem?.mp hpc
    exact (inv.shared o ((inv.ok i _ hi).finished _ rfl).2.symm).2.1

def runs (s : State) : List Action → Option State
  | [] => some s
  | a :: as => (act s a).bind fun s' => runs s' as

theorem runs_reach {s s' : State} {as : List Action} (h : Reach s) (hr : runs s as = some s') : Reach s' := by
  induction as generalizing s with
  | nil => cases hr; exact h
  | cons a as ih =>
    simp only [runs, Option.bind_eq_some_iff] at hr
    obtain ⟨s1, h1, h2⟩ := hr
    exact ih (.step h h1) h2

/-- Two callers find nothing, one of them creates the object while the other spins; a third one comes later. -/
def race : List Action :=
  [.call, .call, .step 0, .step 1, .step 1, .step 1, .step 1, .step 1, .step 1, .step 1, .step 0, .step 0, .call, .step 2, .step 2, .step 0, .step 1, .step 0]

/-- The hypotheses of both theorems are met at the end, where no step can be made. -/
example : ∃ s, Reach s ∧ s.callers = [.done (some 0), .done (some 0), .done (some 0)] ∧ s.allocated = 1 ∧ ∀ i, act s (.step i) = none := by
  refine ⟨⟨some 0, none, 1, [0], [.done (some 0), .done (some 0), .done (some 0)]⟩, runs_reach (as := race) .init (by decide), rfl, rfl, fun i => ?_⟩
  match i with
  | 0 => rfl
  | 1 => rfl
  | 2 => rfl
  | i + 3 => simp [act]

end Shared
end Duck
