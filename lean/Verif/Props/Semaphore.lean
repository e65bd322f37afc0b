import Verif.Lemmas.Semaphore

/-!
# Properties of semaphores

C52: The counter equals increments minus decrements and never goes negative; a waiter returns only in a state where the counter had the awaited value.
-/

namespace Duck
namespace Sem

/-- C52, the part that holds for all arguments: The counter is the difference of increments and decrements in 32 bits. -/
theorem C52_mod_partial {s : Sem} (h : Reach s) : s.counter = BitVec.ofInt 32 (total s.log) := (reach_inv h).counter

/-- C52, the part that holds: As long as the numbers fit in 31 bits, the counter is the difference of increments and decrements and never was negative. -/
theorem C52_counter_partial {s : Sem} (h : Reach s) (hs : Small s.log) :
    s.counter.toInt = total s.log ∧ ∀ l, l <+: s.log → 0 ≤ total l := by
  have hn := reach_nonneg h hs
  refine ⟨?_, hn⟩
  rw [(reach_inv h).counter, toInt_ofInt_small (hn _ (List.prefix_refl _)) (hs.2 _ (List.prefix_refl _))]

/-- C52, the part that holds: A decrement is refused (the program is aborted) exactly if the counter would become negative. -/
theorem C52_abort_partial {s : Sem} (h : Reach s) (hs : Small s.log) {v : BitVec 32} (hv : v.toNat < 2 ^ 31) :
    act s (.decrement v) = some .abort ↔ total s.log < v.toNat := by
  have := (C52_counter_partial h hs).1
  simp only [act, Option.some.injEq, decrement, this, toInt_small hv]
  split
  · exact ⟨nofun, fun _ => by omega⟩
  · exact ⟨fun _ => by omega, fun _ => rfl⟩

/-- C52, the part that holds: DKSemaphoreWait returns only at a moment when the counter has the value waited for: what happened up to then adds up to it. -/
theorem C52_wait_partial {s : Sem} (h : Reach s) (hs : Small s.log) {l : List Event} {v : BitVec 32} (hp : l ++ [.returned v] <+: s.log) :
    total l = v.toNat := by
  have hl : l <+: s.log := (List.prefix_append _ _).trans hp
  have h1 := congrArg BitVec.toInt ((reach_inv h).returned l v hp)
  rw [toInt_ofInt_small (reach_nonneg h hs l hl) (hs.2 l hl),
    toInt_small (hs.1 (.returned v) (hp.subset (by simp)))] at h1
  exact h1

/-- C52: A call of DKSemaphoreWait that has returned did so at a recorded moment, the one `C52_wait_partial` speaks about: no call returns
    only because it was woken. -/
theorem C52_returned {s : Sem} (h : Reach s) : ∀ w ∈ s.waiters, w.pc = .returned → .returned w.value ∈ s.log := by
  induction h with
  | init => intro w hw; simp [init] at hw
  | @step s a s' _ ha ih =>
    have hlog := (step_log ha).subset
    have hwake : ∀ w : Waiter, (wake w).pc = .returned → wake w = w := by
      intro w hp; unfold wake at hp ⊢; split at hp
      · cases hp
      · rw [if_neg (by assumption)]
    suffices ∀ w ∈ s'.waiters, w.pc = .returned → w ∈ s.waiters ∨ .returned w.value ∈ s'.log from
      fun w hw hp => (this w hw hp).elim (fun h => hlog (ih w h hp)) id
    intro w hw hp
    cases a with
    | increment v => simp only [act, Option.some.injEq, Res.ok.injEq] at ha; subst ha; exact .inl hw
    | decrement v =>
      simp only [act, Option.some.injEq, decrement] at ha
      split at ha <;> cases ha
      exact .inl hw
    | broadcast =>
      simp only [act] at ha
      split at ha <;> cases ha
      obtain ⟨u, hu, rfl⟩ := List.mem_map.1 hw
      rw [hwake u hp]; exact .inl hu
    | wait v =>
      simp only [act, Option.some.injEq, Res.ok.injEq] at ha; subst ha
      rcases List.mem_append.1 hw with hw | hw
      · exact .inl hw
      · rw [List.mem_singleton.1 hw] at hp; cases hp
    | check i =>
      simp only [act, Option.bind_eq_some_iff] at ha
      obtain ⟨u, hu, ha⟩ := ha
      split at ha <;> cases ha
      unfold check at hw ⊢
      split at hw
      · rename_i hc
        rw [if_pos hc]
        rcases mem_set_waiters hw with hw | rfl
        · exact .inl hw
        · exact .inr (by simp)
      · rcases mem_set_waiters hw with hw | rfl
        · exact .inl hw
        · cases hp
    | spurious i =>
      simp only [act, Option.bind_eq_some_iff] at ha
      obtain ⟨u, hu, ha⟩ := ha
      split at ha <;> cases ha
      rcases mem_set_waiters hw with hw | rfl
      · exact .inl hw
      · rw [hwake u hp]; exact .inl (List.mem_of_getElem? hu)

/-- C52: No wakeup is lost: if nothing else happens the semaphore comes to rest after a bounded number of steps, and then nobody waits for the value that
    the counter has. -/
theorem C52_wake {s s' : Sem} {n : Nat} (h : Reach s) (hr : Steps n s s') :
    n ≤ s.broadcasts * (s.waiters.length + 1) + s.waiters.length ∧
    (Quiet s' → ∀ w ∈ s'.waiters, w.value = s'.counter → w.pc = .returned) := by
  have hreach : Reach s' := by
    induction hr with
    | nil => exact h
    | cons _ ha _ ih => exact ih (.step h ha)
  refine ⟨?_, fun hq w hw hv => ?_⟩
  · have hm : n + measure s' ≤ measure s := by
      clear hreach h
      induction hr with
      | nil => omega
      | cons hi ha _ ih => have := step_measure hi ha; omega
    have : up s.waiters ≤ s.waiters.length := List.countP_le_length
    simp only [measure] at hm
    omega
  · have hb : s'.broadcasts = 0 := by
      have := hq .broadcast rfl
      simp only [act] at this
      split at this
      · cases this
      · omega
    have hp := (reach_inv hreach).pending hb w hw
    obtain ⟨i, hi⟩ := List.mem_iff_getElem?.mp hw
    have hc := hq (.check i) rfl
    simp only [act, hi, Option.bind_some] at hc
    cases hpc : w.pc with
    | returned => rfl
    | asleep => exact absurd hv (hp hpc)
    | entering => rw [hpc] at hc; simp at hc
    | awake => rw [hpc] at hc; simp at hc

/-- C52 is false as stated: decrementing by 2^31 is not refused, and makes the counter negative. -/
theorem C52_decrement_fails : ∃ s, Reach s ∧ s.log = [.decrement 0x80000000#32] ∧ s.counter.toInt = -2147483648 :=
  ⟨_, .step (a := .decrement 0x80000000#32) .init rfl, rfl, by decide⟩

/-- C52 is false as stated: incrementing twice by 2^30 makes the counter negative too, so that decrementing again by what was added aborts the program. -/
theorem C52_increment_fails : ∃ s, Reach s ∧ s.log = [.increment 0x40000000#32, .increment 0x40000000#32] ∧ s.counter.toInt < 0 ∧
    act s (.decrement 0x40000000#32) = some .abort :=
  ⟨_, .step (a := .increment 0x40000000#32) (.step (a := .increment 0x40000000#32) .init rfl) rfl, rfl, by decide, by decide⟩

/-- Two callers wait for 0 and 1 while the counter goes to 3 and back to 1. -/
def busyDay : List Action :=
  [.increment 3, .wait 0, .wait 1, .check 0, .check 1, .broadcast, .check 0, .decrement 1, .decrement 1, .check 1, .broadcast, .check 0, .broadcast, .check 0]

def runs (s : Sem) : List Action → Option Sem
  | [] => some s
  | a :: as => match act s a with
    | some (.ok s') => runs s' as
    | _ => none

theorem runs_reach {s s' : Sem} {as : List Action} (h : Reach s) (hr : runs s as = some s') : Reach s' := by
  induction as generalizing s with
  | nil => cases hr; exact h
  | cons a as ih =>
    simp only [runs] at hr
    split at hr
    · exact ih (.step h (by assumption)) hr
    · cases hr

/-- The hypotheses of the theorems are met at its end. -/
example : ∃ s, Reach s ∧ s.log = [.increment 3, .decrement 1, .decrement 1, .returned 1] ∧ s.counter.toInt = 1 ∧ Small s.log ∧
    s.waiters = [⟨0, .asleep⟩, ⟨1, .returned⟩] ∧ s.broadcasts = 0 := by
  refine ⟨⟨1, 0, [⟨0, .asleep⟩, ⟨1, .returned⟩], [.increment 3, .decrement 1, .decrement 1, .returned 1]⟩, runs_reach (as := busyDay) .init (by decide),
    rfl, by decide, ⟨by decide, fun l hl => ?_⟩, rfl, rfl⟩
  rw [List.prefix_iff_eq_take.mp hl]
  match l.length with
  | 0 => decide
  | 1 => decide
  | 2 => decide
  | 3 => decide
  | n + 4 => rw [List.take_of_length_le (by simp)]; decide

end Sem
end Duck
