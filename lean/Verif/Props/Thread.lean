import Verif.Lemmas.Thread

/-!
# Properties of threads

C51: A cancelled thread stays cancelled until finished; states only move forward; join/stop eventually observe finish.

C71: A started thread keeps its object alive until it has ended, whatever references the callers drop, and afterwards it does not keep it alive.
-/

namespace Duck
namespace Thr

/-- C51: However often and from however many threads DKThreadStart is called, there is at most one thread, and the procedure is called at most once. -/
theorem C51_once {t : Thr} (h : Reach t) : t.execs.length ≤ 1 ∧ t.procCalls ≤ 1 ∧ t.procReturns ≤ t.procCalls ∧ (t.procCalls = 1 → t.state ≠ .created) := by
  cases (reach_inv h).phase with
  | fresh a b c d e f g h i => rw [f, h, i]; exact ⟨by decide, by decide, by decide, by omega⟩
  | retaining a b c d e f g h => rw [e, g, h]; exact ⟨by decide, by decide, by decide, by omega⟩
  | creating a b c d e f g h => rw [e, g, h]; exact ⟨by decide, by decide, by decide, by omega⟩
  | exec pc a b c d e f g =>
    rw [e, f, g]
    cases pc <;> simp only [Pc.allows] at a <;> first | (rcases a with a | a <;> rw [a] <;> decide) | (rw [a]; decide)

/-- C51, the part that holds: From the moment the procedure is called, the state only moves forward. -/
theorem C51_forward_partial {t t' : Thr} {as : List Action} (h : Reach t) (r : Run t as t') (hc : t.procCalls = 1) :
    t.state.rank ≤ t'.state.rank ∧ (t.state = .cancelled → t'.state = .cancelled ∨ t'.state = .finished) := by
  induction r with
  | nil => exact ⟨Nat.le_refl _, .inl⟩
  | @cons t a t1 as t2 ha _ ih =>
    have hc1 : t1.procCalls = 1 := by
      have := (step_calls ha).1
      have := (C51_once (.step h ha)).2.1
      omega
    obtain ⟨i1, i2⟩ := ih (.step h ha) hc1
    rcases step_state (reach_inv h) ha with e | ⟨_, e, e'⟩ | ⟨_, e, e'⟩ | ⟨_, e, _⟩ | ⟨_, _, e, e'⟩
    · rw [← e]; exact ⟨i1, i2⟩
    · rw [e]; exact ⟨Nat.zero_le _, nofun⟩
    · rw [e'] at i1
      refine ⟨Nat.le_trans ?_ i1, ?_⟩
      · rcases e with e | e <;> rw [e] <;> decide
      · rcases e with e | e <;> rw [e] <;> exact nofun
    · omega
    · rw [e'] at i1
      refine ⟨Nat.le_trans ?_ i1, fun _ => .inr ?_⟩
      · rcases e with e | e <;> rw [e] <;> decide
      · have : 4 ≤ t2.state.rank := i1
        cases hs : t2.state <;> rw [hs] at this <;> first | rfl | (revert this; decide)

/-- C51, the part that holds: The only step back there is, whatever anybody does: the new thread says that it runs although it was cancelled before it
    began to run.  Without DKThreadCancel the state only moves forward. -/
theorem C51_step_partial {t t' : Thr} {a : Action} (h : Reach t) (ha : act t a = some (.ok t')) :
    t.state.rank ≤ t'.state.rank ∨ t.procCalls = 0 ∧ t.state = .cancelled ∧ t'.state = .running := by
  rcases step_state (reach_inv h) ha with e | ⟨_, e, e'⟩ | ⟨_, e, e'⟩ | ⟨_, hc, e, e'⟩ | ⟨_, _, e, e'⟩
  · exact .inl (by rw [e]; exact Nat.le_refl _)
  · exact .inl (by rw [e]; exact Nat.zero_le _)
  · exact .inl (by rw [e']; rcases e with e | e <;> rw [e] <;> decide)
  · rcases e with e | e
    · exact .inl (by rw [e, e']; decide)
    · exact .inr ⟨hc, e, e'⟩
  · exact .inl (by rw [e']; rcases e with e | e <;> rw [e] <;> decide)

/-- C51: A thread that is finished stays finished: its procedure has returned, and nothing calls it again. -/
theorem C51_finished {t t' : Thr} {as : List Action} (h : Reach t) (r : Run t as t') (hs : getState t = .finished) :
    t.procReturns = 1 ∧ getState t' = .finished ∧ t'.procCalls = 1 ∧ t'.procReturns = 1 := by
  have one : ∀ {t : Thr}, Reach t → t.state = .finished → t.procCalls = 1 ∧ t.procReturns = 1 := by
    intro t h hs
    cases (reach_inv h).phase with
    | fresh a => rw [hs] at a; cases a
    | retaining a => rw [hs] at a; simp at a
    | creating a => rw [hs] at a; simp at a
    | exec pc a b c d e f g =>
      rw [f, g]
      rw [hs] at a
      cases pc <;> simp [Pc.allows] at a <;> exact ⟨rfl, rfl⟩
  have hs' : t'.state = .finished := by
    have := (C51_forward_partial h r (one h hs).1).1
    rw [show t.state = .finished from hs] at this
    have : 4 ≤ t'.state.rank := this
    cases hs : t'.state <;> rw [hs] at this <;> first | rfl | (revert this; decide)
  exact ⟨(one h hs).2, hs', one (run_reach h r) hs'⟩

/-- C51: A thread that was started finishes.  The calls of DKThreadStart that are not over and the new thread make at most ten more steps, whatever happens
    in between, and once they have none to make the state is Finished.  (That the procedure returns is one of the steps.) -/
theorem C51_finishes {t t' : Thr} {as : List Action} (h : Reach t) (hs : getState t ≠ .created) (r : Run t as t') :
    (as.filter Action.internal).length ≤ 10 ∧ (Quiet t' → getState t' = .finished ∧ t'.procCalls = 1 ∧ t'.procReturns = 1) := by
  refine ⟨?_, fun hq => ?_⟩
  · have := run_left (reach_inv h) hs r
    have := left_le (reach_inv h)
    omega
  · have hs' : t'.state ≠ .created := by
      clear hq
      induction r with
      | nil => exact hs
      | cons ha _ ih => exact ih (.step h ha) (step_started (reach_inv h) hs ha)
    have hi := reach_inv (run_reach h r)
    have he := (quiet_finished hi hs' hq).1
    obtain ⟨h1, _, _, _, h5, h6, _⟩ := phase_exec hi.phase he
    exact ⟨h1, h5, h6⟩

/-- A thread started, cancelled, and only then executed. -/
def cancelledEarly : List Action := [.start, .startRetain, .startCreate, .startDetach, .cancel, .cancelLock, .exec 0, .exec 0, .exec 0]

/-- The states that a caller sees after each step. -/
def states (t : Thr) : List Action → Option (List TState)
  | [] => some []
  | a :: as => match act t a with
    | some (.ok t') => (states t' as).map (getState t' :: ·)
    | _ => none

/-- C51 is false as stated: a thread that is cancelled before it begins to run forgets that it was cancelled. -/
theorem C51_cancel_fails : states init cancelledEarly =
    some [.started, .started, .started, .started, .started, .cancelled, .cancelled, .running, .running] := by decide

/-- C51 is false as stated: DKThreadJoin never waits for a thread that was started, and has no defined effect. -/
theorem C51_join_fails {t : Thr} (h : Reach t) (hs : getState t ≠ .created) (hd : t.retaining = 0 ∧ t.creating = 0 ∧ t.detaching = 0) :
    join t = .undefined := by
  unfold join
  rw [if_neg (show ¬ t.state = .created from hs)]
  cases (reach_inv h).phase with
  | fresh a => exact absurd a hs
  | retaining a b => omega
  | creating a b c => omega
  | exec pc a b c d =>
    rcases d with ⟨d, _⟩ | ⟨_, d⟩
    · omega
    · rw [d]; rfl

/-- C51 is false as stated: a procedure that calls DKThreadExit aborts the program. -/
theorem C51_exit_fails : ∃ t, Reach t ∧ t.procCalls = 1 ∧ act t (.exit 0) = some .crash := by
  let t : Thr := ⟨.running, 3, 1, 0, 0, 0, 0, [.calling], true, 1, 0⟩
  refine ⟨t, ?_, rfl, by decide⟩
  exact .step (a := .exec 0) (.step (a := .exec 0) (.step (a := .exec 0) (.step (a := .startDetach) (.step (a := .startCreate) (.step (a := .startRetain)
    (.step (a := .start) .init rfl) rfl) rfl) rfl) rfl) rfl) rfl

/-- C71, the part that holds: Whatever is called and in whatever order references are dropped, nobody uses the object after it is deallocated, unless the
    procedure calls DKThreadExit. -/
theorem C71_alive_partial {t : Thr} {a : Action} (h : Reach t) (ha : act t a = some .crash) : ∃ i, a = .exit i := no_crash (reach_inv h) ha

/-- C71: The object is deallocated only when the thread was never started or has finished; and it is deallocated when the thread has ended and the callers
    have dropped their references. -/
theorem C71_dealloc {t : Thr} (h : Reach t) :
    (t.count ≤ 0 → getState t = .created ∨ getState t = .finished) ∧ (t.userRefs = 0 → .gone ∈ t.execs → t.count = 0) ∧
    (t.procCalls = 1 → t.procReturns = 0 → 0 < t.count) := by
  refine ⟨fun hc => ?_, fun hu hg => ?_, fun h1 h0 => ?_⟩
  · have hb := (reach_inv h).held
    cases (reach_inv h).phase with
    | fresh a => exact .inl a
    | retaining a b c d e f g h i => have := hb (by simp only [busy]; omega); omega
    | creating a b c d e f g h i => have := hb (by simp only [busy]; omega); omega
    | exec pc a b c d e f g h => cases pc <;> simp only [Pc.refs] at h <;> first | omega | exact .inr a
  · obtain ⟨i, hi⟩ := List.mem_iff_getElem?.mp hg
    obtain ⟨_, he⟩ := one_exec (reach_inv h).phase hi
    obtain ⟨_, _, _, _, _, _, h7⟩ := phase_exec (reach_inv h).phase he
    rw [h7, hu]; rfl
  · cases (reach_inv h).phase with
    | fresh a b c d e f g h i => omega
    | retaining a b c d e f g h => omega
    | creating a b c d e f g h => omega
    | exec pc a b c d e f g h =>
      cases pc <;> simp only [Pc.refs, Pc.called, Pc.came] at * <;> omega

/-- A day in the life of a thread: two callers start it, one drops its reference at once, the other cancels it while it runs. -/
def busyDay : List Action :=
  [.retain, .start, .start, .startRetain, .startCreate, .exec 0, .startDetach, .release, .exec 0, .exec 0, .cancel, .cancelLock, .start, .release,
   .exec 0, .exec 0, .exec 0, .exec 0]

def runs (t : Thr) : List Action → Option Thr
  | [] => some t
  | a :: as => match act t a with
    | some (.ok t') => runs t' as
    | _ => none

example : states init busyDay = some [.created, .started, .started, .started, .started, .started, .started, .started, .running, .running, .running, .cancelled,
    .cancelled, .cancelled, .cancelled, .finished, .finished, .finished] := by decide

/-- It ends with the object deallocated. -/
example : runs init busyDay = some ⟨.finished, 0, 0, 0, 0, 0, 0, [.gone], true, 1, 1⟩ := by decide

theorem runs_run {t t' : Thr} {as : List Action} (h : runs t as = some t') : Run t as t' := by
  induction as generalizing t with
  | nil => cases h; exact .nil _
  | cons a as ih =>
    simp only [runs] at h
    split at h
    · exact .cons (by assumption) (ih h)
    · cases h

/-- The hypotheses of `C51_forward_partial`, `C51_finishes` and `C71_dealloc` are met when it is cancelled (and of `C51_finished` some steps later). -/
example : ∃ t, Reach t ∧ t.procCalls = 1 ∧ t.procReturns = 0 ∧ getState t = .cancelled ∧ t.userRefs = 1 ∧ ∃ t', Run t (busyDay.drop 12) t' ∧ getState t' = .finished :=
  ⟨⟨.cancelled, 3, 1, 0, 0, 0, 0, [.calling], true, 1, 0⟩, run_reach .init (runs_run (as := busyDay.take 12) (by decide)), rfl, rfl, rfl, rfl,
   _, runs_run (t' := ⟨.finished, 0, 0, 0, 0, 0, 0, [.gone], true, 1, 1⟩) (by decide), rfl⟩

/-- The hypotheses of `C51_join_fails`. -/
example : ∃ t, Reach t ∧ getState t = .running ∧ t.retaining = 0 ∧ t.creating = 0 ∧ t.detaching = 0 ∧ join t = .undefined :=
  ⟨⟨.running, 3, 1, 0, 0, 0, 0, [.begun], true, 0, 0⟩, run_reach .init (runs_run (as := [.start, .startRetain, .startCreate, .startDetach, .exec 0, .exec 0])
    (by decide)), rfl, rfl, rfl, rfl, by decide⟩

end Thr
end Duck
