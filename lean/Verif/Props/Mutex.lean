import Verif.Lemmas.Mutex
/-! C128: what a mutex and a condition give the threads that use them. -/
namespace Duck
namespace Mutex

private theorem inside_iff {p k es s l} (h : exec p k es init = some (s, l)) (t : Nat) :
    Inside l t ↔ s.owner = some t := by
  obtain ⟨ho, hc⟩ := exec_count t es init s l ok_init h
  have h0 : levels init t = 0 := by simp [levels, init]
  unfold Inside
  rw [h0] at hc
  simp only [levels] at hc
  split at hc
  · rename_i hs
    have : s.depth ≠ 0 := fun hd => by have := ho.2 hd; rw [hs] at this; cases this
    simp only [hs, iff_true]; omega
  · rename_i hs; simp only [hs, iff_false]; omega

/-- Whatever calls any number of threads make, on a mutex of either kind and on either platform, in whatever order they are
    scheduled: two threads are never inside at the same time, and no thread gives back more than it was given. -/
theorem C128_exclusion (p : Platform) (k : Kind) (es : List Ev) (s : St) (l : List Log)
    (h : exec p k es init = some (s, l)) :
    (∀ t u, Inside l t → Inside l u → t = u) ∧ ∀ t, exits l t ≤ entries l t := by
  refine ⟨fun t u ht hu => ?_, fun t => ?_⟩
  · have h1 := (inside_iff h t).1 ht
    rw [(inside_iff h u).1 hu] at h1
    exact (Option.some.inj h1).symm
  · have hc := (exec_count t es init s l ok_init h).2
    have h0 : levels init t = 0 := by simp [levels, init]
    omega

/-- Three threads: one waits, one is refused, one signals -/
example : ∃ s l, exec .posix .plain
    [.lock 0, .tryLock 1, .wait 0, .lock 1, .signal 1 0, .tryLock 2, .unlock 1, .resume 0] init = some (s, l) ∧
    Inside l 0 ∧ ¬ Inside l 1 ∧ l.length = 5 := ⟨_, _, rfl, by decide +kernel, by decide +kernel, rfl⟩

/-- After any execution: a thread that locks (and is not waiting for the condition) gets the mutex exactly when no other
    thread is inside and, unless the mutex is reentrant, it is not inside itself.  DKMutexLock returns exactly then;
    DKMutexTryLock always returns, with true exactly then, and then, and only then, has the mutex. -/
theorem C128_lock (p : Platform) (k : Kind) (es : List Ev) (s : St) (l : List Log) (h : exec p k es init = some (s, l))
    (t : Nat) (hw : t ∉ s.asleep ∧ t ∉ s.returning) :
    ((∃ s' m b, step p k s (.lock t) = .returns s' m b ∧ Inside (l ++ m) t) ↔
      (∀ u, Inside l u → u = t) ∧ (Inside l t → reentrant p k = true)) ∧
    (step p k s (.lock t) = .blocks ↔ ¬ ((∀ u, Inside l u → u = t) ∧ (Inside l t → reentrant p k = true))) ∧
    ∃ s' m b, step p k s (.tryLock t) = .returns s' m b ∧ (b = true ↔ m = [.entered t]) ∧ (b = false ↔ m = []) ∧
      (b = true ↔ (∀ u, Inside l u → u = t) ∧ (Inside l t → reentrant p k = true)) := by
  have hf : ¬ (t ∈ s.asleep ∨ t ∈ s.returning) := fun hc => hc.elim hw.1 hw.2
  have hge := (C128_exclusion p k es s l h).2 t
  have hin : Inside (l ++ [.entered t]) t := by
    unfold Inside; simp only [entries, exits, List.count_append] at hge ⊢; simp; omega
  rw [step_call (t := t) rfl hf, step_call (t := t) rfl hf]
  simp only [inside_iff h]
  simp only [lock, tryLock]
  cases ho : s.owner with
  | none =>
    exact ⟨⟨fun _ => by simp, fun _ => ⟨_, _, _, rfl, hin⟩⟩, by simp, _, _, _, rfl, by simp, by simp, by simp⟩
  | some u =>
    by_cases hu : u = t
    · subst hu
      cases hr : reentrant p k
      · simp
      · simp only [and_self, if_true]
        exact ⟨⟨fun _ => by simp, fun _ => ⟨_, _, _, rfl, hin⟩⟩, by simp, _, _, _, rfl, by simp, by simp, by simp⟩
    · simp [hu]

/-- What the signals do, in every state: a signal, when it returns and some thread sleeps, has woken one of them and no other,
    and changes nothing when none sleeps; a signal to all has woken all of them.  None of this changes who has the mutex. -/
theorem C128_signal (p : Platform) (k : Kind) (s s' : St) (t : Nat) (m : List Log) (b : Bool) :
    (∀ w, step p k s (.signal t w) = .returns s' m b → m = [] ∧ s'.owner = s.owner ∧ s'.depth = s.depth ∧
      (s.asleep = [] → s' = s) ∧
      (s.asleep ≠ [] → w ∈ s.asleep ∧ w ∈ s'.returning ∧ w ∉ s'.asleep ∧
        ∀ u, u ≠ w → (u ∈ s'.asleep ↔ u ∈ s.asleep) ∧ (u ∈ s'.returning ↔ u ∈ s.returning))) ∧
    (step p k s (.signalAll t) = .returns s' m b → m = [] ∧ s'.owner = s.owner ∧ s'.depth = s.depth ∧ s'.asleep = [] ∧
      ∀ u, u ∈ s'.returning ↔ u ∈ s.returning ∨ u ∈ s.asleep) := by
  refine ⟨fun w h => ?_, fun h => ?_⟩
  · have h := step_eq h
    simp only [signal] at h
    split at h
    · rename_i hw
      cases h
      refine ⟨rfl, rfl, rfl, fun hn => (by rw [hn] at hw; cases hw), fun _ => ⟨hw, by simp, by simp, fun u hu => ?_⟩⟩
      simp [hu]
    · split at h
      · cases h; exact ⟨rfl, rfl, rfl, fun _ => rfl, fun hn => absurd ‹_› hn⟩
      · cases h
  · have h := step_eq h
    simp only [signalAll] at h
    cases h
    exact ⟨rfl, rfl, rfl, rfl, fun u => by simp⟩

/-- Three threads sleep, a fourth signals one of them -/
example : step .posix .plain ⟨some 3, 1, [0, 1, 2], []⟩ (.signal 3 1) = .returns ⟨some 3, 1, [0, 2], [1]⟩ [] true := rfl

/-- When a wait returns, the thread is inside. -/
theorem C128_wait_returns (p : Platform) (k : Kind) (es : List Ev) (s : St) (l : List Log) (t : Nat)
    (h : exec p k (es ++ [.resume t]) init = some (s, l)) : Inside l t := by
  rw [inside_iff h]
  suffices ∀ (es : List Ev) (a : St) (l : List Log), exec p k (es ++ [.resume t]) a = some (s, l) → s.owner = some t from
    this es init l h
  intro es
  induction es with
  | nil =>
    intro a l h
    simp only [List.nil_append, exec] at h
    split at h
    · rename_i s1 l1 b hs
      simp only [Option.map_some, Option.some.injEq, Prod.mk.injEq] at h
      rw [← h.1]
      have hs := step_eq hs
      simp only [resume] at hs
      split at hs
      · split at hs
        · cases hs; rfl
        · split at hs
          · rename_i hu hc; cases hs; simp [hu, hc]
          · cases hs
      · cases hs
    · cases h
  | cons e es ih =>
    intro a l h
    simp only [List.cons_append, exec] at h
    split at h
    · rename_i s1 l1 b hs
      cases hx : exec p k (es ++ [.resume t]) s1 with
      | none => simp [hx] at h
      | some r =>
        simp only [hx, Option.map_some, Option.some.injEq, Prod.mk.injEq] at h
        exact ih s1 r.2 (by rw [hx, ← h.1])
    · cases h

/-- A thread that waits with a plain POSIX mutex is not inside, from the call until it returns, and no thread is given this
    mutex twice.  Partial: not so for a mutex that is locked twice (C128_wait_frees_fails). -/
theorem C128_wait_frees_partial (es : List Ev) (s : St) (l : List Log) (h : exec .posix .plain es init = some (s, l)) (t : Nat) :
    (t ∈ s.asleep ∨ t ∈ s.returning → ¬ Inside l t) ∧ entries l t ≤ exits l t + 1 := by
  have ho := once_exec es init s l once_init h
  refine ⟨fun hw => by rw [inside_iff h]; exact ho.2.2.2 t hw, ?_⟩
  have hc := (exec_count t es init s l ok_init h).2
  have h0 : levels init t = 0 := by simp [levels, init]
  have : levels s t ≤ 1 := by have := ho.2.2.1; simp only [levels]; split <;> omega
  omega

example : ∃ s l, exec .posix .plain [.lock 0, .wait 0, .lock 1] init = some (s, l) ∧ 0 ∈ s.asleep ∧ Inside l 1 :=
  ⟨_, _, rfl, by decide +kernel, by decide +kernel⟩

/-- A thread that has locked a recursive mutex twice still holds it while it waits: nobody else gets it, so nobody can change
    what it waits for.  The same with DKNewMutex on Windows. -/
theorem C128_wait_frees_fails : ∀ p k, reentrant p k = true →
    ∃ s l, exec p k [.lock 0, .lock 0, .wait 0] init = some (s, l) ∧ 0 ∈ s.asleep ∧ Inside l 0 ∧
      ∀ u, u ≠ 0 → step p k s (.lock u) = .blocks := by
  intro p k hr
  refine ⟨⟨some 0, 1, [0], []⟩, [.entered 0, .entered 0, .left 0], ?_, by decide, by decide, fun u hu => ?_⟩
  · revert hr; revert p k; intro p k; cases p <;> cases k <;> decide
  · rw [step_call (t := u) rfl (by simpa using hu)]
    simp only [lock]
    rw [if_neg (fun hc => hu hc.1.symm)]

/-- DKNewMutex is not the same on the two platforms: the thread that has it is refused by DKMutexTryLock and never returns
    from DKMutexLock on POSIX, and gets it again with both on Windows. -/
theorem C128_platforms_fails :
    (∃ s l, exec .posix .plain [.lock 0] init = some (s, l) ∧ step .posix .plain s (.lock 0) = .blocks ∧
      ∃ s' m, step .posix .plain s (.tryLock 0) = .returns s' m false) ∧
    (∃ s l, exec .windows .plain [.lock 0] init = some (s, l) ∧
      (∃ s' m, step .windows .plain s (.lock 0) = .returns s' m true) ∧
      ∃ s' m, step .windows .plain s (.tryLock 0) = .returns s' m true) :=
  ⟨⟨_, _, rfl, rfl, _, _, rfl⟩, ⟨_, _, rfl, ⟨_, _, rfl⟩, _, _, rfl⟩⟩

/-- No wakeup is lost: any number of threads that wait in a loop under the mutex, and threads that set the condition and signal
    all under the mutex, in any order and with any wakeups without a signal: when the condition holds and nobody has the mutex, no thread
    sleeps. -/
theorem C128_no_lost_wakeup (p : Platform) (k : Kind) (n : Nat) (setter : Nat → Bool) (cs : List Choice) (s : Sys)
    (h : go p k cs (initial n setter) = some s) (hr : s.ready = true) (ho : s.st.owner = none) : s.st.asleep = [] := by
  have j := J.go cs _ s (J.initial n setter) h
  cases ha : s.st.asleep with
  | nil => rfl
  | cons a l =>
    obtain ⟨u, hu⟩ := j.sg hr (by rw [ha]; simp)
    have := (j.own u).2 (by rw [hu]; rfl)
    rw [ho] at this; cases this

/-- Everybody returns: once the condition holds, the `n` threads make at most `4 n` further steps, whatever the scheduler does,
    and as long as one of them has not come to its end, some thread can make a step. -/
theorem C128_waiters_return (p : Platform) (k : Kind) (n : Nat) (setter : Nat → Bool) (cs : List Choice) (s : Sys)
    (h : go p k cs (initial n setter) = some s) (hr : s.ready = true) (ds : List Choice) (s' : Sys)
    (h' : go p k ds s = some s') :
    steps ds ≤ 4 * n ∧ ((∀ u, thread p k u s' = none) → ∀ t, s'.pc t = .done) := by
  have j := J.go cs _ s (J.initial n setter) h
  have o : Out n s := go_out cs _ s (J.initial n setter) (fun t ht => by simp [initial, ht]) h
  have hs := go_steps ds s s' j o hr h'
  refine ⟨by have := total_le s.pc n; omega, fun hu t => ?_⟩
  by_cases ht : s'.pc t = .done
  · exact ht
  · obtain ⟨u, hg⟩ := (J.go ds s s' j h').somebody p k hs.1 ht
    rw [hu u] at hg; cases hg

/-- Two waiters and a setter; both waiters sleep when the setter comes, and all come to their end -/
example : ∃ s s', go .posix .plain [.thread 0, .thread 0, .thread 1, .thread 1, .wakeUp 1, .thread 2, .thread 2]
      (initial 3 (· == 2)) = some s ∧ s.ready = true ∧ s.st.asleep = [0] ∧
    go .posix .plain [.thread 2, .thread 2, .thread 1, .thread 1, .thread 1, .thread 0, .thread 0, .thread 0] s = some s' ∧
    s'.st.asleep = [] ∧ s'.pc 0 = .done ∧ s'.pc 1 = .done ∧ s'.pc 2 = .done :=
  ⟨_, _, rfl, rfl, rfl, rfl, rfl, rfl, rfl, rfl⟩

end Mutex
end Duck
