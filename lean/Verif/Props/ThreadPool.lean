import Verif.Lemmas.PoolStop

/-! C49, C50, C68, C69, C70: thread pools, for all numbers of workers and all interleavings. -/
namespace Duck
namespace Pool

/-! C49: tasks are executed once and in order. -/

/-- Tasks of a group start in the order in which they were added, and so do its completions. -/
theorem C49_order {rt : Bool} {p : Pool} (h : Reach rt p) (k : Kind) (g : Nat) :
    ofGroup k g (started p.log) <+: ofGroup k g (added p.log) :=
  (reach_inv h).q.pref k g

/-- No task is started twice, different calls add different tasks, and a task is started after it was added and returns after it was started. -/
theorem C49_once {rt : Bool} {p : Pool} (h : Reach rt p) :
    (started p.log).Nodup ∧ (added p.log).Nodup ∧
    (∀ l1 t l2, p.log = l1 ++ .started t :: l2 → t ∈ added l1) ∧ ∀ l1 t l2, p.log = l1 ++ .finished t :: l2 → t ∈ started l1 := by
  have hq := (reach_inv h).q
  refine ⟨?_, added_nodup hq.hist, fun l1 t l2 he => (hq.hist _ _ _ he).1, fun l1 t l2 he => hq.hist _ _ _ he⟩
  have : ∀ log : List Event, Hist Fits log → (started log).Nodup := by
    refine snoc_induction (fun _ => List.nodup_nil) ?_
    intro l e ih h
    have h1 : Hist Fits l := fun a x b hx => h a x (b ++ [e]) (by simp [hx])
    have h2 : Fits l e := h l e [] (by simp)
    rw [started_append]
    cases e with
    | started t =>
      refine List.nodup_append.2 ⟨ih h1, by simp [started], ?_⟩
      intro x hx y hy
      have : y = t := by simpa [started] using hy
      subst this
      intro he
      subst he
      exact h2.2.1 hx
    | _ => simpa [started] using ih h1
  exact this _ hq.hist

/-- When a completion starts, every task of its group, also those added later if there were any, has returned. -/
theorem C49_completion {rt : Bool} {p : Pool} (h : Reach rt p) {l1 l2 : List Event} {c : Task} (he : p.log = l1 ++ .started c :: l2)
    (hc : c.kind = .completion) {t : Task} (ht : t ∈ added p.log) (hk : t.kind = .task) (ho : t.owner = c.owner) : t ∈ finished l1 := by
  have hh := (reach_inv h).q.hist
  obtain ⟨h1, -, h3⟩ := hh _ _ _ he
  rw [he, added_append] at ht
  rcases List.mem_append.1 ht with ht | ht
  · exact h3 hc t ht hk ho
  · have ht' : Event.added t ∈ l2 := by
      have := mem_added.1 ht
      simpa using this
    obtain ⟨a, b, hab⟩ := List.append_of_mem ht'
    have := (hh (l1 ++ .started c :: a) (.added t) b (by rw [he, hab]; simp)).2.1 hk c
      (by rw [added_append]; exact List.mem_append_left _ h1) hc
    exact absurd ho.symm this

/-! C70: nothing crashes as long as DKThreadPoolRemoveAllTasks is not used. -/

theorem C70_partial {rt : Bool} {p : Pool} (h : Reach rt p) (hr : NoRemove p) (a : Action) : act p a ≠ some .crash := by
  have hi := reach_inv h
  intro hc
  cases a with
  | acquire i =>
    simp only [act] at hc
    obtain ⟨w, hw, hc⟩ := Option.bind_eq_some_iff.1 hc
    unfold acquire at hc
    split at hc
    · cases hc
    · split at hc
      · cases hc
      · cases hc
      · split at hc <;> cases hc
      · rename_i t hpc
        obtain ⟨r, h1, -⟩ := jobs_some (j := (false, t)) hw (by simp [load, hpc]) w
        obtain ⟨qs, hqs⟩ := (hi.q.perm h1).complete_ok hr
        rw [hqs] at hc
        cases hc
      · cases hc
  | exit i =>
    simp only [act] at hc
    obtain ⟨w, hw, hc⟩ := Option.bind_eq_some_iff.1 hc
    unfold exit at hc
    split at hc
    · rename_i hpc
      rw [if_neg (by have := (hi.w.exit hw hpc).1; omega)] at hc
      cases hc
    · cases hc
  | addTask => simp only [act] at hc; split at hc <;> cases hc
  | addCompletion => simp only [act] at hc; split at hc <;> cases hc
  | signal i => simp only [act] at hc; obtain ⟨w, _, hc⟩ := Option.bind_eq_some_iff.1 hc; split at hc <;> cases hc
  | signalNobody => simp only [act] at hc; split at hc <;> cases hc
  | removeAll => simp only [act] at hc; split at hc <;> cases hc
  | waitFor g => simp only [act] at hc; split at hc <;> cases hc
  | waitIdle => simp only [act] at hc; split at hc <;> cases hc
  | start n => simp only [act] at hc; split at hc <;> cases hc
  | stop => simp only [act] at hc; split at hc <;> cases hc
  | stopCancel => simp only [act] at hc; split at hc <;> cases hc
  | stopSignal => simp only [act] at hc; split at hc <;> cases hc
  | stopEnd => simp only [act] at hc; split at hc <;> first | (split at hc <;> cases hc) | cases hc
  | begin i => simp only [act] at hc; obtain ⟨w, _, hc⟩ := Option.bind_eq_some_iff.1 hc; split at hc <;> cases hc
  | check i =>
    simp only [act] at hc
    obtain ⟨w, _, hc⟩ := Option.bind_eq_some_iff.1 hc
    obtain ⟨x, _, hx⟩ := Option.map_eq_some_iff.1 hc
    cases hx
  | next i =>
    simp only [act] at hc
    obtain ⟨w, _, hc⟩ := Option.bind_eq_some_iff.1 hc
    obtain ⟨x, _, hx⟩ := Option.map_eq_some_iff.1 hc
    cases hx
  | finish i =>
    simp only [act] at hc
    obtain ⟨w, _, hc⟩ := Option.bind_eq_some_iff.1 hc
    obtain ⟨x, _, hx⟩ := Option.map_eq_some_iff.1 hc
    cases hx
  | spurious i => simp only [act] at hc; obtain ⟨w, _, hc⟩ := Option.bind_eq_some_iff.1 hc; split at hc <;> cases hc

/-- One worker that has begun and found nothing to do. -/
def oneIdle : List Action := [.start 1, .begin 0, .acquire 0, .check 0, .next 0]

/-- One worker that executes the first task. -/
def oneBusy : List Action := [.start 1, .begin 0, .addTask, .acquire 0, .check 0, .next 0]

/-- DKThreadPoolRemoveAllTasks while a task is executed: its worker uses a queue that is gone. -/
theorem C70_remove_fails : ∃ p, Reach false p ∧ act p (.acquire 0) = some .crash := by
  have h : ∃ p, runs (init false) (oneBusy ++ [.removeAll, .finish 0]) = some p ∧ act p (.acquire 0) = some .crash := by
    refine ⟨_, rfl, ?_⟩
    decide +kernel
  obtain ⟨p, h1, h2⟩ := h
  exact ⟨p, runs_reach .init h1, h2⟩

/-! C50: waiting. -/

/-- When DKThreadPoolWaitForTasks returns, all tasks the group has or will have, have returned. -/
theorem C50_wait_partial {rt : Bool} {p : Pool} (h : Reach rt p) {l1 l2 : List Event} {g : Nat} (he : p.log = l1 ++ .waited g :: l2)
    (hr : Event.removed ∉ l1) (hg : ∃ u ∈ added l1, u.kind = .task ∧ u.owner = g) {t : Task} (ht : t ∈ added p.log) (hk : t.kind = .task)
    (ho : t.owner = g) : t ∈ finished l1 := by
  have hi := (reach_inv h).q
  rw [he, added_append] at ht
  obtain ⟨u, hu1, hu2, hu3⟩ := hg
  have hg1 : 1 ≤ g := by
    have := (hi.own u (by rw [he, added_append]; exact List.mem_append_left _ hu1)).2.2 hu2
    omega
  rcases List.mem_append.1 ht with ht | ht
  · exact hi.hist _ _ _ he hr t ht hk ho
  · have ht' : Event.added t ∈ l2 := by
      have := mem_added.1 ht
      simpa using this
    obtain ⟨a, b, hab⟩ := List.append_of_mem ht'
    have := (hi.hist (l1 ++ .waited g :: a) (.added t) b (by rw [he, hab]; simp)).2.2 l1 g a rfl hg1 ⟨u, hu1, hu3⟩
    exact absurd ho this

/-- When DKThreadPoolWaitUntilIdle returns (or DKThreadPoolIsIdle returns true), no task is being executed. -/
theorem C50_idle_partial {rt : Bool} {p : Pool} (h : Reach rt p) {l1 l2 : List Event} (he : p.log = l1 ++ .idled :: l2) {t : Task}
    (ht : t ∈ started l1) : t ∈ finished l1 :=
  (reach_inv h).q.hist _ _ _ he t ht

/-- DKThreadPoolWaitForTasks returns while a completion of the group is being executed: two workers, one finds the queue empty when the other has taken
    the completion. -/
theorem C50_completion_fails : ∃ p c, Reach false p ∧ Event.waited 1 ∈ p.log ∧ c ∈ started p.log ∧ c.owner = 1 ∧ c ∉ finished p.log := by
  have h : ∃ p, runs (init false) ([.start 2, .begin 0, .begin 1, .addTask, .addCompletion, .acquire 0, .check 0, .next 0, .finish 0, .acquire 0, .check 0,
      .next 0, .acquire 1, .check 1, .next 1, .waitFor 1]) = some p ∧ Event.waited 1 ∈ p.log ∧ (⟨1, .completion, 1, 0⟩ : Task) ∈ started p.log ∧
      (⟨1, .completion, 1, 0⟩ : Task) ∉ finished p.log := by
    refine ⟨_, rfl, ?_⟩
    decide +kernel
  obtain ⟨p, h1, h2, h3, h4⟩ := h
  exact ⟨p, _, runs_reach .init h1, h2, h3, rfl, h4⟩

/-- After DKThreadPoolRemoveAllTasks, DKThreadPoolWaitForTasks returns while a task of the group is being executed. -/
theorem C50_removed_fails : ∃ p t, Reach false p ∧ Event.waited 1 ∈ p.log ∧ t ∈ started p.log ∧ t.kind = .task ∧ t.owner = 1 ∧ t ∉ finished p.log := by
  have h : ∃ p, runs (init false) (oneBusy ++ [.removeAll, .waitFor 1]) = some p ∧ Event.waited 1 ∈ p.log ∧ (⟨0, .task, 1, 1⟩ : Task) ∈ started p.log ∧
      (⟨0, .task, 1, 1⟩ : Task) ∉ finished p.log := by
    refine ⟨_, rfl, ?_⟩
    decide +kernel
  obtain ⟨p, h1, h2, h3, h4⟩ := h
  exact ⟨p, _, runs_reach .init h1, h2, h3, rfl, rfl, h4⟩

/-- DKThreadPoolWaitUntilIdle returns although a task was added before the call and has not been started: the worker counts as idle until it wakes up. -/
theorem C50_idle_fails : ∃ p t l1 l2, Reach false p ∧ p.threads ≠ [] ∧ p.log = l1 ++ .idled :: l2 ∧ t ∈ added l1 ∧ t ∉ started p.log := by
  have h : ∃ p, runs (init false) (oneIdle ++ [.addTask, .waitIdle]) = some p ∧ p.threads ≠ [] ∧ p.log = [.added ⟨0, .task, 1, 1⟩] ++ .idled :: [] ∧
      (⟨0, .task, 1, 1⟩ : Task) ∉ started p.log := by
    refine ⟨_, rfl, ?_⟩
    decide +kernel
  obtain ⟨p, h1, h2, h3, h4⟩ := h
  exact ⟨p, ⟨0, .task, 1, 1⟩, _, _, runs_reach .init h1, h2, h3, by simp [added], h4⟩

/-- DKThreadPoolWaitForCurrentTasks, called in `p0` while there is one group of tasks (or none) and returning after `l1`: every task added before the call has
    returned.  Without groups it returns at once, with `l1` the log of `p0`. -/
theorem C50_current_partial {rt : Bool} {p0 p : Pool} (h0 : Reach rt p0) (hq : p0.queues.length ≤ 1) (h : Reach rt p) {l1 l2 : List Event} (hl : p0.log <+: l1)
    (he : if currentGroup p0 = 0 then l1 = p0.log else p.log = l1 ++ .waited (currentGroup p0) :: l2) (hr : Event.removed ∉ l1) {t : Task} (ht : t ∈ added p0.log)
    (hk : t.kind = .task) : t ∈ finished l1 := by
  have hi := (reach_inv h0).q
  obtain ⟨r, rfl⟩ := hl
  have hr0 : Event.removed ∉ p0.log := fun hx => hr (List.mem_append_left _ hx)
  by_cases ho : t.owner ∈ p0.queues.map (·.taskGroup)
  · obtain ⟨q, hm, hg⟩ := List.mem_map.1 ho
    have hql : p0.queues = [q] := by
      match hqq : p0.queues, hq, hm with
      | [a], _, hm => simp only [List.mem_singleton] at hm; rw [hm]
      | a :: b :: c, hq, _ => simp at hq
    have hc : currentGroup p0 = t.owner := by rw [currentGroup, hql]; exact hg
    have h1 : 1 ≤ t.owner := by rw [← hg]; exact (hi.grp q hm).1
    rw [hc, if_neg (by omega)] at he
    exact (reach_inv h).q.hist _ _ _ he hr t (by rw [added_append]; exact List.mem_append_left _ ht) hk rfl
  · rw [finished_append]
    exact List.mem_append_left _ ((hi.absent hr0 t.owner ho).2.1 t ht hk rfl)

/-- One group with an executed task, then the wait returns. -/
example : ∃ p0 p l1 l2, Reach false p0 ∧ p0.queues.length ≤ 1 ∧ Reach false p ∧ p0.log <+: l1 ∧ currentGroup p0 = 1 ∧ p.log = l1 ++ .waited 1 :: l2 ∧
    Event.removed ∉ l1 ∧ (⟨0, .task, 1, 1⟩ : Task) ∈ added p0.log := by
  have h : ∃ p0 p, runs (init false) oneBusy = some p0 ∧ runs p0 [.finish 0, .acquire 0, .check 0, .next 0, .waitFor 1] = some p ∧
      p0.queues.length ≤ 1 ∧ currentGroup p0 = 1 ∧ p0.log = [.added ⟨0, .task, 1, 1⟩, .started ⟨0, .task, 1, 1⟩] ∧
      p.log = [.added ⟨0, .task, 1, 1⟩, .started ⟨0, .task, 1, 1⟩, .finished ⟨0, .task, 1, 1⟩, .waited 1] := by
    refine ⟨_, _, rfl, rfl, ?_⟩
    decide +kernel
  obtain ⟨p0, p, h1, h2, h3, h4, h5, h6⟩ := h
  refine ⟨p0, p, [.added ⟨0, .task, 1, 1⟩, .started ⟨0, .task, 1, 1⟩, .finished ⟨0, .task, 1, 1⟩], [], runs_reach .init h1, h3,
    runs_reach (runs_reach .init h1) h2, ?_, h4, h6, by decide, by rw [h5]; decide⟩
  rw [h5]
  exact ⟨_, rfl⟩

/-- DKThreadPoolWaitForCurrentTasks waits only for the last group: a task of an earlier group, added before the call, is still executed when it returns.  (A task, a
    completion and a second task are added; two workers execute the tasks, and the second returns.) -/
theorem C50_current_fails : ∃ p0 as p t, Reach false p0 ∧ runs p0 as = some p ∧ t ∈ added p0.log ∧ t.kind = .task ∧
    p.log.getLast? = some (.waited (currentGroup p0)) ∧ currentGroup p0 ≠ 0 ∧ t ∈ started p.log ∧ t ∉ finished p.log ∧ NoRemove p := by
  have h : ∃ p0 p, runs (init false) [.start 2, .begin 0, .begin 1, .addTask, .addCompletion, .addTask, .acquire 0, .check 0, .next 0, .acquire 1, .check 1,
        .next 1] = some p0 ∧ runs p0 [.waitFor 2, .finish 1, .acquire 1, .check 1, .next 1, .waitFor 2] = some p ∧
      (⟨0, .task, 1, 1⟩ : Task) ∈ added p0.log ∧ p.log.getLast? = some (.waited (currentGroup p0)) ∧ currentGroup p0 ≠ 0 ∧
      (⟨0, .task, 1, 1⟩ : Task) ∈ started p.log ∧ (⟨0, .task, 1, 1⟩ : Task) ∉ finished p.log ∧ Event.removed ∉ p.log := by
    refine ⟨_, _, rfl, rfl, ?_⟩
    decide +kernel
  obtain ⟨p0, p, h1, h2, h3, h4, h5, h6, h7, h8⟩ := h
  exact ⟨p0, _, p, ⟨0, .task, 1, 1⟩, runs_reach .init h1, h2, h3, rfl, h4, h5, h6, h7, h8⟩

/-! C68: a pool with threads finishes what was added. -/

/-- Default scheduling, not being stopped: when the pool is not used any more it comes to rest after a bounded number of steps, however they are scheduled,
    and then every task and completion has been executed. -/
theorem C68_partial {p : Pool} (h : Reach false p) (hs : p.stopper = none) (ht : p.threads ≠ []) (hr : NoRemove p) :
    ∃ n, ∀ as p', Steps p as p' → (∀ a ∈ as, a.internal = true) → as.length ≤ n ∧ (Quiet p' → ∀ t ∈ added p'.log, t ∈ finished p'.log) := by
  have hrt := reach_realtime h
  refine ⟨measure p, fun as p' hst hi => ?_⟩
  obtain ⟨h1, h2, h3, h4⟩ := steps_bound hst hrt hs hi
  refine ⟨by omega, fun hq => ?_⟩
  have hinv := reach_inv (reach_steps h hst)
  have hr' : Event.removed ∉ p'.log := by
    clear h h1 h2 h3 h4 hrt hs ht hq hinv
    induction hst with
    | nil => exact hr
    | cons ha _ ih =>
      exact ih (removed_internal (hi _ (by simp)) ha hr) fun a ha => hi a (List.mem_cons_of_mem _ ha)
  obtain ⟨hs0, hsl⟩ := quiet_asleep hinv hq
  have hq0 := hinv.s h2 h3 hs0 (h4 ▸ ht) hsl
  refine all_finished hinv hr' hq0 fun w hw => ?_
  rcases hsl w hw with hx | hx <;> simp [load, hx]

/-- Real time scheduling, stopped and started again: `standbyThreads` still counts the worker that is gone, no new worker takes its place, all of them
    wait for a signal that DKThreadPoolAddTask does not send, and a task is never executed. -/
theorem C68_realtime_fails : ∃ p t, Reach true p ∧ p.stopper = none ∧ p.threads ≠ [] ∧ NoRemove p ∧ Quiet p ∧ t ∈ added p.log ∧ t ∉ started p.log := by
  have h : ∃ p, runs (init true) [.start 1, .begin 0, .acquire 0, .check 0, .next 0, .stop, .stopCancel, .stopSignal, .acquire 0, .check 0, .exit 0,
      .stopEnd, .start 1, .begin 1, .acquire 1, .check 1, .next 1, .addTask] = some p ∧ p.stopper = none ∧ p.threads ≠ [] ∧ Event.removed ∉ p.log ∧
      quietB p = true ∧ (⟨0, .task, 1, 1⟩ : Task) ∈ added p.log ∧ (⟨0, .task, 1, 1⟩ : Task) ∉ started p.log := by
    refine ⟨_, rfl, ?_⟩
    decide +kernel
  obtain ⟨p, h1, h2, h3, h4, h5, h6, h7⟩ := h
  exact ⟨p, _, runs_reach .init h1, h2, h3, h4, quiet_of h5, h6, h7⟩

/-! C69: DKThreadPoolStop. -/

/-- When DKThreadPoolStop returns, every worker has ended and every task that was started has returned. -/
theorem C69_partial {rt : Bool} {p p' : Pool} (h : Reach rt p) (ha : act p .stopEnd = some (.ok p')) :
    p'.threads = [] ∧ (∀ w ∈ p'.workers, w.pc = .gone) ∧ ∀ t ∈ started p'.log, t ∈ finished p'.log := by
  have hinv := reach_inv h
  simp only [act] at ha
  split at ha
  · rename_i hst
    split at ha
    · rename_i h0
      cases ha
      have hc := hinv.w.stop (by rw [hst]; nofun)
      have hg : p.workers.countP notGone = 0 := by omega
      have hall : ∀ w ∈ p.workers, w.pc = .gone := by
        intro w hw
        have := List.countP_eq_zero.1 hg w hw
        simpa [notGone] using this
      refine ⟨rfl, hall, fun t ht => ?_⟩
      have hj : jobs p.workers = [] := List.filterMap_eq_nil_iff.2 fun w hw => by simp [load, hall w hw]
      have hqi := hinv.q
      rw [QI, hj] at hqi
      exact (hqi.run t ht).resolve_right (by simp)
    · cases ha
  · cases ha

/-- DKThreadPoolStop returns if all workers are waiting for work when it is called, the signals of DKThreadPoolAddTask have been delivered and there are no
    spurious wakeups: after a bounded number of steps, however they are scheduled. -/
theorem C69_idle_partial {p p1 : Pool} (h : Reach false p) (hsig : p.signals = 0) (hall : ∀ w ∈ p.workers, w.pc = .gone ∨ w.pc = .waiting false)
    (ha : act p .stop = some (.ok p1)) :
    ∃ n, ∀ as p', Steps p1 as p' → (∀ a ∈ as, a.internal = true) → as.length ≤ n ∧ (Quiet p' → p'.stopper = none) := by
  have h1 := h.step ha
  have hinv := reach_inv h1
  have ht := reach_tinv h
  have hph : Phase p1 := by
    simp only [act] at ha
    split at ha <;> cases ha
    refine ⟨hsig, fun i w hw => ?_⟩
    rcases hall w (List.mem_of_getElem? hw) with hx | hx
    · exact .inl hx
    · have := ht i w hw (by rw [hx]; nofun)
      exact .inr ⟨hx, this.2, .inl this.1⟩
  refine ⟨stopWeight p1, fun as p' hs hi => ?_⟩
  obtain ⟨g1, g2, g3⟩ := phase_steps hs hinv hph (reach_realtime h1) hi
  exact ⟨g1, phase_quiet g3 g2⟩

example : ∃ p p1, runs (init false) (oneIdle ++ [.addTask, .signal 0, .acquire 0, .check 0, .next 0, .finish 0, .acquire 0, .check 0, .next 0]) = some p ∧
    p.signals = 0 ∧ (∀ w ∈ p.workers, w.pc = .gone ∨ w.pc = .waiting false) ∧ act p .stop = some (.ok p1) := by
  refine ⟨_, _, rfl, ?_, ?_, rfl⟩ <;> decide +kernel

/-- DKThreadPoolStop does not return when a thread is cancelled before it begins: DKThreadExec then sets its state to running. -/
theorem C69_cancel_fails : ∃ p, Reach false p ∧ p.stopper = some .waiting ∧ p.stopCounter = 1 ∧ Quiet p := by
  have h : ∃ p, runs (init false) [.start 1, .stop, .stopCancel, .begin 0, .stopSignal, .acquire 0, .check 0, .next 0] = some p ∧
      p.stopper = some .waiting ∧ p.stopCounter = 1 ∧ quietB p = true := by
    refine ⟨_, rfl, ?_⟩
    decide +kernel
  obtain ⟨p, h1, h2, h3, h4⟩ := h
  exact ⟨p, runs_reach .init h1, h2, h3, quiet_of h4⟩

/-- DKThreadPoolStop does not return when it cancels a worker and signals between the worker's test and its wait: the signal is sent without the mutex. -/
theorem C69_wakeup_fails : ∃ p, Reach false p ∧ p.stopper = some .waiting ∧ p.stopCounter = 1 ∧ Quiet p ∧ ∀ w ∈ p.workers, w.state = .cancelled := by
  have h : ∃ p, runs (init false) [.start 1, .begin 0, .acquire 0, .check 0, .stop, .stopCancel, .stopSignal, .next 0] = some p ∧
      p.stopper = some .waiting ∧ p.stopCounter = 1 ∧ quietB p = true ∧ ∀ w ∈ p.workers, w.state = .cancelled := by
    refine ⟨_, rfl, ?_⟩
    decide +kernel
  obtain ⟨p, h1, h2, h3, h4, h5⟩ := h
  exact ⟨p, runs_reach .init h1, h2, h3, quiet_of h4, h5⟩

/-! The hypotheses are met: three workers, two groups, completions and waits. -/
def busyDay : List Action :=
  [.start 3, .addTask, .addTask, .addCompletion, .addTask, .begin 0, .begin 1, .begin 2, .acquire 1, .check 1, .next 1, .acquire 0, .check 0, .next 0,
   .finish 0, .acquire 2, .check 2, .next 2, .finish 1, .acquire 1, .check 1, .next 1, .acquire 0, .check 0, .next 0, .finish 2, .finish 0,
   .acquire 2, .check 2, .next 2, .acquire 0, .check 0, .next 0, .waitFor 1, .waitFor 2]

example : ∃ p, runs (init false) busyDay = some p ∧ (started p.log).map (·.id) = [0, 1, 3, 2] ∧ (added p.log).length = 4 ∧
    Event.waited 1 ∈ p.log ∧ (finished p.log).map (·.id) = [1, 0, 3, 2] ∧ Event.removed ∉ p.log ∧ p.threads.length = 3 := by
  refine ⟨_, rfl, ?_⟩
  decide +kernel

end Pool
end Duck
