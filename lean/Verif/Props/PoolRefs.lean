import Mathlib.Data.List.Nodup
import Verif.Model.PoolRefs
import Verif.Props.ThreadPool
/-! C96: the objects of the tasks of a thread pool. -/
namespace Duck
namespace Pool

/-- The worker executes the task. -/
def busy (t : Task) (w : Worker) : Nat := if w.pc = .running t ∨ w.pc = .done t then 1 else 0

/-- Workers that execute the task. -/
def executed (t : Task) (ws : List Worker) : Nat := (ws.map (busy t)).sum

theorem executed_set {t : Task} : ∀ {ws : List Worker} {i : Nat} {w : Worker} (w' : Worker), ws[i]? = some w →
    executed t (ws.set i w') + busy t w = executed t ws + busy t w' := by
  intro ws
  induction ws with
  | nil => intro i w w' h; simp at h
  | cons z l ih =>
    intro i w w' h
    cases i with
    | zero => simp only [List.getElem?_cons_zero, Option.some.injEq] at h; subst h; simp [executed]; omega
    | succ i =>
      simp only [List.getElem?_cons_succ] at h
      have := ih w' h
      simp only [executed, List.set_cons_succ, List.map_cons, List.sum_cons] at this ⊢
      omega

/-- The references to a task are those of the queues, of the workers, and the ones given back. -/
def Even (t : Task) (p : Pool) (ret rel : List Task) : Prop :=
  ret.count t = rel.count t + (inQueues p.queues).count t + executed t p.workers

theorem inQueues_append (a b : List Queue) : inQueues (a ++ b) = inQueues a ++ inQueues b := List.flatMap_append

theorem inQueues_onLast_task (qs : List Queue) (t u : Task) (n : Int) (f : Queue → Queue)
    (hf : ∀ q, f q = { q with tasks := q.tasks ++ [u], pendingTasks := q.pendingTasks + n }) (hne : qs ≠ []) :
    (inQueues (onLast f qs)).count t = (inQueues qs).count t + [u].count t := by
  obtain ⟨l, q, rfl⟩ := (List.eq_nil_or_concat qs).resolve_left hne
  simp only [onLast, List.concat_eq_append, List.getLast?_append, List.getLast?_singleton, Option.some_or, List.dropLast_concat,
    inQueues_append, List.count_append]
  simp only [inQueues, hf, List.flatMap_cons, List.flatMap_nil, List.append_nil, List.count_append]
  omega

theorem inQueues_onLast_completion (qs : List Queue) (t u : Task) (f : Queue → Queue)
    (hf : ∀ q, f q = { q with completions := q.completions ++ [u], closed := true }) (hne : qs ≠ []) :
    (inQueues (onLast f qs)).count t = (inQueues qs).count t + [u].count t := by
  obtain ⟨l, q, rfl⟩ := (List.eq_nil_or_concat qs).resolve_left hne
  simp only [onLast, List.concat_eq_append, List.getLast?_append, List.getLast?_singleton, Option.some_or, List.dropLast_concat,
    inQueues_append, List.count_append]
  simp [inQueues, hf, List.count_append]
  omega

theorem openQueue_inQueues (p : Pool) : inQueues (openQueue p).queues = inQueues p.queues ∧ (openQueue p).queues ≠ [] ∧
    (openQueue p).workers = p.workers ∧ (openQueue p).nextId = p.nextId ∧ (openQueue p).log = p.log := by
  simp only [openQueue]
  split
  · simp [newQueue, inQueues]
  · rename_i q hq
    split
    · simp [newQueue, inQueues]
    · refine ⟨rfl, ?_, rfl, rfl, rfl⟩
      intro h
      rw [h] at hq
      cases hq

theorem getNextTask_inQueues (t : Task) : ∀ qs : List Queue,
    (inQueues (getNextTask qs).1).count t + ((getNextTask qs).2.toList).count t = (inQueues qs).count t := by
  intro qs
  induction qs with
  | nil => rfl
  | cons q qs ih =>
    simp only [getNextTask]
    split
    · rename_i u ts hq
      simp only [inQueues, List.flatMap_cons, hq, List.count_append, Option.toList_some, List.count_cons, List.count_nil]
      omega
    · rename_i hq
      split
      · split
        · rename_i u cs hc
          simp only [inQueues, List.flatMap_cons, hq, hc, List.count_append, Option.toList_some, List.count_cons, List.count_nil]
          omega
        · rename_i hc
          have : inQueues (q :: qs) = inQueues qs := by simp [inQueues, hq, hc]
          rw [this]
          exact ih
      · have : ∀ l, inQueues (q :: l) = (q.tasks ++ q.completions) ++ inQueues l := fun l => rfl
        simp only [this, List.count_append] at ih ⊢
        omega

theorem inQueues_map (qs : List Queue) (f : Queue → Queue) (hf : ∀ q, (f q).tasks = q.tasks ∧ (f q).completions = q.completions) :
    inQueues (qs.map f) = inQueues qs := by
  induction qs with
  | nil => rfl
  | cons q qs ih =>
    simp only [inQueues, List.map_cons, List.flatMap_cons, (hf q).1, (hf q).2] at ih ⊢
    rw [ih]

theorem completeTask_inQueues {qs qs' : List Queue} {t : Task} (h : completeTask qs t = some qs') : inQueues qs' = inQueues qs := by
  simp only [completeTask] at h
  split at h
  · cases h; rfl
  · split at h
    · cases h
    · split at h
      · cases h
      · cases h
        refine inQueues_map _ _ fun q => ?_
        split <;> exact ⟨rfl, rfl⟩

theorem wake_busy (t : Task) (w : Worker) : busy t (wake w) = busy t w := by
  simp only [wake]
  split
  · rename_i h; simp [busy, h]
  · rfl

theorem cancel_busy (t : Task) (w : Worker) : busy t (cancel w) = busy t w := by
  simp only [cancel]
  split <;> rfl

theorem executed_map (t : Task) (ws : List Worker) (f : Worker → Worker) (hf : ∀ w, busy t (f w) = busy t w) :
    executed t (ws.map f) = executed t ws := by
  simp only [executed, List.map_map]
  congr 1
  exact List.map_congr_left fun w _ => hf w

theorem executed_modify (t : Task) (ws : List Worker) (i : Nat) (f : Worker → Worker) (hf : ∀ w, busy t (f w) = busy t w) :
    executed t (ws.modify i f) = executed t ws := by
  cases h : ws[i]? with
  | none =>
    rw [List.modify_eq_self (by rw [← List.getElem?_eq_none_iff]; exact h)]
  | some w =>
    have he : ws.modify i f = ws.set i (f w) := by
      refine List.ext_getElem? fun j => ?_
      rw [List.getElem?_modify, List.getElem?_set]
      by_cases e : i = j
      · subst e
        obtain ⟨hl, he⟩ := List.getElem?_eq_some_iff.mp h
        simp [he, hl]
      · simp [e]
    rw [he]
    have := executed_set (t := t) (f w) h
    rw [hf] at this
    omega

/-- A step that changes one worker. -/
theorem even_set {t : Task} {p : Pool} {ret rel r2 : List Task} (h : Even t p ret rel) {i : Nat} {w w' : Worker} (hw : p.workers[i]? = some w)
    {q : Pool} (hq : q.workers = p.workers.set i w')
    (hb : r2.count t + busy t w' + (inQueues q.queues).count t = busy t w + (inQueues p.queues).count t) : Even t q ret (rel ++ r2) := by
  have := executed_set (t := t) w' hw
  simp only [Even, hq, List.count_append] at h ⊢
  omega

theorem even_step {t : Task} {p p' : Pool} {ret rel : List Task} {a : Action} (h : Even t p ret rel) (ha : act p a = some (.ok p')) :
    Even t p' (ret ++ retains p a) (rel ++ releases p a) := by
  cases a with
  | addTask =>
    simp only [act] at ha
    split at ha
    · cases ha
    · cases ha
      obtain ⟨h1, h2, h3, h4, -⟩ := openQueue_inQueues p
      have hq : (inQueues (addTask p).queues).count t = (inQueues p.queues).count t + (retains p .addTask).count t := by
        have : (addTask p).queues = (scheduleTask (openQueue p)).queues := by simp only [addTask, willSignal]; split <;> rfl
        rw [this, scheduleTask, ← h1, retains, ← h4]
        exact inQueues_onLast_task _ t _ 1 _ (fun q => rfl) h2
      have hw : (addTask p).workers = p.workers := by
        rw [← h3]; simp only [addTask, willSignal]; split <;> rfl
      simp only [Even, releases, List.count_append, hq, hw, List.count_nil] at h ⊢
      omega
  | addCompletion =>
    simp only [act] at ha
    split at ha
    · cases ha
    · cases ha
      simp only [addCompletion, retains, releases, List.append_nil]
      by_cases he : p.queues.isEmpty = true
      · simp only [he, if_true, List.append_nil]
        exact h
      · simp only [he, Bool.false_eq_true, if_false]
        have hq : (inQueues (willSignal (scheduleCompletion p)).queues).count t =
            (inQueues p.queues).count t + [(⟨p.nextId, .completion, lastGroup p.queues, 0⟩ : Task)].count t := by
          have : (willSignal (scheduleCompletion p)).queues = (scheduleCompletion p).queues := by simp only [willSignal]; split <;> rfl
          rw [this, scheduleCompletion]
          exact inQueues_onLast_completion _ t _ _ (fun q => rfl) (by simpa using he)
        have hw : (willSignal (scheduleCompletion p)).workers = p.workers := by simp only [willSignal]; split <;> rfl
        simp only [Even, List.count_append, hq, hw] at h ⊢
        omega
  | signal i =>
    simp only [act, Option.bind_eq_some_iff] at ha
    obtain ⟨w, hw, ha⟩ := ha
    split at ha
    · cases ha
      simp only [retains, releases, List.append_nil]
      have := even_set (r2 := []) (w' := wake w) (q := setWorker { p with signals := p.signals - 1 } i (wake w)) h hw rfl
        (by simp [wake_busy, setWorker])
      simpa using this
    · cases ha
  | signalNobody =>
    simp only [act] at ha
    split at ha <;> cases ha
    simpa [retains, releases, Even] using h
  | removeAll =>
    simp only [act] at ha
    split at ha <;> cases ha
    simp only [Even, retains, releases, List.append_nil, List.count_append, inQueues, List.flatMap_nil, List.count_nil] at h ⊢
    omega
  | waitFor g =>
    simp only [act] at ha
    split at ha <;> cases ha
    simp only [retains, releases, List.append_nil, waitFor]
    split
    · simp only [Even] at h ⊢
      rw [inQueues_map]
      · exact h
      · intro q; split <;> exact ⟨rfl, rfl⟩
    · exact h
  | waitIdle =>
    simp only [act] at ha
    split at ha <;> cases ha
    simpa [retains, releases, Even] using h
  | start n =>
    simp only [act] at ha
    split at ha <;> cases ha
    simp only [Even, retains, releases, List.append_nil, executed, List.map_append, List.sum_append] at h ⊢
    have : ((List.replicate (n - p.threads.length) newWorker).map (busy t)).sum = 0 := by
      rw [List.map_replicate]
      have : busy t newWorker = 0 := by simp [busy, newWorker]
      rw [this]
      simp
    omega
  | stop =>
    simp only [act] at ha
    split at ha <;> cases ha
    simpa [retains, releases, Even] using h
  | stopCancel =>
    simp only [act] at ha
    split at ha
    · cases ha
      simp only [Even, retains, releases, List.append_nil] at h ⊢
      rw [executed_modify t _ _ _ (cancel_busy t)]
      exact h
    · cases ha
  | stopSignal =>
    simp only [act] at ha
    split at ha
    · cases ha
      simp only [Even, retains, releases, List.append_nil] at h ⊢
      rw [executed_map t _ _ (wake_busy t)]
      exact h
    · cases ha
  | stopEnd =>
    simp only [act] at ha
    split at ha
    · split at ha
      · cases ha
        simpa [retains, releases, Even] using h
      · cases ha
    · cases ha
  | begin i =>
    simp only [act, Option.bind_eq_some_iff] at ha
    obtain ⟨w, hw, ha⟩ := ha
    split at ha
    · rename_i hpc
      cases ha
      simp only [retains, releases, List.append_nil]
      have := even_set (r2 := []) (w' := { w with pc := .enter, state := .running })
        (q := setWorker p i { w with pc := .enter, state := .running }) h hw rfl (by simp [busy, hpc, setWorker])
      simpa using this
    · cases ha
  | acquire i =>
    simp only [act, Option.bind_eq_some_iff] at ha
    obtain ⟨w, hw, ha⟩ := ha
    simp only [retains, releases, hw, Option.map_some, Option.getD_some, List.append_nil]
    simp only [acquire] at ha
    split at ha
    · cases ha
    · split at ha
      · rename_i hpc
        cases ha
        exact even_set (w' := { w with pc := .top }) h hw rfl (by simp [busy, hpc, completes, setWorker])
      · rename_i hpc
        cases ha
        exact even_set (w' := { w with pc := .top, cooldown := false }) h hw rfl (by simp [busy, hpc, completes, setWorker])
      · rename_i hpc
        split at ha
        · cases ha
          exact even_set (w' := { w with pc := .top }) h hw rfl (by simp [busy, hpc, completes, setWorker])
        · cases ha
          exact even_set (w' := { w with pc := .top, idle := false }) h hw rfl (by simp [busy, hpc, completes, setWorker])
      · rename_i u hpc
        split at ha
        · cases ha
        · rename_i qs hc
          cases ha
          refine even_set (w' := { w with pc := .top, cooldown := p.realtime }) h hw rfl ?_
          simp only [setWorker, completeTask_inQueues hc, completes, hpc, busy]
          by_cases e : u = t
          · subst e; simp
          · simp [e]
      · cases ha
  | check i =>
    simp only [act, Option.bind_eq_some_iff, Option.map_eq_some_iff] at ha
    obtain ⟨w, hw, q, ha, hq⟩ := ha
    cases hq
    simp only [retains, releases, List.append_nil]
    simp only [check] at ha
    split at ha
    · rename_i hpc
      split at ha
      · cases ha
        have := even_set (r2 := []) (w' := { w with pc := .leaving, idle := false })
          (q := setWorker { p with lock := none, idleThreads := if w.idle then p.idleThreads - 1 else p.idleThreads } i
            { w with pc := .leaving, idle := false }) h hw rfl (by simp [busy, hpc, setWorker])
        simpa using this
      · cases ha
        have := even_set (r2 := []) (w' := { w with pc := .next }) (q := setWorker p i { w with pc := .next }) h hw rfl
          (by simp [busy, hpc, setWorker])
        simpa using this
    · cases ha
  | next i =>
    simp only [act, Option.bind_eq_some_iff, Option.map_eq_some_iff] at ha
    obtain ⟨w, hw, q, ha, hq⟩ := ha
    cases hq
    have hg := getNextTask_inQueues t p.queues
    simp only [retains, releases, List.append_nil]
    simp only [next] at ha
    split at ha
    · rename_i hpc
      have key : ∀ (w' : Worker) (q : Pool), q.workers = p.workers.set i w' → q.queues = (getNextTask p.queues).1 →
          busy t w' = ((getNextTask p.queues).2.toList).count t → Even t q ret rel := by
        intro w' q h1 h2 h3
        have := even_set (r2 := []) (w' := w') (q := q) h hw h1 (by
          have hb : busy t w = 0 := by simp [busy, hpc]
          rw [h2, h3, hb]; simp only [List.count_nil]; omega)
        simpa using this
      split at ha
      · rename_i u hu
        cases ha
        refine key { w with pc := .running u, idle := false, standby := false } _ rfl rfl ?_
        rw [hu]
        by_cases e : u = t
        · subst e; simp [busy]
        · simp [busy, e]
      · rename_i hu
        have hz : ((getNextTask p.queues).2.toList).count t = 0 := by rw [hu]; rfl
        split at ha
        · simp only [Option.some.injEq] at ha
          have : ∀ (w' : Worker) (s : Bool), busy t { w' with pc := if s then Pc.napping else .waiting false } = 0 := by
            intro w' s; cases s <;> simp [busy]
          rw [← ha]
          simp only [idleRealTime]
          split
          · exact key _ _ rfl rfl (by rw [hz]; exact this _ _)
          · split
            · exact key _ _ rfl rfl (by rw [hz]; exact this _ _)
            · exact key _ _ rfl rfl (by rw [hz]; exact this _ _)
        · cases ha
          exact key { w with pc := .waiting false, idle := true } _ rfl rfl (by rw [hz]; simp [busy])
    · cases ha
  | finish i =>
    simp only [act, Option.bind_eq_some_iff, Option.map_eq_some_iff] at ha
    obtain ⟨w, hw, q, ha, hq⟩ := ha
    cases hq
    simp only [retains, releases, List.append_nil]
    simp only [finish] at ha
    split at ha
    · rename_i u hpc
      cases ha
      have := even_set (r2 := []) (w' := { w with pc := .done u })
        (q := setWorker { p with log := p.log ++ [.finished u] } i { w with pc := .done u }) h hw rfl (by simp [busy, hpc, setWorker])
      simpa using this
    · cases ha
  | spurious i =>
    simp only [act, Option.bind_eq_some_iff] at ha
    obtain ⟨w, hw, ha⟩ := ha
    split at ha
    · cases ha
      simp only [retains, releases, List.append_nil]
      have := even_set (r2 := []) (w' := wake w) (q := setWorker p i (wake w)) h hw rfl (by simp [wake_busy, setWorker])
      simpa using this
    · cases ha
  | exit i =>
    simp only [act, Option.bind_eq_some_iff] at ha
    obtain ⟨w, hw, ha⟩ := ha
    simp only [retains, releases, List.append_nil]
    simp only [exit] at ha
    split at ha
    · rename_i hpc
      split at ha
      · cases ha
      · cases ha
        have := even_set (r2 := []) (w' := { w with pc := .gone, state := .finished })
          (q := setWorker { p with stopCounter := p.stopCounter - 1 } i { w with pc := .gone, state := .finished }) h hw rfl
          (by simp [busy, hpc, setWorker])
        simpa using this
    · cases ha

theorem refs_even {rt : Bool} {p : Pool} {ret rel : List Task} (h : Refs rt p ret rel) (t : Task) : Even t p ret rel := by
  induction h with
  | init => simp [Even, init, inQueues, executed]
  | step _ ha ih => exact even_step ih ha

theorem refs_reach {rt : Bool} {p : Pool} {ret rel : List Task} (h : Refs rt p ret rel) : Reach rt p := by
  induction h with
  | init => exact .init
  | step _ ha ih => exact ih.step ha

/-- A step adds to the log, and logs the tasks it retains. -/
theorem act_log {p p' : Pool} {a : Action} (ha : act p a = some (.ok p')) : ∃ x, p'.log = p.log ++ x ∧ (retains p a).Sublist (added x) := by
  have same : retains p a = [] → p'.log = p.log → ∃ x, p'.log = p.log ++ x ∧ (retains p a).Sublist (added x) := by
    intro h1 h2
    exact ⟨[], by rw [h2, List.append_nil], by rw [h1]; exact List.nil_sublist _⟩
  cases a with
  | addTask =>
    simp only [act] at ha
    split at ha <;> cases ha
    obtain ⟨-, -, -, h4, h5⟩ := openQueue_inQueues p
    refine ⟨[.added ⟨p.nextId, .task, lastGroup (openQueue p).queues, lastGroup (openQueue p).queues⟩], ?_, List.Sublist.refl _⟩
    rw [← h4, ← h5]
    simp only [addTask, willSignal]
    split <;> rfl
  | addCompletion =>
    simp only [act] at ha
    split at ha <;> cases ha
    simp only [addCompletion, retains]
    split
    · exact ⟨_, rfl, List.nil_sublist _⟩
    · refine ⟨[.added ⟨p.nextId, .completion, lastGroup p.queues, 0⟩], ?_, List.Sublist.refl _⟩
      simp only [willSignal]
      split <;> rfl
  | signal i =>
    simp only [act, Option.bind_eq_some_iff] at ha
    obtain ⟨w, hw, ha⟩ := ha
    split at ha <;> cases ha
    exact same rfl rfl
  | signalNobody => simp only [act] at ha; split at ha <;> cases ha; exact same rfl rfl
  | removeAll => simp only [act] at ha; split at ha <;> cases ha; exact ⟨_, rfl, List.nil_sublist _⟩
  | waitFor g =>
    simp only [act] at ha
    split at ha <;> cases ha
    simp only [waitFor]
    split
    · exact ⟨[], by simp, List.nil_sublist _⟩
    · exact ⟨_, rfl, List.nil_sublist _⟩
  | waitIdle => simp only [act] at ha; split at ha <;> cases ha; exact ⟨_, rfl, List.nil_sublist _⟩
  | start n => simp only [act] at ha; split at ha <;> cases ha; exact same rfl rfl
  | stop => simp only [act] at ha; split at ha <;> cases ha; exact same rfl rfl
  | stopCancel => simp only [act] at ha; split at ha <;> cases ha; exact same rfl rfl
  | stopSignal => simp only [act] at ha; split at ha <;> cases ha; exact same rfl rfl
  | stopEnd =>
    simp only [act] at ha
    split at ha
    · split at ha <;> cases ha; exact same rfl rfl
    · cases ha
  | begin i =>
    simp only [act, Option.bind_eq_some_iff] at ha
    obtain ⟨w, hw, ha⟩ := ha
    split at ha <;> cases ha
    exact same rfl rfl
  | acquire i =>
    simp only [act, Option.bind_eq_some_iff] at ha
    obtain ⟨w, hw, ha⟩ := ha
    simp only [acquire] at ha
    repeat' split at ha
    all_goals first | (cases ha; done) | (cases ha; exact same rfl rfl)
  | check i =>
    simp only [act, Option.bind_eq_some_iff, Option.map_eq_some_iff] at ha
    obtain ⟨w, hw, q, ha, hq⟩ := ha
    cases hq
    simp only [check] at ha
    repeat' split at ha
    all_goals first | (cases ha; done) | (cases ha; exact same rfl rfl)
  | next i =>
    simp only [act, Option.bind_eq_some_iff, Option.map_eq_some_iff] at ha
    obtain ⟨w, hw, q, ha, hq⟩ := ha
    cases hq
    simp only [next] at ha
    split at ha
    · split at ha
      · cases ha; exact ⟨_, rfl, List.nil_sublist _⟩
      · split at ha
        · simp only [Option.some.injEq] at ha
          rw [← ha] at same ⊢
          refine same rfl ?_
          simp only [idleRealTime]
          repeat' split
          all_goals rfl
        · cases ha; exact same rfl rfl
    · cases ha
  | finish i =>
    simp only [act, Option.bind_eq_some_iff, Option.map_eq_some_iff] at ha
    obtain ⟨w, hw, q, ha, hq⟩ := ha
    cases hq
    simp only [finish] at ha
    split at ha <;> cases ha
    exact ⟨_, rfl, List.nil_sublist _⟩
  | spurious i =>
    simp only [act, Option.bind_eq_some_iff] at ha
    obtain ⟨w, hw, ha⟩ := ha
    split at ha <;> cases ha
    exact same rfl rfl
  | exit i =>
    simp only [act, Option.bind_eq_some_iff] at ha
    obtain ⟨w, hw, ha⟩ := ha
    simp only [exit] at ha
    repeat' split at ha
    all_goals first | (cases ha; done) | (cases ha; exact same rfl rfl)

theorem refs_added {rt : Bool} {p : Pool} {ret rel : List Task} (h : Refs rt p ret rel) : ret.Sublist (added p.log) := by
  induction h with
  | init => exact List.nil_sublist _
  | step _ ha ih =>
    obtain ⟨x, hx, hs⟩ := act_log ha
    rw [hx, added_append]
    exact ih.append hs

theorem refs_nodup {rt : Bool} {p : Pool} {ret rel : List Task} (h : Refs rt p ret rel) : ret.Nodup :=
  (added_nodup (reach_inv (refs_reach h)).q.hist).sublist (refs_added h)

/-- **C96, once.** What a thread pool releases it has retained, and it releases it once. -/
theorem C96_once {rt : Bool} {p : Pool} {ret rel : List Task} (h : Refs rt p ret rel) : ret.Nodup ∧ rel.Nodup ∧ ∀ t ∈ rel, t ∈ ret := by
  have hn := refs_nodup h
  refine ⟨hn, List.nodup_iff_count_le_one.2 fun t => ?_, fun t ht => ?_⟩
  · have h1 := refs_even h t
    have h2 := List.nodup_iff_count_le_one.1 hn t
    simp only [Even] at h1
    omega
  · have h1 := refs_even h t
    have h2 := List.count_pos_iff.2 ht
    simp only [Even] at h1
    exact List.count_pos_iff.1 (by omega)

theorem executed_of_mem {t : Task} {ws : List Worker} {w : Worker} (hw : w ∈ ws) (hb : busy t w = 1) : 1 ≤ executed t ws := by
  induction ws with
  | nil => cases hw
  | cons v ws ih =>
    simp only [executed, List.map_cons, List.sum_cons] at ih ⊢
    rcases List.mem_cons.1 hw with rfl | hw
    · omega
    · have := ih hw; omega

/-- **C96, alive.** The objects of a task in the queues or of a task that is executed have not been released. -/
theorem C96_alive {rt : Bool} {p : Pool} {ret rel : List Task} (h : Refs rt p ret rel) {t : Task} :
    ((∃ q ∈ p.queues, t ∈ q.tasks ∨ t ∈ q.completions) ∨ ∃ w ∈ p.workers, w.pc = .running t ∨ w.pc = .done t) → t ∈ ret ∧ t ∉ rel := by
  intro hc
  have h1 := refs_even h t
  have h2 := List.nodup_iff_count_le_one.1 (refs_nodup h) t
  simp only [Even] at h1
  have h3 : 1 ≤ (inQueues p.queues).count t + executed t p.workers := by
    rcases hc with ⟨q, hq, ht⟩ | ⟨w, hw, ht⟩
    · have : t ∈ inQueues p.queues := List.mem_flatMap.2 ⟨q, hq, List.mem_append.2 ht⟩
      have := List.count_pos_iff.2 this
      omega
    · have := executed_of_mem (t := t) hw (by simp [busy, ht])
      omega
  exact ⟨List.count_pos_iff.1 (by omega), fun hm => by have := List.count_pos_iff.2 hm; omega⟩

theorem mem_started_finished {rt : Bool} {p : Pool} {ret rel : List Task} (h : Refs rt p ret rel) {t : Task} (ht : t ∈ rel)
    (hs : t ∈ started p.log) : t ∈ finished p.log := by
  rcases (reach_inv (refs_reach h)).q.run t hs with hf | hj
  · exact hf
  · exfalso
    obtain ⟨w, hw, hl⟩ := List.mem_filterMap.1 hj
    refine (C96_alive h (.inr ⟨w, hw, ?_⟩)).2 ht
    simp only [load] at hl
    split at hl <;> simp_all

/-- **C96, when.** The objects of a task are released when the task has returned, or when it was removed before it started. -/
theorem C96_when {rt : Bool} {p : Pool} {ret rel : List Task} (h : Refs rt p ret rel) {t : Task} (ht : t ∈ rel) :
    t ∈ finished p.log ∨ (Event.removed ∈ p.log ∧ t ∉ started p.log) := by
  have key : t ∈ finished p.log ∨ Event.removed ∈ p.log := by
    induction h with
    | init => cases ht
    | @step p a p' ret rel hp ha ih =>
      have h' := hp.step ha
      obtain ⟨x, hx, -⟩ := act_log ha
      rcases List.mem_append.1 ht with hr | hr
      · rw [hx, finished_append]
        rcases ih hr with h1 | h1
        · exact .inl (List.mem_append_left _ h1)
        · exact .inr (List.mem_append_left _ h1)
      · cases a
        case removeAll =>
          simp only [act] at ha
          split at ha <;> cases ha
          exact .inr (by simp)
        case acquire i =>
          left
          refine mem_started_finished h' ht ?_
          simp only [act, Option.bind_eq_some_iff] at ha
          obtain ⟨w, hw, ha⟩ := ha
          simp only [releases, hw, Option.map_some, Option.getD_some, completes] at hr
          split at hr
          · rename_i u hpc
            rw [List.mem_singleton] at hr
            subst hr
            have hst := ((reach_inv (refs_reach hp)).q.held false t
              (List.mem_filterMap.2 ⟨w, List.mem_of_getElem? hw, by simp [load, hpc]⟩)).1
            rw [hx, started_append]
            exact List.mem_append_left _ hst
          · cases hr
        all_goals simp [releases] at hr
  rcases key with h1 | h1
  · exact .inl h1
  · by_cases hs : t ∈ started p.log
    · exact .inl (mem_started_finished h ht hs)
    · exact .inr ⟨h1, hs⟩

/-- **C96, all.** When no task is left, everything retained has been released. -/
theorem C96_all {rt : Bool} {p : Pool} {ret rel : List Task} (h : Refs rt p ret rel) (hq : ∀ q ∈ p.queues, q.tasks = [] ∧ q.completions = [])
    (hw : ∀ w ∈ p.workers, ∀ t, w.pc ≠ .running t ∧ w.pc ≠ .done t) : rel.Perm ret := by
  refine List.perm_iff_count.2 fun t => ?_
  have h1 := refs_even h t
  have h2 : inQueues p.queues = [] := List.flatMap_eq_nil_iff.2 fun q hm => by rw [(hq q hm).1, (hq q hm).2]; rfl
  have h3 : executed t p.workers = 0 := by
    clear h h1 hq h2
    generalize p.workers = ws at hw ⊢
    induction ws with
    | nil => rfl
    | cons w ws ih =>
      have h1 := ih fun w hm => hw w (List.mem_cons_of_mem _ hm)
      have h2 := hw w List.mem_cons_self t
      simp only [executed, List.map_cons, List.sum_cons] at h1 ⊢
      simp [busy, h2, h1]
  simp only [Even, h2, h3, List.count_nil] at h1
  omega

/-- **C96, finalizer.** DKThreadPoolStop and DKThreadPoolRemoveAllTasks, as called by the finalizer of a pool nobody else uses, release what was retained. -/
theorem C96_finalizer {rt : Bool} {p p1 p2 : Pool} {ret rel : List Task} (h : Refs rt p ret rel) (h1 : act p .stopEnd = some (.ok p1))
    (h2 : act p1 .removeAll = some (.ok p2)) : ∃ rel', Refs rt p2 ret rel' ∧ rel'.Perm ret := by
  have hr1 := h.step h1
  have hr2 := hr1.step h2
  simp only [retains, List.append_nil] at hr2
  refine ⟨_, hr2, C96_all hr2 ?_ ?_⟩
  · simp only [act] at h2
    split at h2 <;> cases h2
    simp
  · have hg := (C69_partial (refs_reach h) h1).2.1
    simp only [act] at h2
    split at h2 <;> cases h2
    intro w hw t
    rw [hg w hw]
    exact ⟨by simp, by simp⟩

/-- Runs the actions and keeps track of the references. -/
def runRefs : Pool × List Task × List Task → List Action → Option (Pool × List Task × List Task)
  | s, [] => some s
  | (p, ret, rel), a :: as => match act p a with
    | some (.ok p') => runRefs (p', ret ++ retains p a, rel ++ releases p a) as
    | _ => none

theorem runRefs_refs {rt : Bool} : ∀ {as : List Action} {p ret rel p' ret' rel'}, Refs rt p ret rel →
    runRefs (p, ret, rel) as = some (p', ret', rel') → Refs rt p' ret' rel' := by
  intro as
  induction as with
  | nil => intro p ret rel p' ret' rel' h he; cases he; exact h
  | cons a as ih =>
    intro p ret rel p' ret' rel' h he
    simp only [runRefs] at he
    split at he
    · rename_i q hq
      exact ih (h.step hq) he
    · cases he

/-! Two tasks and a completion; one task is executed, the pool is stopped, and the others are removed. -/

example : ∃ p ret rel, Refs false p ret rel ∧ ret.length = 3 ∧ rel = [] ∧ ∃ w ∈ p.workers, w.pc = .running ⟨0, .task, 1, 1⟩ := by
  have h : ∃ s, runRefs (init false, [], []) [.addTask, .addTask, .addCompletion, .start 1, .begin 0, .acquire 0, .check 0, .next 0] = some s ∧
      s.2.1.length = 3 ∧ s.2.2 = [] ∧ ∃ w ∈ s.1.workers, w.pc = .running ⟨0, .task, 1, 1⟩ := ⟨_, rfl, by decide +kernel⟩
  obtain ⟨⟨p, ret, rel⟩, h1, h2⟩ := h
  exact ⟨p, ret, rel, runRefs_refs .init h1, h2⟩

example : ∃ p p1 p2 ret rel, Refs false p ret rel ∧ act p .stopEnd = some (.ok p1) ∧ act p1 .removeAll = some (.ok p2) ∧ ret.length = 3 ∧
    rel = [⟨0, .task, 1, 1⟩] := by
  have h : ∃ s, runRefs (init false, [], []) [.addTask, .addTask, .addCompletion, .start 1, .begin 0, .acquire 0, .check 0, .next 0,
      .stop, .stopCancel, .stopSignal, .finish 0, .acquire 0, .check 0, .exit 0] = some s ∧
      (∃ p1, act s.1 .stopEnd = some (.ok p1) ∧ ∃ p2, act p1 .removeAll = some (.ok p2)) ∧ s.2.1.length = 3 ∧ s.2.2 = [⟨0, .task, 1, 1⟩] :=
    ⟨_, rfl, ⟨_, rfl, _, rfl⟩, by decide +kernel⟩
  obtain ⟨⟨p, ret, rel⟩, h1, ⟨p1, h2, p2, h3⟩, h4⟩ := h
  exact ⟨p, p1, p2, ret, rel, runRefs_refs .init h1, h2, h3, h4⟩

end Pool
end Duck
