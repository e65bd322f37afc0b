import Verif.Lemmas.PoolWorkers

namespace Duck
namespace Pool

attribute [local simp] setWorker startTask rest

def QI (p : Pool) : Prop := QInv p.queues p.nextTaskGroup p.nextId p.log (jobs p.workers)
def WI (p : Pool) : Prop := WInv p.realtime p.idleThreads p.stopCounter p.threads.length p.stopper p.workers
def LI (p : Pool) : Prop := LInv p.lock p.workers

/-- When all workers sleep and no signal is pending there is nothing to do. -/
def SI (p : Pool) : Prop :=
  p.realtime = false → p.stopper = none → p.signals = 0 → p.threads ≠ [] → (∀ w ∈ p.workers, w.pc = .gone ∨ w.pc = .waiting false) → p.queues = []

structure Inv (p : Pool) : Prop where
  q : QI p
  w : WI p
  l : LI p
  s : SI p

theorem Inv.init (rt : Bool) : Inv (init rt) := by
  refine ⟨QInv.init, ?_, ?_, ?_⟩
  · constructor <;> simp [Pool.init]
  · intro i; simp [Pool.init]
  · intro _ _ _ h; simp [Pool.init] at h

theorem jobs_set {ws : List Worker} {i : Nat} {w w' : Worker} (h : ws[i]? = some w) :
    ∃ r, (jobs ws).Perm ((load w).toList ++ r) ∧ (jobs (ws.set i w')).Perm ((load w').toList ++ r) := by
  obtain ⟨r, h1, h2⟩ := set_perm (w' := w') h
  refine ⟨jobs r, ?_, ?_⟩
  · have := h1.filterMap load
    rw [List.filterMap_cons] at this
    unfold jobs
    cases hl : load w <;> simpa [hl] using this
  · have := h2.filterMap load
    rw [List.filterMap_cons] at this
    unfold jobs
    cases hl : load w' <;> simpa [hl] using this

theorem jobs_set_same {ws : List Worker} {i : Nat} {w w' : Worker} (h : ws[i]? = some w) (hl : load w' = load w) :
    (jobs ws).Perm (jobs (ws.set i w')) := by
  obtain ⟨r, h1, h2⟩ := jobs_set (w' := w') h
  rw [hl] at h2
  exact h1.trans h2.symm

theorem jobs_map (ws : List Worker) (f : Worker → Worker) (hf : ∀ w, load (f w) = load w) : jobs (ws.map f) = jobs ws := by
  unfold jobs
  rw [List.filterMap_map]
  exact congrArg (fun g => List.filterMap g ws) (funext hf)

theorem jobs_append (a b : List Worker) : jobs (a ++ b) = jobs a ++ jobs b := List.filterMap_append

/-! Queues -/

theorem openQueue_spec (p : Pool) (h : QI p) : QI (openQueue p) ∧
    (∃ a q, (openQueue p).queues = a ++ [q] ∧ q.closed = false) ∧ (openQueue p).workers = p.workers ∧ (openQueue p).realtime = p.realtime ∧
    (openQueue p).idleThreads = p.idleThreads ∧ (openQueue p).stopCounter = p.stopCounter ∧ (openQueue p).threads = p.threads ∧
    (openQueue p).stopper = p.stopper ∧ (openQueue p).lock = p.lock := by
  unfold openQueue
  split
  · exact ⟨h.newQueue, ⟨p.queues, _, rfl, rfl⟩, rfl, rfl, rfl, rfl, rfl, rfl, rfl⟩
  · rename_i q hq
    split
    · exact ⟨h.newQueue, ⟨p.queues, _, rfl, rfl⟩, rfl, rfl, rfl, rfl, rfl, rfl, rfl⟩
    · rename_i hc
      obtain ⟨a, ha⟩ := List.getLast?_eq_some_iff.1 hq
      exact ⟨h, ⟨a, q, ha, by simpa using hc⟩, rfl, rfl, rfl, rfl, rfl, rfl, rfl⟩

theorem onLast_snoc (f : Queue → Queue) (a : List Queue) (q : Queue) : onLast f (a ++ [q]) = a ++ [f q] := by
  simp [onLast]

theorem lastGroup_snoc (a : List Queue) (q : Queue) : lastGroup (a ++ [q]) = q.taskGroup := by
  simp [lastGroup]

theorem willSignal_q (p : Pool) : QI (willSignal p) = QI p := by unfold willSignal; split <;> rfl
theorem willSignal_w (p : Pool) : WI (willSignal p) = WI p := by unfold willSignal; split <;> rfl
theorem willSignal_l (p : Pool) : LI (willSignal p) = LI p := by unfold willSignal; split <;> rfl
theorem willSignal_s (p : Pool) : SI (willSignal p) := by
  unfold willSignal
  split
  · rename_i h
    intro h'
    rw [h] at h'
    cases h'
  · intro _ _ h
    simp at h

theorem scheduleTask_q (p : Pool) (h : QI p) (a : List Queue) (q : Queue) (hq : p.queues = a ++ [q]) (hc : q.closed = false) :
    QI (scheduleTask p) := by
  unfold QI scheduleTask
  rw [QI, hq] at h
  simp only [hq, onLast_snoc, lastGroup_snoc]
  refine h.put (k := .task) _ rfl (fun _ => hc) rfl ?_ rfl rfl nofun (fun h => h)
  intro k' hk
  cases k' <;> simp_all [Queue.items]

theorem scheduleCompletion_q (p : Pool) (h : QI p) (a : List Queue) (q : Queue) (hq : p.queues = a ++ [q]) :
    QI (scheduleCompletion p) := by
  unfold QI scheduleCompletion
  rw [QI, hq] at h
  simp only [hq, onLast_snoc, lastGroup_snoc]
  refine h.put (k := .completion) _ rfl nofun rfl ?_ rfl rfl (fun _ => rfl) (fun _ => rfl)
  intro k' hk
  cases k' <;> simp_all [Queue.items]

theorem addTask_inv (p : Pool) (h : Inv p) : Inv (addTask p) := by
  obtain ⟨h1, ⟨a, q, h2, h3⟩, e1, e2, e3, e4, e5, e6, e7⟩ := openQueue_spec p h.q
  unfold addTask
  refine ⟨?_, ?_, ?_, willSignal_s _⟩
  · rw [willSignal_q]; exact scheduleTask_q _ h1 a q h2 h3
  · rw [willSignal_w]
    show WInv _ _ _ _ _ _
    simp only [scheduleTask, e1, e2, e3, e4, e5, e6]
    exact h.w
  · rw [willSignal_l]
    show LInv _ _
    simp only [scheduleTask, e1, e7]
    exact h.l

theorem addCompletion_inv (p : Pool) (h : Inv p) : Inv (addCompletion p) := by
  unfold addCompletion
  split
  · rename_i he
    have he' : p.queues = [] := by simpa using he
    refine ⟨?_, h.w, h.l, h.s⟩
    have := h.q
    rw [QI, he'] at this
    unfold QI
    simp only [he']
    exact this.atOnce _ rfl
  · rename_i he
    have he' : p.queues ≠ [] := by simpa using he
    obtain ⟨a, q, hq⟩ : ∃ a q, p.queues = a ++ [q] := by
      rcases List.eq_nil_or_concat p.queues with h | ⟨a, q, h⟩
      · exact absurd h he'
      · exact ⟨a, q, by simpa using h⟩
    refine ⟨?_, ?_, ?_, willSignal_s _⟩
    · rw [willSignal_q]; exact scheduleCompletion_q p h.q a q hq
    · rw [willSignal_w]; exact h.w
    · rw [willSignal_l]; exact h.l

theorem waitFor_inv (p : Pool) (h : Inv p) (g : Nat) : Inv (waitFor p g) := by
  unfold waitFor
  split
  · refine ⟨h.q.close, h.w, h.l, ?_⟩
    intro h1 h2 h3 h4 h5
    show List.map _ p.queues = []
    rw [h.s h1 h2 h3 h4 h5]
    rfl
  · rename_i hn
    refine ⟨h.q.wait ?_, h.w, h.l, h.s⟩
    intro hm
    obtain ⟨q, hq, hg⟩ := List.mem_map.1 hm
    exact hn (List.any_eq_true.2 ⟨q, hq, by simpa using hg⟩)

/-! Workers -/

/-- A worker that is awake. -/
def awake (w : Worker) : Prop := w.pc ≠ .gone ∧ w.pc ≠ .waiting false

theorem SI.awake {p : Pool} {w : Worker} (hm : w ∈ p.workers) (hw : awake w) : SI p := by
  intro _ _ _ _ hall
  rcases hall w hm with h | h
  · exact absurd h hw.1
  · exact absurd h hw.2

/-- A step of a worker that ends awake. -/
theorem SI.set {p : Pool} {i : Nat} {w w' : Worker} (hw : p.workers[i]? = some w) (ha : Pool.awake w') (q : Pool)
    (hq : q.workers = p.workers.set i w') : SI q := by
  refine SI.awake (w := w') ?_ ha
  rw [hq]
  exact List.mem_set (List.getElem?_eq_some_iff.1 hw).1 w'

theorem jobs_some {p : Pool} {i : Nat} {w : Worker} {j} (hw : p.workers[i]? = some w) (hl : load w = some j) (w' : Worker) :
    ∃ r, (jobs p.workers).Perm (j :: r) ∧ (jobs (p.workers.set i w')).Perm ((load w').toList ++ r) := by
  obtain ⟨r, h1, h2⟩ := jobs_set (w' := w') hw
  rw [hl] at h1
  exact ⟨r, h1, h2⟩

theorem lock_other {o : Option Nat} {i : Nat} (h : ¬ o.isSome = true) : ∀ j, j ≠ i → (o = some j ↔ some i = some j) := by
  intro j hj
  cases o with
  | none => simp; omega
  | some x => simp at h

theorem acquire_inv (p : Pool) (h : Inv p) (i : Nat) (w : Worker) (hw : p.workers[i]? = some w) (p' : Pool)
    (ha : acquire p i w = some (.ok p')) : Inv p' := by
  unfold acquire at ha
  split at ha
  · cases ha
  · rename_i hl
    have hok := h.w.ok w (mem_of_get hw)
    have hal := h.w.alive
    split at ha
    · rename_i hpc
      cases ha
      rw [okIdle, hpc] at hok
      refine ⟨h.q.perm (jobs_set_same hw (by simp [load, hpc])), h.w.set hw ?_ ?_ (by simp [notGone, hpc]) ?_, h.l.set hw (lock_other hl) (by simp [HasLock]),
        SI.set hw (by simp [awake]) _ rfl⟩
      · exact fun _ => hok
      · simp
      · exact fun hs => ⟨(hal hs w (mem_of_get hw)).1, by simp⟩
    · rename_i hpc
      cases ha
      rw [okIdle, hpc] at hok
      refine ⟨h.q.perm (jobs_set_same hw (by simp [load, hpc])), h.w.set hw ?_ ?_ (by simp [notGone, hpc]) ?_, h.l.set hw (lock_other hl) (by simp [HasLock]),
        SI.set hw (by simp [awake]) _ rfl⟩
      · intro hr; exact absurd (hr.symm.trans hok.2) (by decide)
      · simp
      · exact fun hs => ⟨(hal hs w (mem_of_get hw)).1, by simp⟩
    · rename_i hpc
      rw [okIdle, hpc] at hok
      split at ha
      · rename_i hrt
        cases ha
        refine ⟨h.q.perm (jobs_set_same hw (by simp [load, hpc])), h.w.set hw ?_ ?_ (by simp [notGone, hpc]) ?_,
          h.l.set hw (lock_other hl) (by simp [HasLock]), SI.set hw (by simp [awake]) _ rfl⟩
        · intro hr; exact absurd (hr.symm.trans hrt) (by decide)
        · simp
        · exact fun hs => ⟨(hal hs w (mem_of_get hw)).1, by simp⟩
      · cases ha
        refine ⟨h.q.perm (jobs_set_same hw (by simp [load, hpc])), h.w.set hw ?_ ?_ (by simp [notGone, hpc]) ?_,
          h.l.set hw (lock_other hl) (by simp [HasLock]), SI.set hw (by simp [awake]) _ rfl⟩
        · exact fun _ => rfl
        · have hok' : w.idle = true := hok
          simp [hok']
        · exact fun hs => ⟨(hal hs w (mem_of_get hw)).1, by simp⟩
    · rename_i t hpc
      rw [okIdle, hpc] at hok
      split at ha
      · cases ha
      · rename_i qs hqs
        cases ha
        obtain ⟨r, h1, h2⟩ := jobs_some (j := (false, t)) hw (by simp [load, hpc]) { w with pc := .top, cooldown := p.realtime }
        refine ⟨((h.q.perm h1).complete hqs).perm h2.symm, h.w.set hw ?_ ?_ (by simp [notGone, hpc]) ?_,
          h.l.set hw (lock_other hl) (by simp [HasLock]), SI.set hw (by simp [awake]) _ rfl⟩
        · exact fun _ => hok
        · simp
        · exact fun hs => ⟨(hal hs w (mem_of_get hw)).1, by simp⟩
    · cases ha

theorem lock_mine {o : Option Nat} {i : Nat} (h : o = some i) : ∀ j, j ≠ i → (o = some j ↔ none = some j) := by
  intro j hj
  subst h
  simp
  omega

theorem check_inv (p : Pool) (h : Inv p) (i : Nat) (w : Worker) (hw : p.workers[i]? = some w) (p' : Pool)
    (ha : check p i w = some p') : Inv p' := by
  unfold check at ha
  split at ha
  · rename_i hpc
    have hok := h.w.ok w (mem_of_get hw)
    rw [okIdle, hpc] at hok
    have hlock : p.lock = some i := (h.l i).1 ⟨w, hw, .inl hpc⟩
    split at ha
    · rename_i hst
      cases ha
      refine ⟨h.q.perm (jobs_set_same hw (by simp [load, hpc])), h.w.set hw rfl ?_ (by simp [notGone, hpc]) ?_,
        h.l.set hw (lock_mine hlock) (by simp [HasLock]), SI.set hw (by simp [awake]) _ rfl⟩
      · cases w.idle <;> simp
      · exact fun hs => absurd hst (h.w.alive hs w (mem_of_get hw)).1
    · cases ha
      refine ⟨h.q.perm (jobs_set_same hw (by simp [load, hpc])), h.w.set hw hok ?_ (by simp [notGone, hpc]) ?_,
        h.l.set hw (fun j hj => Iff.rfl) (by simp [HasLock, hlock]), SI.set hw (by simp [awake]) _ rfl⟩
      · simp
      · exact fun hs => ⟨(h.w.alive hs w (mem_of_get hw)).1, by simp⟩
  · cases ha

theorem restRealTime_inv (p : Pool) (i : Nat) (w : Worker) (ho : ∃ w0 n0, p.workers[i]? = some w0 ∧ w0.pc = .next ∧ w.state = w0.state ∧
      WInv p.realtime n0 p.stopCounter p.threads.length p.stopper p.workers ∧ p.idleThreads = n0 - (if w0.idle then 1 else 0) + 1)
    (hq : QI p) (hl : LI p) (hi : w.idle = true) (hrt : p.realtime = true) : Inv (restRealTime p i w) := by
  obtain ⟨w0, n0, hw, hpc, hst, hwi, hid⟩ := ho
  have hlock : p.lock = some i := (hl i).1 ⟨w0, hw, .inr hpc⟩
  unfold restRealTime setWorker
  refine ⟨hq.perm (jobs_set_same hw ?_), hwi.set hw ?_ ?_ ?_ ?_ (by simp only; split <;> simp), hl.set hw (lock_mine hlock) ?_, ?_⟩
  · simp only [load, hpc]; split <;> first | rfl | (rename_i hx; split at hx <;> cases hx)
  · unfold okIdle
    simp only
    split <;> simp_all
    all_goals (split at * <;> simp_all)
  · simp only [hid, hi]; rfl
  · simp only [notGone, hpc]; split <;> simp
  · exact fun hs => ⟨hst ▸ (hwi.alive hs w0 (mem_of_get hw)).1, by simp only; split <;> simp⟩
  · simp only [HasLock]; split <;> simp
  · intro hf; exact absurd (hf.symm.trans hrt) (by decide)

theorem next_inv (p : Pool) (h : Inv p) (i : Nat) (w : Worker) (hw : p.workers[i]? = some w) (p' : Pool)
    (ha : next p i w = some p') : Inv p' := by
  unfold next at ha
  split at ha
  · rename_i hpc
    have hok := h.w.ok w (mem_of_get hw)
    rw [okIdle, hpc] at hok
    have hlock : p.lock = some i := (h.l i).1 ⟨w, hw, .inr hpc⟩
    have hst := fun hs => (h.w.alive hs w (mem_of_get hw)).1
    split at ha
    · rename_i t ht
      cases ha
      obtain ⟨a, q, b, k, q', h1, h2, h3, h4⟩ := getNext_some ht
      obtain ⟨r, j1, j2⟩ := jobs_set (w' := { w with pc := .running t, idle := false, standby := false }) hw
      have hj : (jobs p.workers).Perm r := by simpa [load, hpc] using j1
      refine ⟨?_, h.w.set hw rfl ?_ (by simp [notGone, hpc]) ?_, h.l.set hw (lock_mine hlock) (by simp [HasLock]), SI.set hw (by simp [awake]) _ rfl⟩
      · show QInv (getNextTask p.queues).1 _ _ _ _
        rw [h4]
        exact (((h.q.perm hj).drop h1 h2).pop h3).perm j2.symm
      · cases hi : w.idle <;> simp [hi]
      · exact fun hs => ⟨hst hs, by simp⟩
    · rename_i hn
      obtain ⟨h1, h2, h3⟩ := getNext_none hn
      have hq : QI { p with queues := (getNextTask p.queues).1 } := h.q.drop h1 h2
      split at ha
      · rename_i hrt
        cases ha
        unfold idleRealTime
        split
        · rename_i hi
          refine restRealTime_inv _ _ _ ⟨w, p.idleThreads, hw, hpc, rfl, h.w, ?_⟩ hq h.l hi hrt
          rw [if_pos hi]; simp
        · rename_i hi
          split
          · refine restRealTime_inv _ _ _ ⟨w, p.idleThreads, hw, hpc, rfl, h.w, ?_⟩ hq h.l rfl hrt
            rw [if_neg hi]; simp
          · refine restRealTime_inv _ _ _ ⟨w, p.idleThreads, hw, hpc, rfl, h.w, ?_⟩ hq h.l rfl hrt
            rw [if_neg hi]; simp
      · rename_i hrt
        cases ha
        have hi : w.idle = false := hok (by simpa using hrt)
        refine ⟨hq.perm (jobs_set_same hw (by simp [load, hpc])), h.w.set hw rfl ?_ (by simp [notGone, hpc]) ?_,
          h.l.set hw (lock_mine hlock) (by simp [HasLock]), ?_⟩
        · simp [hi]
        · exact fun hs => ⟨hst hs, by simp⟩
        · intro _ hs _ _ hall
          have hjobs : jobs (p.workers.set i { w with pc := .waiting false, idle := true }) = [] := by
            refine List.filterMap_eq_nil_iff.2 fun x hx => ?_
            rcases hall x hx with hx | hx <;> simp [load, hx]
          have hq' := hq.perm (jobs_set_same (w' := { w with pc := .waiting false, idle := true }) hw (by simp [load, hpc]))
          rw [hjobs] at hq'
          refine List.eq_nil_iff_forall_not_mem.2 fun x hx => ?_
          have hx' := h3 x hx
          have hp := hq'.pend x hx
          rw [hx'.1] at hp
          exact hx'.2 (by simpa using hp)
  · cases ha

theorem finish_inv (p : Pool) (h : Inv p) (i : Nat) (w : Worker) (hw : p.workers[i]? = some w) (p' : Pool)
    (ha : finish p i w = some p') : Inv p' := by
  unfold finish at ha
  split at ha
  · rename_i t hpc
    cases ha
    have hok := h.w.ok w (mem_of_get hw)
    rw [okIdle, hpc] at hok
    have hnl : p.lock ≠ some i := by
      intro hx
      obtain ⟨w0, h0, h1⟩ := (h.l i).2 hx
      rw [hw] at h0
      cases h0
      simp [HasLock, hpc] at h1
    obtain ⟨r, h1, h2⟩ := jobs_some (j := (true, t)) hw (by simp [load, hpc]) { w with pc := .done t }
    refine ⟨((h.q.perm h1).finish).perm h2.symm, h.w.set hw hok (by simp) (by simp [notGone, hpc]) ?_,
      h.l.set hw (fun _ _ => Iff.rfl) (by simp [HasLock, setWorker, hnl]), SI.set hw (by simp [awake]) _ rfl⟩
    exact fun hs => ⟨(h.w.alive hs w (mem_of_get hw)).1, by simp⟩
  · cases ha

theorem not_locked {p : Pool} (h : Inv p) {i : Nat} {w : Worker} (hw : p.workers[i]? = some w) (hn : ¬ HasLock w) : p.lock ≠ some i := by
  intro hx
  obtain ⟨w0, h0, h1⟩ := (h.l i).2 hx
  rw [hw] at h0
  cases h0
  exact hn h1

theorem exit_inv (p : Pool) (h : Inv p) (i : Nat) (w : Worker) (hw : p.workers[i]? = some w) (p' : Pool)
    (ha : exit p i w = some (.ok p')) : Inv p' := by
  unfold exit at ha
  split at ha
  · rename_i hpc
    split at ha
    · cases ha
    · cases ha
      have hnl := not_locked h hw (by simp [HasLock, hpc])
      refine ⟨h.q.perm (jobs_set_same hw (by simp [load, hpc])), (h.w.exit hw hpc).2,
        h.l.set hw (fun _ _ => Iff.rfl) (by simp [HasLock, hnl]), ?_⟩
      intro _ hs
      exact absurd hpc (h.w.alive hs w (mem_of_get hw)).2
  · cases ha

theorem wake_inv (p : Pool) (h : Inv p) (i : Nat) (w : Worker) (hw : p.workers[i]? = some w) (hpc : w.pc = .waiting false) (n : Nat) :
    Inv (setWorker { p with signals := n } i (wake w)) := by
  have hwk : wake w = { w with pc := .waiting true } := by simp [wake, hpc]
  have hnl := not_locked h hw (by simp [HasLock, hpc])
  rw [hwk]
  refine ⟨h.q.perm (jobs_set_same hw (by simp [load, hpc])), h.w.set hw ?_ (by simp) (by simp [notGone, hpc]) ?_,
    h.l.set hw (fun _ _ => Iff.rfl) (by simp [HasLock, hnl]), SI.set hw (by simp [awake]) _ rfl⟩
  · have := h.w.ok w (mem_of_get hw)
    rw [okIdle, hpc] at this
    exact this
  · exact fun hs => ⟨(h.w.alive hs w (mem_of_get hw)).1, by simp⟩

theorem step_inv (p p' : Pool) (a : Action) (h : Inv p) (ha : act p a = some (.ok p')) : Inv p' := by
  cases a with
  | addTask =>
    simp only [act] at ha
    split at ha <;> cases ha
    exact addTask_inv p h
  | addCompletion =>
    simp only [act] at ha
    split at ha <;> cases ha
    exact addCompletion_inv p h
  | signal i =>
    simp only [act] at ha
    obtain ⟨w, hw, ha⟩ := Option.bind_eq_some_iff.1 ha
    split at ha
    · rename_i hc
      cases ha
      exact wake_inv p h i w hw hc.2 _
    · cases ha
  | signalNobody =>
    simp only [act] at ha
    split at ha
    · rename_i hc
      cases ha
      refine ⟨h.q, h.w, h.l, ?_⟩
      intro h1 h2 _ h4 h5
      have hl := (h.w.live h2).1
      have : p.workers.countP notGone = 0 := by
        refine List.countP_eq_zero.2 fun x hx => ?_
        have := List.all_eq_true.1 hc.2 x hx
        rcases h5 x hx with h | h
        · simp [notGone, h]
        · simp [h] at this
      rw [this] at hl
      exact absurd (List.length_eq_zero_iff.1 hl.symm) h4
    · cases ha
  | removeAll =>
    simp only [act] at ha
    split at ha <;> cases ha
    exact ⟨h.q.remove, h.w, h.l, fun _ _ _ _ _ => rfl⟩
  | waitFor g =>
    simp only [act] at ha
    split at ha <;> cases ha
    exact waitFor_inv p h g
  | waitIdle =>
    simp only [act] at ha
    split at ha
    · cases ha
    · rename_i hc
      cases ha
      simp only [not_or] at hc
      refine ⟨h.q.idled ?_, h.w, h.l, h.s⟩
      have hw := h.w
      have hs : p.stopper = none := by simpa using hc.2.1
      rw [WI, hs] at hw
      intro t ht
      obtain ⟨w, hw1, hw2⟩ := List.mem_filterMap.1 ht
      rw [hw.idle hc.2.2 w hw1] at hw2
      cases hw2
  | start n =>
    simp only [act] at ha
    split at ha
    · cases ha
    · rename_i hc
      cases ha
      have hs : p.stopper = none := by simpa using hc
      have hj : jobs (List.replicate (n - p.threads.length) newWorker) = [] := by
        refine List.filterMap_eq_nil_iff.2 fun x hx => ?_
        rw [List.eq_of_mem_replicate hx]; rfl
      refine ⟨?_, ?_, h.l.append ?_, ?_⟩
      · show QInv _ _ _ _ (jobs (p.workers ++ _))
        rw [jobs_append, hj, List.append_nil]
        exact h.q
      · show WInv _ _ _ (p.threads ++ _).length _ _
        have hw := h.w
        rw [WI, hs] at hw
        rw [List.length_append, List.length_range']
        simp only [hs]
        exact hw.start
      · intro x hx
        rw [List.eq_of_mem_replicate hx]
        simp [HasLock, newWorker]
      · cases hm : n - p.threads.length with
        | zero =>
          simp only [List.replicate_zero, List.append_nil, List.range'_zero]
          exact h.s
        | succ m =>
          refine SI.awake (w := newWorker) ?_ (by simp [awake, newWorker])
          exact List.mem_append_right _ (by simp [List.replicate_succ])
  | stop =>
    simp only [act] at ha
    split at ha
    · cases ha
    · rename_i hc
      cases ha
      have hs : p.stopper = none := by simpa using hc
      have hl := h.w.live hs
      refine ⟨h.q, ⟨h.w.count, h.w.ok, nofun, ?_, nofun, h.w.fin⟩, h.l, ?_⟩
      · intro _
        show p.stopCounter + (p.threads.length : Int) = _
        rw [hl.1, hl.2]
        simp
      · intro _ hx; cases hx
  | stopCancel =>
    simp only [act] at ha
    split at ha
    · rename_i i is hst
      cases ha
      refine ⟨?_, ?_, ?_, ?_⟩
      · show QInv _ _ _ _ (jobs (p.workers.modify i cancel))
        rw [modify_eq_set]
        split
        · rename_i w hw
          exact h.q.perm (jobs_set_same hw (by simp [load, cancel_pc]))
        · exact h.q
      · have : WInv p.realtime p.idleThreads p.stopCounter p.threads.length p.stopper (p.workers.modify i cancel) := h.w.cancel (by rw [hst]; nofun)
        exact ⟨this.count, this.ok, nofun, fun _ => this.stop (by rw [hst]; nofun), nofun, this.fin⟩
      · show LInv _ (p.workers.modify i cancel)
        rw [modify_eq_set]
        split
        · rename_i w hw
          refine h.l.set hw (fun _ _ => Iff.rfl) ?_
          rw [← h.l i]
          simp [HasLock, cancel_pc, hw]
        · exact h.l
      · intro _ hx; cases hx
    · cases ha
  | stopSignal =>
    simp only [act] at ha
    split at ha
    · rename_i hst
      cases ha
      refine ⟨?_, ?_, h.l.map wake hasLock_wake, ?_⟩
      · show QInv _ _ _ _ (jobs (p.workers.map wake))
        rw [jobs_map _ _ load_wake]
        exact h.q
      · have : WInv p.realtime p.idleThreads p.stopCounter p.threads.length p.stopper (p.workers.map wake) :=
          h.w.map wake (by rw [hst]; nofun) idle_wake notGone_wake (fun _ => okIdle_wake) state_wake
        exact ⟨this.count, this.ok, nofun, fun _ => this.stop (by rw [hst]; nofun), nofun, this.fin⟩
      · intro _ hx; cases hx
    · cases ha
  | stopEnd =>
    simp only [act] at ha
    split at ha
    · rename_i hst
      split at ha
      · rename_i h0
        cases ha
        have hc := h.w.stop (by rw [hst]; nofun)
        have hg : p.workers.countP notGone = 0 := by omega
        have hall : ∀ w ∈ p.workers, w.pc = .gone := by
          intro w hw
          have := List.countP_eq_zero.1 hg w hw
          simpa [notGone] using this
        refine ⟨h.q, ⟨h.w.count, h.w.ok, fun _ => ⟨hg, h0⟩, nofun, ?_, h.w.fin⟩, h.l, ?_⟩
        · exact fun _ w hw => ⟨by rw [h.w.fin w hw (hall w hw)]; decide, by rw [hall w hw]; decide⟩
        · intro _ _ _ hx; exact absurd rfl hx
      · cases ha
    · cases ha
  | begin i =>
    simp only [act] at ha
    obtain ⟨w, hw, ha⟩ := Option.bind_eq_some_iff.1 ha
    split at ha
    · rename_i hpc
      cases ha
      have hnl := not_locked h hw (by simp [HasLock, hpc])
      have hok := h.w.ok w (mem_of_get hw)
      rw [okIdle, hpc] at hok
      refine ⟨h.q.perm (jobs_set_same hw (by simp [load, hpc])), h.w.set hw hok (by simp) (by simp [notGone, hpc]) ?_,
        h.l.set hw (fun _ _ => Iff.rfl) (by simp [HasLock, hnl]), SI.set hw (by simp [awake]) _ rfl⟩
      exact fun hs => ⟨by simp, by simp⟩
    · cases ha
  | acquire i =>
    simp only [act] at ha
    obtain ⟨w, hw, ha⟩ := Option.bind_eq_some_iff.1 ha
    exact acquire_inv p h i w hw p' ha
  | check i =>
    simp only [act] at ha
    obtain ⟨w, hw, ha⟩ := Option.bind_eq_some_iff.1 ha
    obtain ⟨x, hx, he⟩ := Option.map_eq_some_iff.1 ha
    cases he
    exact check_inv p h i w hw p' hx
  | next i =>
    simp only [act] at ha
    obtain ⟨w, hw, ha⟩ := Option.bind_eq_some_iff.1 ha
    obtain ⟨x, hx, he⟩ := Option.map_eq_some_iff.1 ha
    cases he
    exact next_inv p h i w hw p' hx
  | finish i =>
    simp only [act] at ha
    obtain ⟨w, hw, ha⟩ := Option.bind_eq_some_iff.1 ha
    obtain ⟨x, hx, he⟩ := Option.map_eq_some_iff.1 ha
    cases he
    exact finish_inv p h i w hw p' hx
  | spurious i =>
    simp only [act] at ha
    obtain ⟨w, hw, ha⟩ := Option.bind_eq_some_iff.1 ha
    split at ha
    · rename_i hc
      cases ha
      exact wake_inv p h i w hw hc p.signals
    · cases ha
  | exit i =>
    simp only [act] at ha
    obtain ⟨w, hw, ha⟩ := Option.bind_eq_some_iff.1 ha
    exact exit_inv p h i w hw p' ha

theorem reach_inv {rt : Bool} {p : Pool} (h : Reach rt p) : Inv p := by
  induction h with
  | init => exact Inv.init rt
  | step _ ha ih => exact step_inv _ _ _ ih ha

end Pool
end Duck
