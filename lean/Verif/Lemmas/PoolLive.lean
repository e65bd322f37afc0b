import Verif.Lemmas.PoolStep

namespace Duck
namespace Pool

def weight (w : Worker) : Nat :=
  match w.pc with
  | .born => 6
  | .enter | .waiting true | .napping | .done _ => 5
  | .top => 4
  | .next => 3
  | .running _ => 6
  | .leaving => 2
  | .waiting false | .gone => 0

def total (ws : List Worker) : Nat := (ws.map weight).sum

def queued (qs : List Queue) : Nat := (qs.map fun q => q.tasks.length + q.completions.length).sum

def measure (p : Pool) : Nat := 10 * queued p.queues + 6 * p.signals + total p.workers

theorem total_set : ∀ {ws : List Worker} {i : Nat} {w : Worker} (w' : Worker), ws[i]? = some w → total (ws.set i w') + weight w = total ws + weight w' := by
  intro ws
  induction ws with
  | nil => intro i w w' h; simp at h
  | cons x xs ih =>
    intro i w w' h
    cases i with
    | zero =>
      have : x = w := by simpa using h
      subst this
      simp [total]
      omega
    | succ i =>
      have := ih w' (by simpa using h)
      simp only [total, List.set_cons_succ, List.map_cons, List.sum_cons] at this ⊢
      omega

theorem queued_complete {qs qs' : List Queue} {t : Task} (h : completeTask qs t = some qs') : queued qs' = queued qs := by
  unfold completeTask at h
  split at h
  · cases h; rfl
  · split at h
    · cases h
    · split at h
      · cases h
      · cases h
        unfold queued
        rw [List.map_map]
        refine congrArg List.sum (List.map_congr_left fun x _ => ?_)
        simp only [Function.comp]
        split <;> rfl

theorem queued_next (qs : List Queue) : queued (getNextTask qs).1 + (if (getNextTask qs).2.isSome then 1 else 0) = queued qs := by
  induction qs with
  | nil => rfl
  | cons q qs ih =>
    unfold getNextTask
    split
    · rename_i hts
      simp [queued, hts]
      omega
    · rename_i hts
      split
      · split
        · rename_i hcs
          simp [queued, hts, hcs]
          omega
        · rename_i hcs
          rw [ih]
          simp [queued, hts, hcs]
      · simp only [queued, List.map_cons, List.sum_cons] at ih ⊢
        omega

theorem measure_lt {p p' : Pool} {a : Action} (hrt : p.realtime = false) (hst : p.stopper = none) (hi : a.internal = true)
    (ha : act p a = some (.ok p')) : measure p' < measure p ∧ p'.realtime = false ∧ p'.stopper = none ∧ p'.threads = p.threads := by
  cases a with
  | signal i =>
    simp only [act] at ha
    obtain ⟨w, hw, ha⟩ := Option.bind_eq_some_iff.1 ha
    split at ha
    · rename_i hc
      cases ha
      refine ⟨?_, hrt, hst, rfl⟩
      have := total_set (wake w) hw
      have h1 : weight w = 0 := by simp [weight, hc.2]
      have h2 : weight (wake w) = 5 := by simp [weight, wake, hc.2]
      simp only [measure, setWorker]
      omega
    · cases ha
  | signalNobody =>
    simp only [act] at ha
    split at ha
    · cases ha
      refine ⟨?_, hrt, hst, rfl⟩
      simp only [measure]
      omega
    · cases ha
  | begin i =>
    simp only [act] at ha
    obtain ⟨w, hw, ha⟩ := Option.bind_eq_some_iff.1 ha
    split at ha
    · rename_i hc
      cases ha
      refine ⟨?_, hrt, hst, rfl⟩
      have := total_set { w with pc := .enter, state := .running } hw
      have h1 : weight w = 6 := by simp [weight, hc]
      have h2 : weight { w with pc := .enter, state := .running } = 5 := rfl
      simp only [measure, setWorker]
      omega
    · cases ha
  | acquire i =>
    simp only [act] at ha
    obtain ⟨w, hw, ha⟩ := Option.bind_eq_some_iff.1 ha
    unfold acquire at ha
    split at ha
    · cases ha
    · split at ha
      · rename_i hpc
        cases ha
        refine ⟨?_, hrt, hst, rfl⟩
        have := total_set { w with pc := .top } hw
        have h1 : weight w = 5 := by simp [weight, hpc]
        have h2 : weight { w with pc := .top } = 4 := rfl
        simp only [measure, setWorker]
        omega
      · rename_i hpc
        cases ha
        refine ⟨?_, hrt, hst, rfl⟩
        have := total_set { w with pc := .top, cooldown := false } hw
        have h1 : weight w = 5 := by simp [weight, hpc]
        have h2 : weight { w with pc := .top, cooldown := false } = 4 := rfl
        simp only [measure, setWorker]
        omega
      · rename_i hpc
        rw [if_neg (by rw [hrt]; decide)] at ha
        cases ha
        refine ⟨?_, hrt, hst, rfl⟩
        have := total_set { w with pc := .top, idle := false } hw
        have h1 : weight w = 5 := by simp [weight, hpc]
        have h2 : weight { w with pc := .top, idle := false } = 4 := rfl
        simp only [measure, setWorker]
        omega
      · rename_i t hpc
        split at ha
        · cases ha
        · rename_i qs hqs
          cases ha
          refine ⟨?_, hrt, hst, rfl⟩
          have := total_set { w with pc := .top, cooldown := p.realtime } hw
          have h1 : weight w = 5 := by simp [weight, hpc]
          have h2 : weight { w with pc := .top, cooldown := p.realtime } = 4 := rfl
          have h3 := queued_complete hqs
          simp only [measure, setWorker]
          omega
      · cases ha
  | check i =>
    simp only [act] at ha
    obtain ⟨w, hw, ha⟩ := Option.bind_eq_some_iff.1 ha
    obtain ⟨x, hx, he⟩ := Option.map_eq_some_iff.1 ha
    cases he
    unfold check at hx
    split at hx
    · rename_i hpc
      have h1 : weight w = 4 := by simp [weight, hpc]
      split at hx
      · cases hx
        refine ⟨?_, hrt, hst, rfl⟩
        have := total_set { w with pc := .leaving, idle := false } hw
        have h2 : weight { w with pc := .leaving, idle := false } = 2 := rfl
        simp only [measure, setWorker]
        omega
      · cases hx
        refine ⟨?_, hrt, hst, rfl⟩
        have := total_set { w with pc := .next } hw
        have h2 : weight { w with pc := .next } = 3 := rfl
        simp only [measure, setWorker]
        omega
    · cases hx
  | next i =>
    simp only [act] at ha
    obtain ⟨w, hw, ha⟩ := Option.bind_eq_some_iff.1 ha
    obtain ⟨x, hx, he⟩ := Option.map_eq_some_iff.1 ha
    cases he
    unfold next at hx
    have hq := queued_next p.queues
    split at hx
    · rename_i hpc
      have h1 : weight w = 3 := by simp [weight, hpc]
      split at hx
      · rename_i t ht
        cases hx
        refine ⟨?_, hrt, hst, rfl⟩
        have := total_set { w with pc := .running t, idle := false, standby := false } hw
        have h2 : weight { w with pc := .running t, idle := false, standby := false } = 6 := rfl
        rw [ht] at hq
        simp only [Option.isSome_some, if_true] at hq
        simp only [measure, setWorker, startTask]
        split <;> omega
      · rename_i hn
        rw [if_neg (by rw [hrt]; decide)] at hx
        cases hx
        refine ⟨?_, hrt, hst, rfl⟩
        have := total_set { w with pc := .waiting false, idle := true } hw
        have h2 : weight { w with pc := .waiting false, idle := true } = 0 := rfl
        simp only [measure, setWorker, rest]
        omega
    · cases hx
  | finish i =>
    simp only [act] at ha
    obtain ⟨w, hw, ha⟩ := Option.bind_eq_some_iff.1 ha
    obtain ⟨x, hx, he⟩ := Option.map_eq_some_iff.1 ha
    cases he
    unfold finish at hx
    split at hx
    · rename_i t hpc
      cases hx
      refine ⟨?_, hrt, hst, rfl⟩
      have := total_set { w with pc := .done t } hw
      have h1 : weight w = 6 := by simp [weight, hpc]
      have h2 : weight { w with pc := .done t } = 5 := rfl
      simp only [measure, setWorker]
      omega
    · cases hx
  | exit i =>
    simp only [act] at ha
    obtain ⟨w, hw, ha⟩ := Option.bind_eq_some_iff.1 ha
    unfold exit at ha
    split at ha
    · rename_i hpc
      split at ha
      · cases ha
      · cases ha
        refine ⟨?_, hrt, hst, rfl⟩
        have := total_set { w with pc := .gone, state := .finished } hw
        have h1 : weight w = 2 := by simp [weight, hpc]
        have h2 : weight { w with pc := .gone, state := .finished } = 0 := rfl
        simp only [measure, setWorker]
        omega
    · cases ha
  | stopCancel => simp [act, hst] at ha
  | stopSignal => simp [act, hst] at ha
  | stopEnd => simp [act, hst] at ha
  | _ => simp [Action.internal] at hi

theorem reach_steps {rt : Bool} {p : Pool} {as : List Action} {p' : Pool} (h : Reach rt p) (hs : Steps p as p') : Reach rt p' := by
  induction hs with
  | nil => exact h
  | cons ha _ ih => exact ih (h.step ha)

theorem steps_bound {p p' : Pool} {as : List Action} (hs : Steps p as p') :
    p.realtime = false → p.stopper = none → (∀ a ∈ as, a.internal = true) →
    as.length + measure p' ≤ measure p ∧ p'.realtime = false ∧ p'.stopper = none ∧ p'.threads = p.threads := by
  induction hs with
  | nil => intro h1 h2 _; exact ⟨by simp, h1, h2, rfl⟩
  | cons ha _ ih =>
    intro h1 h2 h3
    obtain ⟨g1, g2, g3, g4⟩ := measure_lt h1 h2 (h3 _ (by simp)) ha
    obtain ⟨k1, k2, k3, k4⟩ := ih g2 g3 fun a ha => h3 a (List.mem_cons_of_mem _ ha)
    exact ⟨by simp only [List.length_cons]; omega, k2, k3, k4.trans g4⟩

/-- A worker that is awake, or a pending signal, can always take a step. -/
theorem quiet_asleep {p : Pool} (h : Inv p) (hq : Quiet p) : p.signals = 0 ∧ ∀ w ∈ p.workers, w.pc = .gone ∨ w.pc = .waiting false := by
  have hlock : p.lock = none := by
    cases hl : p.lock with
    | none => rfl
    | some i =>
      obtain ⟨w, hw, hpc | hpc⟩ := (h.l i).2 hl
      · have := hq (.check i) rfl
        simp only [act, hw, Option.bind_some, check, hpc] at this
        split at this <;> simp at this
      · have := hq (.next i) rfl
        simp only [act, hw, Option.bind_some, next, hpc] at this
        split at this <;> simp at this
  have hall : ∀ w ∈ p.workers, w.pc = .gone ∨ w.pc = .waiting false := by
    intro w hm
    obtain ⟨i, hw⟩ := List.getElem?_of_mem hm
    cases hpc : w.pc with
    | gone => exact .inl rfl
    | waiting b =>
      cases b with
      | false => exact .inr rfl
      | true =>
        have := hq (.acquire i) rfl
        simp only [act, hw, Option.bind_some, acquire, hpc, hlock] at this
        split at this
        · simp at *
        · split at this <;> simp at this
    | born => have := hq (.begin i) rfl; simp [act, hw, hpc] at this
    | enter => have := hq (.acquire i) rfl; simp [act, hw, acquire, hpc, hlock] at this
    | napping => have := hq (.acquire i) rfl; simp [act, hw, acquire, hpc, hlock] at this
    | done t =>
      have := hq (.acquire i) rfl
      simp only [act, hw, Option.bind_some, acquire, hpc, hlock] at this
      split at this
      · simp at *
      · split at this <;> simp at this
    | top => exact absurd ((h.l i).1 ⟨w, hw, .inl hpc⟩) (by rw [hlock]; nofun)
    | next => exact absurd ((h.l i).1 ⟨w, hw, .inr hpc⟩) (by rw [hlock]; nofun)
    | running t => have := hq (.finish i) rfl; simp [act, hw, finish, hpc] at this
    | leaving =>
      have := hq (.exit i) rfl
      simp only [act, hw, Option.bind_some, exit, hpc] at this
      split at this <;> simp at this
  refine ⟨?_, hall⟩
  refine Decidable.byContradiction fun hs => ?_
  have hs' : 0 < p.signals := by omega
  by_cases hx : p.workers.all (fun w => w.pc ≠ .waiting false)
  · have := hq .signalNobody rfl
    simp only [act, if_pos (And.intro hs' hx)] at this
    cases this
  · obtain ⟨w, hm, hw⟩ : ∃ w ∈ p.workers, w.pc = .waiting false := by
      simpa using hx
    obtain ⟨i, hi⟩ := List.getElem?_of_mem hm
    have := hq (.signal i) rfl
    simp only [act, hi, Option.bind_some, if_pos (And.intro hs' hw)] at this
    cases this

/-- With no queues and no worker busy, everything added has finished. -/
theorem all_finished {p : Pool} (h : Inv p) (hr : Event.removed ∉ p.log) (hq : p.queues = []) (hl : ∀ w ∈ p.workers, load w = none) :
    ∀ t ∈ added p.log, t ∈ finished p.log := by
  intro t ht
  have hj : jobs p.workers = [] := List.filterMap_eq_nil_iff.2 hl
  have hqi := h.q
  rw [QI, hq, hj] at hqi
  have := (hqi.absent hr t.owner (by simp)).1 t ht rfl
  exact (hqi.run t this).resolve_right (by simp)

theorem removed_internal {p p' : Pool} {a : Action} (hi : a.internal = true) (ha : act p a = some (.ok p')) (hr : Event.removed ∉ p.log) :
    Event.removed ∉ p'.log := by
  cases a <;> simp only [act, Action.internal] at ha hi
  all_goals first | contradiction | skip
  case signal => obtain ⟨w, _, ha⟩ := Option.bind_eq_some_iff.1 ha; split at ha <;> cases ha; exact hr
  case signalNobody => split at ha <;> cases ha; exact hr
  case stopCancel => split at ha <;> cases ha; exact hr
  case stopSignal => split at ha <;> cases ha; exact hr
  case stopEnd => split at ha <;> first | (split at ha <;> cases ha; exact hr) | cases ha
  case begin => obtain ⟨w, _, ha⟩ := Option.bind_eq_some_iff.1 ha; split at ha <;> cases ha; exact hr
  case acquire =>
    obtain ⟨w, _, ha⟩ := Option.bind_eq_some_iff.1 ha
    unfold acquire at ha
    split at ha
    · cases ha
    · split at ha
      · cases ha; exact hr
      · cases ha; exact hr
      · split at ha <;> cases ha <;> exact hr
      · split at ha <;> cases ha; exact hr
      · cases ha
  case check =>
    obtain ⟨w, _, ha⟩ := Option.bind_eq_some_iff.1 ha
    obtain ⟨x, hx, he⟩ := Option.map_eq_some_iff.1 ha
    cases he
    unfold check at hx
    split at hx
    · split at hx <;> cases hx <;> exact hr
    · cases hx
  case next =>
    obtain ⟨w, _, ha⟩ := Option.bind_eq_some_iff.1 ha
    obtain ⟨x, hx, he⟩ := Option.map_eq_some_iff.1 ha
    cases he
    unfold next at hx
    split at hx
    · split at hx
      · cases hx
        simpa [startTask, setWorker] using hr
      · cases hx
        split
        · unfold idleRealTime
          split
          · exact hr
          · split <;> exact hr
        · exact hr
    · cases hx
  case finish =>
    obtain ⟨w, _, ha⟩ := Option.bind_eq_some_iff.1 ha
    obtain ⟨x, hx, he⟩ := Option.map_eq_some_iff.1 ha
    cases he
    unfold finish at hx
    split at hx
    · cases hx
      simpa [setWorker] using hr
    · cases hx
  case exit =>
    obtain ⟨w, _, ha⟩ := Option.bind_eq_some_iff.1 ha
    unfold exit at ha
    split at ha
    · split at ha <;> cases ha; exact hr
    · cases ha

theorem act_realtime {p p' : Pool} {a : Action} (ha : act p a = some (.ok p')) : p'.realtime = p.realtime := by
  cases a <;> simp only [act] at ha
  case addTask =>
    split at ha <;> cases ha
    have : (openQueue p).realtime = p.realtime := by
      unfold openQueue
      split
      · rfl
      · split <;> rfl
    unfold addTask willSignal
    split <;> exact this
  case addCompletion =>
    split at ha <;> cases ha
    unfold addCompletion
    split
    · rfl
    · unfold willSignal
      split <;> rfl
  case signal => obtain ⟨w, _, ha⟩ := Option.bind_eq_some_iff.1 ha; split at ha <;> cases ha; rfl
  case signalNobody => split at ha <;> cases ha; rfl
  case removeAll => split at ha <;> cases ha; rfl
  case waitFor => split at ha <;> cases ha; unfold waitFor; split <;> rfl
  case waitIdle => split at ha <;> cases ha; rfl
  case start => split at ha <;> cases ha; rfl
  case stop => split at ha <;> cases ha; rfl
  case stopCancel => split at ha <;> cases ha; rfl
  case stopSignal => split at ha <;> cases ha; rfl
  case stopEnd => split at ha <;> first | (split at ha <;> cases ha; rfl) | cases ha
  case begin => obtain ⟨w, _, ha⟩ := Option.bind_eq_some_iff.1 ha; split at ha <;> cases ha; rfl
  case acquire =>
    obtain ⟨w, _, ha⟩ := Option.bind_eq_some_iff.1 ha
    unfold acquire at ha
    split at ha
    · cases ha
    · split at ha
      · cases ha; rfl
      · cases ha; rfl
      · split at ha <;> cases ha <;> rfl
      · split at ha <;> cases ha; rfl
      · cases ha
  case check =>
    obtain ⟨w, _, ha⟩ := Option.bind_eq_some_iff.1 ha
    obtain ⟨x, hx, he⟩ := Option.map_eq_some_iff.1 ha
    cases he
    unfold check at hx
    split at hx
    · split at hx <;> cases hx <;> rfl
    · cases hx
  case next =>
    obtain ⟨w, _, ha⟩ := Option.bind_eq_some_iff.1 ha
    obtain ⟨x, hx, he⟩ := Option.map_eq_some_iff.1 ha
    cases he
    unfold next at hx
    split at hx
    · split at hx
      · cases hx; rfl
      · cases hx
        split
        · unfold idleRealTime
          split
          · rfl
          · split <;> rfl
        · rfl
    · cases hx
  case finish =>
    obtain ⟨w, _, ha⟩ := Option.bind_eq_some_iff.1 ha
    obtain ⟨x, hx, he⟩ := Option.map_eq_some_iff.1 ha
    cases he
    unfold finish at hx
    split at hx <;> cases hx
    rfl
  case spurious => obtain ⟨w, _, ha⟩ := Option.bind_eq_some_iff.1 ha; split at ha <;> cases ha; rfl
  case exit =>
    obtain ⟨w, _, ha⟩ := Option.bind_eq_some_iff.1 ha
    unfold exit at ha
    split at ha
    · split at ha <;> cases ha; rfl
    · cases ha

theorem reach_realtime {rt : Bool} {p : Pool} (h : Reach rt p) : p.realtime = rt := by
  induction h with
  | init => rfl
  | step _ ha ih => rw [act_realtime ha]; exact ih

/-- Takes the steps in order. -/
def runs (p : Pool) : List Action → Option Pool
  | [] => some p
  | a :: as => match act p a with
    | some (.ok p') => runs p' as
    | _ => none

theorem runs_reach {rt : Bool} : ∀ {as : List Action} {p p' : Pool}, Reach rt p → runs p as = some p' → Reach rt p' := by
  intro as
  induction as with
  | nil => intro p p' h he; cases he; exact h
  | cons a as ih =>
    intro p p' h he
    unfold runs at he
    split at he
    · rename_i q hq
      exact ih (h.step hq) he
    · cases he

/-- Whether nothing but a new call can happen, by trying the workers there are. -/
def quietB (p : Pool) : Bool :=
  ([Action.signalNobody, .stopCancel, .stopSignal, .stopEnd].all fun a => act p a = none) &&
  (List.range p.workers.length).all fun i =>
    [Action.signal i, .begin i, .acquire i, .check i, .next i, .finish i, .exit i].all fun a => act p a = none

theorem quiet_of {p : Pool} (h : quietB p = true) : Quiet p := by
  unfold quietB at h
  rw [Bool.and_eq_true, List.all_eq_true, List.all_eq_true] at h
  obtain ⟨h1, h2⟩ := h
  have h3 : ∀ i a, a ∈ [Action.signal i, .begin i, .acquire i, .check i, .next i, .finish i, .exit i] → act p a = none := by
    intro i a ha
    by_cases hi : i < p.workers.length
    · have := List.all_eq_true.1 (h2 i (List.mem_range.2 hi)) a ha
      simpa using this
    · have hn : p.workers[i]? = none := List.getElem?_eq_none (by omega)
      simp only [List.mem_cons, List.not_mem_nil, or_false] at ha
      rcases ha with rfl | rfl | rfl | rfl | rfl | rfl | rfl <;> simp [act, hn]
  intro a hi
  cases a with
  | signal i => exact h3 i _ (by simp)
  | begin i => exact h3 i _ (by simp)
  | acquire i => exact h3 i _ (by simp)
  | check i => exact h3 i _ (by simp)
  | next i => exact h3 i _ (by simp)
  | finish i => exact h3 i _ (by simp)
  | exit i => exact h3 i _ (by simp)
  | signalNobody => simpa using h1 .signalNobody (by simp)
  | stopCancel => simpa using h1 .stopCancel (by simp)
  | stopSignal => simpa using h1 .stopSignal (by simp)
  | stopEnd => simpa using h1 .stopEnd (by simp)
  | _ => simp [Action.internal] at hi

end Pool
end Duck
