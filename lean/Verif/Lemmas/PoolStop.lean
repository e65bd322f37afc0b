import Verif.Lemmas.PoolLive

namespace Duck
namespace Pool

/-- Workers that have not returned are in the list of threads and not finished. -/
def TInv (p : Pool) : Prop := ∀ i w, p.workers[i]? = some w → w.pc ≠ .gone → i ∈ p.threads ∧ w.state ≠ .finished

theorem TInv.set {p q : Pool} {i : Nat} {w w' : Worker} (h : TInv p) (hw : p.workers[i]? = some w) (hq : q.workers = p.workers.set i w')
    (ht : q.threads = p.threads) (hg : w'.pc ≠ .gone → w.pc ≠ .gone ∧ w'.state ≠ .finished) : TInv q := by
  intro j x hj hx
  rw [ht]
  rw [hq] at hj
  by_cases hji : j = i
  · subst hji
    rw [List.getElem?_set_self (List.getElem?_eq_some_iff.1 hw).1] at hj
    cases hj
    exact ⟨(h j w hw (hg hx).1).1, (hg hx).2⟩
  · rw [List.getElem?_set_ne fun e => hji e.symm] at hj
    exact h j x hj hx

theorem TInv.same {p q : Pool} (h : TInv p) (hq : q.workers = p.workers) (ht : q.threads = p.threads) : TInv q := by
  intro j x hj hx
  rw [ht]
  rw [hq] at hj
  exact h j x hj hx

theorem step_tinv {p p' : Pool} {a : Action} (h : TInv p) (hinv : Inv p) (ha : act p a = some (.ok p')) : TInv p' := by
  cases a <;> simp only [act] at ha
  case addTask =>
    split at ha <;> cases ha
    have : (openQueue p).workers = p.workers ∧ (openQueue p).threads = p.threads := by
      unfold openQueue
      split
      · exact ⟨rfl, rfl⟩
      · split <;> exact ⟨rfl, rfl⟩
    unfold addTask willSignal
    split <;> exact h.same this.1 this.2
  case addCompletion =>
    split at ha <;> cases ha
    unfold addCompletion
    split
    · exact h
    · unfold willSignal
      split <;> exact h
  case signal i =>
    obtain ⟨w, hw, ha⟩ := Option.bind_eq_some_iff.1 ha
    split at ha <;> cases ha
    rename_i hc
    refine h.set hw rfl rfl fun _ => ⟨by rw [hc.2]; nofun, ?_⟩
    rw [state_wake]
    exact (h i w hw (by rw [hc.2]; nofun)).2
  case signalNobody => split at ha <;> cases ha; exact h
  case removeAll => split at ha <;> cases ha; exact h
  case waitFor => split at ha <;> cases ha; unfold waitFor; split <;> exact h
  case waitIdle => split at ha <;> cases ha; exact h
  case start n =>
    split at ha <;> cases ha
    intro j x hj hx
    show j ∈ p.threads ++ _ ∧ _
    have hj : (p.workers ++ List.replicate (n - p.threads.length) newWorker)[j]? = some x := hj
    rw [List.getElem?_append] at hj
    split at hj
    · exact ⟨List.mem_append_left _ (h j x hj hx).1, (h j x hj hx).2⟩
    · rename_i hlt
      have hlen := (List.getElem?_eq_some_iff.1 hj).1
      rw [List.length_replicate] at hlen
      refine ⟨List.mem_append_right _ (List.mem_range'_1.2 (by omega)), ?_⟩
      rw [List.eq_of_mem_replicate (List.mem_of_getElem? hj)]
      nofun
  case stop => split at ha <;> cases ha; exact h
  case stopCancel =>
    split at ha <;> cases ha
    rename_i i is hst
    have hm := modify_eq_set (ws := p.workers) (i := i) cancel
    split at hm
    · rename_i w hw
      refine h.set hw hm rfl fun hg => ?_
      rw [cancel_pc] at hg
      refine ⟨hg, ?_⟩
      have := (h i w hw hg).2
      unfold cancel
      split
      · nofun
      · exact this
    · exact h.same hm rfl
  case stopSignal =>
    split at ha <;> cases ha
    intro j x hj hx
    have hj : (p.workers.map wake)[j]? = some x := hj
    rw [List.getElem?_map] at hj
    obtain ⟨y, hy, rfl⟩ := Option.map_eq_some_iff.1 hj
    have hyg : y.pc ≠ .gone := by
      have := notGone_wake y
      simpa [notGone, hx] using this.symm
    rw [state_wake]
    exact h j y hy hyg
  case stopEnd =>
    split at ha
    · rename_i hst
      split at ha <;> cases ha
      rename_i h0
      intro j x hj hx
      have hc := hinv.w.stop (by rw [hst]; nofun)
      have hg : p.workers.countP notGone = 0 := by omega
      have := List.countP_eq_zero.1 hg x (List.mem_of_getElem? hj)
      exact absurd (by simpa [notGone] using this) hx
    · cases ha
  case begin i =>
    obtain ⟨w, hw, ha⟩ := Option.bind_eq_some_iff.1 ha
    split at ha <;> cases ha
    rename_i hc
    exact h.set hw rfl rfl fun _ => ⟨by rw [hc]; nofun, by nofun⟩
  case acquire i =>
    obtain ⟨w, hw, ha⟩ := Option.bind_eq_some_iff.1 ha
    unfold acquire at ha
    split at ha
    · cases ha
    · split at ha
      · rename_i hpc; cases ha; exact h.set hw rfl rfl fun _ => ⟨by rw [hpc]; nofun, (h i w hw (by rw [hpc]; nofun)).2⟩
      · rename_i hpc; cases ha; exact h.set hw rfl rfl fun _ => ⟨by rw [hpc]; nofun, (h i w hw (by rw [hpc]; nofun)).2⟩
      · rename_i hpc
        split at ha <;> cases ha
        · exact h.set hw rfl rfl fun _ => ⟨by rw [hpc]; nofun, (h i w hw (by rw [hpc]; nofun)).2⟩
        · exact h.set hw rfl rfl fun _ => ⟨by rw [hpc]; nofun, (h i w hw (by rw [hpc]; nofun)).2⟩
      · rename_i hpc
        split at ha <;> cases ha
        exact h.set hw rfl rfl fun _ => ⟨by rw [hpc]; nofun, (h i w hw (by rw [hpc]; nofun)).2⟩
      · cases ha
  case check i =>
    obtain ⟨w, hw, ha⟩ := Option.bind_eq_some_iff.1 ha
    obtain ⟨x, hx, he⟩ := Option.map_eq_some_iff.1 ha
    cases he
    unfold check at hx
    split at hx
    · rename_i hpc
      split at hx <;> cases hx
      · exact h.set hw rfl rfl fun _ => ⟨by rw [hpc]; nofun, (h i w hw (by rw [hpc]; nofun)).2⟩
      · exact h.set hw rfl rfl fun _ => ⟨by rw [hpc]; nofun, (h i w hw (by rw [hpc]; nofun)).2⟩
    · cases hx
  case next i =>
    obtain ⟨w, hw, ha⟩ := Option.bind_eq_some_iff.1 ha
    obtain ⟨x, hx, he⟩ := Option.map_eq_some_iff.1 ha
    cases he
    unfold next at hx
    split at hx
    · rename_i hpc
      have hg : w.pc ≠ .gone ∧ w.state ≠ .finished := ⟨by rw [hpc]; nofun, (h i w hw (by rw [hpc]; nofun)).2⟩
      split at hx
      · cases hx; exact h.set hw rfl rfl fun _ => hg
      · cases hx
        split
        · unfold idleRealTime
          split
          · exact h.set hw rfl rfl fun _ => hg
          · split
            · exact h.set hw rfl rfl fun _ => hg
            · exact h.set hw rfl rfl fun _ => hg
        · exact h.set hw rfl rfl fun _ => hg
    · cases hx
  case finish i =>
    obtain ⟨w, hw, ha⟩ := Option.bind_eq_some_iff.1 ha
    obtain ⟨x, hx, he⟩ := Option.map_eq_some_iff.1 ha
    cases he
    unfold finish at hx
    split at hx
    · rename_i hpc
      cases hx
      exact h.set hw rfl rfl fun _ => ⟨by rw [hpc]; nofun, (h i w hw (by rw [hpc]; nofun)).2⟩
    · cases hx
  case spurious i =>
    obtain ⟨w, hw, ha⟩ := Option.bind_eq_some_iff.1 ha
    split at ha <;> cases ha
    rename_i hc
    refine h.set hw rfl rfl fun _ => ⟨by rw [hc]; nofun, ?_⟩
    rw [state_wake]
    exact (h i w hw (by rw [hc]; nofun)).2
  case exit i =>
    obtain ⟨w, hw, ha⟩ := Option.bind_eq_some_iff.1 ha
    unfold exit at ha
    split at ha
    · split at ha <;> cases ha
      exact h.set hw rfl rfl fun hx => absurd rfl hx
    · cases ha

theorem reach_tinv {rt : Bool} {p : Pool} (h : Reach rt p) : TInv p := by
  induction h with
  | init => intro i w hw; simp [init] at hw
  | step hr ha ih => exact step_tinv ih (reach_inv hr) ha

/-- Where DKThreadPoolStop and the workers are, when it was called while all workers slept. -/
def Phase (p : Pool) : Prop :=
  match p.stopper with
  | some (.cancelling l) => p.signals = 0 ∧
      ∀ (i : Nat) w, p.workers[i]? = some w → w.pc = .gone ∨ (w.pc = .waiting false ∧ w.state ≠ .finished ∧ (i ∈ l ∨ w.state = .cancelled))
  | some .waiting => p.signals = 0 ∧
      ∀ (i : Nat) w, p.workers[i]? = some w → w.pc = .gone ∨ (w.state = .cancelled ∧ (w.pc = .waiting true ∨ w.pc = .top ∨ w.pc = .leaving))
  | none => p.signals = 0 ∧ ∀ (i : Nat) w, p.workers[i]? = some w → w.pc = .gone

def stopWeight (p : Pool) : Nat :=
  (match p.stopper with
  | some (.cancelling l) => l.length + 2 + 6 * p.workers.length
  | some .waiting => 1
  | none => 0) + total p.workers

theorem total_wake (ws : List Worker) : total (ws.map wake) ≤ total ws + 5 * ws.length := by
  induction ws with
  | nil => simp [total]
  | cons w ws ih =>
    have : weight (wake w) ≤ weight w + 5 := by
      unfold wake
      split
      · simp [weight]
      · omega
    simp only [total, List.map_cons, List.sum_cons, List.length_cons] at ih ⊢
    omega

theorem cancel_cancelled {w : Worker} (h : w.state ≠ .finished) : (cancel w).state = .cancelled := by
  unfold cancel
  split
  · rfl
  · rename_i hn
    cases hs : w.state <;> simp_all

theorem dead {p : Pool} {a : Action} (hst : p.stopper = none) (hsig : p.signals = 0)
    (hall : ∀ (i : Nat) w, p.workers[i]? = some w → w.pc = .gone) (hi : a.internal = true) : act p a = none := by
  have hw : ∀ (i : Nat) (f : Worker → Option Res), (∀ w, w.pc = .gone → f w = none) → (p.workers[i]?).bind f = none := by
    intro i f hf
    cases h : p.workers[i]? with
    | none => rfl
    | some w => exact hf w (hall i w h)
  cases a <;> simp only [act, Action.internal] at hi ⊢
  all_goals first | contradiction | skip
  case signal i => exact hw i _ fun w h => by simp [h]
  case signalNobody => rw [if_neg (by omega)]
  case stopCancel => rw [hst]
  case stopSignal => rw [hst]
  case stopEnd => rw [hst]
  case begin i => exact hw i _ fun w h => by simp [h]
  case acquire i => exact hw i _ fun w h => by unfold acquire; rw [h]; simp
  case check i => exact hw i _ fun w h => by simp [check, h]
  case next i => exact hw i _ fun w h => by simp [next, h]
  case finish i => exact hw i _ fun w h => by simp [finish, h]
  case exit i => exact hw i _ fun w h => by simp [exit, h]

/-- A stop in progress goes on, and comes to an end. -/
theorem phase_step {p p' : Pool} {a : Action} (hinv : Inv p) (hp : Phase p) (hrt : p.realtime = false) (hi : a.internal = true)
    (ha : act p a = some (.ok p')) : Phase p' ∧ stopWeight p' < stopWeight p ∧ p'.realtime = false := by
  refine ⟨?_, ?_, (act_realtime ha).trans hrt⟩
  all_goals
    unfold Phase at hp
    split at hp
  -- cancelling
  · rename_i l hst
    obtain ⟨hsig, hall⟩ := hp
    cases a <;> simp only [act, Action.internal] at ha hi
    all_goals first | contradiction | skip
    case signal i =>
      obtain ⟨w, hw, ha⟩ := Option.bind_eq_some_iff.1 ha
      split at ha
      · omega
      · cases ha
    case signalNobody => split at ha; · omega
                         · cases ha
    case stopCancel =>
      rw [hst] at ha
      split at ha <;> cases ha
      rename_i i is hl
      cases hl
      refine ⟨hsig, ?_⟩
      intro j x hj
      have hj : (p.workers.modify i cancel)[j]? = some x := hj
      rw [List.getElem?_modify] at hj
      obtain ⟨y, hy, hyx⟩ := Option.map_eq_some_iff.1 hj
      by_cases hij : i = j
      · rw [if_pos hij] at hyx
        subst hyx
        rw [cancel_pc]
        refine (hall j y hy).imp_right fun h => ⟨h.1, ?_, .inr (cancel_cancelled h.2.1)⟩
        rw [cancel_cancelled h.2.1]; nofun
      · rw [if_neg hij] at hyx
        have : y = x := hyx
        subst this
        refine (hall j y hy).imp_right fun h => ⟨h.1, h.2.1, h.2.2.imp_left fun hm => ?_⟩
        exact (List.mem_cons.1 hm).resolve_left fun e => hij e.symm
    case stopSignal =>
      rw [hst] at ha
      split at ha <;> cases ha
      rename_i hl
      cases hl
      refine ⟨hsig, ?_⟩
      intro j x hj
      have hj : (p.workers.map wake)[j]? = some x := hj
      rw [List.getElem?_map] at hj
      obtain ⟨y, hy, rfl⟩ := Option.map_eq_some_iff.1 hj
      rcases hall j y hy with h | ⟨h1, h2, h3⟩
      · exact .inl (by simp [wake, h])
      · refine .inr ⟨by rw [state_wake]; exact h3.resolve_left (by simp), .inl (by simp [wake, h1])⟩
    case stopEnd => rw [hst] at ha; cases ha
    case begin i =>
      obtain ⟨w, hw, ha⟩ := Option.bind_eq_some_iff.1 ha
      rcases hall i w hw with h | ⟨h, -⟩ <;> simp [h] at ha
    case acquire i =>
      obtain ⟨w, hw, ha⟩ := Option.bind_eq_some_iff.1 ha
      rcases hall i w hw with h | ⟨h, -⟩ <;> (unfold acquire at ha; rw [h] at ha; simp at ha)
    case check i =>
      obtain ⟨w, hw, ha⟩ := Option.bind_eq_some_iff.1 ha
      rcases hall i w hw with h | ⟨h, -⟩ <;> simp [check, h] at ha
    case next i =>
      obtain ⟨w, hw, ha⟩ := Option.bind_eq_some_iff.1 ha
      rcases hall i w hw with h | ⟨h, -⟩ <;> simp [next, h] at ha
    case finish i =>
      obtain ⟨w, hw, ha⟩ := Option.bind_eq_some_iff.1 ha
      rcases hall i w hw with h | ⟨h, -⟩ <;> simp [finish, h] at ha
    case exit i =>
      obtain ⟨w, hw, ha⟩ := Option.bind_eq_some_iff.1 ha
      rcases hall i w hw with h | ⟨h, -⟩ <;> simp [exit, h] at ha
  · rename_i hst
    obtain ⟨hsig, hall⟩ := hp
    have hset : ∀ (q : Pool) (i : Nat) (w : Worker), q.workers = p.workers.set i w → q.stopper = p.stopper → q.signals = p.signals →
        (w.pc = .gone ∨ (w.state = .cancelled ∧ (w.pc = .waiting true ∨ w.pc = .top ∨ w.pc = .leaving))) → Phase q := by
      intro q i w hqw hqs hqg hw
      unfold Phase
      rw [hqs, hst]
      refine ⟨hqg.trans hsig, fun j x hj => ?_⟩
      rw [hqw, List.getElem?_set] at hj
      split at hj
      · split at hj
        · cases hj; exact hw
        · cases hj
      · exact hall j x hj
    cases a <;> simp only [act, Action.internal] at ha hi
    all_goals first | contradiction | skip
    case signal i =>
      obtain ⟨w, hw, ha⟩ := Option.bind_eq_some_iff.1 ha
      split at ha
      · omega
      · cases ha
    case signalNobody => split at ha; · omega
                         · cases ha
    case stopCancel => rw [hst] at ha; cases ha
    case stopSignal => rw [hst] at ha; cases ha
    case stopEnd =>
      rw [hst] at ha
      simp only at ha
      split at ha <;> cases ha
      rename_i h0
      have hc := hinv.w.stop (by rw [hst]; nofun)
      have hg : p.workers.countP notGone = 0 := by omega
      refine ⟨hsig, fun i w hw => ?_⟩
      have := List.countP_eq_zero.1 hg w (List.mem_of_getElem? hw)
      simpa [notGone] using this
    case begin i =>
      obtain ⟨w, hw, ha⟩ := Option.bind_eq_some_iff.1 ha
      rcases hall i w hw with h | ⟨-, h | h | h⟩ <;> simp [h] at ha
    case acquire i =>
      obtain ⟨w, hw, ha⟩ := Option.bind_eq_some_iff.1 ha
      unfold acquire at ha
      split at ha
      · cases ha
      · rcases hall i w hw with h | ⟨hc, h | h | h⟩ <;> rw [h] at ha <;> simp only [hrt] at ha <;> cases ha
        exact hset _ i _ rfl rfl rfl (.inr ⟨hc, .inr (.inl rfl)⟩)
    case check i =>
      obtain ⟨w, hw, ha⟩ := Option.bind_eq_some_iff.1 ha
      obtain ⟨x, hx, he⟩ := Option.map_eq_some_iff.1 ha
      cases he
      unfold check at hx
      rcases hall i w hw with h | ⟨hc, h | h | h⟩ <;> rw [h] at hx <;> simp only at hx <;> try cases hx
      rw [if_pos hc] at hx
      cases hx
      exact hset _ i _ rfl rfl rfl (.inr ⟨hc, .inr (.inr rfl)⟩)
    case next i =>
      obtain ⟨w, hw, ha⟩ := Option.bind_eq_some_iff.1 ha
      rcases hall i w hw with h | ⟨-, h | h | h⟩ <;> simp [next, h] at ha
    case finish i =>
      obtain ⟨w, hw, ha⟩ := Option.bind_eq_some_iff.1 ha
      rcases hall i w hw with h | ⟨-, h | h | h⟩ <;> simp [finish, h] at ha
    case exit i =>
      obtain ⟨w, hw, ha⟩ := Option.bind_eq_some_iff.1 ha
      unfold exit at ha
      split at ha
      · split at ha <;> cases ha
        exact hset _ i _ rfl rfl rfl (.inl rfl)
      · cases ha
  · rename_i hst
    exact absurd ha (by rw [dead hst hp.1 hp.2 hi]; nofun)
  · rename_i l hst
    obtain ⟨hsig, hall⟩ := hp
    cases a <;> simp only [act, Action.internal] at ha hi
    all_goals first | contradiction | skip
    case signal i =>
      obtain ⟨w, hw, ha⟩ := Option.bind_eq_some_iff.1 ha
      split at ha
      · omega
      · cases ha
    case signalNobody => split at ha; · omega
                         · cases ha
    case stopCancel =>
      rw [hst] at ha
      split at ha <;> cases ha
      rename_i i is hl
      cases hl
      have : total (p.workers.modify i cancel) = total p.workers := by
        rw [modify_eq_set]
        split
        · rename_i w hw
          have := total_set (cancel w) hw
          have h2 : weight (cancel w) = weight w := by simp only [weight, cancel_pc]
          omega
        · rfl
      simp only [stopWeight, hst, List.length_modify, List.length_cons, this]
      omega
    case stopSignal =>
      rw [hst] at ha
      split at ha <;> cases ha
      rename_i hl
      cases hl
      have := total_wake p.workers
      simp only [stopWeight, hst, List.length_nil]
      omega
    case stopEnd => rw [hst] at ha; cases ha
    case begin i =>
      obtain ⟨w, hw, ha⟩ := Option.bind_eq_some_iff.1 ha
      rcases hall i w hw with h | ⟨h, -⟩ <;> simp [h] at ha
    case acquire i =>
      obtain ⟨w, hw, ha⟩ := Option.bind_eq_some_iff.1 ha
      rcases hall i w hw with h | ⟨h, -⟩ <;> (unfold acquire at ha; rw [h] at ha; simp at ha)
    case check i =>
      obtain ⟨w, hw, ha⟩ := Option.bind_eq_some_iff.1 ha
      rcases hall i w hw with h | ⟨h, -⟩ <;> simp [check, h] at ha
    case next i =>
      obtain ⟨w, hw, ha⟩ := Option.bind_eq_some_iff.1 ha
      rcases hall i w hw with h | ⟨h, -⟩ <;> simp [next, h] at ha
    case finish i =>
      obtain ⟨w, hw, ha⟩ := Option.bind_eq_some_iff.1 ha
      rcases hall i w hw with h | ⟨h, -⟩ <;> simp [finish, h] at ha
    case exit i =>
      obtain ⟨w, hw, ha⟩ := Option.bind_eq_some_iff.1 ha
      rcases hall i w hw with h | ⟨h, -⟩ <;> simp [exit, h] at ha
  · rename_i hst
    obtain ⟨hsig, hall⟩ := hp
    cases a <;> simp only [act, Action.internal] at ha hi
    all_goals first | contradiction | skip
    case signal i =>
      obtain ⟨w, hw, ha⟩ := Option.bind_eq_some_iff.1 ha
      split at ha
      · omega
      · cases ha
    case signalNobody => split at ha; · omega
                         · cases ha
    case stopCancel => rw [hst] at ha; cases ha
    case stopSignal => rw [hst] at ha; cases ha
    case stopEnd =>
      rw [hst] at ha
      simp only at ha
      split at ha <;> cases ha
      simp [stopWeight, hst]
    case begin i =>
      obtain ⟨w, hw, ha⟩ := Option.bind_eq_some_iff.1 ha
      rcases hall i w hw with h | ⟨-, h | h | h⟩ <;> simp [h] at ha
    case acquire i =>
      obtain ⟨w, hw, ha⟩ := Option.bind_eq_some_iff.1 ha
      unfold acquire at ha
      split at ha
      · cases ha
      · rcases hall i w hw with h | ⟨hc, h | h | h⟩ <;> rw [h] at ha <;> simp only [hrt] at ha <;> cases ha
        have := total_set { w with pc := .top, idle := false } hw
        have h1 : weight w = 5 := by simp [weight, h]
        have h2 : weight { w with pc := .top, idle := false } = 4 := rfl
        simp only [stopWeight, hst, setWorker]
        omega
    case check i =>
      obtain ⟨w, hw, ha⟩ := Option.bind_eq_some_iff.1 ha
      obtain ⟨x, hx, he⟩ := Option.map_eq_some_iff.1 ha
      cases he
      unfold check at hx
      rcases hall i w hw with h | ⟨hc, h | h | h⟩ <;> rw [h] at hx <;> simp only at hx <;> try cases hx
      rw [if_pos hc] at hx
      cases hx
      have := total_set { w with pc := .leaving, idle := false } hw
      have h1 : weight w = 4 := by simp [weight, h]
      have h2 : weight { w with pc := .leaving, idle := false } = 2 := rfl
      simp only [stopWeight, hst, setWorker]
      omega
    case next i =>
      obtain ⟨w, hw, ha⟩ := Option.bind_eq_some_iff.1 ha
      rcases hall i w hw with h | ⟨-, h | h | h⟩ <;> simp [next, h] at ha
    case finish i =>
      obtain ⟨w, hw, ha⟩ := Option.bind_eq_some_iff.1 ha
      rcases hall i w hw with h | ⟨-, h | h | h⟩ <;> simp [finish, h] at ha
    case exit i =>
      obtain ⟨w, hw, ha⟩ := Option.bind_eq_some_iff.1 ha
      unfold exit at ha
      split at ha
      · rename_i hpc
        split at ha <;> cases ha
        have := total_set { w with pc := .gone, state := .finished } hw
        have h1 : weight w = 2 := by simp [weight, hpc]
        have h2 : weight { w with pc := .gone, state := .finished } = 0 := rfl
        simp only [stopWeight, hst, setWorker]
        omega
      · cases ha
  · rename_i hst
    exact absurd ha (by rw [dead hst hp.1 hp.2 hi]; nofun)

theorem phase_steps {p p' : Pool} {as : List Action} (hs : Steps p as p') : Inv p → Phase p → p.realtime = false → (∀ a ∈ as, a.internal = true) →
    as.length ≤ stopWeight p ∧ Phase p' ∧ Inv p' := by
  suffices h : Inv p → Phase p → p.realtime = false → (∀ a ∈ as, a.internal = true) →
      as.length + stopWeight p' ≤ stopWeight p ∧ Phase p' ∧ Inv p' by
    intro h1 h2 h3 h4
    obtain ⟨g1, g2, g3⟩ := h h1 h2 h3 h4
    exact ⟨by omega, g2, g3⟩
  induction hs with
  | nil => intro h1 h2 _ _; exact ⟨by simp, h2, h1⟩
  | cons ha _ ih =>
    intro h1 h2 h3 h4
    obtain ⟨g1, g2, g3⟩ := phase_step h1 h2 h3 (h4 _ (by simp)) ha
    obtain ⟨k1, k2, k3⟩ := ih (step_inv _ _ _ h1 ha) g1 g3 fun a ha => h4 a (List.mem_cons_of_mem _ ha)
    exact ⟨by simp only [List.length_cons]; omega, k2, k3⟩

theorem phase_quiet {p : Pool} (hinv : Inv p) (hp : Phase p) (hq : Quiet p) : p.stopper = none := by
  obtain ⟨-, hall⟩ := quiet_asleep hinv hq
  cases hst : p.stopper with
  | none => rfl
  | some s =>
    cases s with
    | cancelling l =>
      cases l with
      | nil => have := hq .stopSignal rfl; simp [act, hst] at this
      | cons i is => have := hq .stopCancel rfl; simp [act, hst] at this
    | waiting =>
      rw [Phase, hst] at hp
      have hg : p.workers.countP notGone = 0 := by
        refine List.countP_eq_zero.2 fun w hw => ?_
        obtain ⟨i, hi⟩ := List.getElem?_of_mem hw
        rcases hp.2 i w hi with h | ⟨-, h⟩
        · simp [notGone, h]
        · rcases hall w hw with h' | h'
          · simp [notGone, h']
          · rw [h'] at h; simp at h
      have hc := hinv.w.stop (by rw [hst]; nofun)
      have := hq .stopEnd rfl
      simp [act, hst, hc, hg] at this

end Pool
end Duck
