import Verif.Spec.Thread

/-! # Lemmas about threads -/

namespace Duck
namespace Thr

/-- The references of the new thread. -/
def Pc.refs : Pc → Int
  | .born => 1
  | .ready | .begun | .calling | .returned | .ended => 2
  | .finalized => 1
  | .gone => 0

def Pc.called : Pc → Nat
  | .born | .ready | .begun => 0
  | _ => 1

def Pc.came : Pc → Nat
  | .born | .ready | .begun | .calling => 0
  | _ => 1

/-- The states that go with a point of DKThreadExec. -/
def Pc.allows (pc : Pc) (s : TState) : Prop :=
  match pc with
  | .born | .ready => s = .started ∨ s = .cancelled
  | .begun | .calling | .returned => s = .running ∨ s = .cancelled
  | _ => s = .finished

/-- How far the thread has come. -/
inductive Phase (t : Thr) : Prop
  | fresh : t.state = .created → t.retaining = 0 → t.creating = 0 → t.detaching = 0 → t.cancelling = 0 → t.execs = [] → t.detached = false →
      t.procCalls = 0 → t.procReturns = 0 → t.count = t.userRefs → Phase t
  | retaining : (t.state = .started ∨ t.state = .cancelled) → t.retaining = 1 → t.creating = 0 → t.detaching = 0 → t.execs = [] → t.detached = false →
      t.procCalls = 0 → t.procReturns = 0 → t.count = t.userRefs → Phase t
  | creating : (t.state = .started ∨ t.state = .cancelled) → t.retaining = 0 → t.creating = 1 → t.detaching = 0 → t.execs = [] → t.detached = false →
      t.procCalls = 0 → t.procReturns = 0 → t.count = t.userRefs + 1 → Phase t
  | exec (pc : Pc) : pc.allows t.state → t.retaining = 0 → t.creating = 0 → (t.detaching = 1 ∧ t.detached = false ∨ t.detaching = 0 ∧ t.detached = true) →
      t.execs = [pc] → t.procCalls = pc.called → t.procReturns = pc.came → t.count = t.userRefs + pc.refs → Phase t

structure Inv (t : Thr) : Prop where
  phase : Phase t
  held : 0 < busy t → 0 < t.userRefs

theorem inv_init : Inv init := ⟨.fresh rfl rfl rfl rfl rfl rfl rfl rfl rfl rfl, by decide⟩

theorem touch_ok {t : Thr} {r : Res} {t' : Thr} (h : touch t r = some (.ok t')) : 0 < t.count ∧ r = .ok t' := by
  unfold touch at h
  split at h
  · cases h
  · cases h; exact ⟨by omega, rfl⟩

theorem refs_nonneg (pc : Pc) : 0 ≤ pc.refs := by cases pc <;> decide

theorem phase_count {t : Thr} (h : Phase t) : (t.userRefs : Int) ≤ t.count := by
  cases h with
  | fresh => omega
  | retaining => omega
  | creating => omega
  | exec pc => have := refs_nonneg pc; omega

theorem one_exec {t : Thr} (h : Phase t) {i : Nat} {pc : Pc} (hi : t.execs[i]? = some pc) : i = 0 ∧ t.execs = [pc] := by
  cases h with
  | fresh _ _ _ _ _ he => rw [he] at hi; simp at hi
  | retaining _ _ _ _ he => rw [he] at hi; simp at hi
  | creating _ _ _ _ he => rw [he] at hi; simp at hi
  | exec pc' _ _ _ _ he =>
    rw [he] at hi
    cases i with
    | zero => simp at hi; subst hi; exact ⟨rfl, he⟩
    | succ i => simp at hi

theorem phase_exec {t : Thr} (h : Phase t) {pc : Pc} (he : t.execs = [pc]) :
    pc.allows t.state ∧ t.retaining = 0 ∧ t.creating = 0 ∧ (t.detaching = 1 ∧ t.detached = false ∨ t.detaching = 0 ∧ t.detached = true) ∧
      t.procCalls = pc.called ∧ t.procReturns = pc.came ∧ t.count = t.userRefs + pc.refs := by
  cases h with
  | fresh _ _ _ _ _ he' => rw [he] at he'; cases he'
  | retaining _ _ _ _ he' => rw [he] at he'; cases he'
  | creating _ _ _ _ he' => rw [he] at he'; cases he'
  | exec pc' h1 h2 h3 h4 he' h5 h6 h7 => rw [he] at he'; cases he'; exact ⟨h1, h2, h3, h4, h5, h6, h7⟩

/-- A step of the new thread. -/
theorem exec_phase {t t' : Thr} (h : Inv t) {i : Nat} (ha : act t (.exec i) = some (.ok t')) :
    ∃ pc pc', t.execs = [pc] ∧ t'.execs = [pc'] ∧ Phase t' ∧ t'.userRefs = t.userRefs ∧ busy t' = busy t ∧
      (pc, pc') ∈ [(Pc.born, Pc.ready), (.ready, .begun), (.begun, .calling), (.calling, .returned), (.returned, .ended), (.ended, .finalized), (.finalized, .gone)] ∧
      (t'.state = t.state ∨ pc = .ready ∧ t'.state = .running ∨ pc = .returned ∧ t'.state = .finished) := by
  simp only [act, Option.bind_eq_some_iff] at ha
  obtain ⟨pc, hi, ha⟩ := ha
  obtain ⟨rfl, he⟩ := one_exec h.phase hi
  obtain ⟨h1, h2, h3, h4, h5, h6, h7⟩ := phase_exec h.phase he
  unfold exec at ha
  cases pc <;> simp only at ha
  case gone => cases ha
  all_goals
    obtain ⟨_, ha⟩ := touch_ok ha
    cases ha
    refine ⟨_, _, he, by rw [he]; rfl, .exec _ ?_ h2 h3 h4 (by rw [he]; rfl) ?_ ?_ ?_, rfl, rfl, by simp, ?_⟩ <;>
      simp_all [Pc.allows, Pc.called, Pc.came, Pc.refs] <;> omega

theorem step_inv {t t' : Thr} {a : Action} (h : Inv t) (ha : act t a = some (.ok t')) : Inv t' := by
  obtain ⟨hp, hb⟩ := h
  cases a with
  | exec i =>
    obtain ⟨pc, pc', _, _, hp', hu, hbu, _⟩ := exec_phase ⟨hp, hb⟩ ha
    exact ⟨hp', by rw [hu, hbu]; exact hb⟩
  | exit i =>
    simp only [act, Option.bind_eq_some_iff] at ha
    obtain ⟨pc, _, ha⟩ := ha
    unfold exit at ha; split at ha <;> cases ha
  | retain =>
    simp only [act] at ha
    split at ha
    · obtain ⟨hc, ha⟩ := touch_ok ha
      cases ha
      refine ⟨?_, fun _ => by simp⟩
      cases hp with
      | fresh a b c d e f g h i j => exact .fresh a b c d e f g h i (by simp [j])
      | retaining a b c d e f g h i => exact .retaining a b c d e f g h (by simp [i])
      | creating a b c d e f g h i => exact .creating a b c d e f g h (by simp only [i]; omega)
      | exec pc a b c d e f g h => exact .exec pc a b c d e f g (by simp only [h]; omega)
    · cases ha
  | release =>
    simp only [act] at ha
    split at ha
    · rename_i hlt
      obtain ⟨hc, ha⟩ := touch_ok ha
      cases ha
      have hlt' : t.retaining + t.creating + t.detaching + t.cancelling < t.userRefs := hlt
      refine ⟨?_, fun hx => by simp only [busy] at hx ⊢; omega⟩
      cases hp with
      | fresh a b c d e f g h i j => exact .fresh a b c d e f g h i (by simp only [j]; omega)
      | retaining a b c d e f g h i => exact .retaining a b c d e f g h (by simp only [i]; omega)
      | creating a b c d e f g h i => exact .creating a b c d e f g h (by simp only [i]; omega)
      | exec pc a b c d e f g h => exact .exec pc a b c d e f g (by simp only [h]; omega)
    · cases ha
  | start =>
    simp only [act] at ha
    split at ha
    · rename_i hu
      obtain ⟨hc, ha⟩ := touch_ok ha
      cases ha
      unfold start
      split
      · rename_i hs
        refine ⟨?_, fun _ => hu⟩
        cases hp with
        | fresh a b c d e f g h i j => exact .retaining (.inl rfl) (by simp [b]) c d f g h i j
        | retaining a => rw [hs] at a; simp at a
        | creating a => rw [hs] at a; simp at a
        | exec pc a => rw [hs] at a; cases pc <;> simp [Pc.allows] at a
      · exact ⟨hp, hb⟩
    · cases ha
  | startRetain =>
    simp only [act] at ha
    split at ha
    · rename_i hr
      obtain ⟨hc, ha⟩ := touch_ok ha
      cases ha
      refine ⟨?_, fun _ => hb (by simp only [busy]; omega)⟩
      cases hp with
      | fresh a b => omega
      | retaining a b c d e f g h i => exact .creating a (by simp [b]) (by simp [c]) d e f g h (by simp [i])
      | creating a b => omega
      | exec pc a b => omega
    · cases ha
  | startCreate =>
    simp only [act] at ha
    split at ha
    · rename_i hr
      obtain ⟨hc, ha⟩ := touch_ok ha
      cases ha
      refine ⟨?_, fun _ => hb (by simp only [busy]; omega)⟩
      cases hp with
      | fresh a b c => omega
      | retaining a b c => omega
      | creating a b c d e f g h i => exact .exec .born a b (by simp [c]) (.inl ⟨by simp [d], f⟩) (by simp [e]) g h (by simp [i, Pc.refs])
      | exec pc a b c => omega
    · cases ha
  | startDetach =>
    simp only [act] at ha
    split at ha
    · rename_i hr
      obtain ⟨hc, ha⟩ := touch_ok ha
      cases ha
      refine ⟨?_, fun _ => hb (by simp only [busy]; omega)⟩
      cases hp with
      | fresh a b c d => omega
      | retaining a b c d => omega
      | creating a b c d => omega
      | exec pc a b c d e f g h => exact .exec pc a b c (.inr ⟨by simp only; omega, rfl⟩) e f g h
    · cases ha
  | cancel =>
    simp only [act] at ha
    split at ha
    · rename_i hu
      obtain ⟨hc, ha⟩ := touch_ok ha
      cases ha
      unfold cancel
      split
      · exact ⟨hp, hb⟩
      · rename_i hs
        refine ⟨?_, fun _ => hu⟩
        cases hp with
        | fresh a => exact absurd a hs
        | retaining a b c d e f g h i => exact .retaining a b c d e f g h i
        | creating a b c d e f g h i => exact .creating a b c d e f g h i
        | exec pc a b c d e f g h => exact .exec pc a b c d e f g h
    · cases ha
  | cancelLock =>
    simp only [act] at ha
    split at ha
    · rename_i hr
      obtain ⟨hc, ha⟩ := touch_ok ha
      cases ha
      unfold cancelLock
      refine ⟨?_, fun _ => hb (by simp only [busy]; omega)⟩
      cases hp with
      | fresh a b c d e => omega
      | retaining a b c d e f g h i => exact .retaining (by rcases a with a | a <;> simp [a]) b c d e f g h i
      | creating a b c d e f g h i => exact .creating (by rcases a with a | a <;> simp [a]) b c d e f g h i
      | exec pc a b c d e f g h =>
        refine .exec pc ?_ b c d e f g h
        cases pc <;> simp only [Pc.allows] at a ⊢ <;> first | (rcases a with a | a <;> simp [a]) | simp [a]
    · cases ha

theorem reach_inv {t : Thr} (h : Reach t) : Inv t := by
  induction h with
  | init => exact inv_init
  | step _ ha ih => exact step_inv ih ha

theorem run_reach {t t' : Thr} {as : List Action} (h : Reach t) (r : Run t as t') : Reach t' := by
  induction r with
  | nil => exact h
  | cons ha _ ih => exact ih (.step h ha)

/-- Nothing but DKThreadExit crashes. -/
theorem no_crash {t : Thr} {a : Action} (h : Inv t) (ha : act t a = some .crash) : ∃ i, a = .exit i := by
  have hc := phase_count h.phase
  have hb : 0 < busy t → 0 < t.userRefs := h.held
  have key : ∀ r : Res, 0 < t.count → touch t r = some .crash → r = .crash := by
    intro r h0 hr
    unfold touch at hr
    rw [if_neg (by omega)] at hr
    cases hr; rfl
  cases a with
  | exit i => exact ⟨i, rfl⟩
  | exec i =>
    simp only [act, Option.bind_eq_some_iff] at ha
    obtain ⟨pc, hi, ha⟩ := ha
    obtain ⟨rfl, he⟩ := one_exec h.phase hi
    obtain ⟨_, _, _, _, _, _, h7⟩ := phase_exec h.phase he
    have : pc ≠ .gone → 0 < t.count := by
      intro hg
      cases pc <;> simp only [Pc.refs] at h7 <;> first | omega | exact absurd rfl hg
    unfold exec at ha
    cases pc <;> simp only at ha
    case gone => cases ha
    all_goals
      have := key _ (this (by decide)) ha
      cases this
  | retain =>
    simp only [act] at ha
    split at ha
    · rename_i hu
      have : 0 < t.count := by
        rcases hu with hu | hu
        · omega
        · obtain ⟨i, hi⟩ := List.mem_iff_getElem?.mp hu
          obtain ⟨_, he⟩ := one_exec h.phase hi
          obtain ⟨_, _, _, _, _, _, h7⟩ := phase_exec h.phase he
          simp only [Pc.refs] at h7; omega
      cases key _ this ha
    · cases ha
  | release =>
    simp only [act] at ha
    split at ha
    · cases key _ (by omega) ha
    · cases ha
  | start =>
    simp only [act] at ha
    split at ha
    · cases key _ (by omega) ha
    · cases ha
  | cancel =>
    simp only [act] at ha
    split at ha
    · cases key _ (by omega) ha
    · cases ha
  | startRetain =>
    simp only [act] at ha
    split at ha
    · have := hb (by simp only [busy]; omega)
      cases key _ (by omega) ha
    · cases ha
  | startCreate =>
    simp only [act] at ha
    split at ha
    · have := hb (by simp only [busy]; omega)
      cases key _ (by omega) ha
    · cases ha
  | startDetach =>
    simp only [act] at ha
    split at ha
    · have := hb (by simp only [busy]; omega)
      cases key _ (by omega) ha
    · cases ha
  | cancelLock =>
    simp only [act] at ha
    split at ha
    · have := hb (by simp only [busy]; omega)
      cases key _ (by omega) ha
    · cases ha

/-- How the state changes in one step. -/
theorem step_state {t t' : Thr} {a : Action} (h : Inv t) (ha : act t a = some (.ok t')) :
    t'.state = t.state ∨ a = .start ∧ t.state = .created ∧ t'.state = .started ∨
    a = .cancelLock ∧ (t.state = .started ∨ t.state = .running) ∧ t'.state = .cancelled ∨
    (∃ i, a = .exec i) ∧ t.procCalls = 0 ∧ (t.state = .started ∨ t.state = .cancelled) ∧ t'.state = .running ∨
    (∃ i, a = .exec i) ∧ t.procReturns = 1 ∧ (t.state = .running ∨ t.state = .cancelled) ∧ t'.state = .finished := by
  cases a with
  | exec i =>
    obtain ⟨pc, pc', he, _, _, _, _, _, hs⟩ := exec_phase h ha
    obtain ⟨h1, _, _, _, h5, h6, _⟩ := phase_exec h.phase he
    rcases hs with hs | ⟨rfl, hs⟩ | ⟨rfl, hs⟩
    · exact .inl hs
    · exact .inr (.inr (.inr (.inl ⟨⟨i, rfl⟩, h5, h1, hs⟩)))
    · exact .inr (.inr (.inr (.inr ⟨⟨i, rfl⟩, h6, h1, hs⟩)))
  | start =>
    simp only [act] at ha
    split at ha
    · obtain ⟨hc, ha⟩ := touch_ok ha
      cases ha
      unfold start
      split
      · rename_i hs; exact .inr (.inl ⟨rfl, hs, rfl⟩)
      · exact .inl rfl
    · cases ha
  | cancelLock =>
    simp only [act] at ha
    split at ha
    · obtain ⟨hc, ha⟩ := touch_ok ha
      cases ha
      unfold cancelLock
      by_cases hs : t.state = .started ∨ t.state = .running
      · rw [if_pos hs]; exact .inr (.inr (.inl ⟨rfl, hs, rfl⟩))
      · rw [if_neg hs]; exact .inl rfl
    · cases ha
  | cancel =>
    simp only [act] at ha
    split at ha
    · obtain ⟨hc, ha⟩ := touch_ok ha
      cases ha
      unfold cancel; split <;> exact .inl rfl
    · cases ha
  | exit i =>
    simp only [act, Option.bind_eq_some_iff] at ha
    obtain ⟨pc, _, ha⟩ := ha
    unfold exit at ha; split at ha <;> cases ha
  | _ =>
    simp only [act] at ha
    split at ha
    · obtain ⟨hc, ha⟩ := touch_ok ha
      cases ha
      exact .inl rfl
    · cases ha

/-- Calls and returns are not undone. -/
theorem step_calls {t t' : Thr} {a : Action} (ha : act t a = some (.ok t')) : t.procCalls ≤ t'.procCalls ∧ t.procReturns ≤ t'.procReturns := by
  cases a with
  | exec i =>
    simp only [act, Option.bind_eq_some_iff] at ha
    obtain ⟨pc, _, ha⟩ := ha
    unfold exec at ha
    cases pc <;> simp only at ha
    case gone => cases ha
    all_goals
      obtain ⟨_, ha⟩ := touch_ok ha
      cases ha
      simp
  | exit i =>
    simp only [act, Option.bind_eq_some_iff] at ha
    obtain ⟨pc, _, ha⟩ := ha
    unfold exit at ha; split at ha <;> cases ha
  | _ =>
    simp only [act] at ha
    split at ha
    · obtain ⟨hc, ha⟩ := touch_ok ha
      cases ha
      first
      | simp
      | (unfold start; split <;> simp)
      | (unfold cancel; split <;> simp)
      | (unfold cancelLock; simp)
    · cases ha

/-- What is left to do. -/
def Pc.left : Pc → Nat
  | .born => 7
  | .ready => 6
  | .begun => 5
  | .calling => 4
  | .returned => 3
  | .ended => 2
  | .finalized => 1
  | .gone => 0

def left (t : Thr) : Nat := 10 * t.retaining + 9 * t.creating + t.detaching + (t.execs.map Pc.left).sum

theorem step_left {t t' : Thr} {a : Action} (h : Inv t) (hs : t.state ≠ .created) (ha : act t a = some (.ok t')) :
    left t = left t' + (if a.internal then 1 else 0) := by
  cases a with
  | exec i =>
    obtain ⟨pc, pc', he, he', hp', _, _, hm, _⟩ := exec_phase h ha
    obtain ⟨_, h2, h3, _⟩ := phase_exec h.phase he
    obtain ⟨_, h2', h3', _⟩ := phase_exec hp' he'
    have hd : t'.detaching = t.detaching := by
      simp only [act, Option.bind_eq_some_iff] at ha
      obtain ⟨pc, _, ha⟩ := ha
      unfold exec at ha
      cases pc <;> simp only at ha
      case gone => cases ha
      all_goals
        obtain ⟨_, ha⟩ := touch_ok ha
        cases ha
        rfl
    simp only [List.mem_cons, List.not_mem_nil, or_false, Prod.mk.injEq] at hm
    have : pc.left = pc'.left + 1 := by
      rcases hm with ⟨rfl, rfl⟩ | ⟨rfl, rfl⟩ | ⟨rfl, rfl⟩ | ⟨rfl, rfl⟩ | ⟨rfl, rfl⟩ | ⟨rfl, rfl⟩ | ⟨rfl, rfl⟩ <;> rfl
    simp only [left, he, he', h2, h3, h2', h3', hd, this, Action.internal, List.map_cons, List.map_nil, List.sum_cons, List.sum_nil, if_true]
    omega
  | start =>
    simp only [act] at ha
    split at ha
    · obtain ⟨hc, ha⟩ := touch_ok ha
      cases ha
      rw [start, if_neg hs]; rfl
    · cases ha
  | startRetain =>
    simp only [act] at ha
    split at ha
    · obtain ⟨hc, ha⟩ := touch_ok ha
      cases ha
      simp only [left, Action.internal, if_true]; omega
    · cases ha
  | startCreate =>
    simp only [act] at ha
    split at ha
    · obtain ⟨hc, ha⟩ := touch_ok ha
      cases ha
      simp only [left, Action.internal, if_true, List.map_append, List.sum_append, List.map_cons, List.map_nil, List.sum_cons, List.sum_nil, Pc.left]; omega
    · cases ha
  | startDetach =>
    simp only [act] at ha
    split at ha
    · obtain ⟨hc, ha⟩ := touch_ok ha
      cases ha
      simp only [left, Action.internal, if_true]; omega
    · cases ha
  | cancel =>
    simp only [act] at ha
    split at ha
    · obtain ⟨hc, ha⟩ := touch_ok ha
      cases ha
      unfold cancel; split <;> rfl
    · cases ha
  | exit i =>
    simp only [act, Option.bind_eq_some_iff] at ha
    obtain ⟨pc, _, ha⟩ := ha
    unfold exit at ha; split at ha <;> cases ha
  | _ =>
    simp only [act] at ha
    split at ha
    · obtain ⟨hc, ha⟩ := touch_ok ha
      cases ha
      rfl
    · cases ha

theorem left_le {t : Thr} (h : Inv t) : left t ≤ 10 := by
  cases h.phase with
  | fresh a b c d e f => simp only [left, b, c, d, f]; decide
  | retaining a b c d e => simp only [left, b, c, d, e]; decide
  | creating a b c d e => simp only [left, b, c, d, e]; decide
  | exec pc a b c d e =>
    have : pc.left ≤ 7 := by cases pc <;> decide
    simp only [left, b, c, e, List.map_cons, List.map_nil, List.sum_cons, List.sum_nil]
    omega

theorem step_started {t t' : Thr} {a : Action} (h : Inv t) (hs : t.state ≠ .created) (ha : act t a = some (.ok t')) : t'.state ≠ .created := by
  rcases step_state h ha with h | ⟨_, _, h⟩ | ⟨_, _, h⟩ | ⟨_, _, _, h⟩ | ⟨_, _, _, h⟩
  · rw [h]; exact hs
  all_goals rw [h]; decide

theorem run_left {t t' : Thr} {as : List Action} (h : Inv t) (hs : t.state ≠ .created) (r : Run t as t') :
    left t = left t' + (as.filter Action.internal).length := by
  induction r with
  | nil => simp
  | cons ha _ ih =>
    have := step_left h hs ha
    have ih := ih (step_inv h ha) (step_started h hs ha)
    rw [List.filter_cons]
    split <;> rename_i hi <;> simp [hi] at this ⊢ <;> omega

/-- If nothing is left to do the thread has finished. -/
theorem quiet_finished {t : Thr} (h : Inv t) (hs : t.state ≠ .created) (hq : Quiet t) : t.execs = [.gone] ∧ t.detached = true := by
  have hc := phase_count h.phase
  have hb := h.held
  cases h.phase with
  | fresh a => exact absurd a hs
  | retaining a b c d e f g h i =>
    have := hq .startRetain rfl
    simp only [act, b, touch] at this
    simp at this
    split at this <;> cases this
  | creating a b c d e f g h i =>
    have := hq .startCreate rfl
    simp only [act, c, touch] at this
    simp at this
    split at this <;> cases this
  | exec pc a b c d e f g h =>
    rcases d with ⟨d, _⟩ | ⟨_, hd⟩
    · have := hq .startDetach rfl
      simp only [act, d, touch] at this
      simp at this
      split at this <;> cases this
    · refine ⟨?_, hd⟩
      have := hq (.exec 0) rfl
      simp only [act, e, List.getElem?_cons_zero, Option.bind_some] at this
      cases pc with
      | gone => exact e
      | _ => simp only [exec, touch] at this; split at this <;> cases this

end Thr
end Duck
