import Verif.Spec.Mutex
/-! Lemmas for C128. -/
namespace Duck
namespace Mutex

/-! ### One mutex, any calls -/

/-- How many levels thread `t` holds -/
def levels (s : St) (t : Nat) : Nat := if s.owner = some t then s.depth else 0

def Ok (s : St) : Prop := (s.owner = none ↔ s.depth = 0)

theorem ok_init : Ok init := by simp [Ok, init]

theorem step_eq {p k s e s' l b} (h : step p k s e = .returns s' l b) :
    (match e with
    | .lock t => lock p k t s
    | .tryLock t => tryLock p k t s
    | .unlock t => unlock p k t s
    | .wait t => wait t s
    | .signal _ w => signal w s
    | .signalAll _ => signalAll s
    | .wake w => wake w s
    | .resume t => resume t s) = .returns s' l b := by
  unfold step at h
  split at h
  · cases h
  · exact h

/-- What one event does to the owner and the depth -/
inductive Move (s s' : St) (l : List Log) : Prop
  | same (h : s'.owner = s.owner) (hd : s'.depth = s.depth) (hl : l = [])
  | enter (t : Nat) (h : s.owner = none) (h' : s'.owner = some t) (hd : s'.depth = 1) (hl : l = [.entered t])
  | again (t : Nat) (h : s.owner = some t) (h' : s'.owner = some t) (hd : s'.depth = s.depth + 1) (hl : l = [.entered t])
  | leave (t : Nat) (h : s.owner = some t) (h' : s'.owner = (if s.depth = 1 then none else some t))
      (hd : s'.depth = s.depth - 1) (hl : l = [.left t])

theorem leave_owner {s : St} {t : Nat} (h : s.owner = some t) :
    (Mutex.leave s).owner = (if s.depth = 1 then none else some t) := by
  unfold Mutex.leave; split <;> simp_all

theorem leave_depth (s : St) : (Mutex.leave s).depth = s.depth - 1 := by
  unfold Mutex.leave; split <;> simp_all

theorem step_move {p k s e s' l b} (h : step p k s e = .returns s' l b) : Move s s' l := by
  have h := step_eq h
  cases e with
  | lock t =>
    simp only [lock] at h
    split at h
    · cases h; exact .enter t ‹_› rfl rfl rfl
    · split at h
      · rename_i hc; cases h; exact .again t (by rw [‹s.owner = _›, hc.1]) (by simp [‹s.owner = _›, hc.1]) rfl rfl
      · cases h
  | tryLock t =>
    simp only [tryLock] at h
    split at h
    · cases h; exact .enter t ‹_› rfl rfl rfl
    · split at h
      · rename_i hc; cases h; exact .again t (by rw [‹s.owner = _›, hc.1]) (by simp [‹s.owner = _›, hc.1]) rfl rfl
      · cases h; exact .same rfl rfl rfl
  | unlock t =>
    simp only [unlock] at h
    split at h
    · cases h; exact .leave t ‹_› (leave_owner ‹_›) (leave_depth s) rfl
    · split at h
      · cases h; exact .same rfl rfl rfl
      · cases h
  | wait t =>
    simp only [wait] at h
    split at h
    · cases h; exact .leave t ‹_› (leave_owner ‹_›) (leave_depth s) rfl
    · cases h
  | signal t w =>
    simp only [signal] at h
    split at h
    · cases h; exact .same rfl rfl rfl
    · split at h
      · cases h; exact .same rfl rfl rfl
      · cases h
  | signalAll t => simp only [signalAll] at h; cases h; exact .same rfl rfl rfl
  | wake w =>
    simp only [wake] at h
    split at h
    · cases h; exact .same rfl rfl rfl
    · cases h
  | resume t =>
    simp only [resume] at h
    split at h
    · split at h
      · cases h; exact .enter t ‹_› rfl rfl rfl
      · split at h
        · rename_i hc; cases h; exact .again t (by rw [‹s.owner = _›, hc]) (by simp [‹s.owner = _›, hc]) rfl rfl
        · cases h
    · cases h

theorem Move.ok {s s' l} (m : Move s s' l) (h : Ok s) : Ok s' := by
  unfold Ok at *
  cases m with
  | same h1 h2 _ => rw [h1, h2]; exact h
  | enter t _ h1 h2 _ => simp [h1, h2]
  | again t _ h1 h2 _ => simp [h1, h2]
  | leave t h0 h1 h2 _ =>
    rw [h1, h2]
    simp only [h0, reduceCtorEq, false_iff] at h
    split <;> simp <;> omega

theorem Move.count {s s' l} (m : Move s s' l) (h : Ok s) (t : Nat) :
    l.count (.entered t) + levels s t = l.count (.left t) + levels s' t := by
  unfold Ok at h
  cases m with
  | same h1 h2 hl => simp [levels, h1, h2, hl]
  | enter u h0 h1 h2 hl =>
    by_cases hu : u = t <;> simp [levels, h0, h1, h2, hl, hu]
  | again u h0 h1 h2 hl =>
    by_cases hu : u = t <;> simp [levels, h0, h1, h2, hl, hu] <;> omega
  | leave u h0 h1 h2 hl =>
    simp only [h0, reduceCtorEq, false_iff] at h
    by_cases hu : u = t <;> by_cases hd : s.depth = 1 <;>
      simp [levels, h0, h1, h2, hl, hu, hd] <;> omega

theorem exec_count {p k} (t : Nat) : ∀ (es : List Ev) (s s' : St) (l : List Log), Ok s → exec p k es s = some (s', l) →
    Ok s' ∧ entries l t + levels s t = exits l t + levels s' t
  | [], s, s', l, ho, h => by
    simp only [exec, Option.some.injEq, Prod.mk.injEq] at h
    obtain ⟨rfl, rfl⟩ := h
    exact ⟨ho, by simp [entries, exits]⟩
  | e :: es, s, s', l, ho, h => by
    simp only [exec] at h
    split at h
    · rename_i s1 l1 b hs
      cases hx : exec p k es s1 with
      | none => simp [hx] at h
      | some r =>
        simp only [hx, Option.map_some, Option.some.injEq, Prod.mk.injEq] at h
        obtain ⟨rfl, rfl⟩ := h
        have m := step_move hs
        have ih := exec_count t es s1 r.1 r.2 (m.ok ho) hx
        have := m.count ho t
        refine ⟨ih.1, ?_⟩
        have h2 := ih.2
        simp only [entries, exits, List.count_append] at h2 ⊢
        omega
    · cases h

/-- A thread sleeps or has been woken, not both -/
def Apart (s : St) : Prop := ∀ t ∈ s.asleep, t ∉ s.returning

theorem leave_asleep (s : St) : (Mutex.leave s).asleep = s.asleep := by unfold Mutex.leave; split <;> rfl

theorem leave_returning (s : St) : (Mutex.leave s).returning = s.returning := by unfold Mutex.leave; split <;> rfl

theorem woken_apart {s : St} {w : Nat} (h : Apart s) :
    Apart { s with asleep := s.asleep.filter (· ≠ w), returning := s.returning ++ [w] } := by
  intro u hu hr
  simp only [List.mem_filter, decide_eq_true_eq] at hu
  simp only [List.mem_append, List.mem_singleton] at hr
  rcases hr with hr | hr
  · exact h u hu.1 hr
  · exact hu.2 hr

theorem apart_step {p k s e s' l b} (h : step p k s e = .returns s' l b) (ha : Apart s) : Apart s' := by
  have hcall : ¬ ∃ t ∈ e.caller, t ∈ s.asleep ∨ t ∈ s.returning := by
    intro hc; unfold step at h; rw [if_pos hc] at h; cases h
  have h := step_eq h
  cases e with
  | lock t =>
    simp only [lock] at h
    split at h
    · cases h; exact ha
    · split at h <;> cases h; exact ha
  | tryLock t =>
    simp only [tryLock] at h
    split at h
    · cases h; exact ha
    · split at h <;> cases h <;> exact ha
  | unlock t =>
    simp only [unlock] at h
    split at h
    · cases h; unfold Apart; rw [leave_asleep, leave_returning]; exact ha
    · split at h <;> cases h; exact ha
  | wait t =>
    have ht : ¬ (t ∈ s.asleep ∨ t ∈ s.returning) := fun hc => hcall ⟨t, by simp [Ev.caller], hc⟩
    simp only [wait] at h
    split at h
    · cases h
      intro u hu hr
      simp only [leave_returning] at hr
      simp only [List.mem_append, List.mem_singleton] at hu
      rcases hu with hu | rfl
      · exact ha u hu hr
      · exact ht (.inr hr)
    · cases h
  | signal t w =>
    simp only [signal] at h
    split at h
    · cases h; exact woken_apart ha
    · split at h <;> cases h; exact ha
  | signalAll t => simp only [signalAll] at h; cases h; intro u hu; cases hu
  | wake w =>
    simp only [wake] at h
    split at h <;> cases h; exact woken_apart ha
  | resume t =>
    have key : ∀ (o : Option Nat) (d : Nat), Apart { s with owner := o, depth := d, returning := s.returning.filter (· ≠ t) } :=
      fun o d u hu hr => ha u hu (List.mem_filter.1 hr).1
    simp only [resume] at h
    split at h
    · split at h
      · cases h; exact key _ _
      · split at h <;> cases h; exact key _ _
    · cases h

/-- A plain POSIX mutex is held once at most, and a thread that waits does not hold it -/
def Once (s : St) : Prop := Ok s ∧ Apart s ∧ s.depth ≤ 1 ∧ ∀ t, t ∈ s.asleep ∨ t ∈ s.returning → s.owner ≠ some t

theorem once_init : Once init := ⟨ok_init, by simp [Apart, init], by simp [init], by simp [init]⟩

theorem Once.leave_free {s : St} (h : Once s) {t : Nat} (ho : s.owner = some t) :
    Mutex.leave s = { s with owner := none, depth := 0 } := by
  have : s.depth ≠ 0 := fun hd => by have := h.1.2 hd; rw [ho] at this; cases this
  have h1 : s.depth = 1 := by have := h.2.2.1; omega
  unfold Mutex.leave; rw [if_pos h1]

theorem once_step {s e s' l b} (h : step .posix .plain s e = .returns s' l b) (ho : Once s) : Once s' := by
  refine ⟨(step_move h).ok ho.1, apart_step h ho.2.1, ?_⟩
  obtain ⟨_, ha, hd, hw⟩ := id ho
  have hcall : ¬ ∃ t ∈ e.caller, t ∈ s.asleep ∨ t ∈ s.returning := by
    intro hc; unfold step at h; rw [if_pos hc] at h; cases h
  have h := step_eq h
  cases e with
  | lock t =>
    have ht : ¬ (t ∈ s.asleep ∨ t ∈ s.returning) := fun hc => hcall ⟨t, by simp [Ev.caller], hc⟩
    simp only [lock, reentrant] at h
    split at h
    · cases h; exact ⟨Nat.le_refl 1, fun u hu he => ht (by cases he; exact hu)⟩
    · simp at h
  | tryLock t =>
    have ht : ¬ (t ∈ s.asleep ∨ t ∈ s.returning) := fun hc => hcall ⟨t, by simp [Ev.caller], hc⟩
    simp only [tryLock, reentrant] at h
    split at h
    · cases h; exact ⟨Nat.le_refl 1, fun u hu he => ht (by cases he; exact hu)⟩
    · simp at h; obtain ⟨rfl, _⟩ := h; exact ⟨hd, hw⟩
  | unlock t =>
    simp only [unlock] at h
    split at h
    · rename_i hown
      rw [ho.leave_free hown] at h; cases h
      exact ⟨Nat.zero_le 1, by simp⟩
    · cases h
  | wait t =>
    simp only [wait] at h
    split at h
    · rename_i hown
      rw [ho.leave_free hown] at h; cases h
      exact ⟨Nat.zero_le 1, by simp⟩
    · cases h
  | signal t w =>
    simp only [signal] at h
    split at h
    · cases h
      refine ⟨hd, fun u hu => hw u ?_⟩
      simp only [List.mem_filter, List.mem_append, List.mem_singleton] at hu
      rcases hu with hu | hu | rfl
      · exact .inl hu.1
      · exact .inr hu
      · exact .inl ‹_›
    · split at h
      · cases h; exact ⟨hd, hw⟩
      · cases h
  | signalAll t =>
    simp only [signalAll] at h; cases h
    refine ⟨hd, fun u hu => hw u ?_⟩
    simp only [List.not_mem_nil, false_or, List.mem_append] at hu
    exact hu.symm
  | wake w =>
    simp only [wake] at h
    split at h
    · cases h
      refine ⟨hd, fun u hu => hw u ?_⟩
      simp only [List.mem_filter, List.mem_append, List.mem_singleton] at hu
      rcases hu with hu | hu | rfl
      · exact .inl hu.1
      · exact .inr hu
      · exact .inl ‹_›
    · cases h
  | resume t =>
    simp only [resume] at h
    split at h
    · rename_i hr
      split at h
      · cases h
        refine ⟨Nat.le_refl 1, fun u hu he => ?_⟩
        cases he
        rcases hu with hu | hu
        · exact ha _ hu hr
        · simp at hu
      · split at h
        · rename_i u hu hut
          exact absurd (by rw [hu, hut]) (hw t (.inr hr))
        · cases h
    · cases h

theorem once_exec : ∀ (es : List Ev) (s s' : St) (l : List Log), Once s → exec .posix .plain es s = some (s', l) → Once s'
  | [], s, s', l, ho, h => by
    simp only [exec, Option.some.injEq, Prod.mk.injEq] at h
    exact h.1 ▸ ho
  | e :: es, s, s', l, ho, h => by
    simp only [exec] at h
    split at h
    · rename_i s1 l1 b hs
      cases hx : exec .posix .plain es s1 with
      | none => simp [hx] at h
      | some r =>
        simp only [hx, Option.map_some, Option.some.injEq, Prod.mk.injEq] at h
        exact h.1 ▸ once_exec es s1 r.1 r.2 (once_step hs ho) hx
    · cases h

/-! ### Waiting for a condition -/

/-- The thread has the mutex -/
def holds : Pc → Bool
  | .test | .unlocking | .setAssign | .setSignal | .setUnlock => true
  | _ => false

structure J (s : Sys) : Prop where
  own : ∀ t, s.st.owner = some t ↔ holds (s.pc t) = true
  dep : s.st.owner ≠ none → s.st.depth = 1
  apart : Apart s.st
  wt : ∀ t, (t ∈ s.st.asleep ∨ t ∈ s.st.returning) ↔ s.pc t = .waiting
  sg : s.ready = true → s.st.asleep ≠ [] → ∃ u, s.pc u = .setSignal

theorem call_eq {s s' : Sys} {t r c} (h : s.call t r c = some s') :
    ∃ st l b, r = .returns st l b ∧ s' = { s with st := st }.goto t c := by
  unfold Sys.call at h
  split at h
  · exact ⟨_, _, _, rfl, by cases h; rfl⟩
  · cases h

theorem J.free {s : Sys} (j : J s) {t : Nat} (h : s.pc t ≠ .waiting) : ¬ (t ∈ s.st.asleep ∨ t ∈ s.st.returning) :=
  fun hc => h ((j.wt t).1 hc)

theorem step_call {p k s e t} (hc : e.caller = some t) (h : ¬ (t ∈ s.asleep ∨ t ∈ s.returning)) :
    step p k s e = (match e with
    | .lock t => lock p k t s
    | .tryLock t => tryLock p k t s
    | .unlock t => unlock p k t s
    | .wait t => wait t s
    | .signal _ w => signal w s
    | .signalAll _ => signalAll s
    | .wake w => wake w s
    | .resume t => resume t s) := by
  unfold step
  exact if_neg (by rw [hc]; rintro ⟨u, hu, hh⟩; cases hu; exact h hh)

theorem step_lock {p k s t} (h : ¬ (t ∈ s.asleep ∨ t ∈ s.returning)) (ho : s.owner = none) :
    step p k s (.lock t) = .returns { s with owner := some t, depth := 1 } [.entered t] true := by
  rw [step_call (t := t) rfl h]; simp only [lock, ho]

theorem step_lock_free {p k s t s' l b} (h : step p k s (.lock t) = .returns s' l b) (hn : s.owner ≠ some t) :
    s.owner = none := by
  have h := step_eq h
  simp only [lock] at h
  split at h
  · assumption
  · split at h
    · rename_i hu hc; rw [hu, hc.1] at hn; exact absurd rfl hn
    · cases h

theorem step_unlock {p k s t} (h : ¬ (t ∈ s.asleep ∨ t ∈ s.returning)) (ho : s.owner = some t) (hd : s.depth = 1) :
    step p k s (.unlock t) = .returns { s with owner := none, depth := 0 } [.left t] true := by
  rw [step_call (t := t) rfl h]; simp only [unlock, ho, if_true, Mutex.leave, hd]

theorem step_wait {p k s t} (h : ¬ (t ∈ s.asleep ∨ t ∈ s.returning)) (ho : s.owner = some t) (hd : s.depth = 1) :
    step p k s (.wait t) = .returns ⟨none, 0, s.asleep ++ [t], s.returning⟩ [.left t] true := by
  rw [step_call (t := t) rfl h]; simp only [wait, ho, if_true, Mutex.leave, hd]

theorem step_all {p k s t} (h : ¬ (t ∈ s.asleep ∨ t ∈ s.returning)) :
    step p k s (.signalAll t) = .returns { s with asleep := [], returning := s.returning ++ s.asleep } [] true := by
  rw [step_call (t := t) rfl h]; rfl

theorem step_resume {p k s t} (ht : t ∈ s.returning) (ho : s.owner = none) :
    step p k s (.resume t) =
      .returns { s with owner := some t, depth := 1, returning := s.returning.filter (· ≠ t) } [.entered t] true := by
  unfold step
  rw [if_neg (by rintro ⟨u, hu, _⟩; cases hu)]
  simp only [resume, ho, if_pos ht]

theorem step_resume_free {p k s t s' l b} (h : step p k s (.resume t) = .returns s' l b) (hn : s.owner ≠ some t) :
    t ∈ s.returning ∧ s.owner = none := by
  have h := step_eq h
  simp only [resume] at h
  split at h
  · split at h
    · exact ⟨‹_›, ‹_›⟩
    · split at h
      · rename_i hu hc; rw [hu, hc] at hn; exact absurd rfl hn
      · cases h
  · cases h

theorem goto_pc (s : Sys) (t u : Nat) (c : Pc) : (s.goto t c).pc u = if u = t then c else s.pc u := rfl

/-- The invariant after thread `t` went on to `c` -/
theorem J.move {s : Sys} (j : J s) {st : St} {r : Bool} {t : Nat} {c : Pc}
    (own : st.owner = if holds c then some t else (if holds (s.pc t) then none else s.st.owner))
    (excl : holds c = true → holds (s.pc t) = true ∨ s.st.owner = none)
    (dep : st.owner ≠ none → st.depth = 1) (ap : Apart st)
    (wt : ∀ u, (u ∈ st.asleep ∨ u ∈ st.returning) ↔ if u = t then c = .waiting else s.pc u = .waiting)
    (sg : r = true → st.asleep ≠ [] → c = .setSignal ∨ ∃ u, u ≠ t ∧ s.pc u = .setSignal) :
    J (Sys.goto ⟨st, r, s.pc⟩ t c) where
  own u := by
    show st.owner = some u ↔ holds (if u = t then c else s.pc u) = true
    rw [own]
    by_cases hu : u = t
    · subst hu
      simp only [if_true]
      cases hc : holds c
      · cases hp : holds (s.pc u)
        · have := j.own u; simp [hp] at this ⊢; exact this
        · simp
      · simp
    · simp only [if_neg hu]
      have ju := j.own u
      have jt := j.own t
      cases hc : holds c
      · cases hp : holds (s.pc t)
        · simpa using ju
        · have : s.st.owner = some t := jt.2 hp
          rw [this] at ju
          simp [Ne.symm hu] at ju
          simp [ju]
      · have : ¬ s.st.owner = some u := by
          rcases excl hc with h | h
          · rw [jt.2 h]; simpa using Ne.symm hu
          · rw [h]; simp
        rw [ju] at this
        simp [Ne.symm hu, this]
  dep := dep
  apart := ap
  wt u := by
    rw [goto_pc]
    refine (wt u).trans ?_
    by_cases hu : u = t <;> simp [hu]
  sg h1 h2 := by
    rcases sg h1 h2 with h | ⟨u, hu, h⟩
    · exact ⟨t, by rw [goto_pc, if_pos rfl]; exact h⟩
    · exact ⟨u, by rw [goto_pc, if_neg hu]; exact h⟩

/-- Nobody signals while the mutex is free or with thread `t`, which does not -/
theorem J.quiet {s : Sys} (j : J s) {t : Nat} (ht : s.pc t ≠ .setSignal) (h : s.st.owner = none ∨ s.st.owner = some t)
    (hr : s.ready = true) : s.st.asleep = [] := by
  cases ha : s.st.asleep with
  | nil => rfl
  | cons a l =>
    obtain ⟨u, hu⟩ := j.sg hr (by rw [ha]; simp)
    have := (j.own u).2 (by rw [hu]; rfl)
    rcases h with h | h
    · rw [h] at this; cases this
    · rw [h] at this; cases this; exact absurd hu ht

theorem J.other {s : Sys} (j : J s) {t : Nat} (h : s.pc t ≠ .waiting) (u : Nat) :
    (u ∈ s.st.asleep ∨ u ∈ s.st.returning) ↔ if u = t then False else s.pc u = .waiting := by
  by_cases hu : u = t
  · subst hu; simpa using j.free h
  · simpa [hu] using j.wt u


theorem J.lock {p k} {s s' : Sys} (j : J s) {t : Nat} {c : Pc} (hw : s.pc t ≠ .waiting) (hh : holds (s.pc t) = false)
    (hc : holds c = true) (hcw : c ≠ .waiting) (h : s.call t (step p k s.st (.lock t)) c = some s') :
    J s' ∧ s'.ready = s.ready ∧ s'.pc = fun u => if u = t then c else s.pc u := by
  obtain ⟨st, l, b, h1, rfl⟩ := call_eq h
  have hn : s.st.owner ≠ some t := fun he => by have := (j.own t).1 he; rw [hh] at this; cases this
  have ho := step_lock_free h1 hn
  rw [step_lock (j.free hw) ho] at h1
  cases h1
  refine ⟨j.move (by simp [hc]) (fun _ => .inr ho) (fun _ => rfl) j.apart ?_ ?_, rfl, rfl⟩
  · intro u; refine (j.other hw u).trans ?_; by_cases hu : u = t <;> simp [hu, hcw]
  · intro hr ha
    obtain ⟨u, hu⟩ := j.sg hr ha
    have := (j.own u).2 (by rw [hu]; rfl)
    rw [ho] at this; cases this

theorem J.unlock {p k} {s s' : Sys} (j : J s) {t : Nat} (hh : holds (s.pc t) = true) (hs : s.pc t ≠ .setSignal)
    (h : s.call t (step p k s.st (.unlock t)) .done = some s') :
    J s' ∧ s'.ready = s.ready ∧ s'.pc = fun u => if u = t then .done else s.pc u := by
  obtain ⟨st, l, b, h1, rfl⟩ := call_eq h
  have ho := (j.own t).2 hh
  have hw : s.pc t ≠ .waiting := fun he => by rw [he] at hh; cases hh
  rw [step_unlock (j.free hw) ho (j.dep (by rw [ho]; simp))] at h1
  cases h1
  refine ⟨j.move (by rw [hh]; rfl) (by simp [holds]) (by simp) j.apart ?_ ?_, rfl, rfl⟩
  · intro u; refine (j.other hw u).trans ?_; by_cases hu : u = t <;> simp [hu]
  · intro hr ha
    exact absurd (j.quiet hs (.inr ho) hr) ha

/-- What a step of a thread does to the positions -/
inductive Next (ready : Bool) : Pc → Bool → Pc → Prop
  | start : Next ready .start ready .test
  | test : ready = true → Next ready .test ready .unlocking
  | wait : ready = false → Next ready .test ready .waiting
  | waiting : Next ready .waiting ready .test
  | unlocking : Next ready .unlocking ready .done
  | setLock : Next ready .setLock ready .setAssign
  | setAssign : Next ready .setAssign true .setSignal
  | setSignal : Next ready .setSignal ready .setUnlock
  | setUnlock : Next ready .setUnlock ready .done

theorem J.thread {p k} {s s' : Sys} (j : J s) {t : Nat} (h : thread p k t s = some s') :
    J s' ∧ ∃ c, Next s.ready (s.pc t) s'.ready c ∧ s'.pc = fun u => if u = t then c else s.pc u := by
  unfold Mutex.thread at h
  split at h
  · rename_i hp
    obtain ⟨a, b, c⟩ := j.lock (by simp [hp]) (by simp [hp, holds]) rfl (by simp) h
    exact ⟨a, .test, by rw [hp, b]; exact .start, c⟩
  · rename_i hp
    have ho := (j.own t).2 (by rw [hp]; rfl)
    have hw : s.pc t ≠ .waiting := by simp [hp]
    split at h
    · rename_i hr
      cases h
      refine ⟨j.move (by simp [holds, ho]) (fun _ => .inl (by simp [hp, holds])) j.dep j.apart ?_ ?_, .unlocking, ?_, rfl⟩
      · intro u; refine (j.other hw u).trans ?_; by_cases hu : u = t <;> simp [hu]
      · intro hr ha; exact absurd (j.quiet (by simp [hp]) (.inr ho) hr) ha
      · rw [hp]; exact .test hr
    · rename_i hr
      obtain ⟨st, l, b, h1, rfl⟩ := call_eq h
      rw [step_wait (j.free hw) ho (j.dep (by rw [ho]; simp))] at h1
      cases h1
      have hf := j.free hw
      refine ⟨j.move (by simp [holds, hp]) (by simp [holds]) (by simp) ?_ ?_ ?_, .waiting, ?_, rfl⟩
      · intro u hu
        simp only [List.mem_append, List.mem_singleton] at hu
        rcases hu with hu | rfl
        · exact j.apart u hu
        · exact fun hc => hf (.inr hc)
      · intro u
        have := j.other hw u
        by_cases hu : u = t
        · simp [hu]
        · simp only [List.mem_append, List.mem_singleton, hu, or_false, if_false] at this ⊢; exact this
      · intro hr' ha; exact absurd hr' hr
      · rw [hp]; exact .wait (by simpa using hr)
  · rename_i hp
    obtain ⟨st, l, b, h1, rfl⟩ := call_eq h
    have hn : s.st.owner ≠ some t := fun he => by have := (j.own t).1 he; rw [hp] at this; cases this
    obtain ⟨hr, ho⟩ := step_resume_free h1 hn
    rw [step_resume hr ho] at h1
    cases h1
    have hna : t ∉ s.st.asleep := fun hc => j.apart t hc hr
    refine ⟨j.move (by simp [holds]) (fun _ => .inr ho) (fun _ => rfl) ?_ ?_ ?_, .test, by rw [hp]; exact .waiting, rfl⟩
    · exact fun u hu hr => j.apart u hu (List.mem_filter.1 hr).1
    · intro u
      by_cases hu : u = t
      · subst hu; simp [hna]
      · simp only [List.mem_filter, decide_eq_true_eq, hu, not_false_eq_true, and_true, if_false, ne_eq]
        exact j.wt u
    · intro hr ha; exact absurd (j.quiet (t := t) (by simp [hp]) (.inl ho) hr) ha
  · rename_i hp
    obtain ⟨a, b, c⟩ := j.unlock (by simp [hp, holds]) (by simp [hp]) h
    exact ⟨a, .done, by rw [hp, b]; exact .unlocking, c⟩
  · rename_i hp
    obtain ⟨a, b, c⟩ := j.lock (by simp [hp]) (by simp [hp, holds]) rfl (by simp) h
    exact ⟨a, .setAssign, by rw [hp, b]; exact .setLock, c⟩
  · rename_i hp
    have ho := (j.own t).2 (by rw [hp]; rfl)
    have hw : s.pc t ≠ .waiting := by simp [hp]
    cases h
    refine ⟨j.move (by simp [holds, ho]) (fun _ => .inl (by simp [hp, holds])) j.dep j.apart ?_ (fun _ _ => .inl rfl),
      .setSignal, by rw [hp]; exact .setAssign, rfl⟩
    intro u; refine (j.other hw u).trans ?_; by_cases hu : u = t <;> simp [hu]
  · rename_i hp
    have ho := (j.own t).2 (by rw [hp]; rfl)
    have hw : s.pc t ≠ .waiting := by simp [hp]
    obtain ⟨st, l, b, h1, rfl⟩ := call_eq h
    rw [step_all (j.free hw)] at h1
    cases h1
    refine ⟨j.move (by simp [holds, ho]) (fun _ => .inl (by simp [hp, holds])) j.dep ?_ ?_ ?_,
      .setUnlock, by rw [hp]; exact .setSignal, rfl⟩
    · intro u hu; cases hu
    · intro u
      have := j.other hw u
      by_cases hu : u = t
      · subst hu
        simp only [if_true, List.not_mem_nil, false_or, List.mem_append, reduceCtorEq, iff_false] at this ⊢
        exact fun hc => this hc.symm
      · simp only [hu, if_false, List.not_mem_nil, false_or, List.mem_append] at this ⊢
        exact or_comm.trans this
    · intro _ ha; exact absurd rfl ha
  · rename_i hp
    obtain ⟨a, b, c⟩ := j.unlock (by simp [hp, holds]) (by simp [hp]) h
    exact ⟨a, .done, by rw [hp, b]; exact .setUnlock, c⟩
  · cases h

theorem J.wakeUp {p k} {s s' : Sys} (j : J s) {w : Nat} (h : wakeUp p k w s = some s') :
    J s' ∧ s'.ready = s.ready ∧ s'.pc = s.pc := by
  unfold Mutex.wakeUp at h
  split at h
  · rename_i st l b h1
    cases h
    have hap := apart_step h1 j.apart
    have h1 := step_eq h1
    simp only [wake] at h1
    split at h1
    · rename_i hw
      cases h1
      refine ⟨⟨j.own, j.dep, hap, fun t => ?_, fun hr ha => j.sg hr fun hn => ha ?_⟩, rfl, rfl⟩
      · rw [← j.wt t]
        simp only [List.mem_filter, decide_eq_true_eq, List.mem_append, List.mem_singleton, ne_eq]
        by_cases ht : t = w
        · subst ht; simp [hw]
        · simp [ht]
      · show s.st.asleep.filter _ = []
        rw [hn]; rfl
    · cases h1
  · cases h

theorem J.go {p k} : ∀ (cs : List Choice) (s s' : Sys), J s → go p k cs s = some s' → J s'
  | [], s, s', j, h => by simp only [Mutex.go, Option.some.injEq] at h; exact h ▸ j
  | .thread t :: cs, s, s', j, h => by
    simp only [Mutex.go] at h
    cases hx : Mutex.thread p k t s with
    | none => simp [hx] at h
    | some s1 => exact J.go cs s1 s' (j.thread hx).1 (by simpa [hx] using h)
  | .wakeUp w :: cs, s, s', j, h => by
    simp only [Mutex.go] at h
    cases hx : Mutex.wakeUp p k w s with
    | none => simp [hx] at h
    | some s1 => exact J.go cs s1 s' (j.wakeUp hx).1 (by simpa [hx] using h)

theorem J.initial (n : Nat) (f : Nat → Bool) : J (initial n f) := by
  have hh : ∀ t, holds ((Mutex.initial n f).pc t) = false := by
    intro t; simp only [Mutex.initial]; split
    · split <;> rfl
    · rfl
  have hw : ∀ t, (Mutex.initial n f).pc t ≠ .waiting := by
    intro t; simp only [Mutex.initial]; split
    · split <;> simp
    · simp
  refine J.mk (fun t => ?_) (fun h => absurd rfl h) (fun t h => nomatch h) (fun t => ?_) (fun h => nomatch h)
  · rw [hh]; simp [Mutex.initial, init]
  · simp [hw]; simp [Mutex.initial, init]

/-- The thread with the mutex can go on -/
theorem J.holder_goes {s : Sys} (p k) (j : J s) {t : Nat} (h : holds (s.pc t) = true) : (Mutex.thread p k t s).isSome := by
  have ho := (j.own t).2 h
  have hw : s.pc t ≠ .waiting := fun he => by rw [he] at h; cases h
  have hd := j.dep (by rw [ho]; simp)
  have hf := j.free hw
  unfold Mutex.thread
  split <;> rename_i hp <;> simp only [hp, holds, Bool.false_eq_true] at h
  · split
    · rfl
    · rw [step_wait hf ho hd]; rfl
  · rw [step_unlock hf ho hd]; rfl
  · rfl
  · rw [step_all hf]; rfl
  · rw [step_unlock hf ho hd]; rfl

/-- Once the condition holds, somebody can go on -/
theorem J.somebody {s : Sys} (p k) (j : J s) (hr : s.ready = true) {t : Nat} (h : s.pc t ≠ .done) :
    ∃ u, (Mutex.thread p k u s).isSome := by
  cases ho : s.st.owner with
  | some u => exact ⟨u, j.holder_goes p k ((j.own u).1 ho)⟩
  | none =>
    have hn : holds (s.pc t) = false := by
      cases hh : holds (s.pc t)
      · rfl
      · have := (j.own t).2 hh; rw [ho] at this; cases this
    refine ⟨t, ?_⟩
    have hq := j.quiet (t := t) (fun he => by rw [he] at hn; cases hn) (.inl ho) hr
    unfold Mutex.thread
    split <;> rename_i hp <;> simp only [hp, holds, Bool.true_eq_false] at hn
    · rw [step_lock (j.free (by simp [hp])) ho]; rfl
    · have := (j.wt t).2 hp
      rw [hq] at this
      rw [step_resume (by simpa using this) ho]; rfl
    · rw [step_lock (j.free (by simp [hp])) ho]; rfl
    · exact absurd hp h

/-- How many steps a thread still makes once the condition holds -/
def rank : Pc → Nat
  | .start => 3 | .test => 2 | .waiting => 3 | .unlocking => 1
  | .setLock => 4 | .setAssign => 3 | .setSignal => 2 | .setUnlock => 1 | .done => 0

def total (n : Nat) (f : Nat → Pc) : Nat := match n with
  | 0 => 0
  | m + 1 => total m f + rank (f m)

theorem rank_le (c : Pc) : rank c ≤ 4 := by cases c <;> simp [rank]

theorem total_le (f : Nat → Pc) : ∀ n, total n f ≤ 4 * n
  | 0 => by simp [total]
  | n + 1 => by have := total_le f n; have := rank_le (f n); simp only [total]; omega

theorem total_set (f : Nat → Pc) (t : Nat) (c : Pc) : ∀ n,
    total n (fun u => if u = t then c else f u) + (if t < n then rank (f t) else 0) = total n f + (if t < n then rank c else 0)
  | 0 => by simp [total]
  | n + 1 => by
    have ih := total_set f t c n
    simp only [total]
    by_cases h : n = t
    · subst h; simp at ih ⊢; omega
    · by_cases h2 : t < n
      · simp [h, h2, show t < n + 1 by omega] at ih ⊢; omega
      · simp [h, h2, show ¬ t < n + 1 by omega] at ih ⊢; omega

theorem Next.rank {r c r' c'} (h : Next r c r' c') (hr : r = true) : r' = true ∧ rank c' < rank c := by
  cases h <;> simp_all [Mutex.rank]

/-- Threads that do not take part -/
def Out (n : Nat) (s : Sys) : Prop := ∀ t, ¬ t < n → s.pc t = .done

theorem Out.thread {n p k} {s s' : Sys} (o : Out n s) (j : J s) {t : Nat} (h : thread p k t s = some s') :
    t < n ∧ Out n s' := by
  have ht : t < n := by
    by_cases ht : t < n
    · exact ht
    · unfold Mutex.thread at h; rw [o t ht] at h; cases h
  refine ⟨ht, fun u hu => ?_⟩
  obtain ⟨_, c, _, hc⟩ := j.thread h
  rw [hc]
  simp only
  rw [if_neg (fun he : u = t => hu (he ▸ ht))]
  exact o u hu

theorem go_out {n p k} : ∀ (cs : List Choice) (s s' : Sys), J s → Out n s → go p k cs s = some s' → Out n s'
  | [], s, s', j, o, h => by simp only [Mutex.go, Option.some.injEq] at h; exact h ▸ o
  | .thread t :: cs, s, s', j, o, h => by
    simp only [Mutex.go] at h
    cases hx : Mutex.thread p k t s with
    | none => simp [hx] at h
    | some s1 => exact go_out cs s1 s' (j.thread hx).1 (o.thread j hx).2 (by simpa [hx] using h)
  | .wakeUp w :: cs, s, s', j, o, h => by
    simp only [Mutex.go] at h
    cases hx : Mutex.wakeUp p k w s with
    | none => simp [hx] at h
    | some s1 =>
      have hw := j.wakeUp hx
      exact go_out cs s1 s' hw.1 (fun u hu => by rw [hw.2.2]; exact o u hu) (by simpa [hx] using h)

theorem go_steps {n p k} : ∀ (cs : List Choice) (s s' : Sys), J s → Out n s → s.ready = true → go p k cs s = some s' →
    s'.ready = true ∧ steps cs + total n s'.pc ≤ total n s.pc
  | [], s, s', j, o, hr, h => by
    simp only [Mutex.go, Option.some.injEq] at h; subst h; exact ⟨hr, by simp [steps]⟩
  | .thread t :: cs, s, s', j, o, hr, h => by
    simp only [Mutex.go] at h
    cases hx : Mutex.thread p k t s with
    | none => simp [hx] at h
    | some s1 =>
      obtain ⟨j1, c, hn, hc⟩ := j.thread hx
      have ho := o.thread j hx
      have hk := hn.rank hr
      have ih := go_steps (n := n) cs s1 s' j1 ho.2 hk.1 (by simpa [hx] using h)
      have ht := total_set s.pc t c n
      rw [← hc] at ht
      simp only [ho.1, if_true] at ht
      refine ⟨ih.1, ?_⟩
      have := ih.2
      have := hk.2
      simp only [steps]
      omega
  | .wakeUp w :: cs, s, s', j, o, hr, h => by
    simp only [Mutex.go] at h
    cases hx : Mutex.wakeUp p k w s with
    | none => simp [hx] at h
    | some s1 =>
      have hw := j.wakeUp hx
      have ih := go_steps (n := n) cs s1 s' hw.1 (fun u hu => by rw [hw.2.2]; exact o u hu) (by rw [hw.2.1]; exact hr)
        (by simpa [hx] using h)
      rw [hw.2.2] at ih
      exact ih

end Mutex
end Duck
