import Verif.Lemmas.ObjLock
/-! # C83: object locks -/
namespace Duck
namespace ObjLock

/-- **C83 (safety).**  Whatever the threads do with the locks of objects, in whatever order, no memory is used after it is freed, no locked mutex is destroyed
    and no mutex is unlocked by a thread that has not locked it. -/
theorem C83_safe {s : State} (h : Reach s) {a : Action} (hl : Legal s a) : act s a ≠ .bad := by
  have hi := reach_inv h
  cases a with
  | call i o c => intro e; cases e
  | dealloc o =>
      obtain ⟨s', h1, _⟩ := dealloc_inv hi hl
      intro e
      have : Res.ok s' = Res.bad := h1.symm.trans e
      cases this
  | step i =>
      show step s i ≠ .bad
      have hp := hi.pc i
      unfold step
      cases hj : s.threads i <;> rw [hj] at hp <;> simp only
      · simp
      · unfold find; split <;> simp
      · simp
      · unfold insert; split <;> simp
      · simp [discard, hp.2.2.1]
      · obtain ⟨a, g1, _⟩ := hi.entry _ _ hp
        obtain ⟨w, mx⟩ := a
        cases mx <;> simp [test, g1]
      · simp
      · obtain ⟨a, g1, _⟩ := hi.entry _ _ hp.1
        obtain ⟨w, mx⟩ := a
        cases mx <;> simp [cas, g1]
      · simp [drop, hp.2.1]
      · obtain ⟨ht, y, m, a, g1, g2, g3⟩ := hp
        rw [ht] at g1; cases g1
        obtain ⟨w, mx⟩ := a
        cases g3
        have := (hi.field _ _ _ g2 rfl).1
        simp only [lock, g2]
        split <;> simp_all
      · obtain ⟨ht, hh⟩ := hp
        obtain ⟨x, ⟨m, a, g1, g2, g3⟩, g4⟩ := (hi.heldIff _ _).mp hh
        rw [ht] at g1; cases g1
        obtain ⟨w, mx⟩ := a
        cases g3
        simp [unlock, g2, g4]

/-- **C83 (what the list of locks is).**  A step changes it only when a call returns: then the lock of the object is taken, or given back. -/
theorem C83_held {s s' : State} {a : Action} (hs : act s a = .ok s') :
    (∀ i o c, a = .step i → (s.threads i).object = some o → (s.threads i).call = some c →
      s'.held = if s'.threads i = .idle then returned s.held i o c else s.held) ∧
    ((∀ i, a ≠ .step i) → s'.held = s.held) := by
  constructor
  · rintro i o c rfl ho hc
    have hs : step s i = .ok s' := hs
    unfold step at hs
    cases hj : s.threads i <;> rw [hj] at hs ho hc <;> simp only [Pc.object, Pc.call] at hs ho hc
    · cases ho
    · cases ho; cases hc
      unfold find at hs; split at hs <;> cases hs
      · cases c <;> simp [goto, after, upd]
      · simp [goto, upd]
    · cases hs; simp [goto, upd]
    · cases ho; cases hc
      unfold insert at hs; split at hs <;> cases hs
      · cases c <;> simp [goto, after, upd]
      · simp [goto, upd]
    · cases ho; cases hc
      unfold discard at hs; split at hs <;> cases hs
      cases c <;> simp [goto, after, upd]
    · unfold test at hs; split at hs <;> cases hs <;> simp [goto, upd]
    · cases hs; simp [goto, upd]
    · unfold cas at hs; split at hs <;> cases hs <;> simp [goto, upd]
    · unfold drop at hs; split at hs <;> cases hs; simp [goto, upd]
    · cases ho; cases hc
      unfold lock at hs
      split at hs
      · split at hs <;> cases hs; simp [locked, goto, upd, returned]
      · cases hs; simp [locked, goto, upd, returned]
      · cases hs
    · cases ho; cases hc
      unfold unlock at hs
      split at hs
      · split at hs
        · split at hs <;> cases hs; simp [unlocked, goto, upd, returned]
        · cases hs
      · cases hs; simp [unlocked, goto, upd, returned]
      · cases hs
  · intro hne
    cases a with
    | step i => exact absurd rfl (hne i)
    | call i o c => cases hs; rfl
    | dealloc o =>
        have hs : dealloc s o = .ok s' := hs
        unfold dealloc at hs
        split at hs
        · cases hs; rfl
        · split at hs
          · cases hs; rfl
          · split at hs <;> cases hs; rfl
          · cases hs

/-- **C83 (mutual exclusion).**  Of all the threads that lock an object at most one has got the lock, and it has got it once: between the return from
    DKLockObject and the call of DKUnlockObject nobody else returns from DKLockObject on that object.  It does not matter that the mutex is made by whoever
    locks the object first, and that several threads may do so at the same time. -/
theorem C83_exclusive {s : State} (h : Reach s) : s.held.Nodup ∧ ∀ i j o, (i, o) ∈ s.held → (j, o) ∈ s.held → i = j := by
  have hi := reach_inv h
  refine ⟨hi.nodup, fun i j o h1 h2 => ?_⟩
  obtain ⟨x, g1, g2⟩ := (hi.heldIff i o).mp h1
  obtain ⟨y, k1, k2⟩ := (hi.heldIff j o).mp h2
  rw [hasMutex_inj g1 k1, k2] at g2
  cases g2; rfl

/-- **C83 (nobody waits without reason).**  A thread inside DKLockObject or DKUnlockObject can go on, unless it is in DKLockObject and the lock of that very
    object has been taken. -/
theorem C83_progress {s : State} (h : Reach s) {i : Nat} (hi : s.threads i ≠ .idle) :
    (∃ s', step s i = .ok s') ∨
      (step s i = .blocked ∧ ∃ o j, (s.threads i).object = some o ∧ (s.threads i).call = some .lock ∧ (j, o) ∈ s.held) := by
  have hv := reach_inv h
  cases hr : step s i with
  | ok s' => exact .inl ⟨s', rfl⟩
  | bad => exact absurd hr (C83_safe (a := .step i) h trivial)
  | blocked =>
      refine .inr ⟨rfl, ?_⟩
      have hp := hv.pc i
      unfold step at hr
      cases hj : s.threads i <;> rw [hj] at hr hp <;> simp only at hr
      · exact absurd hj hi
      · unfold find at hr; split at hr <;> cases hr
      · cases hr
      · unfold insert at hr; split at hr <;> cases hr
      · unfold discard at hr; split at hr <;> cases hr
      · unfold test at hr; split at hr <;> cases hr
      · cases hr
      · unfold cas at hr; split at hr <;> cases hr
      · unfold drop at hr; split at hr <;> cases hr
      · rename_i o m
        obtain ⟨ht, y, hy⟩ := hp
        have hy0 := hy
        obtain ⟨m', a, g1, g2, g3⟩ := hy
        rw [ht] at g1; cases g1
        obtain ⟨w, mx⟩ := a
        cases g3
        simp only [lock, g2] at hr
        split at hr
        · cases hr
        · rename_i j hx
          exact ⟨o, j, rfl, rfl, (hv.heldIff j o).mpr ⟨y, hy0, hx⟩⟩
        · cases hr
      · unfold unlock at hr
        split at hr
        · split at hr
          · split at hr <;> cases hr
          · cases hr
        · cases hr
        · cases hr

/-- The steps a call can still take. -/
def left : Pc → Nat
  | .idle => 0
  | .find _ _ => 9
  | .alloc _ _ => 8
  | .insert _ _ _ => 7
  | .discard _ _ _ _ => 6
  | .test _ _ => 5
  | .create _ _ => 4
  | .cas _ _ _ => 3
  | .drop _ _ _ => 2
  | .lock _ _ => 1
  | .unlock _ _ => 1

theorem left_after (o : Nat) (c : Call) (m : Nat) : left (after o c m) < 6 := by cases c <;> simp [after, left]

theorem left_step {s s' : State} {i : Nat} (hs : step s i = .ok s') :
    left (s'.threads i) < left (s.threads i) ∧ ∀ j, j ≠ i → s'.threads j = s.threads j := by
  unfold step at hs
  have key : ∀ (t : State) (pc : Pc), t.threads = s.threads → left pc < left (s.threads i) →
      left ((goto t i pc).threads i) < left (s.threads i) ∧ ∀ j, j ≠ i → (goto t i pc).threads j = s.threads j := by
    intro t pc ht hl
    refine ⟨by show left (upd t.threads i pc i) < _; rw [upd_same]; exact hl, fun j hj => ?_⟩
    show upd t.threads i pc j = _
    rw [upd_ne _ _ hj, ht]
  cases hj : s.threads i <;> rw [hj] at hs key <;> simp only at hs
  · cases hs
  · unfold find at hs; split at hs <;> cases hs <;> refine key _ _ rfl ?_
    · exact Nat.lt_of_lt_of_le (left_after _ _ _) (by simp [left])
    · simp [left]
  · cases hs; exact key _ _ rfl (by simp [left])
  · unfold insert at hs; split at hs <;> cases hs <;> refine key _ _ rfl ?_
    · exact Nat.lt_of_lt_of_le (left_after _ _ _) (by simp [left])
    · simp [left]
  · unfold discard at hs; split at hs <;> cases hs; refine key _ _ rfl ?_
    exact Nat.lt_of_lt_of_le (left_after _ _ _) (by simp [left])
  · unfold test at hs; split at hs <;> cases hs <;> exact key _ _ rfl (by simp [left])
  · cases hs; exact key _ _ rfl (by simp [left])
  · unfold cas at hs; split at hs <;> cases hs <;> exact key _ _ rfl (by simp [left])
  · unfold drop at hs; split at hs <;> cases hs; exact key _ _ rfl (by simp [left])
  · unfold lock at hs
    split at hs
    · split at hs <;> cases hs; exact key _ _ rfl (by simp [left])
    · cases hs; exact key _ _ rfl (by simp [left])
    · cases hs
  · unfold unlock at hs
    split at hs
    · split at hs
      · split at hs <;> cases hs; exact key _ _ rfl (by simp [left])
      · cases hs
    · cases hs; exact key _ _ rfl (by simp [left])
    · cases hs

theorem dealloc_threads {s s' : State} {o : Nat} (hs : dealloc s o = .ok s') : s'.threads = s.threads := by
  unfold dealloc at hs
  split at hs
  · cases hs; rfl
  · split at hs
    · cases hs; rfl
    · split at hs <;> cases hs; rfl
    · cases hs

/-- **C83 (no call runs on).**  However the threads are scheduled, a call takes at most nine steps of its own before it returns, so it is never turned back by
    what others do at the same time. -/
theorem C83_bounded {s s' : State} {as : List Action} (h : Run s as s') {i : Nat} (hc : ∀ o c, .call i o c ∉ as) : as.count (.step i) ≤ 9 := by
  have key : as.count (.step i) + left (s'.threads i) ≤ left (s.threads i) := by
    induction h with
    | nil => simp
    | @cons s a s1 as s2 _ hs _ ih =>
        have ih := ih (fun o c hm => hc o c (List.mem_cons_of_mem _ hm))
        cases a with
        | call j o c =>
            cases hs
            have hji : i ≠ j := by rintro rfl; exact hc o c List.mem_cons_self
            rw [List.count_cons_of_ne (by simp)]
            have e : (goto s j (.find o c)).threads i = s.threads i := upd_ne _ _ hji
            rwa [e] at ih
        | dealloc o =>
            rw [List.count_cons_of_ne (by simp)]
            rwa [dealloc_threads hs] at ih
        | step j =>
            obtain ⟨k1, k2⟩ := left_step hs
            by_cases e : j = i
            · subst e
              rw [List.count_cons_self]; omega
            · rw [List.count_cons_of_ne (by simpa using e)]
              rwa [k2 i (Ne.symm e)] at ih
  have : left (s.threads i) ≤ 9 := by cases s.threads i <;> simp [left]
  omega

/-- **C83 (nothing is left over).**  When no call is under way, the only metadata in memory are those of objects, one for each, and the only mutexes those of
    their metadata: what threads made at the same time and did not need is gone. -/
theorem C83_nothing_left {s : State} (h : Reach s) (hidle : ∀ i, s.threads i = .idle) :
    (∀ m a, s.metas m = some a → InUse s a.owner m a.mutex) ∧
    (∀ x b, s.mutexes x = some b → ∃ o m, InUse s o m (some x)) ∧
    ∀ o m x o' m', InUse s o m (some x) → InUse s o' m' (some x) → o = o' := by
  have hi := reach_inv h
  refine ⟨fun m a hm => ?_, fun x b hx => ?_, fun o m x o' m' h1 h2 => ?_⟩
  · rcases hi.leakMeta m a hm with g | ⟨i, g⟩
    · exact ⟨g, hm⟩
    · rw [hidle i] at g; cases g
  · rcases hi.leakMutex x b hx with ⟨o, m, a, g1, g2, g3⟩ | ⟨i, g⟩
    · obtain ⟨a', k1, k2⟩ := hi.entry o m g1
      rw [g2] at k1; cases k1
      obtain ⟨w, mx⟩ := a
      cases g3; cases k2
      exact ⟨w, m, g1, g2⟩
    · rw [hidle i] at g; cases g
  · have := hi.unique m m' _ _ x h1.2 h2.2 rfl rfl
    subst this
    have e := h1.2.symm.trans h2.2
    cases e; rfl

/-- **C83 (deallocation).**  When an object that is not in use is deallocated, its metadata and its mutex go with it: nothing in memory belongs to it, and the
    locks of all other objects are as before. -/
theorem C83_dealloc {s : State} (h : Reach s) {o : Nat} (hl : Legal s (.dealloc o)) :
    ∃ s', act s (.dealloc o) = .ok s' ∧ s'.table o = none ∧ (∀ m a, s'.metas m = some a → a.owner ≠ o) ∧
      (∀ m x, InUse s o m (some x) → s'.mutexes x = none) ∧
      (∀ o' m x, o' ≠ o → InUse s o' m (some x) → InUse s' o' m (some x) ∧ s'.mutexes x = s.mutexes x) := by
  have hi := reach_inv h
  obtain ⟨s', h1, h2⟩ := dealloc_inv hi hl
  have ht : s'.threads = s.threads := dealloc_threads h1
  have hno : s'.table o = none := by
    unfold dealloc at h1
    split at h1
    · rename_i e; cases h1; exact e
    · split at h1
      · cases h1; exact upd_same _ _ _
      · split at h1 <;> cases h1; exact upd_same _ _ _
      · cases h1
  refine ⟨s', h1, hno, ?_, ?_, ?_⟩
  · rintro m a hm rfl
    rcases h2.leakMeta m a hm with g | ⟨i, g⟩
    · rw [hno] at g; cases g
    · have hp := h2.pc i
      have hob := hl.1 i
      rw [← ht] at hob
      cases hj : s'.threads i <;> rw [hj] at g hp hob <;> simp [Pc.owns] at g
      · subst g
        have e := Option.some.inj (hm.symm.trans hp.2.1)
        exact hob (by rw [e]; rfl)
      · subst g
        have e := Option.some.inj (hm.symm.trans hp.2.2.1)
        exact hob (by rw [e]; rfl)
  · intro m x hx
    have hf := free_mutex hi ⟨m, _, hx.1, hx.2, rfl⟩ hl.2
    simp only [dealloc, hx.1, hx.2, hf] at h1
    cases h1
    exact upd_same _ _ _
  · intro o' m x hne hx
    have hmne : ∀ m0, s.table o = some m0 → m ≠ m0 := by
      rintro m0 h0 rfl
      obtain ⟨a, k1, k2⟩ := hi.entry o m h0
      rw [hx.2] at k1; cases k1
      exact hne k2
    have hx2 := hx.2
    unfold dealloc at h1
    split at h1
    · cases h1; exact ⟨hx, rfl⟩
    · rename_i m0 h0
      have hT : upd s.table o none o' = some m := by rw [upd_ne _ _ hne]; exact hx.1
      have hM : upd s.metas m0 none m = some ⟨o', some x⟩ := by rw [upd_ne _ _ (hmne m0 h0)]; exact hx.2
      split at h1
      · cases h1; exact ⟨⟨hT, hM⟩, rfl⟩
      · rename_i y hy
        split at h1 <;> cases h1
        refine ⟨⟨hT, hM⟩, upd_ne _ _ ?_⟩
        rintro rfl
        exact hmne m0 h0 (hi.unique m m0 _ _ x hx.2 hy rfl rfl)
      · cases h1

/-! ### A concrete case -/

/-- An execution, of calls and steps. -/
def runs : State → List Action → Option State
  | s, [] => some s
  | s, .call i o c :: as =>
    if s.threads i = .idle ∧ (c = .unlock → (i, o) ∈ s.held) then runs (goto s i (.find o c)) as else none
  | s, .step i :: as =>
    match step s i with
    | .ok s' => runs s' as
    | _ => none
  | _, .dealloc _ :: _ => none

theorem runs_reach {s s' : State} {as : List Action} (h : Reach s) (hr : runs s as = some s') : Reach s' := by
  induction as generalizing s with
  | nil => cases hr; exact h
  | cons a as ih =>
      cases a with
      | call i o c =>
          simp only [runs] at hr
          split at hr
          · rename_i hl; exact ih (Reach.step (a := .call i o c) h hl rfl) hr
          · cases hr
      | step i =>
          simp only [runs] at hr
          split at hr
          · rename_i s1 hs; exact ih (Reach.step (a := .step i) h trivial hs) hr
          · cases hr
      | dealloc o => cases hr

/-- Two threads lock object 7 for the first time, together: each makes metadata and each makes a mutex; thread 1 comes first with the metadata, thread 0 with
    the mutex and with the lock. -/
def race : List Action :=
  [.call 0 7 .lock, .call 1 7 .lock, .step 0, .step 1, .step 0, .step 1, .step 1, .step 0, .step 0, .step 0, .step 1, .step 0, .step 1, .step 0, .step 1,
    .step 1, .step 0]

example : (runs init race).map (fun s => (s.threads 0, s.threads 1, s.held, s.table 7)) = some (.idle, .lock 7 1, [(0, 7)], some 1) := by
  decide +kernel

example : (runs init race).map (fun s => (s.metas 0, s.metas 1, s.mutexes 0, s.mutexes 1)) =
    some (none, some ⟨7, some 0⟩, some (some 0), none) := by decide +kernel

example : ∃ s, Reach s ∧ (0, 7) ∈ s.held ∧ (s.threads 1).object = some 7 := by
  obtain ⟨s, hs⟩ : ∃ s, runs init race = some s := Option.isSome_iff_exists.mp (by decide +kernel)
  have hv : (runs init race).map (fun s => (decide ((0, 7) ∈ s.held), (s.threads 1).object)) = some (true, some 7) := by decide +kernel
  rw [hs] at hv
  have hv := Option.some.inj hv
  exact ⟨s, runs_reach .init hs, of_decide_eq_true (Prod.mk.inj hv).1, (Prod.mk.inj hv).2⟩

/-- Thread 1 waits, thread 0 unlocks, thread 1 gets the lock and unlocks: one metadata and one mutex are left, both free. -/
def whole : List Action :=
  race ++ [.call 0 7 .unlock, .step 0, .step 0, .step 1, .call 1 7 .unlock, .step 1, .step 1]

example : (runs init race).map (fun s => match step s 1 with | .blocked => true | _ => false) = some true := by decide +kernel

example : (runs init whole).map (fun s => (s.metas 0, s.metas 1, s.mutexes 0, s.mutexes 1)) = some (none, some ⟨7, some 0⟩, some none, none) := by
  decide +kernel

theorem runs_threads {s s' : State} {as : List Action} (hr : runs s as = some s') {i : Nat} (hi : ∀ a ∈ as, a ≠ .step i ∧ ∀ o c, a ≠ .call i o c) :
    s'.threads i = s.threads i := by
  induction as generalizing s with
  | nil => cases hr; rfl
  | cons a as ih =>
      have h1 := hi a List.mem_cons_self
      have h2 := fun b hb => hi b (List.mem_cons_of_mem _ hb)
      cases a with
      | call j o c =>
          simp only [runs] at hr
          split at hr
          · rw [ih hr h2]
            exact upd_ne _ _ (fun e => h1.2 o c (by rw [e]))
          · cases hr
      | step j =>
          simp only [runs] at hr
          split at hr
          · rename_i s1 hs
            rw [ih hr h2]
            exact (left_step hs).2 i (fun e => h1.1 (by rw [e]))
          · cases hr
      | dealloc o => cases hr

/-- At the end no call is under way, and object 7 may be deallocated. -/
example : ∃ s, Reach s ∧ (∀ i, s.threads i = .idle) ∧ Legal s (.dealloc 7) ∧ s.metas 1 ≠ none := by
  obtain ⟨s, hs⟩ : ∃ s, runs init whole = some s := Option.isSome_iff_exists.mp (by decide +kernel)
  have hv : (runs init whole).map (fun s => ((s.threads 0, s.threads 1, s.held), s.metas 1)) = some ((.idle, .idle, []), some ⟨7, some 0⟩) := by
    decide +kernel
  rw [hs] at hv
  have hv := Option.some.inj hv
  have h0 : s.threads 0 = .idle := congrArg (fun p => p.1.1) hv
  have h1 : s.threads 1 = .idle := congrArg (fun p => p.1.2.1) hv
  have h2 : s.held = [] := congrArg (fun p => p.1.2.2) hv
  have h3 : s.metas 1 = some ⟨7, some 0⟩ := congrArg (fun p => p.2) hv
  have hidle : ∀ i, s.threads i = .idle := by
    intro i
    match i with
    | 0 => exact h0
    | 1 => exact h1
    | i + 2 =>
        rw [runs_threads hs (i := i + 2)]
        · rfl
        · intro a ha
          simp only [whole, race, List.cons_append, List.nil_append, List.mem_cons, List.not_mem_nil, or_false] at ha
          rcases ha with h | h | h | h | h | h | h | h | h | h | h | h | h | h | h | h | h | h | h | h | h | h | h | h <;> subst h <;> simp
  exact ⟨s, runs_reach .init hs, hidle, ⟨fun i e => (by rw [hidle i] at e; cases e), fun i e => (by rw [h2] at e; cases e)⟩, by rw [h3]; simp⟩

end ObjLock
end Duck
