import Verif.Lemmas.RwLock
/-! # C84, C85: read-write locks and timed waits -/
namespace Duck
namespace RwLock

/-! ## Read-write locks -/

/-- **C84 (safety), partial.**  Nobody releases a lock that they do not hold, whatever the threads do in whatever order.  On Windows this leaves out the
    attempt to lock for writing. -/
theorem C84_safe_partial {p : Platform} {s : State} (h : Reach p (Fine p) s) {a : Action} (hl : Legal s a) (hf : Fine p a) : act p s a ≠ .bad := by
  obtain ⟨hi, hpl⟩ := reach_inv h
  cases a with
  | lock i w => intro e; cases e
  | tryLock i w => intro e; cases e
  | unlock i => intro e; cases e
  | step i =>
      show step p s i ≠ .bad
      have hu := hi.unlocking i
      unfold step
      cases hj : s.threads i <;> rw [hj] at hu <;> simp only
      · simp
      · unfold lock; (repeat' split) <;> simp
      · simp
      · unfold tryLock; (repeat' split) <;> simp
      · simp
      · cases p with
        | posix =>
            simp only [unlock]
            split
            · simp
            · rename_i hw
              rcases hu rfl with g | g
              · exact absurd ((hi.told i).mp g).1 hw
              · rw [if_pos ((shared_mem hi i).mp g)]; simp
        | windows => simp only [unlock]; split <;> simp
      · simp
      · rw [if_pos ((hi.told i).mp (hi.clear i (.inr hj))).1]; simp
      · rw [if_pos ((shared_mem hi i).mp (hi.shareds i hj))]; simp

/-- **C84 (what the list of holders is).**  A step changes it only when a call returns: a locking function adds the thread, unless it is the try function and
    returns `false`; the unlocking function takes the thread away. -/
theorem C84_held {p : Platform} {s s' : State} {a : Action} (hs : act p s a = .ok s') :
    (∀ i c, a = .step i → (s.threads i).call = some c →
      s'.held = if s'.threads i = .idle then returned s.held i c (!(s.threads i).trying || s'.result i == some true) else s.held) ∧
    ((∀ i, a ≠ .step i) → s'.held = s.held) := by
  constructor
  · rintro i c rfl hc
    have hs : step p s i = .ok s' := hs
    unfold step at hs
    cases hj : s.threads i <;> rw [hj] at hs hc <;> simp only [Pc.call] at hs hc
    · cases hc
    · cases hc
      unfold lock at hs
      split at hs
      · rename_i hw
        subst hw
        split at hs
        · cases p <;> cases hs <;> simp [got, goto, upd, returned, Pc.trying]
        · cases hs
      · rename_i w hw
        have hw : w = false := by simpa using hw
        subst hw
        split at hs <;> cases hs
        simp [got, goto, upd, returned, Pc.trying]
    · cases hc; cases hs; simp [got, goto, upd, returned, Pc.trying]
    · cases hc
      unfold tryLock at hs
      rename_i w
      cases w <;> cases p <;> simp only [Bool.false_eq_true, if_false, if_true] at hs <;> split at hs <;> cases hs <;>
        simp [tried, got, goto, upd, returned, Pc.trying]
    · cases hc; cases hs; simp [tried, got, goto, upd, returned, Pc.trying]
    · cases hc
      unfold unlock at hs
      cases p <;> simp only at hs
      · split at hs
        · cases hs; simp [released, goto, upd, returned]
        · split at hs <;> cases hs; simp [released, goto, upd, returned]
      · split at hs <;> cases hs <;> simp [goto, upd]
    · cases hc; cases hs; simp [goto, upd]
    · cases hc; split at hs <;> cases hs; simp [released, goto, upd, returned]
    · cases hc; split at hs <;> cases hs; simp [released, goto, upd, returned]
  · intro hne
    cases a with
    | step i => exact absurd rfl (hne i)
    | lock i w => cases hs; rfl
    | tryLock i w => cases hs; rfl
    | unlock i => cases hs; rfl

/-- **C84 (exclusion), partial.**  While a thread has the lock for writing nobody else has it, for reading or for writing, and the thread has it once.  On
    Windows this leaves out the attempt to lock for writing. -/
theorem C84_exclusive_partial {p : Platform} {s : State} (h : Reach p (Fine p) s) : Exclusive s.held := by
  obtain ⟨hi, _⟩ := reach_inv h
  intro i hm
  have h1 : ∀ x ∈ s.held, x = (i, true) := by
    rintro ⟨j, b⟩ hx
    cases b with
    | false => exact absurd hx (not_both hi hm)
    | true =>
        have e := ((hi.told j).mp hx).1.symm.trans ((hi.told i).mp hm).1
        cases e; rfl
  have h2 := List.eq_replicate_of_mem h1
  have h3 := hi.once i
  have h4 := List.count_pos_iff.mpr hm
  rw [h2] at h3 h4
  rw [List.count_replicate_self] at h3 h4
  rw [h2, show s.held.length = 1 by omega]
  rfl

/-- **C84 (POSIX, waiting).**  Nobody waits without reason: a thread in a call can go on, unless it locks for writing and somebody has the lock, or it locks
    for reading and somebody has the lock for writing.  Attempts and unlocking never wait. -/
theorem C84_posix_progress {s : State} (h : Reach .posix (Fine .posix) s) {i : Nat} (hi : s.threads i ≠ .idle) :
    (∃ s', step .posix s i = .ok s') ∨
      (step .posix s i = .blocked ∧ ((s.threads i = .lock true ∧ s.held ≠ []) ∨ (s.threads i = .lock false ∧ ∃ j, (j, true) ∈ s.held))) := by
  obtain ⟨hv, hpl⟩ := reach_inv h
  have hwr : ∀ j, s.writer = some j → (j, true) ∈ s.held := fun j hj =>
    (hv.told j).mpr ⟨hj, by cases hs : (s.threads j).setting with
      | false => rfl
      | true => exact absurd (hv.setting j hs).2 (by simp)⟩
  cases hr : step .posix s i with
  | ok s' => exact .inl ⟨s', rfl⟩
  | bad => exact absurd hr (C84_safe_partial (a := .step i) h trivial (fun e => by cases e))
  | blocked =>
      refine .inr ⟨rfl, ?_⟩
      unfold step at hr
      cases hj : s.threads i <;> rw [hj] at hr <;> simp only at hr
      · exact absurd hj hi
      · rename_i w
        unfold lock at hr
        cases w with
        | true =>
            simp only [if_true] at hr
            split at hr
            · cases hr
            · rename_i hw
              refine .inl ⟨rfl, fun e => hw ?_⟩
              have h1 : s.writer = none := by
                cases hx : s.writer with
                | none => rfl
                | some j => have := hwr j hx; rw [e] at this; cases this
              have h2 : s.readers = [] := by
                cases hx : s.readers with
                | nil => rfl
                | cons j l =>
                    have := (shared_mem hv j).mpr (by rw [hx]; exact List.mem_cons_self)
                    rw [e] at this; cases this
              simp [writable, h1, h2]
        | false =>
            simp only [Bool.false_eq_true, if_false] at hr
            split at hr
            · cases hr
            · rename_i hw
              refine .inr ⟨rfl, ?_⟩
              cases hx : s.writer with
              | none => exact absurd (by simp [readable, hx]) hw
              | some j => exact ⟨j, hwr j hx⟩
      · cases hr
      · simp only [tryLock] at hr; (repeat' split at hr) <;> cases hr
      · cases hr
      · simp only [unlock] at hr; (repeat' split at hr) <;> cases hr
      · cases hr
      · split at hr <;> cases hr
      · split at hr <;> cases hr

/-- **C84 (POSIX, attempts).**  An attempt to lock returns at once; it returns `true` exactly when the lock is free, or, for reading, when nobody has it for
    writing. -/
theorem C84_posix_try {s : State} (h : Reach .posix (Fine .posix) s) {i : Nat} {w : Bool} (hi : s.threads i = .tryLock w) :
    ∃ s', step .posix s i = .ok s' ∧ s'.threads i = .idle ∧
      (s'.result i = some true ∨ s'.result i = some false) ∧
      (s'.result i = some true ↔ if w then s.held = [] else ∀ j, (j, true) ∉ s.held) := by
  obtain ⟨hv, _⟩ := reach_inv h
  have hwr : ∀ j, s.writer = some j → (j, true) ∈ s.held := fun j hj =>
    (hv.told j).mpr ⟨hj, by cases hs : (s.threads j).setting with
      | false => rfl
      | true => exact absurd (hv.setting j hs).2 (by simp)⟩
  have hread : readable s = true ↔ ∀ j, (j, true) ∉ s.held := by
    constructor
    · intro hr j hj
      have := ((hv.told j).mp hj).1
      rw [readable_spec hr] at this; cases this
    · intro hn
      cases hx : s.writer with
      | none => simp [readable, hx]
      | some j => exact absurd (hwr j hx) (hn j)
  have hwrite : writable s = true ↔ s.held = [] := by
    constructor
    · intro hr
      obtain ⟨g1, g2⟩ := writable_spec hr
      refine List.eq_nil_iff_forall_not_mem.mpr ?_
      rintro ⟨j, b⟩ hj
      cases b with
      | true => exact no_writer hv g1 j hj
      | false => rw [shared_mem hv, g2] at hj; cases hj
    · intro e
      have h1 : s.writer = none := by
        cases hx : s.writer with
        | none => rfl
        | some j => have := hwr j hx; rw [e] at this; cases this
      have h2 : s.readers = [] := by
        cases hx : s.readers with
        | nil => rfl
        | cons j l =>
            have := (shared_mem hv j).mpr (by rw [hx]; exact List.mem_cons_self)
            rw [e] at this; cases this
      simp [writable, h1, h2]
  unfold step
  rw [hi]
  cases w with
  | true =>
      simp only [tryLock, if_true]
      rw [← hwrite]
      cases hx : writable s <;> simp [tried, got, goto, upd]
  | false =>
      simp only [tryLock, Bool.false_eq_true, if_false]
      rw [← hread]
      cases hx : readable s <;> simp [tried, got, goto, upd]

/-! ### A concrete case and the defect -/

/-- An execution. -/
def runs (p : Platform) : State → List Action → Option State
  | s, [] => some s
  | s, a :: as =>
    if Legal s a then
      match act p s a with
      | .ok s' => runs p s' as
      | _ => none
    else none

theorem runs_reach {p : Platform} {P : Action → Prop} {s s' : State} {as : List Action} (h : Reach p P s) (hP : ∀ a ∈ as, P a) (hr : runs p s as = some s') :
    Reach p P s' := by
  induction as generalizing s with
  | nil => cases hr; exact h
  | cons a as ih =>
      simp only [runs] at hr
      split at hr
      · rename_i hl
        split at hr
        · rename_i s1 hs
          exact ih (Reach.step h (hP a List.mem_cons_self) hl hs) (fun b hb => hP b (List.mem_cons_of_mem _ hb)) hr
        · cases hr
      · cases hr

/-- Threads 0 and 1 read together; 2 tries to write and is refused; when both are done, it waits for its turn and writes. -/
def shared : List Action :=
  [.lock 0 false, .step 0, .lock 1 false, .step 1, .tryLock 2 true, .step 2, .lock 2 true, .unlock 0, .step 0, .unlock 1, .step 1, .step 2]

example : (runs .posix init (shared.take 6)).map (fun s => (s.held, s.result 2)) = some ([(1, false), (0, false)], some false) := by decide +kernel
example : (runs .posix init shared).map (fun s => s.held) = some [(2, true)] := by decide +kernel

example : ∃ s, Reach .posix (Fine .posix) s ∧ (2, true) ∈ s.held := by
  obtain ⟨s, hs⟩ : ∃ s, runs .posix init shared = some s := Option.isSome_iff_exists.mp (by decide +kernel)
  have hv : (runs .posix init shared).map (fun s => s.held) = some [(2, true)] := by decide +kernel
  rw [hs] at hv
  have hv : s.held = [(2, true)] := Option.some.inj hv
  exact ⟨s, runs_reach .init (fun a _ e => by cases e) hs, by rw [hv]; exact List.mem_cons_self⟩

/-- On Windows: 0 reads and unlocks, 1 writes and unlocks. -/
def inTurn : List Action :=
  [.lock 0 false, .step 0, .unlock 0, .step 0, .step 0, .lock 1 true, .step 1, .step 1, .unlock 1, .step 1, .step 1]

example : (runs .windows init inTurn).map (fun s => (s.held, s.exclusive, s.threads 1)) = some ([(1, true)], false, .releaseExclusive) := by decide +kernel
example : (runs .windows init (inTurn ++ [.step 1])).map (fun s => (s.held, s.exclusive, s.writer)) = some ([], false, none) := by decide +kernel

/-- **C84 (Windows, refuted).**  An attempt to lock for writing reports success when the lock is refused: thread 0 has the lock for writing, the attempt of
    thread 1 returns `true`, and both now have the lock for writing. -/
theorem C84_windows_fails :
    ∃ s, Reach .windows (fun _ => True) s ∧ s.held = [(1, true), (0, true)] ∧ s.result 1 = some true ∧ ¬ Exclusive s.held := by
  obtain ⟨s, hs⟩ : ∃ s, runs .windows init [.lock 0 true, .step 0, .step 0, .tryLock 1 true, .step 1] = some s :=
    Option.isSome_iff_exists.mp (by decide +kernel)
  have hv : (runs .windows init [.lock 0 true, .step 0, .step 0, .tryLock 1 true, .step 1]).map (fun s => (s.held, s.result 1)) =
      some ([(1, true), (0, true)], some true) := by decide +kernel
  rw [hs] at hv
  have hv := Option.some.inj hv
  have h1 : s.held = [(1, true), (0, true)] := congrArg Prod.fst hv
  refine ⟨s, runs_reach .init (fun _ _ => trivial) hs, h1, congrArg Prod.snd hv, fun e => ?_⟩
  have := e 1 (by rw [h1]; exact List.mem_cons_self)
  rw [h1] at this
  cases this

/-- **C84 (Windows, refuted).**  When the thread whose attempt was refused unlocks, a lock is released that it does not hold. -/
theorem C84_windows_release_fails :
    ∃ s, Reach .windows (fun _ => True) s ∧ act .windows s (.step 1) matches .bad := by
  obtain ⟨s, hs⟩ : ∃ s, runs .windows init [.lock 0 true, .step 0, .step 0, .tryLock 1 true, .step 1, .unlock 1, .step 1, .step 1] = some s :=
    Option.isSome_iff_exists.mp (by decide +kernel)
  refine ⟨s, runs_reach .init (fun _ _ => trivial) hs, ?_⟩
  have hv : (runs .windows init [.lock 0 true, .step 0, .step 0, .tryLock 1 true, .step 1, .unlock 1, .step 1, .step 1]).map
      (fun s => act .windows s (.step 1) matches .bad) = some true := by decide +kernel
  rw [hs] at hv
  exact Option.some.inj hv

/-! ## Timed waits -/

theorem normalize_spec (k : Nat) (t : Time) (hk : t.nsec < k) (h0 : 0 ≤ t.nsec) :
    ∃ r, normalize k t = some r ∧ r.total = t.total ∧ 0 ≤ r.nsec ∧ r.nsec ≤ 999999999 := by
  induction k generalizing t with
  | zero => omega
  | succ k ih =>
      unfold normalize
      split
      · rename_i h
        obtain ⟨r, g1, g2, g3⟩ := ih ⟨t.sec + 1, t.nsec - 1000000000⟩ (by show t.nsec - 1000000000 < k; omega) (by show 0 ≤ t.nsec - 1000000000; omega)
        refine ⟨r, g1, ?_, g3⟩
        rw [g2]
        simp only [Time.total]
        omega
      · exact ⟨t, rfl, rfl, h0, by omega⟩

/-- **C85, partial.**  The time until which a timed wait waits is the present time plus the timeout, to the nanosecond, and it is well-formed, for every
    timeout that is not negative: a whole number of seconds and some nanoseconds.  Missing: timeouts beyond the range of time_t, and the rounding of the
    product fpart * 1000000000.0. -/
theorem C85_end_partial (now : Time) (ipart fpart : Int) (h0 : 0 ≤ now.nsec) (hf : 0 ≤ fpart) :
    ∃ t, endTime now ipart fpart = some t ∧ t.total = now.total + ipart * 1000000000 + fpart ∧ accepted t = true := by
  obtain ⟨r, g1, g2, g3, g4⟩ := normalize_spec (now.nsec + fpart).toNat.succ ⟨now.sec + ipart, now.nsec + fpart⟩
    (by show now.nsec + fpart < _; omega) (by show 0 ≤ now.nsec + fpart; omega)
  refine ⟨r, g1, ?_, by simp [accepted, g3, g4]⟩
  rw [g2]
  simp only [Time.total]
  omega

example : endTime ⟨1700000000, 750000000⟩ 2 500000000 = some ⟨1700000003, 250000000⟩ := by decide +kernel

/-- **C85 (refuted).**  The end of a wait with a negative timeout may be malformed, so that the system refuses it instead of reporting that the time is over:
    a timeout of -0.5 seconds at 100 ns past the second. -/
theorem C85_negative_fails : ∃ now t, 0 ≤ now.nsec ∧ now.nsec ≤ 999999999 ∧ endTime now 0 (-500000000) = some t ∧ accepted t = false :=
  ⟨⟨1700000000, 100⟩, ⟨1700000000, -499999900⟩, by decide, by decide, by decide +kernel, by decide +kernel⟩

end RwLock
end Duck
