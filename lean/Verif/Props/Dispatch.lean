import Verif.Lemmas.Dispatch
/-! C104: interface lookups by many threads. -/
namespace Duck
namespace Dispatch

/-- C104: in every disciplined execution of any number of threads, no lookup, use or installation of an interface touches freed memory. -/
theorem C104_safe_partial {E : Env} {s : State} (h : Runs E start s) (t : Nat) : act E s t ≠ .bad :=
  ((runs_inv h).1.act (runs_inv h).2 t).1

/-- C104: a lookup gives an interface for the selector asked for: the one in the table, or the first one for it, which is being installed. -/
theorem C104_found_partial {E : Env} {s : State} (h : Runs E start s) {t sel i : Nat} (hf : s.threads t = .found sel i) :
    E.selOf i = sel ∧ (s.table sel = some i ∨ s.table sel = none ∧ ∃ u, (s.threads u).installs = some i) := by
  have hi := (runs_inv h).1.has t (some sel) i (by rw [hf]; rfl)
  have hs := hi.1 sel rfl
  refine ⟨hs, hi.2.2.imp (fun e => by rw [← hs]; exact e) ?_⟩
  rintro ⟨u, hu⟩
  refine ⟨?_, u, hu⟩
  rcases (runs_inv h).2 u i hu with ha | hb
  · have : t ≠ u := by rintro rfl; rw [hf] at hu; cases hu
    rw [ha t this] at hf; cases hf
  · rw [← hs]; exact hb.1

theorem table_keeps {E : Env} {s s' : State} (h : Event E s s') {sel : Nat} (ht : s.table sel ≠ none) : s'.table sel ≠ none := by
  cases h with
  | find => exact ht
  | insert => exact ht
  | @step _ t hs =>
    unfold act at hs
    split at hs
    case h_13 i _ =>
      cases hs
      show Function.update s.table _ _ sel ≠ none
      by_cases e : sel = E.selOf i
      · subst e; simp
      · rw [Function.update_of_ne e]; exact ht
    all_goals
      repeat' split at hs
      all_goals first | (cases hs; exact ht) | cases hs

theorem missing_from {E : Env} {s s' : State} (h : Event E s s') {t sel : Nat} (hm : s'.threads t = .missing sel) (hne : s.threads t ≠ .missing sel) :
    s.table sel = none := by
  have key : ∀ (r : State) (u : Nat) (pc : Pc), r.threads = s.threads → (r.goto u pc).threads t = .missing sel → u = t ∧ pc = .missing sel := by
    intro r u pc hr e
    by_cases eu : t = u
    · subst eu; rw [goto_same] at e; exact ⟨rfl, e⟩
    · rw [goto_other _ _ eu, hr] at e; exact absurd e hne
  cases h with
  | find x hi => have := (key _ _ _ rfl hm).2; cases this
  | insert => have := (key _ _ _ rfl hm).2; cases this
  | @step _ u hs =>
    unfold act at hs
    repeat' split at hs
    all_goals first
      | (cases hs; done)
      | (cases hs; have := (key _ _ _ rfl hm).2; cases this; done)
      | (cases hs; have := (key _ _ _ rfl hm).2; cases this; assumption)

/-- C104: a lookup that begins after an interface for its selector was installed does not miss it, with or without the discipline. -/
theorem C104_not_missed {E : Env} {s s' : State} {t sel : Nat} (ht : s.table sel ≠ none) (hi : s.threads t = .idle) (h : Steps E s s') :
    s'.threads t ≠ .missing sel := by
  have : s'.table sel ≠ none ∧ s'.threads t ≠ .missing sel := by
    induction h with
    | refl => exact ⟨ht, by rw [hi]; simp⟩
    | tail _ he ih => exact ⟨table_keeps he ih.1, fun e => ih.1 (missing_from he e ih.2)⟩
  exact this.2

/-- C104: as long as a thread is in a call, some thread can go on. -/
theorem C104_progress {E : Env} {s : State} (h : Runs E start s) {t : Nat} (ht : s.threads t ≠ .idle) : ∃ u s', act E s u = .ok s' := by
  have hi := (runs_inv h).1
  have hok : ∀ u, act E s u ≠ .wait → ∃ s', act E s u = .ok s' := by
    intro u hw
    have hb := C104_safe_partial h u
    cases e : act E s u with
    | ok s' => exact ⟨s', rfl⟩
    | wait => exact absurd e hw
    | bad => exact absurd e hb
  cases hh : s.holder with
  | some u =>
    have := (hi.lock u).mp hh
    refine ⟨u, hok u ?_⟩
    unfold act
    cases hu : s.threads u <;> rw [hu] at this <;> simp [Pc.holds] at this ⊢
    split <;> simp
  | none =>
    refine ⟨t, hok t ?_⟩
    unfold act
    cases hu : s.threads t <;> simp only [hh, if_true] <;> (try exact absurd hu ht) <;> repeat' split
    all_goals simp

/-! ### An execution -/

/-- Four selectors, 0 and 1 on one cache line; interfaces 0, 1, 2 for selectors 0, 1, 2 and interface 3 for selector 0 again.  The table moves when it
    gets its third key. -/
def env (shared : Bool) : Env := ⟨fun i => if i = 3 then 0 else i, fun sel => if sel = 1 then 0 else sel, fun n => n == 3, fun _ => shared⟩

/-- A schedule: calls and steps. -/
inductive Do where
  | find (t sel : Nat)
  | install (t i : Nat)
  | step (t : Nat)

/-- Carrying out a schedule. -/
def play (E : Env) : State → List Do → Option State
  | s, [] => some s
  | s, .find t sel :: l => if s.threads t = .idle then play E (callFind s t sel) l else none
  | s, .install t i :: l => if s.threads t = .idle ∧ s.seen i = false then play E (callInsert s t i) l else none
  | s, .step t :: l => match act E s t with | .ok s => play E s l | _ => none

theorem play_steps {E : Env} : ∀ {l : List Do} {s s' s0 : State}, Steps E s0 s → play E s l = some s' → Steps E s0 s'
  | [], s, s', s0, h, e => by cases e; exact h
  | .find t sel :: l, s, s', s0, h, e => by
    simp only [play] at e
    split at e
    · exact play_steps (.tail h (.find sel ‹_›)) e
    · cases e
  | .install t i :: l, s, s', s0, h, e => by
    simp only [play] at e
    split at e
    · rename_i hc
      exact play_steps (.tail h (.insert hc.1 hc.2)) e
    · cases e
  | .step t :: l, s, s', s0, h, e => by
    simp only [play] at e
    split at e
    · exact play_steps (.tail h (.step ‹_›)) e
    · cases e

/-- The hypotheses of the theorems are met, with a lookup and a first installation at the same time: thread 0 installs interface 0; then thread 1 looks up
    selector 0 while thread 2 installs interface 2, which thread 3 finds in the cache before it is in the table. -/
example : ∃ s, Runs (env false) start s ∧ s.threads 1 = .found 0 0 ∧ s.threads 3 = .found 2 2 ∧ s.table 2 = none := by
  have alone : ∀ {s : State} {t}, s.threads = Function.update (fun _ => .idle) t (s.threads t) → Disciplined (env false) s := by
    intro s t h u i hu
    left
    intro v hv
    have hut : u = t := by
      by_contra hne
      rw [h, Function.update_of_ne hne] at hu; cases hu
    rw [h, Function.update_of_ne (hut ▸ hv)]
  have r1 : Runs (env false) start (callInsert start 0 0) := .tail (.refl _) (.insert rfl rfl) (alone (t := 0) rfl)
  have r2 := Runs.tail r1 (.step (t := 0) rfl) (alone (t := 0) (by simp [State.goto, callInsert, start]))
  have r3 := Runs.tail r2 (.step (t := 0) rfl) (alone (t := 0) (by simp [State.goto, callInsert, start]))
  have r4 := Runs.tail r3 (.step (t := 0) rfl) (alone (t := 0) (by simp [State.goto, callInsert, start, insertRow]))
  have new : ∀ {s : State} {t}, (s.threads t).installs = some 2 → (∀ u, u ≠ t → (s.threads u).installs = none) → s.table 2 = none → s.count ≤ 1 →
      Disciplined (env false) s := by
    intro s t h1 h2 h3 h4 u i hu
    have hut : u = t := by
      by_contra hne
      rw [h2 u hne] at hu; cases hu
    subst hut
    rw [h1] at hu; cases hu
    refine Or.inr ⟨h3, fun v j hv hj => (by rw [h2 v hv] at hj; cases hj), fun _ => ?_⟩
    have : s.count + 1 ≠ 3 := by omega
    simpa [env] using this
  have silent : ∀ {s : State}, (∀ u, (s.threads u).installs = none) → Disciplined (env false) s :=
    fun h t i e => by rw [h t] at e; cases e
  have r5 := Runs.tail r4 (.find (t := 1) 0 rfl) (silent (fun u => by
    rcases u with _ | _ | u <;> rfl))
  have r6 := Runs.tail r5 (.insert (t := 2) (i := 2) rfl rfl) (new (t := 2) rfl (fun u hu => by
    rcases u with _ | _ | _ | u <;> first | rfl | exact absurd rfl hu) rfl (Nat.le_refl 1))
  have r7 := Runs.tail r6 (.step (t := 2) rfl) (new (t := 2) rfl (fun u hu => by
    rcases u with _ | _ | _ | u <;> first | rfl | exact absurd rfl hu) rfl (Nat.le_refl 1))
  have r8 := Runs.tail r7 (.find (t := 3) 2 rfl) (new (t := 2) rfl (fun u hu => by
    rcases u with _ | _ | _ | _ | u <;> first | rfl | exact absurd rfl hu) rfl (Nat.le_refl 1))
  have r9 := Runs.tail r8 (.step (t := 3) rfl) (new (t := 2) rfl (fun u hu => by
    rcases u with _ | _ | _ | _ | u <;> first | rfl | exact absurd rfl hu) rfl (Nat.le_refl 1))
  have r10 := Runs.tail r9 (.step (t := 3) rfl) (new (t := 2) rfl (fun u hu => by
    rcases u with _ | _ | _ | _ | u <;> first | rfl | exact absurd rfl hu) rfl (Nat.le_refl 1))
  have r11 := Runs.tail r10 (.step (t := 1) rfl) (new (t := 2) rfl (fun u hu => by
    rcases u with _ | _ | _ | _ | u <;> first | rfl | exact absurd rfl hu) rfl (Nat.le_refl 1))
  have r12 := Runs.tail r11 (.step (t := 1) rfl) (new (t := 2) rfl (fun u hu => by
    rcases u with _ | _ | _ | _ | u <;> first | rfl | exact absurd rfl hu) rfl (Nat.le_refl 1))
  exact ⟨_, r12, rfl, rfl, rfl⟩

/-! ### Without the discipline -/

/-- Thread 0 installs interfaces 0 and 1; thread 1 looks up selector 0, which is no longer in the cache, and has found the row. -/
def half : List Do := [.install 0 0, .step 0, .step 0, .step 0, .install 0 1, .step 0, .step 0, .step 0,
  .find 1 0, .step 1, .step 1, .step 1, .step 1]

/-- The property fails when an interface is installed during a lookup and the table grows: the row that was found is in freed memory. -/
theorem C104_grow_fails : ∃ s, Steps (env false) start s ∧ s.threads 1 = .entry 0 0 ∧ s.table 0 = some 0 ∧ act (env false) s 1 = .bad := by
  have h : ∃ s, play (env false) start (half ++ [.install 2 2, .step 2, .step 2, .step 2]) = some s ∧ s.threads 1 = .entry 0 0 ∧
      s.table 0 = some 0 ∧ act (env false) s 1 = .bad := ⟨_, rfl, rfl, rfl, rfl⟩
  obtain ⟨s, h1, h2⟩ := h
  exact ⟨s, play_steps (.refl _) h1, h2⟩

/-- The property fails when an interface is replaced during a lookup: the lookup leaves the old interface, which is freed, in the cache.  Nobody is in a
    call any more, and the next lookup by whatever thread touches freed memory. -/
theorem C104_replace_fails : ∃ s, Steps (env false) start s ∧ (∀ t, s.threads t = .idle) ∧ s.table 0 = some 3 ∧ s.cache 0 = some 0 ∧
    s.freed 0 = true ∧ ∀ t, ∃ s', Steps (env false) (callFind s t 0) s' ∧ act (env false) s' t = .bad := by
  have h : ∃ s, play (env false) start (half ++ [.step 1, .install 2 3, .step 2, .step 2, .step 2, .step 1, .step 1, .step 1]) = some s ∧
      s.table 0 = some 3 ∧ s.cache 0 = some 0 ∧ s.freed 0 = true ∧ s.threads = Function.update (Function.update (Function.update (fun _ => .idle) 0 .idle) 1 .idle) 2 .idle := by
    refine ⟨_, rfl, rfl, rfl, rfl, ?_⟩
    funext t
    rcases t with _ | _ | _ | t <;> rfl
  obtain ⟨s, h1, h2, h3, h4, h5⟩ := h
  have hidle : ∀ t, s.threads t = .idle := by
    intro t
    rw [h5]
    simp only [Function.update_apply]
    split <;> (try split) <;> (try split) <;> rfl
  refine ⟨s, play_steps (.refl _) h1, hidle, h2, h3, h4, fun t => ⟨(callFind s t 0).goto t (.peek 0 0), ?_, ?_⟩⟩
  · refine .tail (.refl _) (.step (t := t) ?_)
    unfold act
    rw [show (callFind s t 0).threads t = .look 0 from goto_same _ _ _]
    simp only
    rw [show (callFind s t 0).cache ((env false).lineOf 0) = some 0 from h3]
  · unfold act
    rw [goto_same]
    simp only
    rw [show ((callFind s t 0).goto t (.peek 0 0)).freed 0 = true from h4]
    rfl

/-- Even if the old interface is kept alive by somebody else, the lookups that follow give it instead of the new one. -/
theorem C104_stale_fails : ∃ s, Steps (env true) start s ∧ (∀ u, (s.threads u).installs = none) ∧ s.threads 1 = .found 0 0 ∧ s.table 0 = some 3 := by
  have h : ∃ s, play (env true) start (half ++ [.step 1, .install 2 3, .step 2, .step 2, .step 2, .step 1, .step 1, .step 1, .find 1 0, .step 1, .step 1]) = some s ∧
      s.table 0 = some 3 ∧ s.threads = Function.update (Function.update (Function.update (fun _ => .idle) 0 .idle) 1 (.found 0 0)) 2 .idle := by
    refine ⟨_, rfl, rfl, ?_⟩
    funext t
    rcases t with _ | _ | _ | t <;> rfl
  obtain ⟨s, h1, h2, h3⟩ := h
  refine ⟨s, play_steps (.refl _) h1, fun u => ?_, by rw [h3]; rfl, h2⟩
  rw [h3]
  simp only [Function.update_apply]
  split <;> (try split) <;> (try split) <;> rfl

/-- An interface that was found is freed when another one for its selector is installed while it is in use. -/
theorem C104_use_fails : ∃ s, Steps (env false) start s ∧ s.threads 1 = .found 0 0 ∧ act (env false) s 1 = .bad := by
  have h : ∃ s, play (env false) start [.install 0 0, .step 0, .step 0, .step 0, .find 1 0, .step 1, .step 1,
      .install 2 3, .step 2, .step 2, .step 2] = some s ∧ s.threads 1 = .found 0 0 ∧ act (env false) s 1 = .bad := ⟨_, rfl, rfl, rfl⟩
  obtain ⟨s, h1, h2⟩ := h
  exact ⟨s, play_steps (.refl _) h1, h2⟩

end Dispatch
end Duck
