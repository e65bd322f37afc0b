import Verif.Spec.Dispatch
/-! The invariant of the interface table. -/
namespace Duck
namespace Dispatch

theorem goto_same (s : State) (t pc) : (s.goto t pc).threads t = pc := by simp [State.goto]
theorem goto_other (s : State) {t u} (pc) (h : u ≠ t) : (s.goto t pc).threads u = s.threads u := by simp [State.goto, h]

/-- The threads that hold the lock. -/
def Pc.holds : Pc → Bool
  | .search _ => true
  | .insert _ => true
  | _ => false

/-- The threads with a pointer to a row. -/
def Pc.points : Pc → Option (Nat × Nat)
  | .entry sel g => some (sel, g)
  | .fill sel g _ => some (sel, g)
  | .again sel g => some (sel, g)
  | _ => none

/-- The threads with a pointer to an interface: the selector it must have, if known. -/
def Pc.has : Pc → Option (Option Nat × Nat)
  | .peek _ i => some (none, i)
  | .fill sel _ i => some (some sel, i)
  | .found sel i => some (some sel, i)
  | _ => none

/-- Interface `i` is installed, or about to be. -/
def Known (E : Env) (s : State) (i : Nat) : Prop :=
  s.freed i = false ∧ (s.table (E.selOf i) = some i ∨ ∃ t, (s.threads t).installs = some i)

structure Inv (E : Env) (s : State) : Prop where
  cache : ∀ l i, s.cache l = some i → E.lineOf (E.selOf i) = l ∧ Known E s i
  primed : ∀ t i, (s.threads t).installs = some i → s.threads t ≠ .install i → s.table (E.selOf i) ≠ none →
    s.cache (E.lineOf (E.selOf i)) = some i
  points : ∀ t sel g, (s.threads t).points = some (sel, g) → g = s.gen ∧ s.table sel ≠ none
  has : ∀ t o i, (s.threads t).has = some (o, i) → (∀ sel, o = some sel → E.selOf i = sel) ∧ Known E s i
  lock : ∀ t, s.holder = some t ↔ (s.threads t).holds = true
  table : ∀ sel i, s.table sel = some i → E.selOf i = sel ∧ s.freed i = false ∧ s.seen i = true
  installs : ∀ t i, (s.threads t).installs = some i → s.freed i = false ∧ s.seen i = true ∧ s.table (E.selOf i) ≠ some i
  once : ∀ t u i, (s.threads t).installs = some i → (s.threads u).installs = some i → t = u
  freed : ∀ i, s.freed i = true → s.seen i = true

theorem inv_start (E : Env) : Inv E start := by
  constructor <;> intros <;> simp_all [start, Pc.installs, Pc.points, Pc.holds, Pc.has]

/-- What is known stays known when a thread that installs nothing moves and the table stays. -/
theorem Known.mono {E : Env} {s s' : State} {i t pc} (h : Known E s i) (hf : s'.freed = s.freed) (ht : s'.table = s.table)
    (hth : s'.threads = Function.update s.threads t pc) (hpc : pc.installs = (s.threads t).installs) : Known E s' i := by
  refine ⟨by rw [hf]; exact h.1, ?_⟩
  rcases h.2 with e | ⟨u, e⟩
  · exact Or.inl (by rw [ht]; exact e)
  · refine Or.inr ⟨u, ?_⟩
    rw [hth]
    by_cases eu : u = t
    · subst eu; simp [hpc, e]
    · simp [eu, e]

/-- A thread moves without touching the table or an installation.  The cache may get the interface of the table for its line. -/
theorem Inv.move {E : Env} {s : State} (h : Inv E s) {t : Nat} {pc : Pc} {holder : Option Nat} {cache : Nat → Option Nat}
    (hinst : pc.installs = (s.threads t).installs)
    (hprime : ∀ i, pc.installs = some i → pc ≠ .install i → s.table (E.selOf i) ≠ none → cache (E.lineOf (E.selOf i)) = some i)
    (hprime' : ∀ u i, u ≠ t → (s.threads u).installs = some i → s.threads u ≠ .install i → s.table (E.selOf i) ≠ none →
      cache (E.lineOf (E.selOf i)) = some i)
    (hpts : ∀ sel g, pc.points = some (sel, g) → g = s.gen ∧ s.table sel ≠ none)
    (hhas : ∀ o i, pc.has = some (o, i) → (∀ sel, o = some sel → E.selOf i = sel) ∧ Known E s i)
    (hlock : ∀ u, holder = some u ↔ ((Function.update s.threads t pc) u).holds = true)
    (hcache : ∀ l i, cache l = some i → E.lineOf (E.selOf i) = l ∧ Known E s i) :
    Inv E ({ s with holder := holder, cache := cache }.goto t pc) := by
  have hk : ∀ i, Known E s i → Known E ({ s with holder := holder, cache := cache }.goto t pc) i :=
    fun i hi => hi.mono rfl rfl rfl hinst
  have hi : ∀ u i, ((Function.update s.threads t pc) u).installs = some i → (s.threads u).installs = some i := by
    intro u i hu
    by_cases e : u = t
    · subst e; simpa [hinst] using hu
    · simpa [e] using hu
  constructor
  · intro l i e
    exact ⟨(hcache l i e).1, hk i (hcache l i e).2⟩
  · intro u i e hne htab
    change ((Function.update s.threads t pc) u).installs = some i at e
    change Function.update s.threads t pc u ≠ .install i at hne
    by_cases eu : u = t
    · subst eu
      simp only [Function.update_self] at e hne
      exact hprime i e hne htab
    · simp only [Function.update_of_ne eu] at e hne
      exact hprime' u i eu e hne htab
  · intro u sel g e
    change ((Function.update s.threads t pc) u).points = some (sel, g) at e
    by_cases eu : u = t
    · subst eu; simp only [Function.update_self] at e; exact hpts sel g e
    · simp only [Function.update_of_ne eu] at e; exact h.points u sel g e
  · intro u o i e
    change ((Function.update s.threads t pc) u).has = some (o, i) at e
    by_cases eu : u = t
    · subst eu; simp only [Function.update_self] at e; exact ⟨(hhas o i e).1, hk i (hhas o i e).2⟩
    · simp only [Function.update_of_ne eu] at e; exact ⟨(h.has u o i e).1, hk i (h.has u o i e).2⟩
  · exact hlock
  · exact h.table
  · intro u i e; exact h.installs u i (hi u i e)
  · intro u v i e1 e2; exact h.once u v i (hi u i e1) (hi v i e2)
  · exact h.freed

/-- The lock when a thread takes it, gives it up, or neither. -/
theorem lock_take {E : Env} {s : State} (h : Inv E s) {t : Nat} {pc : Pc} (h0 : s.holder = none) (hpc : pc.holds = true) :
    ∀ u, some t = some u ↔ ((Function.update s.threads t pc) u).holds = true := by
  intro u
  by_cases e : u = t
  · subst e; simp [hpc]
  · have := (h.lock u)
    rw [h0] at this
    simp only [Function.update_of_ne e]
    constructor
    · intro e'; cases e'; exact absurd rfl e
    · intro e'; have := this.mpr e'; cases this

theorem lock_give {E : Env} {s : State} (h : Inv E s) {t : Nat} {pc : Pc} (h0 : (s.threads t).holds = true) (hpc : pc.holds = false) :
    ∀ u, (none : Option Nat) = some u ↔ ((Function.update s.threads t pc) u).holds = true := by
  intro u
  by_cases e : u = t
  · subst e; simp [hpc]
  · simp only [Function.update_of_ne e]
    constructor
    · intro e'; cases e'
    · intro e'
      have h1 := (h.lock u).mpr e'
      have h2 := (h.lock t).mpr h0
      rw [h1] at h2
      cases h2
      exact absurd rfl e

theorem lock_keep {E : Env} {s : State} (h : Inv E s) {t : Nat} {pc : Pc} (h0 : (s.threads t).holds = false) (hpc : pc.holds = false) :
    ∀ u, s.holder = some u ↔ ((Function.update s.threads t pc) u).holds = true := by
  intro u
  by_cases e : u = t
  · subst e
    have := h.lock u
    simp only [Function.update_self]
    rw [hpc, this, h0]
  · simp only [Function.update_of_ne e]; exact h.lock u

/-- While a thread is in a call, nobody else replaces an interface. -/
theorem no_replacing {E : Env} {s : State} (hd : Disciplined E s) {t : Nat} (ht : s.threads t ≠ .idle) {u i : Nat} (hu : u ≠ t)
    (hi : (s.threads u).installs = some i) : s.table (E.selOf i) = none ∧ (s.threads u = .insert i → E.moves (s.count + 1) = false) := by
  rcases hd u i hi with h | h
  · exact absurd (h t (fun e => hu e.symm)) ht
  · exact ⟨h.1, h.2.2⟩

theorem Inv.find {E : Env} {s : State} (h : Inv E s) {t : Nat} (sel) (ht : s.threads t = .idle) : Inv E (callFind s t sel) :=
  h.move (holder := s.holder) (cache := s.cache) (by rw [ht]; rfl) (fun i e => by cases e) (fun u i _ e hne htab => h.primed u i e hne htab)
    (fun _ _ e => by cases e) (fun _ _ e => by cases e) (lock_keep h (by rw [ht]; rfl) rfl) h.cache

theorem Inv.call {E : Env} {s : State} (h : Inv E s) {t i : Nat} (ht : s.threads t = .idle) (hs : s.seen i = false) :
    Inv E (callInsert s t i) := by
  have hnf : s.freed i = false := by
    cases e : s.freed i with
    | false => rfl
    | true => rw [h.freed i e] at hs; cases hs
  have hk : ∀ j, Known E s j → Known E (callInsert s t i) j := by
    rintro j ⟨h1, h2⟩
    refine ⟨h1, h2.imp id ?_⟩
    rintro ⟨u, hu⟩
    refine ⟨u, ?_⟩
    have : u ≠ t := by rintro rfl; rw [ht] at hu; cases hu
    show ((Function.update s.threads t (.install i)) u).installs = _
    rw [Function.update_of_ne this]; exact hu
  have hins : ∀ u j, ((callInsert s t i).threads u).installs = some j → (u = t ∧ j = i) ∨ (u ≠ t ∧ (s.threads u).installs = some j) := by
    intro u j e
    change ((Function.update s.threads t (.install i)) u).installs = _ at e
    by_cases eu : u = t
    · subst eu; simp only [Function.update_self] at e; exact Or.inl ⟨rfl, (Option.some.inj e).symm⟩
    · rw [Function.update_of_ne eu] at e; exact Or.inr ⟨eu, e⟩
  have hseen : ∀ j, s.seen j = true → (callInsert s t i).seen j = true := by
    intro j e
    show Function.update s.seen i true j = true
    by_cases ej : j = i
    · subst ej; simp
    · rw [Function.update_of_ne ej]; exact e
  have hothers : ∀ u, u ≠ t → (callInsert s t i).threads u = s.threads u := fun u hu => goto_other _ _ hu
  have hself : (callInsert s t i).threads t = .install i := goto_same _ _ _
  constructor
  · intro l j e
    exact ⟨(h.cache l j e).1, hk j (h.cache l j e).2⟩
  · intro u j e hne htab
    rcases hins u j e with ⟨rfl, rfl⟩ | ⟨h1, h2⟩
    · exact absurd hself hne
    · rw [hothers u h1] at hne
      exact h.primed u j h2 hne htab
  · intro u sel g e
    by_cases eu : u = t
    · subst eu; rw [hself] at e; cases e
    · rw [hothers u eu] at e; exact h.points u sel g e
  · intro u o j e
    by_cases eu : u = t
    · subst eu; rw [hself] at e; cases e
    · rw [hothers u eu] at e; exact ⟨(h.has u o j e).1, hk j (h.has u o j e).2⟩
  · exact lock_keep h (by rw [ht]; rfl) rfl
  · intro sel j e
    exact ⟨(h.table sel j e).1, (h.table sel j e).2.1, hseen j (h.table sel j e).2.2⟩
  · intro u j e
    rcases hins u j e with ⟨rfl, rfl⟩ | ⟨h1, h2⟩
    · refine ⟨hnf, by show Function.update s.seen j true j = true; simp, fun e' => ?_⟩
      have := (h.table _ _ e').2.2
      rw [hs] at this; cases this
    · have := h.installs u j h2
      exact ⟨this.1, hseen j this.2.1, this.2.2⟩
  · intro u v j e1 e2
    rcases hins u j e1 with ⟨rfl, rfl⟩ | ⟨h1, h2⟩ <;> rcases hins v _ e2 with ⟨h3, h4⟩ | ⟨h3, h4⟩
    · exact h3.symm
    · have := (h.installs v _ h4).2.1; rw [hs] at this; cases this
    · subst h4; have := (h.installs u _ h2).2.1; rw [hs] at this; cases this
    · exact h.once u v j h2 h4
  · intro j e
    exact hseen j (h.freed j e)

theorem freeOld_other {E : Env} {f : Nat → Bool} {o : Option Nat} {i : Nat} (h : o ≠ some i) : freeOld E f o i = f i := by
  cases o with
  | none => rfl
  | some j =>
    have : i ≠ j := by rintro rfl; exact h rfl
    simp [freeOld, this]

/-- The step that changes the table. -/
theorem Inv.inserted {E : Env} {s : State} (h : Inv E s) (hd : Disciplined E s) {t i : Nat} (ht : s.threads t = .insert i) :
    Inv E ({ insertRow E s i with holder := none }.goto t .idle) := by
  have hti : (s.threads t).installs = some i := by rw [ht]; rfl
  have hi := h.installs t i hti
  have hself : (({ insertRow E s i with holder := none } : State).goto t .idle).threads t = .idle := goto_same _ _ _
  have hothers : ∀ u, u ≠ t → (({ insertRow E s i with holder := none } : State).goto t .idle).threads u = s.threads u :=
    fun u hu => goto_other _ _ hu
  have htab : ∀ sel, (({ insertRow E s i with holder := none } : State).goto t .idle).table sel =
      if sel = E.selOf i then some i else s.table sel := by
    intro sel
    show Function.update s.table (E.selOf i) (some i) sel = _
    by_cases e : sel = E.selOf i
    · subst e; simp
    · simp [e]
  have hfi : ∀ j, s.table (E.selOf i) ≠ some j → (({ insertRow E s i with holder := none } : State).goto t .idle).freed j = s.freed j :=
    fun j hj => freeOld_other hj
  -- what is known stays known, but for the interface that is replaced
  have hk : ∀ j, Known E s j → s.table (E.selOf i) ≠ some j → Known E ({ insertRow E s i with holder := none }.goto t .idle) j := by
    rintro j ⟨h1, h2⟩ hj
    refine ⟨by rw [hfi j hj]; exact h1, ?_⟩
    rw [htab]
    by_cases e : j = i
    · subst e; simp
    · rcases h2 with e2 | ⟨u, hu⟩
      · left
        by_cases es : E.selOf j = E.selOf i
        · rw [es] at e2; exact absurd e2 hj
        · rw [if_neg es]; exact e2
      · right
        refine ⟨u, ?_⟩
        have : u ≠ t := by rintro rfl; rw [hti] at hu; cases hu; exact e rfl
        rw [hothers u this]; exact hu
  have hins : ∀ u j, ((({ insertRow E s i with holder := none } : State).goto t .idle).threads u).installs = some j →
      u ≠ t ∧ (s.threads u).installs = some j := by
    intro u j e
    by_cases eu : u = t
    · subst eu; rw [hself] at e; cases e
    · rw [hothers u eu] at e; exact ⟨eu, e⟩
  -- another installer is for another selector
  have hsel : ∀ u j, u ≠ t → (s.threads u).installs = some j → E.selOf j ≠ E.selOf i := by
    intro u j hu e
    rcases hd t i hti with ha | ⟨_, hb, _⟩
    · rw [ha u hu] at e; cases e
    · exact hb u j hu e
  constructor
  · intro l j e
    have hc := h.cache l j e
    refine ⟨hc.1, hk j hc.2 (fun e' => ?_)⟩
    have hp := h.primed t i hti (by rw [ht]; simp) (by rw [e']; simp)
    have hl : E.lineOf (E.selOf i) = l := by rw [← (h.table _ _ e').1]; exact hc.1
    have e0 : s.cache l = some j := e
    rw [hl, e0] at hp
    cases hp
    exact hi.2.2 e'
  · intro u j e hne htb
    obtain ⟨h1, h2⟩ := hins u j e
    rw [hothers u h1] at hne
    rw [htab, if_neg (hsel u j h1 h2)] at htb
    exact h.primed u j h2 hne htb
  · intro u sel g e
    have hu : u ≠ t := by rintro rfl; rw [hself] at e; cases e
    rw [hothers u hu] at e
    obtain ⟨h1, h2⟩ := h.points u sel g e
    constructor
    · rw [h1]
      show s.gen = if (s.table (E.selOf i)).isNone && E.moves (if (s.table (E.selOf i)).isNone then s.count + 1 else s.count) then s.gen + 1 else s.gen
      rcases hd t i hti with ha | ⟨ha, _, hb⟩
      · rw [ha u hu] at e; cases e
      · simp [ha, hb ht]
    · rw [htab]; split
      · simp
      · exact h2
  · intro u sel j e
    have hu : u ≠ t := by rintro rfl; rw [hself] at e; cases e
    rw [hothers u hu] at e
    have := h.has u sel j e
    refine ⟨this.1, hk j this.2 (fun e' => ?_)⟩
    rcases hd t i hti with ha | ⟨ha, _, _⟩
    · rw [ha u hu] at e; cases e
    · rw [ha] at e'; cases e'
  · intro u
    exact lock_give h (by rw [ht]; rfl) rfl u
  · intro sel j e
    rw [htab] at e
    by_cases es : sel = E.selOf i
    · rw [if_pos es] at e
      cases e
      exact ⟨es.symm, by rw [hfi i hi.2.2]; exact hi.1, hi.2.1⟩
    · rw [if_neg es] at e
      have := h.table sel j e
      refine ⟨this.1, ?_, this.2.2⟩
      rw [hfi j (fun e' => es ((this.1.symm.trans (h.table _ _ e').1)))]
      exact this.2.1
  · intro u j e
    obtain ⟨h1, h2⟩ := hins u j e
    have := h.installs u j h2
    refine ⟨?_, this.2.1, ?_⟩
    · rw [hfi j (fun e' => hsel u j h1 h2 (h.table _ _ e').1)]; exact this.1
    · rw [htab, if_neg (hsel u j h1 h2)]; exact this.2.2
  · intro u v j e1 e2
    exact h.once u v j (hins u j e1).2 (hins v j e2).2
  · intro j e
    by_cases e' : s.table (E.selOf i) = some j
    · exact (h.table _ _ e').2.2
    · rw [hfi j e'] at e; exact h.freed j e

/-- No step touches freed memory, and every step keeps the invariant. -/
theorem Inv.act {E : Env} {s : State} (h : Inv E s) (hd : Disciplined E s) (t : Nat) :
    act E s t ≠ .bad ∧ ∀ s', Dispatch.act E s t = .ok s' → Inv E s' := by
  have silent : ∀ {pc : Pc} {holder cache}, s.threads t ≠ .idle → pc.installs = none → (s.threads t).installs = none →
      (∀ sel g, pc.points = some (sel, g) → g = s.gen ∧ s.table sel ≠ none) → (∀ o i, pc.has = some (o, i) → (∀ sel, o = some sel → E.selOf i = sel) ∧ Known E s i) →
      (∀ u, holder = some u ↔ ((Function.update s.threads t pc) u).holds = true) →
      (∀ l i, cache l = some i → E.lineOf (E.selOf i) = l ∧ Known E s i) → Inv E ({ s with holder := holder, cache := cache }.goto t pc) := by
    intro pc holder cache h0 h1 h2 h3 h4 h5 h6
    exact h.move (by rw [h1, h2]) (fun i e => by rw [h1] at e; cases e)
      (fun u i hu e _ htab => absurd (no_replacing hd h0 hu e).1 htab) h3 h4 h5 h6
  cases ht : s.threads t with
  | idle => simp [Dispatch.act, ht]
  | look sel =>
    have h0 : s.threads t ≠ .idle := by rw [ht]; simp
    have h1 : (s.threads t).installs = none := by rw [ht]; rfl
    have h2 : (s.threads t).holds = false := by rw [ht]; rfl
    have tolock : Inv E (s.goto t (.lock sel)) :=
      silent (holder := s.holder) (cache := s.cache) h0 rfl h1 (fun _ _ e => by cases e) (fun _ _ e => by cases e) (lock_keep h h2 rfl) h.cache
    simp only [Dispatch.act, ht]
    cases hc : s.cache (E.lineOf sel) with
    | none => exact ⟨by simp, fun s' e => by cases e; exact tolock⟩
    | some i =>
      refine ⟨by simp, fun s' e => ?_⟩
      cases e
      exact silent (holder := s.holder) (cache := s.cache) h0 rfl h1 (fun _ _ e => by cases e)
        (fun _ _ e => by cases e; exact ⟨fun _ e => (by cases e), (h.cache _ _ hc).2⟩) (lock_keep h h2 rfl) h.cache
  | peek sel i =>
    have h0 : s.threads t ≠ .idle := by rw [ht]; simp
    have h1 : (s.threads t).installs = none := by rw [ht]; rfl
    have h2 : (s.threads t).holds = false := by rw [ht]; rfl
    have hk := (h.has t none i (by rw [ht]; rfl)).2
    simp only [Dispatch.act, ht, hk.1, Bool.false_eq_true, if_false]
    by_cases es : E.selOf i = sel
    · rw [if_pos es]
      refine ⟨by simp, fun s' e => ?_⟩
      cases e
      exact silent (holder := s.holder) (cache := s.cache) h0 rfl h1 (fun _ _ e => by cases e)
        (fun _ _ e => by cases e; exact ⟨fun _ e => (by cases e; exact es), hk⟩) (lock_keep h h2 rfl) h.cache
    · rw [if_neg es]
      refine ⟨by simp, fun s' e => ?_⟩
      cases e
      exact silent (holder := s.holder) (cache := s.cache) h0 rfl h1 (fun _ _ e => by cases e) (fun _ _ e => by cases e) (lock_keep h h2 rfl) h.cache
  | lock sel =>
    have h0 : s.threads t ≠ .idle := by rw [ht]; simp
    have h1 : (s.threads t).installs = none := by rw [ht]; rfl
    simp only [Dispatch.act, ht]
    by_cases hh : s.holder = none
    · rw [if_pos hh]
      refine ⟨by simp, fun s' e => ?_⟩
      cases e
      exact silent (cache := s.cache) h0 rfl h1 (fun _ _ e => by cases e) (fun _ _ e => by cases e) (lock_take h hh rfl) h.cache
    · rw [if_neg hh]
      exact ⟨by simp, fun s' e => by cases e⟩
  | search sel =>
    have h0 : s.threads t ≠ .idle := by rw [ht]; simp
    have h1 : (s.threads t).installs = none := by rw [ht]; rfl
    have h2 : (s.threads t).holds = true := by rw [ht]; rfl
    simp only [Dispatch.act, ht]
    by_cases hh : s.table sel = none
    · rw [if_pos hh]
      refine ⟨by simp, fun s' e => ?_⟩
      cases e
      exact silent (cache := s.cache) h0 rfl h1 (fun _ _ e => by cases e) (fun _ _ e => by cases e) (lock_give h h2 rfl) h.cache
    · rw [if_neg hh]
      refine ⟨by simp, fun s' e => ?_⟩
      cases e
      exact silent (cache := s.cache) h0 rfl h1 (fun _ _ e => by cases e; exact ⟨rfl, hh⟩) (fun _ _ e => by cases e) (lock_give h h2 rfl) h.cache
  | entry sel g =>
    have h0 : s.threads t ≠ .idle := by rw [ht]; simp
    have h1 : (s.threads t).installs = none := by rw [ht]; rfl
    have h2 : (s.threads t).holds = false := by rw [ht]; rfl
    have hp := h.points t sel g (by rw [ht]; rfl)
    simp only [Dispatch.act, ht]
    rw [if_neg (by simp [hp.1])]
    cases htb : s.table sel with
    | none => exact absurd htb hp.2
    | some i =>
      refine ⟨by simp, fun s' e => ?_⟩
      cases e
      have := h.table sel i htb
      exact silent (holder := s.holder) (cache := s.cache) h0 rfl h1 (fun _ _ e => by cases e; exact hp)
        (fun _ _ e => by cases e; exact ⟨fun _ e => (by cases e; exact this.1), this.2.1, Or.inl (by rw [this.1]; exact htb)⟩)
        (lock_keep h h2 rfl) h.cache
  | fill sel g i =>
    have h0 : s.threads t ≠ .idle := by rw [ht]; simp
    have h1 : (s.threads t).installs = none := by rw [ht]; rfl
    have h2 : (s.threads t).holds = false := by rw [ht]; rfl
    have hp := h.points t sel g (by rw [ht]; rfl)
    have hk := h.has t (some sel) i (by rw [ht]; rfl)
    simp only [Dispatch.act, ht]
    refine ⟨by simp, fun s' e => ?_⟩
    cases e
    refine silent (holder := s.holder) h0 rfl h1 (fun _ _ e => by cases e; exact hp) (fun _ _ e => by cases e) (lock_keep h h2 rfl) (fun l j e => ?_)
    by_cases el : l = E.lineOf sel
    · subst el
      simp only [Function.update_self] at e
      cases e
      exact ⟨by rw [hk.1 sel rfl], hk.2⟩
    · rw [Function.update_of_ne el] at e
      exact h.cache l j e
  | again sel g =>
    have h0 : s.threads t ≠ .idle := by rw [ht]; simp
    have h1 : (s.threads t).installs = none := by rw [ht]; rfl
    have h2 : (s.threads t).holds = false := by rw [ht]; rfl
    have hp := h.points t sel g (by rw [ht]; rfl)
    simp only [Dispatch.act, ht]
    rw [if_neg (by simp [hp.1])]
    cases htb : s.table sel with
    | none => exact absurd htb hp.2
    | some i =>
      refine ⟨by simp, fun s' e => ?_⟩
      cases e
      have := h.table sel i htb
      exact silent (holder := s.holder) (cache := s.cache) h0 rfl h1 (fun _ _ e => by cases e)
        (fun _ _ e => by cases e; exact ⟨fun _ e => (by cases e; exact this.1), this.2.1, Or.inl (by rw [this.1]; exact htb)⟩) (lock_keep h h2 rfl) h.cache
  | found sel i =>
    have h0 : s.threads t ≠ .idle := by rw [ht]; simp
    have h1 : (s.threads t).installs = none := by rw [ht]; rfl
    have h2 : (s.threads t).holds = false := by rw [ht]; rfl
    have hk := (h.has t (some sel) i (by rw [ht]; rfl)).2
    simp only [Dispatch.act, ht, hk.1, Bool.false_eq_true, if_false]
    refine ⟨by simp, fun s' e => ?_⟩
    cases e
    exact silent (holder := s.holder) (cache := s.cache) h0 rfl h1 (fun _ _ e => by cases e) (fun _ _ e => by cases e) (lock_keep h h2 rfl) h.cache
  | missing sel =>
    have h0 : s.threads t ≠ .idle := by rw [ht]; simp
    have h1 : (s.threads t).installs = none := by rw [ht]; rfl
    have h2 : (s.threads t).holds = false := by rw [ht]; rfl
    simp only [Dispatch.act, ht]
    refine ⟨by simp, fun s' e => ?_⟩
    cases e
    exact silent (holder := s.holder) (cache := s.cache) h0 rfl h1 (fun _ _ e => by cases e) (fun _ _ e => by cases e) (lock_keep h h2 rfl) h.cache
  | install i =>
    have h0 : s.threads t ≠ .idle := by rw [ht]; simp
    have h1 : (s.threads t).installs = some i := by rw [ht]; rfl
    have h2 : (s.threads t).holds = false := by rw [ht]; rfl
    simp only [Dispatch.act, ht]
    refine ⟨by simp, fun s' e => ?_⟩
    cases e
    refine h.move (holder := s.holder) (by rw [h1]; rfl) (fun j e _ _ => ?_) (fun u j hu e _ htab => absurd (no_replacing hd h0 hu e).1 htab)
      (fun _ _ e => by cases e) (fun _ _ e => by cases e) (lock_keep h h2 rfl) (fun l j e => ?_)
    · cases e; simp
    · by_cases el : l = E.lineOf (E.selOf i)
      · subst el
        simp only [Function.update_self] at e
        cases e
        exact ⟨rfl, (h.installs t i h1).1, Or.inr ⟨t, h1⟩⟩
      · rw [Function.update_of_ne el] at e
        exact h.cache l j e
  | lockIn i =>
    have h0 : s.threads t ≠ .idle := by rw [ht]; simp
    have h1 : (s.threads t).installs = some i := by rw [ht]; rfl
    simp only [Dispatch.act, ht]
    by_cases hh : s.holder = none
    · rw [if_pos hh]
      refine ⟨by simp, fun s' e => ?_⟩
      cases e
      exact h.move (cache := s.cache) (by rw [h1]; rfl) (fun j e _ htab => by cases e; exact h.primed t i h1 (by rw [ht]; simp) htab)
        (fun u j hu e _ htab => absurd (no_replacing hd h0 hu e).1 htab) (fun _ _ e => by cases e) (fun _ _ e => by cases e)
        (lock_take h hh rfl) h.cache
    · rw [if_neg hh]
      exact ⟨by simp, fun s' e => by cases e⟩
  | insert i =>
    simp only [Dispatch.act, ht]
    refine ⟨by simp, fun s' e => ?_⟩
    cases e
    exact h.inserted hd ht

theorem runs_inv {E : Env} {s : State} (h : Runs E start s) : Inv E s ∧ Disciplined E s := by
  induction h with
  | refl => exact ⟨inv_start E, fun t i e => by cases e⟩
  | tail _ he hd ih =>
    obtain ⟨hi, hd'⟩ := ih
    refine ⟨?_, hd⟩
    cases he with
    | find sel ht => exact hi.find sel ht
    | insert ht hs => exact hi.call ht hs
    | step hstep => exact (hi.act hd' _).2 _ hstep

end Dispatch
end Duck
