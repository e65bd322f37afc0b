import Verif.Spec.RwLock
/-! Invariant of read-write locks. -/
namespace Duck
namespace RwLock

theorem upd_same {β : Type} (f : Nat → β) (a : Nat) (b : β) : upd f a b a = b := if_pos rfl
theorem upd_ne {β : Type} (f : Nat → β) {a x : Nat} (b : β) (h : x ≠ a) : upd f a b x = f x := if_neg h

/-- A thread that has taken the lock for writing and not yet said so. -/
def Pc.setting : Pc → Bool
  | .set => true
  | .trySet => true
  | _ => false

/-- A thread inside DKReadWriteLockUnlock. -/
def Pc.unlocking : Pc → Bool
  | .unlock => true
  | .clear => true
  | .releaseExclusive => true
  | .releaseShared => true
  | _ => false

structure Inv (p : Platform) (s : State) : Prop where
  alone : ∀ i, s.writer = some i → s.readers = []
  told : ∀ i, (i, true) ∈ s.held ↔ s.writer = some i ∧ (s.threads i).setting = false
  once : ∀ i, s.held.count (i, true) ≤ 1
  shared : ∀ i, s.held.count (i, false) = s.readers.count i
  setting : ∀ i, (s.threads i).setting = true → s.writer = some i ∧ p = .windows
  flag : p = .windows → (s.exclusive = true ↔ ∃ i, s.writer = some i ∧ (s.threads i).setting = false ∧ s.threads i ≠ .releaseExclusive)
  unlocking : ∀ i, (s.threads i).unlocking = true → (i, true) ∈ s.held ∨ (i, false) ∈ s.held
  clear : ∀ i, s.threads i = .clear ∨ s.threads i = .releaseExclusive → (i, true) ∈ s.held
  shareds : ∀ i, s.threads i = .releaseShared → (i, false) ∈ s.held

theorem inv_init (p : Platform) : Inv p init := by
  refine ⟨?_, ?_, ?_, ?_, ?_, ?_, ?_, ?_, ?_⟩ <;> simp [init, Pc.setting, Pc.unlocking]

/-- The result of the last attempt does not matter. -/
theorem inv_result {p : Platform} {s : State} (h : Inv p s) (r : Nat → Option Bool) : Inv p { s with result := r } :=
  ⟨h.alone, h.told, h.once, h.shared, h.setting, h.flag, h.unlocking, h.clear, h.shareds⟩

theorem shared_mem {p : Platform} {s : State} (h : Inv p s) (i : Nat) : (i, false) ∈ s.held ↔ i ∈ s.readers := by
  rw [← List.count_pos_iff, h.shared i, List.count_pos_iff]

theorem not_both {p : Platform} {s : State} (h : Inv p s) {i j : Nat} (h1 : (i, true) ∈ s.held) : (j, false) ∉ s.held := by
  rw [shared_mem h, h.alone i ((h.told i).mp h1).1]
  exact List.not_mem_nil

/-- Moving a thread without touching the lock. -/
theorem inv_goto {p : Platform} {s : State} (h : Inv p s) {i : Nat} {pc : Pc} (h1 : pc.setting = false) (h2 : (s.threads i).setting = false)
    (h3 : pc.unlocking = true → (i, true) ∈ s.held ∨ (i, false) ∈ s.held) (h4 : pc = .clear → (i, true) ∈ s.held)
    (h5 : pc = .releaseShared → (i, false) ∈ s.held) (h6 : pc ≠ .releaseExclusive) (h7 : s.threads i ≠ .releaseExclusive) : Inv p (goto s i pc) := by
  have hset : ∀ j, (upd s.threads i pc j).setting = (s.threads j).setting := by
    intro j
    by_cases e : j = i
    · subst e; rw [upd_same, h1, h2]
    · rw [upd_ne _ _ e]
  have hre : ∀ j, upd s.threads i pc j = .releaseExclusive ↔ s.threads j = .releaseExclusive := by
    intro j
    by_cases e : j = i
    · subst e; rw [upd_same]; exact ⟨fun e => absurd e h6, fun e => absurd e h7⟩
    · rw [upd_ne _ _ e]
  refine ⟨h.alone, ?_, h.once, h.shared, ?_, ?_, ?_, ?_, ?_⟩
  · intro j
    show _ ↔ s.writer = some j ∧ (upd s.threads i pc j).setting = false
    rw [hset j]; exact h.told j
  · intro j hj
    exact h.setting j (by rw [← hset j]; exact hj)
  · intro hp
    show s.exclusive = true ↔ ∃ j, s.writer = some j ∧ (upd s.threads i pc j).setting = false ∧ upd s.threads i pc j ≠ .releaseExclusive
    rw [h.flag hp]
    exact exists_congr fun j => by rw [hset j, Ne, Ne, hre j]
  · intro j hj
    have hj : (upd s.threads i pc j).unlocking = true := hj
    by_cases e : j = i
    · subst e; rw [upd_same] at hj; exact h3 hj
    · rw [upd_ne _ _ e] at hj; exact h.unlocking j hj
  · intro j hj
    have hj : upd s.threads i pc j = .clear ∨ upd s.threads i pc j = .releaseExclusive := hj
    by_cases e : j = i
    · subst e; rw [upd_same] at hj
      rcases hj with hj | hj
      · exact h4 hj
      · exact absurd hj h6
    · rw [upd_ne _ _ e] at hj; exact h.clear j hj
  · intro j hj
    have hj : upd s.threads i pc j = .releaseShared := hj
    by_cases e : j = i
    · subst e; rw [upd_same] at hj; exact h5 hj
    · rw [upd_ne _ _ e] at hj; exact h.shareds j hj

theorem writable_spec {s : State} (h : writable s = true) : s.writer = none ∧ s.readers = [] := by
  simpa [writable] using h

theorem no_setting {p : Platform} {s : State} (h : Inv p s) (hw : s.writer = none) (j : Nat) : (s.threads j).setting = false := by
  cases hj : (s.threads j).setting with
  | false => rfl
  | true => have := (h.setting j hj).1; rw [hw] at this; cases this

theorem no_writer {p : Platform} {s : State} (h : Inv p s) (hw : s.writer = none) (j : Nat) : (j, true) ∉ s.held := by
  intro hj
  have := ((h.told j).mp hj).1
  rw [hw] at this; cases this

/-- POSIX: the lock is taken for writing, and the function returns. -/
theorem inv_write {s : State} (h : Inv .posix s) {i : Nat} (hw : writable s = true) : Inv .posix (got { s with writer := some i } i true) := by
  obtain ⟨h1, h2⟩ := writable_spec hw
  have hset : ∀ j, (upd s.threads i .idle j).setting = false := by
    intro j
    by_cases e : j = i
    · subst e; rw [upd_same]; rfl
    · rw [upd_ne _ _ e]; exact no_setting h h1 j
  refine ⟨fun _ _ => h2, ?_, ?_, ?_, ?_, ?_, ?_, ?_, ?_⟩
  · intro j
    show (j, true) ∈ (i, true) :: s.held ↔ some i = some j ∧ (upd s.threads i .idle j).setting = false
    rw [hset j]
    simp only [List.mem_cons, Prod.mk.injEq, and_true, Option.some.injEq]
    exact ⟨fun e => e.elim Eq.symm (fun e => absurd e (no_writer h h1 j)), fun e => .inl e.symm⟩
  · intro j
    show List.count (j, true) ((i, true) :: s.held) ≤ 1
    rw [List.count_cons]
    have : s.held.count (j, true) = 0 := List.count_eq_zero.mpr (no_writer h h1 j)
    split <;> omega
  · intro j
    show List.count (j, false) ((i, true) :: s.held) = _
    rw [List.count_cons_of_ne (by simp)]
    exact h.shared j
  · intro j hj
    have := hset j
    rw [show (upd s.threads i .idle j).setting = true from hj] at this; cases this
  · intro e; cases e
  · intro j hj
    have hj : (upd s.threads i .idle j).unlocking = true := hj
    by_cases e : j = i
    · subst e; rw [upd_same] at hj; cases hj
    · rw [upd_ne _ _ e] at hj
      rcases h.unlocking j hj with g | g
      · exact absurd g (no_writer h h1 j)
      · exact .inr (List.mem_cons_of_mem _ g)
  · intro j hj
    have hj : upd s.threads i .idle j = .clear ∨ upd s.threads i .idle j = .releaseExclusive := hj
    by_cases e : j = i
    · subst e; rw [upd_same] at hj; simp at hj
    · rw [upd_ne _ _ e] at hj; exact List.mem_cons_of_mem _ (h.clear j hj)
  · intro j hj
    have hj : upd s.threads i .idle j = .releaseShared := hj
    by_cases e : j = i
    · subst e; rw [upd_same] at hj; cases hj
    · rw [upd_ne _ _ e] at hj; exact List.mem_cons_of_mem _ (h.shareds j hj)

/-- Windows: the lock is taken for writing. -/
theorem inv_acquire {s : State} (h : Inv .windows s) {i : Nat} {pc : Pc} (hpc : pc = .set ∨ pc = .trySet) (hw : writable s = true) :
    Inv .windows (goto { s with writer := some i } i pc) := by
  obtain ⟨h1, h2⟩ := writable_spec hw
  have hps : pc.setting = true := by rcases hpc with rfl | rfl <;> rfl
  have hpu : pc.unlocking = false := by rcases hpc with rfl | rfl <;> rfl
  have hother : ∀ j, j ≠ i → upd s.threads i pc j = s.threads j := fun j e => upd_ne _ _ e
  have hcl : ∀ j, ¬ (s.threads j = .clear ∨ s.threads j = .releaseExclusive) := fun j hj => no_writer h h1 j (h.clear j hj)
  refine ⟨fun _ _ => h2, ?_, h.once, h.shared, ?_, ?_, ?_, ?_, ?_⟩
  · intro j
    show (j, true) ∈ s.held ↔ some i = some j ∧ (upd s.threads i pc j).setting = false
    constructor
    · intro hj; exact absurd hj (no_writer h h1 j)
    · rintro ⟨e, hj⟩
      cases e
      rw [upd_same, hps] at hj; cases hj
  · intro j hj
    have hj : (upd s.threads i pc j).setting = true := hj
    by_cases e : j = i
    · subst e; exact ⟨rfl, rfl⟩
    · rw [hother j e, no_setting h h1 j] at hj; cases hj
  · intro _
    show s.exclusive = true ↔ ∃ j, some i = some j ∧ (upd s.threads i pc j).setting = false ∧ upd s.threads i pc j ≠ .releaseExclusive
    rw [h.flag rfl]
    constructor
    · rintro ⟨j, e, _⟩; rw [h1] at e; cases e
    · rintro ⟨j, e, g, _⟩; cases e; rw [upd_same, hps] at g; cases g
  · intro j hj
    have hj : (upd s.threads i pc j).unlocking = true := hj
    by_cases e : j = i
    · subst e; rw [upd_same, hpu] at hj; cases hj
    · rw [hother j e] at hj; exact h.unlocking j hj
  · intro j hj
    have hj : upd s.threads i pc j = .clear ∨ upd s.threads i pc j = .releaseExclusive := hj
    by_cases e : j = i
    · subst e; rw [upd_same] at hj; rcases hpc with rfl | rfl <;> simp at hj
    · rw [hother j e] at hj; exact absurd hj (hcl j)
  · intro j hj
    have hj : upd s.threads i pc j = .releaseShared := hj
    by_cases e : j = i
    · subst e; rw [upd_same] at hj; rcases hpc with rfl | rfl <;> simp at hj
    · rw [hother j e] at hj; exact h.shareds j hj

/-- Windows: `exclusive` is set and the function returns. -/
theorem inv_set {s : State} (h : Inv .windows s) {i : Nat} (hi : (s.threads i).setting = true) :
    Inv .windows (got { s with exclusive := true } i true) := by
  have hw := (h.setting i hi).1
  have hno : ∀ j, (j, true) ∉ s.held := by
    intro j hj
    obtain ⟨g1, g2⟩ := (h.told j).mp hj
    rw [hw] at g1; cases g1
    rw [hi] at g2; cases g2
  have hidle : (upd s.threads i .idle i).setting = false := by rw [upd_same]; rfl
  refine ⟨h.alone, ?_, ?_, ?_, ?_, ?_, ?_, ?_, ?_⟩
  · intro j
    show (j, true) ∈ (i, true) :: s.held ↔ s.writer = some j ∧ (upd s.threads i .idle j).setting = false
    constructor
    · intro hj
      rcases List.mem_cons.mp hj with e | e
      · cases e; exact ⟨hw, hidle⟩
      · exact absurd e (hno j)
    · rintro ⟨e, _⟩
      rw [hw] at e; cases e
      exact List.mem_cons_self
  · intro j
    show List.count (j, true) ((i, true) :: s.held) ≤ 1
    rw [List.count_cons]
    have : s.held.count (j, true) = 0 := List.count_eq_zero.mpr (hno j)
    split <;> omega
  · intro j
    show List.count (j, false) ((i, true) :: s.held) = _
    rw [List.count_cons_of_ne (by simp)]
    exact h.shared j
  · intro j hj
    have hj : (upd s.threads i .idle j).setting = true := hj
    by_cases e : j = i
    · subst e; rw [upd_same] at hj; cases hj
    · rw [upd_ne _ _ e] at hj; exact h.setting j hj
  · intro _
    show true = true ↔ ∃ j, s.writer = some j ∧ (upd s.threads i .idle j).setting = false ∧ upd s.threads i .idle j ≠ .releaseExclusive
    exact ⟨fun _ => ⟨i, hw, hidle, by rw [upd_same]; simp⟩, fun _ => rfl⟩
  · intro j hj
    have hj : (upd s.threads i .idle j).unlocking = true := hj
    by_cases e : j = i
    · subst e; rw [upd_same] at hj; cases hj
    · rw [upd_ne _ _ e] at hj
      rcases h.unlocking j hj with g | g
      · exact absurd g (hno j)
      · exact .inr (List.mem_cons_of_mem _ g)
  · intro j hj
    have hj : upd s.threads i .idle j = .clear ∨ upd s.threads i .idle j = .releaseExclusive := hj
    by_cases e : j = i
    · subst e; rw [upd_same] at hj; simp at hj
    · rw [upd_ne _ _ e] at hj; exact List.mem_cons_of_mem _ (h.clear j hj)
  · intro j hj
    have hj : upd s.threads i .idle j = .releaseShared := hj
    by_cases e : j = i
    · subst e; rw [upd_same] at hj; cases hj
    · rw [upd_ne _ _ e] at hj; exact List.mem_cons_of_mem _ (h.shareds j hj)

/-- The lock is taken for reading and the function returns. -/
theorem inv_read {p : Platform} {s : State} (h : Inv p s) {i : Nat} (hw : s.writer = none) :
    Inv p (got { s with readers := i :: s.readers } i false) := by
  have hset : ∀ j, (upd s.threads i .idle j).setting = false := by
    intro j
    by_cases e : j = i
    · subst e; rw [upd_same]; rfl
    · rw [upd_ne _ _ e]; exact no_setting h hw j
  refine ⟨?_, ?_, ?_, ?_, ?_, ?_, ?_, ?_, ?_⟩
  · intro j hj
    have hj : s.writer = some j := hj
    rw [hw] at hj; cases hj
  · intro j
    show (j, true) ∈ (i, false) :: s.held ↔ s.writer = some j ∧ _
    simp only [List.mem_cons, Prod.mk.injEq, hw]
    exact ⟨fun e => e.elim (fun e => by cases e.2) (fun e => absurd e (no_writer h hw j)), fun e => by cases e.1⟩
  · intro j
    show List.count (j, true) ((i, false) :: s.held) ≤ 1
    rw [List.count_cons_of_ne (by simp)]
    exact h.once j
  · intro j
    show List.count (j, false) ((i, false) :: s.held) = List.count j (i :: s.readers)
    rw [List.count_cons, List.count_cons, h.shared j]
    simp
  · intro j hj
    have := hset j
    rw [show (upd s.threads i .idle j).setting = true from hj] at this; cases this
  · intro hp
    show s.exclusive = true ↔ ∃ j, s.writer = some j ∧ _
    rw [h.flag hp]
    constructor
    · rintro ⟨j, e, _⟩; rw [hw] at e; cases e
    · rintro ⟨j, e, _⟩; rw [hw] at e; cases e
  · intro j hj
    have hj : (upd s.threads i .idle j).unlocking = true := hj
    by_cases e : j = i
    · subst e; rw [upd_same] at hj; cases hj
    · rw [upd_ne _ _ e] at hj
      exact (h.unlocking j hj).imp (List.mem_cons_of_mem _) (List.mem_cons_of_mem _)
  · intro j hj
    have hj : upd s.threads i .idle j = .clear ∨ upd s.threads i .idle j = .releaseExclusive := hj
    by_cases e : j = i
    · subst e; rw [upd_same] at hj; simp at hj
    · rw [upd_ne _ _ e] at hj; exact List.mem_cons_of_mem _ (h.clear j hj)
  · intro j hj
    have hj : upd s.threads i .idle j = .releaseShared := hj
    by_cases e : j = i
    · subst e; rw [upd_same] at hj; cases hj
    · rw [upd_ne _ _ e] at hj; exact List.mem_cons_of_mem _ (h.shareds j hj)

/-- The writer gives the lock back. -/
theorem inv_release {p : Platform} {s : State} (h : Inv p s) {i : Nat} (hi : (i, true) ∈ s.held)
    (hpc : p = .windows → s.threads i = .releaseExclusive) : Inv p (released { s with writer := none } i) := by
  obtain ⟨hw, hs⟩ := (h.told i).mp hi
  have hset : ∀ j, (s.threads j).setting = false := by
    intro j
    cases hj : (s.threads j).setting with
    | false => rfl
    | true =>
        have := (h.setting j hj).1
        rw [hw] at this; cases this
        rw [hs] at hj; cases hj
  have hset' : ∀ j, (upd s.threads i .idle j).setting = false := by
    intro j
    by_cases e : j = i
    · subst e; rw [upd_same]; rfl
    · rw [upd_ne _ _ e]; exact hset j
  have hr := h.alone i hw
  have hno : ∀ j, (j, true) ∉ s.held.erase (i, true) := by
    intro j hj
    have hj' := List.mem_of_mem_erase hj
    have := ((h.told j).mp hj').1
    rw [hw] at this; cases this
    have h1 := List.count_pos_iff.mpr hj
    rw [List.count_erase_self] at h1
    have h2 := h.once i
    omega
  have hnof : ∀ j, (j, false) ∉ s.held := fun j => not_both h hi
  have hun : ∀ j, j ≠ i → (s.threads j).unlocking = false := by
    intro j e
    cases hj : (s.threads j).unlocking with
    | false => rfl
    | true =>
        rcases h.unlocking j hj with g | g
        · have := ((h.told j).mp g).1
          rw [hw] at this; cases this; exact absurd rfl e
        · exact absurd g (hnof j)
  have hun' : ∀ j, (upd s.threads i .idle j).unlocking = false := by
    intro j
    by_cases e : j = i
    · subst e; rw [upd_same]; rfl
    · rw [upd_ne _ _ e]; exact hun j e
  have hheld : (released { s with writer := none } i).held = s.held.erase (i, true) := by
    show s.held.erase (if (i, true) ∈ s.held then (i, true) else (i, false)) = _
    rw [if_pos hi]
  refine ⟨?_, ?_, ?_, ?_, ?_, ?_, ?_, ?_, ?_⟩
  · intro j hj; cases hj
  · intro j
    rw [hheld]
    exact ⟨fun e => absurd e (hno j), fun e => by cases e.1⟩
  · intro j
    rw [hheld]
    have := List.count_eq_zero.mpr (hno j)
    omega
  · intro j
    rw [hheld]
    show _ = s.readers.count j
    rw [hr]
    exact List.count_eq_zero.mpr (fun e => hnof j (List.mem_of_mem_erase e))
  · intro j hj
    have := hset' j
    rw [show (upd s.threads i .idle j).setting = true from hj] at this; cases this
  · intro hp
    show s.exclusive = true ↔ ∃ j, none = some j ∧ _
    rw [h.flag hp]
    constructor
    · rintro ⟨j, e, _, g⟩
      rw [hw] at e; cases e
      exact absurd (hpc hp) g
    · rintro ⟨j, e, _⟩; cases e
  · intro j hj
    have := hun' j
    rw [show (upd s.threads i .idle j).unlocking = true from hj] at this; cases this
  · intro j hj
    have hj : upd s.threads i .idle j = .clear ∨ upd s.threads i .idle j = .releaseExclusive := hj
    have := hun' j
    rcases hj with hj | hj <;> rw [hj] at this <;> cases this
  · intro j hj
    have hj : upd s.threads i .idle j = .releaseShared := hj
    have := hun' j
    rw [hj] at this; cases this

/-- A reader gives the lock back. -/
theorem inv_releaseShared {p : Platform} {s : State} (h : Inv p s) {i : Nat} (hi : (i, false) ∈ s.held) :
    Inv p (released { s with readers := s.readers.erase i } i) := by
  have hnt : ∀ j, (j, true) ∉ s.held := fun j hj => not_both h hj hi
  have hw : s.writer = none ∨ ∃ j, s.writer = some j := by cases s.writer <;> simp
  have hmem := (shared_mem h i).mp hi
  have hw : s.writer = none := by
    rcases hw with hw | ⟨j, hw⟩
    · exact hw
    · rw [h.alone j hw] at hmem; cases hmem
  have hheld : (released { s with readers := s.readers.erase i } i).held = s.held.erase (i, false) := by
    show s.held.erase (if (i, true) ∈ s.held then (i, true) else (i, false)) = _
    rw [if_neg (hnt i)]
  have hset' : ∀ j, (upd s.threads i .idle j).setting = false := by
    intro j
    by_cases e : j = i
    · subst e; rw [upd_same]; rfl
    · rw [upd_ne _ _ e]; exact no_setting h hw j
  have hkeep : ∀ j, j ≠ i → (j, false) ∈ s.held → (j, false) ∈ s.held.erase (i, false) := by
    intro j e hj
    exact (List.mem_erase_of_ne (by simpa using e)).mpr hj
  refine ⟨?_, ?_, ?_, ?_, ?_, ?_, ?_, ?_, ?_⟩
  · intro j hj
    have hj : s.writer = some j := hj
    rw [hw] at hj; cases hj
  · intro j
    rw [hheld]
    show _ ↔ s.writer = some j ∧ _
    rw [hw]
    exact ⟨fun e => absurd (List.mem_of_mem_erase e) (hnt j), fun e => by cases e.1⟩
  · intro j
    rw [hheld]
    have := List.count_eq_zero.mpr (fun e => hnt j (List.mem_of_mem_erase (b := (i, false)) e))
    omega
  · intro j
    rw [hheld]
    show _ = (s.readers.erase i).count j
    have := h.shared j
    by_cases e : j = i
    · subst e
      rw [List.count_erase_self, List.count_erase_self, this]
    · rw [List.count_erase_of_ne (by simpa using e), List.count_erase_of_ne e, this]
  · intro j hj
    have := hset' j
    rw [show (upd s.threads i .idle j).setting = true from hj] at this; cases this
  · intro hp
    show s.exclusive = true ↔ ∃ j, s.writer = some j ∧ _
    rw [h.flag hp]
    constructor
    · rintro ⟨j, e, _⟩; rw [hw] at e; cases e
    · rintro ⟨j, e, _⟩; rw [hw] at e; cases e
  · intro j hj
    rw [hheld]
    have hj : (upd s.threads i .idle j).unlocking = true := hj
    by_cases e : j = i
    · subst e; rw [upd_same] at hj; cases hj
    · rw [upd_ne _ _ e] at hj
      rcases h.unlocking j hj with g | g
      · exact absurd g (hnt j)
      · exact .inr (hkeep j e g)
  · intro j hj
    have hj : upd s.threads i .idle j = .clear ∨ upd s.threads i .idle j = .releaseExclusive := hj
    by_cases e : j = i
    · subst e; rw [upd_same] at hj; simp at hj
    · rw [upd_ne _ _ e] at hj; exact absurd (h.clear j hj) (hnt j)
  · intro j hj
    rw [hheld]
    have hj : upd s.threads i .idle j = .releaseShared := hj
    by_cases e : j = i
    · subst e; rw [upd_same] at hj; cases hj
    · rw [upd_ne _ _ e] at hj; exact hkeep j e (h.shareds j hj)

/-- Windows: `exclusive` is cleared. -/
theorem inv_clear {s : State} (h : Inv .windows s) {i : Nat} (hi : s.threads i = .clear) :
    Inv .windows (goto { s with exclusive := false } i .releaseExclusive) := by
  have hh := h.clear i (.inl hi)
  obtain ⟨hw, hs⟩ := (h.told i).mp hh
  have hset : ∀ j, (upd s.threads i .releaseExclusive j).setting = (s.threads j).setting := by
    intro j
    by_cases e : j = i
    · subst e; rw [upd_same, hi]; rfl
    · rw [upd_ne _ _ e]
  refine ⟨h.alone, ?_, h.once, h.shared, ?_, ?_, ?_, ?_, ?_⟩
  · intro j
    show _ ↔ s.writer = some j ∧ (upd s.threads i .releaseExclusive j).setting = false
    rw [hset j]; exact h.told j
  · intro j hj
    exact h.setting j (by rw [← hset j]; exact hj)
  · intro _
    show false = true ↔ ∃ j, s.writer = some j ∧ (upd s.threads i .releaseExclusive j).setting = false ∧ upd s.threads i .releaseExclusive j ≠ .releaseExclusive
    constructor
    · intro e; cases e
    · rintro ⟨j, e, _, g⟩
      rw [hw] at e; cases e
      rw [upd_same] at g; exact absurd rfl g
  · intro j hj
    have hj : (upd s.threads i .releaseExclusive j).unlocking = true := hj
    by_cases e : j = i
    · subst e; exact .inl hh
    · rw [upd_ne _ _ e] at hj; exact h.unlocking j hj
  · intro j hj
    have hj : upd s.threads i .releaseExclusive j = .clear ∨ upd s.threads i .releaseExclusive j = .releaseExclusive := hj
    by_cases e : j = i
    · subst e; exact hh
    · rw [upd_ne _ _ e] at hj; exact h.clear j hj
  · intro j hj
    have hj : upd s.threads i .releaseExclusive j = .releaseShared := hj
    by_cases e : j = i
    · subst e; rw [upd_same] at hj; cases hj
    · rw [upd_ne _ _ e] at hj; exact h.shareds j hj

/-- Where a thread can be: on POSIX not at a step of the other platform, on Windows not in the try function for writing. -/
def Place : Platform → Pc → Bool
  | .posix, .idle => true
  | .posix, .lock _ => true
  | .posix, .tryLock _ => true
  | .posix, .unlock => true
  | .posix, _ => false
  | .windows, .tryLock true => false
  | .windows, .trySet => false
  | .windows, _ => true

theorem readable_spec {s : State} (h : readable s = true) : s.writer = none := by simpa [readable] using h

theorem inv_lock {p : Platform} {s s' : State} (h : Inv p s) {i : Nat} {w : Bool} (hp : s.threads i = .lock w) (hs : lock p s i w = .ok s') : Inv p s' := by
  unfold lock at hs
  cases w with
  | true =>
      simp only [if_true] at hs
      split at hs
      · rename_i hw
        cases p with
        | posix => cases hs; exact inv_write h hw
        | windows => cases hs; exact inv_acquire h (.inl rfl) hw
      · cases hs
  | false =>
      simp only [Bool.false_eq_true, if_false] at hs
      split at hs
      · rename_i hw; cases hs; exact inv_read h (readable_spec hw)
      · cases hs

theorem inv_refused {p : Platform} {s : State} (h : Inv p s) {i : Nat} {w v : Bool} (hp : s.threads i = .tryLock w) : Inv p (tried s i v false) := by
  refine inv_result (s := goto s i .idle) (inv_goto h rfl (by rw [hp]; rfl) ?_ ?_ ?_ ?_ ?_) _ <;> simp [Pc.unlocking, hp]

theorem inv_tryRead {p : Platform} {s : State} (h : Inv p s) {i : Nat} {w : Bool} (hp : s.threads i = .tryLock w) {s' : State}
    (hs : (if readable s then Res.ok (tried { s with readers := i :: s.readers } i false true) else .ok (tried s i false false)) = .ok s') : Inv p s' := by
  split at hs <;> cases hs
  · rename_i hw
    exact inv_result (s := got { s with readers := i :: s.readers } i false) (inv_read h (readable_spec hw)) _
  · exact inv_refused h hp

theorem inv_tryLock {p : Platform} {s s' : State} (h : Inv p s) (hn : ∀ i, Place p (s.threads i) = true) {i : Nat} {w : Bool} (hp : s.threads i = .tryLock w)
    (hs : tryLock p s i w = .ok s') : Inv p s' := by
  cases p with
  | posix =>
      cases w with
      | true =>
          simp only [tryLock, if_true] at hs
          split at hs <;> cases hs
          · rename_i hw
            exact inv_result (s := got { s with writer := some i } i true) (inv_write h hw) _
          · exact inv_refused h hp
      | false => exact inv_tryRead h hp hs
  | windows =>
      cases w with
      | true => have := hn i; rw [hp] at this; cases this
      | false => exact inv_tryRead h hp hs

theorem inv_unlock {p : Platform} {s s' : State} (h : Inv p s) {i : Nat} (hp : s.threads i = .unlock) (hs : unlock p s i = .ok s') : Inv p s' := by
  have hh := h.unlocking i (by rw [hp]; rfl)
  cases p with
  | posix =>
      simp only [unlock] at hs
      split at hs
      · rename_i hw
        cases hs
        exact inv_release h ((h.told i).mpr ⟨hw, by rw [hp]; rfl⟩) (fun e => by cases e)
      · split at hs
        · rename_i hm
          cases hs
          exact inv_releaseShared h ((shared_mem h i).mpr hm)
        · cases hs
  | windows =>
      simp only [unlock] at hs
      split at hs
      · rename_i he
        cases hs
        obtain ⟨j, g1, g2, g3⟩ := (h.flag rfl).mp he
        have hj : (j, true) ∈ s.held := (h.told j).mpr ⟨g1, g2⟩
        have hi : (i, true) ∈ s.held := by
          rcases hh with g | g
          · exact g
          · exact absurd g (not_both h hj)
        refine inv_goto h rfl (by rw [hp]; rfl) ?_ ?_ ?_ ?_ ?_ <;> simp [hi, hp]
      · rename_i he
        cases hs
        have hi : (i, false) ∈ s.held := by
          rcases hh with g | g
          · obtain ⟨g1, g2⟩ := (h.told i).mp g
            exact absurd ((h.flag rfl).mpr ⟨i, g1, g2, by rw [hp]; simp⟩) he
          · exact g
        refine inv_goto h rfl (by rw [hp]; rfl) ?_ ?_ ?_ ?_ ?_ <;> simp [hi, hp]

theorem inv_step {p : Platform} {s s' : State} (h : Inv p s) (hn : ∀ i, Place p (s.threads i) = true) {i : Nat} (hs : step p s i = .ok s') : Inv p s' := by
  have hpl := hn i
  unfold step at hs
  split at hs <;> rename_i hp <;> rw [hp] at hpl
  · cases hs
  · exact inv_lock h hp hs
  · cases hs
    have hset := h.setting i (by rw [hp]; rfl)
    obtain ⟨_, rfl⟩ := hset
    exact inv_set h (by rw [hp]; rfl)
  · exact inv_tryLock h hn hp hs
  · cases p <;> cases hpl
  · exact inv_unlock h hp hs
  · cases hs
    cases p with
    | posix => cases hpl
    | windows => exact inv_clear h hp
  · split at hs <;> cases hs
    exact inv_release h (h.clear i (.inr hp)) (fun _ => hp)
  · split at hs <;> cases hs
    exact inv_releaseShared h (h.shareds i hp)

theorem place_step {p : Platform} {s s' : State} (hn : ∀ i, Place p (s.threads i) = true) {i : Nat} (hs : step p s i = .ok s') (j : Nat) :
    Place p (s'.threads j) = true := by
  have hpl := hn i
  have key : ∀ (pc : Pc), s'.threads = upd s.threads i pc → Place p pc = true → Place p (s'.threads j) = true := by
    intro pc hs' hpc
    rw [hs']
    by_cases e : j = i
    · subst e; rw [upd_same]; exact hpc
    · rw [upd_ne _ _ e]; exact hn j
  have hidle : Place p .idle = true := by cases p <;> rfl
  unfold step at hs
  split at hs <;> rename_i hp <;> rw [hp] at hpl
  · cases hs
  · unfold lock at hs
    split at hs
    · split at hs
      · cases p
        · cases hs; exact key _ rfl rfl
        · cases hs; exact key _ rfl rfl
      · cases hs
    · split at hs <;> cases hs
      exact key _ rfl hidle
  · cases hs; exact key _ rfl hidle
  · unfold tryLock at hs
    rename_i w
    cases w
    · cases p <;> simp only [Bool.false_eq_true, if_false] at hs <;> split at hs <;> cases hs <;> exact key _ rfl rfl
    · cases p
      · simp only [if_true] at hs
        split at hs <;> cases hs <;> exact key _ rfl rfl
      · cases hpl
  · cases hs; exact key _ rfl hidle
  · unfold unlock at hs
    cases p <;> simp only at hs
    · split at hs
      · cases hs; exact key _ rfl rfl
      · split at hs <;> cases hs; exact key _ rfl rfl
    · split at hs <;> cases hs <;> exact key _ rfl rfl
  · cases hs
    cases p
    · cases hpl
    · exact key _ rfl rfl
  · split at hs <;> cases hs; exact key _ rfl hidle
  · split at hs <;> cases hs; exact key _ rfl hidle

theorem reach_inv {p : Platform} {s : State} (h : Reach p (Fine p) s) : Inv p s ∧ ∀ i, Place p (s.threads i) = true := by
  induction h with
  | init => exact ⟨inv_init p, fun i => by cases p <;> rfl⟩
  | @step s a s' _ hf hl hs ih =>
      obtain ⟨h1, h2⟩ := ih
      have key : ∀ i pc, s.threads i = .idle → Place p pc = true → pc.setting = false →
          (pc.unlocking = true → (i, true) ∈ s.held ∨ (i, false) ∈ s.held) → pc ≠ .clear → pc ≠ .releaseShared → pc ≠ .releaseExclusive →
          Inv p (goto s i pc) ∧ ∀ j, Place p ((goto s i pc).threads j) = true := by
        intro i pc hi hpl g1 g2 g3 g4 g5
        refine ⟨inv_goto h1 g1 (by rw [hi]; rfl) g2 (fun e => absurd e g3) (fun e => absurd e g4) g5 (by rw [hi]; simp), fun j => ?_⟩
        show Place p (upd s.threads i pc j) = true
        by_cases e : j = i
        · subst e; rw [upd_same]; exact hpl
        · rw [upd_ne _ _ e]; exact h2 j
      cases a with
      | lock i w => cases hs; exact key i _ hl.1 (by cases p <;> rfl) rfl (by simp [Pc.unlocking]) (by simp) (by simp) (by simp)
      | tryLock i w =>
          cases hs
          refine key i _ hl ?_ rfl (by simp [Pc.unlocking]) (by simp) (by simp) (by simp)
          cases p with
          | posix => rfl
          | windows =>
              cases w with
              | false => rfl
              | true => exact absurd rfl (hf rfl i)
      | unlock i => cases hs; exact key i _ hl.1 (by cases p <;> rfl) rfl (fun _ => hl.2) (by simp) (by simp) (by simp)
      | step i => exact ⟨inv_step h1 h2 hs, place_step h2 hs⟩

end RwLock
end Duck
