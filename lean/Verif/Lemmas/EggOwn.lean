import Verif.Spec.EggOwn
/-! Lemmas for C113: who owns what. -/
namespace Duck
namespace EggOwn

/-- The owners of every object are the rest of the program and the list `h`. -/
structure Inv (m : Mem) (h : List Addr) : Prop where
  owners : ∀ a s n, m.cell a = .counted s n → n = m.client a + h.count a ∧ 0 < n
  free : ∀ a, m.cell a = .free → m.client a = 0 ∧ h.count a = 0
  older : ∀ a s, m.obj a = some s → s < m.next
  one : ∀ a b s, m.obj a = some s → m.obj b = some s → a = b

theorem inv_of_sound {m : Mem} (h : Sound m) : Inv m [] :=
  ⟨fun a s n e => by simpa using h.owners a s n e, fun a e => by simpa using h.free a e, h.older, h.one⟩

theorem Inv.congr {m : Mem} {h h' : List Addr} (i : Inv m h) (e : ∀ a, h'.count a = h.count a) : Inv m h' :=
  ⟨fun a s n c => by rw [e]; exact i.owners a s n c, fun a c => by rw [e]; exact i.free a c, i.older, i.one⟩

theorem Inv.exists_of_mem {m : Mem} {h : List Addr} (i : Inv m h) {a : Addr} (ha : a ∈ h) : m.cell a ≠ .free := by
  intro e
  have := (i.free a e).2
  exact absurd (List.count_pos_iff.2 ha) (by omega)

theorem Inv.exists_of_client {m : Mem} {h : List Addr} (i : Inv m h) {a : Addr} (ha : 0 < m.client a) : m.cell a ≠ .free := by
  intro e
  have := (i.free a e).1
  omega

theorem Inv.old {m : Mem} {h : List Addr} (i : Inv m h) (a : Addr) : m.obj a ≠ some m.next := by
  intro e
  exact absurd (i.older a _ e) (by omega)

/-- Retaining and releasing of an object that stays changes a count only. -/
theorem inv_count {m : Mem} {h h' : List Addr} (i : Inv m h) {a : Addr} {s n n' : Nat} {c : Addr → Nat} (hc : m.cell a = .counted s n)
    (hn : n' = c a + h'.count a ∧ 0 < n') (ho : ∀ b, b ≠ a → c b = m.client b ∧ h'.count b = h.count b) :
    Inv { cell := Function.update m.cell a (.counted s n'), next := m.next, client := c } h' ∧
      ∀ b, Mem.obj { cell := Function.update m.cell a (.counted s n'), next := m.next, client := c } b = m.obj b := by
  have hobj : ∀ b, Mem.obj { cell := Function.update m.cell a (.counted s n'), next := m.next, client := c } b = m.obj b := by
    intro b
    by_cases e : b = a
    · subst e; simp [Mem.obj, Cell.serial, hc]
    · simp [Mem.obj, Function.update_of_ne e]
  refine ⟨⟨?_, ?_, ?_, ?_⟩, hobj⟩
  · intro b s' k hb
    by_cases e : b = a
    · subst e
      simp only [Function.update_self, Cell.counted.injEq] at hb
      rw [← hb.2]; exact hn
    · simp only [Function.update_of_ne e] at hb
      simp only [(ho b e).1, (ho b e).2]
      exact i.owners b s' k hb
  · intro b hb
    by_cases e : b = a
    · subst e; simp at hb
    · simp only [Function.update_of_ne e] at hb
      simp only [(ho b e).1, (ho b e).2]
      exact i.free b hb
  · intro b s' hb; rw [hobj] at hb; exact i.older b s' hb
  · intro b b' s' hb hb'; rw [hobj] at hb hb'; exact i.one b b' s' hb hb'

/-- The last owner leaves. -/
theorem inv_freed {m : Mem} {h h' : List Addr} (i : Inv m h) {a : Addr} {c : Addr → Nat}
    (hn : c a = 0 ∧ h'.count a = 0) (ho : ∀ b, b ≠ a → c b = m.client b ∧ h'.count b = h.count b) :
    Inv { cell := Function.update m.cell a .free, next := m.next, client := c } h' ∧
      ∀ b, b ≠ a → Mem.obj { cell := Function.update m.cell a .free, next := m.next, client := c } b = m.obj b := by
  have hobj : ∀ b, b ≠ a → Mem.obj { cell := Function.update m.cell a .free, next := m.next, client := c } b = m.obj b := by
    intro b e
    simp [Mem.obj, Function.update_of_ne e]
  have hnone : Mem.obj { cell := Function.update m.cell a .free, next := m.next, client := c } a = none := by
    simp [Mem.obj, Cell.serial]
  refine ⟨⟨?_, ?_, ?_, ?_⟩, hobj⟩
  · intro b s' k hb
    by_cases e : b = a
    · subst e; simp at hb
    · simp only [Function.update_of_ne e] at hb
      simp only [(ho b e).1, (ho b e).2]
      exact i.owners b s' k hb
  · intro b hb
    by_cases e : b = a
    · subst e; exact hn
    · simp only [Function.update_of_ne e] at hb
      simp only [(ho b e).1, (ho b e).2]
      exact i.free b hb
  · intro b s' hb
    by_cases e : b = a
    · subst e; rw [hnone] at hb; cases hb
    · rw [hobj b e] at hb; exact i.older b s' hb
  · intro b b' s' hb hb'
    by_cases e : b = a
    · subst e; rw [hnone] at hb; cases hb
    · by_cases e' : b' = a
      · subst e'; rw [hnone] at hb'; cases hb'
      · rw [hobj b e] at hb; rw [hobj b' e'] at hb'; exact i.one b b' s' hb hb'

/-- A change of the references to an object that is not counted -/
theorem inv_static {m : Mem} {h h' : List Addr} (i : Inv m h) {a : Addr} {s : Nat} {c : Addr → Nat} (hc : m.cell a = .static s)
    (ho : ∀ b, b ≠ a → c b = m.client b ∧ h'.count b = h.count b) : Inv { m with client := c } h' := by
  refine ⟨?_, ?_, i.older, i.one⟩
  · intro b s' k hb
    by_cases e : b = a
    · subst e; rw [hc] at hb; cases hb
    · simp only [(ho b e).1, (ho b e).2]; exact i.owners b s' k hb
  · intro b hb
    by_cases e : b = a
    · subst e; rw [hc] at hb; cases hb
    · simp only [(ho b e).1, (ho b e).2]; exact i.free b hb

/-- A new object -/
theorem inv_new {m : Mem} {h h' : List Addr} (i : Inv m h) {a : Addr} {c : Addr → Nat} (hf : m.cell a = .free)
    (hn : 1 = c a + h'.count a) (ho : ∀ b, b ≠ a → c b = m.client b ∧ h'.count b = h.count b) :
    Inv { cell := Function.update m.cell a (.counted m.next 1), next := m.next + 1, client := c } h' ∧
      ∀ b, m.cell b ≠ .free →
        Mem.obj { cell := Function.update m.cell a (.counted m.next 1), next := m.next + 1, client := c } b = m.obj b := by
  have hobj : ∀ b, b ≠ a → Mem.obj { cell := Function.update m.cell a (.counted m.next 1), next := m.next + 1, client := c } b = m.obj b := by
    intro b e
    simp [Mem.obj, Function.update_of_ne e]
  have hnew : Mem.obj { cell := Function.update m.cell a (.counted m.next 1), next := m.next + 1, client := c } a = some m.next := by
    simp [Mem.obj, Cell.serial]
  refine ⟨⟨?_, ?_, ?_, ?_⟩, ?_⟩
  · intro b s' k hb
    by_cases e : b = a
    · subst e
      simp only [Function.update_self, Cell.counted.injEq] at hb
      rw [← hb.2]; exact ⟨hn, by omega⟩
    · simp only [Function.update_of_ne e] at hb
      simp only [(ho b e).1, (ho b e).2]
      exact i.owners b s' k hb
  · intro b hb
    by_cases e : b = a
    · subst e; simp at hb
    · simp only [Function.update_of_ne e] at hb
      simp only [(ho b e).1, (ho b e).2]
      exact i.free b hb
  · intro b s' hb
    by_cases e : b = a
    · subst e; rw [hnew] at hb; cases hb; exact Nat.lt_succ_self _
    · rw [hobj b e] at hb; exact Nat.lt_succ_of_lt (i.older b s' hb)
  · intro b b' s' hb hb'
    by_cases e : b = a
    · by_cases e' : b' = a
      · rw [e, e']
      · subst e
        rw [hnew] at hb; rw [hobj b' e'] at hb'
        cases hb
        exact absurd hb' (i.old b')
    · by_cases e' : b' = a
      · subst e'
        rw [hnew] at hb'; rw [hobj b e] at hb
        cases hb'
        exact absurd hb (i.old b)
      · rw [hobj b e] at hb; rw [hobj b' e'] at hb'; exact i.one b b' s' hb hb'
  · intro b hb
    exact hobj b (by rintro rfl; exact hb hf)

/-- DKRetain -/
theorem inv_retain {m : Mem} {h : List Addr} (i : Inv m h) {a : Addr} (ha : m.cell a ≠ .free) :
    ∃ m', retain m a = some m' ∧ Inv m' (a :: h) ∧ (∀ b, m'.obj b = m.obj b) ∧ m'.client = m.client := by
  cases hc : m.cell a with
  | free => exact absurd hc ha
  | counted s n =>
    have hn := i.owners a s n hc
    refine ⟨_, by simp only [retain, hc]; rfl, ?_⟩
    have := inv_count (n' := n + 1) (h' := a :: h) (c := m.client) i hc ⟨by rw [List.count_cons_self]; omega, by omega⟩
      (fun b e => ⟨rfl, List.count_cons_of_ne (Ne.symm e)⟩)
    exact ⟨this.1, this.2, rfl⟩
  | static s =>
    refine ⟨m, by simp only [retain, hc], ?_, fun _ => rfl, rfl⟩
    exact inv_static (c := m.client) i hc (fun b e => ⟨rfl, List.count_cons_of_ne (Ne.symm e)⟩)

/-- DKRelease of one of the references of `h` -/
theorem inv_release {m : Mem} {h : List Addr} {a : Addr} (i : Inv m (a :: h)) :
    ∃ m', release m a = some m' ∧ Inv m' h ∧ (∀ b, m'.cell b ≠ .free → m'.obj b = m.obj b) ∧ m'.client = m.client ∧
      (∀ b, b ≠ a → m'.cell b = m.cell b) ∧ m'.next = m.next := by
  cases hc : m.cell a with
  | free => exact absurd hc (i.exists_of_mem List.mem_cons_self)
  | counted s n =>
    have hn := i.owners a s n hc
    rw [List.count_cons_self] at hn
    have ho : ∀ b, b ≠ a → m.client b = m.client b ∧ h.count b = (a :: h).count b :=
      fun b e => ⟨rfl, (List.count_cons_of_ne (Ne.symm e)).symm⟩
    match n, hc, hn with
    | 1, hc, hn =>
      refine ⟨_, by simp only [release, hc]; rfl, ?_⟩
      have := inv_freed (h' := h) (c := m.client) i (a := a) (by omega) ho
      refine ⟨this.1, fun b hb => this.2 b ?_, rfl, fun b e => by simp [Function.update_of_ne e], rfl⟩
      rintro rfl; simp at hb
    | n + 2, hc, hn =>
      refine ⟨_, by simp only [release, hc]; rfl, ?_⟩
      have := inv_count (n' := n + 1) (h' := h) (c := m.client) i hc ⟨by omega, by omega⟩ ho
      exact ⟨this.1, fun b _ => this.2 b, rfl, fun b e => by simp [Function.update_of_ne e], rfl⟩
  | static s =>
    refine ⟨m, by simp only [release, hc], ?_, fun _ _ => rfl, rfl, fun _ _ => rfl, rfl⟩
    exact inv_static (c := m.client) i hc (fun b e => ⟨rfl, (List.count_cons_of_ne (Ne.symm e)).symm⟩)

/-- The objects owned by `h` stay what they are, whatever the rest of the program does. -/
theorem inv_own {m : Mem} {h : List Addr} (i : Inv m h) {o : Own} (hf : Fair m o) :
    ∃ m', own m o = some m' ∧ Inv m' h ∧ (∀ b ∈ h, m'.obj b = m.obj b) ∧ (∀ b s, m.cell b = .static s → m'.cell b = .static s) := by
  cases o with
  | new a =>
    have hz := i.free a hf
    have := inv_new (h' := h) (c := Function.update m.client a (m.client a + 1)) i hf
      (by rw [Function.update_self]; omega) (fun b e => ⟨by rw [Function.update_of_ne e], rfl⟩)
    refine ⟨_, rfl, this.1, fun b hb => this.2 b (i.exists_of_mem hb), ?_⟩
    intro b s hb
    have e : b ≠ a := by rintro rfl; rw [show m.cell b = .free from hf] at hb; cases hb
    simpa [gain, alloc, Function.update_of_ne e] using hb
  | keep a =>
    cases hc : m.cell a with
    | free => exact absurd hc hf
    | counted s n =>
      have hn := i.owners a s n hc
      have := inv_count (n' := n + 1) (h' := h) (c := Function.update m.client a (m.client a + 1)) i hc
        ⟨by rw [Function.update_self]; omega, by omega⟩ (fun b e => ⟨by rw [Function.update_of_ne e], rfl⟩)
      refine ⟨_, by simp only [own, retain, hc]; rfl, this.1, fun b _ => this.2 b, ?_⟩
      intro b s' hb
      have e : b ≠ a := by rintro rfl; rw [hc] at hb; cases hb
      simpa [gain, Function.update_of_ne e] using hb
    | static s =>
      have := inv_static (h' := h) (c := Function.update m.client a (m.client a + 1)) i hc
        (fun b e => ⟨by rw [Function.update_of_ne e], rfl⟩)
      exact ⟨_, by simp only [own, retain, hc]; rfl, this, fun b _ => rfl, fun b s' hb => hb⟩
  | drop a =>
    have hp : 0 < m.client a := hf
    cases hc : m.cell a with
    | free => exact absurd hc (i.exists_of_client hp)
    | counted s n =>
      have hn := i.owners a s n hc
      have ho : ∀ b, b ≠ a → Function.update m.client a (m.client a - 1) b = m.client b ∧ h.count b = h.count b :=
        fun b e => ⟨by rw [Function.update_of_ne e], rfl⟩
      match n, hc, hn with
      | 1, hc, hn =>
        have := inv_freed (h' := h) (c := Function.update m.client a (m.client a - 1)) i (a := a)
          (by rw [Function.update_self]; omega) ho
        refine ⟨_, by simp only [own, release, hc]; rfl, this.1, fun b hb => this.2 b ?_, ?_⟩
        · rintro rfl
          have := List.count_pos_iff.2 hb
          omega
        · intro b s' hb
          have e : b ≠ a := by rintro rfl; rw [hc] at hb; cases hb
          simpa [lose, Function.update_of_ne e] using hb
      | n + 2, hc, hn =>
        have := inv_count (n' := n + 1) (h' := h) (c := Function.update m.client a (m.client a - 1)) i hc
          ⟨by rw [Function.update_self]; omega, by omega⟩ ho
        refine ⟨_, by simp only [own, release, hc]; rfl, this.1, fun b _ => this.2 b, ?_⟩
        intro b s' hb
        have e : b ≠ a := by rintro rfl; rw [hc] at hb; cases hb
        simpa [lose, Function.update_of_ne e] using hb
    | static s =>
      have := inv_static (h' := h) (c := Function.update m.client a (m.client a - 1)) i hc
        (fun b e => ⟨by rw [Function.update_of_ne e], rfl⟩)
      exact ⟨_, by simp only [own, release, hc]; rfl, this, fun b _ => rfl, fun b s' hb => hb⟩

/-- Releasing everything in `h` -/
theorem inv_releaseAll : ∀ (h : List Addr) {m : Mem}, Inv m h →
    ∃ m', releaseAll h m = some m' ∧ Inv m' [] ∧ (∀ b, m'.cell b ≠ .free → m'.obj b = m.obj b) ∧ m'.client = m.client ∧
      (∀ b, b ∉ h → m'.cell b = m.cell b)
  | [], m, i => ⟨m, rfl, i, fun _ _ => rfl, rfl, fun _ _ => rfl⟩
  | a :: h, m, i => by
    obtain ⟨m1, h1, i1, o1, c1, e1, -⟩ := inv_release i
    obtain ⟨m2, h2, i2, o2, c2, e2⟩ := inv_releaseAll h i1
    refine ⟨m2, by simp [releaseAll, h1, h2], i2, ?_, by rw [c2, c1], ?_⟩
    · intro b hb
      rw [o2 b hb]
      apply o1
      intro hf
      have : m1.obj b = none := by simp [Mem.obj, hf, Cell.serial]
      have h3 := o2 b hb
      rw [this] at h3
      cases hc : m2.cell b <;> simp_all [Mem.obj, Cell.serial]
    · intro b hb
      simp only [List.mem_cons, not_or] at hb
      rw [e2 b hb.2, e1 b hb.1]

end EggOwn
end Duck
