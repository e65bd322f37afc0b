import Verif.Spec.ObjLock
/-! Invariant of object locks. -/
namespace Duck
namespace ObjLock

theorem upd_same {β : Type} (f : Nat → β) (a : Nat) (b : β) : upd f a b a = b := if_pos rfl
theorem upd_ne {β : Type} (f : Nat → β) {a x : Nat} (b : β) (h : x ≠ a) : upd f a b x = f x := if_neg h

/-- The metadata only this thread knows. -/
def Pc.owns : Pc → Option Nat
  | .insert _ _ new => some new
  | .discard _ _ _ new => some new
  | _ => none

/-- The mutex only this thread knows. -/
def Pc.mutex : Pc → Option Nat
  | .cas _ _ x => some x
  | .drop _ _ x => some x
  | _ => none

/-- The metadata of an object has a mutex. -/
def HasMutex (s : State) (o x : Nat) : Prop := ∃ m a, s.table o = some m ∧ s.metas m = some a ∧ a.mutex = some x

/-- What is known of a thread. -/
def PcOk (s : State) (i : Nat) : Pc → Prop
  | .idle => True
  | .find o c => c = .unlock → (i, o) ∈ s.held
  | .alloc _ c => c = .lock
  | .insert o c new => c = .lock ∧ s.metas new = some ⟨o, none⟩ ∧ ∀ o', s.table o' ≠ some new
  | .discard o c m new => c = .lock ∧ s.table o = some m ∧ s.metas new = some ⟨o, none⟩ ∧ ∀ o', s.table o' ≠ some new
  | .test o m => s.table o = some m
  | .create o m => s.table o = some m
  | .cas o m x => s.table o = some m ∧ s.mutexes x = some none ∧ ∀ m' a, s.metas m' = some a → a.mutex ≠ some x
  | .drop o m x => s.table o = some m ∧ s.mutexes x = some none ∧ (∀ m' a, s.metas m' = some a → a.mutex ≠ some x) ∧ ∃ y, HasMutex s o y
  | .lock o m => s.table o = some m ∧ ∃ y, HasMutex s o y
  | .unlock o m => s.table o = some m ∧ (i, o) ∈ s.held

structure Inv (s : State) : Prop where
  entry : ∀ o m, s.table o = some m → ∃ a, s.metas m = some a ∧ a.owner = o
  metaLt : ∀ m a, s.metas m = some a → m < s.nextMeta
  mutexLt : ∀ x h, s.mutexes x = some h → x < s.nextMutex
  field : ∀ m a x, s.metas m = some a → a.mutex = some x → s.mutexes x ≠ none ∧ s.table a.owner = some m
  unique : ∀ m m' a a' x, s.metas m = some a → s.metas m' = some a' → a.mutex = some x → a'.mutex = some x → m = m'
  pc : ∀ i, PcOk s i (s.threads i)
  ownMeta : ∀ i j m, (s.threads i).owns = some m → (s.threads j).owns = some m → i = j
  ownMutex : ∀ i j x, (s.threads i).mutex = some x → (s.threads j).mutex = some x → i = j
  heldIff : ∀ i o, (i, o) ∈ s.held ↔ ∃ x, HasMutex s o x ∧ s.mutexes x = some (some i)
  nodup : s.held.Nodup
  leakMeta : ∀ m a, s.metas m = some a → s.table a.owner = some m ∨ ∃ i, (s.threads i).owns = some m
  leakMutex : ∀ x h, s.mutexes x = some h → (∃ o, HasMutex s o x) ∨ ∃ i, (s.threads i).mutex = some x

/-- The mutex of an object is unique. -/
theorem hasMutex_inj {s : State} {o x y : Nat} (h : HasMutex s o x) (h' : HasMutex s o y) : x = y := by
  obtain ⟨m, a, h1, h2, h3⟩ := h
  obtain ⟨m', a', g1, g2, g3⟩ := h'
  rw [h1] at g1; cases g1
  rw [h2] at g2; cases g2
  rw [h3] at g3; cases g3
  rfl

/-- Moving one thread: what it owned it still owns, or the table has it. -/
theorem inv_goto {s : State} (h : Inv s) {i : Nat} {pc : Pc} (hpc : PcOk s i pc)
    (hm : pc.owns = none ∨ pc.owns = (s.threads i).owns) (hx : pc.mutex = none ∨ pc.mutex = (s.threads i).mutex)
    (lm : ∀ m a, s.metas m = some a → (s.threads i).owns = some m → pc.owns = some m ∨ s.table a.owner = some m)
    (lx : ∀ x b, s.mutexes x = some b → (s.threads i).mutex = some x → pc.mutex = some x ∨ ∃ o, HasMutex s o x) :
    Inv (goto s i pc) := by
  have hown : ∀ j m, (upd s.threads i pc j).owns = some m → (s.threads j).owns = some m := by
    intro j m hj
    by_cases e : j = i
    · subst e
      rw [upd_same] at hj
      rcases hm with hm | hm
      · rw [hm] at hj; cases hj
      · rw [← hm]; exact hj
    · rwa [upd_ne _ _ e] at hj
  have hmut : ∀ j x, (upd s.threads i pc j).mutex = some x → (s.threads j).mutex = some x := by
    intro j x hj
    by_cases e : j = i
    · subst e
      rw [upd_same] at hj
      rcases hx with hx | hx
      · rw [hx] at hj; cases hj
      · rw [← hx]; exact hj
    · rwa [upd_ne _ _ e] at hj
  refine ⟨h.entry, h.metaLt, h.mutexLt, h.field, h.unique, ?_, ?_, ?_, h.heldIff, h.nodup, ?_, ?_⟩
  · intro j
    show PcOk s j (upd s.threads i pc j)
    by_cases e : j = i
    · subst e; rw [upd_same]; exact hpc
    · rw [upd_ne _ _ e]; exact h.pc j
  · intro j k m h1 h2
    exact h.ownMeta j k m (hown j m h1) (hown k m h2)
  · intro j k x h1 h2
    exact h.ownMutex j k x (hmut j x h1) (hmut k x h2)
  · intro m a hma
    rcases h.leakMeta m a hma with g | ⟨j, g⟩
    · exact .inl g
    · by_cases e : j = i
      · subst e
        rcases lm m a hma g with k | k
        · exact .inr ⟨j, by show (upd s.threads j pc j).owns = _; rw [upd_same]; exact k⟩
        · exact .inl k
      · exact .inr ⟨j, by show (upd s.threads i pc j).owns = _; rw [upd_ne _ _ e]; exact g⟩
  · intro x b hxb
    rcases h.leakMutex x b hxb with g | ⟨j, g⟩
    · exact .inl g
    · by_cases e : j = i
      · subst e
        rcases lx x b hxb g with k | k
        · exact .inr ⟨j, by show (upd s.threads j pc j).mutex = _; rw [upd_same]; exact k⟩
        · exact .inl k
      · exact .inr ⟨j, by show (upd s.threads i pc j).mutex = _; rw [upd_ne _ _ e]; exact g⟩

/-- Moving a thread that owns nothing before or after. -/
theorem inv_move {s : State} (h : Inv s) {i : Nat} {pc : Pc} (hpc : PcOk s i pc) (h1 : pc.owns = none) (h2 : pc.mutex = none)
    (h3 : (s.threads i).owns = none) (h4 : (s.threads i).mutex = none) : Inv (goto s i pc) :=
  inv_goto h hpc (.inl h1) (.inl h2) (fun m a _ e => by rw [h3] at e; cases e) (fun x b _ e => by rw [h4] at e; cases e)

theorem after_owns (o : Nat) (c : Call) (m : Nat) : (after o c m).owns = none ∧ (after o c m).mutex = none := by
  cases c <;> exact ⟨rfl, rfl⟩

theorem after_ok {s : State} {i o m : Nat} {c : Call} (ht : s.table o = some m) (hc : c = .unlock → (i, o) ∈ s.held) : PcOk s i (after o c m) := by
  cases c with
  | lock => exact ht
  | unlock => exact ⟨ht, hc rfl⟩

/-- Whoever holds a lock finds the metadata in the table. -/
theorem held_table {s : State} (h : Inv s) {i o : Nat} (hh : (i, o) ∈ s.held) : ∃ m x, s.table o = some m ∧ HasMutex s o x := by
  obtain ⟨x, ⟨m, a, h1, h2, h3⟩, _⟩ := (h.heldIff i o).mp hh
  exact ⟨m, x, h1, m, a, h1, h2, h3⟩

/-! ### Each step -/

theorem inv_find {s s' : State} (h : Inv s) {i o : Nat} {c : Call} (hp : s.threads i = .find o c) (hs : find s i o c = .ok s') : Inv s' := by
  have hk := h.pc i
  rw [hp] at hk
  unfold find at hs
  split at hs
  · rename_i m ht
    cases hs
    exact inv_move h (after_ok ht hk) (after_owns _ _ _).1 (after_owns _ _ _).2 (by rw [hp]; rfl) (by rw [hp]; rfl)
  · rename_i ht
    cases hs
    refine inv_move h ?_ rfl rfl (by rw [hp]; rfl) (by rw [hp]; rfl)
    cases c with
    | lock => rfl
    | unlock =>
        obtain ⟨m, _, h1, _⟩ := held_table h (hk rfl)
        rw [h1] at ht; cases ht

/-- Allocating metadata. -/
theorem inv_alloc {s : State} (h : Inv s) {i o : Nat} {c : Call} (hp : s.threads i = .alloc o c) :
    Inv (goto { s with metas := upd s.metas s.nextMeta (some ⟨o, none⟩), nextMeta := s.nextMeta + 1 } i (.insert o c s.nextMeta)) := by
  have hk : c = .lock := by have := h.pc i; rw [hp] at this; exact this
  have hno : ∀ a, s.metas s.nextMeta ≠ some a := fun a e => by have := h.metaLt _ _ e; omega
  have hmono : ∀ {m a}, s.metas m = some a → upd s.metas s.nextMeta (some ⟨o, none⟩) m = some a := by
    intro m a hm
    rw [upd_ne _ _ (fun e => hno a (by rw [← e]; exact hm))]; exact hm
  have hback : ∀ {m a x}, upd s.metas s.nextMeta (some ⟨o, none⟩) m = some a → a.mutex = some x → s.metas m = some a := by
    intro m a x hm hx
    by_cases e : m = s.nextMeta
    · subst e; rw [upd_same] at hm; cases hm; cases hx
    · rwa [upd_ne _ _ e] at hm
  have hmtx : ∀ o' x, HasMutex (goto { s with metas := upd s.metas s.nextMeta (some ⟨o, none⟩), nextMeta := s.nextMeta + 1 } i (.insert o c s.nextMeta)) o' x ↔
      HasMutex s o' x := by
    intro o' x
    constructor
    · rintro ⟨m, a, g1, g2, g3⟩; exact ⟨m, a, g1, hback g2 g3, g3⟩
    · rintro ⟨m, a, g1, g2, g3⟩; exact ⟨m, a, g1, hmono g2, g3⟩
  have hnt : ∀ o', s.table o' ≠ some s.nextMeta := fun o' e => by
    obtain ⟨a, ha, _⟩ := h.entry o' _ e
    exact hno a ha
  have hown : ∀ j, (s.threads j).owns ≠ some s.nextMeta := by
    intro j e
    have := h.pc j
    cases hj : s.threads j <;> rw [hj] at e this <;> simp [Pc.owns] at e
    · subst e; exact hno _ this.2.1
    · subst e; exact hno _ this.2.2.1
  refine ⟨?_, ?_, h.mutexLt, ?_, ?_, ?_, ?_, ?_, ?_, h.nodup, ?_, ?_⟩
  · intro o' m ht
    obtain ⟨a, g1, g2⟩ := h.entry o' m ht
    exact ⟨a, hmono g1, g2⟩
  · intro m a hm
    show m < s.nextMeta + 1
    by_cases e : m = s.nextMeta
    · omega
    · have hm' : upd s.metas s.nextMeta (some ⟨o, none⟩) m = some a := hm
      rw [upd_ne _ _ e] at hm'
      have := h.metaLt m a hm'; omega
  · intro m a x hm hx
    exact h.field m a x (hback hm hx) hx
  · intro m m' a a' x g1 g2 g3 g4
    exact h.unique m m' a a' x (hback g1 g3) (hback g2 g4) g3 g4
  · intro j
    show PcOk _ j (upd s.threads i (.insert o c s.nextMeta) j)
    by_cases e : j = i
    · subst e; rw [upd_same]
      exact ⟨hk, upd_same _ _ _, hnt⟩
    · rw [upd_ne _ _ e]
      have := h.pc j
      cases hj : s.threads j <;> rw [hj] at this
      · trivial
      · exact this
      · exact this
      · exact ⟨this.1, hmono this.2.1, this.2.2⟩
      · exact ⟨this.1, this.2.1, hmono this.2.2.1, this.2.2.2⟩
      · exact this
      · exact this
      · exact ⟨this.1, this.2.1, fun m' a hm hx => this.2.2 m' a (hback hm hx) hx⟩
      · obtain ⟨k1, k2, k3, y, k4⟩ := this
        exact ⟨k1, k2, fun m' a hm hx => k3 m' a (hback hm hx) hx, y, (hmtx _ y).mpr k4⟩
      · obtain ⟨k1, y, k4⟩ := this
        exact ⟨k1, y, (hmtx _ y).mpr k4⟩
      · exact this
  · intro j k m g1 g2
    have g1' : (upd s.threads i (.insert o c s.nextMeta) j).owns = some m := g1
    have g2' : (upd s.threads i (.insert o c s.nextMeta) k).owns = some m := g2
    by_cases e1 : j = i <;> by_cases e2 : k = i
    · rw [e1, e2]
    · subst e1; rw [upd_same] at g1'; rw [upd_ne _ _ e2] at g2'
      cases g1'; exact absurd g2' (hown k)
    · subst e2; rw [upd_same] at g2'; rw [upd_ne _ _ e1] at g1'
      cases g2'; exact absurd g1' (hown j)
    · rw [upd_ne _ _ e1] at g1'; rw [upd_ne _ _ e2] at g2'
      exact h.ownMeta j k m g1' g2'
  · intro j k x g1 g2
    have g1' : (upd s.threads i (.insert o c s.nextMeta) j).mutex = some x := g1
    have g2' : (upd s.threads i (.insert o c s.nextMeta) k).mutex = some x := g2
    by_cases e1 : j = i
    · subst e1; rw [upd_same] at g1'; cases g1'
    · by_cases e2 : k = i
      · subst e2; rw [upd_same] at g2'; cases g2'
      · rw [upd_ne _ _ e1] at g1'; rw [upd_ne _ _ e2] at g2'
        exact h.ownMutex j k x g1' g2'
  · intro j o'
    rw [show (goto { s with metas := upd s.metas s.nextMeta (some ⟨o, none⟩), nextMeta := s.nextMeta + 1 } i (.insert o c s.nextMeta)).held = s.held from rfl,
      h.heldIff j o']
    constructor
    · rintro ⟨x, g1, g2⟩; exact ⟨x, (hmtx o' x).mpr g1, g2⟩
    · rintro ⟨x, g1, g2⟩; exact ⟨x, (hmtx o' x).mp g1, g2⟩
  · intro m a hm
    by_cases e : m = s.nextMeta
    · exact .inr ⟨i, by show (upd s.threads i _ i).owns = _; rw [upd_same, e]; rfl⟩
    · have hm' : upd s.metas s.nextMeta (some ⟨o, none⟩) m = some a := hm
      rw [upd_ne _ _ e] at hm'
      rcases h.leakMeta m a hm' with g | ⟨j, g⟩
      · exact .inl g
      · by_cases e2 : j = i
        · subst e2; rw [hp] at g; cases g
        · exact .inr ⟨j, by show (upd s.threads i _ j).owns = _; rw [upd_ne _ _ e2]; exact g⟩
  · intro x b hx
    rcases h.leakMutex x b hx with ⟨o', g⟩ | ⟨j, g⟩
    · exact .inl ⟨o', (hmtx o' x).mpr g⟩
    · by_cases e2 : j = i
      · subst e2; rw [hp] at g; cases g
      · exact .inr ⟨j, by show (upd s.threads i _ j).mutex = _; rw [upd_ne _ _ e2]; exact g⟩

/-- Inserting metadata into the table. -/
theorem inv_insert {s s' : State} (h : Inv s) {i o : Nat} {c : Call} {new : Nat} (hp : s.threads i = .insert o c new)
    (hs : insert s i o c new = .ok s') : Inv s' := by
  have hk : c = .lock ∧ s.metas new = some ⟨o, none⟩ ∧ ∀ o', s.table o' ≠ some new := by
    have := h.pc i; rw [hp] at this; exact this
  obtain ⟨hc, hn, hnt⟩ := hk
  subst hc
  unfold insert at hs
  split at hs
  · rename_i ht
    cases hs
    have hnil : ∀ m a, s.metas m = some a → a.owner = o → a.mutex = none := by
      intro m a hm ho
      cases hx : a.mutex with
      | none => rfl
      | some x => have := (h.field m a x hm hx).2; rw [ho, ht] at this; cases this
    have htab : ∀ o' m, s.table o' = some m → upd s.table o (some new) o' = some m := by
      intro o' m hm
      rw [upd_ne _ _ (fun e => by rw [e, ht] at hm; cases hm)]; exact hm
    have hmtx : ∀ o' x, HasMutex (goto { s with table := upd s.table o (some new) } i (after o .lock new)) o' x ↔ HasMutex s o' x := by
      intro o' x
      constructor
      · rintro ⟨m, a, g1, g2, g3⟩
        have g1' : upd s.table o (some new) o' = some m := g1
        by_cases e : o' = o
        · subst e; rw [upd_same] at g1'; cases g1'
          have g2' : s.metas new = some a := g2
          rw [hn] at g2'; cases g2'; cases g3
        · rw [upd_ne _ _ e] at g1'; exact ⟨m, a, g1', g2, g3⟩
      · rintro ⟨m, a, g1, g2, g3⟩; exact ⟨m, a, htab o' m g1, g2, g3⟩
    have hown : ∀ j m, (upd s.threads i (after o .lock new) j).owns = some m → (s.threads j).owns = some m ∧ j ≠ i := by
      intro j m hj
      by_cases e : j = i
      · subst e; rw [upd_same] at hj; cases hj
      · rw [upd_ne _ _ e] at hj; exact ⟨hj, e⟩
    have hmut : ∀ j x, (upd s.threads i (after o .lock new) j).mutex = some x → (s.threads j).mutex = some x := by
      intro j x hj
      by_cases e : j = i
      · subst e; rw [upd_same] at hj; cases hj
      · rw [upd_ne _ _ e] at hj; exact hj
    refine ⟨?_, h.metaLt, h.mutexLt, ?_, h.unique, ?_, ?_, ?_, ?_, h.nodup, ?_, ?_⟩
    · intro o' m hm
      have hm' : upd s.table o (some new) o' = some m := hm
      by_cases e : o' = o
      · subst e; rw [upd_same] at hm'; cases hm'; exact ⟨_, hn, rfl⟩
      · rw [upd_ne _ _ e] at hm'; exact h.entry o' m hm'
    · intro m a x hm hx
      obtain ⟨g1, g2⟩ := h.field m a x hm hx
      exact ⟨g1, htab _ _ g2⟩
    · intro j
      show PcOk _ j (upd s.threads i (after o .lock new) j)
      by_cases e : j = i
      · subst e; rw [upd_same]; exact upd_same _ _ _
      · rw [upd_ne _ _ e]
        have := h.pc j
        have hnew : (s.threads j).owns ≠ some new := fun g => e (h.ownMeta j i new g (by rw [hp]; rfl))
        cases hj : s.threads j <;> rw [hj] at this hnew
        · trivial
        · exact this
        · exact this
        · refine ⟨this.1, this.2.1, fun o' g => ?_⟩
          have g' : upd s.table o (some new) o' = some _ := g
          by_cases e2 : o' = o
          · subst e2; rw [upd_same] at g'; cases g'; exact hnew rfl
          · rw [upd_ne _ _ e2] at g'; exact this.2.2 o' g'
        · refine ⟨this.1, htab _ _ this.2.1, this.2.2.1, fun o' g => ?_⟩
          have g' : upd s.table o (some new) o' = some _ := g
          by_cases e2 : o' = o
          · subst e2; rw [upd_same] at g'; cases g'; exact hnew rfl
          · rw [upd_ne _ _ e2] at g'; exact this.2.2.2 o' g'
        · exact htab _ _ this
        · exact htab _ _ this
        · exact ⟨htab _ _ this.1, this.2⟩
        · obtain ⟨k1, k2, k3, y, k4⟩ := this
          exact ⟨htab _ _ k1, k2, k3, y, (hmtx _ y).mpr k4⟩
        · obtain ⟨k1, y, k4⟩ := this
          exact ⟨htab _ _ k1, y, (hmtx _ y).mpr k4⟩
        · exact ⟨htab _ _ this.1, this.2⟩
    · intro j k m g1 g2
      exact h.ownMeta j k m (hown j m g1).1 (hown k m g2).1
    · intro j k x g1 g2
      exact h.ownMutex j k x (hmut j x g1) (hmut k x g2)
    · intro j o'
      rw [show (goto { s with table := upd s.table o (some new) } i (after o .lock new)).held = s.held from rfl, h.heldIff j o']
      constructor
      · rintro ⟨x, g1, g2⟩; exact ⟨x, (hmtx o' x).mpr g1, g2⟩
      · rintro ⟨x, g1, g2⟩; exact ⟨x, (hmtx o' x).mp g1, g2⟩
    · intro m a hm
      rcases h.leakMeta m a hm with g | ⟨j, g⟩
      · exact .inl (htab _ _ g)
      · by_cases e : j = i
        · subst e; rw [hp] at g; cases g
          have hm' : s.metas new = some a := hm
          rw [hn] at hm'; cases hm'
          exact .inl (upd_same _ _ _)
        · exact .inr ⟨j, by show (upd s.threads i _ j).owns = _; rw [upd_ne _ _ e]; exact g⟩
    · intro x b hx
      rcases h.leakMutex x b hx with ⟨o', g⟩ | ⟨j, g⟩
      · exact .inl ⟨o', (hmtx o' x).mpr g⟩
      · by_cases e : j = i
        · subst e; rw [hp] at g; cases g
        · exact .inr ⟨j, by show (upd s.threads i _ j).mutex = _; rw [upd_ne _ _ e]; exact g⟩
  · rename_i m ht
    cases hs
    exact inv_goto h ⟨rfl, ht, hn, hnt⟩ (.inr (by rw [hp]; rfl)) (.inl rfl) (fun m a _ g => .inl (by rw [hp] at g; exact g))
      (fun x b _ g => by rw [hp] at g; cases g)

/-- Discarding metadata. -/
theorem inv_discard {s s' : State} (h : Inv s) {i o : Nat} {c : Call} {m0 new : Nat} (hp : s.threads i = .discard o c m0 new)
    (hs : discard s i o c m0 new = .ok s') : Inv s' := by
  have hk : c = .lock ∧ s.table o = some m0 ∧ s.metas new = some ⟨o, none⟩ ∧ ∀ o', s.table o' ≠ some new := by
    have := h.pc i; rw [hp] at this; exact this
  obtain ⟨hc, ht, hn, hnt⟩ := hk
  subst hc
  simp only [discard, hn] at hs
  cases hs
  have hkeep : ∀ m a, m ≠ new → s.metas m = some a → upd s.metas new none m = some a := fun m a e hm => by rw [upd_ne _ _ e]; exact hm
  have hback : ∀ m a, upd s.metas new none m = some a → s.metas m = some a ∧ m ≠ new := by
    intro m a hm
    by_cases e : m = new
    · subst e; rw [upd_same] at hm; cases hm
    · rw [upd_ne _ _ e] at hm; exact ⟨hm, e⟩
  have hmtx : ∀ o' x, HasMutex (goto { s with metas := upd s.metas new none } i (after o .lock m0)) o' x ↔ HasMutex s o' x := by
    intro o' x
    constructor
    · rintro ⟨m, a, g1, g2, g3⟩; exact ⟨m, a, g1, (hback m a g2).1, g3⟩
    · rintro ⟨m, a, g1, g2, g3⟩; exact ⟨m, a, g1, hkeep m a (fun e => hnt o' (by rw [← e]; exact g1)) g2, g3⟩
  have hown : ∀ j m, (upd s.threads i (after o .lock m0) j).owns = some m → (s.threads j).owns = some m ∧ j ≠ i := by
    intro j m hj
    by_cases e : j = i
    · subst e; rw [upd_same] at hj; cases hj
    · rw [upd_ne _ _ e] at hj; exact ⟨hj, e⟩
  have hmut : ∀ j x, (upd s.threads i (after o .lock m0) j).mutex = some x → (s.threads j).mutex = some x := by
    intro j x hj
    by_cases e : j = i
    · subst e; rw [upd_same] at hj; cases hj
    · rw [upd_ne _ _ e] at hj; exact hj
  refine ⟨?_, ?_, h.mutexLt, ?_, ?_, ?_, ?_, ?_, ?_, h.nodup, ?_, ?_⟩
  · intro o' m hm
    obtain ⟨a, g1, g2⟩ := h.entry o' m hm
    exact ⟨a, hkeep m a (fun e => hnt o' (by rw [← e]; exact hm)) g1, g2⟩
  · intro m a hm; exact h.metaLt m a (hback m a hm).1
  · intro m a x hm hx; exact h.field m a x (hback m a hm).1 hx
  · intro m m' a a' x g1 g2; exact h.unique m m' a a' x (hback m a g1).1 (hback m' a' g2).1
  · intro j
    show PcOk _ j (upd s.threads i (after o .lock m0) j)
    by_cases e : j = i
    · subst e; rw [upd_same]; exact ht
    · rw [upd_ne _ _ e]
      have := h.pc j
      have hnew : (s.threads j).owns ≠ some new := fun g => e (h.ownMeta j i new g (by rw [hp]; rfl))
      cases hj : s.threads j <;> rw [hj] at this hnew
      · trivial
      · exact this
      · exact this
      · exact ⟨this.1, hkeep _ _ (fun e => hnew (by rw [← e]; rfl)) this.2.1, this.2.2⟩
      · exact ⟨this.1, this.2.1, hkeep _ _ (fun e => hnew (by rw [← e]; rfl)) this.2.2.1, this.2.2.2⟩
      · exact this
      · exact this
      · exact ⟨this.1, this.2.1, fun m' a hm hx => this.2.2 m' a (hback m' a hm).1 hx⟩
      · obtain ⟨k1, k2, k3, y, k4⟩ := this
        exact ⟨k1, k2, fun m' a hm hx => k3 m' a (hback m' a hm).1 hx, y, (hmtx _ y).mpr k4⟩
      · obtain ⟨k1, y, k4⟩ := this
        exact ⟨k1, y, (hmtx _ y).mpr k4⟩
      · exact this
  · intro j k m g1 g2
    exact h.ownMeta j k m (hown j m g1).1 (hown k m g2).1
  · intro j k x g1 g2
    exact h.ownMutex j k x (hmut j x g1) (hmut k x g2)
  · intro j o'
    rw [show (goto { s with metas := upd s.metas new none } i (after o .lock m0)).held = s.held from rfl, h.heldIff j o']
    constructor
    · rintro ⟨x, g1, g2⟩; exact ⟨x, (hmtx o' x).mpr g1, g2⟩
    · rintro ⟨x, g1, g2⟩; exact ⟨x, (hmtx o' x).mp g1, g2⟩
  · intro m a hm
    obtain ⟨g1, g2⟩ := hback m a hm
    rcases h.leakMeta m a g1 with g | ⟨j, g⟩
    · exact .inl g
    · by_cases e : j = i
      · subst e; rw [hp] at g; cases g; exact absurd rfl g2
      · exact .inr ⟨j, by show (upd s.threads i _ j).owns = _; rw [upd_ne _ _ e]; exact g⟩
  · intro x b hx
    rcases h.leakMutex x b hx with ⟨o', g⟩ | ⟨j, g⟩
    · exact .inl ⟨o', (hmtx o' x).mpr g⟩
    · by_cases e : j = i
      · subst e; rw [hp] at g; cases g
      · exact .inr ⟨j, by show (upd s.threads i _ j).mutex = _; rw [upd_ne _ _ e]; exact g⟩

theorem inv_test {s s' : State} (h : Inv s) {i o m : Nat} (hp : s.threads i = .test o m) (hs : test s i o m = .ok s') : Inv s' := by
  have hk : s.table o = some m := by have := h.pc i; rw [hp] at this; exact this
  unfold test at hs
  split at hs
  · cases hs
    exact inv_move h hk rfl rfl (by rw [hp]; rfl) (by rw [hp]; rfl)
  · rename_i w x hm
    cases hs
    exact inv_move h ⟨hk, x, m, _, hk, hm, rfl⟩ rfl rfl (by rw [hp]; rfl) (by rw [hp]; rfl)
  · cases hs

/-- Creating a mutex. -/
theorem inv_create {s : State} (h : Inv s) {i o m0 : Nat} (hp : s.threads i = .create o m0) :
    Inv (goto { s with mutexes := upd s.mutexes s.nextMutex (some none), nextMutex := s.nextMutex + 1 } i (.cas o m0 s.nextMutex)) := by
  have hk : s.table o = some m0 := by have := h.pc i; rw [hp] at this; exact this
  have hno : ∀ b, s.mutexes s.nextMutex ≠ some b := fun b e => by have := h.mutexLt _ _ e; omega
  have hmono : ∀ {x b}, s.mutexes x = some b → upd s.mutexes s.nextMutex (some none) x = some b := by
    intro x b hx
    rw [upd_ne _ _ (fun e => hno b (by rw [← e]; exact hx))]; exact hx
  have hfresh : ∀ m a, s.metas m = some a → a.mutex ≠ some s.nextMutex := by
    intro m a hm hx
    have := (h.field m a _ hm hx).1
    cases hb : s.mutexes s.nextMutex with
    | none => exact this hb
    | some b => exact hno b hb
  have hown : ∀ j, (s.threads j).mutex ≠ some s.nextMutex := by
    intro j e
    have := h.pc j
    cases hj : s.threads j <;> rw [hj] at e this <;> simp [Pc.mutex] at e
    · subst e; exact hno _ this.2.1
    · subst e; exact hno _ this.2.1
  refine ⟨h.entry, h.metaLt, ?_, ?_, h.unique, ?_, ?_, ?_, ?_, h.nodup, ?_, ?_⟩
  · intro x b hx
    show x < s.nextMutex + 1
    by_cases e : x = s.nextMutex
    · omega
    · have hx' : upd s.mutexes s.nextMutex (some none) x = some b := hx
      rw [upd_ne _ _ e] at hx'
      have := h.mutexLt x b hx'; omega
  · intro m a x hm hx
    obtain ⟨g1, g2⟩ := h.field m a x hm hx
    refine ⟨?_, g2⟩
    cases hb : s.mutexes x with
    | none => exact absurd hb g1
    | some b => show upd s.mutexes s.nextMutex (some none) x ≠ none; rw [hmono hb]; simp
  · intro j
    show PcOk _ j (upd s.threads i (.cas o m0 s.nextMutex) j)
    by_cases e : j = i
    · subst e; rw [upd_same]
      exact ⟨hk, upd_same _ _ _, hfresh⟩
    · rw [upd_ne _ _ e]
      have := h.pc j
      cases hj : s.threads j <;> rw [hj] at this
      · trivial
      · exact this
      · exact this
      · exact this
      · exact this
      · exact this
      · exact this
      · exact ⟨this.1, hmono this.2.1, this.2.2⟩
      · exact ⟨this.1, hmono this.2.1, this.2.2⟩
      · exact this
      · exact this
  · intro j k m g1 g2
    have g1' : (upd s.threads i (.cas o m0 s.nextMutex) j).owns = some m := g1
    have g2' : (upd s.threads i (.cas o m0 s.nextMutex) k).owns = some m := g2
    by_cases e1 : j = i
    · subst e1; rw [upd_same] at g1'; cases g1'
    · by_cases e2 : k = i
      · subst e2; rw [upd_same] at g2'; cases g2'
      · rw [upd_ne _ _ e1] at g1'; rw [upd_ne _ _ e2] at g2'
        exact h.ownMeta j k m g1' g2'
  · intro j k x g1 g2
    have g1' : (upd s.threads i (.cas o m0 s.nextMutex) j).mutex = some x := g1
    have g2' : (upd s.threads i (.cas o m0 s.nextMutex) k).mutex = some x := g2
    by_cases e1 : j = i <;> by_cases e2 : k = i
    · rw [e1, e2]
    · subst e1; rw [upd_same] at g1'; rw [upd_ne _ _ e2] at g2'
      cases g1'; exact absurd g2' (hown k)
    · subst e2; rw [upd_same] at g2'; rw [upd_ne _ _ e1] at g1'
      cases g2'; exact absurd g1' (hown j)
    · rw [upd_ne _ _ e1] at g1'; rw [upd_ne _ _ e2] at g2'
      exact h.ownMutex j k x g1' g2'
  · intro j o'
    rw [show (goto { s with mutexes := upd s.mutexes s.nextMutex (some none), nextMutex := s.nextMutex + 1 } i (.cas o m0 s.nextMutex)).held = s.held from rfl,
      h.heldIff j o']
    constructor
    · rintro ⟨x, g1, g2⟩; exact ⟨x, g1, hmono g2⟩
    · rintro ⟨x, g1, g2⟩
      refine ⟨x, g1, ?_⟩
      have g2' : upd s.mutexes s.nextMutex (some none) x = some (some j) := g2
      by_cases e : x = s.nextMutex
      · subst e; rw [upd_same] at g2'; cases g2'
      · rwa [upd_ne _ _ e] at g2'
  · intro m a hm
    rcases h.leakMeta m a hm with g | ⟨j, g⟩
    · exact .inl g
    · by_cases e2 : j = i
      · subst e2; rw [hp] at g; cases g
      · exact .inr ⟨j, by show (upd s.threads i _ j).owns = _; rw [upd_ne _ _ e2]; exact g⟩
  · intro x b hx
    by_cases e : x = s.nextMutex
    · exact .inr ⟨i, by show (upd s.threads i _ i).mutex = _; rw [upd_same, e]; rfl⟩
    · have hx' : upd s.mutexes s.nextMutex (some none) x = some b := hx
      rw [upd_ne _ _ e] at hx'
      rcases h.leakMutex x b hx' with g | ⟨j, g⟩
      · exact .inl g
      · by_cases e2 : j = i
        · subst e2; rw [hp] at g; cases g
        · exact .inr ⟨j, by show (upd s.threads i _ j).mutex = _; rw [upd_ne _ _ e2]; exact g⟩

/-- Publishing a mutex. -/
theorem inv_cas {s s' : State} (h : Inv s) {i o m0 x0 : Nat} (hp : s.threads i = .cas o m0 x0) (hs : cas s i o m0 x0 = .ok s') : Inv s' := by
  have hk : s.table o = some m0 ∧ s.mutexes x0 = some none ∧ ∀ m' a, s.metas m' = some a → a.mutex ≠ some x0 := by
    have := h.pc i; rw [hp] at this; exact this
  obtain ⟨ht, hx0, hfresh⟩ := hk
  unfold cas at hs
  split at hs
  · rename_i w hm0
    cases hs
    have hw : w = o := by
      obtain ⟨a, g1, g2⟩ := h.entry o m0 ht
      rw [hm0] at g1; cases g1; exact g2
    subst hw
    have hmono : ∀ m a x, s.metas m = some a → a.mutex = some x → upd s.metas m0 (some ⟨w, some x0⟩) m = some a := by
      intro m a x hm hx
      rw [upd_ne _ _ (fun e => by rw [e, hm0] at hm; cases hm; cases hx)]; exact hm
    have hback : ∀ m a, upd s.metas m0 (some ⟨w, some x0⟩) m = some a → (m = m0 ∧ a = ⟨w, some x0⟩) ∨ (m ≠ m0 ∧ s.metas m = some a) := by
      intro m a hm
      by_cases e : m = m0
      · subst e; rw [upd_same] at hm; cases hm; exact .inl ⟨rfl, rfl⟩
      · rw [upd_ne _ _ e] at hm; exact .inr ⟨e, hm⟩
    have hmtx : ∀ o' x, HasMutex s o' x → HasMutex (goto { s with metas := upd s.metas m0 (some ⟨w, some x0⟩) } i (.lock w m0)) o' x := by
      rintro o' x ⟨m, a, g1, g2, g3⟩; exact ⟨m, a, g1, hmono m a x g2 g3, g3⟩
    have hmtx' : ∀ o' x, HasMutex (goto { s with metas := upd s.metas m0 (some ⟨w, some x0⟩) } i (.lock w m0)) o' x → HasMutex s o' x ∨ (o' = w ∧ x = x0) := by
      rintro o' x ⟨m, a, g1, g2, g3⟩
      rcases hback m a g2 with ⟨rfl, rfl⟩ | ⟨_, g⟩
      · cases g3
        obtain ⟨a, k1, k2⟩ := h.entry o' m g1
        rw [hm0] at k1; cases k1
        exact .inr ⟨k2.symm, rfl⟩
      · exact .inl ⟨m, a, g1, g, g3⟩
    have hnew : HasMutex (goto { s with metas := upd s.metas m0 (some ⟨w, some x0⟩) } i (.lock w m0)) w x0 := ⟨m0, _, ht, upd_same _ _ _, rfl⟩
    have hown : ∀ j m, (upd s.threads i (.lock w m0) j).owns = some m → (s.threads j).owns = some m := by
      intro j m hj
      by_cases e : j = i
      · subst e; rw [upd_same] at hj; cases hj
      · rw [upd_ne _ _ e] at hj; exact hj
    have hmut : ∀ j x, (upd s.threads i (.lock w m0) j).mutex = some x → (s.threads j).mutex = some x ∧ j ≠ i := by
      intro j x hj
      by_cases e : j = i
      · subst e; rw [upd_same] at hj; cases hj
      · rw [upd_ne _ _ e] at hj; exact ⟨hj, e⟩
    refine ⟨?_, ?_, h.mutexLt, ?_, ?_, ?_, ?_, ?_, ?_, h.nodup, ?_, ?_⟩
    · intro o' m hm
      obtain ⟨a, g1, g2⟩ := h.entry o' m hm
      by_cases e : m = m0
      · subst e; rw [hm0] at g1; cases g1; exact ⟨_, upd_same _ _ _, g2⟩
      · exact ⟨a, by show upd s.metas m0 _ m = _; rw [upd_ne _ _ e]; exact g1, g2⟩
    · intro m a hm
      rcases hback m a hm with ⟨rfl, _⟩ | ⟨_, g⟩
      · exact h.metaLt _ _ hm0
      · exact h.metaLt _ _ g
    · intro m a x hm hx
      rcases hback m a hm with ⟨rfl, rfl⟩ | ⟨_, g⟩
      · cases hx; exact ⟨by show s.mutexes x0 ≠ none; rw [hx0]; simp, ht⟩
      · exact h.field m a x g hx
    · intro m m' a a' x g1 g2 g3 g4
      rcases hback m a g1 with ⟨rfl, rfl⟩ | ⟨_, k⟩ <;> rcases hback m' a' g2 with ⟨rfl, rfl⟩ | ⟨_, k'⟩
      · rfl
      · cases g3; exact absurd g4 (hfresh m' a' k')
      · cases g4; exact absurd g3 (hfresh m a k)
      · exact h.unique m m' a a' x k k' g3 g4
    · intro j
      show PcOk _ j (upd s.threads i (.lock w m0) j)
      by_cases e : j = i
      · subst e; rw [upd_same]; exact ⟨ht, x0, hnew⟩
      · rw [upd_ne _ _ e]
        have := h.pc j
        have hx : (s.threads j).mutex ≠ some x0 := fun g => e (h.ownMutex j i x0 g (by rw [hp]; rfl))
        have hkeep : ∀ m a, (∀ o', s.table o' ≠ some m) → s.metas m = some a → upd s.metas m0 (some ⟨w, some x0⟩) m = some a := by
          intro m a hn hm
          rw [upd_ne _ _ (fun e => hn w (by rw [e]; exact ht))]; exact hm
        cases hj : s.threads j <;> rw [hj] at this hx
        · trivial
        · exact this
        · exact this
        · exact ⟨this.1, hkeep _ _ this.2.2 this.2.1, this.2.2⟩
        · exact ⟨this.1, this.2.1, hkeep _ _ this.2.2.2 this.2.2.1, this.2.2.2⟩
        · exact this
        · exact this
        · refine ⟨this.1, this.2.1, fun m' a hm hxa => ?_⟩
          rcases hback m' a hm with ⟨_, rfl⟩ | ⟨_, g⟩
          · cases hxa; exact hx rfl
          · exact this.2.2 m' a g hxa
        · obtain ⟨k1, k2, k3, y, k4⟩ := this
          refine ⟨k1, k2, fun m' a hm hxa => ?_, y, hmtx _ y k4⟩
          rcases hback m' a hm with ⟨_, rfl⟩ | ⟨_, g⟩
          · cases hxa; exact hx rfl
          · exact k3 m' a g hxa
        · obtain ⟨k1, y, k4⟩ := this
          exact ⟨k1, y, hmtx _ y k4⟩
        · exact this
    · intro j k m g1 g2
      exact h.ownMeta j k m (hown j m g1) (hown k m g2)
    · intro j k x g1 g2
      exact h.ownMutex j k x (hmut j x g1).1 (hmut k x g2).1
    · intro j o'
      rw [show (goto { s with metas := upd s.metas m0 (some ⟨w, some x0⟩) } i (.lock w m0)).held = s.held from rfl, h.heldIff j o']
      constructor
      · rintro ⟨x, g1, g2⟩; exact ⟨x, hmtx o' x g1, g2⟩
      · rintro ⟨x, g1, g2⟩
        rcases hmtx' o' x g1 with g | ⟨_, rfl⟩
        · exact ⟨x, g, g2⟩
        · have g2' : s.mutexes x = some (some j) := g2
          rw [hx0] at g2'; cases g2'
    · intro m a hm
      rcases hback m a hm with ⟨rfl, rfl⟩ | ⟨_, g⟩
      · exact .inl ht
      · rcases h.leakMeta m a g with g | ⟨j, g⟩
        · exact .inl g
        · by_cases e : j = i
          · subst e; rw [hp] at g; cases g
          · exact .inr ⟨j, by show (upd s.threads i _ j).owns = _; rw [upd_ne _ _ e]; exact g⟩
    · intro x b hx
      rcases h.leakMutex x b hx with ⟨o', g⟩ | ⟨j, g⟩
      · exact .inl ⟨o', hmtx o' x g⟩
      · by_cases e : j = i
        · subst e; rw [hp] at g; cases g; exact .inl ⟨w, hnew⟩
        · exact .inr ⟨j, by show (upd s.threads i _ j).mutex = _; rw [upd_ne _ _ e]; exact g⟩
  · rename_i w x hm
    cases hs
    exact inv_goto h ⟨ht, hx0, hfresh, x, m0, _, ht, hm, rfl⟩ (.inl rfl) (.inr (by rw [hp]; rfl)) (fun m a _ g => by rw [hp] at g; cases g)
      (fun y b _ g => .inl (by rw [hp] at g; exact g))
  · cases hs

/-- Releasing a mutex nobody else knows. -/
theorem inv_drop {s s' : State} (h : Inv s) {i o m0 x0 : Nat} (hp : s.threads i = .drop o m0 x0) (hs : drop s i o m0 x0 = .ok s') : Inv s' := by
  have hk : s.table o = some m0 ∧ s.mutexes x0 = some none ∧ (∀ m' a, s.metas m' = some a → a.mutex ≠ some x0) ∧ ∃ y, HasMutex s o y := by
    have := h.pc i; rw [hp] at this; exact this
  obtain ⟨ht, hx0, hfresh, y0, hy0⟩ := hk
  simp only [drop, hx0] at hs
  cases hs
  have hback : ∀ x b, upd s.mutexes x0 none x = some b → s.mutexes x = some b ∧ x ≠ x0 := by
    intro x b hx
    by_cases e : x = x0
    · subst e; rw [upd_same] at hx; cases hx
    · rw [upd_ne _ _ e] at hx; exact ⟨hx, e⟩
  have hmut : ∀ j x, (upd s.threads i (.lock o m0) j).mutex = some x → (s.threads j).mutex = some x ∧ j ≠ i := by
    intro j x hj
    by_cases e : j = i
    · subst e; rw [upd_same] at hj; cases hj
    · rw [upd_ne _ _ e] at hj; exact ⟨hj, e⟩
  have hown : ∀ j m, (upd s.threads i (.lock o m0) j).owns = some m → (s.threads j).owns = some m := by
    intro j m hj
    by_cases e : j = i
    · subst e; rw [upd_same] at hj; cases hj
    · rw [upd_ne _ _ e] at hj; exact hj
  refine ⟨h.entry, h.metaLt, fun x b hx => h.mutexLt x b (hback x b hx).1, ?_, h.unique, ?_, ?_, ?_, ?_, h.nodup, ?_, ?_⟩
  · intro m a x hm hx
    obtain ⟨g1, g2⟩ := h.field m a x hm hx
    refine ⟨?_, g2⟩
    show upd s.mutexes x0 none x ≠ none
    rw [upd_ne _ _ (fun e => hfresh m a hm (by rw [← e]; exact hx))]; exact g1
  · intro j
    show PcOk _ j (upd s.threads i (.lock o m0) j)
    by_cases e : j = i
    · subst e; rw [upd_same]; exact ⟨ht, y0, hy0⟩
    · rw [upd_ne _ _ e]
      have := h.pc j
      have hx : (s.threads j).mutex ≠ some x0 := fun g => e (h.ownMutex j i x0 g (by rw [hp]; rfl))
      cases hj : s.threads j <;> rw [hj] at this hx
      · trivial
      · exact this
      · exact this
      · exact this
      · exact this
      · exact this
      · exact this
      · exact ⟨this.1, by show upd s.mutexes x0 none _ = _; rw [upd_ne _ _ (fun e => hx (by rw [← e]; rfl))]; exact this.2.1, this.2.2⟩
      · exact ⟨this.1, by show upd s.mutexes x0 none _ = _; rw [upd_ne _ _ (fun e => hx (by rw [← e]; rfl))]; exact this.2.1, this.2.2⟩
      · exact this
      · exact this
  · intro j k m g1 g2
    exact h.ownMeta j k m (hown j m g1) (hown k m g2)
  · intro j k x g1 g2
    exact h.ownMutex j k x (hmut j x g1).1 (hmut k x g2).1
  · intro j o'
    rw [show (goto { s with mutexes := upd s.mutexes x0 none } i (.lock o m0)).held = s.held from rfl, h.heldIff j o']
    constructor
    · rintro ⟨x, g1, g2⟩
      refine ⟨x, g1, ?_⟩
      show upd s.mutexes x0 none x = _
      rw [upd_ne _ _ (fun e => by rw [e, hx0] at g2; cases g2)]; exact g2
    · rintro ⟨x, g1, g2⟩; exact ⟨x, g1, (hback x _ g2).1⟩
  · intro m a hm
    rcases h.leakMeta m a hm with g | ⟨j, g⟩
    · exact .inl g
    · by_cases e : j = i
      · subst e; rw [hp] at g; cases g
      · exact .inr ⟨j, by show (upd s.threads i _ j).owns = _; rw [upd_ne _ _ e]; exact g⟩
  · intro x b hx
    obtain ⟨k1, k2⟩ := hback x b hx
    rcases h.leakMutex x b k1 with g | ⟨j, g⟩
    · exact .inl g
    · by_cases e : j = i
      · subst e; rw [hp] at g; cases g; exact absurd rfl k2
      · exact .inr ⟨j, by show (upd s.threads i _ j).mutex = _; rw [upd_ne _ _ e]; exact g⟩

/-- Changing the holder of the mutex of an object, with the list of locks. -/
theorem inv_holder {s : State} (h : Inv s) {i o x0 : Nat} (ho : HasMutex s o x0) {b : Option Nat} {held : List (Nat × Nat)}
    (hpo : (s.threads i).owns = none) (hpm : (s.threads i).mutex = none)
    (hin : ∀ j o', (j, o') ∈ held ↔ (o' ≠ o ∧ (j, o') ∈ s.held) ∨ (o' = o ∧ b = some j)) (hnd : held.Nodup)
    (hstay : ∀ j, j ≠ i → (j, o) ∈ s.held → (j, o) ∈ held) :
    Inv (goto { s with mutexes := upd s.mutexes x0 (some b), held := held } i .idle) := by
  have hx0 : s.mutexes x0 ≠ none := by
    obtain ⟨m, a, g1, g2, g3⟩ := ho
    exact (h.field m a x0 g2 g3).1
  have hone : ∀ o', HasMutex s o' x0 → o' = o := by
    rintro o' ⟨m, a, g1, g2, g3⟩
    obtain ⟨m', a', k1, k2, k3⟩ := ho
    have := h.unique m m' a a' x0 g2 k2 g3 k3
    subst this
    rw [g2] at k2; cases k2
    obtain ⟨c, q1, q2⟩ := h.entry o' m g1
    obtain ⟨c', q1', q2'⟩ := h.entry o m k1
    rw [q1] at q1'; cases q1'
    rw [← q2, ← q2']
  have hheld : ∀ j o', j ≠ i → (j, o') ∈ s.held → (j, o') ∈ held := by
    intro j o' hj hm
    by_cases e : o' = o
    · subst e; exact hstay j hj hm
    · exact (hin j o').mpr (.inl ⟨e, hm⟩)
  have hmut : ∀ j x, (upd s.threads i .idle j).mutex = some x → (s.threads j).mutex = some x := by
    intro j x hj
    by_cases e : j = i
    · subst e; rw [upd_same] at hj; cases hj
    · rw [upd_ne _ _ e] at hj; exact hj
  have hown : ∀ j m, (upd s.threads i .idle j).owns = some m → (s.threads j).owns = some m := by
    intro j m hj
    by_cases e : j = i
    · subst e; rw [upd_same] at hj; cases hj
    · rw [upd_ne _ _ e] at hj; exact hj
  refine ⟨h.entry, h.metaLt, ?_, ?_, h.unique, ?_, ?_, ?_, ?_, hnd, ?_, ?_⟩
  · intro x c hx
    have hx' : upd s.mutexes x0 (some b) x = some c := hx
    by_cases e : x = x0
    · subst e
      cases hc : s.mutexes x with
      | none => exact absurd hc hx0
      | some c => exact h.mutexLt x c hc
    · rw [upd_ne _ _ e] at hx'; exact h.mutexLt x c hx'
  · intro m a x hm hx
    obtain ⟨g1, g2⟩ := h.field m a x hm hx
    refine ⟨?_, g2⟩
    show upd s.mutexes x0 (some b) x ≠ none
    by_cases e : x = x0
    · subst e; rw [upd_same]; simp
    · rw [upd_ne _ _ e]; exact g1
  · intro j
    show PcOk _ j (upd s.threads i .idle j)
    by_cases e : j = i
    · subst e; rw [upd_same]; trivial
    · rw [upd_ne _ _ e]
      have := h.pc j
      have hfr : ∀ x, (∀ m' a, s.metas m' = some a → a.mutex ≠ some x) → x ≠ x0 := by
        rintro x hx rfl
        obtain ⟨m, a, g1, g2, g3⟩ := ho
        exact hx m a g2 g3
      cases hj : s.threads j <;> rw [hj] at this
      · trivial
      · exact fun hc => hheld j _ e (this hc)
      · exact this
      · exact this
      · exact this
      · exact this
      · exact this
      · exact ⟨this.1, by show upd s.mutexes x0 (some b) _ = _; rw [upd_ne _ _ (hfr _ this.2.2)]; exact this.2.1, this.2.2⟩
      · exact ⟨this.1, by show upd s.mutexes x0 (some b) _ = _; rw [upd_ne _ _ (hfr _ this.2.2.1)]; exact this.2.1, this.2.2⟩
      · exact this
      · exact ⟨this.1, hheld j _ e this.2⟩
  · intro j k m g1 g2
    exact h.ownMeta j k m (hown j m g1) (hown k m g2)
  · intro j k x g1 g2
    exact h.ownMutex j k x (hmut j x g1) (hmut k x g2)
  · intro j o'
    show (j, o') ∈ held ↔ ∃ x, HasMutex s o' x ∧ upd s.mutexes x0 (some b) x = some (some j)
    rw [hin j o']
    constructor
    · rintro (⟨e, hm⟩ | ⟨rfl, rfl⟩)
      · obtain ⟨x, g1, g2⟩ := (h.heldIff j o').mp hm
        exact ⟨x, g1, by rw [upd_ne _ _ (fun e2 => e (hone o' (by rw [← e2]; exact g1)))]; exact g2⟩
      · exact ⟨x0, ho, upd_same _ _ _⟩
    · rintro ⟨x, g1, g2⟩
      by_cases e : x = x0
      · subst e; rw [upd_same] at g2; cases g2
        exact .inr ⟨hone o' g1, rfl⟩
      · rw [upd_ne _ _ e] at g2
        refine .inl ⟨?_, (h.heldIff j o').mpr ⟨x, g1, g2⟩⟩
        rintro rfl
        exact e (hasMutex_inj g1 ho)
  · intro m a hm
    rcases h.leakMeta m a hm with g | ⟨j, g⟩
    · exact .inl g
    · by_cases e : j = i
      · subst e; rw [hpo] at g; cases g
      · exact .inr ⟨j, by show (upd s.threads i _ j).owns = _; rw [upd_ne _ _ e]; exact g⟩
  · intro x c hx
    have hx' : upd s.mutexes x0 (some b) x = some c := hx
    by_cases e : x = x0
    · subst e; exact .inl ⟨o, ho⟩
    · rw [upd_ne _ _ e] at hx'
      rcases h.leakMutex x c hx' with g | ⟨j, g⟩
      · exact .inl g
      · by_cases e : j = i
        · subst e; rw [hpm] at g; cases g
        · exact .inr ⟨j, by show (upd s.threads i _ j).mutex = _; rw [upd_ne _ _ e]; exact g⟩

theorem inv_lock {s s' : State} (h : Inv s) {i o m : Nat} (hp : s.threads i = .lock o m) (hs : lock s i o m = .ok s') : Inv s' := by
  have hk : s.table o = some m ∧ ∃ y, HasMutex s o y := by have := h.pc i; rw [hp] at this; exact this
  obtain ⟨ht, y, hy⟩ := hk
  have hy0 := hy
  obtain ⟨m', a, g1, g2, g3⟩ := hy
  rw [ht] at g1; cases g1
  obtain ⟨w, mx⟩ := a
  cases g3
  simp only [lock, g2] at hs
  split at hs
  · rename_i hfree
    cases hs
    have hno : ∀ j, (j, o) ∉ s.held := by
      intro j hj
      obtain ⟨x, k1, k2⟩ := (h.heldIff j o).mp hj
      rw [hasMutex_inj k1 hy0, hfree] at k2; cases k2
    refine inv_holder h hy0 (by rw [hp]; rfl) (by rw [hp]; rfl) ?_ (List.nodup_cons.mpr ⟨hno i, h.nodup⟩) (fun j _ hj => absurd hj (hno j))
    intro j o'
    simp only [List.mem_cons, Prod.mk.injEq, Option.some.injEq]
    constructor
    · rintro (⟨rfl, rfl⟩ | hm)
      · exact .inr ⟨rfl, rfl⟩
      · exact .inl ⟨fun e => hno j (by rw [← e]; exact hm), hm⟩
    · rintro (⟨_, hm⟩ | ⟨rfl, rfl⟩)
      · exact .inr hm
      · exact .inl ⟨rfl, rfl⟩
  · cases hs
  · cases hs

theorem inv_unlock {s s' : State} (h : Inv s) {i o m : Nat} (hp : s.threads i = .unlock o m) (hs : unlock s i o m = .ok s') : Inv s' := by
  have hk : s.table o = some m ∧ (i, o) ∈ s.held := by have := h.pc i; rw [hp] at this; exact this
  obtain ⟨ht, hh⟩ := hk
  obtain ⟨x, hx, hxi⟩ := (h.heldIff i o).mp hh
  have hx0 := hx
  obtain ⟨m', a, g1, g2, g3⟩ := hx
  rw [ht] at g1; cases g1
  obtain ⟨w, mx⟩ := a
  cases g3
  simp only [unlock, g2, hxi, if_true] at hs
  cases hs
  refine inv_holder h hx0 (by rw [hp]; rfl) (by rw [hp]; rfl) ?_ (h.nodup.erase _) (fun j hj hm => ?_)
  · intro j o'
    have hone : ∀ j, (j, o) ∈ s.held → j = i := by
      intro j hj
      obtain ⟨z, k1, k2⟩ := (h.heldIff j o).mp hj
      rw [hasMutex_inj k1 hx0, hxi] at k2; cases k2; rfl
    rw [List.Nodup.mem_erase_iff h.nodup]
    constructor
    · rintro ⟨e, hm⟩
      refine .inl ⟨?_, hm⟩
      rintro rfl
      exact e (by rw [hone j hm])
    · rintro (⟨e, hm⟩ | ⟨_, e⟩)
      · exact ⟨fun e2 => e (Prod.mk.inj e2).2, hm⟩
      · cases e
  · obtain ⟨z, k1, k2⟩ := (h.heldIff j o).mp hm
    rw [hasMutex_inj k1 hx0, hxi] at k2; cases k2
    exact absurd rfl hj

theorem inv_step {s s' : State} (h : Inv s) {i : Nat} (hs : step s i = .ok s') : Inv s' := by
  unfold step at hs
  split at hs <;> rename_i hp
  · cases hs
  · exact inv_find h hp hs
  · cases hs; exact inv_alloc h hp
  · exact inv_insert h hp hs
  · exact inv_discard h hp hs
  · exact inv_test h hp hs
  · cases hs; exact inv_create h hp
  · exact inv_cas h hp hs
  · exact inv_drop h hp hs
  · exact inv_lock h hp hs
  · exact inv_unlock h hp hs

/-- Deallocating the metadata of an object nobody uses. -/
theorem inv_free {s : State} (h : Inv s) {o m0 : Nat} {a0 : Meta} (ht : s.table o = some m0) (hm0 : s.metas m0 = some a0)
    (hl1 : ∀ i, (s.threads i).object ≠ some o) (hl2 : ∀ i, (i, o) ∉ s.held) (mutexes : Nat → Option (Option Nat))
    (hmx : ∀ x, a0.mutex = some x → mutexes x = none) (hmx' : ∀ x, a0.mutex ≠ some x → mutexes x = s.mutexes x) :
    Inv { s with table := upd s.table o none, metas := upd s.metas m0 none, mutexes := mutexes } := by
  have ho : a0.owner = o := by
    obtain ⟨a, g1, g2⟩ := h.entry o m0 ht
    rw [hm0] at g1; cases g1; exact g2
  have hback : ∀ m a, upd s.metas m0 none m = some a → s.metas m = some a ∧ m ≠ m0 := by
    intro m a hm
    by_cases e : m = m0
    · subst e; rw [upd_same] at hm; cases hm
    · rw [upd_ne _ _ e] at hm; exact ⟨hm, e⟩
  have hbackT : ∀ o' m, upd s.table o none o' = some m → s.table o' = some m ∧ o' ≠ o := by
    intro o' m hm
    by_cases e : o' = o
    · subst e; rw [upd_same] at hm; cases hm
    · rw [upd_ne _ _ e] at hm; exact ⟨hm, e⟩
  have hne : ∀ o' m, s.table o' = some m → o' ≠ o → m ≠ m0 := by
    rintro o' m hm e rfl
    obtain ⟨a, g1, g2⟩ := h.entry o' m hm
    rw [hm0] at g1; cases g1
    exact e (g2.symm.trans ho)
  have hkeep : ∀ m a, m ≠ m0 → s.metas m = some a → upd s.metas m0 none m = some a := fun m a e hm => by rw [upd_ne _ _ e]; exact hm
  have hkeepT : ∀ o' m, o' ≠ o → s.table o' = some m → upd s.table o none o' = some m := fun o' m e hm => by rw [upd_ne _ _ e]; exact hm
  have hbackX : ∀ x b, mutexes x = some b → s.mutexes x = some b ∧ a0.mutex ≠ some x := by
    intro x b hx
    by_cases e : a0.mutex = some x
    · rw [hmx x e] at hx; cases hx
    · rw [hmx' x e] at hx; exact ⟨hx, e⟩
  have hmtx : ∀ o' x, o' ≠ o → HasMutex s o' x → HasMutex { s with table := upd s.table o none, metas := upd s.metas m0 none, mutexes := mutexes } o' x := by
    rintro o' x e ⟨m, a, g1, g2, g3⟩
    exact ⟨m, a, hkeepT o' m e g1, hkeep m a (hne o' m g1 e) g2, g3⟩
  have hmtx' : ∀ o' x, HasMutex { s with table := upd s.table o none, metas := upd s.metas m0 none, mutexes := mutexes } o' x → HasMutex s o' x ∧ o' ≠ o ∧ a0.mutex ≠ some x := by
    rintro o' x ⟨m, a, g1, g2, g3⟩
    obtain ⟨k1, k2⟩ := hbackT o' m g1
    obtain ⟨k3, k4⟩ := hback m a g2
    exact ⟨⟨m, a, k1, k3, g3⟩, k2, fun e => k4 (h.unique m m0 a a0 x k3 hm0 g3 e)⟩
  have hfr : ∀ x, (∀ m' a, s.metas m' = some a → a.mutex ≠ some x) → a0.mutex ≠ some x := fun x hx => hx m0 a0 hm0
  refine ⟨?_, fun m a hm => h.metaLt m a (hback m a hm).1, fun x b hx => h.mutexLt x b (hbackX x b hx).1, ?_, ?_, ?_, h.ownMeta, h.ownMutex, ?_, h.nodup, ?_, ?_⟩
  · intro o' m hm
    obtain ⟨k1, k2⟩ := hbackT o' m hm
    obtain ⟨a, g1, g2⟩ := h.entry o' m k1
    exact ⟨a, hkeep m a (hne o' m k1 k2) g1, g2⟩
  · intro m a x hm hx
    obtain ⟨k1, k2⟩ := hback m a hm
    obtain ⟨g1, g2⟩ := h.field m a x k1 hx
    refine ⟨?_, hkeepT _ _ (fun e => k2 ?_) g2⟩
    · show mutexes x ≠ none
      rw [hmx' x (fun e => k2 (h.unique m m0 a a0 x k1 hm0 hx e))]; exact g1
    · rw [e, ht] at g2; cases g2; rfl
  · intro m m' a a' x g1 g2; exact h.unique m m' a a' x (hback m a g1).1 (hback m' a' g2).1
  · intro j
    show PcOk _ j (s.threads j)
    have := h.pc j
    have hobj := hl1 j
    cases hj : s.threads j <;> rw [hj] at this hobj
    · trivial
    · exact this
    · exact this
    · exact ⟨this.1, hkeep _ _ (fun e => this.2.2 o (by rw [e]; exact ht)) this.2.1, fun o' g => this.2.2 o' (hbackT o' _ g).1⟩
    · exact ⟨this.1, hkeepT _ _ (fun e => hobj (by rw [e]; rfl)) this.2.1, hkeep _ _ (fun e => this.2.2.2 o (by rw [e]; exact ht)) this.2.2.1,
        fun o' g => this.2.2.2 o' (hbackT o' _ g).1⟩
    · exact hkeepT _ _ (fun e => hobj (by rw [e]; rfl)) this
    · exact hkeepT _ _ (fun e => hobj (by rw [e]; rfl)) this
    · exact ⟨hkeepT _ _ (fun e => hobj (by rw [e]; rfl)) this.1, by show mutexes _ = _; rw [hmx' _ (hfr _ this.2.2)]; exact this.2.1,
        fun m' a hm => this.2.2 m' a (hback m' a hm).1⟩
    · obtain ⟨k1, k2, k3, y, k4⟩ := this
      exact ⟨hkeepT _ _ (fun e => hobj (by rw [e]; rfl)) k1, by show mutexes _ = _; rw [hmx' _ (hfr _ k3)]; exact k2,
        fun m' a hm => k3 m' a (hback m' a hm).1, y, hmtx _ _ (fun e => hobj (by rw [e]; rfl)) k4⟩
    · obtain ⟨k1, y, k4⟩ := this
      exact ⟨hkeepT _ _ (fun e => hobj (by rw [e]; rfl)) k1, y, hmtx _ _ (fun e => hobj (by rw [e]; rfl)) k4⟩
    · exact ⟨hkeepT _ _ (fun e => hobj (by rw [e]; rfl)) this.1, this.2⟩
  · intro j o'
    show (j, o') ∈ s.held ↔ _
    constructor
    · intro hm
      obtain ⟨x, g1, g2⟩ := (h.heldIff j o').mp hm
      have e : o' ≠ o := fun e => hl2 j (by rw [← e]; exact hm)
      have := hmtx o' x e g1
      exact ⟨x, this, by show mutexes x = _; rw [hmx' x (hmtx' o' x this).2.2]; exact g2⟩
    · rintro ⟨x, g1, g2⟩
      exact (h.heldIff j o').mpr ⟨x, (hmtx' o' x g1).1, (hbackX x _ g2).1⟩
  · intro m a hm
    obtain ⟨k1, k2⟩ := hback m a hm
    rcases h.leakMeta m a k1 with g | g
    · exact .inl (hkeepT _ _ (fun e => k2 (by rw [e, ht] at g; cases g; rfl)) g)
    · exact .inr g
  · intro x b hx
    obtain ⟨k1, k2⟩ := hbackX x b hx
    rcases h.leakMutex x b k1 with ⟨o', g⟩ | g
    · refine .inl ⟨o', hmtx o' x (fun e => k2 ?_) g⟩
      obtain ⟨m, a, q1, q2, q3⟩ := g
      rw [e, ht] at q1; cases q1
      rw [hm0] at q2; cases q2
      exact q3
    · exact .inr g

/-- The mutex of an object that is not locked is free. -/
theorem free_mutex {s : State} (h : Inv s) {o x : Nat} (hx : HasMutex s o x) (hl : ∀ i, (i, o) ∉ s.held) : s.mutexes x = some none := by
  obtain ⟨m, a, g1, g2, g3⟩ := hx
  have hne := (h.field m a x g2 g3).1
  cases hb : s.mutexes x with
  | none => exact absurd hb hne
  | some b =>
      cases b with
      | none => rfl
      | some j => exact absurd ((h.heldIff j o).mpr ⟨x, ⟨m, a, g1, g2, g3⟩, hb⟩) (hl j)

theorem dealloc_inv {s : State} (h : Inv s) {o : Nat} (hl : Legal s (.dealloc o)) : ∃ s', dealloc s o = .ok s' ∧ Inv s' := by
  unfold dealloc
  cases ht : s.table o with
  | none => exact ⟨s, rfl, h⟩
  | some m =>
      obtain ⟨a, g1, g2⟩ := h.entry o m ht
      obtain ⟨w, mx⟩ := a
      cases mx with
      | none =>
          simp only [g1]
          exact ⟨_, rfl, inv_free h ht g1 hl.1 hl.2 s.mutexes (fun x e => by cases e) (fun _ _ => rfl)⟩
      | some x =>
          have hf := free_mutex h ⟨m, _, ht, g1, rfl⟩ hl.2
          simp only [g1, hf]
          refine ⟨_, rfl, inv_free h ht g1 hl.1 hl.2 (upd s.mutexes x none) (fun y e => ?_) (fun y e => ?_)⟩
          · cases e; exact upd_same _ _ _
          · exact upd_ne _ _ (fun e2 => e (by rw [e2]))

theorem inv_init : Inv init := by
  refine ⟨?_, ?_, ?_, ?_, ?_, fun _ => trivial, ?_, ?_, ?_, List.nodup_nil, ?_, ?_⟩ <;>
    simp [init, HasMutex, Pc.owns, Pc.mutex]

theorem reach_inv {s : State} (h : Reach s) : Inv s := by
  induction h with
  | init => exact inv_init
  | @step s a s' _ hl hs ih =>
      cases a with
      | call i o c =>
          cases hs
          exact inv_move ih hl.2 rfl rfl (by rw [hl.1]; rfl) (by rw [hl.1]; rfl)
      | step i => exact inv_step ih hs
      | dealloc o =>
          obtain ⟨s1, h1, h2⟩ := dealloc_inv ih hl
          have : Res.ok s1 = Res.ok s' := h1.symm.trans hs
          cases this
          exact h2

end ObjLock
end Duck
