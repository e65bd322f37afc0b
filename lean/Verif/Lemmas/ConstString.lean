import Verif.Model.ConstString

/-! # Lemmas about constant strings -/

namespace Duck
namespace Const

/-- Has the lock. -/
def Pc.inside : Pc → Bool
  | .setTable _ | .tableUnlock _ | .find | .findUnlock _ | .insert _ | .insertUnlock _ _ => true
  | _ => false

/-- The table that the call has to free. -/
def Pc.tableOf : Pc → Option Nat
  | .tableLock t | .setTable t | .tableUnlock t | .compare t => some t
  | _ => none

/-- The string that the call has made. -/
def Pc.stringOf : Pc → Option Nat
  | .insertLock p | .insert p | .insertUnlock p _ | .discard p _ => some p
  | _ => none

/-- The result if it is known. -/
def Pc.resultOf : Pc → Option Nat
  | .findUnlock r | .done r => r
  | .insertUnlock _ r | .discard _ r => some r
  | _ => none

/-- The table has been created. -/
def Pc.needsTable : Pc → Bool
  | .test | .newTable | .tableLock _ | .setTable _ => false
  | _ => true

/-- What holds for call `i`. -/
structure Ok (s : State) (i : Nat) (c : Call) : Prop where
  lock : c.pc.inside ↔ s.lock = some i
  table : ∀ t, c.pc.tableOf = some t → s.tables[t]? = some ⟨i, false⟩
  needs : c.pc.needsTable → s.table ≠ none
  string : ∀ p, c.pc.stringOf = some p → s.strings[p]? = some ⟨c.text, i, false⟩
  fresh : ∀ p, c.pc.stringOf = some p → c.pc.resultOf = some p ∨ p ∉ s.rows
  result : ∀ r, c.pc.resultOf = some r → r ∈ s.rows ∧ textOf s r = some c.text
  null : c.pc = .done none → c.insert = false

structure Inv (s : State) : Prop where
  ok : ∀ (i : Nat) (c : Call), s.calls[i]? = some c → Ok s i c
  rows : ∀ p ∈ s.rows, ∃ x, s.strings[p]? = some x ∧ x.freed = false
  texts : ∀ p ∈ s.rows, ∀ q ∈ s.rows, textOf s p = textOf s q → p = q
  table : ∀ t, s.table = some t → ∃ x, s.tables[t]? = some x ∧ x.freed = false
  held : ∀ i, s.lock = some i → ∃ c, s.calls[i]? = some c ∧ c.pc.inside
  strings : ∀ (p : Nat) (x : Str), s.strings[p]? = some x → x.freed = false → p ∈ s.rows ∨ ∃ c, s.calls[x.maker]? = some c ∧ c.pc.stringOf = some p
  tables : ∀ (t : Nat) (x : Table), s.tables[t]? = some x → x.freed = false → s.table = some t ∨ ∃ c, s.calls[x.maker]? = some c ∧ c.pc.tableOf = some t
  makers : ∀ (p : Nat) (x : Str), s.strings[p]? = some x → ∃ c, s.calls[x.maker]? = some c ∧ c.text = x.text

theorem inv_init : Inv init :=
  ⟨fun i c h => by simp [init] at h, fun p h => by simp [init] at h, fun p h => by simp [init] at h, fun t h => by simp [init] at h,
   fun i h => by simp [init] at h, fun p x h => by simp [init] at h, fun t x h => by simp [init] at h, fun p x h => by simp [init] at h⟩

/-- What a step of call `i` can change for the others. -/
structure Ext (s s' : State) (i : Nat) : Prop where
  strings : ∀ (p : Nat) (x : Str), s.strings[p]? = some x →
    ∃ x', s'.strings[p]? = some x' ∧ x'.text = x.text ∧ x'.maker = x.maker ∧ (x.maker ≠ i → x' = x)
  tables : ∀ (t : Nat) (x : Table), s.tables[t]? = some x → x.maker ≠ i → s'.tables[t]? = some x
  rows : ∀ p ∈ s.rows, p ∈ s'.rows
  rows' : ∀ p ∈ s'.rows, p ∈ s.rows ∨ ∃ x, s.strings[p]? = some x ∧ x.maker = i
  table : s.table ≠ none → s'.table = s.table
  lock : ∀ j, j ≠ i → (s'.lock = some j ↔ s.lock = some j)

theorem ext_text {s s' : State} {i : Nat} (h : Ext s s' i) {p : Nat} {x : Text} (hp : textOf s p = some x) : textOf s' p = some x := by
  unfold textOf at hp ⊢
  cases hs : s.strings[p]? with
  | none => rw [hs] at hp; cases hp
  | some y =>
    rw [hs] at hp
    obtain ⟨y', h1, h2, _⟩ := h.strings p y hs
    rw [h1]; simp only [Option.map_some] at hp ⊢
    rw [h2]; exact hp

theorem ext_ok {s s' : State} {i j : Nat} {c : Call} (h : Ext s s' i) (hj : j ≠ i) (ok : Ok s j c) : Ok s' j c where
  lock := ok.lock.trans (h.lock j hj).symm
  table t ht := h.tables t _ (ok.table t ht) hj
  needs hn := by rw [h.table (ok.needs hn)]; exact ok.needs hn
  string p hp := by
    obtain ⟨x', h1, _, _, h4⟩ := h.strings p _ (ok.string p hp)
    rw [h1, h4 hj]
  fresh p hp := by
    rcases ok.fresh p hp with h1 | h1
    · exact .inl h1
    · refine .inr fun hx => ?_
      rcases h.rows' p hx with h2 | ⟨x, h2, h3⟩
      · exact h1 h2
      · rw [ok.string p hp] at h2; cases h2; exact hj h3
  result r hr := ⟨h.rows r (ok.result r hr).1, ext_text h (ok.result r hr).2⟩
  null := ok.null

theorem ext_refl {s s' : State} {i : Nat} (h1 : s'.strings = s.strings) (h2 : s'.tables = s.tables) (h3 : s'.rows = s.rows) (h4 : s.table ≠ none → s'.table = s.table)
    (h5 : ∀ j, j ≠ i → (s'.lock = some j ↔ s.lock = some j)) : Ext s s' i where
  strings p x hx := ⟨x, by rw [h1]; exact hx, rfl, rfl, fun _ => rfl⟩
  tables t x hx _ := by rw [h2]; exact hx
  rows p hp := by rw [h3]; exact hp
  rows' p hp := .inl (by rw [h3] at hp; exact hp)
  table := h4
  lock := h5

theorem get_set {l : List Call} {i j : Nat} {c c' x : Call} (h : l[i]? = some c) (hx : (l.set i c')[j]? = some x) :
    j = i ∧ x = c' ∨ j ≠ i ∧ l[j]? = some x := by
  by_cases hj : j = i
  · subst hj
    rw [List.getElem?_set_self (List.getElem?_eq_some_iff.mp h).1] at hx
    exact .inl ⟨rfl, by simpa using hx.symm⟩
  · rw [List.getElem?_set_ne (fun e => hj e.symm)] at hx
    exact .inr ⟨hj, hx⟩

theorem get_self {l : List Call} {i : Nat} {c c' : Call} (h : l[i]? = some c) : (l.set i c')[i]? = some c' :=
  List.getElem?_set_self (List.getElem?_eq_some_iff.mp h).1

/-- Puts the invariant together after a step of call `i`. -/
theorem inv_step {s s' : State} {i : Nat} {c c' : Call} (h : Inv s) (hi : s.calls[i]? = some c) (hx : Ext s s' i)
    (hc : s'.calls = s.calls.set i c') (htext : c'.text = c.text) (ok : Ok s' i c')
    (rows : ∀ p ∈ s'.rows, ∃ x, s'.strings[p]? = some x ∧ x.freed = false)
    (texts : ∀ p ∈ s'.rows, ∀ q ∈ s'.rows, textOf s' p = textOf s' q → p = q)
    (table : ∀ t, s'.table = some t → ∃ x, s'.tables[t]? = some x ∧ x.freed = false)
    (strings : ∀ (p : Nat) (x : Str), s'.strings[p]? = some x → x.freed = false → p ∈ s'.rows ∨ c'.pc.stringOf = some p ∧ x.maker = i ∨
      x.maker ≠ i ∧ s.strings[p]? = some x)
    (tables : ∀ (t : Nat) (x : Table), s'.tables[t]? = some x → x.freed = false → s'.table = some t ∨ c'.pc.tableOf = some t ∧ x.maker = i ∨
      x.maker ≠ i ∧ s.tables[t]? = some x)
    (makers : ∀ (p : Nat) (x : Str), s'.strings[p]? = some x → x.maker = i ∧ x.text = c.text ∨ ∃ y, s.strings[p]? = some y ∧ y.maker = x.maker ∧ y.text = x.text) :
    Inv s' where
  ok j x hj := by
    rw [hc] at hj
    rcases get_set hi hj with ⟨rfl, rfl⟩ | ⟨hne, hj⟩
    · exact ok
    · exact ext_ok hx hne (h.ok j x hj)
  rows := rows
  texts := texts
  table := table
  held j hj := by
    by_cases hji : j = i
    · subst hji; exact ⟨c', by rw [hc]; exact get_self hi, ok.lock.mpr hj⟩
    · obtain ⟨x, h1, h2⟩ := h.held j ((hx.lock j hji).mp hj)
      exact ⟨x, by rw [hc, List.getElem?_set_ne (fun e => hji e.symm)]; exact h1, h2⟩
  strings p x hp hf := by
    rcases strings p x hp hf with h1 | ⟨h1, h2⟩ | ⟨h1, h2⟩
    · exact .inl h1
    · exact .inr ⟨c', by rw [hc, h2]; exact get_self hi, h1⟩
    · rcases h.strings p x h2 hf with h3 | ⟨d, h3, h4⟩
      · exact .inl (hx.rows p h3)
      · exact .inr ⟨d, by rw [hc, List.getElem?_set_ne (fun e => h1 e.symm)]; exact h3, h4⟩
  tables t x ht hf := by
    rcases tables t x ht hf with h1 | ⟨h1, h2⟩ | ⟨h1, h2⟩
    · exact .inl h1
    · exact .inr ⟨c', by rw [hc, h2]; exact get_self hi, h1⟩
    · rcases h.tables t x h2 hf with h3 | ⟨d, h3, h4⟩
      · exact .inl (by rw [hx.table (by rw [h3]; simp)]; exact h3)
      · exact .inr ⟨d, by rw [hc, List.getElem?_set_ne (fun e => h1 e.symm)]; exact h3, h4⟩
  makers p x hp := by
    have key : ∀ {m : Nat} {d : Call}, s.calls[m]? = some d → ∃ d', s'.calls[m]? = some d' ∧ d'.text = d.text := by
      intro m d hd
      by_cases hm : m = i
      · subst hm; rw [hi] at hd; cases hd; exact ⟨c', by rw [hc]; exact get_self hi, htext⟩
      · exact ⟨d, by rw [hc, List.getElem?_set_ne (fun e => hm e.symm)]; exact hd, rfl⟩
    rcases makers p x hp with ⟨h1, h2⟩ | ⟨y, h1, h2, h3⟩
    · exact ⟨c', by rw [hc, h1]; exact get_self hi, by rw [htext, h2]⟩
    · obtain ⟨d, h4, h5⟩ := h.makers p y h1
      obtain ⟨d', h6, h7⟩ := key h4
      exact ⟨d', by rw [← h2]; exact h6, by rw [h7, h5, h3]⟩

/-- A step that changes neither strings nor tables nor rows. -/
theorem inv_same {s s' : State} {i : Nat} {c c' : Call} (h : Inv s) (hi : s.calls[i]? = some c)
    (h1 : s'.strings = s.strings) (h2 : s'.tables = s.tables) (h3 : s'.rows = s.rows) (h4 : s'.table = s.table)
    (h5 : ∀ j, j ≠ i → (s'.lock = some j ↔ s.lock = some j))
    (hc : s'.calls = s.calls.set i c') (htext : c'.text = c.text) (ok : Ok s' i c')
    (hs : ∀ p, c.pc.stringOf = some p → c'.pc.stringOf = some p ∨ p ∈ s.rows)
    (ht : ∀ t, c.pc.tableOf = some t → c'.pc.tableOf = some t ∨ s.table = some t) : Inv s' := by
  have htx : ∀ p, textOf s' p = textOf s p := fun p => by unfold textOf; rw [h1]
  refine inv_step h hi (ext_refl h1 h2 h3 (fun _ => h4) h5) hc htext ok ?_ ?_ ?_ ?_ ?_ ?_
  · rw [h3, h1]; exact h.rows
  · intro p hp q hq he; rw [h3] at hp hq; rw [htx, htx] at he; exact h.texts p hp q hq he
  · rw [h4, h2]; exact h.table
  · intro p x hp hf
    rw [h1] at hp; rw [h3]
    by_cases hm : x.maker = i
    · rcases h.strings p x hp hf with h6 | ⟨d, h6, h7⟩
      · exact .inl h6
      · rw [hm, hi] at h6; cases h6
        rcases hs p h7 with h8 | h8
        · exact .inr (.inl ⟨h8, hm⟩)
        · exact .inl h8
    · exact .inr (.inr ⟨hm, hp⟩)
  · intro t x hp hf
    rw [h2] at hp; rw [h4]
    by_cases hm : x.maker = i
    · rcases h.tables t x hp hf with h6 | ⟨d, h6, h7⟩
      · exact .inl h6
      · rw [hm, hi] at h6; cases h6
        rcases ht t h7 with h8 | h8
        · exact .inr (.inl ⟨h8, hm⟩)
        · exact .inl h8
    · exact .inr (.inr ⟨hm, hp⟩)
  · intro p x hp; rw [h1] at hp; exact .inr ⟨x, hp, rfl, rfl⟩

theorem usable_of {s : State} (h : Inv s) (ht : s.table ≠ none) : usable s = true := by
  unfold usable
  cases hs : s.table with
  | none => exact absurd hs ht
  | some t =>
    obtain ⟨x, h1, h2⟩ := h.table t hs
    simp only [h1, h2, Bool.not_false, Bool.true_and, List.all_eq_true]
    intro p hp
    obtain ⟨y, h3, h4⟩ := h.rows p hp
    unfold live
    rw [h3]; simp [h4]

theorem find_some {s : State} {x : Text} {p : Nat} (h : find s x = some p) : p ∈ s.rows ∧ textOf s p = some x := by
  refine ⟨List.mem_of_find?_eq_some h, ?_⟩
  have := List.find?_some h
  simpa using this

theorem find_none {s : State} {x : Text} (h : find s x = none) : ∀ p ∈ s.rows, textOf s p ≠ some x := by
  intro p hp
  have := List.find?_eq_none.mp h p hp
  simpa using this

theorem ok_of {s : State} {i : Nat} {c : Call} (lock : c.pc.inside ↔ s.lock = some i) (table : ∀ t, c.pc.tableOf = some t → s.tables[t]? = some ⟨i, false⟩)
    (needs : c.pc.needsTable → s.table ≠ none) (string : c.pc.stringOf = none) (result : ∀ r, c.pc.resultOf = some r → r ∈ s.rows ∧ textOf s r = some c.text)
    (null : c.pc = .done none → c.insert = false) : Ok s i c :=
  ⟨lock, table, needs, (fun p hp => by rw [string] at hp; cases hp), (fun p hp => by rw [string] at hp; cases hp), result, null⟩

theorem append_get {α : Type} {l : List α} {a x : α} {i : Nat} (h : (l ++ [a])[i]? = some x) : l[i]? = some x ∨ i = l.length ∧ x = a := by
  rw [List.getElem?_append] at h
  split at h
  · exact .inl h
  · cases hk : i - l.length with
    | zero => rw [hk] at h; exact .inr ⟨by omega, by simpa using h.symm⟩
    | succ k => rw [hk] at h; simp at h

theorem get_append {α : Type} {l : List α} {a x : α} {i : Nat} (h : l[i]? = some x) : (l ++ [a])[i]? = some x := by
  rw [List.getElem?_append_left (List.getElem?_eq_some_iff.mp h).1]; exact h

theorem lock_free {s : State} {i : Nat} (hl : s.lock = none) (j : Nat) (hj : j ≠ i) : (some i = some j ↔ s.lock = some j) := by
  rw [hl]; simp; exact fun e => hj e.symm

theorem lock_mine {s : State} {i : Nat} (hl : s.lock = some i) (j : Nat) (hj : j ≠ i) : ((none : Option Nat) = some j ↔ s.lock = some j) := by
  rw [hl]; simp; exact fun e => hj e.symm

/-- Calling. -/
theorem call_inv {s : State} (h : Inv s) (x : Text) (ins : Bool) : Inv { s with calls := s.calls ++ [⟨x, ins, .test⟩] } where
  ok i c hi := by
    rcases append_get hi with hi | ⟨hlen, rfl⟩
    · have := h.ok i c hi
      exact ⟨this.lock, this.table, this.needs, this.string, this.fresh, this.result, this.null⟩
    · refine ok_of ⟨nofun, fun hl => ?_⟩ nofun nofun rfl nofun nofun
      obtain ⟨d, hd, _⟩ := h.held i hl
      have := (List.getElem?_eq_some_iff.mp hd).1
      omega
  rows := h.rows
  texts := h.texts
  table := h.table
  held i hi := by obtain ⟨c, h1, h2⟩ := h.held i hi; exact ⟨c, get_append h1, h2⟩
  strings p x hp hf := by
    rcases h.strings p x hp hf with h1 | ⟨c, h1, h2⟩
    · exact .inl h1
    · exact .inr ⟨c, get_append h1, h2⟩
  tables t x ht hf := by
    rcases h.tables t x ht hf with h1 | ⟨c, h1, h2⟩
    · exact .inl h1
    · exact .inr ⟨c, get_append h1, h2⟩
  makers p x hp := by obtain ⟨c, h1, h2⟩ := h.makers p x hp; exact ⟨c, get_append h1, h2⟩

/-- A step never crashes, and keeps the invariant. -/
theorem step_inv {s : State} {i : Nat} {c : Call} {r : Res} (h : Inv s) (hi : s.calls[i]? = some c) (ha : step s i c = some r) :
    ∃ s', r = .ok s' ∧ Inv s' ∧ Ext s s' i ∧ ∃ pc', s'.calls = s.calls.set i { c with pc := pc' } := by
  have ok := h.ok i c hi
  unfold step at ha
  cases hpc : c.pc with
  | test =>
    rw [hpc] at ha
    have hl : s.lock ≠ some i := fun e => by have := ok.lock.mpr e; rw [hpc] at this; cases this
    cases ha
    refine ⟨_, rfl, ?_, ext_refl rfl rfl rfl (fun _ => rfl) (fun j hj => Iff.rfl), _, rfl⟩
    split
    · refine inv_same h hi rfl rfl rfl rfl (fun j hj => Iff.rfl) rfl rfl ?_ (fun p hp => by rw [hpc] at hp; cases hp) (fun p hp => by rw [hpc] at hp; cases hp)
      exact ok_of (by simp [Pc.inside, hl]) nofun nofun rfl nofun nofun
    · rename_i ht
      refine inv_same h hi rfl rfl rfl rfl (fun j hj => Iff.rfl) rfl rfl ?_ (fun p hp => by rw [hpc] at hp; cases hp) (fun p hp => by rw [hpc] at hp; cases hp)
      exact ok_of (by simp [Pc.inside, hl]) nofun (fun _ => ht) rfl nofun nofun
  | newTable =>
    rw [hpc] at ha
    have hl : s.lock ≠ some i := fun e => by have := ok.lock.mpr e; rw [hpc] at this; cases this
    cases ha
    have hx : Ext s { s with tables := s.tables ++ [⟨i, false⟩], calls := s.calls.set i { c with pc := .tableLock s.tables.length } } i :=
      ⟨fun p x hp => ⟨x, hp, rfl, rfl, fun _ => rfl⟩, fun t x ht _ => get_append ht, fun p hp => hp, fun p hp => .inl hp, fun _ => rfl, fun j _ => Iff.rfl⟩
    refine ⟨_, rfl, inv_step h hi hx rfl rfl ?_ h.rows h.texts ?_ ?_ ?_ ?_, hx, _, rfl⟩
    · refine ok_of (by simp [Pc.inside, hl]) ?_ nofun rfl nofun nofun
      intro t ht
      simp only [Pc.tableOf, Option.some.injEq] at ht
      subst ht; simp
    · intro t ht
      obtain ⟨x, h1, h2⟩ := h.table t ht
      exact ⟨x, get_append h1, h2⟩
    · intro p x hp hf
      rcases h.strings p x hp hf with h1 | ⟨d, h1, h2⟩
      · exact .inl h1
      · by_cases hm : x.maker = i
        · rw [hm, hi] at h1; cases h1; rw [hpc] at h2; cases h2
        · exact .inr (.inr ⟨hm, hp⟩)
    · intro t x ht hf
      rcases append_get ht with ht | ⟨rfl, rfl⟩
      · rcases h.tables t x ht hf with h1 | ⟨d, h1, h2⟩
        · exact .inl h1
        · by_cases hm : x.maker = i
          · rw [hm, hi] at h1; cases h1; rw [hpc] at h2; cases h2
          · exact .inr (.inr ⟨hm, ht⟩)
      · exact .inr (.inl ⟨rfl, rfl⟩)
    · intro p x hp; exact .inr ⟨x, hp, rfl, rfl⟩
  | tableLock t =>
    rw [hpc] at ha
    simp only at ha
    split at ha
    · rename_i hl
      cases ha
      refine ⟨_, rfl, inv_same h hi rfl rfl rfl rfl (lock_free hl) rfl rfl ?_ (fun p hp => by rw [hpc] at hp; cases hp) (fun p hp => by rw [hpc] at hp; exact .inl hp),
        ext_refl rfl rfl rfl (fun _ => rfl) (lock_free hl), _, rfl⟩
      exact ok_of (by simp [Pc.inside]) (fun t' ht => ok.table t' (by rw [hpc]; exact ht)) nofun rfl nofun nofun
    · cases ha
  | setTable t =>
    rw [hpc] at ha
    have hl := ok.lock.mp (by rw [hpc]; rfl)
    cases ha
    have hx : Ext s { s with table := if s.table = none then some t else s.table, calls := s.calls.set i { c with pc := .tableUnlock t } } i :=
      ext_refl rfl rfl rfl (fun hn => by simp only [if_neg hn]) (fun j _ => Iff.rfl)
    have hmine := ok.table t (by rw [hpc]; rfl)
    refine ⟨_, rfl, inv_step h hi hx rfl rfl ?_ h.rows h.texts ?_ ?_ ?_ (fun p x hp => .inr ⟨x, hp, rfl, rfl⟩), hx, _, rfl⟩
    · refine ok_of (by simp [Pc.inside, hl]) (fun t' ht => ok.table t' (by rw [hpc]; exact ht)) (fun _ => ?_) rfl nofun nofun
      by_cases hn : s.table = none
      · simp only [if_pos hn]; simp
      · simp only [if_neg hn]; exact hn
    · intro t' ht'
      by_cases hn : s.table = none
      · simp only [if_pos hn, Option.some.injEq] at ht'
        subst ht'; exact ⟨_, hmine, rfl⟩
      · simp only [if_neg hn] at ht'; exact h.table t' ht'
    · intro p x hp hf
      rcases h.strings p x hp hf with h1 | ⟨d, h1, h2⟩
      · exact .inl h1
      · by_cases hm : x.maker = i
        · rw [hm, hi] at h1; cases h1; rw [hpc] at h2; cases h2
        · exact .inr (.inr ⟨hm, hp⟩)
    · intro t' x ht hf
      rcases h.tables t' x ht hf with h1 | ⟨d, h1, h2⟩
      · refine .inl ?_
        have hn : ¬ s.table = none := by rw [h1]; simp
        simp only [if_neg hn]; exact h1
      · by_cases hm : x.maker = i
        · rw [hm, hi] at h1; cases h1; rw [hpc] at h2; exact .inr (.inl ⟨h2, hm⟩)
        · exact .inr (.inr ⟨hm, ht⟩)
  | tableUnlock t =>
    rw [hpc] at ha
    have hl := ok.lock.mp (by rw [hpc]; rfl)
    cases ha
    refine ⟨_, rfl, inv_same h hi rfl rfl rfl rfl (lock_mine hl) rfl rfl ?_ (fun p hp => by rw [hpc] at hp; cases hp) (fun p hp => by rw [hpc] at hp; exact .inl hp),
      ext_refl rfl rfl rfl (fun _ => rfl) (lock_mine hl), _, rfl⟩
    exact ok_of (by simp [Pc.inside]) (fun t' ht => ok.table t' (by rw [hpc]; exact ht)) (fun _ => ok.needs (by rw [hpc]; rfl)) rfl nofun nofun
  | compare t =>
    rw [hpc] at ha
    have hl : s.lock ≠ some i := fun e => by have := ok.lock.mpr e; rw [hpc] at this; cases this
    have hn := ok.needs (by rw [hpc]; rfl)
    have hmine := ok.table t (by rw [hpc]; rfl)
    simp only [Option.some.injEq] at ha
    unfold discardTable at ha
    split at ha
    · rename_i ht
      subst ha
      refine ⟨_, rfl, inv_same h hi rfl rfl rfl rfl (fun j _ => Iff.rfl) rfl rfl ?_ (fun p hp => by rw [hpc] at hp; cases hp)
        (fun p hp => by rw [hpc] at hp; cases hp; exact .inr ht), ext_refl rfl rfl rfl (fun _ => rfl) (fun j _ => Iff.rfl), _, rfl⟩
      exact ok_of (by simp [Pc.inside, hl]) nofun (fun _ => hn) rfl nofun nofun
    · rename_i ht
      simp only [freeTable, hmine] at ha
      subst ha
      have hx : Ext s { s with tables := s.tables.set t ⟨i, true⟩, calls := s.calls.set i { c with pc := .findLock } } i := by
        refine ⟨fun p x hp => ⟨x, hp, rfl, rfl, fun _ => rfl⟩, fun t' x ht' hm => ?_, fun p hp => hp, fun p hp => .inl hp, fun _ => rfl, fun j _ => Iff.rfl⟩
        by_cases he : t = t'
        · subst he; rw [hmine] at ht'; cases ht'; exact absurd rfl hm
        · simp only; rw [List.getElem?_set_ne he]; exact ht'
      refine ⟨_, rfl, inv_step h hi hx rfl rfl ?_ h.rows h.texts ?_ ?_ ?_ (fun p x hp => .inr ⟨x, hp, rfl, rfl⟩), hx, _, rfl⟩
      · exact ok_of (by simp [Pc.inside, hl]) nofun (fun _ => hn) rfl nofun nofun
      · intro t' ht'
        obtain ⟨x, h1, h2⟩ := h.table t' ht'
        have he : t ≠ t' := fun e => by subst e; exact ht ht'
        exact ⟨x, by simp only; rw [List.getElem?_set_ne he]; exact h1, h2⟩
      · intro p x hp hf
        rcases h.strings p x hp hf with h1 | ⟨d, h1, h2⟩
        · exact .inl h1
        · by_cases hm : x.maker = i
          · rw [hm, hi] at h1; cases h1; rw [hpc] at h2; cases h2
          · exact .inr (.inr ⟨hm, hp⟩)
      · intro t' x ht' hf
        by_cases he : t = t'
        · subst he
          simp only at ht'
          rw [List.getElem?_set_self (List.getElem?_eq_some_iff.mp hmine).1] at ht'
          cases ht'; cases hf
        · simp only at ht'
          rw [List.getElem?_set_ne he] at ht'
          rcases h.tables t' x ht' hf with h1 | ⟨d, h1, h2⟩
          · exact .inl h1
          · by_cases hm : x.maker = i
            · rw [hm, hi] at h1; cases h1; rw [hpc] at h2
              exact absurd (Option.some.inj h2) he
            · exact .inr (.inr ⟨hm, ht'⟩)
  | findLock =>
    rw [hpc] at ha
    simp only at ha
    split at ha
    · rename_i hl
      cases ha
      refine ⟨_, rfl, inv_same h hi rfl rfl rfl rfl (lock_free hl) rfl rfl ?_ (fun p hp => by rw [hpc] at hp; cases hp) (fun p hp => by rw [hpc] at hp; cases hp),
        ext_refl rfl rfl rfl (fun _ => rfl) (lock_free hl), _, rfl⟩
      exact ok_of (by simp [Pc.inside]) nofun (fun _ => ok.needs (by rw [hpc]; rfl)) rfl nofun nofun
    · cases ha
  | find =>
    rw [hpc] at ha
    have hl := ok.lock.mp (by rw [hpc]; rfl)
    have hn := ok.needs (by rw [hpc]; rfl)
    simp only [usable_of h hn, if_true, Option.some.injEq] at ha
    subst ha
    refine ⟨_, rfl, inv_same h hi rfl rfl rfl rfl (fun j _ => Iff.rfl) rfl rfl ?_ (fun p hp => by rw [hpc] at hp; cases hp) (fun p hp => by rw [hpc] at hp; cases hp),
      ext_refl rfl rfl rfl (fun _ => rfl) (fun j _ => Iff.rfl), _, rfl⟩
    exact ok_of (by simp [Pc.inside, hl]) nofun (fun _ => hn) rfl (fun r hr => find_some hr) nofun
  | findUnlock found =>
    rw [hpc] at ha
    have hl := ok.lock.mp (by rw [hpc]; rfl)
    have hn := ok.needs (by rw [hpc]; rfl)
    have hres := ok.result
    rw [hpc] at hres
    simp only [Option.some.injEq] at ha
    subst ha
    refine ⟨_, rfl, ?_, ext_refl rfl rfl rfl (fun _ => rfl) (lock_mine hl), _, rfl⟩
    split
    · refine inv_same h hi rfl rfl rfl rfl (lock_mine hl) rfl rfl ?_ (fun p hp => by rw [hpc] at hp; cases hp) (fun p hp => by rw [hpc] at hp; cases hp)
      exact ok_of (by simp [Pc.inside]) nofun (fun _ => hn) rfl nofun nofun
    · rename_i hf
      refine inv_same h hi rfl rfl rfl rfl (lock_mine hl) rfl rfl ?_ (fun p hp => by rw [hpc] at hp; cases hp) (fun p hp => by rw [hpc] at hp; cases hp)
      refine ok_of (by simp [Pc.inside]) nofun (fun _ => hn) rfl (fun r hr => hres r hr) (fun e => ?_)
      cases e
      cases hins : c.insert with
      | false => rfl
      | true => exact absurd ⟨rfl, hins⟩ hf
  | alloc =>
    rw [hpc] at ha
    have hl : s.lock ≠ some i := fun e => by have := ok.lock.mpr e; rw [hpc] at this; cases this
    have hn := ok.needs (by rw [hpc]; rfl)
    cases ha
    have hx : Ext s { s with strings := s.strings ++ [⟨c.text, i, false⟩], calls := s.calls.set i { c with pc := .insertLock s.strings.length } } i :=
      ⟨fun p x hp => ⟨x, get_append hp, rfl, rfl, fun _ => rfl⟩, fun t x ht _ => ht, fun p hp => hp, fun p hp => .inl hp, fun _ => rfl, fun j _ => Iff.rfl⟩
    have hlt : ∀ p ∈ s.rows, p < s.strings.length := by
      intro p hp
      obtain ⟨x, h1, _⟩ := h.rows p hp
      exact (List.getElem?_eq_some_iff.mp h1).1
    have htx : ∀ p ∈ s.rows, textOf { s with strings := s.strings ++ [⟨c.text, i, false⟩], calls := s.calls.set i { c with pc := .insertLock s.strings.length } } p = textOf s p := by
      intro p hp
      unfold textOf
      simp only
      rw [List.getElem?_append_left (hlt p hp)]
    refine ⟨_, rfl, inv_step h hi hx rfl rfl ?_ ?_ ?_ h.table ?_ ?_ ?_, hx, _, rfl⟩
    · refine ⟨by simp [Pc.inside, hl], nofun, fun _ => hn, ?_, ?_, nofun, nofun⟩
      · intro p hp
        simp only [Pc.stringOf, Option.some.injEq] at hp
        subst hp; simp
      · intro p hp
        simp only [Pc.stringOf, Option.some.injEq] at hp
        subst hp
        exact .inr fun hm => Nat.lt_irrefl _ (hlt _ hm)
    · intro p hp
      obtain ⟨x, h1, h2⟩ := h.rows p hp
      exact ⟨x, get_append h1, h2⟩
    · intro p hp q hq he
      rw [htx p hp, htx q hq] at he
      exact h.texts p hp q hq he
    · intro p x hp hf
      rcases append_get hp with hp | ⟨rfl, rfl⟩
      · rcases h.strings p x hp hf with h1 | ⟨d, h1, h2⟩
        · exact .inl h1
        · by_cases hm : x.maker = i
          · rw [hm, hi] at h1; cases h1; rw [hpc] at h2; cases h2
          · exact .inr (.inr ⟨hm, hp⟩)
      · exact .inr (.inl ⟨rfl, rfl⟩)
    · intro t x ht hf
      rcases h.tables t x ht hf with h1 | ⟨d, h1, h2⟩
      · exact .inl h1
      · by_cases hm : x.maker = i
        · rw [hm, hi] at h1; cases h1; rw [hpc] at h2; cases h2
        · exact .inr (.inr ⟨hm, ht⟩)
    · intro p x hp
      rcases append_get hp with hp | ⟨rfl, rfl⟩
      · exact .inr ⟨x, hp, rfl, rfl⟩
      · exact .inl ⟨rfl, rfl⟩
  | insertLock p =>
    rw [hpc] at ha
    simp only at ha
    split at ha
    · rename_i hl
      cases ha
      refine ⟨_, rfl, inv_same h hi rfl rfl rfl rfl (lock_free hl) rfl rfl ?_ (fun p hp => by rw [hpc] at hp; exact .inl hp) (fun p hp => by rw [hpc] at hp; cases hp),
        ext_refl rfl rfl rfl (fun _ => rfl) (lock_free hl), _, rfl⟩
      refine ⟨by simp [Pc.inside], nofun, fun _ => ok.needs (by rw [hpc]; rfl), fun p hp => ok.string p (by rw [hpc]; exact hp), fun p hp => ?_, nofun, nofun⟩
      rcases ok.fresh p (by rw [hpc]; exact hp) with h1 | h1
      · rw [hpc] at h1; cases h1
      · exact .inr h1
    · cases ha
  | insert p =>
    rw [hpc] at ha
    have hl := ok.lock.mp (by rw [hpc]; rfl)
    have hn := ok.needs (by rw [hpc]; rfl)
    have hstr := ok.string p (by rw [hpc]; rfl)
    have hfr : p ∉ s.rows := by
      rcases ok.fresh p (by rw [hpc]; rfl) with h1 | h1
      · rw [hpc] at h1; cases h1
      · exact h1
    simp only [usable_of h hn, if_true, Option.some.injEq] at ha
    cases hf : find s c.text with
    | none =>
      rw [hf] at ha
      subst ha
      have hno := find_none hf
      have hx : Ext s { s with rows := s.rows ++ [p], calls := s.calls.set i { c with pc := .insertUnlock p p } } i := by
        refine ⟨fun p x hp => ⟨x, hp, rfl, rfl, fun _ => rfl⟩, fun t x ht _ => ht, fun q hq => by simp [hq], fun q hq => ?_, fun _ => rfl, fun j _ => Iff.rfl⟩
        simp only [List.mem_append, List.mem_singleton] at hq
        rcases hq with hq | rfl
        · exact .inl hq
        · exact .inr ⟨_, hstr, rfl⟩
      have htp : textOf s p = some c.text := by unfold textOf; rw [hstr]; rfl
      refine ⟨_, rfl, inv_step h hi hx rfl rfl ?_ ?_ ?_ h.table ?_ ?_ (fun p x hp => .inr ⟨x, hp, rfl, rfl⟩), hx, _, rfl⟩
      · refine ⟨by simp [Pc.inside, hl], nofun, fun _ => hn, fun q hq => ?_, fun q hq => .inl hq, fun r hr => ?_, nofun⟩
        · simp only [Pc.stringOf, Option.some.injEq] at hq
          subst hq; exact hstr
        · simp only [Pc.resultOf, Option.some.injEq] at hr
          subst hr
          exact ⟨by simp, htp⟩
      · intro q hq
        simp only [List.mem_append, List.mem_singleton] at hq
        rcases hq with hq | rfl
        · exact h.rows q hq
        · exact ⟨_, hstr, rfl⟩
      · intro q hq r hr he
        simp only [List.mem_append, List.mem_singleton] at hq hr
        have he' : textOf s q = textOf s r := he
        rcases hq with hq | rfl <;> rcases hr with hr | rfl
        · exact h.texts q hq r hr he'
        · exact absurd (he'.trans htp) (hno q hq)
        · exact absurd (he'.symm.trans htp) (hno r hr)
        · rfl
      · intro q x hq hfz
        rcases h.strings q x hq hfz with h1 | ⟨d, h1, h2⟩
        · exact .inl (by simp [h1])
        · by_cases hm : x.maker = i
          · rw [hm, hi] at h1; cases h1; rw [hpc] at h2; exact .inr (.inl ⟨h2, hm⟩)
          · exact .inr (.inr ⟨hm, hq⟩)
      · intro t x ht hfz
        rcases h.tables t x ht hfz with h1 | ⟨d, h1, h2⟩
        · exact .inl h1
        · by_cases hm : x.maker = i
          · rw [hm, hi] at h1; cases h1; rw [hpc] at h2; cases h2
          · exact .inr (.inr ⟨hm, ht⟩)
    | some q =>
      rw [hf] at ha
      subst ha
      refine ⟨_, rfl, inv_same h hi rfl rfl rfl rfl (fun j _ => Iff.rfl) rfl rfl ?_ (fun p hp => by rw [hpc] at hp; exact .inl hp) (fun p hp => by rw [hpc] at hp; cases hp),
        ext_refl rfl rfl rfl (fun _ => rfl) (fun j _ => Iff.rfl), _, rfl⟩
      refine ⟨by simp [Pc.inside, hl], nofun, fun _ => hn, fun p hp => ok.string p (by rw [hpc]; exact hp), fun r hr => ?_, fun r hr => ?_, nofun⟩
      · simp only [Pc.stringOf, Option.some.injEq] at hr
        subst hr; exact .inr hfr
      · simp only [Pc.resultOf, Option.some.injEq] at hr
        subst hr; exact find_some hf
  | insertUnlock p r =>
    rw [hpc] at ha
    have hl := ok.lock.mp (by rw [hpc]; rfl)
    cases ha
    refine ⟨_, rfl, inv_same h hi rfl rfl rfl rfl (lock_mine hl) rfl rfl ?_ (fun p hp => by rw [hpc] at hp; exact .inl hp) (fun p hp => by rw [hpc] at hp; cases hp),
      ext_refl rfl rfl rfl (fun _ => rfl) (lock_mine hl), _, rfl⟩
    have h1 := ok.string; have h2 := ok.fresh; have h3 := ok.result
    rw [hpc] at h1 h2 h3
    exact ⟨by simp [Pc.inside], nofun, fun _ => ok.needs (by rw [hpc]; rfl), h1, h2, h3, nofun⟩
  | discard p r =>
    rw [hpc] at ha
    have hl : s.lock ≠ some i := fun e => by have := ok.lock.mpr e; rw [hpc] at this; cases this
    have hn := ok.needs (by rw [hpc]; rfl)
    have hstr := ok.string p (by rw [hpc]; rfl)
    have hres := ok.result r (by rw [hpc]; rfl)
    simp only [Option.some.injEq] at ha
    unfold discardString at ha
    split at ha
    · rename_i he
      subst he
      subst ha
      refine ⟨_, rfl, inv_same h hi rfl rfl rfl rfl (fun j _ => Iff.rfl) rfl rfl ?_
        (fun p hp => by rw [hpc] at hp; cases hp; exact .inr hres.1) (fun p hp => by rw [hpc] at hp; cases hp),
        ext_refl rfl rfl rfl (fun _ => rfl) (fun j _ => Iff.rfl), _, rfl⟩
      refine ok_of (by simp [Pc.inside, hl]) nofun (fun _ => hn) rfl (fun q hq => ?_) nofun
      simp only [Pc.resultOf, Option.some.injEq] at hq
      subst hq; exact hres
    · rename_i hne
      have hnr : p ∉ s.rows := by
        rcases ok.fresh p (by rw [hpc]; rfl) with h1 | h1
        · rw [hpc] at h1; exact absurd (Option.some.inj h1) hne
        · exact h1
      simp only [freeString, hstr] at ha
      subst ha
      have htx : ∀ q, textOf { s with strings := s.strings.set p ⟨c.text, i, true⟩, calls := s.calls.set i { c with pc := .done (some r) } } q = textOf s q := by
        intro q
        unfold textOf
        simp only
        by_cases he : p = q
        · subst he
          rw [List.getElem?_set_self (List.getElem?_eq_some_iff.mp hstr).1, hstr]; rfl
        · rw [List.getElem?_set_ne he]
      have hx : Ext s { s with strings := s.strings.set p ⟨c.text, i, true⟩, calls := s.calls.set i { c with pc := .done (some r) } } i := by
        refine ⟨fun q x hq => ?_, fun t x ht _ => ht, fun q hq => hq, fun q hq => .inl hq, fun _ => rfl, fun j _ => Iff.rfl⟩
        by_cases he : p = q
        · subst he
          rw [hstr] at hq; cases hq
          exact ⟨⟨c.text, i, true⟩, by simp only; rw [List.getElem?_set_self (List.getElem?_eq_some_iff.mp hstr).1], rfl, rfl, fun hm => absurd rfl hm⟩
        · exact ⟨x, by simp only; rw [List.getElem?_set_ne he]; exact hq, rfl, rfl, fun _ => rfl⟩
      refine ⟨_, rfl, inv_step h hi hx rfl rfl ?_ ?_ ?_ h.table ?_ ?_ ?_, hx, _, rfl⟩
      · refine ok_of (by simp [Pc.inside, hl]) nofun (fun _ => hn) rfl (fun q hq => ?_) nofun
        simp only [Pc.resultOf, Option.some.injEq] at hq
        subst hq
        exact ⟨hres.1, by rw [htx]; exact hres.2⟩
      · intro q hq
        obtain ⟨x, h1, h2⟩ := h.rows q hq
        have he : p ≠ q := fun e => by subst e; exact hnr hq
        exact ⟨x, by simp only; rw [List.getElem?_set_ne he]; exact h1, h2⟩
      · intro q hq q' hq' he
        rw [htx, htx] at he
        exact h.texts q hq q' hq' he
      · intro q x hq hfz
        by_cases he : p = q
        · subst he
          simp only at hq
          rw [List.getElem?_set_self (List.getElem?_eq_some_iff.mp hstr).1] at hq
          cases hq; cases hfz
        · simp only at hq
          rw [List.getElem?_set_ne he] at hq
          rcases h.strings q x hq hfz with h1 | ⟨d, h1, h2⟩
          · exact .inl h1
          · by_cases hm : x.maker = i
            · rw [hm, hi] at h1; cases h1; rw [hpc] at h2
              exact absurd (Option.some.inj h2) he
            · exact .inr (.inr ⟨hm, hq⟩)
      · intro t x ht hfz
        rcases h.tables t x ht hfz with h1 | ⟨d, h1, h2⟩
        · exact .inl h1
        · by_cases hm : x.maker = i
          · rw [hm, hi] at h1; cases h1; rw [hpc] at h2; cases h2
          · exact .inr (.inr ⟨hm, ht⟩)
      · intro q x hq
        by_cases he : p = q
        · subst he
          simp only at hq
          rw [List.getElem?_set_self (List.getElem?_eq_some_iff.mp hstr).1] at hq
          cases hq; exact .inl ⟨rfl, rfl⟩
        · simp only at hq
          rw [List.getElem?_set_ne he] at hq
          exact .inr ⟨x, hq, rfl, rfl⟩
  | done r => rw [hpc] at ha; cases ha

theorem act_inv {s : State} {a : Action} {r : Res} (h : Inv s) (ha : act s a = some r) :
    ∃ s', r = .ok s' ∧ Inv s' ∧ (∀ p ∈ s.rows, p ∈ s'.rows) ∧ (∀ p x, textOf s p = some x → textOf s' p = some x) ∧ s.calls.length ≤ s'.calls.length := by
  cases a with
  | call x ins =>
    cases ha
    exact ⟨_, rfl, call_inv h x ins, fun _ hp => hp, fun _ _ hp => hp, by simp⟩
  | step i =>
    simp only [act, Option.bind_eq_some_iff] at ha
    obtain ⟨c, hi, ha⟩ := ha
    obtain ⟨s', h1, h2, h3, pc', h4⟩ := step_inv h hi ha
    exact ⟨s', h1, h2, h3.rows, fun p x => ext_text h3, by rw [h4]; simp⟩

/-- Later calls are told apart from earlier ones by their number. -/
theorem new_call {s s' : State} {a : Action} {i : Nat} {c : Call} (h : Inv s) (ha : act s a = some (.ok s')) (hi : s'.calls[i]? = some c)
    (hn : s.calls.length ≤ i) : c.pc = .test := by
  cases a with
  | call x ins =>
    simp only [act, Option.some.injEq, Res.ok.injEq] at ha
    subst ha
    rcases append_get hi with hi | ⟨_, rfl⟩
    · have := (List.getElem?_eq_some_iff.mp hi).1; omega
    · rfl
  | step k =>
    exfalso
    have := (List.getElem?_eq_some_iff.mp hi).1
    simp only [act, Option.bind_eq_some_iff] at ha
    obtain ⟨d, hk, ha⟩ := ha
    obtain ⟨_, h1, _, _, _, h2⟩ := step_inv h hk ha
    cases h1
    rw [h2, List.length_set] at this
    omega

/-- What is known of a call that begins when string `p` with its text is in the table. -/
def Good (p : Nat) (c : Call) : Prop :=
  (∀ r, c.pc = .done r → r = some p) ∧ (∀ r, c.pc = .findUnlock r → r = some p)

theorem reach_inv {s : State} (h : Reach s) : Inv s := by
  induction h with
  | init => exact inv_init
  | step _ ha ih => obtain ⟨s', h1, h2, _⟩ := act_inv ih ha; cases h1; exact h2

end Const
end Duck
