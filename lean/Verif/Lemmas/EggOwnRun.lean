import Verif.Lemmas.EggOwn
/-! Lemmas for C113: what holds in the states of an archiver and of an unarchiver. -/
namespace Duck
namespace EggOwn

/-- What an archiver keeps true; `l` are the objects added so far. -/
structure AInv (egg : Nat → Bool) (s : Arch) (l : List (Nat × Added)) : Prop where
  mem : Inv s.mem (s.recs.filterMap id)
  table : ∀ a i, s.visited.lookup a = some i ↔ s.recs[i]? = some (some a)
  log : ∀ n i, (n, Added.index i) ∈ l → ∃ a, s.recs[i]? = some (some a) ∧ s.mem.obj a = some n
  all : ∀ i a, s.recs[i]? = some (some a) → ∃ n, s.mem.obj a = some n ∧ (n, Added.index i) ∈ l
  kinds : ∀ n r, (n, r) ∈ l → (r = .error ↔ egg n = false)

theorem mem_filterMap_of_get {recs : List (Option Addr)} {i : Nat} {a : Addr} (h : recs[i]? = some (some a)) :
    a ∈ recs.filterMap id := List.mem_filterMap.2 ⟨some a, List.mem_of_getElem? h, rfl⟩

theorem ainv_start (egg : Nat → Bool) {m : Mem} (h : Sound m) (rootless : Bool) : AInv egg (newArch m rootless) [] := by
  refine ⟨?_, ?_, by simp, ?_, by simp⟩
  · cases rootless <;> exact inv_of_sound h
  · intro a i
    cases rootless
    · simp [newArch]
    · cases i <;> simp [newArch]
  · intro i a
    cases rootless
    · simp [newArch]
    · cases i <;> simp [newArch]

theorem ainv_add {egg : Nat → Bool} {s : Arch} {l : List (Nat × Added)} (h : AInv egg s l) {a : Addr} {n : Nat}
    (ha : s.mem.obj a = some n) :
    ∃ s' r, addObject egg s a = some (s', r) ∧ AInv egg s' (l ++ [(n, r)]) ∧ s'.mem.client = s.mem.client := by
  by_cases he : egg n = false
  · refine ⟨s, .error, by simp [addObject, ha, he], ⟨h.mem, h.table, ?_, ?_, ?_⟩, rfl⟩
    · intro n' i hm
      simp at hm
      exact h.log n' i hm
    · intro i b hb
      obtain ⟨n', h1, h2⟩ := h.all i b hb
      exact ⟨n', h1, List.mem_append_left _ h2⟩
    · intro n' r hm
      rcases List.mem_append.1 hm with hm | hm
      · exact h.kinds n' r hm
      · simp only [List.mem_singleton, Prod.mk.injEq] at hm
        rw [hm.1, hm.2]; simp [he]
  cases hv : s.visited.lookup a with
  | some i =>
    refine ⟨s, .index i, by simp [addObject, ha, he, hv], ⟨h.mem, h.table, ?_, ?_, ?_⟩, rfl⟩
    · intro n' j hm
      rcases List.mem_append.1 hm with hm | hm
      · exact h.log n' j hm
      · simp only [List.mem_singleton, Prod.mk.injEq, Added.index.injEq] at hm
        rw [hm.1, hm.2]
        exact ⟨a, (h.table a i).1 hv, ha⟩
    · intro j b hb
      obtain ⟨n', h1, h2⟩ := h.all j b hb
      exact ⟨n', h1, List.mem_append_left _ h2⟩
    · intro n' r hm
      rcases List.mem_append.1 hm with hm | hm
      · exact h.kinds n' r hm
      · simp only [List.mem_singleton, Prod.mk.injEq] at hm
        rw [hm.1, hm.2]; simp [he]
  | none =>
    have hfree : s.mem.cell a ≠ .free := by
      intro e; simp [Mem.obj, e, Cell.serial] at ha
    obtain ⟨m', hr, hi, ho, hcl⟩ := inv_retain h.mem hfree
    have hget : ∀ i b, (s.recs ++ [some a])[i]? = some (some b) ↔ s.recs[i]? = some (some b) ∨ (i = s.recs.length ∧ b = a) := by
      intro i b
      rcases Nat.lt_trichotomy i s.recs.length with hlt | heq | hgt
      · rw [List.getElem?_append_left hlt]
        constructor
        · exact Or.inl
        · rintro (h | h)
          · exact h
          · omega
      · subst heq
        simp [eq_comm]
      · rw [List.getElem?_append_right (by omega), List.getElem?_eq_none (l := s.recs) (by omega)]
        have : ([some a] : List (Option Addr))[i - s.recs.length]? = none := List.getElem?_eq_none (by simp; omega)
        rw [this]
        constructor
        · intro h; cases h
        · rintro (h | h)
          · cases h
          · omega
    refine ⟨_, _, by simp [addObject, ha, he, hv, hr]; exact ⟨rfl, rfl⟩, ⟨?_, ?_, ?_, ?_, ?_⟩, hcl⟩
    · refine hi.congr fun b => ?_
      simp [List.filterMap_append, List.count_append, List.count_cons, List.count_nil]
    · intro b i
      show List.lookup b ((a, s.recs.length) :: s.visited) = some i ↔ (s.recs ++ [some a])[i]? = some (some b)
      rw [hget]
      by_cases hb : b = a
      · subst hb
        simp only [List.lookup, beq_self_eq_true, Option.some.injEq, and_true]
        constructor
        · intro e; right; exact e.symm
        · rintro (e | e)
          · rw [(h.table b i).2 e] at hv; cases hv
          · exact e.symm
      · have : (b == a) = false := by simpa using hb
        simp only [List.lookup, this, hb, and_false, or_false]
        exact h.table b i
    · intro n' i hm
      show ∃ b, (s.recs ++ [some a])[i]? = some (some b) ∧ m'.obj b = some n'
      rcases List.mem_append.1 hm with hm | hm
      · obtain ⟨b, h1, h2⟩ := h.log n' i hm
        exact ⟨b, (hget i b).2 (Or.inl h1), by rw [ho]; exact h2⟩
      · simp only [List.mem_singleton, Prod.mk.injEq, Added.index.injEq] at hm
        exact ⟨a, (hget i a).2 (Or.inr ⟨hm.2, rfl⟩), by rw [ho, hm.1]; exact ha⟩
    · intro i b hb
      show ∃ n', m'.obj b = some n' ∧ _
      rcases (hget i b).1 hb with hb | ⟨hi', rfl⟩
      · obtain ⟨n', h1, h2⟩ := h.all i b hb
        exact ⟨n', by rw [ho]; exact h1, List.mem_append_left _ h2⟩
      · exact ⟨n, by rw [ho]; exact ha, List.mem_append_right _ (by simp [hi'])⟩
    · intro n' r hm
      rcases List.mem_append.1 hm with hm | hm
      · exact h.kinds n' r hm
      · simp only [List.mem_singleton, Prod.mk.injEq] at hm
        rw [hm.1, hm.2]; simp [he]

theorem ainv_own {egg : Nat → Bool} {s : Arch} {l : List (Nat × Added)} (h : AInv egg s l) {o : Own} (hf : Fair s.mem o) :
    ∃ m', own s.mem o = some m' ∧ AInv egg { s with mem := m' } l := by
  obtain ⟨m', h1, h2, h3, -⟩ := inv_own h.mem hf
  refine ⟨m', h1, ⟨h2, h.table, ?_, ?_, h.kinds⟩⟩
  · intro n i hm
    obtain ⟨a, ha, hn⟩ := h.log n i hm
    exact ⟨a, ha, by rw [← hn]; exact h3 a (mem_filterMap_of_get ha)⟩
  · intro i a ha
    obtain ⟨n, h4, h5⟩ := h.all i a ha
    exact ⟨n, by rw [← h4]; exact h3 a (mem_filterMap_of_get ha), h5⟩

theorem ainv_step {egg : Nat → Bool} {s : Arch} {l : List (Nat × Added)} (h : AInv egg s l) {e : AEvent} (hf : AFair s e) :
    ∃ s' l', astep egg s e = some (s', l') ∧ AInv egg s' (l ++ l') := by
  cases e with
  | own o =>
    obtain ⟨m', h1, h2⟩ := ainv_own h hf
    exact ⟨{ s with mem := m' }, [], by simp [astep, h1], by simpa using h2⟩
  | add a =>
    cases ha : s.mem.obj a with
    | none =>
      exfalso
      have : s.mem.cell a ≠ .free := hf
      cases hc : s.mem.cell a <;> simp_all [Mem.obj, Cell.serial]
    | some n =>
      obtain ⟨s', r, h1, h2, -⟩ := ainv_add h ha
      exact ⟨s', [(n, r)], by simp [astep, ha, h1], h2⟩

theorem arun_inv {egg : Nat → Bool} {s : Arch} {l : List (Nat × Added)} (h : ARun egg s l) : AInv egg s l := by
  induction h with
  | start m rootless hs => exact ainv_start egg hs rootless
  | step s s' l l' e _ hf he ih =>
    obtain ⟨t, k, h1, h2⟩ := ainv_step ih hf
    rw [h1] at he
    cases he
    exact h2

/-! ## Unarchiver -/

/-- What an unarchiver keeps true -/
structure UInv (kind : Nat → Kind) (s : Unarch) : Prop where
  mem : Inv s.mem (s.slots.filterMap id)
  running : ∀ i a, (i, a) ∈ s.running → s.slots[i]? = some (some a)
  once : (s.running.map (·.1)).Nodup
  static : Placeholders kind s.mem

theorem count_set_some : ∀ {l : List (Option Addr)} {i : Nat} {x : Option Addr} (b a : Addr), l[i]? = some x →
    ((l.set i (some b)).filterMap id).count a + (if x = some a then 1 else 0) =
      (l.filterMap id).count a + (if b = a then 1 else 0)
  | [], i, x, b, a, h => by simp at h
  | y :: l, 0, x, b, a, h => by
    simp at h
    subst h
    cases y with
    | none => simp [List.count_cons]
    | some y =>
      simp only [List.set_cons_zero, List.filterMap_cons, id, List.count_cons, beq_iff_eq, Option.some.injEq]
      omega
  | y :: l, i + 1, x, b, a, h => by
    have ih := count_set_some b a (l := l) (i := i) (x := x) (by simpa using h)
    cases y with
    | none => simpa [List.filterMap_cons] using ih
    | some y =>
      simp only [List.set_cons_succ, List.filterMap_cons, id, List.count_cons]
      omega

theorem count_set_none : ∀ {l : List (Option Addr)} {i : Nat} {x : Option Addr} (a : Addr), l[i]? = some x →
    ((l.set i none).filterMap id).count a + (if x = some a then 1 else 0) = (l.filterMap id).count a
  | [], i, x, a, h => by simp at h
  | y :: l, 0, x, a, h => by
    simp at h
    subst h
    cases y with
    | none => simp
    | some y => simp [List.count_cons]
  | y :: l, i + 1, x, a, h => by
    have ih := count_set_none a (l := l) (i := i) (x := x) (by simpa using h)
    cases y with
    | none => simpa [List.filterMap_cons] using ih
    | some y =>
      simp only [List.set_cons_succ, List.filterMap_cons, id, List.count_cons]
      omega

theorem filterMap_replicate_none (n : Nat) : (List.replicate n (none : Option Addr)).filterMap id = [] := by
  induction n with
  | zero => rfl
  | succ n ih => simp [List.replicate_succ]

theorem uinv_stream {kind : Nat → Kind} {m : Mem} (h : Sound m) (hp : Placeholders kind m) (count : Nat) :
    UInv kind (newFromStream m count) :=
  ⟨by simp only [newFromStream, filterMap_replicate_none]; exact inv_of_sound h, by simp [newFromStream], by simp [newFromStream], hp⟩

theorem uinv_data {kind : Nat → Kind} {m : Mem} (h : Sound m) (hp : Placeholders kind m) (d : Addr) (count : Nat) :
    UInv kind (newFromData m d count) :=
  ⟨by simp only [newFromData, filterMap_replicate_none]; exact inv_of_sound h, by simp [newFromData], by simp [newFromData], hp⟩

/-- Objects whose `initWithEgg` has returned stay where they are. -/
def Kept (s s' : Unarch) : Prop :=
  s'.source = s.source ∧ s'.slots.length = s.slots.length ∧
  ∀ i a n, s.slots[i]? = some (some a) → i ∉ s.running.map (·.1) → s.mem.obj a = some n →
    s'.slots[i]? = some (some a) ∧ i ∉ s'.running.map (·.1) ∧ s'.mem.obj a = some n

theorem uinv_own {kind : Nat → Kind} {s : Unarch} (h : UInv kind s) {o : Own} (hf : Fair s.mem o) :
    ∃ m', own s.mem o = some m' ∧ UInv kind { s with mem := m' } ∧ Kept s { s with mem := m' } := by
  obtain ⟨m', h1, h2, h3, h4⟩ := inv_own h.mem hf
  refine ⟨m', h1, ⟨h2, h.running, h.once, ?_⟩, rfl, rfl, ?_⟩
  · intro i p hk
    obtain ⟨n, hn⟩ := h.static i p hk
    exact ⟨n, h4 p n hn⟩
  · intro i a n ha hr hn
    exact ⟨ha, hr, by rw [← hn]; exact h3 a (mem_filterMap_of_get ha)⟩

theorem uinv_get {kind : Nat → Kind} {s : Unarch} (h : UInv kind s) (i : Nat) {a : Addr} (hf : s.mem.cell a = .free)
    (hr : readable s = true) :
    ∃ s' g, getObject kind s i a = some (s', g) ∧ UInv kind s' ∧ Kept s s' := by
  have hrefl : Kept s s := ⟨rfl, rfl, fun i a n h1 h2 h3 => ⟨h1, h2, h3⟩⟩
  cases hs : s.slots[i]? with
  | none => exact ⟨s, .null, by simp [getObject, hr, hs], h, hrefl⟩
  | some x =>
    cases x with
    | some b => exact ⟨s, .object b, by simp [getObject, hr, hs], h, hrefl⟩
    | none =>
      have hlt : i < s.slots.length := (List.getElem?_eq_some_iff.1 hs).1
      have hnr : i ∉ s.running.map (·.1) := by
        intro hm
        obtain ⟨⟨j, b⟩, hm', rfl⟩ := List.mem_map.1 hm
        have := h.running _ _ hm'
        rw [hs] at this
        cases this
      cases hk : kind i with
      | unknown => exact ⟨s, .null, by simp [getObject, hr, hs, hk, makeObject], h, hrefl⟩
      | plain =>
        have ha := inv_new (h' := a :: s.slots.filterMap id) (c := s.mem.client) h.mem hf
          (by rw [List.count_cons_self]; have := h.mem.free a hf; omega)
          (fun b e => ⟨rfl, List.count_cons_of_ne (Ne.symm e)⟩)
        obtain ⟨m', h1, h2, h3, -, h5, -⟩ := inv_release ha.1
        have hcell : ∀ b, s.mem.cell b ≠ .free → m'.cell b = s.mem.cell b := by
          intro b hb
          have e : b ≠ a := by rintro rfl; exact hb hf
          rw [h5 b e]
          simp [Function.update_of_ne e]
        have h1' : release (alloc s.mem a) a = some m' := h1
        refine ⟨{ s with mem := m' }, .null, by simp [getObject, hr, hs, hk, makeObject, h1'], ⟨h2, h.running, h.once, ?_⟩, rfl, rfl, ?_⟩
        · intro j p hp
          obtain ⟨n, hn⟩ := h.static j p hp
          exact ⟨n, by show m'.cell p = _; rw [hcell p (by rw [hn]; simp)]; exact hn⟩
        · intro j b n hb hj hn
          refine ⟨hb, hj, ?_⟩
          show m'.obj b = some n
          rw [← hn]
          simp only [Mem.obj]
          rw [hcell b]
          exact h.mem.exists_of_mem (mem_filterMap_of_get hb)
      | egg =>
        have ha := inv_new (h' := (s.slots.set i (some a)).filterMap id) (c := s.mem.client) h.mem hf
          (by have h1 := count_set_some a a hs
              have := h.mem.free a hf
              simp at h1
              omega)
          (fun b e => ⟨rfl, by
            have h1 := count_set_some a b hs
            simpa [Ne.symm e] using h1⟩)
        refine ⟨{ s with mem := alloc s.mem a, slots := s.slots.set i (some a), running := (i, a) :: s.running }, .running,
          by simp [getObject, hr, hs, hk, makeObject], ⟨ha.1, ?_, ?_, ?_⟩, rfl, by simp, ?_⟩
        · intro j b hm
          show (s.slots.set i (some a))[j]? = _
          rcases List.mem_cons.1 hm with e | hm
          · cases e
            rw [List.getElem?_set_self hlt]
          · rw [List.getElem?_set_ne]
            · exact h.running j b hm
            · rintro rfl
              exact hnr (List.mem_map.2 ⟨_, hm, rfl⟩)
        · exact List.nodup_cons.2 ⟨hnr, h.once⟩
        · intro j p hp
          obtain ⟨n, hn⟩ := h.static j p hp
          refine ⟨n, ?_⟩
          have e : p ≠ a := by rintro rfl; rw [hf] at hn; cases hn
          simpa [alloc, Function.update_of_ne e] using hn
        · intro j b n hb hj hn
          have hne : i ≠ j := by rintro rfl; rw [hs] at hb; cases hb
          refine ⟨?_, ?_, ?_⟩
          · show (s.slots.set i (some a))[j]? = _
            rw [List.getElem?_set_ne hne]; exact hb
          · simp only [List.map_cons, List.mem_cons, not_or]
            exact ⟨Ne.symm hne, hj⟩
          · rw [← hn]
            exact ha.2 b (h.mem.exists_of_mem (mem_filterMap_of_get hb))
      | placeholder p =>
        obtain ⟨np, hnp⟩ := h.static i p hk
        have ha := inv_static (h' := (s.slots.set i (some p)).filterMap id) (c := s.mem.client) h.mem hnp
          (fun b e => ⟨rfl, by
            have h1 := count_set_some p b hs
            simpa [Ne.symm e] using h1⟩)
        refine ⟨{ s with slots := s.slots.set i (some p), running := (i, p) :: s.running }, .running,
          by simp [getObject, hr, hs, hk, makeObject], ⟨ha, ?_, ?_, h.static⟩, rfl, by simp, ?_⟩
        · intro j b hm
          show (s.slots.set i (some p))[j]? = _
          rcases List.mem_cons.1 hm with e | hm
          · cases e
            rw [List.getElem?_set_self hlt]
          · rw [List.getElem?_set_ne]
            · exact h.running j b hm
            · rintro rfl
              exact hnr (List.mem_map.2 ⟨_, hm, rfl⟩)
        · exact List.nodup_cons.2 ⟨hnr, h.once⟩
        · intro j b n hb hj hn
          have hne : i ≠ j := by rintro rfl; rw [hs] at hb; cases hb
          refine ⟨?_, ?_, hn⟩
          · show (s.slots.set i (some p))[j]? = _
            rw [List.getElem?_set_ne hne]; exact hb
          · simp only [List.map_cons, List.mem_cons, not_or]
            exact ⟨Ne.symm hne, hj⟩

/-- A reference of the rest of the program is handed over to the list. -/
theorem inv_lose {m : Mem} {h : List Addr} (i : Inv m h) {b : Addr} (hb : 0 < m.client b) : Inv (lose m b) (b :: h) := by
  refine ⟨?_, ?_, i.older, i.one⟩
  · intro a s n hc
    have := i.owners a s n hc
    by_cases e : a = b
    · subst e
      simp only [lose, Function.update_self, List.count_cons_self]
      omega
    · simp only [lose, Function.update_of_ne e, List.count_cons_of_ne (Ne.symm e)]
      exact this
  · intro a hc
    have := i.free a hc
    by_cases e : a = b
    · subst e; omega
    · simp only [lose, Function.update_of_ne e, List.count_cons_of_ne (Ne.symm e)]
      exact this

theorem uinv_done {kind : Nat → Kind} {s : Unarch} (h : UInv kind s) {r : Init} (hf : UFair s (.done r)) :
    ∃ s' g, finishInit s r = some (s', g) ∧ UInv kind s' ∧ Kept s s' := by
  have hne : s.running ≠ [] := by
    cases r with
    | other b => exact hf.1
    | same => exact hf
    | null => exact hf
  cases hrun : s.running with
  | nil => exact absurd hrun hne
  | cons ia rest =>
    obtain ⟨i, a⟩ := ia
    have hia : s.slots[i]? = some (some a) := h.running i a (by rw [hrun]; exact List.mem_cons_self)
    have hlt : i < s.slots.length := (List.getElem?_eq_some_iff.1 hia).1
    have honce := h.once
    rw [hrun] at honce
    simp only [List.map_cons, List.nodup_cons] at honce
    have hother : ∀ j b, (j, b) ∈ rest → i ≠ j := by
      rintro j b hm rfl
      exact honce.1 (List.mem_map.2 ⟨_, hm, rfl⟩)
    have hset : s.slots.set i (some a) = s.slots := by
      apply List.ext_getElem?
      intro j
      by_cases e : i = j
      · subst e; rw [List.getElem?_set_self hlt, hia]
      · rw [List.getElem?_set_ne e]
    have hmemrun : ∀ j, j ∉ s.running.map (·.1) → i ≠ j ∧ j ∉ rest.map (·.1) := by
      intro j hj
      rw [hrun] at hj
      simp only [List.map_cons, List.mem_cons, not_or] at hj
      exact ⟨Ne.symm hj.1, hj.2⟩
    cases r with
    | same =>
      refine ⟨{ s with slots := s.slots.set i (some a), running := rest }, .object a, by simp only [finishInit, hrun], ⟨?_, ?_, honce.2, h.static⟩, rfl, by simp, ?_⟩
      · simp only [hset]; exact h.mem
      · intro j b hm
        simp only [hset]
        exact h.running j b (by rw [hrun]; exact List.mem_cons_of_mem _ hm)
      · intro j b n hb hj hn
        refine ⟨by simp only [hset]; exact hb, (hmemrun j hj).2, hn⟩
    | null =>
      have hm : Inv s.mem (a :: (s.slots.set i none).filterMap id) := by
        refine h.mem.congr fun b => ?_
        have h1 := count_set_none b hia
        simp only [List.count_cons, beq_iff_eq]
        simp only [Option.some.injEq] at h1
        omega
      obtain ⟨m', h1, h2, h3, h4, h5, -⟩ := inv_release hm
      refine ⟨{ s with mem := m', slots := s.slots.set i none, running := rest }, .null,
        by simp only [finishInit, hrun, h1, Option.map_some], ⟨h2, ?_, honce.2, ?_⟩, rfl, by simp, ?_⟩
      · intro j b hm
        show (s.slots.set i none)[j]? = _
        rw [List.getElem?_set_ne (hother j b hm)]
        exact h.running j b (by rw [hrun]; exact List.mem_cons_of_mem _ hm)
      · intro j p hp
        obtain ⟨n, hn⟩ := h.static j p hp
        refine ⟨n, ?_⟩
        show m'.cell p = _
        by_cases e : p = a
        · subst e
          have : release s.mem p = some s.mem := by simp only [release, hn]
          rw [this] at h1
          cases h1
          exact hn
        · rw [h5 p e]; exact hn
      · intro j b n hb hj hn
        obtain ⟨e1, e2⟩ := hmemrun j hj
        have hb' : (s.slots.set i none)[j]? = some (some b) := by rw [List.getElem?_set_ne e1]; exact hb
        refine ⟨hb', e2, ?_⟩
        show m'.obj b = some n
        rw [h3 b (h2.exists_of_mem (mem_filterMap_of_get hb'))]
        exact hn
    | other c =>
      have hc : 0 < s.mem.client c := hf.2
      have hm : Inv s.mem (a :: (s.slots.set i none).filterMap id) := by
        refine h.mem.congr fun b => ?_
        have h1 := count_set_none b hia
        simp only [List.count_cons, beq_iff_eq]
        simp only [Option.some.injEq] at h1
        omega
      obtain ⟨m', h1, h2, h3, h4, h5, -⟩ := inv_release hm
      have h6 := inv_lose (b := c) h2 (by rw [h4]; exact hc)
      have h7 : Inv (lose m' c) ((s.slots.set i (some c)).filterMap id) := by
        refine h6.congr fun b => ?_
        have e1 := count_set_none b hia
        have e2 := count_set_some c b hia
        simp only [List.count_cons, beq_iff_eq]
        omega
      refine ⟨{ s with mem := lose m' c, slots := s.slots.set i (some c), running := rest }, .object c,
        by simp only [finishInit, hrun, h1, Option.map_some], ⟨h7, ?_, honce.2, ?_⟩, rfl, by simp, ?_⟩
      · intro j b hm
        show (s.slots.set i (some c))[j]? = _
        rw [List.getElem?_set_ne (hother j b hm)]
        exact h.running j b (by rw [hrun]; exact List.mem_cons_of_mem _ hm)
      · intro j p hp
        obtain ⟨n, hn⟩ := h.static j p hp
        refine ⟨n, ?_⟩
        show m'.cell p = _
        by_cases e : p = a
        · subst e
          have : release s.mem p = some s.mem := by simp only [release, hn]
          rw [this] at h1
          cases h1
          exact hn
        · rw [h5 p e]; exact hn
      · intro j b n hb hj hn
        obtain ⟨e1, e2⟩ := hmemrun j hj
        have hb' : (s.slots.set i (some c))[j]? = some (some b) := by rw [List.getElem?_set_ne e1]; exact hb
        refine ⟨hb', e2, ?_⟩
        show m'.obj b = some n
        rw [h3 b (h7.exists_of_mem (mem_filterMap_of_get hb'))]
        exact hn

theorem kept_trans {s t u : Unarch} (h1 : Kept s t) (h2 : Kept t u) : Kept s u :=
  ⟨h2.1.trans h1.1, h2.2.1.trans h1.2.1, fun i a n e1 e2 e3 =>
    have h := h1.2.2 i a n e1 e2 e3
    h2.2.2 i a n h.1 h.2.1 h.2.2⟩

theorem ustep_inv {kind : Nat → Kind} {s s' : Unarch} {e : UEvent} {g : Got} (h : UInv kind s) (hf : UFair s e)
    (he : ustep kind s e = some (s', g)) : UInv kind s' ∧ Kept s s' := by
  cases e with
  | own o =>
    obtain ⟨m', h1, h2, h3⟩ := uinv_own h hf
    simp only [ustep, h1, Option.map_some, Option.some.injEq, Prod.mk.injEq] at he
    rw [← he.1]
    exact ⟨h2, h3⟩
  | get i a =>
    have hr : readable s = true := by
      cases hr : readable s with
      | true => rfl
      | false => simp [ustep, getObject, hr] at he
    obtain ⟨t, g', h1, h2, h3⟩ := uinv_get h i hf hr
    simp only [ustep, h1, Option.some.injEq, Prod.mk.injEq] at he
    rw [← he.1]
    exact ⟨h2, h3⟩
  | done r =>
    obtain ⟨t, g', h1, h2, h3⟩ := uinv_done h hf
    simp only [ustep, h1, Option.some.injEq, Prod.mk.injEq] at he
    rw [← he.1]
    exact ⟨h2, h3⟩

theorem ulater_inv {kind : Nat → Kind} {s t : Unarch} (h : UInv kind s) (hl : ULater kind s t) : UInv kind t ∧ Kept s t := by
  induction hl with
  | now => exact ⟨h, rfl, rfl, fun i a n h1 h2 h3 => ⟨h1, h2, h3⟩⟩
  | step t t' e g _ hf he ih =>
    obtain ⟨h1, h2⟩ := ustep_inv ih.1 hf he
    exact ⟨h1, kept_trans ih.2 h2⟩

theorem urun_inv {kind : Nat → Kind} {t : Unarch} (h : URun kind t) : UInv kind t := by
  cases h with
  | stream m count _ hs hp hl => exact (ulater_inv (uinv_stream hs hp count) hl).1
  | data m d count _ hs hp _ hl => exact (ulater_inv (uinv_data hs hp d count) hl).1

end EggOwn
end Duck
