import Mathlib.Data.List.Pairwise
import Verif.Lemmas.HashTable
/-! The table invariant, and refinement of every operation to the finite map. -/
namespace Duck
namespace HTable
variable {K V : Type} {hash : K → Nat} {eqv : K → K → Bool}

/-! ### Rows and entries -/

theorem split_at {rows : List (Row K V)} {x : Nat} {r : Row K V} (h : rows[x]? = some r) :
    ∃ A B, rows = A ++ r :: B ∧ A.length = x := by
  obtain ⟨hx, rfl⟩ := List.getElem?_eq_some_iff.mp h
  refine ⟨rows.take x, rows.drop (x + 1), ?_, by simp; omega⟩
  rw [List.getElem_cons_drop, List.take_append_drop]

theorem set_at (A B : List (Row K V)) (r r' : Row K V) : (A ++ r :: B).set A.length r' = A ++ r' :: B := by
  simp

theorem mem_entries {rows : List (Row K V)} {e : K × V} :
    e ∈ entries rows ↔ ∃ x : Nat, rows[x]? = some (.active e.1 e.2) := by
  simp only [entries, List.mem_filterMap]
  constructor
  · rintro ⟨r, hr, he⟩
    obtain ⟨x, hx⟩ := List.mem_iff_getElem?.mp hr
    refine ⟨x, ?_⟩
    cases r <;> simp at he
    subst he; exact hx
  · rintro ⟨x, hx⟩
    exact ⟨_, List.mem_iff_getElem?.mpr ⟨x, hx⟩, rfl⟩

theorem entries_append (A B : List (Row K V)) : entries (A ++ B) = entries A ++ entries B := by
  simp [entries, List.filterMap_append]
theorem entries_cons_active (k : K) (v : V) (B : List (Row K V)) :
    entries (.active k v :: B) = (k, v) :: entries B := rfl
theorem entries_cons_deleted (B : List (Row K V)) : entries (.deleted :: B) = entries B := rfl
theorem entries_cons_empty (B : List (Row K V)) : entries (.empty :: B) = entries B := rfl

/-- No two live rows have equal keys, and each live key is reachable by probing. -/
structure Core (hash : K → Nat) (eqv : K → K → Bool) (rows : List (Row K V)) : Prop where
  distinct : ∀ (x y : Nat) k v k' v', rows[x]? = some (.active k v) → rows[y]? = some (.active k' v') →
    eqv k k' = true → x = y
  reach : ∀ (x : Nat) k v, rows[x]? = some (.active k v) → ∃ j, probe rows.length (hash k) j = x ∧
    ∀ i < j, ∃ r, rows[probe rows.length (hash k) i]? = some r ∧ r ≠ .empty

theorem Core.uniq (kc : KeyClass hash eqv) {A B : List (Row K V)} {k0 k : K} {v0 : V}
    (h : Core hash eqv (A ++ .active k0 v0 :: B)) (hk : eqv k0 k = true) :
    (∀ e ∈ entries A, eqv e.1 k = false) ∧ (∀ e ∈ entries B, eqv e.1 k = false) := by
  have mid : (A ++ .active k0 v0 :: B)[A.length]? = some (.active k0 v0) := by simp
  constructor
  · intro e he
    by_contra hc
    obtain ⟨y, hy⟩ := mem_entries.mp he
    have hlt := (List.getElem?_eq_some_iff.mp hy).1
    have hy' : (A ++ .active k0 v0 :: B)[y]? = some (.active e.1 e.2) := by
      rw [List.getElem?_append_left hlt]; exact hy
    have := h.distinct _ _ _ _ _ _ hy' mid (kc.trans _ _ _ (by simpa using hc) (kc.symm _ _ hk))
    omega
  · intro e he
    by_contra hc
    obtain ⟨y, hy⟩ := mem_entries.mp he
    have hy' : (A ++ .active k0 v0 :: B)[A.length + 1 + y]? = some (.active e.1 e.2) := by
      rw [List.getElem?_append_right (by omega)]
      rw [show A.length + 1 + y - A.length = y + 1 by omega, List.getElem?_cons_succ]; exact hy
    have := h.distinct _ _ _ _ _ _ hy' mid (kc.trans _ _ _ (by simpa using hc) (kc.symm _ _ hk))
    omega

theorem Core.pairwise {rows : List (Row K V)} (h : Core hash eqv rows) :
    (entries rows).Pairwise (fun a b => eqv a.1 b.1 = false) := by
  unfold entries
  rw [List.pairwise_filterMap, List.pairwise_iff_getElem]
  intro i j hi hj hij b hb b' hb'
  by_contra hc
  have h1 : rows[i]? = some (.active b.1 b.2) := by
    rw [List.getElem?_eq_getElem hi]; generalize rows[i] = r at *; cases r <;> simp at hb; subst hb; rfl
  have h2 : rows[j]? = some (.active b'.1 b'.2) := by
    rw [List.getElem?_eq_getElem hj]; generalize rows[j] = r at *; cases r <;> simp at hb'; subst hb'; rfl
  have := h.distinct _ _ _ _ _ _ h1 h2 (by simpa using hc)
  omega

theorem Core.empty (n : Nat) : Core hash eqv (List.replicate n (.empty : Row K V)) := by
  constructor
  · intro x y k v k' v' h
    rw [List.getElem?_replicate] at h; split at h <;> simp at h
  · intro x k v h
    rw [List.getElem?_replicate] at h; split at h <;> simp at h

/-- Replacing a row by a non-empty one keeps every probe path. -/
theorem nonempty_set {rows : List (Row K V)} {x y : Nat} {r : Row K V} (hr : r ≠ .empty)
    (h : ∃ r', rows[y]? = some r' ∧ r' ≠ .empty) : ∃ r', (rows.set x r)[y]? = some r' ∧ r' ≠ .empty := by
  obtain ⟨r', h1, h2⟩ := h
  by_cases hxy : x = y
  · subst hxy
    exact ⟨r, by rw [List.getElem?_set_self (List.getElem?_eq_some_iff.mp h1).1], hr⟩
  · exact ⟨r', by rw [List.getElem?_set_ne hxy]; exact h1, h2⟩

/-! ### What `Find` means -/

theorem Pass.nonempty {rows : List (Row K V)} {key : K} {x : Nat} (h : Pass eqv rows key x) :
    ∃ r, rows[x]? = some r ∧ r ≠ .empty := by
  rcases h with h | ⟨k, v, h, _⟩
  · exact ⟨_, h, by simp⟩
  · exact ⟨_, h, by simp⟩

theorem FindRes.absent (kc : KeyClass hash eqv) {rows : List (Row K V)} {key : K} {x : Nat} {s : Status}
    (hc : Core hash eqv rows) (h : FindRes eqv rows key (hash key) 0 none x s) (hs : s ≠ .active) :
    ∀ e ∈ entries rows, eqv e.1 key = false := by
  obtain ⟨j, _, hb, hm⟩ := h
  have hempty : rows[probe rows.length (hash key) j]? = some .empty := by
    cases s with
    | active => exact absurd rfl hs
    | empty => obtain ⟨h1, h2, _⟩ := hm; rw [← h1]; exact h2
    | deleted => exact hm.1
  intro e he
  by_contra hne
  obtain ⟨y, hy⟩ := mem_entries.mp he
  obtain ⟨j', h1, h2⟩ := hc.reach y _ _ hy
  rw [kc.hash_eq _ _ (by simpa using hne)] at h1 h2
  rcases Nat.lt_trichotomy j' j with hlt | heq | hgt
  · rcases hb j' (Nat.zero_le _) hlt with h3 | ⟨k, v, h3, h4⟩
    · rw [h1, hy] at h3; cases h3
    · rw [h1, hy] at h3; cases h3; exact hne h4
  · subst heq; rw [h1, hy] at hempty; cases hempty
  · obtain ⟨r, h3, h4⟩ := h2 j hgt
    rw [hempty] at h3; cases h3; exact h4 rfl

theorem FindRes.active {rows : List (Row K V)} {key : K} {x : Nat} {h : Nat}
    (hf : FindRes eqv rows key h 0 none x .active) : ∃ k v, rows[x]? = some (.active k v) ∧ eqv k key = true := by
  obtain ⟨j, _, _, hm⟩ := hf; exact hm.2

/-- A row that `Find` offers for insertion. -/
theorem FindRes.free {rows : List (Row K V)} {key : K} {x : Nat} {s : Status} {h : Nat}
    (hf : FindRes eqv rows key h 0 none x s) (hs : s ≠ .active) :
    (∃ j, probe rows.length h j = x ∧ ∀ i < j, ∃ r, rows[probe rows.length h i]? = some r ∧ r ≠ .empty) ∧
    ((s = .empty ∧ rows[x]? = some .empty) ∨ (s = .deleted ∧ rows[x]? = some .deleted)) := by
  obtain ⟨j, _, hb, hm⟩ := hf
  cases s with
  | active => exact absurd rfl hs
  | empty =>
    obtain ⟨h1, h2, _⟩ := hm
    exact ⟨⟨j, h1.symm, fun i hi => (hb i (Nat.zero_le _) hi).nonempty⟩, Or.inl ⟨rfl, h2⟩⟩
  | deleted =>
    obtain ⟨h1, h2 | ⟨_, k, _, h3, h4, h5⟩⟩ := hm
    · cases h2
    · exact ⟨⟨k, h4.symm, fun i hi => (hb i (Nat.zero_le _) (by omega)).nonempty⟩, Or.inr ⟨rfl, h5⟩⟩

theorem sizes_facts {n m : Nat} (h : (n, m) ∈ sizes) : m = n / 2 ∧ n % 2 = 1 ∧ 11 ≤ n := by
  have : ∀ s ∈ sizes, s.2 = s.1 / 2 ∧ s.1 % 2 = 1 ∧ 11 ≤ s.1 := by decide
  exact this _ h

/-- `Find` on a table of a legal size with fewer than `maxActive` occupied rows: it succeeds, unless the table
    has 25 rows of which 11 are occupied. -/
theorem find_cases (rows : List (Row K V)) (key : K) {m : Nat} (hs : (rows.length, m) ∈ sizes)
    (ho : occ rows < m) :
    match find hash eqv rows key with
    | .ok (x, s) => FindRes eqv rows key (hash key) 0 none x s
    | .error e => e = .outOfTable ∧ rows.length = 25 ∧ occ rows = 11 := by
  have h0 := findLoop_spec (eqv := eqv) rows key (hash key) (rows.length + 2) 0 none
  obtain ⟨hm, hodd, hn⟩ := sizes_facts hs
  have crowd : (∀ i, 2 * i ≤ rows.length + 1 → Pass eqv rows key (probe rows.length (hash key) i)) →
      rows.length = 25 ∧ occ rows = 11 := by
    intro hall
    have use : ∀ l, Spread rows.length (hash key) l → l.length ≤ occ rows := by
      intro l hl
      have := length_le_occ rows (l.map (probe rows.length (hash key))) hl.1 (by
        intro x hx
        obtain ⟨i, hi, rfl⟩ := List.mem_map.mp hx
        exact (hall i (hl.2 i hi)).nonempty)
      simpa using this
    by_cases h25 : rows.length = 25
    · have := use [0, 1, 2, 3, 4, 6, 7, 8, 9, 11, 12] (by rw [h25]; exact spread_25 _)
      simp at this
      omega
    · have := use _ (spread_prime (Primes.sizes_prime hs h25) (by omega))
      simp at this
      omega
  unfold find
  rw [show hash key % rows.length = probe rows.length (hash key) 0 from rfl]
  generalize findLoop eqv rows key (rows.length + 2) 0 (probe rows.length (hash key) 0) none = res at h0
  match res, h0 with
  | .ok (x, s), h0 => exact h0
  | .error e, h0 =>
    rcases h0 with ⟨rfl, j, _, h1, h2⟩ | ⟨rfl, h1⟩
    · refine ⟨rfl, crowd (fun i hi => h2 i (Nat.zero_le _) ?_)⟩
      by_contra hc
      have : probe rows.length (hash key) j < rows.length := probe_lt (by omega) (by omega)
      rw [List.getElem?_eq_getElem this] at h1; cases h1
    · exfalso
      obtain ⟨r, h2, _⟩ := (h1 (rows.length + 1) (Nat.zero_le _) (by omega)).nonempty
      have := (List.getElem?_eq_some_iff.mp h2).1
      rw [probe, next] at this
      split at this <;> omega

/-! ### Effect of setting a row -/

theorem set_new (kc : KeyClass hash eqv) {rows : List (Row K V)} {key : K} {v : V} {x : Nat} {s : Status}
    (hc : Core hash eqv rows) (hf : FindRes eqv rows key (hash key) 0 none x s) (hs : s ≠ .active) :
    Core hash eqv (rows.set x (.active key v)) ∧ (entries (rows.set x (.active key v))).Perm ((key, v) :: entries rows) ∧
    act (rows.set x (.active key v)) = act rows + 1 ∧
    del rows = del (rows.set x (.active key v)) + (if s = .deleted then 1 else 0) := by
  have habs := hf.absent kc hc hs
  obtain ⟨⟨j, hj1, hj2⟩, hrow⟩ := hf.free hs
  obtain ⟨r, hr, hrr⟩ : ∃ r, rows[x]? = some r ∧ ((s = .empty ∧ r = .empty) ∨ (s = .deleted ∧ r = .deleted)) := by
    rcases hrow with ⟨a, b⟩ | ⟨a, b⟩
    · exact ⟨_, b, Or.inl ⟨a, rfl⟩⟩
    · exact ⟨_, b, Or.inr ⟨a, rfl⟩⟩
  have hxlt := (List.getElem?_eq_some_iff.mp hr).1
  have look : ∀ (y : Nat) k v', (rows.set x (.active key v))[y]? = some (.active k v') →
      (y = x ∧ k = key ∧ v' = v) ∨ (y ≠ x ∧ rows[y]? = some (.active k v')) := by
    intro y k v' h
    by_cases hy : y = x
    · subst hy; rw [List.getElem?_set_self hxlt] at h; cases h; exact Or.inl ⟨rfl, rfl, rfl⟩
    · rw [List.getElem?_set_ne (Ne.symm hy)] at h; exact Or.inr ⟨hy, h⟩
  refine ⟨⟨?_, ?_⟩, ?_⟩
  · intro y z k w k' w' h1 h2 he
    rcases look _ _ _ h1 with ⟨rfl, rfl, rfl⟩ | ⟨hy, h1'⟩ <;> rcases look _ _ _ h2 with ⟨rfl, rfl, rfl⟩ | ⟨hz, h2'⟩
    · rfl
    · have := habs (k', w') (mem_entries.mpr ⟨z, h2'⟩)
      rw [kc.symm _ _ he] at this; cases this
    · have := habs (k, w) (mem_entries.mpr ⟨y, h1'⟩)
      rw [he] at this; cases this
    · exact hc.distinct _ _ _ _ _ _ h1' h2' he
  · intro y k w h1
    rw [List.length_set]
    rcases look _ _ _ h1 with ⟨rfl, rfl, rfl⟩ | ⟨hy, h1'⟩
    · exact ⟨j, hj1, fun i hi => nonempty_set (by simp) (hj2 i hi)⟩
    · obtain ⟨j', h3, h4⟩ := hc.reach _ _ _ h1'
      exact ⟨j', h3, fun i hi => nonempty_set (by simp) (h4 i hi)⟩
  · obtain ⟨A, B, rfl, rfl⟩ := split_at hr
    rw [set_at]
    simp only [entries_append, entries_cons_active, act, del, List.countP_append, List.countP_cons]
    rcases hrr with ⟨rfl, rfl⟩ | ⟨rfl, rfl⟩
    · simp only [entries_cons_empty, isActive, isDeleted]
      refine ⟨List.perm_middle, by simp; omega, by simp⟩
    · simp only [entries_cons_deleted, isActive, isDeleted]
      refine ⟨List.perm_middle, by simp; omega, by simp; omega⟩

theorem set_upd (kc : KeyClass hash eqv) {rows : List (Row K V)} {key : K} {v : V} {x : Nat} {k0 : K} {v0 : V}
    (hc : Core hash eqv rows) (hx : rows[x]? = some (.active k0 v0)) (hk : eqv k0 key = true) :
    Core hash eqv (rows.set x (.active k0 v)) ∧
    entries (rows.set x (.active k0 v)) = (entries rows).map (fun e => if eqv e.1 key then (e.1, v) else e) ∧
    act (rows.set x (.active k0 v)) = act rows ∧ del (rows.set x (.active k0 v)) = del rows := by
  have hxlt := (List.getElem?_eq_some_iff.mp hx).1
  have look : ∀ (y : Nat) k v', (rows.set x (.active k0 v))[y]? = some (.active k v') →
      ∃ w, rows[y]? = some (.active k w) := by
    intro y k v' h
    by_cases hy : y = x
    · subst hy; rw [List.getElem?_set_self hxlt] at h; cases h; exact ⟨_, hx⟩
    · rw [List.getElem?_set_ne (Ne.symm hy)] at h; exact ⟨_, h⟩
  refine ⟨⟨?_, ?_⟩, ?_⟩
  · intro y z k w k' w' h1 h2 he
    obtain ⟨_, h1'⟩ := look _ _ _ h1
    obtain ⟨_, h2'⟩ := look _ _ _ h2
    exact hc.distinct _ _ _ _ _ _ h1' h2' he
  · intro y k w h1
    rw [List.length_set]
    obtain ⟨_, h1'⟩ := look _ _ _ h1
    obtain ⟨j', h3, h4⟩ := hc.reach _ _ _ h1'
    exact ⟨j', h3, fun i hi => nonempty_set (by simp) (h4 i hi)⟩
  · obtain ⟨A, B, rfl, rfl⟩ := split_at hx
    obtain ⟨hA, hB⟩ := hc.uniq kc hk
    rw [set_at]
    simp only [entries_append, entries_cons_active, act, del, List.countP_append, List.countP_cons, isActive, isDeleted,
      List.map_append, List.map_cons, hk, if_true]
    have fix : ∀ L : List (K × V), (∀ e ∈ L, eqv e.1 key = false) →
        L.map (fun e => if eqv e.1 key then (e.1, v) else e) = L := by
      intro L hL
      conv => rhs; rw [← List.map_id L]
      refine List.map_congr_left (fun e he => ?_)
      rw [hL e he]; rfl
    rw [fix _ hA, fix _ hB]
    simp

theorem set_del (kc : KeyClass hash eqv) {rows : List (Row K V)} {key : K} {x : Nat} {k0 : K} {v0 : V}
    (hc : Core hash eqv rows) (hx : rows[x]? = some (.active k0 v0)) (hk : eqv k0 key = true) :
    Core hash eqv (rows.set x .deleted) ∧
    entries (rows.set x .deleted) = (entries rows).filter (fun e => !eqv e.1 key) ∧
    act rows = act (rows.set x .deleted) + 1 ∧ del (rows.set x .deleted) = del rows + 1 := by
  have hxlt := (List.getElem?_eq_some_iff.mp hx).1
  have look : ∀ (y : Nat) k v', (rows.set x .deleted)[y]? = some (.active k v') → rows[y]? = some (.active k v') := by
    intro y k v' h
    by_cases hy : y = x
    · subst hy; rw [List.getElem?_set_self hxlt] at h; cases h
    · rw [List.getElem?_set_ne (Ne.symm hy)] at h; exact h
  refine ⟨⟨?_, ?_⟩, ?_⟩
  · intro y z k w k' w' h1 h2 he
    exact hc.distinct _ _ _ _ _ _ (look _ _ _ h1) (look _ _ _ h2) he
  · intro y k w h1
    rw [List.length_set]
    obtain ⟨j', h3, h4⟩ := hc.reach _ _ _ (look _ _ _ h1)
    exact ⟨j', h3, fun i hi => nonempty_set (by simp) (h4 i hi)⟩
  · obtain ⟨A, B, rfl, rfl⟩ := split_at hx
    obtain ⟨hA, hB⟩ := hc.uniq kc hk
    rw [set_at]
    simp only [entries_append, entries_cons_active, entries_cons_deleted, act, del, List.countP_append,
      List.countP_cons, isActive, isDeleted, List.filter_append, List.filter_cons, hk]
    have fix : ∀ L : List (K × V), (∀ e ∈ L, eqv e.1 key = false) → L.filter (fun e => !eqv e.1 key) = L := by
      intro L hL
      rw [List.filter_eq_self]
      intro e he; rw [hL e he]; rfl
    rw [fix _ hA, fix _ hB]
    simp; omega

/-! ### The invariant -/

/-- A table that has rows, with honest counters; `m` is its `maxActive`. -/
structure Good (hash : K → Nat) (eqv : K → K → Bool) (t : Table K V) (m : Nat) : Prop where
  size : (t.rows.length, m) ∈ sizes
  max : t.maxActive = m
  active : t.activeCount = act t.rows
  deleted : t.deletedCount = del t.rows
  core : Core hash eqv t.rows

/-- The invariant between calls. -/
def Inv (hash : K → Nat) (eqv : K → K → Bool) (t : Table K V) : Prop :=
  t = init ∨ ∃ m, Good hash eqv t m ∧ occ t.rows < m

/-- `insertAt` on a good table with room: what it does before calling ResizeAndRehash. -/
theorem insertAt_cases (kc : KeyClass hash eqv) (rz : Table K V → Except Fail (Table K V)) {t : Table K V} {m : Nat}
    (g : Good hash eqv t m) (ho : occ t.rows < m) (key : K) (v : V) (p : Policy) :
    (insertAt hash eqv rz t key v p = .error .outOfTable ∧ t.rows.length = 25 ∧ occ t.rows = 11) ∨
    (has eqv (entries t.rows) key = true ∧ ∃ t', insertAt hash eqv rz t key v p = .ok (t', p != .ifNotFound) ∧
      Good hash eqv t' m ∧ occ t'.rows < m ∧ entries t'.rows = (specInsert eqv (entries t.rows) key v p).1 ∧
      occ t'.rows = occ t.rows ∧ t'.rows.length = t.rows.length) ∨
    (has eqv (entries t.rows) key = false ∧ p = .ifFound ∧ insertAt hash eqv rz t key v p = .ok (t, false)) ∨
    (has eqv (entries t.rows) key = false ∧ p ≠ .ifFound ∧
      ∃ t', insertAt hash eqv rz t key v p = (rz t').map (fun t => (t, true)) ∧ Good hash eqv t' m ∧
        t'.rows.length = t.rows.length ∧ occ t'.rows ≤ occ t.rows + 1 ∧ del t'.rows ≤ del t.rows ∧
        (entries t'.rows).Perm ((key, v) :: entries t.rows)) := by
  have hc := find_cases (hash := hash) (eqv := eqv) t.rows key g.size ho
  unfold insertAt
  generalize find hash eqv t.rows key = res at hc
  match res, hc with
  | .error e, hc => left; obtain ⟨rfl, h⟩ := hc; exact ⟨rfl, h⟩
  | .ok (x, s), hc =>
    right
    by_cases hs : s = .active
    · subst hs
      obtain ⟨k0, v0, h1, h2⟩ := hc.active
      left
      have hhas : has eqv (entries t.rows) key = true := by
        simp only [has, List.any_eq_true]
        exact ⟨(k0, v0), mem_entries.mpr ⟨x, h1⟩, h2⟩
      refine ⟨hhas, ?_⟩
      simp only [Except.bind, h1, rowUpdate, specInsert, hhas, if_true]
      obtain ⟨u1, u2, u3, u4⟩ := set_upd (v := v) kc g.core h1 h2
      by_cases hp : p = .ifNotFound
      · subst hp
        exact ⟨t, rfl, g, ho, rfl, rfl, rfl⟩
      · refine ⟨{ t with rows := t.rows.set x (.active k0 v) }, ?_, ⟨?_, g.max, ?_, ?_, u1⟩, ?_, ?_, ?_, by simp⟩
        · rw [if_neg hp]; simp [hp]
        · simpa using g.size
        · rw [g.active]; simp [u3]
        · rw [g.deleted]; simp [u4]
        · rw [occ_eq] at ho ⊢; simp only [u3, u4]; exact ho
        · rw [if_neg hp]; exact u2
        · simp only [occ_eq, u3, u4]
    · right
      have hhas : has eqv (entries t.rows) key = false := by
        rw [Bool.eq_false_iff]; intro hh
        simp only [has, List.any_eq_true] at hh
        obtain ⟨e, he1, he2⟩ := hh
        rw [hc.absent kc g.core hs e he1] at he2; cases he2
      by_cases hp : p = .ifFound
      · left; refine ⟨hhas, hp, ?_⟩
        subst hp
        cases s <;> first | exact absurd rfl hs | rfl
      · right; refine ⟨hhas, hp, ?_⟩
        obtain ⟨u1, u2, u3, u4⟩ := set_new (v := v) kc g.core hc hs
        have hru : rowUpdate t.rows[x]? key v = .active key v := by
          rcases (hc.free hs).2 with ⟨_, h⟩ | ⟨_, h⟩ <;> rw [h] <;> rfl
        refine ⟨{ t with rows := t.rows.set x (.active key v), activeCount := t.activeCount + 1,
                         deletedCount := if s = .deleted then t.deletedCount - 1 else t.deletedCount },
          ?_, ⟨?_, g.max, ?_, ?_, u1⟩, by simp, ?_, ?_, u2⟩
        · simp only [Except.bind, hru]
          cases s <;> first | exact absurd rfl hs | simp only [if_neg hp]
        · simpa using g.size
        · simp only [u3, g.active]; omega
        · simp only [g.deleted]; split at u4 <;> rename_i hd <;> simp [hd] <;> omega
        · simp only [occ_eq]; omega
        · simp only; omega

/-- Reinserting the old entries into fresh rows. -/
theorem rehash_ok (kc : KeyClass hash eqv) (d : Nat) {m : Nat} : ∀ (L : List (K × V)) (t : Table K V),
    Good hash eqv t m → del t.rows = 0 → act t.rows + L.length < m →
    (t.rows.length = 25 → act t.rows + L.length ≤ 11) →
    L.Pairwise (fun a b => eqv a.1 b.1 = false) →
    (∀ e ∈ L, ∀ e' ∈ entries t.rows, eqv e'.1 e.1 = false) →
    ∃ t', L.foldlM (fun t e => (insertWith hash eqv (resize hash eqv d) t e.1 e.2 .always).map (·.1)) t = .ok t' ∧
      Good hash eqv t' m ∧ occ t'.rows < m ∧ (entries t'.rows).Perm (L ++ entries t.rows) ∧ del t'.rows = 0 ∧
      t'.rows.length = t.rows.length
  | [], t, g, hd, hlt, _, _, _ => by
    refine ⟨t, rfl, g, ?_, List.Perm.refl _, hd, rfl⟩
    rw [occ_eq]; simp at hlt; omega
  | e :: L, t, g, hd, hlt, h25, hpw, hne => by
    simp only [List.length_cons] at hlt h25
    have hrows : t.rows.isEmpty = false := by
      have := (sizes_facts g.size).2.2
      cases hr : t.rows with
      | nil => rw [hr] at this; simp at this
      | cons => rfl
    have hnot : has eqv (entries t.rows) e.1 = false := by
      rw [Bool.eq_false_iff]; intro hh
      simp only [has, List.any_eq_true] at hh
      obtain ⟨e', he1, he2⟩ := hh
      rw [hne e (by simp) e' he1] at he2; cases he2
    have hocc : occ t.rows = act t.rows := by rw [occ_eq]; omega
    rw [List.foldlM_cons]
    rcases insertAt_cases kc (resize hash eqv d) g (by omega) e.1 e.2 .always with h | h | h | h
    · have := h25 h.2.1; omega
    · rw [hnot] at h; cases h.1
    · cases h.2.1
    · obtain ⟨_, _, t', h1, g', h2, h3, h4, h5⟩ := h
      have hact : act t'.rows = act t.rows + 1 := by
        rw [← length_entries, h5.length_eq, ← length_entries]; rfl
      have hfit : fits t' = true := by
        simp only [fits, g'.active, g'.deleted, g'.max, Bool.and_eq_true, decide_eq_true_eq]
        omega
      have hrz : resize hash eqv d t' = .ok t' := by
        cases d <;> simp [resize, hfit]
      rw [hrz] at h1
      simp only [insertWith, hrows, h1]
      obtain ⟨t'', i1, i2, i3, i4, i5, i6⟩ := rehash_ok kc d L t' g' (by omega) (by omega)
        (by rw [h2]; intro h; have := h25 h; omega) (List.pairwise_cons.mp hpw).2 (by
          intro e2 he2 e' he'
          rcases List.mem_cons.mp (h5.mem_iff.mp he') with rfl | he'
          · exact (List.pairwise_cons.mp hpw).1 e2 he2
          · exact hne e2 (by simp [he2]) e' he')
      refine ⟨t'', i1, i2, i3, i4.trans ?_, i5, i6.trans h2⟩
      refine (List.Perm.append_left L h5).trans ?_
      simp only [List.cons_append]
      exact List.perm_middle

theorem nextSize_some {n : Nat} {s : Nat × Nat} (h : nextSize n = some s) : s ∈ sizes ∧ n < s.1 := by
  refine ⟨List.mem_of_find?_eq_some h, ?_⟩
  have := List.find?_some h; simpa using this

/-- Only the largest table has no next size. -/
theorem nextSize_none {n : Nat} (h : nextSize n = none) : 1675364863 ≤ n := by
  unfold nextSize at h
  rw [List.find?_eq_none] at h
  have := h (1675364863, 837682431) (by decide)
  simpa using this

theorem act_fresh (n : Nat) : act (List.replicate n (.empty : Row K V)) = 0 := by
  unfold act; rw [List.countP_replicate]; rfl
theorem del_fresh (n : Nat) : del (List.replicate n (.empty : Row K V)) = 0 := by
  unfold del; rw [List.countP_replicate]; rfl
theorem occ_fresh (n : Nat) : occ (List.replicate n (.empty : Row K V)) = 0 := by
  rw [occ_eq, act_fresh, del_fresh]

theorem fresh_good {n m : Nat} (h : (n, m) ∈ sizes) :
    Good hash eqv (⟨List.replicate n .empty, 0, 0, m⟩ : Table K V) m := by
  refine ⟨by simpa using h, rfl, ?_, ?_, Core.empty n⟩
  · simp only [act_fresh]; rfl
  · simp only [del_fresh]; rfl

theorem entries_fresh (n : Nat) : entries (List.replicate n (.empty : Row K V)) = [] := by
  induction n with
  | zero => rfl
  | succ n ih => rw [List.replicate_succ, entries_cons_empty, ih]

/-- ResizeAndRehash after an insertion. -/
theorem resize_ok (kc : KeyClass hash eqv) (d : Nat) {t : Table K V} {m : Nat} (g : Good hash eqv t m)
    (ho : occ t.rows ≤ m) :
    (resize hash eqv (d + 1) t = .error .tooBig ∧ 1675364863 ≤ t.rows.length) ∨
    ∃ t' m', resize hash eqv (d + 1) t = .ok t' ∧ Good hash eqv t' m' ∧ occ t'.rows < m' ∧
      (entries t'.rows).Perm (entries t.rows) ∧ occ t'.rows ≤ occ t.rows ∧
      (t'.rows.length = t.rows.length ∨ (occ t.rows = m ∧ nextSize t.rows.length = some (t'.rows.length, m'))) := by
  unfold resize
  obtain ⟨hm, hodd, hn⟩ := sizes_facts g.size
  have hoe := occ_eq t.rows
  by_cases hfit : fits t = true
  · rw [if_pos hfit]
    right; refine ⟨t, m, rfl, g, ?_, List.Perm.refl _, Nat.le_refl _, Or.inl rfl⟩
    simp only [fits, g.active, g.deleted, g.max, Bool.and_eq_true, decide_eq_true_eq] at hfit
    omega
  · rw [if_neg hfit]
    have hfull : occ t.rows = m := by
      simp only [fits, g.active, g.deleted, g.max, Bool.and_eq_true, decide_eq_true_eq] at hfit
      omega
    unfold newSize
    have go : ∀ n' m', (n', m') ∈ sizes → act t.rows < m' → (n' = 25 → act t.rows ≤ 11) →
        ∃ t', (entries t.rows).foldlM
          (fun t e => (insertWith hash eqv (resize hash eqv d) t e.1 e.2 .always).map (·.1))
          ⟨List.replicate n' .empty, 0, 0, (m' : Int)⟩ = .ok t' ∧ Good hash eqv t' m' ∧ occ t'.rows < m' ∧
        (entries t'.rows).Perm (entries t.rows) ∧ occ t'.rows ≤ occ t.rows ∧ t'.rows.length = n' := by
      intro n' m' hs' hlt h25
      obtain ⟨t', h1, h2, h3, h4, h5, h6⟩ := rehash_ok kc d (entries t.rows) _ (fresh_good (hash := hash) (eqv := eqv) hs')
        (del_fresh _) (by rw [length_entries]; simp only [act_fresh]; omega)
        (by rw [length_entries]; simp only [act_fresh, List.length_replicate]; intro h; have := h25 h; omega) g.core.pairwise
        (by intro e he e' he'; simp only [entries_fresh] at he'; cases he')
      simp only [entries_fresh, List.append_nil] at h4
      refine ⟨t', h1, h2, h3, h4, ?_, by simpa using h6⟩
      have := h4.length_eq
      rw [length_entries, length_entries] at this
      rw [occ_eq t'.rows]; omega
    by_cases hg : t.rows.length = 0 ∨ t.activeCount > t.deletedCount
    · rw [if_pos hg]
      cases hns : nextSize t.rows.length with
      | none => left; exact ⟨rfl, nextSize_none hns⟩
      | some s =>
        right
        obtain ⟨hs1, hs2⟩ := nextSize_some hns
        obtain ⟨f1, f2, f3⟩ := sizes_facts (n := s.1) (m := s.2) hs1
        obtain ⟨t', g1, g2, g3, g4, g5, g6⟩ := go s.1 s.2 hs1 (by omega) (fun h => by
          rw [h] at hs2
          have : t.rows.length ≤ 23 := by omega
          omega)
        exact ⟨t', s.2, g1, g2, g3, g4, g5, Or.inr ⟨hfull, by rw [g6]⟩⟩
    · rw [if_neg hg]
      right
      have hle : act t.rows ≤ del t.rows := by
        have : ¬ t.activeCount > t.deletedCount := fun h => hg (Or.inr h)
        rw [g.active, g.deleted] at this; omega
      rw [g.max]
      obtain ⟨t', g1, g2, g3, g4, g5, g6⟩ := go _ _ g.size (by omega) (fun h => by omega)
      exact ⟨t', m, g1, g2, g3, g4, g5, Or.inl g6⟩

theorem resize_init (d : Nat) : resize hash eqv (d + 1) (init : Table K V) =
    .ok ⟨List.replicate 11 .empty, 0, 0, 5⟩ := by
  simp only [resize, init, fits, newSize, nextSize, sizes]
  rfl

/-! ### Each call refines the map -/

theorem specGet_perm {m m' : List (K × V)} {k : K} (hp : m.Perm m')
    (hu : m.Pairwise (fun a b => eqv a.1 b.1 = false)) (kc : KeyClass hash eqv) :
    specGet eqv m k = specGet eqv m' k := by
  unfold specGet
  have key : ∀ e, m.find? (fun e => eqv e.1 k) = some e → m'.find? (fun e => eqv e.1 k) = some e := by
    intro e he
    cases h : m'.find? (fun e => eqv e.1 k) with
    | none =>
      rw [List.find?_eq_none] at h
      exact absurd (List.find?_some he) (h e (hp.mem_iff.mp (List.mem_of_find?_eq_some he)))
    | some e' =>
      by_contra hne
      have h1 := List.mem_of_find?_eq_some he
      have h2 := hp.mem_iff.mpr (List.mem_of_find?_eq_some h)
      have h3 := List.find?_some he
      have h4 := List.find?_some h
      have hee : e ≠ e' := fun hh => hne (by rw [hh])
      have hsym : ∀ {x y}, (fun a b : K × V => eqv a.1 b.1 = false) x y → (fun a b => eqv a.1 b.1 = false) y x := by
        intro x y hxy
        by_contra hc
        have := kc.symm _ _ (by simpa using hc)
        rw [show eqv x.1 y.1 = false from hxy] at this; cases this
      have : Std.Symm (fun a b : K × V => eqv a.1 b.1 = false) := ⟨fun _ _ h => hsym h⟩
      have := hu.forall h1 h2 hee
      have h5 := kc.trans _ _ _ h3 (kc.symm _ _ h4)
      rw [h5] at this; cases this
  cases h : m.find? (fun e => eqv e.1 k) with
  | some e => rw [key e h]
  | none =>
    have : m'.find? (fun e => eqv e.1 k) = none := by
      rw [List.find?_eq_none] at h ⊢
      intro e he; exact h e (hp.mem_iff.mpr he)
    rw [this]

theorem has_perm {m m' : List (K × V)} (k : K) (hp : m.Perm m') : has eqv m k = has eqv m' k := by
  unfold has; exact hp.any_eq

theorem specInsert_perm {m m' : List (K × V)} (k : K) (v : V) (p : Policy) (hp : m.Perm m') :
    (specInsert eqv m k v p).1.Perm (specInsert eqv m' k v p).1 ∧
    (specInsert eqv m k v p).2 = (specInsert eqv m' k v p).2 := by
  unfold specInsert
  rw [has_perm k hp]
  split
  · split
    · exact ⟨hp, rfl⟩
    · exact ⟨hp.map _, rfl⟩
  · split
    · exact ⟨hp, rfl⟩
    · exact ⟨hp.cons _, rfl⟩

/-- When a call fails, and why. -/
def BadState (t : Table K V) (e : Fail) : Prop :=
  (e = .outOfTable ∧ t.rows.length = 25 ∧ occ t.rows = 11) ∨ (e = .tooBig ∧ 1675364863 ≤ t.rows.length)

theorem insertAt_ok (kc : KeyClass hash eqv) {t : Table K V} {m : Nat} (g : Good hash eqv t m)
    (ho : occ t.rows < m) (k : K) (v : V) (p : Policy) :
    match insertAt hash eqv (resize hash eqv 2) t k v p with
    | .ok (t', b) => Inv hash eqv t' ∧ (entries t'.rows).Perm (specInsert eqv (entries t.rows) k v p).1 ∧
        b = (specInsert eqv (entries t.rows) k v p).2
    | .error e => BadState t e := by
  rcases insertAt_cases kc (resize hash eqv 2) g ho k v p with h | h | h | h
  · rw [h.1]; exact Or.inl ⟨rfl, h.2⟩
  · obtain ⟨h0, t', h1, g', h2, h3, _⟩ := h
    rw [h1]
    refine ⟨Or.inr ⟨m, g', h2⟩, by rw [h3], ?_⟩
    simp only [specInsert, h0, if_true]; cases p <;> rfl
  · obtain ⟨h0, rfl, h1⟩ := h
    rw [h1]
    simp only [specInsert, h0]
    exact ⟨Or.inr ⟨m, g, ho⟩, List.Perm.refl _, rfl⟩
  · obtain ⟨h0, hp, t', h1, g', h2, h3, h4, h5⟩ := h
    rw [h1]
    have e1 : specInsert eqv (entries t.rows) k v p = ((k, v) :: entries t.rows, true) := by
      simp only [specInsert, h0, if_neg hp]; rfl
    rw [e1]
    rcases resize_ok kc 1 g' (by omega) with ⟨r1, r2⟩ | ⟨t'', m'', r1, r2, r3, r4, _⟩
    · rw [r1]; exact Or.inr ⟨rfl, by rw [← h2]; exact r2⟩
    · rw [r1]
      exact ⟨Or.inr ⟨m'', r2, r3⟩, r4.trans h5, rfl⟩

theorem insert_ok (kc : KeyClass hash eqv) {t : Table K V} (hi : Inv hash eqv t) (k : K) (v : V) (p : Policy) :
    match insert hash eqv t k v p with
    | .ok (t', b) => Inv hash eqv t' ∧ (entries t'.rows).Perm (specInsert eqv (entries t.rows) k v p).1 ∧
        b = (specInsert eqv (entries t.rows) k v p).2
    | .error e => BadState t e := by
  rcases hi with rfl | ⟨m, g, ho⟩
  · unfold insert insertWith
    rw [if_pos (by rfl), resize_init]
    have g0 : Good hash eqv (⟨List.replicate 11 .empty, 0, 0, (5 : Nat)⟩ : Table K V) 5 := fresh_good (by decide)
    have h := insertAt_ok kc g0 (by simp only [occ_fresh]; omega) k v p
    simp only [Except.bind]
    rw [show ((5 : Nat) : Int) = 5 from rfl] at h
    generalize insertAt hash eqv (resize hash eqv 2) ⟨List.replicate 11 .empty, 0, 0, 5⟩ k v p = res at h
    match res, h with
    | .ok (t', b), h => simp only [entries_fresh] at h; exact h
    | .error e, h =>
      rcases h with ⟨_, h, _⟩ | ⟨_, h⟩ <;> simp at h
  · have h := insertAt_ok kc g ho k v p
    unfold insert insertWith
    rw [if_neg (by
      have := (sizes_facts g.size).2.2
      cases hr : t.rows with
      | nil => rw [hr] at this; simp at this
      | cons => simp)]
    exact h

/-- Rows and occupied rows after an insertion into a small table. -/
theorem insert_small (kc : KeyClass hash eqv) {t t' : Table K V} {n : Nat} (hi : Inv hash eqv t) (h25 : t.rows.length ≤ 25)
    (hn : occ t.rows ≤ n) (hn10 : n < 11) {k : K} {v : V} {p : Policy} {b : Bool}
    (h : insert hash eqv t k v p = .ok (t', b)) : t'.rows.length ≤ 25 ∧ occ t'.rows ≤ n + 1 := by
  have main : ∀ (t : Table K V) (m : Nat), Good hash eqv t m → occ t.rows < m → t.rows.length ≤ 25 → occ t.rows ≤ n →
      insertAt hash eqv (resize hash eqv 2) t k v p = .ok (t', b) → t'.rows.length ≤ 25 ∧ occ t'.rows ≤ n + 1 := by
    intro t m g ho h25 hn h
    rcases insertAt_cases kc (resize hash eqv 2) g ho k v p with hc | hc | hc | hc
    · rw [hc.1] at h; cases h
    · obtain ⟨_, t1, h1, _, _, _, h3, h4⟩ := hc
      rw [h1] at h; cases h; omega
    · rw [hc.2.2] at h; cases h; omega
    · obtain ⟨_, _, t1, h1, g', h2, h3, _, _⟩ := hc
      rw [h1] at h
      rcases resize_ok kc 1 g' (by omega) with ⟨r1, _⟩ | ⟨t2, m2, r1, r2, r3, r4, r5, r6⟩
      · rw [r1] at h; cases h
      · rw [r1] at h; cases h
        refine ⟨?_, by omega⟩
        rcases r6 with r6 | ⟨r6, r7⟩
        · omega
        · have hs := g'.size
          have hm : m ≤ 11 := by omega
          have : t1.rows.length = 11 ∨ t1.rows.length = 17 := by
            revert hs hm
            generalize t1.rows.length = a
            intro hs hm
            simp only [sizes, List.mem_cons, Prod.mk.injEq, List.not_mem_nil, or_false] at hs
            omega
          rcases this with e | e <;> rw [e] at r7 <;>
            simp only [nextSize, sizes, List.find?_cons] at r7 <;> simp at r7 <;> omega
  rcases hi with rfl | ⟨m, g, ho⟩
  · unfold insert insertWith at h
    rw [if_pos (by rfl), resize_init] at h
    have g0 : Good hash eqv (⟨List.replicate 11 .empty, 0, 0, (5 : Nat)⟩ : Table K V) 5 := fresh_good (by decide)
    exact main _ 5 g0 (by simp only [occ_fresh]; omega) (by simp) (by simp only [occ_fresh]; omega) h
  · unfold insert insertWith at h
    rw [if_neg (by
      have := (sizes_facts g.size).2.2
      cases hr : t.rows with
      | nil => rw [hr] at this; simp at this
      | cons => simp)] at h
    exact main t m g ho h25 hn h

theorem get_ok (kc : KeyClass hash eqv) {t : Table K V} (hi : Inv hash eqv t) (k : K) :
    match get hash eqv t k with
    | .ok r => r = specGet eqv (entries t.rows) k
    | .error e => BadState t e := by
  rcases hi with rfl | ⟨m, g, ho⟩
  · rfl
  · unfold get
    by_cases ha : t.activeCount > 0
    · rw [if_pos ha]
      have hc := find_cases (hash := hash) (eqv := eqv) t.rows k g.size ho
      generalize find hash eqv t.rows k = res at hc
      match res, hc with
      | .error e, hc => obtain ⟨rfl, h⟩ := hc; exact Or.inl ⟨rfl, h⟩
      | .ok (x, s), hc =>
        simp only [Except.map]
        by_cases hs : s = .active
        · subst hs
          obtain ⟨k0, v0, h1, h2⟩ := hc.active
          obtain ⟨A, B, hr, hx⟩ := split_at h1
          have hcore := g.core
          rw [hr] at hcore
          obtain ⟨hA, _⟩ := hcore.uniq kc h2
          simp only [if_true, objectAt, h1]
          rw [hr, entries_append, entries_cons_active, specGet, List.find?_append]
          have : (entries A).find? (fun e => eqv e.1 k) = none := by
            rw [List.find?_eq_none]; intro e he; rw [hA e he]; simp
          rw [this]
          simp [h2]
        · rw [if_neg hs]
          symm
          have := hc.absent kc g.core hs
          simp only [specGet, Option.map_eq_none_iff, List.find?_eq_none]
          intro e he; rw [this e he]; simp
    · rw [if_neg ha]
      have : entries t.rows = [] := by
        apply List.eq_nil_of_length_eq_zero
        rw [length_entries]; rw [g.active] at ha; omega
      rw [this]; rfl

theorem remove_ok (kc : KeyClass hash eqv) {t : Table K V} (hi : Inv hash eqv t) (k : K) :
    match remove hash eqv t k with
    | .ok t' => Inv hash eqv t' ∧ entries t'.rows = specRemove eqv (entries t.rows) k
    | .error e => BadState t e := by
  rcases hi with rfl | ⟨m, g, ho⟩
  · exact ⟨Or.inl rfl, rfl⟩
  · unfold remove
    by_cases ha : t.activeCount > 0
    · rw [if_pos ha]
      have hc := find_cases (hash := hash) (eqv := eqv) t.rows k g.size ho
      generalize find hash eqv t.rows k = res at hc
      match res, hc with
      | .error e, hc => obtain ⟨rfl, h⟩ := hc; exact Or.inl ⟨rfl, h⟩
      | .ok (x, s), hc =>
        simp only [Except.map]
        by_cases hs : s = .active
        · subst hs
          obtain ⟨k0, v0, h1, h2⟩ := hc.active
          obtain ⟨u1, u2, u3, u4⟩ := set_del kc g.core h1 h2
          rw [if_pos rfl]
          refine ⟨Or.inr ⟨m, ⟨by simpa using g.size, g.max, ?_, ?_, u1⟩, ?_⟩, u2⟩
          · simp only [g.active]; omega
          · simp only [g.deleted]; omega
          · simp only [occ_eq] at ho ⊢; omega
        · rw [if_neg hs]
          refine ⟨Or.inr ⟨m, g, ho⟩, ?_⟩
          have := hc.absent kc g.core hs
          symm
          simp only [specRemove, List.filter_eq_self]
          intro e he; rw [this e he]; rfl
    · rw [if_neg ha]
      have : entries t.rows = [] := by
        apply List.eq_nil_of_length_eq_zero
        rw [length_entries]; rw [g.active] at ha; omega
      exact ⟨Or.inr ⟨m, g, ho⟩, by rw [this]; rfl⟩

theorem removeAll_ok {t : Table K V} (hi : Inv hash eqv t) :
    Inv hash eqv (removeAll t) ∧ entries (removeAll t).rows = [] := by
  rcases hi with rfl | ⟨m, g, ho⟩
  · exact ⟨Or.inl rfl, rfl⟩
  · have e : t.rows.map (fun _ => (.empty : Row K V)) = List.replicate t.rows.length .empty := by
      exact List.map_const' ..
    unfold removeAll
    rw [e]
    refine ⟨Or.inr ⟨m, ⟨by simpa using g.size, g.max, ?_, ?_, Core.empty _⟩, ?_⟩, entries_fresh _⟩
    · simp only [act_fresh]; rfl
    · simp only [del_fresh]; rfl
    · have := sizes_facts g.size
      simp only [occ_fresh]; omega

theorem Inv.count {t : Table K V} (hi : Inv hash eqv t) : t.activeCount = (entries t.rows).length := by
  rcases hi with rfl | ⟨m, g, ho⟩
  · rfl
  · rw [g.active, length_entries]

theorem Inv.pairwise {t : Table K V} (hi : Inv hash eqv t) :
    (entries t.rows).Pairwise (fun a b => eqv a.1 b.1 = false) := by
  rcases hi with rfl | ⟨m, g, ho⟩
  · exact List.Pairwise.nil
  · exact g.core.pairwise

theorem step_ok (kc : KeyClass hash eqv) {t : Table K V} (hi : Inv hash eqv t) {m : List (K × V)}
    (hp : (entries t.rows).Perm m) (op : Op K V) :
    match step hash eqv t op with
    | .ok (t', o) => Inv hash eqv t' ∧ (entries t'.rows).Perm (specStep eqv m op).1 ∧ o = (specStep eqv m op).2
    | .error e => BadState t e := by
  cases op with
  | get k =>
    have h := get_ok kc hi k
    simp only [step, specStep]
    generalize get hash eqv t k = res at h
    match res, h with
    | .error e, h => exact h
    | .ok r, h => exact ⟨hi, hp, by rw [h, specGet_perm hp hi.pairwise kc]⟩
  | insert k v p =>
    have h := insert_ok kc hi k v p
    simp only [step, specStep]
    generalize insert hash eqv t k v p = res at h
    match res, h with
    | .error e, h => exact h
    | .ok (t', b), h =>
      obtain ⟨h1, h2⟩ := specInsert_perm (eqv := eqv) k v p hp
      exact ⟨h.1, h.2.1.trans h1, by simp only [h.2.2, h2]⟩
  | remove k =>
    have h := remove_ok kc hi k
    simp only [step, specStep]
    generalize remove hash eqv t k = res at h
    match res, h with
    | .error e, h => exact h
    | .ok t', h => exact ⟨h.1, by rw [h.2]; exact hp.filter _, rfl⟩
  | removeAll =>
    obtain ⟨h1, h2⟩ := removeAll_ok hi
    exact ⟨h1, by rw [h2]; exact List.Perm.refl _, rfl⟩
  | count => exact ⟨hi, hp, by simp only [specStep, hi.count, hp.length_eq]⟩

theorem run_ok (kc : KeyClass hash eqv) : ∀ (ops : List (Op K V)) (t : Table K V) (m : List (K × V)),
    Inv hash eqv t → (entries t.rows).Perm m →
    match run hash eqv t ops with
    | .ok (t', outs) => Inv hash eqv t' ∧ (entries t'.rows).Perm (specRun eqv m ops).1 ∧ outs = (specRun eqv m ops).2
    | .error e => ∃ pre op post t' outs, ops = pre ++ op :: post ∧ run hash eqv t pre = .ok (t', outs) ∧
        step hash eqv t' op = .error e ∧ BadState t' e
  | [], t, m, hi, hp => ⟨hi, hp, rfl⟩
  | op :: ops, t, m, hi, hp => by
    have h := step_ok kc hi hp op
    unfold run
    cases hs : step hash eqv t op with
    | error e =>
      rw [hs] at h
      exact ⟨[], op, ops, t, [], rfl, rfl, hs, h⟩
    | ok r =>
      obtain ⟨t1, o⟩ := r
      rw [hs] at h
      obtain ⟨h1, h2, h3⟩ := h
      have ih := run_ok kc ops t1 _ h1 h2
      simp only [Except.bind]
      cases hr : run hash eqv t1 ops with
      | error e =>
        rw [hr] at ih
        obtain ⟨pre, op', post, t', outs, e1, e2, e3, e4⟩ := ih
        refine ⟨op :: pre, op', post, t', o :: outs, by rw [e1]; rfl, ?_, e3, e4⟩
        simp only [hs, e2]; rfl
      | ok q =>
        rw [hr] at ih
        simp only [Except.map, specRun]
        exact ⟨ih.1, ih.2.1, by rw [h3, ih.2.2]⟩

theorem Except.map_ok {ε α β : Type} {x : Except ε α} {f : α → β} {b : β} (h : x.map f = .ok b) : ∃ a, x = .ok a ∧ f a = b := by
  cases x with
  | error e => cases h
  | ok a => exact ⟨a, rfl, by cases h; rfl⟩

/-! ### Histories too short to meet the failure -/

theorem remove_small {t t' : Table K V} {k : K} (h : remove hash eqv t k = .ok t') :
    t'.rows.length = t.rows.length ∧ (∀ n, occ t.rows ≤ n → Inv hash eqv t → KeyClass hash eqv → occ t'.rows ≤ n) := by
  refine ⟨?_, ?_⟩
  · unfold remove at h
    split at h
    · cases hf : find hash eqv t.rows k with
      | error e => rw [hf] at h; cases h
      | ok r =>
        rw [hf] at h
        simp only [Except.map] at h
        split at h <;> cases h
        · simp
        · rfl
    · cases h; rfl
  · intro n hn hi kc
    rcases hi with rfl | ⟨m, g, ho⟩
    · cases h; exact hn
    · unfold remove at h
      split at h
      · have hc := find_cases (hash := hash) (eqv := eqv) t.rows k g.size ho
        generalize find hash eqv t.rows k = res at hc h
        match res, hc with
        | .error e, hc => cases h
        | .ok (x, s), hc =>
          simp only [Except.map] at h
          split at h <;> cases h
          · rename_i hs
            cases hs
            obtain ⟨k0, v0, h1, h2⟩ := hc.active
            obtain ⟨u1, u2, u3, u4⟩ := set_del kc g.core h1 h2
            simp only [occ_eq] at hn ⊢; omega
          · exact hn
      · cases h; exact hn

theorem run_small (kc : KeyClass hash eqv) : ∀ (ops : List (Op K V)) (t : Table K V) (n : Nat),
    Inv hash eqv t → t.rows.length ≤ 25 → occ t.rows ≤ n → n + insertions ops ≤ 10 →
    ∃ t' outs, run hash eqv t ops = .ok (t', outs) ∧ Inv hash eqv t' ∧ t'.rows.length ≤ 25 ∧ occ t'.rows ≤ 10
  | [], t, n, hi, h25, hn, h => ⟨t, [], rfl, hi, h25, by omega⟩
  | op :: ops, t, n, hi, h25, hn, h => by
    have hbad : ∀ e, ¬ BadState t e := by
      rintro e (⟨_, _, h2⟩ | ⟨_, h2⟩)
      · have := h2 ▸ hn
        have : insertions (op :: ops) ≥ 0 := Nat.zero_le _
        omega
      · omega
    have hs := step_ok kc hi (List.Perm.refl _) op
    cases hst : step hash eqv t op with
    | error e => rw [hst] at hs; exact absurd hs (hbad e)
    | ok r =>
      obtain ⟨t1, o⟩ := r
      rw [hst] at hs
      have next : ∃ n', t1.rows.length ≤ 25 ∧ occ t1.rows ≤ n' ∧ n' + insertions ops ≤ 10 := by
        cases op with
        | get k => obtain ⟨_, _, h2⟩ := Except.map_ok hst; cases h2; exact ⟨n, h25, hn, by simpa [insertions] using h⟩
        | insert k v p =>
          have h' : n + (insertions ops + 1) ≤ 10 := by simpa [insertions] using h
          obtain ⟨⟨t2, b⟩, h1, h2⟩ := Except.map_ok hst
          cases h2
          obtain ⟨h3, h4⟩ := insert_small kc hi h25 hn (by omega) h1
          exact ⟨n + 1, h3, h4, by omega⟩
        | remove k =>
          obtain ⟨t2, h1, h2⟩ := Except.map_ok hst
          cases h2
          obtain ⟨h3, h4⟩ := remove_small h1
          exact ⟨n, by omega, h4 n hn hi kc, by simpa [insertions] using h⟩
        | removeAll =>
          cases hst
          refine ⟨n, by simpa [removeAll] using h25, ?_, by simpa [insertions] using h⟩
          have e : t.rows.map (fun _ => (.empty : Row K V)) = List.replicate t.rows.length .empty := List.map_const' ..
          simp only [removeAll, e, occ_fresh]; omega
        | count => cases hst; exact ⟨n, h25, hn, by simpa [insertions] using h⟩
      obtain ⟨n', a1, a2, a3⟩ := next
      obtain ⟨t', outs, b1, b2⟩ := run_small kc ops t1 n' hs.1 a1 a2 a3
      refine ⟨t', o :: outs, ?_, b2⟩
      simp only [run, hst, Except.bind, b1]; rfl

end HTable
end Duck
