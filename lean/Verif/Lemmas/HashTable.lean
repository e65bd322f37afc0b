import Mathlib.Data.Nat.ModEq
import Mathlib.Data.List.Nodup
import Mathlib.Data.List.Perm.Subperm
import Verif.Spec.HashTable
import Verif.Lemmas.Primes
/-! Probing, the table invariant and the refinement to a finite map. -/
namespace Duck
namespace HTable

/-! ### The probe sequence -/

def probe (n h : Nat) : Nat → Nat
  | 0 => h % n
  | i + 1 => next n i (probe n h i)

theorem probe_eq {n h : Nat} (hn : 0 < n) : ∀ i, 2 * i ≤ n + 1 → probe n h i = (h + i * i) % n
  | 0, _ => by simp [probe]
  | i + 1, hi => by
    have ih := probe_eq (h := h) hn i (by omega)
    have e : h + (i + 1) * (i + 1) = (h + i * i) + (2 * i + 1) := by
      simp only [Nat.add_mul, Nat.mul_add]; omega
    rw [probe, ih, e, Nat.add_mod (h + i * i)]
    have hx := Nat.mod_lt (h + i * i) hn
    generalize (h + i * i) % n = x at *
    unfold next
    by_cases hlt : 2 * i + 1 = n
    · rw [hlt, Nat.mod_self, Nat.add_zero x, Nat.mod_eq_of_lt (by omega : x < n)]; split <;> omega
    · rw [Nat.mod_eq_of_lt (show 2 * i + 1 < n by omega)]
      split
      · rw [Nat.mod_eq_sub_mod (by omega), Nat.mod_eq_of_lt (by omega)]; omega
      · rw [Nat.mod_eq_of_lt (by omega)]; omega

theorem probe_lt {n h i : Nat} (hn : 0 < n) (hi : 2 * i ≤ n + 1) : probe n h i < n := by
  rw [probe_eq hn i hi]; exact Nat.mod_lt _ hn

theorem probe_inj_prime {p h i j : Nat} (hp : p.Prime) (hi : 2 * i < p) (hj : 2 * j < p)
    (h2 : probe p h i = probe p h j) : i = j := by
  have h0 := hp.pos
  rw [probe_eq h0 i (by omega), probe_eq h0 j (by omega)] at h2
  have h3 : i * i ≡ j * j [MOD p] := Nat.ModEq.add_left_cancel' h h2
  rcases Nat.lt_trichotomy i j with hlt | heq | hgt
  · exfalso
    have hd : p ∣ j * j - i * i := (Nat.modEq_iff_dvd' (Nat.mul_le_mul hlt.le hlt.le)).mp h3
    rw [Nat.mul_self_sub_mul_self_eq, hp.dvd_mul] at hd
    rcases hd with hd | hd
    · exact absurd (Nat.le_of_dvd (by omega) hd) (by omega)
    · exact absurd (Nat.le_of_dvd (by omega) hd) (by omega)
  · exact heq
  · exfalso
    have hd : p ∣ i * i - j * j := (Nat.modEq_iff_dvd' (Nat.mul_le_mul hgt.le hgt.le)).mp h3.symm
    rw [Nat.mul_self_sub_mul_self_eq, hp.dvd_mul] at hd
    rcases hd with hd | hd
    · exact absurd (Nat.le_of_dvd (by omega) hd) (by omega)
    · exact absurd (Nat.le_of_dvd (by omega) hd) (by omega)

/-- A list of probe numbers hitting different rows. -/
def Spread (n h : Nat) (l : List Nat) : Prop := (l.map (probe n h)).Nodup ∧ ∀ i ∈ l, 2 * i ≤ n + 1

theorem spread_prime {p h : Nat} (hp : p.Prime) (_h2 : 2 < p) : Spread p h (List.range ((p + 1) / 2)) := by
  refine ⟨?_, fun i hi => by simp at hi; omega⟩
  refine List.Nodup.map_on (fun i hi j hj e => ?_) List.nodup_range
  have hodd := hp.eq_two_or_odd
  simp at hi hj
  exact probe_inj_prime hp (by omega) (by omega) e

theorem spread_25 (h : Nat) : Spread 25 h [0, 1, 2, 3, 4, 6, 7, 8, 9, 11, 12] := by
  refine ⟨?_, by decide⟩
  have e : ([0, 1, 2, 3, 4, 6, 7, 8, 9, 11, 12].map (probe 25 h)) =
      ([0, 1, 2, 3, 4, 6, 7, 8, 9, 11, 12].map (fun i => (h % 25 + i * i) % 25)) := by
    refine List.map_congr_left (fun i hi => ?_)
    rw [probe_eq (by decide) i (by simp at hi; omega)]
    omega
  rw [e]
  have key : ∀ x : Fin 25, ([0, 1, 2, 3, 4, 6, 7, 8, 9, 11, 12].map (fun i => (x.1 + i * i) % 25)).Nodup := by
    decide +kernel
  exact key ⟨h % 25, Nat.mod_lt _ (by decide)⟩

variable {K V : Type} {hash : K → Nat} {eqv : K → K → Bool}

/-! ### `findLoop` -/

/-- Row `x` is inside the table, not empty, and does not hold `key`. -/
def Pass (eqv : K → K → Bool) (rows : List (Row K V)) (key : K) (x : Nat) : Prop :=
  rows[x]? = some .deleted ∨ ∃ k v, rows[x]? = some (.active k v) ∧ eqv k key = false

/-- What a successful `Find` returns. -/
def FindRes (eqv : K → K → Bool) (rows : List (Row K V)) (key : K) (h i : Nat) (fd : Option Nat)
    (x : Nat) (s : Status) : Prop :=
  ∃ j, i ≤ j ∧ (∀ k, i ≤ k → k < j → Pass eqv rows key (probe rows.length h k)) ∧
    match s with
    | .active => x = probe rows.length h j ∧ ∃ k v, rows[x]? = some (.active k v) ∧ eqv k key = true
    | .empty => x = probe rows.length h j ∧ rows[x]? = some .empty ∧
        fd = none ∧ ∀ k, i ≤ k → k < j → rows[probe rows.length h k]? ≠ some .deleted
    | .deleted => rows[probe rows.length h j]? = some .empty ∧
        (fd = some x ∨ (fd = none ∧ ∃ k, i ≤ k ∧ k < j ∧ x = probe rows.length h k ∧ rows[x]? = some .deleted))

theorem FindRes.cons {rows : List (Row K V)} {key : K} {h i x : Nat} {fd fd' : Option Nat} {s : Status}
    (hp : Pass eqv rows key (probe rows.length h i))
    (hfd : (fd' = fd ∧ rows[probe rows.length h i]? ≠ some .deleted) ∨
      (rows[probe rows.length h i]? = some .deleted ∧ fd' = remember fd (probe rows.length h i)))
    (hr : FindRes eqv rows key h (i + 1) fd' x s) : FindRes eqv rows key h i fd x s := by
  obtain ⟨j, hj, hb, hm⟩ := hr
  refine ⟨j, by omega, fun k h1 h2 => ?_, ?_⟩
  · by_cases hk : k = i
    · subst hk; exact hp
    · exact hb k (by omega) h2
  · cases s with
    | active => exact hm
    | empty =>
      obtain ⟨h1, h2, h3, h4⟩ := hm
      rcases hfd with ⟨rfl, hne⟩ | ⟨_, rfl⟩
      · refine ⟨h1, h2, h3, fun k h5 h6 => ?_⟩
        by_cases hk : k = i
        · subst hk; exact hne
        · exact h4 k (by omega) h6
      · cases fd <;> simp [remember] at h3
    | deleted =>
      refine ⟨hm.1, ?_⟩
      have h2 := hm.2
      rcases hfd with ⟨rfl, hne⟩ | ⟨hdel, rfl⟩
      · rcases h2 with h2 | ⟨h2, k, h3, h4, h5⟩
        · exact Or.inl h2
        · exact Or.inr ⟨h2, k, by omega, h4, h5⟩
      · cases fd with
        | some d => rcases h2 with h2 | ⟨h2, _⟩
                    · exact Or.inl h2
                    · simp [remember] at h2
        | none =>
          rcases h2 with h2 | ⟨h2, _⟩
          · simp only [remember, Option.some.injEq] at h2
            subst h2
            exact Or.inr ⟨rfl, i, Nat.le_refl _, by omega, rfl, hdel⟩
          · simp [remember] at h2

theorem findLoop_spec (rows : List (Row K V)) (key : K) (h : Nat) :
    ∀ f i fd, match findLoop eqv rows key f i (probe rows.length h i) fd with
      | .ok (x, s) => FindRes eqv rows key h i fd x s
      | .error e =>
        (e = .outOfTable ∧ ∃ j, i ≤ j ∧ rows[probe rows.length h j]? = none ∧
          ∀ k, i ≤ k → k < j → Pass eqv rows key (probe rows.length h k)) ∨
        (e = .outOfFuel ∧ ∀ k, i ≤ k → k < i + f → Pass eqv rows key (probe rows.length h k))
  | 0, i, fd => by unfold findLoop; exact Or.inr ⟨rfl, fun k h1 h2 => by omega⟩
  | f + 1, i, fd => by
    have step : ∀ fd', Pass eqv rows key (probe rows.length h i) →
        ((fd' = fd ∧ rows[probe rows.length h i]? ≠ some .deleted) ∨
          (rows[probe rows.length h i]? = some .deleted ∧ fd' = remember fd (probe rows.length h i))) →
        match findLoop eqv rows key f (i + 1) (probe rows.length h (i + 1)) fd' with
      | .ok (x, s) => FindRes eqv rows key h i fd x s
      | .error e =>
        (e = .outOfTable ∧ ∃ j, i ≤ j ∧ rows[probe rows.length h j]? = none ∧
          ∀ k, i ≤ k → k < j → Pass eqv rows key (probe rows.length h k)) ∨
        (e = .outOfFuel ∧ ∀ k, i ≤ k → k < i + (f + 1) → Pass eqv rows key (probe rows.length h k)) := by
      intro fd' hp hfd
      have ih := findLoop_spec rows key h f (i + 1) fd'
      generalize findLoop eqv rows key f (i + 1) (probe rows.length h (i + 1)) fd' = res at ih
      match res, ih with
      | .ok (x, s), ih => exact FindRes.cons hp hfd ih
      | .error e, ih =>
        simp only at ih ⊢
        rcases ih with ⟨rfl, j, h1, h2, h3⟩ | ⟨rfl, h1⟩
        · left; refine ⟨rfl, j, by omega, h2, fun k h4 h5 => ?_⟩
          by_cases hk : k = i
          · subst hk; exact hp
          · exact h3 k (by omega) h5
        · right; refine ⟨rfl, fun k h4 h5 => ?_⟩
          by_cases hk : k = i
          · subst hk; exact hp
          · exact h1 k (by omega) (by omega)
    unfold findLoop
    cases hx : rows[probe rows.length h i]? with
    | none => exact Or.inl ⟨rfl, i, Nat.le_refl _, hx, fun k h1 h2 => by omega⟩
    | some r =>
      cases r with
      | empty =>
        cases fd with
        | some d => exact ⟨i, Nat.le_refl _, fun k h1 h2 => by omega, hx, Or.inl rfl⟩
        | none => exact ⟨i, Nat.le_refl _, fun k h1 h2 => by omega, rfl, hx, rfl, fun k h1 h2 => by omega⟩
      | deleted => exact step _ (Or.inl hx) (Or.inr ⟨hx, rfl⟩)
      | active k v =>
        simp only
        by_cases he : eqv k key = true
        · rw [if_pos he]
          exact ⟨i, Nat.le_refl _, fun k h1 h2 => by omega, rfl, k, v, hx, he⟩
        · rw [if_neg he]
          exact step fd (Or.inr ⟨k, v, hx, by simpa using he⟩) (Or.inl ⟨rfl, by rw [hx]; simp⟩)

/-! ### Counting occupied rows -/

def occ (rows : List (Row K V)) : Nat := rows.countP (fun r => match r with | .empty => false | _ => true)
def isActive : Row K V → Bool | .active _ _ => true | _ => false
def isDeleted : Row K V → Bool | .deleted => true | _ => false
def act (rows : List (Row K V)) : Nat := rows.countP isActive
def del (rows : List (Row K V)) : Nat := rows.countP isDeleted

theorem occ_eq (rows : List (Row K V)) : occ rows = act rows + del rows := by
  induction rows with
  | nil => rfl
  | cons r rows ih =>
    simp only [occ, act, del, List.countP_cons] at *
    cases r <;> simp [isActive, isDeleted] <;> omega

theorem length_entries (rows : List (Row K V)) : (entries rows).length = act rows := by
  induction rows with
  | nil => rfl
  | cons r rows ih =>
    simp only [entries, act, List.countP_cons] at *
    cases r <;> simp [isActive, ih]

/-- Different occupied rows cannot outnumber the occupied rows. -/
theorem length_le_occ (rows : List (Row K V)) (l : List Nat) (hnd : l.Nodup)
    (h : ∀ x ∈ l, ∃ r, rows[x]? = some r ∧ r ≠ .empty) : l.length ≤ occ rows := by
  have : l.Subperm ((List.range rows.length).filter
      (fun x => match rows[x]? with | some .empty => false | some _ => true | none => false)) := by
    refine List.subperm_of_subset hnd (fun x hx => ?_)
    obtain ⟨r, hr, hne⟩ := h x hx
    simp only [List.mem_filter, List.mem_range]
    refine ⟨(List.getElem?_eq_some_iff.mp hr).1, ?_⟩
    rw [hr]; cases r <;> simp at hne ⊢
  refine Nat.le_trans this.length_le (Nat.le_of_eq ?_)
  clear this h hnd
  induction rows with
  | nil => rfl
  | cons r rows ih =>
    simp only [List.length_cons, List.range_succ_eq_map, List.filter_cons, List.filter_map, List.getElem?_cons_zero,
      occ, List.countP_cons]
    have e : ((fun x => match (r :: rows)[x]? with | some .empty => false | some _ => true | none => false) ∘ Nat.succ)
        = (fun x => match rows[x]? with | some .empty => false | some _ => true | none => false) := by
      funext x; simp
    rw [e]
    simp only [occ] at ih
    cases r <;> simp [ih]

end HTable
end Duck
