import Verif.Model.ArrayOps
import Verif.Spec.Order
namespace Duck.ArrayOps
open Duck.Spec
variable {α : Type}

/-- `b` is obtained from `a` by permuting positions inside `[lo, e)`. -/
structure SegPerm (lo e : Nat) (a b : List α) : Prop where
  perm : b.Perm a
  out : ∀ k, k < lo ∨ e ≤ k → b[k]? = a[k]?
  img : ∀ k y, lo ≤ k → k < e → b[k]? = some y → ∃ k', lo ≤ k' ∧ k' < e ∧ a[k']? = some y

theorem SegPerm.refl (lo e : Nat) (a : List α) : SegPerm lo e a a :=
  ⟨.refl _, fun _ _ => rfl, fun k _ h1 h2 h3 => ⟨k, h1, h2, h3⟩⟩

theorem SegPerm.length {lo e : Nat} {a b : List α} (h : SegPerm lo e a b) : b.length = a.length := h.perm.length_eq

theorem SegPerm.trans {lo e : Nat} {a b c : List α} (h1 : SegPerm lo e a b) (h2 : SegPerm lo e b c) : SegPerm lo e a c := by
  refine ⟨h2.perm.trans h1.perm, fun k hk => (h2.out k hk).trans (h1.out k hk), ?_⟩
  intro k y ha hb hc
  obtain ⟨k', h3, h4, h5⟩ := h2.img k y ha hb hc
  exact h1.img k' y h3 h4 h5

theorem SegPerm.mono {lo e lo' e' : Nat} {a b : List α} (h : SegPerm lo e a b) (hlo : lo' ≤ lo) (he : e ≤ e') :
    SegPerm lo' e' a b := by
  refine ⟨h.perm, fun k hk => h.out k (by omega), ?_⟩
  intro k y h1 h2 h3
  by_cases hk : lo ≤ k ∧ k < e
  · obtain ⟨k', h4, h5, h6⟩ := h.img k y hk.1 hk.2 h3
    exact ⟨k', by omega, by omega, h6⟩
  · exact ⟨k, h1, h2, by rw [← h.out k (by omega)]; exact h3⟩

/-- Everything a swap does. -/
theorem swap_spec {a : List α} {i j : Nat} (hi : i < a.length) (hj : j < a.length) :
    ∃ b, swap a i j = some b ∧ b.Perm a ∧ b[i]? = a[j]? ∧ b[j]? = a[i]? ∧ ∀ k, k ≠ i → k ≠ j → b[k]? = a[k]? := by
  unfold swap
  rw [List.getElem?_eq_getElem hi, List.getElem?_eq_getElem hj]
  refine ⟨_, rfl, List.set_set_perm hi hj, ?_, ?_, ?_⟩
  · simp only [List.getElem?_set, List.length_set, hi, hj]
    by_cases h : j = i
    · subst h; simp
    · simp [h]
  · simp [List.getElem?_set, hj]
  · intro k h1 h2
    simp [List.getElem?_set, Ne.symm h1, Ne.symm h2]

theorem swap_seg {a : List α} {i j lo e : Nat} (hi : i < a.length) (hj : j < a.length)
    (h1 : lo ≤ i) (h2 : i < e) (h3 : lo ≤ j) (h4 : j < e) :
    ∃ b, swap a i j = some b ∧ SegPerm lo e a b ∧ b[i]? = a[j]? ∧ b[j]? = a[i]? ∧ ∀ k, k ≠ i → k ≠ j → b[k]? = a[k]? := by
  obtain ⟨b, hb, hp, hbi, hbj, hk⟩ := swap_spec hi hj
  refine ⟨b, hb, ⟨hp, fun k h => hk k (by omega) (by omega), ?_⟩, hbi, hbj, hk⟩
  intro k y h5 h6 h7
  by_cases hki : k = i
  · subst hki; exact ⟨j, h3, h4, by rw [← hbi]; exact h7⟩
  · by_cases hkj : k = j
    · subst hkj; exact ⟨i, h1, h2, by rw [← hbj]; exact h7⟩
    · exact ⟨k, h5, h6, by rw [← hk k hki hkj]; exact h7⟩

/-! ### Order facts -/
section
variable {cmp : α → α → Int} (ho : TotalPreorder cmp)
include ho

theorem cmp_self (a : α) : cmp a a = 0 := by
  have := ho.antisymm a a; omega

theorem cmp_nonneg_swap {a b : α} : 0 ≤ cmp a b ↔ cmp b a ≤ 0 := by
  have := ho.antisymm b a; omega

theorem cmp_total (a b : α) : 0 ≤ cmp a b ∨ 0 ≤ cmp b a := by
  have := ho.antisymm a b; omega
end

/-- Sorted segment, read through indices. -/
def SortedSeg (cmp : α → α → Int) (lo e : Nat) (a : List α) : Prop :=
  ∀ p q x y, lo ≤ p → p < q → q < e → a[p]? = some x → a[q]? = some y → 0 ≤ cmp x y

theorem sorted_of_seg {cmp : α → α → Int} {a : List α} (h : SortedSeg cmp 0 a.length a) : Sorted cmp a := by
  unfold Sorted
  rw [List.pairwise_iff_getElem]
  intro i j hi hj hij
  exact h i j _ _ (by omega) hij hj (List.getElem?_eq_getElem hi) (List.getElem?_eq_getElem hj)

/-! ### Insertion sort -/

/-- Setting two adjacent positions in either order is a permutation. -/
theorem set_shift_perm {a : List α} {k : Nat} {x y : α} (hk : k + 1 < a.length) (hy : a[k]? = some y) :
    ((a.set (k + 1) y).set k x).Perm (a.set (k + 1) x) := by
  have h1 : k < (a.set (k + 1) x).length := by simp; omega
  have h2 : k + 1 < (a.set (k + 1) x).length := by simpa using hk
  have := List.set_set_perm (as := a.set (k + 1) x) h1 h2
  have e1 : (a.set (k + 1) x)[k + 1] = x := by simp
  have e2 : (a.set (k + 1) x)[k] = y := by
    have h3 : k < a.length := by omega
    rw [List.getElem?_eq_getElem h3] at hy
    simpa [List.getElem_set] using hy
  rw [e1, e2] at this
  have e3 : ((a.set (k + 1) x).set k x).set (k + 1) y = (a.set (k + 1) y).set k x := by
    rw [List.set_comm _ _ (by omega : k ≠ k + 1)]
    simp
  rw [e3] at this
  exact this

/-- Effect of the insertion loop: for sorted `[base, base+k)` and `x` to be placed among `[base, base+k]`,
    where the cells after the hole already hold elements ordered after `x`. -/
theorem insertLoop_spec {cmp : α → α → Int} (ho : TotalPreorder cmp) (base : Nat) (x : α) (m : Nat) :
    ∀ (k : Nat) (a : List α), k ≤ m → base + m < a.length →
      -- sorted outside the hole at base+k
      (∀ p q u v, base ≤ p → p < q → q ≤ base + m → p ≠ base + k → q ≠ base + k →
          a[p]? = some u → a[q]? = some v → 0 ≤ cmp u v) →
      -- everything after the hole is ordered after x
      (∀ q v, base + k < q → q ≤ base + m → a[q]? = some v → 0 ≤ cmp x v) →
      ∃ b, insertLoop cmp base x k a = some b ∧ b.Perm (a.set (base + k) x) ∧
        SortedSeg cmp base (base + m + 1) b ∧ ∀ i, i < base ∨ base + m < i → b[i]? = a[i]? := by
  intro k
  induction k with
  | zero =>
    intro a hk hlen hs hx
    refine ⟨a.set base x, by simp only [insertLoop]; rw [if_pos (by omega)], by simp, ?_, ?_⟩
    · intro p q u v h1 h2 h3 h4 h5
      by_cases hp : p = base
      · subst hp
        rw [List.getElem?_set_self (by omega)] at h4; cases h4
        rw [List.getElem?_set_ne (by omega)] at h5
        exact hx q v (by omega) (by omega) h5
      · rw [List.getElem?_set_ne (by omega)] at h4 h5
        exact hs p q u v (by omega) h2 (by omega) (by omega) (by omega) h4 h5
    · intro i hi; rw [List.getElem?_set_ne (by omega)]
  | succ j ih =>
    intro a hk hlen hs hx
    have hj : base + j < a.length := by omega
    have hy : a[base + j]? = some a[base + j] := List.getElem?_eq_getElem hj
    unfold insertLoop
    simp only [hy]
    by_cases hc : cmp a[base + j] x < 0
    · simp only [hc, if_true]
      rw [if_pos (by omega)]
      have hax : 0 ≤ cmp x a[base + j] := by
        have := ho.antisymm x a[base + j]; omega
      obtain ⟨b, hb, hp, hsb, hout⟩ := ih (a.set (base + (j + 1)) a[base + j]) (by omega) (by simpa using hlen) (by
        intro p q u v h1 h2 h3 h4 h5 h6 h7
        have h5' := h5; have h4' := h4
        by_cases hp : p = base + (j + 1)
        · -- p is the moved element
          subst hp
          rw [List.getElem?_set_self (by omega)] at h6; cases h6
          rw [List.getElem?_set_ne (by omega)] at h7
          exact hs (base + j) q _ v (by omega) (by omega) h3 (by omega) (by omega) hy h7
        · rw [List.getElem?_set_ne (by omega)] at h6
          by_cases hq : q = base + (j + 1)
          · subst hq
            rw [List.getElem?_set_self (by omega)] at h7; cases h7
            exact hs p (base + j) u _ h1 (by omega) (by omega) (by omega) (by omega) h6 hy
          · rw [List.getElem?_set_ne (by omega)] at h7
            exact hs p q u v h1 h2 h3 (by omega) (by omega) h6 h7) (by
        intro q v h1 h2 h3
        by_cases hq : q = base + (j + 1)
        · subst hq
          rw [List.getElem?_set_self (by omega)] at h3; cases h3; exact hax
        · rw [List.getElem?_set_ne (by omega)] at h3
          exact hx q v (by omega) h2 h3)
      refine ⟨b, hb, ?_, hsb, ?_⟩
      · exact hp.trans (set_shift_perm (k := base + j) (by omega) hy)
      · intro i hi
        rw [hout i (by omega), List.getElem?_set_ne (by omega)]
    · simp only [hc, if_false]
      rw [if_pos (by omega)]
      refine ⟨_, rfl, .refl _, ?_, ?_⟩
      · have hyx : 0 ≤ cmp a[base + j] x := by omega
        intro p q u v h1 h2 h3 h4 h5
        by_cases hp : p = base + (j + 1)
        · subst hp
          rw [List.getElem?_set_self (by omega)] at h4; cases h4
          rw [List.getElem?_set_ne (by omega)] at h5
          exact hx q v (by omega) (by omega) h5
        · rw [List.getElem?_set_ne (by omega)] at h4
          by_cases hq : q = base + (j + 1)
          · subst hq
            rw [List.getElem?_set_self (by omega)] at h5; cases h5
            by_cases hpj : p = base + j
            · subst hpj; rw [hy] at h4; cases h4; exact hyx
            · exact ho.trans _ _ _ (hs p (base + j) u _ h1 (by omega) (by omega) (by omega) (by omega) h4 hy) hyx
          · rw [List.getElem?_set_ne (by omega)] at h5
            exact hs p q u v h1 h2 (by omega) (by omega) (by omega) h4 h5
      · intro i hi; rw [List.getElem?_set_ne (by omega)]

theorem perm_img {lo e : Nat} {a b : List α} (hlen : e ≤ a.length) (hp : b.Perm a) (ho : ∀ k, k < lo ∨ e ≤ k → b[k]? = a[k]?)
    (hle : lo ≤ e) : ∀ k y, lo ≤ k → k < e → b[k]? = some y → ∃ k', lo ≤ k' ∧ k' < e ∧ a[k']? = some y := by
  have hl := hp.length_eq
  have e1 : b.take lo = a.take lo := by
    apply List.ext_getElem?; intro i
    simp only [List.getElem?_take]
    split
    · exact ho i (by omega)
    · rfl
  have e2 : b.drop e = a.drop e := by
    apply List.ext_getElem?; intro i
    simp only [List.getElem?_drop]
    exact ho _ (by omega)
  have da : a = a.take lo ++ ((a.drop lo).take (e - lo) ++ a.drop e) := by
    conv => lhs; rw [← List.take_append_drop lo a, ← List.take_append_drop (e - lo) (a.drop lo)]
    rw [List.drop_drop]; congr 3; omega
  have db : b = b.take lo ++ ((b.drop lo).take (e - lo) ++ b.drop e) := by
    conv => lhs; rw [← List.take_append_drop lo b, ← List.take_append_drop (e - lo) (b.drop lo)]
    rw [List.drop_drop]; congr 3; omega
  have hmid : ((b.drop lo).take (e - lo)).Perm ((a.drop lo).take (e - lo)) := by
    rw [da, db, e1, e2] at hp
    have := (List.perm_append_left_iff _).1 hp
    exact (List.perm_append_right_iff _).1 this
  intro k y h1 h2 h3
  have hmem : y ∈ (b.drop lo).take (e - lo) := by
    rw [List.mem_iff_getElem?]
    refine ⟨k - lo, ?_⟩
    rw [List.getElem?_take_of_lt (by omega), List.getElem?_drop]
    rw [← h3]; congr 1; omega
  have := hmid.mem_iff.1 hmem
  rw [List.mem_iff_getElem?] at this
  obtain ⟨i, hi⟩ := this
  rw [List.getElem?_take] at hi
  split at hi
  · rw [List.getElem?_drop] at hi
    exact ⟨lo + i, by omega, by omega, hi⟩
  · cases hi

theorem insertionLoop_spec {cmp : α → α → Int} (ho : TotalPreorder cmp) (base : Nat) :
    ∀ (n i : Nat) (a : List α), base + i + n ≤ a.length → 0 < i → SortedSeg cmp base (base + i) a →
      ∃ b, insertionLoop cmp base n i a = some b ∧ b.Perm a ∧ SortedSeg cmp base (base + i + n) b ∧
        ∀ k, k < base ∨ base + i + n ≤ k → b[k]? = a[k]? := by
  intro n
  induction n with
  | zero => intro i a _ _ hs; exact ⟨a, rfl, .refl _, hs, fun _ _ => rfl⟩
  | succ n ih =>
    intro i a hl hi hs
    have hx : a[base + i]? = some a[base + i] := List.getElem?_eq_getElem (by omega)
    obtain ⟨b, hb, hp, hsb, hout⟩ := insertLoop_spec ho base a[base + i] i i a (by omega) (by omega)
      (by
        intro p q u v h1 h2 h3 h4 h5 h6 h7
        exact hs p q u v h1 h2 (by omega) h6 h7)
      (by intro q v h1 h2; omega)
    have hp' : b.Perm a := by
      have : a.set (base + i) a[base + i] = a := by simp
      rwa [this] at hp
    obtain ⟨c, hc, hpc, hsc, houtc⟩ := ih (i + 1) b (by rw [hp'.length_eq]; omega) (by omega)
      (by simpa [Nat.add_assoc] using hsb)
    refine ⟨c, ?_, hpc.trans hp', ?_, ?_⟩
    · simp only [insertionLoop, hx, hb, Option.bind_some, hc]
    · have : base + i + (n + 1) = base + (i + 1) + n := by omega
      rw [this]; exact hsc
    · intro k hk
      rw [houtc k (by omega), hout k (by omega)]

theorem insertionSort_spec {cmp : α → α → Int} (ho : TotalPreorder cmp) {base count : Nat} {a : List α}
    (hl : base + count ≤ a.length) :
    ∃ b, insertionSort cmp base count a = some b ∧ SegPerm base (base + count) a b ∧ SortedSeg cmp base (base + count) b := by
  unfold insertionSort
  by_cases hc : count ≤ 1
  · have : count - 1 = 0 := by omega
    rw [this]
    refine ⟨a, rfl, .refl _ _ _, ?_⟩
    intro p q u v h1 h2 h3; omega
  · obtain ⟨b, hb, hp, hs, ho⟩ := insertionLoop_spec ho base (count - 1) 1 a (by omega) (by omega)
      (by intro p q u v h1 h2 h3; omega)
    have e : base + 1 + (count - 1) = base + count := by omega
    rw [e] at hs ho
    exact ⟨b, hb, ⟨hp, ho, perm_img hl hp ho (by omega)⟩, hs⟩

/-! ### Pivot and partition -/

theorem condSwap_spec {cmp : α → α → Int} (ho : TotalPreorder cmp) {p q lo e : Nat} {a : List α}
    (h1 : lo ≤ p) (h2 : p < e) (h3 : lo ≤ q) (h4 : q < e) (hl : e ≤ a.length) :
    ∃ b x y x' y', condSwap cmp p q a = some b ∧ SegPerm lo e a b ∧ a[p]? = some x ∧ a[q]? = some y ∧
      b[p]? = some x' ∧ b[q]? = some y' ∧ 0 ≤ cmp x' y' ∧ ((x' = x ∧ y' = y) ∨ (x' = y ∧ y' = x)) ∧
      (∀ k, k ≠ p → k ≠ q → b[k]? = a[k]?) := by
  have hp : a[p]? = some a[p] := List.getElem?_eq_getElem (by omega)
  have hq : a[q]? = some a[q] := List.getElem?_eq_getElem (by omega)
  unfold condSwap
  simp only [hp, hq]
  by_cases hc : cmp a[p] a[q] < 0
  · simp only [hc, if_true]
    obtain ⟨b, hb, hs, hbq, hbp, hk⟩ := swap_seg (a := a) (i := q) (j := p) (lo := lo) (e := e)
      (by omega) (by omega) h3 h4 h1 h2
    refine ⟨b, a[p], a[q], a[q], a[p], hb, hs, rfl, rfl, by rw [hbp, hq], by rw [hbq, hp], ?_, .inr ⟨rfl, rfl⟩, ?_⟩
    · have := ho.antisymm a[q] a[p]; omega
    · intro k h5 h6; exact hk k h6 h5
  · simp only [hc, if_false]
    exact ⟨a, a[p], a[q], a[p], a[q], rfl, .refl _ _ _, rfl, rfl, hp, hq, by omega, .inl ⟨rfl, rfl⟩, fun _ _ _ => rfl⟩

/-- The pivot is at `hi`, and the element at `lo` is not ordered before it. -/
theorem pivot_spec {cmp : α → α → Int} (ho : TotalPreorder cmp) {lo hi : Nat} {a : List α}
    (hlt : lo + 2 ≤ hi) (hl : hi < a.length) :
    ∃ b p z, pivot cmp lo hi a = some (b, p) ∧ SegPerm lo (hi + 1) a b ∧ b[hi]? = some p ∧
      b[lo]? = some z ∧ 0 ≤ cmp p z := by
  unfold pivot
  have hm1 : lo < lo + (hi - lo) / 2 := by omega
  have hm2 : lo + (hi - lo) / 2 < hi := by omega
  generalize lo + (hi - lo) / 2 = mid at hm1 hm2
  obtain ⟨a1, x1, y1, x1', y1', hc1, hs1, g1, g2, g3, g4, g5, g6, g7⟩ :=
    condSwap_spec ho (p := mid) (q := lo) (lo := lo) (e := hi + 1) (a := a) (by omega) (by omega) (by omega) (by omega) (by omega)
  obtain ⟨a2, x2, y2, x2', y2', hc2, hs2, k1, k2, k3, k4, k5, k6, k7⟩ :=
    condSwap_spec ho (p := hi) (q := lo) (lo := lo) (e := hi + 1) (a := a1) (by omega) (by omega) (by omega) (by omega)
      (by rw [hs1.length]; omega)
  obtain ⟨a3, x3, y3, x3', y3', hc3, hs3, m1, m2, m3, m4, m5, m6, m7⟩ :=
    condSwap_spec ho (p := mid) (q := hi) (lo := lo) (e := hi + 1) (a := a2) (by omega) (by omega) (by omega) (by omega)
      (by rw [hs2.length, hs1.length]; omega)
  refine ⟨a3, y3', y2', ?_, (hs1.trans hs2).trans hs3, m4, ?_, ?_⟩
  · simp only [hc1, Option.bind_some, hc2, hc3, m4, Option.map_some]
  · rw [m7 lo (by omega) (by omega), k4]
  · -- a[mid] not after... both a2[mid] and a2[hi] are not after a2[lo]
    rw [g4] at k2; cases k2
    rw [k7 mid (by omega) (by omega), g3] at m1; cases m1
    rw [k3] at m2; cases m2
    have hmid : 0 ≤ cmp x1' y2' := by
      rcases k6 with ⟨rfl, rfl⟩ | ⟨rfl, rfl⟩
      · exact g5
      · exact ho.trans _ _ _ g5 k5
    rcases m6 with ⟨rfl, rfl⟩ | ⟨rfl, rfl⟩
    · exact k5
    · exact hmid

theorem scanUp_spec {cmp : α → α → Int} {a : List α} {p : α} (m : Nat) (hm : m < a.length) (hstop : ∀ x, a[m]? = some x → ¬ cmp x p > 0) :
    ∀ i, i ≤ m → ∃ r, scanUp cmp a p i = some r ∧ i ≤ r ∧ r ≤ m ∧ (∀ k x, i ≤ k → k < r → a[k]? = some x → cmp x p > 0) ∧
      (∀ x, a[r]? = some x → ¬ cmp x p > 0) := by
  intro i
  generalize hd : m - i = d
  induction d generalizing i with
  | zero =>
    intro hi
    have : i = m := by omega
    subst this
    refine ⟨i, ?_, by omega, by omega, by intros; omega, hstop⟩
    unfold scanUp
    rw [dif_pos hm, if_neg (hstop _ (List.getElem?_eq_getElem hm))]
  | succ d ih =>
    intro hi
    have hil : i < a.length := by omega
    unfold scanUp
    rw [dif_pos hil]
    by_cases hc : cmp a[i] p > 0
    · rw [if_pos hc]
      obtain ⟨r, h1, h2, h3, h4, h5⟩ := ih (i + 1) (by omega) (by omega)
      refine ⟨r, h1, by omega, h3, ?_, h5⟩
      intro k x hk1 hk2 hk3
      by_cases hki : k = i
      · subst hki; rw [List.getElem?_eq_getElem hil] at hk3; cases hk3; exact hc
      · exact h4 k x (by omega) hk2 hk3
    · rw [if_neg hc]
      refine ⟨i, rfl, by omega, hi, by intros; omega, ?_⟩
      intro x hx; rw [List.getElem?_eq_getElem hil] at hx; cases hx; exact hc

theorem scanDown_spec {cmp : α → α → Int} {a : List α} {p : α} (m : Nat) (hstop : ∀ x, a[m]? = some x → ¬ cmp x p < 0) :
    ∀ j, m < j → j ≤ a.length → ∃ r, scanDown cmp a p j = some r ∧ m ≤ r ∧ r < j ∧
      (∀ k x, r < k → k < j → a[k]? = some x → cmp x p < 0) ∧ (∀ x, a[r]? = some x → ¬ cmp x p < 0) := by
  intro j
  induction j with
  | zero => intro h; omega
  | succ j ih =>
    intro hm hj
    have hjl : j < a.length := by omega
    have he := List.getElem?_eq_getElem hjl
    simp only [scanDown, he]
    by_cases hc : cmp a[j] p < 0
    · rw [if_pos hc]
      have hmj : m ≠ j := by
        intro h; subst h; exact hstop _ he hc
      obtain ⟨r, h1, h2, h3, h4, h5⟩ := ih (by omega) (by omega)
      refine ⟨r, h1, h2, by omega, ?_, h5⟩
      intro k x hk1 hk2 hk3
      by_cases hkj : k = j
      · subst hkj; rw [he] at hk3; cases hk3; exact hc
      · exact h4 k x hk1 (by omega) hk3
    · rw [if_neg hc]
      refine ⟨j, rfl, by omega, by omega, by intros; omega, ?_⟩
      intro x hx; rw [he] at hx; cases hx; exact hc

/-- Partition loop after the first exchange: positions `< i1` hold elements not after the pivot,
    positions `≥ j` elements not before it. -/
theorem partitionLoop_spec {cmp : α → α → Int} (ho : TotalPreorder cmp) {p : α} {lo hi : Nat} :
    ∀ (fuel : Nat) (a : List α) (i1 j : Nat), j < fuel + i1 → lo < i1 → i1 ≤ j → j ≤ hi → hi < a.length →
      (∀ k x, lo ≤ k → k < i1 → a[k]? = some x → 0 ≤ cmp x p) →
      (∀ k x, j ≤ k → k ≤ hi → a[k]? = some x → 0 ≤ cmp p x) →
      ∃ b r, partitionLoop cmp p fuel a i1 j = some (b, r) ∧ SegPerm lo (hi + 1) a b ∧ lo ≤ r ∧ r < hi ∧
        (∀ k x, lo ≤ k → k ≤ r → b[k]? = some x → 0 ≤ cmp x p) ∧
        (∀ k x, r < k → k ≤ hi → b[k]? = some x → 0 ≤ cmp p x) := by
  intro fuel
  induction fuel with
  | zero => intro a i1 j h1 h2 h3; omega
  | succ fuel ih =>
    intro a i1 j hf hlo hij hj hl hleft hright
    obtain ⟨i, hi1, hi2, hi3, hi4, hi5⟩ := scanUp_spec (cmp := cmp) (p := p) (a := a) j (by omega)
      (by intro x hx; have := hright j x (by omega) hj hx; have := ho.antisymm x p; omega) i1 hij
    obtain ⟨r, hr1, hr2, hr3, hr4, hr5⟩ := scanDown_spec (cmp := cmp) (p := p) (a := a) (i1 - 1)
      (by intro x hx; have := hleft (i1 - 1) x (by omega) (by omega) hx; omega) j (by omega) (by omega)
    simp only [partitionLoop, hi1, Option.bind_some, hr1]
    have hle_r : ∀ k x, r < k → k ≤ hi → a[k]? = some x → 0 ≤ cmp p x := by
      intro k x h1 h2 h3
      by_cases hkj : j ≤ k
      · exact hright k x hkj h2 h3
      · have := hr4 k x h1 (by omega) h3
        have := ho.antisymm p x; omega
    have hge_l : ∀ k x, lo ≤ k → k < i → a[k]? = some x → 0 ≤ cmp x p := by
      intro k x h1 h2 h3
      by_cases hki : k < i1
      · exact hleft k x h1 hki h3
      · have := hi4 k x (by omega) h2 h3; omega
    by_cases hge : i ≥ r
    · rw [if_pos hge]
      refine ⟨a, r, rfl, .refl _ _ _, by omega, by omega, ?_, hle_r⟩
      intro k x h1 h2 h3
      by_cases hk : k = r
      · subst hk; have := hr5 x h3; omega
      · exact hge_l k x h1 (by omega) h3
    · rw [if_neg hge]
      obtain ⟨b, hb, hs, hbi, hbj, hk⟩ := swap_seg (a := a) (i := i) (j := r) (lo := lo) (e := hi + 1)
        (by omega) (by omega) (by omega) (by omega) (by omega) (by omega)
      simp only [hb, Option.bind_some]
      obtain ⟨c, r', hc, hsc, h3, h4, h5, h6⟩ := ih b (i + 1) r (by omega) (by omega) (by omega) (by omega)
        (by rw [hs.length]; omega)
        (by
          intro k x h1 h2 h3
          by_cases hki : k = i
          · subst hki; rw [hbi] at h3; have := hr5 x h3; omega
          · rw [hk k hki (by omega)] at h3; exact hge_l k x h1 (by omega) h3)
        (by
          intro k x h1 h2 h3
          by_cases hkr : k = r
          · subst hkr; rw [hbj] at h3
            have := hi5 x h3
            have := ho.antisymm x p
            have := ho.antisymm p x
            omega
          · rw [hk k (by omega) hkr] at h3; exact hle_r k x (by omega) h2 h3)
      exact ⟨c, r', hc, hs.trans hsc, h3, h4, h5, h6⟩

theorem partition_spec {cmp : α → α → Int} (ho : TotalPreorder cmp) {lo hi fuel : Nat} {a : List α}
    (hlt : lo + 2 ≤ hi) (hl : hi < a.length) (hf : hi - lo < fuel) :
    ∃ b r p, partition cmp fuel lo hi a = some (b, r) ∧ SegPerm lo (hi + 1) a b ∧ lo ≤ r ∧ r < hi ∧
        (∀ k x, lo ≤ k → k ≤ r → b[k]? = some x → 0 ≤ cmp x p) ∧
        (∀ k x, r < k → k ≤ hi → b[k]? = some x → 0 ≤ cmp p x) := by
  obtain ⟨a1, p, z, hp1, hs1, hhi, hlo, hpz⟩ := pivot_spec ho hlt hl
  unfold partition
  simp only [hp1, Option.bind_some]
  have hl1 := hs1.length
  -- the first iteration exchanges lo and hi
  obtain ⟨f, rfl⟩ : ∃ f, fuel = f + 1 := ⟨fuel - 1, by omega⟩
  have hsu : scanUp cmp a1 p lo = some lo := by
    obtain ⟨r, h1, h2, h3, h4, h5⟩ := scanUp_spec (cmp := cmp) (p := p) (a := a1) lo (by omega)
      (by intro x hx; rw [hlo] at hx; cases hx; have := ho.antisymm z p; omega) lo (by omega)
    have : r = lo := by omega
    rw [h1, this]
  have hsd : scanDown cmp a1 p (hi + 1) = some hi := by
    simp only [scanDown, hhi]
    rw [if_neg]
    have := cmp_self ho p; omega
  simp only [partitionLoop, hsu, Option.bind_some, hsd]
  rw [if_neg (by omega)]
  obtain ⟨b, hb, hs, hbi, hbj, hk⟩ := swap_seg (a := a1) (i := lo) (j := hi) (lo := lo) (e := hi + 1)
        (by omega) (by omega) (by omega) (by omega) (by omega) (by omega)
  simp only [hb, Option.bind_some]
  obtain ⟨c, r', hc, hsc, h3, h4, h5, h6⟩ := partitionLoop_spec ho (p := p) (lo := lo) (hi := hi) f b (lo + 1) hi (by omega)
    (by omega) (by omega) (by omega) (by rw [hs.length]; omega)
    (by
      intro k x h1 h2 h3
      have : k = lo := by omega
      subst this
      rw [hbi, hhi] at h3; cases h3
      have := cmp_self ho p; omega)
    (by
      intro k x h1 h2 h3
      have : k = hi := by omega
      subst this
      rw [hbj, hlo] at h3; cases h3; exact hpz)
  exact ⟨c, r', p, hc, (hs1.trans hs).trans hsc, h3, h4, h5, h6⟩

theorem quickSort_spec {cmp : α → α → Int} (ho : TotalPreorder cmp) :
    ∀ (fuel lo e : Nat) (a : List α), e ≤ a.length → lo ≤ e → e - lo < fuel →
      ∃ b, quickSort cmp fuel lo e a = some b ∧ SegPerm lo e a b ∧ SortedSeg cmp lo e b := by
  intro fuel
  induction fuel with
  | zero => intro lo e a h1 h2 h3; omega
  | succ fuel ih =>
    intro lo e a hl hle hf
    unfold quickSort
    by_cases hs : (e : Int) - 1 - lo < 10
    · rw [if_pos hs]
      obtain ⟨b, h1, h2, h3⟩ := insertionSort_spec ho (base := lo) (count := e - lo) (a := a) (by omega)
      have : lo + (e - lo) = e := by omega
      rw [this] at h2 h3
      exact ⟨b, h1, h2, h3⟩
    · rw [if_neg hs, if_pos (by omega)]
      obtain ⟨b, r, p, h1, h2, h3, h4, h5, h6⟩ := partition_spec ho (lo := lo) (hi := e - 1) (fuel := fuel + 1) (a := a)
        (by omega) (by omega) (by omega)
      have he : e - 1 + 1 = e := by omega
      rw [he] at h2
      simp only [h1, Option.bind_some]
      obtain ⟨c, hc, hsc, hoc⟩ := ih lo (r + 1) b (by rw [h2.length]; omega) (by omega) (by omega)
      obtain ⟨d, hd, hsd, hod⟩ := ih (r + 1) e c (by rw [hsc.length, h2.length]; omega) (by omega) (by omega)
      simp only [hc, Option.bind_some, hd]
      refine ⟨d, rfl, (h2.trans (hsc.mono (by omega) (by omega))).trans (hsd.mono (by omega) (by omega)), ?_⟩
      intro x y u v g1 g2 g3 g4 g5
      by_cases hy : y < r + 1
      · rw [hsd.out x (by omega)] at g4; rw [hsd.out y (by omega)] at g5
        exact hoc x y u v g1 g2 hy g4 g5
      · by_cases hx : r + 1 ≤ x
        · exact hod x y u v hx g2 g3 g4 g5
        · rw [hsd.out x (by omega)] at g4
          obtain ⟨x', q1, q2, q3⟩ := hsc.img x u g1 (by omega) g4
          obtain ⟨y', q4, q5, q6⟩ := hsd.img y v (by omega) g3 g5
          rw [hsc.out y' (by omega)] at q6
          exact ho.trans _ _ _ (h5 x' u q1 (by omega) q3) (h6 y' v (by omega) (by omega) q6)

/-! ### Reverse -/

theorem reverseLoop_spec : ∀ (n i : Nat) (a : List α), 2 * (i + n) ≤ a.length →
    ∃ b, reverseLoop n i a = some b ∧ b.length = a.length ∧
      ∀ k, k < a.length → b[k]? = if (i ≤ k ∧ k < i + n) ∨ (a.length - (i + n) ≤ k ∧ k < a.length - i)
        then a[a.length - 1 - k]? else a[k]? := by
  intro n
  induction n with
  | zero =>
    intro i a h
    refine ⟨a, rfl, rfl, ?_⟩
    intro k hk
    rw [if_neg (by omega)]
  | succ n ih =>
    intro i a h
    obtain ⟨b, hb, hp, hbi, hbj, hbk⟩ := swap_spec (a := a) (i := i) (j := a.length - 1 - i) (by omega) (by omega)
    have hl := hp.length_eq
    obtain ⟨c, hc, hcl, hck⟩ := ih (i + 1) b (by omega)
    refine ⟨c, by simp only [reverseLoop, hb, Option.bind_some, hc], by omega, ?_⟩
    intro k hk
    rw [hck k (by omega), hl]
    by_cases h1 : k = i
    · subst h1
      rw [if_neg (by omega), if_pos (by omega), hbi]
    · by_cases h2 : k = a.length - 1 - i
      · subst h2
        rw [if_neg (by omega), if_pos (by omega), hbj]; congr 1; omega
      · by_cases h3 : (i + 1 ≤ k ∧ k < i + 1 + n) ∨ (a.length - (i + 1 + n) ≤ k ∧ k < a.length - (i + 1))
        · rw [if_pos h3, if_pos (by omega), hbk _ (by omega) (by omega)]
        · rw [if_neg h3, if_neg (by omega), hbk _ h1 h2]

theorem reverse_spec (a : List α) : reverse a = some a.reverse := by
  obtain ⟨b, hb, hl, hk⟩ := reverseLoop_spec (a.length / 2) 0 a (by omega)
  unfold reverse
  rw [hb]
  congr 1
  apply List.ext_getElem?
  intro k
  by_cases h : k < a.length
  · rw [hk k h, List.getElem?_reverse h]
    split
    · rfl
    · have : k = a.length - 1 - k := by omega
      rw [← this]
  · rw [List.getElem?_eq_none (by omega), List.getElem?_eq_none (by simp; omega)]

/-! ### Shuffle -/

theorem shuffleLoop_spec (n : Nat) : ∀ (k i : Nat) (rnd : Nat → Nat) (a : List α), i + k ≤ n → n < a.length →
    ∃ b, shuffleLoop n k i rnd a = some b ∧ b.Perm a ∧ ∀ m, n ≤ m → b[m]? = a[m]? := by
  intro k
  induction k with
  | zero => intro i rnd a _ _; exact ⟨a, rfl, .refl _, fun _ _ => rfl⟩
  | succ k ih =>
    intro i rnd a h1 h2
    have hj : rnd i % n < n := Nat.mod_lt _ (by omega)
    obtain ⟨b, hb, hp, -, -, hbk⟩ := swap_spec (a := a) (i := i) (j := rnd i % n) (by omega) (by omega)
    obtain ⟨c, hc, hpc, hck⟩ := ih (i + 1) rnd b (by omega) (by rw [hp.length_eq]; omega)
    refine ⟨c, by simp only [shuffleLoop, hb, Option.bind_some, hc], hpc.trans hp, ?_⟩
    intro m hm
    rw [hck m hm, hbk m (by omega) (by omega)]

theorem shufflePass_spec (rnd : Nat → Nat) (a : List α) :
    ∃ b, shufflePass rnd a = some b ∧ b.Perm a ∧ b[a.length - 1]? = a[a.length - 1]? := by
  unfold shufflePass
  by_cases h : a = []
  · subst h; exact ⟨[], rfl, .refl _, rfl⟩
  · have : 0 < a.length := List.length_pos_iff.mpr h
    obtain ⟨b, h1, h2, h3⟩ := shuffleLoop_spec (a.length - 1) (a.length - 1) 0 rnd a (by omega) (by omega)
    exact ⟨b, h1, h2, h3 _ (by omega)⟩

theorem shuffle_spec (sz : Nat) (rnd rnd2 : Nat → Nat) (a : List α) :
    ∃ b, shuffle sz rnd rnd2 a = some b ∧ b.Perm a ∧ b[a.length - 1]? = a[a.length - 1]? := by
  unfold shuffle
  obtain ⟨b, h1, h2, h3⟩ := shufflePass_spec rnd a
  split
  · obtain ⟨c, g1, g2, g3⟩ := shufflePass_spec rnd2 b
    refine ⟨c, by simp only [h1, Option.bind_some, g1], g2.trans h2, ?_⟩
    rw [h2.length_eq] at g3; rw [g3, h3]
  · exact ⟨b, h1, h2, h3⟩

end Duck.ArrayOps
