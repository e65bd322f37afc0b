import Verif.Lemmas.Array
/-! Properties C26, C27, C28. -/
namespace Duck
namespace Arr

/-- **C26 (partial)**: for every history of a client that passes objects somebody besides the array owns (or one live object at a
    time), no call touches a freed object or leaves the allocation, the array holds the spliced sequence, and every object's
    reference count is exactly the number of its references, so it is freed exactly when the last one goes away.
    Missing: several objects owned by the array alone (`C26_swap_fails`), and the array itself as source (`C26_self_fails`). -/
theorem C26_ownership_partial (ops : List Op) (v : View) (hv : specRun ops = some v) :
    ∃ h a, run ops = some (h, a) ∧ GArray.Observes a v.xs ∧ (∀ o, h o = refs v o) ∧ (∀ o, h o = 0 ↔ some o ∉ v.xs ∧ v.ext o = 0) := by
  obtain ⟨⟨h, a⟩, h1, h2, h3⟩ := run_ok hv
  refine ⟨h, a, h1, ⟨h2.1, h2.get_eq⟩, h3, fun o => ?_⟩
  rw [show h o = refs v o from h3 o]
  unfold refs
  constructor
  · intro h0
    exact ⟨fun hm => by have := List.count_pos_iff.mpr hm; omega, by omega⟩
  · rintro ⟨hn, h0⟩
    rw [List.count_eq_zero.mpr hn, h0]

/-- **C26**: a range that is not inside the array, and whose end is a 64-bit number (see C115), changes nothing, whatever the objects. -/
theorem C26_out_of_range (h : Heap) (a : GArray Ref) (loc len : Int) (objects : List Ref) (hr : ¬ (0 ≤ loc ∧ 0 ≤ len ∧ loc + len ≤ a.length))
    (hf : loc + len < 2 ^ 63) :
    replaceCArray h a loc len objects = some (h, a) ∧ replaceCollection h a loc len (.other objects) = some (h, a) ∧
      replaceCollection h a loc len .self = some (h, a) := by
  have : inRange loc len a.length = false := by
    cases hi : inRange loc len a.length with
    | false => rfl
    | true => exact absurd (inRange_iff.mp hi) hr
  have ho : ¬ rangeOverflows loc len := by unfold rangeOverflows; omega
  refine ⟨?_, ?_, ?_⟩ <;> simp [replaceCArray, replaceCollection, this, ho]

example : ∃ v, specRun [.create 1, .create 2, .replace 0 0 [some 1, some 2, none], .release 1, .release 2, .replace 2 1 [some 1],
    .replace 0 2 [], .replace 5 0 [some 1]] = some v ∧ v.xs = [some 1] ∧ refs v 1 = 1 ∧ refs v 2 = 0 := ⟨_, rfl, by decide, by decide, by decide⟩

/-- **C26 (violated)**: exchanging two elements by one replacement, when the array holds the only references, retains a freed object. -/
theorem C26_swap_fails : ∃ h a, run [.create 1, .create 2, .replace 0 0 [some 1, some 2], .release 1, .release 2] = some (h, a) ∧
    h 1 = 1 ∧ h 2 = 1 ∧ replaceCArray h a 0 2 [some 2, some 1] = none := ⟨_, _, rfl, rfl, rfl, by decide +kernel⟩

/-- **C26 (violated)**: appending an array to itself leaks a reference to every object; from 16 elements on it writes outside the
    allocation. -/
theorem C26_self_fails :
    (∃ h a h' a', run [.create 1, .replace 0 0 [some 1]] = some (h, a) ∧ replaceCollection h a 1 0 .self = some (h', a') ∧
      a'.length = 2 ∧ a'.get 0 = some (some (some 1)) ∧ a'.get 1 = some (some (some 1)) ∧ h' 1 = 4) ∧
    (∃ h a, run [.create 1, .replace 0 0 (List.replicate 16 (some 1))] = some (h, a) ∧ replaceCollection h a 16 0 .self = none) :=
  ⟨⟨_, _, _, _, rfl, rfl, rfl, rfl, rfl, rfl⟩, ⟨_, _, rfl, by decide +kernel⟩⟩

/-! ### Lists -/

/-- **C27**: first index: the least index of an equal object, -1 if there is none. -/
theorem C27_first_index (eqv : Nat → Nat → Bool) (xs : List Ref) (o : Ref) :
    (getFirstIndex eqv xs o = -1 ∧ ∀ x ∈ xs, eqRef eqv o x = false) ∨
    ∃ k : Nat, ∃ hk : k < xs.length, getFirstIndex eqv xs o = k ∧ eqRef eqv o xs[k] = true ∧ ∀ j (hj : j < xs.length), j < k → eqRef eqv o xs[j] = false :=
  firstLoop_ok xs o xs.length 0 (by omega) (fun j hj h => by omega)

/-- **C27**: last index: the greatest index of an equal object, -1 if there is none. -/
theorem C27_last_index (eqv : Nat → Nat → Bool) (xs : List Ref) (o : Ref) :
    (getLastIndex eqv xs o = -1 ∧ ∀ x ∈ xs, eqRef eqv o x = false) ∨
    ∃ k : Nat, ∃ hk : k < xs.length, getLastIndex eqv xs o = k ∧ eqRef eqv o xs[k] = true ∧ ∀ j (hj : j < xs.length), k < j → eqRef eqv o xs[j] = false :=
  lastLoop_ok xs o xs.length (Nat.le_refl _) (fun j hj h => by omega)

/-- **C27**: the count is the number of equal objects, and containment agrees with it. -/
theorem C27_count (eqv : Nat → Nat → Bool) (xs : List Ref) (o : Ref) :
    getCountOfObject eqv xs o = xs.countP (eqRef eqv o) ∧ (containsObject eqv xs o = true ↔ ∃ x ∈ xs, eqRef eqv o x = true) := by
  refine ⟨by unfold getCountOfObject; rw [countLoop_ok xs o _ 0 0 (by omega)]; simp, ?_⟩
  unfold containsObject
  rcases C27_first_index eqv xs o with ⟨h1, h2⟩ | ⟨k, hk, h1, h2, _⟩
  · rw [h1]
    simp only [bne_self_eq_false, Bool.false_eq_true, false_iff]
    rintro ⟨x, hx, he⟩
    rw [h2 x hx] at he; cases he
  · rw [h1]
    have : ((k : Int) != -1) = true := by simp
    simp only [this, true_iff]
    exact ⟨xs[k], List.getElem_mem hk, h2⟩

/-- **C27**: the list as a set: the member returned is the first equal object. -/
theorem C27_member (eqv : Nat → Nat → Bool) (xs : List Ref) (o : Ref) : getMember eqv xs o = (xs.find? (eqRef eqv o)).join := by
  unfold getMember
  rcases C27_first_index eqv xs o with ⟨h1, h2⟩ | ⟨k, hk, h1, h2, h3⟩
  · rw [h1]
    have : xs.find? (eqRef eqv o) = none := by
      rw [List.find?_eq_none]; intro x hx; rw [h2 x hx]; simp
    rw [this]; rfl
  · rw [h1, if_pos (by omega), Int.toNat_natCast, at'_lt hk]
    have : xs.find? (eqRef eqv o) = some xs[k] := by
      rw [List.find?_eq_some_iff_getElem]
      exact ⟨h2, k, hk, rfl, fun j hj => by rw [h3 j (by omega) hj]; rfl⟩
    rw [this]; rfl

/-- **C27 (partial)**: removing an object owned by somebody besides the array leaves exactly the objects not equal to it, in their
    order, and keeps the reference counts right.  Missing: an object owned by the list alone (`C27_remove_fails`). -/
theorem C27_remove_partial (eqv : Nat → Nat → Bool) (ops : List Op) (v : View) (hv : specRun ops = some v) (o : Ref) (ho : owned v.ext o = true) :
    ∃ h a h' a', run ops = some (h, a) ∧ removeObject eqv h a o = some (h', a') ∧ GArray.Observes a' (v.xs.filter fun x => !eqRef eqv o x) ∧
      ∀ i, h' i = refs { v with xs := v.xs.filter fun x => !eqRef eqv o x } i := by
  obtain ⟨⟨h, a⟩, h1, h2, h3⟩ := run_ok hv
  obtain ⟨h', a', h4, h5, h6⟩ := removeLoop_ok (eqv := eqv) (ext := v.ext) (o := o) (fun i hi => by
    subst hi; simpa [owned] using ho) a.length 0 h h2 h3 (by have := h2.1; simp at this; omega)
  simp only [List.take_zero, List.drop_zero, List.nil_append] at h5 h6
  exact ⟨h, a, h', a', h1, h4, ⟨h5.1, h5.get_eq⟩, h6⟩

/-- **C27**: adding a live object to a list used as a set appends it unless an equal object is there. -/
theorem C27_add_to_set (eqv : Nat → Nat → Bool) (ops : List Op) (v : View) (hv : specRun ops = some v) (o : Ref) (ho : live v o = true) :
    ∃ h a h' a', run ops = some (h, a) ∧ addObjectToSet eqv h a v.xs o = some (h', a') ∧
      GArray.Observes a' (if ∃ x ∈ v.xs, eqRef eqv o x = true then v.xs else v.xs ++ [o]) ∧
      ∀ i, h' i = refs { v with xs := if ∃ x ∈ v.xs, eqRef eqv o x = true then v.xs else v.xs ++ [o] } i := by
  obtain ⟨⟨h, a⟩, h1, h2, h3⟩ := run_ok hv
  have hlen : a.length = v.xs.length := h2.1
  unfold addObjectToSet
  rcases C27_first_index eqv v.xs o with ⟨h4, h5⟩ | ⟨k, hk, h4, h5, _⟩
  · have hno : ¬ ∃ x ∈ v.xs, eqRef eqv o x = true := by
      rintro ⟨x, hx, he⟩; rw [h5 x hx] at he; cases he
    obtain ⟨h', a', e1, r1, c1⟩ := replaceCArray_ok h2 (ext := v.ext) h3 (a.length : Nat) 0 (fun h => absurd ⟨by omega, by omega, by omega⟩ h) [o] (Or.inr ⟨by simp, fun i hi => by
      have hi' : o = some i := (List.mem_singleton.mp hi).symm
      subst hi'
      rw [h3 i]
      simpa [live] using ho⟩)
    have hrep : replaced v.xs (a.length : Nat) 0 [o] = v.xs ++ [o] := by
      unfold replaced Spec.splice
      rw [if_pos (by omega), Int.toNat_natCast, hlen]
      simp
    rw [hrep] at r1 c1
    refine ⟨h, a, h', a', h1, ?_, ?_, ?_⟩
    · rw [if_pos h4]; exact e1
    · rw [if_neg hno]; exact ⟨r1.1, r1.get_eq⟩
    · intro i; rw [if_neg hno]; exact c1 i
  · have hyes : ∃ x ∈ v.xs, eqRef eqv o x = true := ⟨_, List.getElem_mem hk, h5⟩
    refine ⟨h, a, h, a, h1, ?_, ?_, ?_⟩
    · rw [if_neg (by omega)]
    · rw [if_pos hyes]; exact ⟨h2.1, h2.get_eq⟩
    · intro i; rw [if_pos hyes]; exact h3 i

/-- **C27 (violated)**: removing the object 1 from `[1, 2]` when the list holds the only reference compares a freed object. -/
theorem C27_remove_fails : ∃ h a, run [.create 1, .create 2, .replace 0 0 [some 1, some 2], .release 1, .release 2] = some (h, a) ∧
    h 1 = 1 ∧ removeObject (fun a b => a == b) h a (some 1) = none := ⟨_, _, rfl, rfl, by decide +kernel⟩

example : ∃ v, specRun [.create 1, .create 2, .create 3, .replace 0 0 [some 1, some 2, some 3, some 1]] = some v ∧ owned v.ext (some 1) = true ∧
    (v.xs.filter fun x => !eqRef (fun a b => a % 2 == b % 2) (some 1) x) = [some 2] ∧
    getFirstIndex (fun a b => a % 2 == b % 2) v.xs (some 5) = 0 ∧ getLastIndex (fun a b => a % 2 == b % 2) v.xs (some 5) = 3 ∧
    getCountOfObject (fun a b => a % 2 == b % 2) v.xs (some 5) = 3 := ⟨_, rfl, by decide, by decide, by decide, by decide, by decide⟩

/-- **C28**: equality is element-wise. -/
theorem C28_equal (eqv : Nat → Nat → Bool) (xs ys : List Ref) :
    listEqual eqv xs ys = true ↔ ∃ hl : ys.length = xs.length, ∀ j (hj : j < xs.length), eqRef eqv xs[j] (ys[j]'(by omega)) = true := by
  unfold listEqual
  by_cases hl : ys.length = xs.length
  · rw [if_pos hl, equalLoop_ok xs ys hl xs.length 0 (by omega)]
    exact ⟨fun h => ⟨hl, fun j hj => h j hj (by omega)⟩, fun ⟨_, h⟩ j hj _ => h j hj⟩
  · rw [if_neg hl]
    constructor
    · intro h; cases h
    · rintro ⟨h, _⟩; exact absurd h hl

/-- **C28 (partial)**: for lists of the same class and length, comparison is lexicographic. -/
theorem C28_compare_partial (cmp : Ref → Ref → Int) {xs ys : List Ref} (hl : ys.length = xs.length) : listCompare cmp xs ys = lex cmp xs ys := by
  have := compareLoop_ok cmp xs ys hl xs.length 0 (by omega)
  simp only [List.drop_zero] at this
  rw [this]
  unfold listCompare
  simp only [Nat.lt_irrefl, if_false, gt_iff_lt]
  cases compareLoop (at' xs) cmp (at' ys) xs.length 0 <;> rfl

/-- **C28 (partial)**: for such lists the comparison is antisymmetric if the objects' is, and 0 exactly on equal lists. -/
theorem C28_order_partial (cmp : Ref → Ref → Int) (eqv : Nat → Nat → Bool) (hanti : ∀ a b, 0 < cmp a b ↔ cmp b a < 0)
    (hzero : ∀ a b, cmp a b = 0 ↔ eqRef eqv a b = true) {xs ys : List Ref} (hl : ys.length = xs.length) :
    (0 < listCompare cmp xs ys ↔ listCompare cmp ys xs < 0) ∧ (listCompare cmp xs ys = 0 ↔ listEqual eqv xs ys = true) := by
  rw [C28_compare_partial cmp hl, C28_compare_partial cmp hl.symm, C28_equal]
  induction xs generalizing ys with
  | nil =>
      cases ys with
      | nil => simp [lex]
      | cons y ys => simp at hl
  | cons x xs ih =>
      cases ys with
      | nil => simp at hl
      | cons y ys =>
          have hl' : ys.length = xs.length := by simpa using hl
          obtain ⟨ih1, ih2⟩ := ih hl'
          have h1 := hanti x y
          have h2 := hanti y x
          have h0 : cmp x y = 0 ↔ cmp y x = 0 := by omega
          unfold lex
          by_cases hc : cmp x y = 0
          · rw [if_pos hc, if_pos (h0.mp hc)]
            refine ⟨ih1, ih2.trans ?_⟩
            constructor
            · rintro ⟨_, h⟩
              refine ⟨hl, fun j hj => ?_⟩
              cases j with
              | zero => exact (hzero _ _).mp hc
              | succ j => exact h j (by simpa using hj)
            · rintro ⟨_, h⟩
              exact ⟨hl', fun j hj => h (j + 1) (by simpa using hj)⟩
          · rw [if_neg hc, if_neg (fun h => hc (h0.mpr h))]
            refine ⟨h1, ?_⟩
            constructor
            · intro h; exact absurd h hc
            · rintro ⟨_, h⟩
              exact (hzero _ _).mpr (h 0 (by simp))

/-- DKCompare on numbers and NULL (DKComparison.c 95-109), with the pointer order NULL < every object. -/
def cmpRef : Ref → Ref → Int
  | none, none => 0
  | none, some _ => -1
  | some _, none => 1
  | some a, some b => if a = b then 0 else if a < b then 1 else -1

/-- **C28 (violated)**: a list and a proper extension of it compare as equal one way and different the other. -/
theorem C28_prefix_fails : listCompare cmpRef [some 1] [some 1, some 2] = 0 ∧ listCompare cmpRef [some 1, some 2] [some 1] = 1 ∧
    listEqual (fun a b => a == b) [some 1] [some 1, some 2] = false := by decide

example : (∀ a b, 0 < cmpRef a b ↔ cmpRef b a < 0) ∧ (∀ a b, cmpRef a b = 0 ↔ eqRef (fun a b => a == b) a b = true) ∧
    listCompare cmpRef [some 1, some 2, none] [some 1, some 3, some 7] = 1 := by
  refine ⟨fun a b => ?_, fun a b => ?_, by decide⟩
  · cases a <;> cases b <;> simp [cmpRef]
    repeat' split
    all_goals omega
  · cases a <;> cases b <;> simp [cmpRef, eqRef]
    repeat' split
    all_goals omega

end Arr
end Duck
