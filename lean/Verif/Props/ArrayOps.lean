import Verif.Lemmas.ArrayOps
/-! C03 sorting, C04 reversing, C05 shuffling. -/
namespace Duck.ArrayOps
open Duck.Spec
variable {α : Type}

/-- **C03.** Sorting terminates (recursion deeper than the length is never needed), never accesses an element outside
    the array (the result is not `none`), and returns an ordered permutation of the input —
    for every array and every total preorder. -/
theorem C03_sort (cmp : α → α → Int) (ho : TotalPreorder cmp) (a : List α) (fuel : Nat) (hf : a.length < fuel) :
    ∃ b, sortObjects cmp fuel a = some b ∧ b.Perm a ∧ Sorted cmp b := by
  obtain ⟨b, h1, h2, h3⟩ := quickSort_spec ho fuel 0 a.length a (by omega) (by omega) (by omega)
  refine ⟨b, h1, h2.perm, ?_⟩
  rw [← h2.length] at h3
  exact sorted_of_seg h3

/-- The integer comparator in Duck's convention is a total preorder; so is one with ties. -/
example : TotalPreorder (fun a b : Int => b - a) := ⟨by intros; omega, by intros; omega⟩
example : TotalPreorder (fun a b : Int × Nat => b.1 - a.1) := ⟨by intros; omega, by intros; omega⟩

/-- **C04.** Reversal succeeds and yields exactly the reversed sequence. -/
theorem C04_reverse (a : List α) : reverse a = some a.reverse := reverse_spec a

/-- **C04.** Reversing twice restores the array. -/
theorem C04_reverse_twice (a : List α) : (reverse a).bind reverse = some a := by
  simp [reverse_spec]

/-- **C05 (partial).** Shuffling never accesses an element outside the array and always yields a permutation, for every
    element size, every array and every sequence of random numbers.  Missing from the full property: that
    every permutation is a possible outcome (false, see `C05_reachability_fails`). -/
theorem C05_shuffle_perm_partial (elementSize : Nat) (rnd rnd2 : Nat → Nat) (a : List α) :
    ∃ b, shuffle elementSize rnd rnd2 a = some b ∧ b.Perm a := by
  obtain ⟨b, h1, h2, -⟩ := shuffle_spec elementSize rnd rnd2 a
  exact ⟨b, h1, h2⟩

/-- **C05.** The last element never moves, whatever the random numbers. -/
theorem C05_last_fixed (elementSize : Nat) (rnd rnd2 : Nat → Nat) (a b : List α)
    (h : shuffle elementSize rnd rnd2 a = some b) : b.getLast? = a.getLast? := by
  obtain ⟨b', h1, h2, h3⟩ := shuffle_spec elementSize rnd rnd2 a
  rw [h] at h1; cases h1
  rw [List.getLast?_eq_getElem?, List.getLast?_eq_getElem?, h2.length_eq, h3]

example : shuffle 4 (fun i => i + 1) id [1, 2, 3, 4] = some [1, 3, 2, 4] := by decide

/-- **C05 (violated).** Every array of at least two distinct elements has an arrangement that no sequence of random
    numbers produces (already `[1, 2]` can never become `[2, 1]`). -/
theorem C05_reachability_fails (a : List α) (hd : a.Nodup) (h2 : 2 ≤ a.length) :
    ∃ b, b.Perm a ∧ ∀ elementSize rnd rnd2, shuffle elementSize rnd rnd2 a ≠ some b := by
  refine ⟨a.reverse, List.reverse_perm a, ?_⟩
  intro sz rnd rnd2 h
  have hl := C05_last_fixed sz rnd rnd2 a a.reverse h
  match a, h2 with
  | x :: y :: t, _ =>
    simp only [List.getLast?_reverse, List.head?_cons] at hl
    have hm : x ∈ (y :: t) := by
      have : (x :: y :: t).getLast? = (y :: t).getLast? := by simp [List.getLast?_cons_cons]
      rw [this] at hl
      exact List.mem_of_getLast? hl.symm
    exact (List.nodup_cons.1 hd).1 hm

example : ([1, 2] : List Nat).Nodup ∧ 2 ≤ [1, 2].length := by decide

end Duck.ArrayOps
