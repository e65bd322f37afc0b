import Verif.Lemmas.GenericArray
/-! C01 (and the aliasing part, C57): splicing a generic array. -/
namespace Duck
namespace GArray
variable {α : Type}

/-- **C01.** For every history of in-contract operations starting from an empty array, no operation touches
    memory outside the allocation, and the array finally observed is exactly the spliced sequence. -/
theorem C01_array_history (zero : α) (ops : List (Op α)) (xs : List α)
    (h : specRun zero [] ops = some xs) :
    ∃ a, run zero init ops = some a ∧ Observes a xs := by
  obtain ⟨a, h1, h2⟩ := run_rep zero xs ops init [] Rep_init h
  exact ⟨a, h1, h2.1, h2.get_eq⟩

/-- A history crossing the first allocation (32), an in-place splice, a zero fill and a growth. -/
example : ∃ xs, specRun (0 : Nat) []
    [.append (.ext [1, 2, 3]) 3, .replace 1 1 (.ext [7, 8, 9]) 3, .append .null 40, .replace 0 2 (.ext []) 0] = some xs
      ∧ xs.length = 43 := by
  simp [specRun, specStep, Spec.splice, List.foldlM]

/-- **C57 (violated).** The source of an append may not be the array's own storage: appending an array's
    contents to itself when it has to grow reads freed memory.
    Witness: 32 elements (a full first allocation) appended to themselves. -/
theorem C57_self_append_fails :
    ∃ a : GArray Nat, run 0 init [.append (.ext (List.range 32)) 32] = some a ∧
      a.append 0 (.self 0) 32 = none := by
  refine ⟨⟨some ((List.range 32).map some), 32, 32⟩, by decide +kernel, by decide +kernel⟩

/-- **C57 (partial).** Self-append is exact whenever the current allocation has room for the result. -/
theorem C57_self_append_partial (zero : α) (ops : List (Op α)) (xs : List α)
    (h : specRun zero [] ops = some xs) (a : GArray α) (ha : run zero init ops = some a)
    (room : 2 * xs.length ≤ a.maxLength) :
    ∃ a', a.append zero (.self 0) xs.length = some a' ∧ Observes a' (xs ++ xs) := by
  obtain ⟨a1, h1, h2⟩ := run_rep zero xs ops init [] Rep_init h
  rw [ha] at h1; cases h1
  obtain ⟨a', h3, h4⟩ := self_append_rep zero h2 room
  exact ⟨a', h3, h4.1, h4.get_eq⟩

example : ∃ a, run (0 : Nat) init [.append (.ext [1, 2, 3]) 3] = some a ∧ 2 * 3 ≤ a.maxLength :=
  ⟨⟨some ([some 1, some 2, some 3] ++ List.replicate 29 none), 3, 32⟩, by decide +kernel, by decide⟩
end GArray
end Duck
