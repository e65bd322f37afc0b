import Verif.Lemmas.ByteArray
/-! C01 (bytes) and C02: byte storage. -/
namespace Duck
namespace BArray

/-- **C02.** After every history of in-contract operations no operation has touched memory outside the
    allocation, and four zero bytes follow the content. -/
theorem C02_terminated (ops : List Op) (xs : List (Option UInt8)) (h : specRun [] ops = some xs) :
    ∃ a, run init ops = some a ∧ a.length = xs.length ∧ Terminated a := by
  obtain ⟨a, cs, h1, h2, h3⟩ := run_rep ops Rep_init (.refl []) h
  exact ⟨a, h1, (h2.observes h3).1.1, (h2.observes h3).2⟩

/-- A history with growth, truncation, alignment and a zero fill. -/
example : ∃ xs, specRun []
    [.append (.ext [65, 66, 67]) 3, .align 8, .setLength 2, .replace 1 1 (.ext [1, 2, 3]) 3, .append .null 70] = some xs
      ∧ xs.length = 74 := by
  simp [specRun, specStep, Spec.splice, List.foldlM]

/-- **C01 (bytes).** After every history of in-contract operations the stored bytes are exactly the spliced sequence
    (bytes exposed by growing the length are the only unspecified ones). -/
theorem C01_bytes_history (ops : List Op) (xs : List (Option UInt8)) (h : specRun [] ops = some xs) :
    ∃ a, run init ops = some a ∧ Observes a xs := by
  obtain ⟨a, cs, h1, h2, h3⟩ := run_rep ops Rep_init (.refl []) h
  exact ⟨a, h1, (h2.observes h3).1⟩

example : specRun [] [.append (.ext [65, 66, 67]) 3, .setLength 5, .replace 3 2 .null 1]
    = some [some 65, some 66, some 67, some 0] := by decide

/-- **C57 (bytes, violated).** Appending a byte array's own bytes when it has to grow reads freed memory
    (this is what `DKStringAppendString( s, s )` does). -/
theorem C57_bytes_self_append_fails :
    ∃ a : BArray, run init [.append (.ext (List.replicate 40 65)) 40] = some a ∧ a.append (.self 0) 40 = none := by
  refine ⟨⟨some (List.replicate 40 (some 65) ++ List.replicate 4 (some 0) ++ List.replicate 24 none), 40, 64⟩,
    by decide +kernel, by decide +kernel⟩

end BArray
end Duck
