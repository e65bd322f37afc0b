/-! What a range is. -/
namespace Duck
namespace Range

/-- The range lies in a sequence of `count` elements (an empty range may also be at its end). -/
def Inside (location length count : Int) : Prop := 0 ≤ location ∧ 0 ≤ length ∧ location + length ≤ count

instance (a b c : Int) : Decidable (Inside a b c) := by unfold Inside; infer_instance

/-- The numbers a DKIndex can hold. -/
def Is64 (i : Int) : Prop := -2 ^ 63 ≤ i ∧ i < 2 ^ 63

end Range
end Duck
