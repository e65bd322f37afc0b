/-! Orders given by a C-style comparator. Duck's convention: `cmp a b > 0` means `a` comes before `b`. -/
namespace Duck.Spec

/-- The comparator is a total preorder ("sorts consistently"): swapping arguments swaps the sign, and
    "not after" is transitive.  Equal-comparing elements need not be identical. -/
structure TotalPreorder {α : Type} (cmp : α → α → Int) : Prop where
  antisymm : ∀ a b, 0 < cmp a b ↔ cmp b a < 0
  trans : ∀ a b c, 0 ≤ cmp a b → 0 ≤ cmp b c → 0 ≤ cmp a c

/-- No element is ordered after a later one. -/
def Sorted {α : Type} (cmp : α → α → Int) (xs : List α) : Prop := xs.Pairwise (fun x y => 0 ≤ cmp x y)

end Duck.Spec
