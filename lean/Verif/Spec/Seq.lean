/-
Specifications on plain sequences, used to state the array, byte-array and list properties.
Nothing here refers to the model.
-/
namespace Duck.Spec

/-- The sequence `xs` with the `len` elements at `loc` replaced by `ys`. -/
def splice {α : Type} (xs : List α) (loc len : Nat) (ys : List α) : List α :=
  xs.take loc ++ ys ++ xs.drop (loc + len)

end Duck.Spec
