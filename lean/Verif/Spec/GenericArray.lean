import Verif.Model.GenericArray
import Verif.Spec.Seq
/-! What the array properties say: observation of an array, and the effect of each operation on a plain list. -/
namespace Duck
namespace GArray
variable {α : Type}

/-- What a user observes: `a` has the length of `xs` and reading index `i` yields `xs[i]`, for every `i`
    (and indices past the end are rejected). -/
def Observes (a : GArray α) (xs : List α) : Prop :=
  a.length = xs.length ∧ ∀ i, a.get i = (xs[i]?).map some

/-- Specification of one operation on a plain list. `none`: the call is outside the contract
    (range past the end, source shorter than announced, or source inside the array itself). -/
def specStep (zero : α) (xs : List α) : Op α → Option (List α)
  | .reserve _ => some xs
  | .replace loc len (.ext ys) n =>
      if loc + len ≤ xs.length ∧ n ≤ ys.length then some (Spec.splice xs loc len (ys.take n)) else none
  | .replace loc len .null n =>
      if loc + len ≤ xs.length then some (Spec.splice xs loc len (List.replicate n zero)) else none
  | .append (.ext ys) n => if n ≤ ys.length then some (xs ++ ys.take n) else none
  | .append .null n => some (xs ++ List.replicate n zero)
  | .replace _ _ (.self _) _ | .append (.self _) _ => none
  | .finalize => some []

/-- Run a history on the model. -/
def run (zero : α) (a : GArray α) (ops : List (Op α)) : Option (GArray α) := ops.foldlM (step zero) a
/-- Run a history on the specification. -/
def specRun (zero : α) (xs : List α) (ops : List (Op α)) : Option (List α) := ops.foldlM (specStep zero) xs

end GArray
end Duck
