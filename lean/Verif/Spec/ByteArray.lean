import Verif.Model.ByteArray
import Verif.Spec.Seq
/-! What the byte-array properties say. A byte is `none` in the specification while its value is unspecified
    (bytes exposed by growing the length have no defined value). -/
namespace Duck
namespace BArray

/-- The stored bytes, as a user reads them through the data pointer. -/
def Observes (a : BArray) (xs : List (Option UInt8)) : Prop :=
  a.length = xs.length ∧ ∀ (i : Nat) (b : UInt8), xs[i]? = some (some b) → a.byteAt i = some b

/-- Four zero bytes follow the content. -/
def Terminated (a : BArray) : Prop := ∀ k, k < 4 → a.byteAt (a.length + k) = some 0

/-- Effect of each operation on a plain sequence; `none` = outside the contract. -/
def specStep (xs : List (Option UInt8)) : Op → Option (List (Option UInt8))
  | .reserve _ => some xs
  | .setLength n => some (xs.take n ++ List.replicate (n - xs.length) none)
  | .replace loc len (.ext ys) n =>
      if loc + len ≤ xs.length ∧ n ≤ ys.length then some (Spec.splice xs loc len ((ys.take n).map some)) else none
  | .replace loc len .null n =>
      if loc + len ≤ xs.length then some (Spec.splice xs loc len (List.replicate n (some 0))) else none
  | .append (.ext ys) n => if n ≤ ys.length then some (xs ++ (ys.take n).map some) else none
  | .append .null n => some (xs ++ List.replicate n (some 0))
  | .replace _ _ (.self _) _ | .append (.self _) _ => none
  | .align n =>
      if n = 0 then none
      else some (xs ++ List.replicate (if xs.length % n = 0 then 0 else n - xs.length % n) (some 0))
  | .finalize => some []

/-- A whole history on the specification. -/
def specRun (xs : List (Option UInt8)) (ops : List Op) : Option (List (Option UInt8)) := ops.foldlM specStep xs

end BArray
end Duck
