import Verif.Model.Array
import Verif.Spec.GenericArray
/-! What arrays of objects are expected to do. -/
namespace Duck
namespace Arr

/-- A client's view: the contents of the array, and the references held elsewhere (by the client or by other collections). -/
structure View where
  xs : List Ref
  ext : Nat → Nat

/-- A reference that somebody besides the array owns. -/
def owned (ext : Nat → Nat) : Ref → Bool
  | none => true
  | some o => decide (0 < ext o)

/-- All references to an object. -/
def refs (v : View) (o : Nat) : Nat := v.xs.count (some o) + v.ext o

/-- A reference to a live object. -/
def live (v : View) : Ref → Bool
  | none => true
  | some o => decide (0 < refs v o)

/-- The objects given to a call are valid: each owned by somebody besides the array, or a single live one. -/
def validArgs (v : View) (objects : List Ref) : Bool := objects.all (owned v.ext) || (decide (objects.length ≤ 1) && objects.all (live v))

/-- The contents after a replacement; a range outside the array changes nothing. -/
def replaced (xs : List Ref) (loc len : Int) (objects : List Ref) : List Ref :=
  if 0 ≤ loc ∧ 0 ≤ len ∧ loc + len ≤ xs.length then Spec.splice xs loc.toNat len.toNat objects else xs

/-- What each call does; `none`: the client breaks the rules (releases what it does not own, passes objects nobody owns, creates an
    object at an address in use, gives a range whose end is not a 64-bit number). -/
def specStep (v : View) : Op → Option View
  | .create o => if refs v o = 0 then some { v with ext := bump v.ext o 1 } else none
  | .retain o => if 0 < refs v o then some { v with ext := bump v.ext o (v.ext o + 1) } else none
  | .release o => if 0 < v.ext o then some { v with ext := bump v.ext o (v.ext o - 1) } else none
  | .replace loc len objects => if validArgs v objects ∧ loc + len < 2 ^ 63 then some { v with xs := replaced v.xs loc len objects } else none
  | .replaceColl loc len none => if loc + len < 2 ^ 63 then some { v with xs := replaced v.xs loc len [] } else none
  | .replaceColl loc len (some ys) => if ys.all (owned v.ext) ∧ loc + len < 2 ^ 63 then some { v with xs := replaced v.xs loc len ys } else none
  | .destroy => some { v with xs := [] }

/-- A history. -/
def specRun (ops : List Op) : Option View := ops.foldlM specStep ⟨[], fun _ => 0⟩

/-- Lexicographic comparison of lists of the same length. -/
def lex (cmp : Ref → Ref → Int) : List Ref → List Ref → Int
  | x :: xs, y :: ys => if cmp x y = 0 then lex cmp xs ys else cmp x y
  | _, _ => 0

end Arr
end Duck
