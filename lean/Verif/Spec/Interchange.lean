import Verif.Model.Interchange
import Verif.Spec.Order
import Verif.Spec.HashTable
import Verif.Spec.BinaryTree
import Verif.Spec.GenericArray
import Verif.Spec.LinkedList
/-! What a list, a set and a dictionary are, whichever class implements them. -/
namespace Duck
namespace Inter
open Arr (Ref)

/-! ### A list is a sequence -/

/-- The object at a position; NULL outside the list. -/
def itemAt (xs : List Ref) (i : Int) : Ref := if 0 ≤ i then (xs[i.toNat]?).join else none

/-- The range lies inside the sequence. -/
def Inside (xs : List Ref) (loc len : Int) : Prop := 0 ≤ loc ∧ 0 ≤ len ∧ loc + len ≤ xs.length

instance (xs : List Ref) (loc len : Int) : Decidable (Inside xs loc len) := by unfold Inside; infer_instance

/-- The sequence with a range replaced; a range outside the sequence changes nothing. -/
def spliced (xs : List Ref) (loc len : Int) (os : List Ref) : List Ref :=
  if Inside xs loc len then xs.take loc.toNat ++ os ++ xs.drop (loc + len).toNat else xs

/-- Two references are equal: both NULL, the same object, or objects equal by their class. -/
def alike (eqv : Nat → Nat → Bool) : Ref → Ref → Bool
  | none, none => true
  | some a, some b => a == b || eqv a b
  | _, _ => false

/-- The first position of an object equal to `o`, -1 if there is none. -/
def position (eqv : Nat → Nat → Bool) (o : Ref) (xs : List Ref) : Int :=
  match xs.findIdx? (alike eqv o) with
  | some i => i
  | none => -1

/-- The call `op` on the sequence `xs` reports `ans` and leaves `ys`. -/
def Follows (eqv : Nat → Nat → Bool) (xs : List Ref) (op : ListOp) (ans : Ans) (ys : List Ref) : Prop :=
  match op with
  | .get i => ys = xs ∧ ans = .object (itemAt xs i)
  | .range loc len => ys = xs ∧ ans = .objects (if Inside xs loc len then (xs.drop loc.toNat).take len.toNat else [])
  | .first => ys = xs ∧ ans = .object (itemAt xs 0)
  | .last => ys = xs ∧ ans = .object (itemAt xs ((xs.length : Int) - 1))
  | .indexOf o => ys = xs ∧ ans = .number (position eqv o xs)
  | .append os => ys = xs ++ os ∧ ans = .done
  | .insert o i => ys = spliced xs i 0 [o] ∧ ans = .done
  | .set o i => ys = spliced xs i 1 [o] ∧ ans = .done
  | .replace loc len os => ys = spliced xs loc len os ∧ ans = .done
  | .remove o => ys = xs.filter (fun x => !alike eqv o x) ∧ ans = .done
  | .removeAll => ys = [] ∧ ans = .done
  | .reverse => ys = xs.reverse ∧ ans = .done
  | .sort cmp => ys.Perm xs ∧ Spec.Sorted cmp ys ∧ ans = .done
  | .count => ys = xs ∧ ans = .number xs.length

/-- A whole program follows. -/
inductive FollowsAll (eqv : Nat → Nat → Bool) : List Ref → List ListOp → List Ans → List Ref → Prop
  | nil (xs) : FollowsAll eqv xs [] [] xs
  | cons {xs op ans ys ops anss zs} : Follows eqv xs op ans ys → FollowsAll eqv ys ops anss zs →
      FollowsAll eqv xs (op :: ops) (ans :: anss) zs

/-- The end of a range is a 64-bit number; a sort is given a consistent comparator. -/
def ListOk : ListOp → Prop
  | .range loc len | .replace loc len _ => loc + len < 2 ^ 63
  | .insert _ i | .set _ i => i + 1 < 2 ^ 63
  | .sort cmp => Spec.TotalPreorder cmp
  | _ => True

/-- An empty array, in a program that owns a reference to each object. -/
def emptyArray : Arr.Heap × GArray Ref := (fun _ => 1, GArray.init)

/-! ### A set -/

/-- A class of objects whose equality, hash and order agree. -/
structure Consistent {K : Type} (hash : K → Nat) (eqv : K → K → Bool) (cmp : K → K → Int) : Prop where
  key : HTable.KeyClass hash eqv
  order : Spec.TotalPreorder cmp
  agree : ∀ a b, cmp a b = 0 ↔ eqv a b = true

/-- One call on a set, given as the list of its members: an object equal to a member is not added. -/
def setStep (eqv : Nat → Nat → Bool) (xs : List Nat) : SetOp → List Nat × SetAns
  | .add o => (if xs.any (eqv · o) then xs else o :: xs, .done)
  | .remove o => (xs.filter (fun x => !eqv x o), .done)
  | .removeAll => ([], .done)
  | .member o => (xs, .member (xs.find? (eqv · o)))
  | .count => (xs, .count xs.length)

/-- A program on a set. -/
def setRun (eqv : Nat → Nat → Bool) (xs : List Nat) : List SetOp → List Nat × List SetAns
  | [] => (xs, [])
  | op :: ops => ((setRun eqv (setStep eqv xs op).1 ops).1, (setStep eqv xs op).2 :: (setRun eqv (setStep eqv xs op).1 ops).2)

/-- The number of objects a program adds. -/
def additions (ops : List SetOp) : Nat := ops.countP fun op => match op with | .add _ => true | _ => false

end Inter
end Duck
