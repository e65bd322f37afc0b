import Verif.Model.SharedReads
import Verif.Spec.LinkedList
/-! Lists as they are created, and reads that do not overlap. -/
namespace Duck
namespace Readers
open LList (Heap LinkedList)
variable {V P : Type}

/-- `l` is a list that has been created with the objects `xs` and not been used yet. -/
def Created (l : LinkedList V P) (xs : List V) : Prop :=
  ∃ (zero : P) (pick : Nat → Heap V P → Nat), LList.Fresh pick ∧ LList.insertAll zero pick xs 0 LList.init = some l

/-- The cursor of `l`. -/
def cursorOf (l : LinkedList V P) : Cursor := ⟨l.cursor, l.cursorIndex⟩

/-- What a finished call has returned. -/
def result : Pc V → Option V
  | .done v => some v
  | _ => none

/-- Calls one after another, by whatever threads: each ends before the next begins.  A call is given `count + 8` steps; one that has not
    returned by then has no result. -/
def inTurn (l : LinkedList V P) : Cursor → List Int → List (Option V)
  | _, [] => []
  | c, i :: is =>
    let r := alone l (l.count.toNat + 8) (c, .enter i)
    result r.2 :: inTurn l r.1 is

/-- Thread `u` has called DKLinkedListGetObjectAtIndex with the index `at u`, or, where there is none, begins to iterate. -/
def starts (l : LinkedList V P) (index : Nat → Option Int) : System V :=
  ⟨cursorOf l, fun u => match index u with
    | some i => .get (.enter i)
    | none => .each l.first []⟩

/-- Every object has been passed to the callback and the loop is about to end. -/
def finished : Task V → Option (List V)
  | .each none seen => some seen
  | _ => none

/-- A call of DKLinkedListGetObjectAtIndex has returned. -/
def got : Task V → Option V
  | .get pc => result pc
  | _ => none

/-- A call of DKLinkedListGetObjectAtIndex has followed NULL. -/
def crashed : Task V → Bool
  | .get .crash => true
  | _ => false

end Readers
end Duck
