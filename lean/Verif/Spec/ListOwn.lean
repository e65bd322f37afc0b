import Verif.Model.ListOwn
import Verif.Spec.LinkedList
/-! C103: what the user of a linked list may do. -/
namespace Duck
namespace ListOwn
open LList
open TreeOwn (Id)
variable {P : Type}

/-- The objects in the list, first to last, are `vs`. -/
def Holds (w : World P) (vs : List Obj) : Prop := iterate w.list = some vs

/-- A legal use of the objects and the list.  New objects are new, and the user gives up only references they have.  An object put in by a
    priority insertion exists, whoever owns it.  An object put in by a replacement is owned by the user, or by an entry of the list that
    stays.  A sort is given a consistent
    comparator, and the end of a range is a 64-bit number. -/
def Legal (w : World P) : Op P → Prop
  | .create x => w.counts x = 0
  | .retain x => w.counts x ≠ 0
  | .release x => w.client x ≠ 0
  | .call (.replace loc len objs) => loc + len < 2 ^ 63 ∧ ∀ vs, Holds w vs → 0 ≤ loc ∧ 0 ≤ len ∧ loc + len ≤ vs.length → ∀ x, some x ∈ objs →
      w.client x ≠ 0 ∨ some x ∈ vs.take loc.toNat ++ vs.drop (loc + len).toNat
  | .call (.insertPriority v _ _) => ∀ x, v = some x → w.counts x ≠ 0
  | .call (.getRange loc len) => loc + len < 2 ^ 63
  | .call (.sort cmp) => Spec.TotalPreorder cmp
  | .call _ => True
  | .drop => True

/-- The states that legal use leads to. -/
inductive Reach (zero : P) (pick : Nat → Heap Obj P → Nat) (gt : P → P → Bool) : World P → Prop
  | start : Reach zero pick gt start
  | step {w op w'} : Reach zero pick gt w → Legal w op → step zero pick gt w op = some w' → Reach zero pick gt w'

end ListOwn
end Duck
