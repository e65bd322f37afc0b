import Verif.Model.TreeOwn
import Verif.Spec.BinaryTree
/-! C97: what the user of a tree may do, and what the tree owns. -/
namespace Duck
namespace TreeOwn
open BTree

/-- The references of an entry. -/
def refsOf (e : Id × Option Id) : List Id := e.1 :: e.2.toList

/-- The references to `x` held by the entries of the tree. -/
def held (m : List (Id × Option Id)) (x : Id) : Nat := (m.flatMap refsOf).count x

/-- A legal use: new objects are new, the user gives up only references they have, and passes objects that exist, whoever owns them. -/
def Legal (w : World) : Op → Prop
  | .create x => w.counts x = 0
  | .retain x => w.counts x ≠ 0
  | .release x => w.client x ≠ 0
  | .insert key copy object _ => w.counts key ≠ 0 ∧ (copy = key ∨ w.counts copy = 0) ∧ ∀ x, object = some x → w.counts x ≠ 0
  | .add x => w.counts x ≠ 0
  | .remove key => w.counts key ≠ 0
  | .removeAll => True
  | .get key => w.counts key ≠ 0

/-- The states that legal use leads to. -/
inductive Reach (cmp : Id → Id → Int) : World → Prop
  | start : Reach cmp start
  | step {w op w'} : Reach cmp w → Legal w op → step cmp w op = some w' → Reach cmp w'

end TreeOwn
end Duck
