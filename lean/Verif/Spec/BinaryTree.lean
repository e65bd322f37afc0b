import Verif.Model.BinaryTree
import Verif.Spec.HashTable
import Verif.Spec.Order
/-! What the tree properties say: the entries a traversal visits, the finite map they must equal (the same map
    specification as for hash tables, with "compares equal" as key equality), height. -/
namespace Duck
namespace BTree
variable {K V : Type}

/-- The entries visited by a traversal that is never stopped. -/
def contents (t : Tree K V) : List (K × V) :=
  (traverse (fun k v (acc : List (K × V)) => (0, acc ++ [(k, v)])) t.root []).2

/-- Key equality of an ordered map. -/
def keyEq (cmp : K → K → Int) (a b : K) : Bool := cmp a b == 0

/-- Keys strictly in comparator order (so no key twice). -/
def StrictlySorted (cmp : K → K → Int) (m : List (K × V)) : Prop := m.Pairwise (fun a b => 0 < cmp a.1 b.1)

/-- One call on the finite map. -/
def specStep (cmp : K → K → Int) (m : List (K × V)) : Op K V → List (K × V) × Out V
  | .get k => (m, .value (HTable.specGet (keyEq cmp) m k))
  | .insert k v p => ((HTable.specInsert (keyEq cmp) m k v p).1, .done)
  | .remove k => (HTable.specRemove (keyEq cmp) m k, .done)
  | .removeAll => ([], .done)
  | .count => (m, .count m.length)

/-- A history on the finite map. -/
def specRun (cmp : K → K → Int) (m : List (K × V)) : List (Op K V) → List (K × V) × List (Out V)
  | [] => (m, [])
  | op :: ops =>
    ((specRun cmp (specStep cmp m op).1 ops).1, (specStep cmp m op).2 :: (specRun cmp (specStep cmp m op).1 ops).2)

/-- Longest path from the root, in nodes. -/
def height : Node K V → Nat
  | .nil => 0
  | .node l _ _ _ r => 1 + max (height l) (height r)

/-- The pointer `p` represents the tree `t` in memory `m`, using the node addresses listed; `kv` gives the key and
    object stored in each node, which rotations do not touch.  Address 0 is the sentinel. -/
def PtrNode.At (m : PtrNode.Mem) (kv : Nat → K × V) : Nat → Node K V → List Nat → Prop
  | p, .nil, as => p = 0 ∧ as = []
  | p, .node l k v lev r, as => p ≠ 0 ∧ (m p).level = lev ∧ kv p = (k, v) ∧
      ∃ al ar, as = al ++ p :: ar ∧ PtrNode.At m kv (m p).left l al ∧ PtrNode.At m kv (m p).right r ar

end BTree
end Duck
