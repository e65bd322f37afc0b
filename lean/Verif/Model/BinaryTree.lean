import Verif.Model.HashTable
/-! Model of `DKBinaryTree` (Source/DKBinaryTree.c), an AA tree.

    Nodes are modelled as an inductive tree; `nil` is a pointer to the tree's `null_node`.  An operation that would
    write to `null_node` (and so corrupt the sentinel shared by all leaves) yields `none`; the one place where the
    code does that on purpose or by luck, the fix-up of a freshly allocated node, is modelled at pointer level in
    `PtrNode` below and shown to restore the sentinel.  `K`, `V` stand for keys and objects; reference counts and
    the node pool (see C13) are not part of this file. -/
namespace Duck
namespace BTree
open HTable (Policy)

/-- struct DKBinaryTreeNode (44-52); `nil` is `&tree->null_node` (601-606: level 0, both children itself). -/
inductive Node (K V : Type) where
  | nil
  | node (left : Node K V) (key : K) (object : V) (level : Int) (right : Node K V)
deriving Repr, DecidableEq

variable {K V : Type}

/-- `node->level`; the sentinel's is 0 (603). -/
def Node.level : Node K V → Int
  | .nil => 0
  | .node _ _ _ lev _ => lev

/-- `node->left`; the sentinel's is itself (601). -/
def Node.left : Node K V → Node K V
  | .nil => .nil
  | .node l _ _ _ _ => l

/-- `node->right`; the sentinel's is itself (602). -/
def Node.right : Node K V → Node K V
  | .nil => .nil
  | .node _ _ _ _ r => r

/-- Skew (378-386) with RotateWithLeftChild (354-360).  On the sentinel the rotation rewrites its self-links with
    the same values.  Rotating a real node with the sentinel is a write to the sentinel. -/
def skew : Node K V → Option (Node K V)
  | .nil => some .nil
  | .node l k v lev r =>
    if l.level = lev then
      match l with
      | .node ll lk lv llev lr => some (.node ll lk lv llev (.node lr k v lev r))
      | .nil => none
    else some (.node l k v lev r)

/-- Split (392-401) with RotateWithRightChild (366-372).  On the sentinel it increments the sentinel's level. -/
def split : Node K V → Option (Node K V)
  | .nil => none
  | .node l k v lev r =>
    if r.right.level = lev then
      match r with
      | .node rl rk rv rlev rr => some (.node (.node l k v lev rl) rk rv (rlev + 1) rr)
      | .nil => none
    else some (.node l k v lev r)

/-- InsertRecursive (407-447); the second component says that a node was allocated (`tree->count++`, 328).
    The new node's level is 1: lines 445-446 applied to the fresh node of level 0, see `PtrNode.new_leaf`. -/
def insertRec (cmp : K → K → Int) (key : K) (object : V) (p : Policy) : Node K V → Option (Node K V × Bool)
  | .nil => if p = .ifFound then some (.nil, false) else some (.node .nil key object 1 .nil, true)
  | .node l k v lev r =>
    if cmp k key < 0 then
      (insertRec cmp key object p l).bind fun q =>
        (skew (.node q.1 k v lev r)).bind fun t => (split t).map fun t => (t, q.2)
    else if cmp k key > 0 then
      (insertRec cmp key object p r).bind fun q =>
        (skew (.node l k v lev q.1)).bind fun t => (split t).map fun t => (t, q.2)
    else if p = .ifNotFound then some (.node l k v lev r, false)
    else some (.node l k object lev r, false)

/-- FindNode (464-483) and the object read by DKBinaryTreeGetObject (865-873). -/
def find (cmp : K → K → Int) (key : K) : Node K V → Option V
  | .nil => none
  | .node l k v _ r => if cmp k key < 0 then find cmp key l else if cmp k key > 0 then find cmp key r else some v

/-- Number of key comparisons made by FindNode (464-483). -/
def findCost (cmp : K → K → Int) (key : K) : Node K V → Nat
  | .nil => 0
  | .node l k _ _ r =>
    1 + (if cmp k key < 0 then findCost cmp key l else if cmp k key > 0 then findCost cmp key r else 0)

/-- `(*node)->right->level = lev` (544); writing the sentinel's level is not allowed. -/
def setLevel (lev : Int) : Node K V → Option (Node K V)
  | .nil => none
  | .node l k v _ r => some (.node l k v lev r)

/-- Apply an operation to `(*node)->right`; for the sentinel that slot is the sentinel's own self-link. -/
def onRight (f : Node K V → Option (Node K V)) : Node K V → Option (Node K V)
  | .nil => (f .nil).bind fun t => match t with | .nil => some .nil | .node .. => none
  | .node l k v lev r => (f r).map fun r => .node l k v lev r

/-- Lines 543-544: lower the node's level, and its right child's when that is now higher. -/
def lower (l : Node K V) (k : K) (v : V) (lev : Int) (r : Node K V) : Option (Node K V) :=
  if r.level > lev - 1 then (setLevel (lev - 1) r).map fun r => .node l k v (lev - 1) r
  else some (.node l k v (lev - 1) r)

/-- Lines 540-551 of Remove: rebalancing on the way up. -/
def rebalance (l : Node K V) (k : K) (v : V) (lev : Int) (r : Node K V) : Option (Node K V) :=
  if l.level < lev - 1 ∨ r.level < lev - 1 then
    (lower l k v lev r).bind fun t =>
    (skew t).bind fun t =>
    (onRight skew t).bind fun t =>
    (onRight (onRight skew) t).bind fun t =>
    (split t).bind fun t => onRight split t
  else some (.node l k v lev r)

/-- What a recursive call of Remove reports upwards.  `erased`: a node was freed.  `pending`: the key and object of
    the freed bottom node, still to be stored in the ancestor `*erase_node` (Swap, 529: the code stores them at once,
    the model on the way up; nothing reads them in between). -/
structure RemoveOut (K V : Type) where
  tree : Node K V
  erased : Bool
  pending : Option (K × V)

/-- Remove (504-553).  `erase` is the key of `*erase_node` (none: the sentinel).  The bottom node is the one whose
    recursive call hits the sentinel (`*leaf_node == *node`, 523). -/
def removeRec (cmp : K → K → Int) (key : K) : Option K → Node K V → Option (RemoveOut K V)
  | _, .nil => some ⟨.nil, false, none⟩
  | erase, .node l k v lev r =>
    if cmp k key < 0 then
      match l with
      | .nil =>
        match erase with
        | some e => if cmp e key = 0 then some ⟨r, true, some (k, v)⟩ else some ⟨.node l k v lev r, false, none⟩
        | none => some ⟨.node l k v lev r, false, none⟩
      | .node .. =>
        (removeRec cmp key erase l).bind fun q =>
          (rebalance q.tree k v lev r).map fun t => ⟨t, q.erased, q.pending⟩
    else
      match r with
      | .nil => if cmp k key = 0 then some ⟨r, true, none⟩ else some ⟨.node l k v lev r, false, none⟩
      | .node .. =>
        (removeRec cmp key (some k) r).bind fun q =>
          (match q.pending with
           | some e => rebalance l e.1 e.2 lev q.tree
           | none => rebalance l k v lev q.tree).map fun t => ⟨t, q.erased, none⟩

/-- struct DKBinaryTree (54-64): root and count. -/
structure Tree (K V : Type) where
  root : Node K V
  count : Int
deriving Repr, DecidableEq

/-- DKBinaryTreeInitialize (593-615). -/
def init : Tree K V := ⟨.nil, 0⟩

/-- Insert (449-458) for a non-NULL key, as called from DKBinaryTreeInsertObject (999-1010) and
    DKBinaryTreeAddObjectToSet (1086-1093). -/
def insert (cmp : K → K → Int) (t : Tree K V) (key : K) (object : V) (p : Policy) : Option (Tree K V) :=
  (insertRec cmp key object p t.root).map fun q => ⟨q.1, if q.2 then t.count + 1 else t.count⟩

/-- DKBinaryTreeRemoveObject (1016-1033). -/
def remove (cmp : K → K → Int) (t : Tree K V) (key : K) : Option (Tree K V) :=
  (removeRec cmp key none t.root).map fun q => ⟨q.tree, if q.erased then t.count - 1 else t.count⟩

/-- RemoveAllRecursive (1048-1059): number of nodes freed. -/
def freeAll : Node K V → Int
  | .nil => 0
  | .node l _ _ _ r => freeAll l + 1 + freeAll r

/-- INTERNAL_DKBinaryTreeRemoveAllObjects (1061-1069). -/
def removeAll (t : Tree K V) : Tree K V := ⟨.nil, t.count - freeAll t.root⟩

/-- DKBinaryTreeTraverseInOrderInternal (926-942): call `callback` on the nodes in order, threading the caller's
    context, until it returns non-zero. -/
def traverse {S : Type} (callback : K → V → S → Int × S) : Node K V → S → Int × S
  | .nil, s => (0, s)
  | .node l k v _ r, s =>
    let a := traverse callback l s
    if a.1 ≠ 0 then a
    else
      let b := callback k v a.2
      if b.1 ≠ 0 then b else traverse callback r b.2

/-- DKBinaryTreeCopy / MutableCopy (790-828): insert every entry of the traversal into a new tree. -/
def copy (cmp : K → K → Int) (t : Tree K V) : Option (Tree K V) :=
  (traverse (fun k v (acc : Option (Tree K V)) => (0, acc.bind fun c => insert cmp c k v .always)) t.root (some init)).2

/-- The walk of DKBinaryTreeGetFirstObject (966-971): `while( node->left ) node = node->left`.
    Every `left` pointer is non-NULL (a node or the sentinel, 321, 601), so the loop condition never fails.
    `none`: still walking when the fuel is used up. -/
def firstWalk : Nat → Node K V → Option (Node K V)
  | 0, _ => none
  | fuel + 1, n => firstWalk fuel n.left

/-! ### Pointer-level model of Skew and Split -/

/-- A node in memory; address 0 is `null_node`. -/
structure PtrNode where
  left : Nat
  right : Nat
  level : Int
deriving DecidableEq, Repr

namespace PtrNode

/-- The nodes in memory. -/
abbrev Mem := Nat → PtrNode

/-- Store to memory. -/
def set (m : Mem) (p : Nat) (n : PtrNode) : Mem := fun q => if q = p then n else m q

/-- RotateWithLeftChild (354-360). -/
def rotateLeftChild (m : Mem) (k2 : Nat) : Mem × Nat :=
  let k1 := (m k2).left
  let m := set m k2 { m k2 with left := (m k1).right }
  let m := set m k1 { m k1 with right := k2 }
  (m, k1)

/-- RotateWithRightChild (366-372). -/
def rotateRightChild (m : Mem) (k1 : Nat) : Mem × Nat :=
  let k2 := (m k1).right
  let m := set m k1 { m k1 with right := (m k2).left }
  let m := set m k2 { m k2 with left := k1 }
  (m, k2)

/-- Skew (378-386). -/
def skew (s : Mem × Nat) : Mem × Nat :=
  if (s.1 (s.1 s.2).left).level = (s.1 s.2).level then rotateLeftChild s.1 s.2 else s

/-- Split (392-401). -/
def split (s : Mem × Nat) : Mem × Nat :=
  if (s.1 (s.1 (s.1 s.2).right).right).level = (s.1 s.2).level then
    let r := rotateRightChild s.1 s.2
    (set r.1 r.2 { r.1 r.2 with level := (r.1 r.2).level + 1 }, r.2)
  else s

end PtrNode

/-- A call of the API. -/
inductive Op (K V : Type) where
  | get (key : K)
  | insert (key : K) (object : V) (p : Policy)
  | remove (key : K)
  | removeAll
  | count

/-- What a call reports. -/
inductive Out (V : Type) where
  | value (v : Option V)
  | done
  | count (n : Int)
deriving DecidableEq

/-- One call; `none` means the sentinel was corrupted. -/
def step (cmp : K → K → Int) (t : Tree K V) : Op K V → Option (Tree K V × Out V)
  | .get k => some (t, .value (find cmp k t.root))
  | .insert k v p => (insert cmp t k v p).map fun t => (t, .done)
  | .remove k => (remove cmp t k).map fun t => (t, .done)
  | .removeAll => some (removeAll t, .done)
  | .count => some (t, .count t.count)

/-- A history of calls. -/
def run (cmp : K → K → Int) (t : Tree K V) : List (Op K V) → Option (Tree K V × List (Out V))
  | [] => some (t, [])
  | op :: ops => (step cmp t op).bind fun r => (run cmp r.1 ops).map fun q => (q.1, r.2 :: q.2)

end BTree
end Duck
