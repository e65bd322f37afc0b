import Verif.Model.BinaryTree
/-! The references a `DKBinaryTree` (Source/DKBinaryTree.c) takes and gives back, added to the tree of Model/BinaryTree.lean.  Keys are
    objects, the objects of entries may be NULL.  An object is its reference count here: what its finalizer does (other objects losing
    references) and the reference count of the tree itself are not modelled. -/
namespace Duck
namespace TreeOwn
open BTree
open HTable (Policy)

abbrev Id := Nat

/-- What is done to an object: it is created, compared, DKRetain, DKRelease. -/
inductive Ev where
  | create (x : Id)
  | use (x : Id)
  | retain (x : Id)
  | release (x : Id)
deriving DecidableEq, Repr

/-- Reference counts; 0 for objects that do not exist. -/
abbrev Counts := Id → Nat

def setCount (c : Counts) (x : Id) (n : Nat) : Counts := fun y => if y = x then n else c y

/-- `none`: the object was freed before. -/
def happens (c : Counts) : Ev → Option Counts
  | .create x => if c x = 0 then some (setCount c x 1) else none
  | .use x => if c x = 0 then none else some c
  | .retain x => if c x = 0 then none else some (setCount c x (c x + 1))
  | .release x => if c x = 0 then none else some (setCount c x (c x - 1))

def replay : Counts → List Ev → Option Counts
  | c, [] => some c
  | c, e :: l => (happens c e).bind fun c => replay c l

/-- DKRetain of a pointer that may be NULL. -/
def retainO : Option Id → List Ev
  | none => []
  | some x => [.retain x]

/-- DKRelease of a pointer that may be NULL. -/
def releaseO : Option Id → List Ev
  | none => []
  | some x => [.release x]

/-- InsertRecursive (407-447) with AllocNode (315-331). -/
def insertLog (cmp : Id → Id → Int) (key : Id) (object : Option Id) (p : Policy) : Node Id (Option Id) → List Ev
  | .nil => if p = .ifFound then [] else .retain key :: retainO object
  | .node l k v _ r =>
    .use k :: .use key ::
      if cmp k key < 0 then insertLog cmp key object p l
      else if cmp k key > 0 then insertLog cmp key object p r
      else if p = .ifNotFound then [] else retainO object ++ releaseO v

/-- FindNode (464-483). -/
def findLog (cmp : Id → Id → Int) (key : Id) : Node Id (Option Id) → List Ev
  | .nil => []
  | .node l k _ _ r => .use k :: .use key :: if cmp k key < 0 then findLog cmp key l else if cmp k key > 0 then findLog cmp key r else []

/-- FreeNode (337-348). -/
def freeLog (e : Id × Option Id) : List Ev := .release e.1 :: releaseO e.2

/-- Remove (504-553); `erase` is the entry of `*erase_node`.  The comparison in 525 is made at the bottom node, where the entry to erase is
    swapped with the node's and the node freed. -/
def removeLog (cmp : Id → Id → Int) (key : Id) : Option (Id × Option Id) → Node Id (Option Id) → List Ev
  | _, .nil => []
  | erase, .node l k v _ r =>
    .use k :: .use key ::
      if cmp k key < 0 then
        match l with
        | .nil =>
          match erase with
          | some e => .use e.1 :: .use key :: if cmp e.1 key = 0 then freeLog e else []
          | none => []
        | .node .. => removeLog cmp key erase l
      else
        match r with
        | .nil => .use k :: .use key :: if cmp k key = 0 then freeLog (k, v) else []
        | .node .. => removeLog cmp key (some (k, v)) r

/-- RemoveAllRecursive (1048-1059). -/
def removeAllLog : Node Id (Option Id) → List Ev
  | .nil => []
  | .node l k v _ r => removeAllLog l ++ freeLog (k, v) ++ removeAllLog r

/-- A tree, the references of its user to objects, the reference counts, and the nodes taken from the pool of the tree and not returned.
    FreeNode (337-348) does not return them: there is no call of DKNodePoolFree in the file. -/
structure World where
  tree : Tree Id (Option Id)
  client : Id → Nat
  counts : Counts
  nodes : Nat

/-- DKNew( DKMutableBinaryTreeClass() ) (593-615). -/
def start : World := ⟨BTree.init, fun _ => 0, fun _ => 0, 0⟩

/-- What the user does: makes an object, retains one, gives up a reference, inserts (`copy` is what DKCopy gives for the key: the key itself
    if it is immutable, else a new object), adds to a set, removes, removes all (also what the finalizer does, 621-628), looks up. -/
inductive Op where
  | create (x : Id)
  | retain (x : Id)
  | release (x : Id)
  | insert (key copy : Id) (object : Option Id) (p : Policy)
  | add (object : Id)
  | remove (key : Id)
  | removeAll
  | get (key : Id)

/-- DKCopy of the key (1003; DKCopying.c). -/
def copyLog (key copy : Id) : List Ev := if copy = key then [.retain key] else [.use key, .create copy]

/-- Insert (449-458): the tree and whether a node was taken from the pool. -/
def put (cmp : Id → Id → Int) (w : World) (key : Id) (object : Option Id) (p : Policy) (c : Counts) : Option World :=
  (insertRec cmp key object p w.tree.root).map fun q =>
    { w with tree := ⟨q.1, if q.2 then w.tree.count + 1 else w.tree.count⟩, counts := c, nodes := if q.2 then w.nodes + 1 else w.nodes }

/-- One step; `none`: an object is touched after it was freed, or the sentinel of the tree is corrupted. -/
def step (cmp : Id → Id → Int) (w : World) : Op → Option World
  | .create x => (happens w.counts (.create x)).map fun c => { w with counts := c, client := setCount w.client x (w.client x + 1) }
  | .retain x => (happens w.counts (.retain x)).map fun c => { w with counts := c, client := setCount w.client x (w.client x + 1) }
  | .release x => (happens w.counts (.release x)).map fun c => { w with counts := c, client := setCount w.client x (w.client x - 1) }
  | .insert key copy object p =>
    (replay w.counts (copyLog key copy ++ insertLog cmp copy object p w.tree.root ++ [.release copy])).bind (put cmp w copy object p)
  | .add x => (replay w.counts (insertLog cmp x (some x) .ifNotFound w.tree.root)).bind (put cmp w x (some x) .ifNotFound)
  | .remove key =>
    (replay w.counts (removeLog cmp key none w.tree.root)).bind fun c => (BTree.remove cmp w.tree key).map fun t => { w with tree := t, counts := c }
  | .removeAll => (replay w.counts (removeAllLog w.tree.root)).map fun c => { w with tree := BTree.removeAll w.tree, counts := c }
  | .get key => (replay w.counts (findLog cmp key w.tree.root)).map fun c => { w with counts := c }

end TreeOwn
end Duck
