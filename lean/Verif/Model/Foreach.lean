import Verif.Model.LinkedList
import Verif.Model.BinaryTree
/-! Model of enumerating a collection with a callback that may itself call the collection: DKArrayApplyFunction
    (Source/DKArray.c 657-677), DKLinkedListApplyFunction (Source/DKLinkedList.c 950-968), DKHashTableApplyFunction
    (Source/DKHashTable.c 612-690) and DKBinaryTreeTraverseInOrder (Source/DKBinaryTree.c 926-955), which DKForeachObject,
    DKForeachKey and DKForeachKeyAndObject (Source/DKCollection.c 122-160) call.

    A callback is a function of what it is given, of its own context `S` and of the whole collection; it yields the calls
    it makes, the number it returns and its new context.  Since it sees the collection, nothing is lost by listing its
    calls in advance.  Retain and release are not part of this file. -/
namespace Duck
namespace Foreach
open HTable (Policy)

/-- How an enumeration ends.  `ret`: it returned `r`; `seen` is what the callback was given, in order.  `more`: it was
    still going when the fuel was used up.  `stuck`: a call made by the callback did not return (C07), or a pointer to no
    node of the collection was followed. -/
inductive End (S C A : Type) where
  | ret (r : Int) (s : S) (c : C) (seen : List A)
  | more
  | stuck
deriving DecidableEq, Repr

variable {S C A Op : Type}

/-- The same end, with `pre` seen before. -/
def End.after (pre : List A) : End S C A → End S C A
  | .ret r s c seen => .ret r s c (pre ++ seen)
  | .more => .more
  | .stuck => .stuck

/-- `if( result ) return result;` and otherwise go on with `f`. -/
def End.andThen (e : End S C A) (f : S → C → End S C A) : End S C A :=
  match e with
  | .ret r s c seen => if r ≠ 0 then .ret r s c seen else (f s c).after seen
  | .more => .more
  | .stuck => .stuck

/-- A callback: the calls it makes, what it returns, and its context afterwards. -/
abbrev Callback (S C A Op : Type) := A → S → C → List Op × Int × S

/-- The calls the callback makes, one after the other. -/
def calls (call : C → Op → Option C) : C → List Op → Option C
  | c, [] => some c
  | c, op :: ops => (call c op).bind fun c => calls call c ops

/-- `result = callback( a, context )`. -/
def visit (call : C → Op → Option C) (cb : Callback S C A Op) (a : A) (s : S) (c : C) : End S C A :=
  match calls call c (cb a s c).1 with
  | none => .stuck
  | some c' => .ret (cb a s c).2.1 (cb a s c).2.2 c' [a]

/-! ### Arrays -/

/-- DKReplaceRangeWithCArray on an array (DKArray.c 462-477, C01): a range that is not inside is reported and nothing is
    done. -/
structure Replace (V : Type) where
  location : Int
  length : Int
  objects : List V

/-- What the call does to the members (C01, C40). -/
def arrayCall {V : Type} (vs : List V) (op : Replace V) : Option (List V) :=
  some (if 0 ≤ op.location ∧ 0 ≤ op.length ∧ op.location + op.length ≤ vs.length
    then vs.take op.location.toNat ++ op.objects ++ vs.drop (op.location + op.length).toNat else vs)

/-- DKArrayApplyFunction (663-673): the length is read again before every step. -/
def arrayLoop {V : Type} (cb : Callback S (List V) V (Replace V)) : Nat → Nat → S → List V → End S (List V) V
  | 0, i, s, vs => if i < vs.length then .more else .ret 0 s vs []
  | fuel + 1, i, s, vs =>
    match vs[i]? with
    | none => .ret 0 s vs []
    | some v => (visit arrayCall cb v s vs).andThen (arrayLoop cb fuel (i + 1))

/-! ### Linked lists -/

/-- A linked list, and what the memory of the nodes given back to its pool still holds: DKNodePoolFree (DKNodePool.c
    136-141) overwrites only the first word of a node, which is `prev`. -/
structure ListMem (V P : Type) where
  list : LList.LinkedList V P
  old : LList.Heap V P

/-- Calls made by a callback on the list it is called for. -/
inductive ListCall (V : Type) where
  | replace (location length : Int) (objects : List V)
  | get (index : Int)
  | reverse

/-- What the call does to the list (DKLinkedList.c 775-783, 689-696, 886-914). -/
def listDo {V P : Type} (zero : P) (pick : Nat → LList.Heap V P → Nat) (l : LList.LinkedList V P) :
    ListCall V → Option (LList.LinkedList V P)
  | .replace loc len objs => LList.replaceRange zero pick l loc len objs
  | .get i => (LList.nodeAt l i).map (·.1)
  | .reverse => LList.reverse l

/-- One call.  The nodes it frees keep their contents, except `prev`, until they are used again; a node is used again
    only after it left the heap, so the contents of the heap before the call are the last contents of the nodes freed by
    it.  (Simplification: a call that removes two adjacent nodes frees the first before it changes `prev` of the second;
    `next` and `object` of a freed node do not change any more, and the model reads nothing else of it.  A call that
    replaces may use a freed node again at once; the node is then in the heap.) -/
def listCall {V P : Type} (zero : P) (pick : Nat → LList.Heap V P → Nat) (m : ListMem V P) (op : ListCall V) :
    Option (ListMem V P) :=
  (listDo zero pick m.list op).map fun l => ⟨l, fun a => (m.list.heap a).or (m.old a)⟩

/-- What `*a` reads: a node in use, or what is left of one that was given back. -/
def memNode {V P : Type} (m : ListMem V P) (a : Nat) : Option (LList.LNode V P) := (m.list.heap a).or (m.old a)

/-- `node = node->next` (964), executed after the callback. -/
def listNext {V P : Type} (m : ListMem V P) (a : Nat) (f : Option Nat → End S (ListMem V P) V) : End S (ListMem V P) V :=
  match memNode m a with
  | none => .stuck
  | some n => f n.next

/-- DKLinkedListApplyFunction (954-965).  The callback is also told the address of the node, which the real one does not
    know; a callback may ignore it. -/
def listLoop {V P : Type} (zero : P) (pick : Nat → LList.Heap V P → Nat)
    (cb : Nat → Callback S (ListMem V P) V (ListCall V)) : Nat → Option Nat → S → ListMem V P → End S (ListMem V P) V
  | _, none, s, m => .ret 0 s m []
  | 0, some _, _, _ => .more
  | fuel + 1, some a, s, m =>
    match memNode m a with
    | none => .stuck
    | some n => (visit (listCall zero pick) (cb a) n.object s m).andThen fun s m =>
        listNext m a fun p => listLoop zero pick cb fuel p s m

/-- DKLinkedListApplyFunction, at most `fuel` nodes. -/
def listApply {V P : Type} (zero : P) (pick : Nat → LList.Heap V P → Nat)
    (cb : Nat → Callback S (ListMem V P) V (ListCall V)) (fuel : Nat) (s : S) (m : ListMem V P) : End S (ListMem V P) V :=
  listLoop zero pick cb fuel m.list.first s m

/-! ### Hash tables -/

/-- One call on the table; `none`: it does not return (C07). -/
def tableCall {K V : Type} (hash : K → Nat) (eqv : K → K → Bool) (t : HTable.Table K V) (op : HTable.Op K V) :
    Option (HTable.Table K V) :=
  match HTable.step hash eqv t op with
  | .ok r => some r.1
  | .error _ => none

/-- The loop of DKHashTableApplyFunction (620-630), ApplyFunctionToKeys and ApplyFunctionToObjects: the number of rows
    and the row are read again at every step; key and object are read before the callback is called. -/
def tableLoop {K V : Type} (hash : K → Nat) (eqv : K → K → Bool)
    (cb : Callback S (HTable.Table K V) (K × V) (HTable.Op K V)) :
    Nat → Nat → S → HTable.Table K V → End S (HTable.Table K V) (K × V)
  | 0, i, s, t => if i < t.rows.length then .more else .ret 0 s t []
  | fuel + 1, i, s, t =>
    match t.rows[i]? with
    | none => .ret 0 s t []
    | some (.active k v) => (visit (tableCall hash eqv) cb (k, v) s t).andThen (tableLoop hash eqv cb fuel (i + 1))
    | some _ => tableLoop hash eqv cb fuel (i + 1) s t

/-! ### Trees -/

/-- DKInsertObjectForKey on the tree. -/
structure TreeInsert (K V : Type) where
  key : K
  object : V
  policy : Policy

/-- One call (DKBinaryTree.c 449-458). -/
def treeCall {K V : Type} (cmp : K → K → Int) (t : BTree.Node K V) (op : TreeInsert K V) : Option (BTree.Node K V) :=
  (BTree.insertRec cmp op.key op.object op.policy t).map (·.1)

/-- The node of a key object.  Insertion never moves a key from one node to another (407-447 relink nodes and replace
    objects), so as long as nothing is removed the key object stands for the address of its node. -/
def nodeOf {K V : Type} [DecidableEq K] (key : K) : BTree.Node K V → Option (BTree.Node K V)
  | .nil => none
  | .node l k v lev r => if k = key then some (.node l k v lev r) else (nodeOf key l).or (nodeOf key r)

/-- A pointer to a node: its key object; none for `&tree->null_node`. -/
def ptr {K V : Type} : BTree.Node K V → Option K
  | .nil => none
  | .node _ k _ _ _ => some k

/-- Read the node at `k`. -/
def atNode {K V : Type} [DecidableEq K] (k : K) (t : BTree.Node K V)
    (f : BTree.Node K V → V → BTree.Node K V → End S (BTree.Node K V) (K × V)) : End S (BTree.Node K V) (K × V) :=
  match nodeOf k t with
  | some (.node l _ v _ r) => f l v r
  | _ => .stuck

/-- DKBinaryTreeTraverseInOrderInternal (926-942): `node->left` is read on entry, `node->object` after the left subtree
    was enumerated and `node->right` after the callback.  Callbacks only insert (a removal gives a node back to the pool
    or moves another key into it, 504-553; that is left out). -/
def treeLoop {K V : Type} [DecidableEq K] (cmp : K → K → Int)
    (cb : Callback S (BTree.Node K V) (K × V) (TreeInsert K V)) :
    Nat → Option K → S → BTree.Node K V → End S (BTree.Node K V) (K × V)
  | _, none, s, t => .ret 0 s t []
  | 0, some _, _, _ => .more
  | fuel + 1, some k, s, t =>
    atNode k t fun l _ _ => (treeLoop cmp cb fuel (ptr l) s t).andThen fun s t =>
      atNode k t fun _ v _ => (visit (treeCall cmp) cb (k, v) s t).andThen fun s t =>
        atNode k t fun _ _ r => treeLoop cmp cb fuel (ptr r) s t

end Foreach
end Duck
