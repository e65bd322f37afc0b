import Verif.Model.Array
import Verif.Model.ArrayOps
import Verif.Model.LinkedList
import Verif.Model.HashTable
import Verif.Model.BinaryTree
/-! Lists, sets and dictionaries behind their interfaces: the generic functions of Source/DKList.c, DKSet.c and DKDictionary.c reach the
    collection only through an interface table, filled in by DKArray.c 110-147, 174-211, DKLinkedList.c 130-167, 194-231, DKHashTable.c
    129-166, 199-234 and DKBinaryTree.c 137-174, 207-242.  Objects are numbers, `none` is NULL.
    Simplified: the objects a program mentions are alive throughout (the program owns them); the reference counts of the objects in a
    linked list are not part of this model (C40); immutable instances are not modelled here. -/
namespace Duck
namespace Inter
open Arr (Ref Heap)
open HTable (Policy)

/-! ### Lists -/

/-- The entries of struct DKListInterface (DKList.h 52-78) a mutable list is used through.  `none`: undefined behaviour. -/
structure Impl (L : Type) where
  count : L → Int
  get : L → Int → Option (L × Ref)
  range : L → Int → Int → Option (L × List Ref)
  replace : L → Int → Int → List Ref → Option L
  reverse : L → Option L
  sort : (Ref → Ref → Int) → L → Option L
  shuffle : (Nat → Nat) → (Nat → Nat) → L → Option L

/-- A function that reorders the elements in place: DKArraySort (DKArray.c 620-627), DKArrayReverse (633-640), DKArrayShuffle (646-653)
    call DKGenericArraySortObjects, DKGenericArrayReverse, DKGenericArrayShuffle on the first `length` elements. -/
def reorder (f : List Ref → Option (List Ref)) (a : GArray Ref) : Option (GArray Ref) :=
  match a.elements with
  | none => (f []).map fun _ => a
  | some b => ((b.take a.length).mapM id).bind fun xs => (f xs).map fun ys => { a with elements := some (ys.map some ++ b.drop a.length) }

/-- The loop of INTERNAL_DKArrayGetObjectsInRange (DKArray.c 449-452): `n` iterations from `i`. -/
def rangeLoop (a : GArray Ref) : Nat → Nat → Option (List Ref)
  | 0, _ => some []
  | n + 1, i => (Arr.rawGet a i).bind fun o => (rangeLoop a n (i + 1)).map (o :: ·)

/-- Arrays (DKArray.c 174-193); the heap counts the references to each object.  Range: INTERNAL_DKArrayGetObjectsInRange (445-455). -/
def array : Impl (Heap × GArray Ref) where
  count s := s.2.length
  get s i := (Arr.getObjectAtIndex s.2 i).map fun o => (s, o)
  range s loc len :=
    if Arr.inRange loc len s.2.length then (rangeLoop s.2 len.toNat loc.toNat).map fun os => (s, os)
    else if rangeOverflows loc len then none else some (s, [])
  replace s loc len os := Arr.replaceCArray s.1 s.2 loc len os
  reverse s := (reorder ArrayOps.reverse s.2).map fun a => (s.1, a)
  sort cmp s := (reorder (ArrayOps.sortObjects cmp (s.2.length + 1)) s.2).map fun a => (s.1, a)
  shuffle r1 r2 s := (reorder (ArrayOps.shuffle 8 r1 r2) s.2).map fun a => (s.1, a)

/-- Linked lists (DKLinkedList.c 194-213); priorities are not visible through the interface. -/
def linked (pick : Nat → LList.Heap Ref Int → Nat) : Impl (LList.LinkedList Ref Int) where
  count l := l.count
  get l i := (LList.nodeAt l i).map fun r => (r.1, (r.2.map (·.1)).join)
  range l loc len := LList.objectsInRange l loc len
  replace l loc len os := LList.replaceRange 0 pick l loc len os
  reverse l := LList.reverse l
  sort cmp l := LList.sort cmp l
  shuffle _ _ l := LList.shuffle l

section
variable {L : Type} (I : Impl L) (eqv : Nat → Nat → Bool)

/-- DKListGetFirstIndexOfObject (DKList.c 269-287): `n` iterations from `i`. -/
def firstFrom (o : Ref) : Nat → Int → L → Option (L × Int)
  | 0, _, l => some (l, -1)
  | n + 1, i, l => (I.get l i).bind fun r => if Arr.eqRef eqv o r.2 then some (r.1, i) else firstFrom o n (i + 1) r.1

/-- DKListGetFirstIndexOfObject. -/
def firstIndex (l : L) (o : Ref) : Option (L × Int) := firstFrom I eqv o (I.count l).toNat 0 l

/-- DKListAppendObject (385-392): appendCArray is replaceRange at the end (DKArray.c 483-486, DKLinkedList.c 739-742). -/
def appendAll (l : L) (os : List Ref) : Option L := I.replace l (I.count l) 0 os

/-- DKListRemoveObject (DKList.c 498-522); `n` = count - i. -/
def removeFrom (o : Ref) : Nat → Int → L → Option L
  | 0, _, l => some l
  | n + 1, i, l => (I.get l i).bind fun r =>
      if Arr.eqRef eqv o r.2 then (I.replace r.1 i 1 []).bind fun l => removeFrom o n i l else removeFrom o n (i + 1) r.1

/-- A call on a list through DKList.h. -/
inductive ListOp where
  | get (i : Int)
  | range (loc len : Int)
  | first
  | last
  | indexOf (o : Ref)
  | append (os : List Ref)
  | insert (o : Ref) (i : Int)
  | set (o : Ref) (i : Int)
  | replace (loc len : Int) (os : List Ref)
  | remove (o : Ref)
  | removeAll
  | reverse
  | sort (cmp : Ref → Ref → Int)
  | count

/-- What a call reports. -/
inductive Ans where
  | done
  | object (o : Ref)
  | objects (os : List Ref)
  | number (n : Int)
deriving DecidableEq

/-- One call: DKListGetObjectAtIndex (317-328), GetObjectsInRange (334-343), GetFirstObject (349-360), GetLastObject (366-379),
    AppendObject, InsertObjectAtIndex (425-433), SetObjectAtIndex (411-419), ReplaceRangeWithCArray (439-446), RemoveObject,
    RemoveAllObjects (555-563), Reverse (698-705), Sort (685-692), GetCount (228-237). -/
def listStep (l : L) : ListOp → Option (L × Ans)
  | .get i => (I.get l i).map fun r => (r.1, .object r.2)
  | .range loc len => (I.range l loc len).map fun r => (r.1, .objects r.2)
  | .first => if I.count l > 0 then (I.get l 0).map fun r => (r.1, .object r.2) else some (l, .object none)
  | .last => if I.count l > 0 then (I.get l (I.count l - 1)).map fun r => (r.1, .object r.2) else some (l, .object none)
  | .indexOf o => (firstIndex I eqv l o).map fun r => (r.1, .number r.2)
  | .append os => (appendAll I l os).map fun l => (l, .done)
  | .insert o i => (I.replace l i 0 [o]).map fun l => (l, .done)
  | .set o i => (I.replace l i 1 [o]).map fun l => (l, .done)
  | .replace loc len os => (I.replace l loc len os).map fun l => (l, .done)
  | .remove o => (removeFrom I eqv o (I.count l).toNat 0 l).map fun l => (l, .done)
  | .removeAll => (I.replace l 0 (I.count l) []).map fun l => (l, .done)
  | .reverse => (I.reverse l).map fun l => (l, .done)
  | .sort cmp => (I.sort cmp l).map fun l => (l, .done)
  | .count => some (l, .number (I.count l))

/-- A program. -/
def listRun (l : L) : List ListOp → Option (L × List Ans)
  | [] => some (l, [])
  | op :: ops => (listStep I eqv l op).bind fun r => (listRun r.1 ops).map fun q => (q.1, r.2 :: q.2)

/-! ### Sets -/

/-- A call on a set through the functions of DKSet.c (155-246), with an object that is not NULL. -/
inductive SetOp where
  | add (o : Nat)
  | remove (o : Nat)
  | removeAll
  | member (o : Nat)
  | count

/-- What a call on a set reports. -/
inductive SetAns where
  | done
  | member (m : Option Nat)
  | count (n : Int)
deriving DecidableEq

/-- DKListAddObjectToSet (DKList.c 474-478). -/
def addToSet (l : L) (o : Ref) : Option L :=
  (firstIndex I eqv l o).bind fun r => if r.2 = -1 then appendAll I r.1 [o] else some r.1

/-- DKListGetMemberOfSet (DKList.c 484-492). -/
def memberOfSet (l : L) (o : Ref) : Option (L × Ref) :=
  (firstIndex I eqv l o).bind fun r => if r.2 ≠ -1 then I.get r.1 r.2 else some (r.1, none)

/-- The set interface of lists (DKArray.c 196-208, DKLinkedList.c 216-228). -/
def listSetStep (l : L) : SetOp → Option (L × SetAns)
  | .add o => (addToSet I eqv l (some o)).map fun l => (l, .done)
  | .remove o => (removeFrom I eqv (some o) (I.count l).toNat 0 l).map fun l => (l, .done)
  | .removeAll => (I.replace l 0 (I.count l) []).map fun l => (l, .done)
  | .member o => (memberOfSet I eqv l (some o)).map fun r => (r.1, .member r.2)
  | .count => some (l, .count (I.count l))

/-- A program on a set held in a list. -/
def listSetRun (l : L) : List SetOp → Option (L × List SetAns)
  | [] => some (l, [])
  | op :: ops => (listSetStep I eqv l op).bind fun r => (listSetRun r.1 ops).map fun q => (q.1, r.2 :: q.2)
end

/-- The set interface of hash tables (DKHashTable.c 219-234): INTERNAL_DKHashTableAddObjectToSet (783-792) stores the object as key and
    object; members are found by INTERNAL_DKHashTableGetObject (597-609). -/
def toTable : SetOp → HTable.Op Nat Nat
  | .add o => .insert o o .ifNotFound
  | .remove o => .remove o
  | .removeAll => .removeAll
  | .member o => .get o
  | .count => .count

/-- What the interface passes on of the table's report (addObject returns nothing). -/
def fromTable : HTable.Out Nat → SetAns
  | .value v => .member v
  | .changed _ => .done
  | .done => .done
  | .count n => .count n

/-- A program on a set held in a hash table. -/
def tableSetRun (hash : Nat → Nat) (eqv : Nat → Nat → Bool) (t : HTable.Table Nat Nat) :
    List SetOp → Except HTable.Fail (HTable.Table Nat Nat × List SetAns)
  | [] => .ok (t, [])
  | op :: ops => (HTable.step hash eqv t (toTable op)).bind fun r =>
      (tableSetRun hash eqv r.1 ops).map fun q => (q.1, fromTable r.2 :: q.2)

/-- The set interface of binary trees (DKBinaryTree.c 227-242): INTERNAL_DKBinaryTreeAddObjectToSet (1086-1093). -/
def toTree : SetOp → BTree.Op Nat Nat
  | .add o => .insert o o .ifNotFound
  | .remove o => .remove o
  | .removeAll => .removeAll
  | .member o => .get o
  | .count => .count

/-- What the interface passes on of the tree's report. -/
def fromTree : BTree.Out Nat → SetAns
  | .value v => .member v
  | .done => .done
  | .count n => .count n

/-- A program on a set held in a binary tree. -/
def treeSetRun (cmp : Nat → Nat → Int) (t : BTree.Tree Nat Nat) : List SetOp → Option (BTree.Tree Nat Nat × List SetAns)
  | [] => some (t, [])
  | op :: ops => (BTree.step cmp t (toTree op)).bind fun r => (treeSetRun cmp r.1 ops).map fun q => (q.1, fromTree r.2 :: q.2)

/-! ### Building a set -/

/-- The classes that implement the set interface. -/
inductive SetClass where
  | table
  | tree
  | list
deriving DecidableEq

/-- DKSetInitWithCArray (DKSet.c 125-134) for an object of class `c`: DKHashTableInitSetWithCArray (DKHashTable.c 453-473) and
    DKBinaryTreeInitSetWithCArray (DKBinaryTree.c 721-737) insert every object with DKInsertAlways; DKListInitSetWithCArray (DKList.c
    190-203) first builds a set of the class DKSetClass() returns, `dflt` (set by DKSetDefaultSetClass, DKSet.c 48-59), and copies its
    members.  The result: the members in the order of iteration.  `none`: no result within the fuel (the stack), or undefined
    behaviour. -/
def build (hash : Nat → Nat) (eqv : Nat → Nat → Bool) (cmp : Nat → Nat → Int) (dflt : SetClass) :
    Nat → SetClass → List Nat → Option (List Nat)
  | 0, _, _ => none
  | _ + 1, .table, os =>
    match HTable.run hash eqv HTable.init (os.map fun o => .insert o o .always) with
    | .ok (t, _) => some ((HTable.entries t.rows).map (·.2))
    | .error _ => none
  | _ + 1, .tree, os => (BTree.run cmp BTree.init (os.map fun o => .insert o o .always)).map fun r =>
      ((BTree.traverse (fun k v (acc : List (Nat × Nat)) => (0, acc ++ [(k, v)])) r.1.root []).2).map (·.2)
  | fuel + 1, .list, os => build hash eqv cmp dflt fuel dflt os

/-! ### Dictionaries -/

section
variable {K V : Type}

/-- A call on a dictionary (DKDictionary.h), as the same call on a binary tree (DKBinaryTree.c 207-224). -/
def dictToTree : HTable.Op K V → BTree.Op K V
  | .get k => .get k
  | .insert k v p => .insert k v p
  | .remove k => .remove k
  | .removeAll => .removeAll
  | .count => .count

/-- What DKDictionary.h reports of a call: the insert functions return nothing. -/
inductive DictAns (V : Type) where
  | done
  | value (v : Option V)
  | count (n : Int)
deriving DecidableEq

/-- The report of a hash table (DKHashTable.c 717-728 drops the result of DKGenericHashTableInsert). -/
def dictOfTable : HTable.Out V → DictAns V
  | .value v => .value v
  | .changed _ => .done
  | .done => .done
  | .count n => .count n

/-- The report of a binary tree. -/
def dictOfTree : BTree.Out V → DictAns V
  | .value v => .value v
  | .done => .done
  | .count n => .count n
end

end Inter
end Duck
