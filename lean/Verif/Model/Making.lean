import Verif.Model.Dictionary
import Verif.Model.BinaryTree
import Verif.Model.Array
/-!
Model of the functions that make collections of objects given as arguments, in a C array or in another collection:
Source/DKArray.c 260-311, Source/DKList.c 85-222, Source/DKSet.c 85-149, Source/DKDictionary.c 85-115, Source/DKHashTable.c 305-335, 382-490,
Source/DKBinaryTree.c 558-584, 650-754.

A reference is `none` for NULL.  Arguments of a variable number are a list; reading past its end is undefined: `none`.  DKEqual and DKHash of NULL are
those of DKComparison.c 75-89, 129-138.  Initialisers of linked lists are histories of C11 and not repeated here.
-/
namespace Duck
namespace Make
open HTable
variable {O : Type}

/-- The loops `while( (object = va_arg( objects, DKObjectRef )) != NULL )` (DKArray.c 270-273, DKHashTable.c 438-443, DKBinaryTree.c 708-711). -/
def vaObjects : List (Option O) → Option (List O)
  | [] => none
  | none :: _ => some []
  | some x :: rest => (vaObjects rest).map (x :: ·)

/-- The loops over keys and objects (DKHashTable.c 392-401, DKBinaryTree.c 660-669): a NULL key ends them, a NULL object does not. -/
def vaPairs : List (Option O) → Option (List (O × Option O))
  | [] => none
  | none :: _ => some []
  | [some _] => none
  | some k :: o :: rest => (vaPairs rest).map ((k, o) :: ·)

/-- DKHash (DKComparison.c 129-138). -/
def refHash (hash : O → Nat) : Option O → Nat
  | none => 0
  | some x => hash x

/-- DKEqual (DKComparison.c 75-89). -/
def refEq (eqv : O → O → Bool) : Option O → Option O → Bool
  | none, none => true
  | some a, some b => eqv a b
  | _, _ => false

/-- DKHashTableInitSetWithCArray and -WithCollection (DKHashTable.c 453-490) on a reference for each member: NULL is stored like an object. -/
def hashSet (hash : O → Nat) (eqv : O → O → Bool) (objects : List (Option O)) : Except Fail (Dict.HSet (Option O)) :=
  Dict.setInit (refHash hash) (refEq eqv) objects

/-- DKHashTableInitSetWithVAObjects (DKHashTable.c 428-447). -/
def hashSetVA (hash : O → Nat) (eqv : O → O → Bool) (args : List (Option O)) : Option (Except Fail (Dict.HSet (Option O))) :=
  (vaObjects args).map fun xs => hashSet hash eqv (xs.map some)

/-- DKSetGetMember (DKSet.c 170-179): the object of the row. -/
def getMember (hash : O → Nat) (eqv : O → O → Bool) (s : Dict.HSet (Option O)) (x : Option O) : Except Fail (Option O) :=
  (Dict.setMember (refHash hash) (refEq eqv) s x).map Option.join

/-- DKSetContainsObject (DKSet.c 185-188). -/
def contains (hash : O → Nat) (eqv : O → O → Bool) (s : Dict.HSet (Option O)) (x : Option O) : Except Fail Bool :=
  (getMember hash eqv s x).map Option.isSome

/-- The insertions of DKHashTableInitDictionaryWithVAKeysAndObjects (392-401) and InsertKeyAndObject (305-318): the key is copied. -/
def hashDict (hash : O → Nat) (eqv : O → O → Bool) (cp : O → O) (ps : List (O × Option O)) : Except Fail (Dict.Dict O O) :=
  ps.foldlM (fun d e => Dict.insertObject hash eqv cp d e.1 e.2 .always) HTable.init

/-- DKDictionaryInitWithKeysAndObjects (DKDictionary.c 85-100) for a hash table. -/
def hashDictVA (hash : O → Nat) (eqv : O → O → Bool) (cp : O → O) (args : List (Option O)) : Option (Except Fail (Dict.Dict O O)) :=
  (vaPairs args).map (hashDict hash eqv cp)

/-- Insert of DKBinaryTree (449-458) on the object itself: a NULL is refused with an error. -/
def treeAdd (cmp : O → O → Int) (t : BTree.Tree O O) : Option O → Option (BTree.Tree O O)
  | none => some t
  | some x => BTree.insert cmp t x x .always

/-- DKBinaryTreeInitSetWithCArray and -WithCollection (721-754). -/
def treeSet (cmp : O → O → Int) (objects : List (Option O)) : Option (BTree.Tree O O) := objects.foldlM (treeAdd cmp) BTree.init

/-- DKBinaryTreeInitSetWithVAObjects (698-715). -/
def treeSetVA (cmp : O → O → Int) (args : List (Option O)) : Option (BTree.Tree O O) :=
  (vaObjects args).bind fun xs => treeSet cmp (xs.map some)

/-- The insertions of DKBinaryTreeInitDictionaryWithVAKeysAndObjects (660-669) and InsertKeyAndObject (558-570): the key is copied. -/
def treeDict (cmp : O → O → Int) (cp : O → O) (ps : List (O × Option O)) : Option (BTree.Tree O (Option O)) :=
  ps.foldlM (fun t e => BTree.insert cmp t (cp e.1) e.2 .always) BTree.init

/-- DKBinaryTreeInitDictionaryWithVAKeysAndObjects (650-675). -/
def treeDictVA (cmp : O → O → Int) (cp : O → O) (args : List (Option O)) : Option (BTree.Tree O (Option O)) := (vaPairs args).bind (treeDict cmp cp)

/-- One round of the loop of DKArrayInitWithVAObjects (DKArray.c 270-273). -/
def appendOne (s : Arr.Heap × GArray Arr.Ref) (x : Nat) : Option (Arr.Heap × GArray Arr.Ref) := Arr.replaceCArray s.1 s.2 s.2.length 0 [some x]

/-- DKArrayInitWithVAObjects (260-277). -/
def arrayVA (h : Arr.Heap) (args : List (Option Nat)) : Option (Arr.Heap × GArray Arr.Ref) :=
  (vaObjects args).bind fun xs => xs.foldlM appendOne (h, GArray.init)

/-- DKArrayInitWithCArray (283-294). -/
def arrayC (h : Arr.Heap) (objects : List (Option Nat)) : Option (Arr.Heap × GArray Arr.Ref) := Arr.replaceCArray h GArray.init 0 0 objects

/-- DKArrayInitWithCollection (300-311). -/
def arrayColl (h : Arr.Heap) (objects : List (Option Nat)) : Option (Arr.Heap × GArray Arr.Ref) := Arr.replaceCollection h GArray.init 0 0 (.other objects)

/-- DKListInitSetWithCArray and -WithCollection (DKList.c 190-222): the objects of a set made of them, in the order in which the set is visited.  (The
    references that the set holds meanwhile are left out.) -/
def listSet (hash : Nat → Nat) (eqv : Nat → Nat → Bool) (h : Arr.Heap) (objects : List (Option Nat)) : Except Fail (Option (Arr.Heap × GArray Arr.Ref)) :=
  (hashSet hash eqv objects).map fun s => arrayColl h (Dict.members s)

end Make
end Duck
