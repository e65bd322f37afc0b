import Verif.Model.GenericArray
import Verif.Model.Range
/-!
Model of Source/DKArray.c 238-677 (array contents and ownership) and of the list functions of Source/DKList.c 243-679.

Objects are numbers, a reference is `none` for NULL; the heap gives each object's reference count, 0 once it was freed.
Touching a freed object, dereferencing NULL and leaving an allocation are undefined behaviour: `none`.
Simplifications: finalizers of the elements do not use the array; static objects (never freed) are not distinguished; a C array has as many entries as announced.
-/
namespace Duck
namespace Arr

/-- DKObjectRef. -/
abbrev Ref := Option Nat

/-- Reference counts; 0 = freed (DKRuntime+RefCount.c). -/
abbrev Heap := Nat → Nat

/-- Change the count of one object. -/
def bump (h : Heap) (o n : Nat) : Heap := fun i => if i = o then n else h i

/-- DKRetain: NULL is ignored. -/
def retain (h : Heap) : Ref → Option Heap
  | none => some h
  | some o => if h o = 0 then none else some (bump h o (h o + 1))

/-- DKRelease: NULL is ignored; at 0 the object is freed. -/
def release (h : Heap) : Ref → Option Heap
  | none => some h
  | some o => if h o = 0 then none else some (bump h o (h o - 1))

/-- DKGenericArrayElementAtIndex (DKGenericArray.h), as an rvalue: not range checked. -/
def rawGet (a : GArray Ref) (i : Nat) : Option Ref := a.elements.bind fun b => (b[i]?).join

/-- Storing into a block. -/
def setBlock (a : GArray Ref) (i : Nat) (r : Ref) (b : Block Ref) : Option (GArray Ref) :=
  if i < b.length then some { a with elements := some (b.set i (some r)) } else none

/-- DKGenericArrayElementAtIndex as an lvalue: not range checked. -/
def rawSet (a : GArray Ref) (i : Nat) (r : Ref) : Option (GArray Ref) := a.elements.bind (setBlock a i r)

/-- `*DKGenericArrayGetPointerToElementAtIndex( ... )` (DKGenericArray.c 249-253): NULL, dereferenced, past the end. -/
def deref (a : GArray Ref) (i : Nat) : Option Ref := if i < a.length then rawGet a i else none

/-- Storing through that pointer. -/
def store (a : GArray Ref) (i : Nat) (r : Ref) : Option (GArray Ref) := if i < a.length then rawSet a i r else none

/-- DKCheckRange (DKPlatform.h 617-626), when `location + length` does not overflow; the callers treat the overflow. -/
def inRange (loc len : Int) (n : Nat) : Bool := decide (0 ≤ loc) && decide (0 ≤ len) && decide (loc + len ≤ n)

/-- DKArrayReplaceRangeWithCArray, the first loop (DKArray.c 527-534), over the overlapping objects. -/
def overlapLoop : List Ref → Nat → Heap → GArray Ref → Option (Heap × GArray Ref)
  | [], _, h, a => some (h, a)
  | o :: os, i, h, a =>
    (retain h o).bind fun h => (deref a i).bind fun old => (release h old).bind fun h =>
      (store a i o).bind fun a => overlapLoop os (i + 1) h a

/-- The second loop (538-539). -/
def retainAll : List Ref → Heap → Option Heap
  | [], h => some h
  | o :: os, h => (retain h o).bind (retainAll os)

/-- The third loop (546-550); `n` iterations from index `i`. -/
def releaseRange (a : GArray Ref) : Nat → Nat → Heap → Option Heap
  | 0, _, h => some h
  | n + 1, i, h => (deref a i).bind fun o => (release h o).bind (releaseRange a n (i + 1))

/-- Lines 536-553, after the first loop. -/
def replaceRest (h : Heap) (a : GArray Ref) (loc len : Nat) (objects : List Ref) : Option (Heap × GArray Ref) :=
  if len < objects.length then
    (retainAll (objects.drop len) h).bind fun h =>
      (a.replaceElements none (loc + len) 0 (.ext (objects.drop len)) (objects.length - len)).map fun a => (h, a)
  else if len > objects.length then
    (releaseRange a (len - objects.length) (loc + objects.length) h).bind fun h =>
      (a.replaceElements none (loc + objects.length) (len - objects.length) .null 0).map fun a => (h, a)
  else some (h, a)

/-- INTERNAL_DKArrayReplaceRangeWithCArray (519-554). -/
def replaceCArray (h : Heap) (a : GArray Ref) (loc len : Int) (objects : List Ref) : Option (Heap × GArray Ref) :=
  if inRange loc len a.length then
    (overlapLoop (objects.take len.toNat) loc.toNat h a).bind fun p => replaceRest p.1 p.2 loc.toNat len.toNat objects
  else if rangeOverflows loc len then none else some (h, a)

/-- Lines 595-599: `n` iterations from index `i`, with the unchecked accessor. -/
def releaseRaw (a : GArray Ref) : Nat → Nat → Heap → Option Heap
  | 0, _, h => some h
  | n + 1, i, h => (rawGet a i).bind fun o => (release h o).bind (releaseRaw a n (i + 1))

/-- ReplaceRangeWithCollectionCallback (575-583) for each object of another collection; `i` is the context's index. -/
def fill : List Ref → Nat → Heap → GArray Ref → Option (Heap × GArray Ref)
  | [], _, h, a => some (h, a)
  | o :: os, i, h, a => (retain h o).bind fun h => (rawSet a i o).bind fun a => fill os (i + 1) h a

/-- The same when the collection is the array itself: DKArrayApplyFunction (659-677) runs over the array already resized;
    `n` iterations remain, the next is `j`. -/
def fillSelf : Nat → Nat → Nat → Heap → GArray Ref → Option (Heap × GArray Ref)
  | 0, _, _, h, a => some (h, a)
  | n + 1, j, i, h, a => (rawGet a j).bind fun o => (retain h o).bind fun h => (rawSet a i o).bind fun a => fillSelf n (j + 1) (i + 1) h a

/-- The source of a replacement: NULL, a collection holding these objects, the array itself. -/
inductive Source where
  | null
  | other (xs : List Ref)
  | self

/-- INTERNAL_DKArrayReplaceRangeWithCollection (585-614). -/
def replaceCollection (h : Heap) (a : GArray Ref) (loc len : Int) : Source → Option (Heap × GArray Ref)
  | .null => replaceCArray h a loc len []
  | .other xs =>
    if inRange loc len a.length then
      (releaseRaw a len.toNat loc.toNat h).bind fun h =>
        (a.replaceElements none loc.toNat len.toNat .null xs.length).bind fun a => fill xs loc.toNat h a
    else if rangeOverflows loc len then none else some (h, a)
  | .self =>
    if inRange loc len a.length then
      (releaseRaw a len.toNat loc.toNat h).bind fun h =>
        (a.replaceElements none loc.toNat len.toNat .null a.length).bind fun a => fillSelf a.length 0 loc.toNat h a
    else if rangeOverflows loc len then none else some (h, a)

/-- DKArrayFinalize (238-254). -/
def finalize (h : Heap) (a : GArray Ref) : Option (Heap × GArray Ref) := (releaseRaw a a.length 0 h).map fun h => (h, a.finalize)

/-- INTERNAL_DKArrayGetObjectAtIndex (423-428); the outer `none` is undefined behaviour. -/
def getObjectAtIndex (a : GArray Ref) (i : Int) : Option Ref := if 0 ≤ i ∧ i < a.length then rawGet a i.toNat else some none

/-- A client's calls: creating, retaining and releasing objects; array calls; destroying the array and starting a new one.
    (Appending, inserting, setting and removing are replacements, DKList.c 385-601; copying and initialisation are replacements
    in a new array, DKArray.c 260-386.) -/
inductive Op where
  | create (o : Nat)
  | retain (o : Nat)
  | release (o : Nat)
  | replace (loc len : Int) (objects : List Ref)
  | replaceColl (loc len : Int) (source : Option (List Ref))
  | destroy

/-- One call. -/
def step (s : Heap × GArray Ref) : Op → Option (Heap × GArray Ref)
  | .create o => if s.1 o = 0 then some (bump s.1 o 1, s.2) else none
  | .retain o => (Arr.retain s.1 (some o)).map fun h => (h, s.2)
  | .release o => (Arr.release s.1 (some o)).map fun h => (h, s.2)
  | .replace loc len objects => replaceCArray s.1 s.2 loc len objects
  | .replaceColl loc len none => replaceCollection s.1 s.2 loc len .null
  | .replaceColl loc len (some xs) => replaceCollection s.1 s.2 loc len (.other xs)
  | .destroy => finalize s.1 s.2

/-- A history, first call first, from no objects and an empty array. -/
def run (ops : List Op) : Option (Heap × GArray Ref) := ops.foldlM step (fun _ => 0, GArray.init)

/-! ### Lists (Source/DKList.c) -/

/-- DKEqual (DKComparison.c 75-89) on live objects: the same pointer, or both not NULL and equal by their class (`eqv`). -/
def eqRef (eqv : Nat → Nat → Bool) : Ref → Ref → Bool
  | none, none => true
  | some a, some b => a == b || eqv a b
  | _, _ => false

/-- DKEqual with its memory accesses: the classes of two different non-NULL objects are read. -/
def dkEqual (eqv : Nat → Nat → Bool) (h : Heap) : Ref → Ref → Option Bool
  | none, none => some true
  | some a, some b => if a = b then some true else if h a = 0 ∨ h b = 0 then none else some (eqv a b)
  | _, _ => some false

section
variable (eqv : Nat → Nat → Bool) (get : Nat → Ref)

/-- DKListGetCountOfObject (243-263): `n` iterations from `i`; `get` is the list's getObjectAtIndex. -/
def countLoop (o : Ref) : Nat → Nat → Nat → Nat
  | 0, _, count => count
  | n + 1, i, count => countLoop o n (i + 1) (if eqRef eqv o (get i) then count + 1 else count)

/-- DKListGetFirstIndexOfObject (269-287). -/
def firstLoop (o : Ref) : Nat → Nat → Int
  | 0, _ => -1
  | n + 1, i => if eqRef eqv o (get i) then i else firstLoop o n (i + 1)

/-- DKListGetLastIndexOfObject (293-311): from `n - 1` down. -/
def lastLoop (o : Ref) : Nat → Int
  | 0 => -1
  | n + 1 => if eqRef eqv o (get n) then n else lastLoop o n

/-- DKListEqual (607-636): the loop, `n` iterations from `i`. -/
def equalLoop (get2 : Nat → Ref) : Nat → Nat → Bool
  | 0, _ => true
  | n + 1, i => if !eqRef eqv (get i) (get2 i) then false else equalLoop get2 n (i + 1)

/-- DKListCompare (642-679): the loop, `n` iterations from `i`; `cmp` is DKCompare. -/
def compareLoop (cmp : Ref → Ref → Int) (get2 : Nat → Ref) : Nat → Nat → Option Int
  | 0, _ => none
  | n + 1, i => if cmp (get i) (get2 i) ≠ 0 then some (cmp (get i) (get2 i)) else compareLoop cmp get2 n (i + 1)
end

/-- The getObjectAtIndex of a list holding `xs`: NULL past the end. -/
def at' (xs : List Ref) (i : Nat) : Ref := (xs[i]?).join

/-- DKListGetCountOfObject, for a list holding `xs`. -/
def getCountOfObject (eqv : Nat → Nat → Bool) (xs : List Ref) (o : Ref) : Nat := countLoop eqv (at' xs) o xs.length 0 0

/-- DKListGetFirstIndexOfObject. -/
def getFirstIndex (eqv : Nat → Nat → Bool) (xs : List Ref) (o : Ref) : Int := firstLoop eqv (at' xs) o xs.length 0

/-- DKListGetLastIndexOfObject. -/
def getLastIndex (eqv : Nat → Nat → Bool) (xs : List Ref) (o : Ref) : Int := lastLoop eqv (at' xs) o xs.length

/-- DKListContainsObject (465-468). -/
def containsObject (eqv : Nat → Nat → Bool) (xs : List Ref) (o : Ref) : Bool := getFirstIndex eqv xs o != -1

/-- DKListGetMemberOfSet (484-492). -/
def getMember (eqv : Nat → Nat → Bool) (xs : List Ref) (o : Ref) : Ref :=
  if getFirstIndex eqv xs o ≠ -1 then at' xs (getFirstIndex eqv xs o).toNat else none

/-- DKListAddObjectToSet (474-478), on an array. -/
def addObjectToSet (eqv : Nat → Nat → Bool) (h : Heap) (a : GArray Ref) (xs : List Ref) (o : Ref) : Option (Heap × GArray Ref) :=
  if getFirstIndex eqv xs o = -1 then replaceCArray h a a.length 0 [o] else some (h, a)

/-- DKListEqual (607-636), both not NULL. -/
def listEqual (eqv : Nat → Nat → Bool) (xs ys : List Ref) : Bool := if ys.length = xs.length then equalLoop eqv (at' xs) (at' ys) xs.length 0 else false

/-- DKListCompare (642-679), two lists of the same class: both counts are the first list's (652-653). -/
def listCompare (cmp : Ref → Ref → Int) (xs ys : List Ref) : Int :=
  let count1 := xs.length
  let count2 := xs.length
  match compareLoop (at' xs) cmp (at' ys) (if count1 < count2 then count1 else count2) 0 with
  | some c => c
  | none => if count1 < count2 then -1 else if count1 > count2 then 1 else 0

/-- DKListRemoveObject (498-522), on an array; `n` = count - i. -/
def removeLoop (eqv : Nat → Nat → Bool) (o : Ref) : Nat → Nat → Heap → GArray Ref → Option (Heap × GArray Ref)
  | 0, _, h, a => some (h, a)
  | n + 1, i, h, a =>
    (getObjectAtIndex a i).bind fun o2 => (dkEqual eqv h o o2).bind fun e =>
      if e then (replaceCArray h a i 1 []).bind fun p => removeLoop eqv o n i p.1 p.2
      else removeLoop eqv o n (i + 1) h a

/-- DKListRemoveObject. -/
def removeObject (eqv : Nat → Nat → Bool) (h : Heap) (a : GArray Ref) (o : Ref) : Option (Heap × GArray Ref) := removeLoop eqv o a.length 0 h a

end Arr
end Duck
