import Verif.Model.Property
import Verif.Model.Dictionary
/-! Model of copies (Source/DKCopying.c and the copy methods of the classes): DKCopy and DKMutableCopy of strings, data, arrays and linked
    lists, in a program that also changes and releases them.  The heap, retain and release are those of Model/Property.lean; the items of an array or
    a list are its fields, the bytes of a string or of data are kept beside the heap.  Simplified: a copy is made in one step instead of
    item by item; a change of bytes is any new bytes; the removed items are released after the items are written instead of before.
    Dictionaries and sets are those of Model/Dictionary.lean. -/
namespace Duck
namespace Copying
open Property (Id Obj Heap Slot live retain retains release strongs)

/-- The classes: DKString, DKMutableString (DKString.c 100-230), DKData, DKMutableData (DKData.c 60-160), DKArray, DKMutableArray (DKArray.c 70-200),
    DKLinkedList, DKMutableLinkedList (DKLinkedList.c 93-236).  Any other number is a class with the default methods (DKRuntime.c 189-199). -/
inductive Kind where
  | string
  | data
  | array
  | list
  | other
deriving DecidableEq, Repr

/-- What an instance of a class is. -/
def kind (cls : Nat) : Kind :=
  if cls < 2 then .string else if cls < 4 then .data else if cls < 6 then .array else if cls < 8 then .list else .other

/-- The mutable classes. -/
def isMutable (cls : Nat) : Bool := decide (cls < 8) && decide (cls % 2 = 1)

/-- The `copy` methods: `none` is DKRetain; otherwise the class of the new object.  DKStringCopy (DKString.c 697-700), DKDataCopy (DKData.c 497-506),
    DKArrayCopy (DKArray.c 374-377), DKLinkedListCopy (DKLinkedList.c 640-643); DKRetain: DKString.c 124, DKData.c 80, DKArray.c 87,
    DKLinkedList.c 107, DKRuntime.c 192. -/
def copyClass (cls : Nat) : Option Nat :=
  if isMutable cls then if kind cls = .string then some 0 else some cls else none

/-- The `mutableCopy` methods.  DKStringMutableCopy (DKString.c 706-709), DKDataMutableCopy (DKData.c 512-521), DKArrayMutableCopy (DKArray.c 383-386),
    DKLinkedListMutableCopy (DKLinkedList.c 649-652); DKRetain: DKRuntime.c 193. -/
def mutableCopyClass (cls : Nat) : Option Nat :=
  match kind cls with
  | .string => some 1
  | .data => some 3
  | .array => some 5
  | .list => some 7
  | .other => none

/-- The objects, the bytes of strings and data and, for the statements only, the references the program owns. -/
structure State where
  heap : Heap
  bytes : Id → List UInt8
  client : List Id

/-- An item of a list, in a field. -/
def slot : Option Id → Slot
  | none => .null
  | some x => .strong x

/-- A new object of a class with these bytes and items; the items are retained (DKStringInitWithString, DKDataInitWithBytes,
    DKArrayInitWithCollection, DKLinkedListInitWithCollection, DKLinkedList.c 584-595). -/
def alloc (s : State) (cls : Nat) (bytes : List UInt8) (fields : List Slot) : Option (State × Id) :=
  (retains s.heap (strongs fields)).map fun h =>
    (⟨h ++ [some ⟨cls, 0, 1, fields⟩], fun i => if i = h.length then bytes else s.bytes i, h.length :: s.client⟩, h.length)

/-- DKCopy (DKCopying.c 42-51) and DKMutableCopy (57-66) with the class chosen by the method. -/
def duplicate (s : State) (i : Id) (choose : Nat → Option Nat) : Option (State × Id) :=
  (live s.heap i).bind fun o =>
    match choose o.cls with
    | some c => alloc s c (s.bytes i) o.fields
    | none => (retain s.heap i).map fun h => ({ s with heap := h, client := i :: s.client }, i)

/-- Changing the bytes of a mutable string or data, in any way; DKCheckKindOfClass refuses the others. -/
def setBytes (s : State) (i : Id) (bytes : List UInt8) : Option State :=
  (live s.heap i).map fun o =>
    if isMutable o.cls ∧ (kind o.cls = .string ∨ kind o.cls = .data) then { s with bytes := fun j => if j = i then bytes else s.bytes j } else s

/-- The items left when `length` items from `location` are replaced. -/
def splice (fields : List Slot) (location length : Nat) (objects : List (Option Id)) : List Slot :=
  fields.take location ++ objects.map slot ++ fields.drop (location + length)

/-- The objects that are passed. -/
def given (objects : List (Option Id)) : List Id := strongs (objects.map slot)

/-- DKArrayReplaceRangeWithCArray (DKArray.c 524-569) and DKLinkedListReplaceRangeWithCArray (DKLinkedList.c 766-783), for objects that the caller owns: a
    range that is not in the list, or an immutable list, is refused. -/
def change (s : State) (i : Id) (location length : Nat) (objects : List (Option Id)) : Option State :=
  (live s.heap i).bind fun o =>
    if isMutable o.cls ∧ (kind o.cls = .array ∨ kind o.cls = .list) ∧ location + length ≤ o.fields.length then
      (retains s.heap (given objects)).bind fun h =>
        (live h i).bind fun o' =>
          (release (h.set i (some { o' with fields := splice o.fields location length objects })) (strongs ((o.fields.drop location).take length))).map fun h =>
            { s with heap := h }
    else some s

/-- The calls of a program. -/
inductive Op where
  /-- A new object. -/
  | new (cls : Nat) (bytes : List UInt8) (items : List (Option Id))
  | retain (i : Id)
  | release (i : Id)
  | copy (i : Id)
  | mutableCopy (i : Id)
  | setBytes (i : Id) (bytes : List UInt8)
  | change (i : Id) (location length : Nat) (objects : List (Option Id))

/-- One call and the object it returns. -/
def step (s : State) : Op → Option (State × Option Id)
  | .new cls bytes items => (alloc s cls bytes (items.map slot)).map fun r => (r.1, some r.2)
  | .retain i => (retain s.heap i).map fun h => ({ s with heap := h, client := i :: s.client }, some i)
  | .release i => (release s.heap [i]).map fun h => ({ s with heap := h, client := s.client.erase i }, none)
  | .copy i => (duplicate s i copyClass).map fun r => (r.1, some r.2)
  | .mutableCopy i => (duplicate s i mutableCopyClass).map fun r => (r.1, some r.2)
  | .setBytes i bytes => (setBytes s i bytes).map fun s => (s, none)
  | .change i location length objects => (change s i location length objects).map fun s => (s, none)

/-! Keys of dictionaries and sets. -/

/-- DKPointerHash (DKComparison.c 66-69, DKRuntime.h 111), the hash of arrays, lists, trees, dictionaries and sets (DKArray.c 80, DKLinkedList.c 100,
    DKBinaryTree.c 94, DKHashTable.c 86), of an object at an address. -/
def pointerHash (address : Nat) : Nat := (address + 15) / 16

/-- DKHashTableCopy (DKHashTable.c 526-540) of a set: InsertKeyAndObject (305-318) copies every key, here too; `cp` is DKCopy. -/
def copySet (eqv : Nat → Nat → Bool) (cp : Nat → Nat) (s : Dict.HSet Nat) : Except HTable.Fail (Dict.HSet Nat) :=
  (HTable.entries s.rows).foldlM (fun t e => (HTable.insert pointerHash eqv t (cp e.1) e.2 .always).map (·.1)) HTable.init

/-- DKCopy of a mutable set or dictionary (DKHashTable.c 526-540) copies every key (InsertKeyAndObject, 305-318).  `keys` are the keys of the mutable
    tables, `none` for other objects; the copies themselves are left out.  `none`: the stack of calls is deeper than `fuel`. -/
def copyKeys (keys : Id → Option (List Id)) : Nat → Id → Option Unit
  | 0, _ => none
  | fuel + 1, x => match keys x with
    | none => some ()
    | some ks => ks.foldlM (fun _ k => copyKeys keys fuel k) ()

end Copying
end Duck
