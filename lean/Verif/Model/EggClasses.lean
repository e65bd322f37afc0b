import Verif.Model.Egg
/-! Model of the `addToEgg` and `initWithEgg` methods of the classes of Duck that can be archived: strings, numbers, booleans, data, lists, tables,
    pairs, structures and predicates.  They are instances of the parameters `World` and `Reader` of the model of Source/DKEgg.c.

    Simplifications: the members of lists, tables, pairs and predicates are objects (not classes or selectors); the operation of a predicate is the
    string object DKStringFromPredicateOp gives (that its name stands for one operation is C65); a table that is read is the list of its calls of
    InsertKeyAndObject (what a table makes of them is C06 and C08); the comparison function of a tree is not archived and is left out here; DKCopy of the
    semantic of a structure is the string itself, which is immutable. -/
namespace Duck
namespace Egg
open Encoding (encode getType getCount getTypeSize getSize isNumber typeGetSize)

/-- The names and keys below are ASCII. -/
def ascii (s : String) : Bytes := s.toList.map fun c => UInt8.ofNat c.toNat

/-- The classes that implement the Egg interface (DKString.c 103-203, DKNumber.c 345-404, DKBoolean.c 74, DKData.c 67-133, DKArray.c 74-164,
    DKLinkedList.c 94-184, DKHashTable.c 80-184, DKBinaryTree.c 88-192, DKPair.c 49, DKStruct.c 70, DKPredicate.c 91); the argument says whether
    the instances are mutable. -/
inductive Cls where
  | string
  | constant
  | mutableString
  | number (var : Bool)
  | boolean
  | data (isMut : Bool)
  | array (isMut : Bool)
  | linkedList (isMut : Bool)
  | hashTable (isMut : Bool)
  | tree (isMut : Bool)
  | pair
  | struct
  | predicate
deriving DecidableEq, Repr

/-- The names of the classes (as above; DKRuntime.c 417-418). -/
def Cls.name : Cls → Bytes
  | .string => ascii "DKString"
  | .constant => ascii "DKConstantString"
  | .mutableString => ascii "DKMutableString"
  | .number false => ascii "DKNumber"
  | .number true => ascii "DKVariableNumber"
  | .boolean => ascii "DKBoolean"
  | .data false => ascii "DKData"
  | .data true => ascii "DKMutableData"
  | .array false => ascii "DKArray"
  | .array true => ascii "DKMutableArray"
  | .linkedList false => ascii "DKLinkedList"
  | .linkedList true => ascii "DKMutableLinkedList"
  | .hashTable false => ascii "DKHashTable"
  | .hashTable true => ascii "DKMutablehashTable"
  | .tree false => ascii "DKBinaryTree"
  | .tree true => ascii "DKMutableBinaryTree"
  | .pair => ascii "DKPair"
  | .struct => ascii "DKStruct"
  | .predicate => ascii "DKPredicate"

/-- All of them. -/
def Cls.all : List Cls :=
  [.string, .constant, .mutableString, .number false, .number true, .boolean, .data false, .data true, .array false, .array true,
   .linkedList false, .linkedList true, .hashTable false, .hashTable true, .tree false, .tree true, .pair, .struct, .predicate]

/-- Those a program knows by name after DKRuntimeInit (DKRuntime.c 417-427, DKRuntime+Symbols.c 81-134): a class is entered in the name database when
    its accessor is first called, and DKVariableNumberClass is not among those called. -/
def startup : List Cls := Cls.all.filter (· ≠ .number true)

/-- The contents of an object; the members of collections are objects, given by numbers. -/
inductive Val where
  | str (c : Cls) (t : Bytes)
  | num (var : Bool) (enc : BitVec 32) (b : Bytes)
  | bool (b : Bool)
  | data (isMut : Bool) (tag : BitVec 32) (b : Bytes)
  | list (c : Cls) (xs : List (Option Nat))
  | table (c : Cls) (ps : List (Nat × Option Nat))
  | pair (a b : Option Nat)
  | struct (semantic : Option Nat) (b : Bytes)
  | pred (op objA keyA objB keyB : Option Nat)
deriving DecidableEq, Repr

/-- The class of an object. -/
def Val.cls : Val → Cls
  | .str c _ => c
  | .num v _ _ => .number v
  | .bool _ => .boolean
  | .data m _ _ => .data m
  | .list c _ => c
  | .table c _ => c
  | .pair _ _ => .pair
  | .struct _ _ => .struct
  | .pred _ _ _ _ _ => .predicate

/-- DKEncodingTypeIsNumber (DKEncoding.h 131). -/
def typeIsNumber (t : BitVec 32) : Bool := 8 ≤ t.toNat && t.toNat ≤ 25

/-- DKDataAddToEgg (DKData.c 368-391). -/
def putsData (tag : BitVec 32) (b : Bytes) : List Put :=
  if typeIsNumber tag then [.number (ascii "data") (encode tag (BitVec.ofNat 32 (b.length / typeGetSize tag))) b]
  else if 0 < b.length then [.binary (ascii "data") b] else []

/-- The `addToEgg` methods (DKString.c 661-667, DKNumber.c 559-563, DKBoolean.c 174-177, DKData.c 368-391, DKArray.c 361-368, DKLinkedList.c 627-634,
    DKHashTable.c 513-520, DKBinaryTree.c 777-784, DKPair.c 121-127, DKStruct.c 197-203, DKPredicate.c 166-176). -/
def Val.puts : Val → List Put
  | .str _ t => if 0 < t.length then [.text (ascii "str") t] else []
  | .num _ e b => [.number (ascii "value") e b]
  | .bool b => [.number (ascii "value") (encode 8 1) [if b then 1 else 0]]
  | .data _ tag b => putsData tag b
  | .list _ xs => [.coll (ascii "objects") xs]
  | .table _ ps => [.keyed (ascii "pairs") ps]
  | .pair a b => [.object (ascii "first") (a.map .obj), .object (ascii "second") (b.map .obj)]
  | .struct s b => [.object (ascii "semantic") (s.map .obj), .binary (ascii "value") b]
  | .pred op a ka b kb =>
    [.object (ascii "op") (op.map .obj), .object (ascii "obj_a") (a.map .obj), .object (ascii "key_a") (ka.map .obj),
     .object (ascii "obj_b") (b.map .obj), .object (ascii "key_b") (kb.map .obj)]

/-- What the `initWithEgg` methods read (DKString.c 647-655, DKNumber.c 528-553, DKBoolean.c 159-168, DKData.c 334-362, DKArray.c 343-355,
    DKLinkedList.c 610-621, DKHashTable.c 496-507, DKBinaryTree.c 760-771, DKPair.c 104-115, DKStruct.c 183-191, DKPredicate.c 148-160).  DKData reads
    numbers or bytes depending on the encoding; here it reads both and uses one. -/
def Cls.gets : Cls → List (Kind × Bytes)
  | .string | .constant | .mutableString => [(.text, ascii "str")]
  | .number _ => [(.encoding, ascii "value"), (.number, ascii "value")]
  | .boolean => [(.number, ascii "value")]
  | .data _ => [(.encoding, ascii "data"), (.number, ascii "data"), (.binary, ascii "data")]
  | .array _ | .linkedList _ => [(.coll, ascii "objects")]
  | .hashTable _ | .tree _ => [(.keyed, ascii "pairs")]
  | .pair => [(.object, ascii "first"), (.object, ascii "second")]
  | .struct => [(.object, ascii "semantic"), (.binary, ascii "value")]
  | .predicate => [(.object, ascii "op"), (.object, ascii "obj_a"), (.object, ascii "key_a"), (.object, ascii "obj_b"), (.object, ascii "key_b")]

/-- The objects of a program, as the archiver sees them. -/
def worldOf (H : Nat → Val) : World := ⟨fun _ => true, fun o => (H o).cls.name, fun o => (H o).puts⟩

/-- A program that knows the classes `known` by name. -/
def readerOf (known : List Cls) : Reader :=
  ⟨fun n => known.any (·.name == n), fun _ => false, fun n => known.any (·.name == n),
   fun n => match known.find? (·.name == n) with
     | some c => c.gets
     | none => []⟩

/-- CopySubstring (DKString.c 320-340): an empty string is the constant one. -/
def copySubstring (t : Bytes) : Val := if t.length = 0 then .str .constant [] else .str .string t

/-- InitString (DKString.c 344-373); `consts` says which constant strings the program has, and __DKStringGetConstantString looks for a C string. -/
def initString (consts : Bytes → Bool) (c : Cls) (t : Bytes) : Val :=
  match c with
  | .constant => if consts (t.takeWhile (· ≠ 0)) then .str .constant (t.takeWhile (· ≠ 0)) else copySubstring t
  | .mutableString => .str .mutableString t
  | _ => copySubstring t

/-- A reference to an object. -/
def objOf : Option NRef → Option (Option Nat)
  | none => some none
  | some (.obj i) => some (some i)
  | some _ => none

/-- What the `initWithEgg` methods make of what they read (lines as for `Cls.gets`).  A number without a value is undefined (DKNumber.c 544), and
    DKStructInit makes no empty structure (DKStruct.c 159-160): `none`. -/
def build (consts : Bytes → Bool) : Cls → List Got → Option Val
  | .string, [.text t] => some (initString consts .string (t.getD []))
  | .constant, [.text t] => some (initString consts .constant (t.getD []))
  | .mutableString, [.text t] => some (initString consts .mutableString (t.getD []))
  | .number v, [.encoding e, .number n] => n.map fun n => .num v e n.2
  | .boolean, [.number (some (_, [x]))] => some (.bool (x != 0))
  | .data m, [.encoding e, .number n, .binary b] =>
    if isNumber e then n.map fun n => .data m (getType e) n.2 else some (.data m 0 (b.getD []))
  | .array m, [.coll xs] => some (.list (.array m) xs)
  | .linkedList m, [.coll xs] => some (.list (.linkedList m) xs)
  | .hashTable m, [.keyed ps] => some (.table (.hashTable m) ps)
  | .tree m, [.keyed ps] => some (.table (.tree m) ps)
  | .pair, [.object a, .object b] => (objOf a).bind fun a => (objOf b).map fun b => .pair a b
  | .struct, [.object s, .binary (some b)] => if b.length = 0 then none else (objOf s).map fun s => .struct s b
  | .predicate, [.object op, .object a, .object ka, .object b, .object kb] =>
    (objOf op).bind fun op => (objOf a).bind fun a => (objOf ka).bind fun ka => (objOf b).bind fun b => (objOf kb).map fun kb => .pred op a ka b kb
  | _, _ => none

/-- The objects of the program that has read an archive. -/
def rebuilt (consts : Bytes → Bool) (known : List Cls) (st : USt) (id : Nat) : Option Val :=
  (st.heap.lookup id).bind fun e => (known.find? (·.name == e.1)).bind fun c => build consts c e.2

end Egg
end Duck
