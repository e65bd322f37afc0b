import Verif.Model.Printf
import Verif.Model.Json
/-!
# Model of the descriptions of collections (Source/DKCollection.c 161-252, Source/DKDescription.c 45-83)

Arrays and linked lists use DKCollectionGetDescription (DKArray.c 95, DKLinkedList.c 115), hash tables and trees, sets among them, DKKeyedCollectionGetDescription
(DKHashTable.c 101, DKBinaryTree.c 109).  The output goes through the model of DKSPrintf (Model/Printf.lean) to a mutable string.

An object refers to others by numbers.  Members are listed in the order in which foreachObject and foreachKeyAndObject visit them.  Not modelled: the memory
for the texts, and that the texts are autoreleased.  `none`: the call does not return with the given depth of the stack, or it is undefined.
-/
namespace Duck
namespace Describe
open Printf (Arg Libc printf writeData)

/-- What the description of an object depends on.  NULL references are `none`. -/
inductive Obj where
  /-- of the string class or one of its subclasses -/
  | string (bytes : List UInt8)
  /-- any object that is neither a string nor a collection, with the description its class gives it -/
  | plain (text : List UInt8)
  /-- an array or linked list: the description of its class name and its objects -/
  | list (name : List UInt8) (items : List (Option Nat))
  /-- a dictionary or set: the description of its class name, its keys and objects -/
  | keyed (name : List UInt8) (entries : List (Option Nat × Option Nat))

abbrev Heap := Nat → Obj

/-- Decimal numeral of an `int`: at most ten digits -/
def numeral (i : Int) : List UInt8 := if i < 0 then 0x2d :: Json.decimal 19 i.natAbs else Json.decimal 19 i.natAbs

/-- `sprintf` for the only directive of the C library that is used, `%d` -/
def libc : Libc
  | [0x25, 0x64], .int v => some (numeral v.toInt)
  | _, _ => none

/-- `count`, a DKIndex, passed for `%d` (DKCollection.c 197 and 243): va_arg of an int finds the low half of the register or stack slot.  ISO C leaves it undefined
    (7.16.1.1); see `C107_count_undefined`. -/
def countArg (n : Nat) : Arg := .int (BitVec.ofNat 32 n)

/-- DKSPrintf to the string -/
def put (s : Data.Obj) (format : List UInt8) (args : List Arg) : Option Data.Obj := (printf writeData libc s format args).map (·.1)

/-- "null" -/
def nullText : List UInt8 := [0x6e, 0x75, 0x6c, 0x6c]

/-- DKIsKindOfClass( object, DKStringClass() ): false for NULL -/
def isString (h : Heap) : Option Nat → Bool
  | none => false
  | some i => match h i with
    | .string _ => true
    | _ => false

/-- `%s\"%@\"` -/
def fmtQuoted : List UInt8 := [0x25, 0x73, 0x22, 0x25, 0x40, 0x22]
/-- `%s%@` -/
def fmtPlain : List UInt8 := [0x25, 0x73, 0x25, 0x40]
/-- `%s\"%@\" = ` -/
def fmtKeyQuoted : List UInt8 := [0x25, 0x73, 0x22, 0x25, 0x40, 0x22, 0x20, 0x3d, 0x20]
/-- `%s%@ = ` -/
def fmtKeyPlain : List UInt8 := [0x25, 0x73, 0x25, 0x40, 0x20, 0x3d, 0x20]
/-- `\"%@\"` -/
def fmtObjQuoted : List UInt8 := [0x22, 0x25, 0x40, 0x22]
/-- `%@` -/
def fmtObjPlain : List UInt8 := [0x25, 0x40]
/-- `%@, %d objects = (` -/
def fmtHead : List UInt8 := "%@, %d objects = (".toUTF8.data.toList
/-- `\n)` -/
def fmtTail : List UInt8 := [0x0a, 0x29]

/-- `prefix`, DKCollection.c 176 and 216: "\n    " or ",\n    " -/
def pre (n : Nat) : List UInt8 := if n = 0 then [0x0a, 0x20, 0x20, 0x20, 0x20] else [0x2c, 0x0a, 0x20, 0x20, 0x20, 0x20]

/-- PrintDescriptionCallback, DKCollection.c 172-187: the stream after the object; `rec` is the description of an object (DKStream.c 411) -/
def item (h : Heap) (rec : Option Nat → Option (List UInt8)) (s : Data.Obj) (n : Nat) (o : Option Nat) : Option Data.Obj :=
  (rec o).bind fun d =>
    if isString h o then put s fmtQuoted [.cstr (some (pre n)), .obj d] else put s fmtPlain [.cstr (some (pre n)), .obj d]

/-- foreachObject with the callback, which never stops it; `n` is the number of objects so far -/
def items (h : Heap) (rec : Option Nat → Option (List UInt8)) : Data.Obj → Nat → List (Option Nat) → Option Data.Obj
  | s, _, [] => some s
  | s, n, o :: os => (item h rec s n o).bind fun s => items h rec s (n + 1) os

/-- PrintKeyedDescriptionCallback, DKCollection.c 212-233 -/
def entry (h : Heap) (rec : Option Nat → Option (List UInt8)) (s : Data.Obj) (n : Nat) (e : Option Nat × Option Nat) : Option Data.Obj :=
  (rec e.1).bind fun k =>
    (if isString h e.1 then put s fmtKeyQuoted [.cstr (some (pre n)), .obj k] else put s fmtKeyPlain [.cstr (some (pre n)), .obj k]).bind fun s =>
      (rec e.2).bind fun d => if isString h e.2 then put s fmtObjQuoted [.obj d] else put s fmtObjPlain [.obj d]

/-- foreachKeyAndObject with the callback -/
def entries (h : Heap) (rec : Option Nat → Option (List UInt8)) : Data.Obj → Nat → List (Option Nat × Option Nat) → Option Data.Obj
  | s, _, [] => some s
  | s, n, e :: es => (entry h rec s n e).bind fun s => entries h rec s (n + 1) es

/-- DKCollectionGetDescription and DKKeyedCollectionGetDescription, DKCollection.c 189-206 and 235-252: the head, the members, the tail -/
def collection (name : List UInt8) (count : Nat) (body : Data.Obj → Option Data.Obj) : Option (List UInt8) :=
  (put ⟨[], 0⟩ fmtHead [.obj name, countArg count]).bind fun s => (body s).bind fun s => (put s fmtTail []).map (·.bytes)

/-- DKGetDescription of an object that is not NULL, given the descriptions of others -/
def ofObj (h : Heap) (rec : Option Nat → Option (List UInt8)) : Obj → Option (List UInt8)
  | .string b => some b
  | .plain t => some t
  | .list name os => collection name os.length fun s => items h rec s 0 os
  | .keyed name es => collection name es.length fun s => entries h rec s 0 es

/-- DKGetDescription, DKDescription.c 74-83, with room for a number of nested calls -/
def describe (h : Heap) : Nat → Option Nat → Option (List UInt8)
  | 0, _ => none
  | _ + 1, none => some nullText
  | depth + 1, some i => ofObj h (describe h depth) (h i)

end Describe
end Duck
