import Verif.Model.HashTable
import Verif.Model.Data
/-! Model of `DKEnum` (Source/DKEnum.c, Source/DKEnum.h): names and 64-bit values in a hash table whose rows are
    `struct DKEnumEntry` (38-42).  The row callbacks (71-120) behave like those of `DKHashTable`: an active row keeps
    its string and takes the new value, so the table of `Model/HashTable.lean` is used as it is.
    Simplified: the strings are their bytes (a C string has no zero byte) and their reference counts are left out;
    DKEnumFromString64 dereferences its enumeration without a check, so it is only modelled for one that exists. -/
namespace Duck
namespace Enum
open HTable

/-- The bytes of a name. -/
abbrev Name := List UInt8

/-- What can be looked up: a string, or NULL. -/
abbrev Key := Option Name

/-- RowHash (77-81): DKHash of a string (DKString.c 270-277, 815-828; DKPlatform.c 549-560), 0 for NULL
    (DKComparison.c 113-121). -/
def hashKey : Key → Nat
  | none => 0
  | some s => (Data.hash s).toNat

/-- RowEqual (83-89): DKEqual (DKComparison.c 65-80) on strings compares their bytes (DKString.c 283-295). -/
def eqKey (a b : Key) : Bool := a == b

/-- struct DKEnum (44-49). -/
abbrev Enum := Table Key (BitVec 64)

/-- One round of the loops 178-187 and 210-219. -/
def add (e : Enum) (x : Name × BitVec 64) : Except Fail Enum :=
  (HTable.insert hashKey eqKey e (some x.1) x.2 .always).map (·.1)

/-- DKEnumInitWithCStringsAndValues64 (199-225), DKDefineEnum64 (DKEnum.h). -/
def init64 (l : List (Name × BitVec 64)) : Except Fail Enum := l.foldlM add HTable.init

/-- DKEnumInitWithCStringsAndValues (167-193), DKDefineEnum (DKEnum.h): each value is an `int`, widened. -/
def init32 (l : List (Name × BitVec 32)) : Except Fail Enum := init64 (l.map fun x => (x.1, x.2.signExtend 64))

/-- DKEnumFromString64 (231-243). -/
def fromString64 (e : Enum) (s : Key) : Except Fail (BitVec 64) :=
  (HTable.get hashKey eqKey e s).map fun r => match r with | some v => v | none => 0

/-- DKEnumFromString (DKEnum.h): cast to `int`. -/
def fromString (e : Enum) (s : Key) : Except Fail (BitVec 32) := (fromString64 e s).map fun v => v.truncate 32

/-- The loop 255-268: the first active row with that value. -/
def scan (v : BitVec 64) : List (Row Key (BitVec 64)) → Key
  | [] => none
  | .active s w :: rows => if w = v then s else scan v rows
  | _ :: rows => scan v rows

/-- DKStringFromEnum64 (249-272); `none` is a NULL enumeration. -/
def stringFromEnum64 (e : Option Enum) (v : BitVec 64) : Key :=
  match e with
  | some e => scan v e.rows
  | none => none

/-- DKStringFromEnum (DKEnum.h) with an `int`: widened. -/
def stringFromEnum (e : Option Enum) (v : BitVec 32) : Key := stringFromEnum64 e (v.signExtend 64)

end Enum
end Duck
