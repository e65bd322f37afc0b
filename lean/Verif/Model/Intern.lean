import Verif.Model.Data
/-!
# Model of strings and the table of constant strings in one program (Source/DKString.c)

A program of any number of string objects: constant strings, which are shared, immutable strings and mutable strings, with their cached hash codes.  The empty
immutable string is the constant string `DKSTR( "" )` (323-324).  A text in memory of the caller is given with the bytes that follow it.  Objects are not freed.

The table of constant strings is a list of rows: as no call of the program changes the hash of a constant string that is not empty, a lookup by
DKGenericHashTableFind (2694, C06) finds the row that DKConstantStringTableRowEqual says is equal.  Not modelled: DKStringInitWithString for the class of constant
strings, which overwrites the hash of the constant string it finds; threads (Model/ConstString.lean); cursors (Model/Data.lean).
-/
namespace Duck
namespace Intern

/-- DKConstantStringClass, DKStringClass, DKMutableStringClass. -/
inductive Cls where
  | constant
  | plain
  | changeable
deriving DecidableEq, Repr

/-- struct DKString (DKString.c 52-60), without the cursor; the bytes are followed by NULs (C02). -/
structure Obj where
  cls : Cls
  bytes : List UInt8
  hash : BitVec 64
deriving DecidableEq, Repr

/-- The strings of the program, and DKConstantStringTable (2591). -/
structure State where
  objs : List Obj
  rows : List Nat
deriving DecidableEq, Repr

/-- What a call answers. -/
inductive Out where
  | nothing
  | obj (i : Nat)
  | bool (b : Bool)
  | hash (h : BitVec 64)
  | bytes (xs : List UInt8)
deriving DecidableEq, Repr

/-- UpdateHash (270-277). -/
def updateHash (o : Obj) : Obj :=
  if o.hash = 0 then (if o.bytes.length > 0 then { o with hash := Data.strhash o.bytes } else o) else o

/-- TestEquality (283-295) of different objects. -/
def testEquality (a b : Obj) : Bool :=
  if (updateHash a).hash ≠ (updateHash b).hash then false else Data.cstr (updateHash a).bytes == Data.cstr (updateHash b).bytes

/-- DKGenericHashTableFind for a text (2670-2694); the row is compared by DKConstantStringTableRowEqual (2607-2613). -/
def find (s : State) (text : List UInt8) : Option Nat :=
  s.rows.find? fun p => match s.objs[p]? with
    | some o => testEquality o ⟨.constant, text, Data.strhash text⟩
    | none => false

/-- A new object (DKAllocObject). -/
def State.push (s : State) (o : Obj) : State × Nat := (⟨s.objs ++ [o], s.rows⟩, s.objs.length)

/-- __DKStringGetConstantString( text, true ) (2638-2736). -/
def getConstant (s : State) (text : List UInt8) : State × Nat :=
  match find s text with
  | some p => (s, p)
  | none => (⟨s.objs ++ [⟨.constant, text, Data.strhash text⟩], s.rows ++ [s.objs.length]⟩, s.objs.length)

/-- CopySubstring (321-338) of these bytes. -/
def copySubstring (s : State) (bytes : List UInt8) : State × Nat :=
  if bytes.length = 0 then getConstant s [] else s.push ⟨.plain, bytes, 0⟩

/-- The bytes a call is given: `length` bytes of memory. -/
def given (mem : List UInt8) (length : Nat) : Option (List UInt8) := if length ≤ mem.length then some (mem.take length) else none

/-- strlen of memory: there must be a NUL. -/
def cstring (mem : List UInt8) : Option (List UInt8) := if 0 ∈ mem then some (Data.cstr mem) else none

/-- InitString (344-373). -/
def initString (s : State) (cls : Cls) (mem : List UInt8) (length : Nat) : Option (State × Nat) :=
  match cls with
  | .plain => (given mem length).map (copySubstring s)
  | .constant => (cstring mem).bind fun text => match find s text with
      | some p => some (s, p)
      | none => (given mem length).map (copySubstring s)
  | .changeable => (given mem length).map fun bytes => s.push ⟨.changeable, bytes, 0⟩

/-- The hash of an object is overwritten. -/
def State.setHash (s : State) (i : Nat) (h : BitVec 64) : State := ⟨s.objs.modify i fun o => { o with hash := h }, s.rows⟩

/-- DKStringInitWithString (449-469) for DKStringClass or DKMutableStringClass. -/
def initWithString (s : State) (isMutable : Bool) (o : Obj) : State × Nat :=
  let r := if isMutable then s.push ⟨.changeable, o.bytes, 0⟩ else copySubstring s o.bytes
  (r.1.setHash r.2 o.hash, r.2)

/-- The calls of a program. -/
inductive Op where
  /-- DKSTR (DKPlatform.h 245); the text has no NUL -/
  | literal (text : List UInt8)
  /-- DKStringInitWithBytes (517-522), or DKStringInitWithCString (475-484) where the length is that of the C string; also DKStringInit (423-426). -/
  | init (cls : Cls) (mem : List UInt8) (length : Nat)
  /-- DKStringInitWithString -/
  | initWithString (isMutable : Bool) (i : Nat)
  /-- DKCopy: DKRetain, or DKStringCopy (697-700) -/
  | copy (i : Nat)
  /-- DKMutableCopy: DKStringMutableCopy (706-709) -/
  | mutableCopy (i : Nat)
  /-- DKStringMakeImmutable (673-682) -/
  | makeImmutable (i : Nat)
  /-- ReplaceBytes (311-315), by which mutable strings are edited: DKStringAppend..., DKStringReplace..., DKStringSet..., DKStringWrite -/
  | replace (i loc len : Nat) (xs : List UInt8)
  /-- DKStringSetByteLength (919-937) -/
  | setByteLength (i n : Nat)
  /-- CopySubstring of a range of a string: DKStringCopySubstring (1047-1138), path components (1391, 1786, 1853), splitting (1216-1226) -/
  | substring (i loc len : Nat)
  /-- DKHash: DKStringHash (815-827) -/
  | hash (i : Nat)
  /-- DKEqual: DKStringEqual (715-725) -/
  | equal (i j : Nat)
  /-- DKStringGetByteLength, DKStringGetBytePtr -/
  | read (i : Nat)

/-- An edit of a mutable string, refused for others (DKCheckKindOfClass). -/
def edit (s : State) (i : Nat) (f : Obj → Obj) : Option (State × Out) :=
  (s.objs[i]?).map fun o => if o.cls = .changeable then (⟨s.objs.set i (f o), s.rows⟩, .nothing) else (s, .nothing)

/-- A result that is an object. -/
def ofNew (r : State × Nat) : State × Out := (r.1, .obj r.2)

/-- One call; `none` if memory is read outside of what is given, or the object does not exist. -/
def step (s : State) : Op → Option (State × Out)
  | .literal text => some (ofNew (getConstant s text))
  | .init cls mem length => (initString s cls mem length).map ofNew
  | .initWithString isMutable i => (s.objs[i]?).map fun o => ofNew (initWithString s isMutable o)
  | .copy i => (s.objs[i]?).map fun o => if o.cls = .changeable then ofNew (initWithString s false o) else (s, .obj i)
  | .mutableCopy i => (s.objs[i]?).map fun o => ofNew (initWithString s true o)
  | .makeImmutable i => edit s i fun o => { o with cls := .plain }
  | .replace i loc len xs => edit s i fun o => if loc + len ≤ o.bytes.length then { o with bytes := o.bytes.take loc ++ xs ++ o.bytes.drop (loc + len), hash := 0 } else o
  | .setByteLength i n => edit s i fun o => { o with bytes := o.bytes.take n ++ List.replicate (n - o.bytes.length) 0 }
  | .substring i loc len => (s.objs[i]?).bind fun o => if loc + len ≤ o.bytes.length then some (ofNew (copySubstring s ((o.bytes.drop loc).take len))) else none
  | .hash i => (s.objs[i]?).map fun o => (⟨s.objs.set i (updateHash o), s.rows⟩, .hash (updateHash o).hash)
  | .equal i j => (s.objs[i]?).bind fun a => (s.objs[j]?).map fun b =>
      if i = j then (s, .bool true) else (⟨(s.objs.set i (updateHash a)).set j (updateHash b), s.rows⟩, .bool (testEquality a b))
  | .read i => (s.objs[i]?).map fun o => (s, .bytes o.bytes)

/-- A program begins without strings.  (The library has made constant strings before; they are like literals of the program.) -/
def start : State := ⟨[], []⟩

/-- A whole program, and the answers of its calls. -/
def run : State → List Op → Option (State × List Out)
  | s, [] => some (s, [])
  | s, op :: ops => (step s op).bind fun r => (run r.1 ops).map fun q => (q.1, r.2 :: q.2)

end Intern
end Duck
