import Verif.Model.Number
import Verif.Model.Enum
/-! Model of the properties of an object that hold values: numbers, enumerations and structures
    (Source/DKRuntime+Properties.c 123-291, 469-633, 672-744, 763-1196), read and written as objects, as numbers, as
    structures and as truth values, and of properties that hold boxed numbers and structures.
    Modelled for properties without a custom getter, setter or observer, in classes without a Property interface.
    An object is its bytes and the objects its fields refer to.  `none` is undefined behaviour: access outside the object
    or outside a value, or a conversion C leaves undefined.  Simplified: reference counts are left out (Model/Property.lean
    has them for object properties); the table of a class is a list; warnings are not recorded. -/
namespace Duck
namespace ValueProp
open Number (Mem Enc Ty vec leBytes)

/-- The bytes of a string. -/
abbrev Name := List UInt8

/-- What an object reference can be.  A DKBoolean is a DKNumber of type `bool` (DKBoolean.c 45-75, DKBoolean.h 36), an
    8-bit integer.  `other` stands for the objects of every other class. -/
inductive Val where
  | null
  | num (n : Number.Obj)
  | struct (sem : Option Name) (bytes : Mem)
  | str (s : Name)
  | other (i : Nat)

/-- What the property is stored as (DKInstallObjectProperty, NumberProperty, EnumProperty, StructProperty, 123-291).
    Object properties have a place among the references, the others an offset in the bytes. -/
inductive Kind where
  | object (slot : Nat) (weak : Bool) (accepts : Val → Bool)
  | number (off : Nat) (enc : Enc)
  | enum (off : Nat) (enc : Enc) (type : Enum.Enum)
  | struct (off size : Nat)

/-- struct DKProperty (DKRuntime.h 620-642). -/
structure Definition where
  name : Name
  semantic : Option Name
  readOnly : Bool
  kind : Kind

/-- An object. -/
structure Obj where
  mem : Mem
  refs : List Val

/-- DKGetPropertyDefinition (314-333). -/
def lookup (T : List Definition) (name : Name) : Option Definition := T.find? fun p => p.name = name

/-- Bytes `off` to `off + n` of the object. -/
def bytesAt (m : Mem) (off n : Nat) : Mem := (m.drop off).take n

/-- DKNumberConvert to the address `off` in the object; it may write up to the end of the object. -/
def convertTo (m : Mem) (off : Nat) (de : Enc) (src : Mem) (se : Enc) : Option (Nat × Mem) :=
  (Number.convert src se (m.drop off) de).map fun r => (r.1, m.take off ++ r.2)

/-- memcpy to the address `off` in the object. -/
def copyTo (m : Mem) (off : Nat) (src : Mem) : Option Mem :=
  if off + src.length ≤ m.length then some (m.take off ++ src ++ m.drop (off + src.length)) else none

/-- DKStringEqualToString (DKString.c 753-764) with a second string that is not NULL. -/
def sameString (a : Option Name) (b : Name) : Bool := a == some b

/-- CheckSemanticRequirement (413-422). -/
def semanticOk (p : Definition) (sem : Option Name) : Bool :=
  match p.semantic with
  | none => true
  | some s => sameString sem s

/-- DKNewStruct (DKStruct.h 48, DKStruct.c 149-178): NULL if there are no bytes. -/
def newStruct (sem : Option Name) (bytes : Mem) : Val := if bytes.length = 0 then .null else .struct sem bytes

/-- DKStructGetValue (DKStruct.c 345-378): the bytes, or `none` for its 0.  DKEqual on semantics (DKComparison.c 65-80): both
    NULL or equal strings. -/
def structValue (sem : Option Name) (bytes : Mem) (wanted : Option Name) (size : Nat) : Option Mem :=
  if size = bytes.length then (if sem = wanted then some bytes else none) else none

/-- DKEncodingGetSize of DKEncode( DKEncodingTypeBinaryData, size ) (DKEncoding.h 106-108): 24 bits. -/
def packedSize (size : Nat) : Nat := size % 2 ^ 24

/-- The encoding `int` (DKEncodeIntegerType( int ), DKEncoding.h 119). -/
def intEnc : Enc := vec .i32 1

/-! ### DKWritePropertyObject (469-554) -/

/-- 486-513; the object is kept by its owner. -/
def writeRef (o : Obj) (slot : Nat) (accepts : Val → Bool) (x : Val) : Option Obj :=
  if accepts x then (if slot < o.refs.length then some { o with refs := o.refs.set slot x } else none) else some o

/-- 532-541: DKNumberCastValue (DKNumber.c 691-703) is DKNumberConvert. -/
def writeNumber (o : Obj) (off : Nat) (enc : Enc) (n : Number.Obj) : Option Obj :=
  (convertTo o.mem off enc n.value n.enc).map fun r => { o with mem := r.2 }

/-- 544-552. -/
def writeStruct (o : Obj) (p : Definition) (off size : Nat) (sem : Option Name) (bytes : Mem) : Option Obj :=
  match structValue sem bytes p.semantic size with
  | some b => (copyTo o.mem off b).map fun m => { o with mem := m }
  | none => some o

/-- An `int` as a value. -/
def intBytes (v : BitVec 32) : Mem := leBytes 4 v.toNat

/-- 517-529: a string for an enumeration.  A failing lookup is undefined behaviour (Model/HashTable.lean). -/
def writeName (o : Obj) (off : Nat) (enc : Enc) (e : Enum.Enum) (s : Name) : Option Obj :=
  match Enum.fromString e (some s) with
  | .ok v => (convertTo o.mem off enc (intBytes v) intEnc).map fun r => { o with mem := r.2 }
  | .error _ => none

/-- A value for a number or an enumeration. -/
def writeValue (o : Obj) (p : Definition) (off : Nat) (enc : Enc) (x : Val) : Option Obj :=
  match x with
  | .num n => writeNumber o off enc n
  | .struct sem b => writeStruct o p off enc.size sem b
  | _ => some o

/-- DKWritePropertyObject (469-554). -/
def writeObject (o : Obj) (p : Definition) (x : Val) : Option Obj :=
  match p.kind with
  | .object slot _ accepts => writeRef o slot accepts x
  | .number off enc => writeValue o p off enc x
  | .enum off enc e =>
    match x with
    | .str s => writeName o off enc e s
    | x => writeValue o p off enc x
  | .struct off size =>
    match x with
    | .struct sem b => writeStruct o p off (packedSize size) sem b
    | _ => some o

/-- DKTrySetProperty (672-701), DKSetProperty. -/
def setObject (T : List Definition) (o : Obj) (name : Name) (x : Val) : Option Obj :=
  match lookup T name with
  | none => some o
  | some p => if p.readOnly then some o else writeObject o p x

/-! ### DKReadPropertyObject (561-633) -/

/-- 598-609. -/
def readName (o : Obj) (off : Nat) (enc : Enc) (e : Enum.Enum) : Option Val :=
  (Number.convert (bytesAt o.mem off enc.size) enc (List.replicate 4 0) intEnc).bind fun r =>
    (Number.read r.2 0 4).map fun v =>
      match Enum.stringFromEnum (some e) (BitVec.ofNat 32 v) with
      | some s => .str s
      | none => .null

/-- 612-619; DKNumberInit (DKNumber.c 447-487) copies the bytes. -/
def readNumber (o : Obj) (off : Nat) (enc : Enc) : Option Val :=
  if off + enc.size ≤ o.mem.length then some (.num ⟨enc, bytesAt o.mem off enc.size⟩) else none

/-- 622-632. -/
def readStruct (o : Obj) (p : Definition) (off size : Nat) : Option Val :=
  match p.semantic with
  | some s => if off + size ≤ o.mem.length then some (newStruct (some s) (bytesAt o.mem off size)) else none
  | none => some .null

/-- DKReadPropertyObject (561-633). -/
def readObject (o : Obj) (p : Definition) : Option Val :=
  match p.kind with
  | .object slot _ _ => o.refs[slot]?
  | .number off enc => readNumber o off enc
  | .enum off enc e => readName o off enc e
  | .struct off size => readStruct o p off (packedSize size)

/-- DKTryGetProperty (720-744), DKGetProperty. -/
def getObject (T : List Definition) (o : Obj) (name : Name) : Option Val :=
  match lookup T name with
  | none => some .null
  | some p => readObject o p

/-! ### Numbers (763-913) -/

/-- Store a new object into an object property and release it (796-800, 960-966): through a weak reference nothing is left of
    it. -/
def writeNew (o : Obj) (slot : Nat) (weak : Bool) (accepts : Val → Bool) (x : Val) : Option Obj :=
  if accepts x then (if slot < o.refs.length then some { o with refs := o.refs.set slot (if weak then .null else x) } else none)
  else some o

/-- DKSetNumberProperty (766-820). -/
def setNumber (T : List Definition) (o : Obj) (name : Name) (src : Mem) (se : Enc) : Option Obj :=
  match lookup T name with
  | none => some o
  | some p =>
    if p.readOnly then some o
    else match p.kind with
      | .object slot weak accepts => writeNew o slot weak accepts (.num ⟨se, src⟩)
      | .number off enc => (convertTo o.mem off enc src se).map fun r => { o with mem := r.2 }
      | .enum off enc _ => (convertTo o.mem off enc src se).map fun r => { o with mem := r.2 }
      | .struct _ _ => some o

/-- UnpackNumber (835-851): how many values, and the caller's memory. -/
def unpackNumber (x : Val) (dst : Mem) (de : Enc) : Option (Nat × Mem) :=
  match x with
  | .null => if de.size ≤ dst.length then some (de.count, List.replicate de.size 0 ++ dst.drop de.size) else none
  | .num n => Number.convert n.value n.enc dst de
  | _ => some (0, dst)

/-- DKGetNumberProperty (853-913). -/
def getNumber (T : List Definition) (o : Obj) (name : Name) (dst : Mem) (de : Enc) : Option (Nat × Mem) :=
  match lookup T name with
  | none => some (0, dst)
  | some p =>
    match p.kind with
    | .object slot _ _ => (o.refs[slot]?).bind fun x => unpackNumber x dst de
    | .number off enc => Number.convert (bytesAt o.mem off enc.size) enc dst de
    | .enum off enc _ => Number.convert (bytesAt o.mem off enc.size) enc dst de
    | .struct _ _ => some (0, dst)

/-- DKGetIntegerProperty, DKGetFloatProperty, DKGetEnumProperty (1142-1196): the pattern, 0 without a value. -/
def getScalar (T : List Definition) (o : Obj) (name : Name) (t : Ty) : Option Nat :=
  (getNumber T o name (List.replicate t.size 0) (vec t 1)).bind fun r => if r.1 ≠ 0 then Number.read r.2 0 t.size else some 0

/-- DKSetIntegerProperty, DKSetFloatProperty, DKSetEnumProperty (1133-1182). -/
def setScalar (T : List Definition) (o : Obj) (name : Name) (t : Ty) (b : Nat) : Option Obj :=
  setNumber T o name (leBytes t.size b) (vec t 1)

/-! ### Structures (932-1077) -/

/-- DKSetStructProperty (935-981). -/
def setStruct (T : List Definition) (o : Obj) (name : Name) (sem : Option Name) (src : Mem) : Option Obj :=
  match lookup T name with
  | none => some o
  | some p =>
    if p.readOnly then some o
    else if semanticOk p sem then
      match p.kind with
      | .object slot weak accepts => writeNew o slot weak accepts (newStruct sem src)
      | .struct off size =>
        if packedSize size = packedSize src.length then (copyTo o.mem off src).map fun m => { o with mem := m } else some o
      | _ => some o
    else some o

/-- UnpackStructure (1001-1017): the size and the bytes, `none` for 0. -/
def unpackStruct (x : Val) (sem : Option Name) (size : Nat) : Option Mem :=
  match x with
  | .null => some (List.replicate size 0)
  | .struct s b => structValue s b sem size
  | _ => none

/-- DKGetStructProperty (1019-1077): the inner `none` is its 0, with the caller's memory untouched. -/
def getStruct (T : List Definition) (o : Obj) (name : Name) (sem : Option Name) (size : Nat) : Option (Option Mem) :=
  match lookup T name with
  | none => some none
  | some p =>
    if semanticOk p sem then
      match p.kind with
      | .object slot _ _ => (o.refs[slot]?).map fun x => unpackStruct x sem size
      | .struct off psize =>
        if packedSize psize = packedSize size then
          (if off + size ≤ o.mem.length then some (some (bytesAt o.mem off size)) else none)
        else some none
      | _ => some none
    else some none

/-! ### Truth values (1095-1127) -/

/-- DKBoolean( x ): DKTrue, DKFalse (DKBoolean.c 129-153). -/
def boolean (b : Bool) : Val := .num ⟨vec .i8 1, leBytes 1 (if b then 1 else 0)⟩

/-- DKSetBoolProperty (1098-1101). -/
def setBool (T : List Definition) (o : Obj) (name : Name) (b : Bool) : Option Obj := setObject T o name (boolean b)

/-- DKStringGetBool (DKString.c 2420-2441). -/
def stringBool : Name → Bool
  | [] => false
  | c :: _ => (48 ≤ c && c ≤ 57 && c != 48) || c == 116 || c == 84 || c == 121 || c == 89

/-- DKGetBoolProperty (1107-1127); `other` objects have no Conversion interface. -/
def getBool (T : List Definition) (o : Obj) (name : Name) : Option Bool :=
  (getObject T o name).bind fun x =>
    match x with
    | .num n => Number.getBool n
    | .str s => some (stringBool s)
    | _ => some false

end ValueProp
end Duck
