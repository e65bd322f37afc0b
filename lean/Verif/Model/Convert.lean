import Verif.Model.Number
import Verif.Model.StrToNum
import Verif.Model.Json
/-
Model of the conversions between objects, numbers and texts: DKConversion.c 41-135, DKNumberFormatString (DKNumber.c 980-1038) and
DKStringGetBool, GetInt32 and GetInt64 (DKString.c 2415-2475).  The conversions of numbers are `Number.getScalar` and
`Number.getBool`.

Simplifications: the text of a floating point element ("%f" of the C library) is a parameter, `real`; DKSPrintf( "%d" ), "%u" and
PRId64, PRIu64 are decimal numerals (the directives of DKSPrintf are the subject of `Printf`).  `strtol` is modelled as ISO C 7.22.1.4
defines it in base 10 in the "C" locale, with a 64-bit `long`.  DKStringGetFloat and DKStringGetDouble (strtof, strtod) are not modelled.
-/
namespace Duck
namespace Convert
open Unicode (Mem)

/-- What the conversions distinguish: numbers, the two booleans (numbers of type uint8, DKBoolean.c 45-153), strings, and objects
without a Conversion interface. -/
inductive Obj where
  | number (a : Number.Obj)
  | boolean (b : Bool)
  | string (bytes : List UInt8)
  | other

/-- The value in DKTrue and DKFalse (DKBoolean.c 45-57, 129-153): DKNumberBoolean is a scalar of type uint8. -/
def boolNumber (b : Bool) : Number.Obj := ⟨Number.vec .u8 1, [if b then 1 else 0]⟩

/-- `DKSPrintf( desc, fmt, value )` of one element (DKNumber.c 993, 999-1010). -/
def elemText (real : Number.Ty → Nat → List UInt8) (t : Number.Ty) (b : Nat) : List UInt8 :=
  match t.fmt with
  | some _ => real t b
  | none => if Number.intVal t b < 0 then 0x2d :: Json.decimal 19 (Number.intVal t b).natAbs
            else Json.decimal 19 (Number.intVal t b).natAbs

/-- `_self->value._type[i]`. -/
def element (a : Number.Obj) (i : Nat) : Option Nat := Number.read a.value (i * a.enc.ty.size) a.enc.ty.size

/-- The loop of PRINT (DKNumber.c 994-995): `n` elements remain, from `i`. -/
def formatLoop (real : Number.Ty → Nat → List UInt8) (sep : List UInt8) (a : Number.Obj) : Nat → Nat → List UInt8 → Option (List UInt8)
  | 0, _, desc => some desc
  | n + 1, i, desc => (element a i).bind fun b => formatLoop real sep a n (i + 1) (desc ++ sep ++ elemText real a.enc.ty b)

/-- DKNumberFormatString (DKNumber.c 980-1022), not NULL. -/
def formatString (real : Number.Ty → Nat → List UInt8) (sep : List UInt8) (a : Number.Obj) : Option (List UInt8) :=
  (element a 0).bind fun b => formatLoop real sep a (a.enc.count - 1) 1 (elemText real a.enc.ty b)

/-- DKNumberGetDescription (DKNumber.c 1028-1031). -/
def description (real : Number.Ty → Nat → List UInt8) (a : Number.Obj) : Option (List UInt8) := formatString real [0x20] a

/-- The digits of strtol, without a limit. -/
def digitRun : Mem → Option (List UInt8 × Mem)
  | [] => none
  | b :: m => if Num.isDigit b then (digitRun m).map fun r => (b :: r.1, r.2) else some ([], b :: m)

/-- The number of a run of digits. -/
def digitValue (ds : List UInt8) : Nat := ds.foldl (fun a b => a * 10 + (b.toNat - 48)) 0

/-- LONG_MIN and LONG_MAX instead of a value out of range. -/
def saturate (i : Int) : Int := if i < -(2 ^ 63) then -(2 ^ 63) else if 2 ^ 63 ≤ i then 2 ^ 63 - 1 else i

/-- strtol( str, NULL, 10 ): white space, an optional sign, digits; 0 without digits. -/
def strtol (m : Mem) : Option Int :=
  (Num.skipWs m).bind fun m => (Num.sign m).bind fun s => (digitRun s.2).map fun d =>
    if s.1 then saturate (-(digitValue d.1 : Int)) else saturate (digitValue d.1)

/-- `isdigit( c ) && (c != '0')` or one of "tTyY" (DKString.c 2432-2436). -/
def yes (c : UInt8) : Bool := (Num.isDigit c && c != 0x30) || (c == 0x74 || c == 0x54 || c == 0x79 || c == 0x59)

/-- DKStringGetBool (DKString.c 2417-2441). -/
def stringBool (bytes : List UInt8) : Bool :=
  match bytes with
  | [] => false
  | c :: _ => yes c

/-- The bytes of a string in memory, with the terminator that the byte array keeps (DKByteArray.c). -/
def memory (bytes : List UInt8) : Mem := bytes ++ [0]

/-- DKStringGetInt64 (DKString.c 2464-2475, DKPlatform.h 878). -/
def stringInt64 (bytes : List UInt8) : Option Int := if 0 < bytes.length then strtol (memory bytes) else some 0

/-- `(int32_t)x` of a `long`. -/
def toInt32 (i : Int) : Int := if i % 2 ^ 32 < 2 ^ 31 then i % 2 ^ 32 else i % 2 ^ 32 - 2 ^ 32

/-- DKStringGetInt32 (DKString.c 2447-2458, DKPlatform.h 874). -/
def stringInt32 (bytes : List UInt8) : Option Int := if 0 < bytes.length then (strtol (memory bytes)).map toInt32 else some 0

/-- DKGetString (DKConversion.c 41-50); the outer `none` is the missing interface, the inner one NULL. -/
def getString (real : Number.Ty → Nat → List UInt8) : Option Obj → Option (Option (List UInt8))
  | none => some none
  | some (.number a) => (description real a).map some
  | some (.boolean b) => (description real (boolNumber b)).map some
  | some (.string s) => some (some s)
  | some .other => none

/-- DKGetBool (DKConversion.c 56-71). -/
def getBool : Option Obj → Option Bool
  | none => some false
  | some (.boolean b) => some b
  | some (.number a) => Number.getBool a
  | some (.string s) => some (stringBool s)
  | some .other => none

/-- DKGetInt32 (DKConversion.c 77-86). -/
def getInt32 : Option Obj → Option Int
  | none => some 0
  | some (.number a) => (Number.getScalar a .i32).map (Number.intVal .i32)
  | some (.boolean b) => (Number.getScalar (boolNumber b) .i32).map (Number.intVal .i32)
  | some (.string s) => stringInt32 s
  | some .other => none

/-- DKGetInt64 (DKConversion.c 92-101). -/
def getInt64 : Option Obj → Option Int
  | none => some 0
  | some (.number a) => (Number.getScalar a .i64).map (Number.intVal .i64)
  | some (.boolean b) => (Number.getScalar (boolNumber b) .i64).map (Number.intVal .i64)
  | some (.string s) => stringInt64 s
  | some .other => none

/-- DKGetDescription (DKDescription.c 71-80) of these objects; DKBooleanGetDescription is DKBoolean.c 183-189. -/
def getDescription (real : Number.Ty → Nat → List UInt8) (className : List UInt8) : Option Obj → Option (List UInt8)
  | none => some [0x6e, 0x75, 0x6c, 0x6c]
  | some (.number a) => description real a
  | some (.boolean true) => some [0x74, 0x72, 0x75, 0x65]
  | some (.boolean false) => some [0x66, 0x61, 0x6c, 0x73, 0x65]
  | some (.string s) => some s
  | some .other => some className

end Convert
end Duck
