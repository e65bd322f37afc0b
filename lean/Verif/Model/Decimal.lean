import Verif.Model.Convert
import Verif.Model.Printf
/-
Model of floating point numbers as text: DKNumberFormatString of one floating point element (DKNumber.c 980-1022), written with
DKSPrintf (DKStream.c 195-221, 462-501), DKStringGetFloat and DKStringGetDouble (DKString.c 2477-2509), and the arithmetic of
dk_strtonum (DKPlatform.c 596-696), with which the JSON reader makes numbers (DKJSON.c 477-493).

Numbers are bit patterns of binary32 and binary64 (`Number`); a magnitude is a number times 2^1074, a quotient `p / q`.  Operations
round to the nearest number, ties to even, as IEEE 754 requires of +, / and of conversions, and as the C library does in printf, strtof
and strtod.  Simplifications: what strtod does with texts that do not begin with a decimal number (infinities, NaNs, hexadecimal
numbers) is the parameter `other`, and `pow( 10, e )` is a parameter.
-/
namespace Duck
namespace Decimal
open Number (Fmt Ty roundEven scale addSign signBit floatVal)
open Convert (digitRun digitValue memory)
open Unicode (Mem)

/-! ### Rounding -/

/-- The exponent of the last place of the magnitude `p / q`. -/
def place (f : Fmt) (p q : Nat) : Nat := Nat.log2 (p / q / f.unit) - (f.p - 1)

/-- The pattern nearest to the magnitude `p / q`, infinity past the largest; `Fmt.encode` of a quotient. -/
def nearest (f : Fmt) (p q : Nat) : Nat :=
  min (place f p q * 2 ^ (f.p - 1) + roundEven p (q * (f.unit * 2 ^ place f p q))) (f.top * 2 ^ (f.p - 1))

/-! ### Writing -/

/-- `n` digits of a number. -/
def padded : Nat → Nat → List UInt8
  | 0, _ => []
  | n + 1, k => padded n (k / 10) ++ [UInt8.ofNat (48 + k % 10)]

/-- A magnitude in millionths, rounded. -/
def millionths (n : Nat) : Nat := roundEven (n * 10 ^ 6) scale

/-- The digits of "%f" (ISO C 7.21.6.1): six decimals. -/
def fixed (k : Nat) : List UInt8 := Json.decimal 400 (k / 10 ^ 6) ++ 0x2e :: padded 6 (k % 10 ^ 6)

/-- sprintf( "%f" ) of a `double`, or of a `float`, which is passed as a `double` of the same value. -/
def printfF (t : Ty) (f : Fmt) (b : Nat) : List UInt8 :=
  (if signBit t b then [0x2d] else []) ++
    match floatVal t f b with
    | .fin n => fixed (millionths n.natAbs)
    | .inf _ => [0x69, 0x6e, 0x66]
    | .nan => [0x6e, 0x61, 0x6e]

/-- DKSPrintf( "%f" ) and "%lf" (DKStream.c 462-501): sprintf into 120 bytes, then TrimZeroes; `none` is the overflow. -/
def realText (t : Ty) (f : Fmt) (b : Nat) : Option (List UInt8) :=
  if (printfF t f b).length < 120 then some (Printf.trimZeroes (printfF t f b)) else none

/-- DKGetString and DKGetDescription of a floating point number of one element (DKNumber.c 980-1031). -/
def getString (a : Number.Obj) : Option (List UInt8) :=
  a.enc.ty.fmt.bind fun f => (Convert.element a 0).bind fun b => realText a.enc.ty f b

/-! ### Reading: strtof and strtod (ISO C 7.22.1.3) -/

/-- The optional fraction. -/
def fractionRun (m : Mem) : Option (List UInt8 × Mem) :=
  m.head?.bind fun b => if b == 0x2e then digitRun m.tail else some ([], m)

/-- The optional exponent; without digits it is not part of the number. -/
def exponentRun (m : Mem) : Option Int :=
  m.head?.bind fun b =>
    if b == 0x65 || b == 0x45 then
      (Num.sign m.tail).bind fun s => (digitRun s.2).map fun d => if s.1 then -(digitValue d.1 : Int) else digitValue d.1
    else some 0

/-- "0x" -/
def isHex (ds : List UInt8) (m : Mem) : Bool := ds == [0x30] && (m.head? == some 0x78 || m.head? == some 0x58)

/-- The pattern of `d * 10^x`. -/
def decimalValue (f : Fmt) (d : Nat) (x : Int) : Nat := nearest f (d * 10 ^ x.toNat * scale) (10 ^ (-x).toNat)

/-- strtof and strtod: white space, an optional sign, digits with an optional fraction and exponent. -/
def strtod (other : Bool → Mem → Option Nat) (t : Ty) (f : Fmt) (m : Mem) : Option Nat :=
  (Num.skipWs m).bind fun m => (Num.sign m).bind fun s => (digitRun s.2).bind fun d => (fractionRun d.2).bind fun r =>
    if (d.1 ++ r.1).isEmpty || isHex d.1 d.2 then other s.1 s.2
    else (exponentRun r.2).map fun e => addSign t s.1 (decimalValue f (digitValue (d.1 ++ r.1)) (e - r.1.length))

/-- DKStringGetFloat and DKStringGetDouble (DKString.c 2477-2509). -/
def stringReal (other : Bool → Mem → Option Nat) (t : Ty) (bytes : List UInt8) : Option Nat :=
  t.fmt.bind fun f => if 0 < bytes.length then strtod other t f (memory bytes) else some 0

/-! ### dk_strtonum -/

/-- binary64. -/
def f64 : Fmt := ⟨53, 2047, 1⟩

/-- `x + y` in `double`, of magnitudes. -/
def add (x y : Nat) : Nat := f64.encode (f64.decode x + f64.decode y)

/-- `(double)numer / (double)denom`; `denom` is a power of ten below 2^63, which is exact. -/
def quotient (numer denom : Nat) : Nat := nearest f64 (numer * scale) denom

/-- `x * y` in `double`, of magnitudes. -/
def mul (x y : Nat) : Nat := nearest f64 (f64.decode x * f64.decode y) scale

/-- `fpart = fpart + ((double)numer / (double)denom)` (DKPlatform.c 642-651). -/
def sumFraction : List Nat → Nat → Nat → Nat
  | [], _, fpart => fpart
  | d :: ds, denom, fpart => sumFraction ds (denom * 10) (add fpart (quotient d denom))

/-- `(double)ipart + fpart`. -/
def sumParts (ipart : Nat) (ds : List Nat) : Nat := add (f64.encode (ipart * scale)) (sumFraction ds 10 0)

/-- DKNewNumberWithInt64 and DKNewNumberWithDouble (DKNumber.c 574-602): a number of one element. -/
def newNumber (t : Ty) (b : Nat) : Number.Obj := ⟨Number.vec t 1, Number.leBytes t.size b⟩

/-- The number of dk_strtonum (DKPlatform.c 678-695); `pow e` is `pow( 10, e )`.  `none` is overflow. -/
def toNumber (pow : Nat → Nat) : Num.Num → Option Number.Obj
  | .int i => some (newNumber .i64 (Number.wrap .i64 i))
  | .dbl neg ipart ds none => some (newNumber .f64 (addSign .f64 neg (sumParts ipart ds)))
  | .dbl neg ipart ds (some e) => some (newNumber .f64 (addSign .f64 neg (mul (sumParts ipart ds) (pow e))))
  | .overflow => none

/-- The JSON reader on a token that begins like a number (DKJSON.c 477-493). -/
def readNumber (pow : Nat → Nat) (token : List UInt8) : Option Number.Obj :=
  (Num.strtonum (memory token)).bind fun r => toNumber pow r.1

end Decimal
end Duck
