import Verif.Model.Decimal
import Verif.Spec.Number
import Verif.Spec.StrToNum
/-! What C101 talks about: decimal fractions. -/
namespace Duck
namespace Decimal
open Num (Digits value signText)
open Number (Ty)

/-- A decimal fraction as it is written: digits without a leading zero, unless it is the only one, and one to six decimals, without a zero
at the end, unless it is the only one. -/
structure Short (ds fs : List UInt8) : Prop where
  digits : Digits ds
  nonempty : ds ≠ []
  lead : ds.head? = some 0x30 → ds = [0x30]
  decimals : Digits fs
  one : 1 ≤ fs.length
  six : fs.length ≤ 6
  last : fs.length = 1 ∨ fs.getLast? ≠ some 0x30

/-- The text of a decimal fraction. -/
def text (neg : Bool) (ds fs : List UInt8) : List UInt8 := signText neg false ++ ds ++ 0x2e :: fs

/-- The decimal fraction in millionths. -/
def micros (ds fs : List UInt8) : Nat := value ds * 10 ^ 6 + value fs * 10 ^ (6 - fs.length)

/-- Up to where the numbers of a type are less than a millionth apart. -/
def fine : Ty → Nat
  | .f32 => 2 ^ 4
  | _ => 2 ^ 33

end Decimal
end Duck
