import Verif.Model.Decimal
import Verif.Model.RwLock
import Verif.Model.Clock
/-!
# Model of times in floating point (Source/DKCondition.c 135-158, Source/DKPlatform.c 703-711)

Model/RwLock.lean and Model/Clock.lean leave out the rounding of doubles; here a timeout and a date are bit patterns of binary64, and sums, products and conversions
round as IEEE 754 says (Model/Decimal.lean).  A magnitude is a number times 2^1074.
-/
namespace Duck
namespace RealTime
open Number (scale val)
open Decimal (f64 nearest)
open RwLock (Time endTime)

/-- `(long)(fpart * 1000000000.0)` (DKCondition.c 151) of the magnitude of a timeout: modf is exact, the product is rounded, the conversion truncates. -/
def fractionNsec (n : Nat) : Nat := f64.decode (Decimal.mul (f64.encode (n % scale)) (f64.encode (1000000000 * scale))) / scale

/-- time_t and long. -/
def inRange (x : Int) : Prop := -(2 ^ 63 : Int) ≤ x ∧ x < 2 ^ 63

instance (x : Int) : Decidable (inRange x) := by unfold inRange; infer_instance

/-- DKCondition.c 135-158: the end of a wait with the timeout of pattern `b`.  Undefined behaviour (`none`): converting an infinity, a NaN or a number out of range to
    time_t, overflow of the sum.  Simplified: the additions of the loop, which adds at most one second for a time that is not negative, are unbounded. -/
def endOf (now : Time) (b : Nat) : Option Time :=
  match val .f64 b with
  | .fin n =>
    if inRange (n.tdiv scale) ∧ inRange (now.sec + n.tdiv scale) then
      endTime now (n.tdiv scale) (if n < 0 then -(fractionNsec n.natAbs : Int) else fractionNsec n.natAbs)
    else none
  | _ => none

/-- `(double)n` of a number that is not negative. -/
def double (n : Nat) : Nat := f64.encode (n * scale)

/-- The constant 1.0e-6. -/
def micro : Nat := nearest f64 scale (10 ^ 6)

/-- `x - y` in `double`, where `y` is not greater. -/
def sub (x y : Nat) : Nat := f64.encode (f64.decode x - f64.decode y)

/-- dk_datetime on POSIX (DKPlatform.c 703-711), for readings from the start of 2001 on: the pattern of the date. -/
def date (sec usec : Nat) : Nat := Decimal.add (sub (double sec) (double 978307200)) (Decimal.mul (double usec) micro)

end RealTime
end Duck
