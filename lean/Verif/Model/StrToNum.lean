import Verif.Model.Unicode
/-
Model of dk_strtonum, Source/DKPlatform.c:596-696.  A pointer is the memory from it on (`Mem`); reading beyond it is
`none`.  The arithmetic of `double` is not modelled: a floating point result is the sign, integer part, fraction digits
and exponent it is computed from.  Signed overflow (undefined behaviour, but no memory access) is the result `overflow`.
-/
namespace Duck
namespace Num
open Unicode

/-- What dk_strtonum stores: `*ival` (returning true), or `*fval` (returning false), DKPlatform.c:678-695 -/
inductive Num
  | int (i : Int)
  /-- `sign * (ipart + fpart) [* pow(10, epart)]` with `fpart` summed from the digits, in `double` -/
  | dbl (neg : Bool) (ipart : Nat) (fdigits : List Nat) (epart : Option Nat)
  /-- `int64_t` or `long` arithmetic overflowed -/
  | overflow
  deriving DecidableEq, Repr

/-- isspace in the "C" locale on a `char` (bytes from 0x80 up are negative or not spaces) -/
def isSpace (b : UInt8) : Bool := b == 32 || (9 ≤ b && b ≤ 13)

/-- `(*cursor >= '0') && (*cursor <= '9')` -/
def isDigit (b : UInt8) : Bool := 48 ≤ b && b ≤ 57

/-- Skip whitespace, DKPlatform.c:608-611 -/
def skipWs : Mem → Option Mem
  | [] => none
  | b :: m => if isSpace b then skipWs m else some (b :: m)

/-- `x = x * 10 + digit` in `int64_t`; `none` is overflow, DKPlatform.c:629-630 and 665-666 -/
def push (acc : Option Nat) (b : UInt8) : Option Nat :=
  acc.bind fun a => if a * 10 + (b.toNat - 48) < 2 ^ 63 then some (a * 10 + (b.toNat - 48)) else none

/-- A loop over digits, DKPlatform.c:627-633 and 663-669 -/
def digits (acc : Option Nat) : Mem → Option (Option Nat × Mem)
  | [] => none
  | b :: m => if isDigit b then digits (push acc b) m else some (acc, b :: m)

/-- The loop over fraction digits, DKPlatform.c:644-651, with `denom` (`none` after `denom *= 10` overflowed) -/
def fraction (ds : List Nat) (denom : Option Nat) : Mem → Option ((List Nat × Option Nat) × Mem)
  | [] => none
  | b :: m =>
    if isDigit b then fraction (ds ++ [b.toNat - 48]) (denom.bind fun d => if d * 10 < 2 ^ 63 then some (d * 10) else none) m
    else some ((ds, denom), b :: m)

/-- Optional sign, DKPlatform.c:614-624 -/
def sign (m : Mem) : Option (Bool × Mem) :=
  m.head?.map fun b => if b == 45 then (true, m.tail) else if b == 43 then (false, m.tail) else (false, m)

/-- Optional fractional part, DKPlatform.c:636-653 -/
def fracPart (m : Mem) : Option (Option (List Nat × Option Nat) × Mem) :=
  m.head?.bind fun b => if b == 46 then (fraction [] (some 10) m.tail).map fun r => (some r.1, r.2) else some (none, m)

/-- Optional exponent, DKPlatform.c:656-670 -/
def expPart (m : Mem) : Option (Option (Option Nat) × Mem) :=
  m.head?.bind fun b =>
    if b == 101 || b == 69 then (digits (some 0) m.tail).map fun r => (some r.1, r.2) else some (none, m)

/-- The result, DKPlatform.c:679-695 -/
def result (neg : Bool) (ip : Option Nat) (fp : Option (List Nat × Option Nat)) (ep : Option (Option Nat)) : Num :=
  match ip, fp, ep with
  | none, _, _ => .overflow
  | _, some (_, none), _ => .overflow
  | _, _, some none => .overflow
  | some i, none, none => .int (if neg then -(i : Int) else i)
  | some i, some (ds, some _), none => .dbl neg i ds none
  | some i, none, some (some e) => .dbl neg i [] (some e)
  | some i, some (ds, some _), some (some e) => .dbl neg i ds (some e)

/-- dk_strtonum, DKPlatform.c:596-696: the number and the end position -/
def strtonum (m : Mem) : Option (Num × Mem) :=
  (skipWs m).bind fun m => (sign m).bind fun s => (digits (some 0) s.2).bind fun i =>
    (fracPart i.2).bind fun f => (expPart f.2).map fun e => (result s.1 i.1 f.1 e.1, e.2)

end Num
end Duck
