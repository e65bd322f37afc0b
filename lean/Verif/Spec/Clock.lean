import Mathlib.Data.List.Forall2
/-! Dates of the Gregorian calendar, local times, and the text of an identifier (RFC 4122, section 3). -/
namespace Duck
namespace Clock

/-- The days before the first of January of a year, counted from the first of January of the year 1. -/
def daysBefore (year : Nat) : Int := 365 * ((year : Int) - 1) + ((year : Int) - 1) / 4 - ((year : Int) - 1) / 100 + ((year : Int) - 1) / 400

/-- The ticks (10^-7 seconds) from the start of one year to the start of another. -/
def ticksBetween (a b : Nat) : Int := (daysBefore b - daysBefore a) * 86400 * 10000000

/-- The time shown by a clock that is `west` minutes behind Greenwich. -/
def behind (utc west : Int) : Int := utc - west * 60 * 10000000

end Clock

namespace Uuid

/-- The byte is a hexadecimal digit, of either case, with the value. -/
inductive Hex : Nat → UInt8 → Prop
  | decimal {n c} : n < 10 → c.toNat = 48 + n → Hex n c
  | lower {n c} : 10 ≤ n → n < 16 → c.toNat = 97 + (n - 10) → Hex n c
  | upper {n c} : 10 ≤ n → n < 16 → c.toNat = 65 + (n - 10) → Hex n c

/-- Two digits stand for a byte. -/
inductive Pair : UInt8 → List UInt8 → Prop
  | mk {b x y} : Hex (b.toNat / 16) x → Hex (b.toNat % 16) y → Pair b [x, y]

/-- The text of bytes: two digits for each. -/
inductive Hexes : List UInt8 → List UInt8 → Prop
  | nil : Hexes [] []
  | cons {b bs s t} : Pair b s → Hexes bs t → Hexes (b :: bs) (s ++ t)

/-- The text of an identifier: XXXXXXXX-XXXX-XXXX-XXXX-XXXXXXXXXXXX. -/
inductive Text : List UInt8 → List UInt8 → Prop
  | mk {a b c d e s t u v w} : a.length = 4 → b.length = 2 → c.length = 2 → d.length = 2 → e.length = 6 →
      Hexes a s → Hexes b t → Hexes c u → Hexes d v → Hexes e w →
      Text (a ++ b ++ c ++ d ++ e) (s ++ [45] ++ t ++ [45] ++ u ++ [45] ++ v ++ [45] ++ w)

/-- The bytes of a number, the most significant first. -/
def bigEndian : Nat → Nat → List UInt8
  | 0, _ => []
  | n + 1, v => UInt8.ofNat (v / 256 ^ n) :: bigEndian n v

end Uuid
end Duck
