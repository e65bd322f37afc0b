import Verif.Model.Convert
import Verif.Spec.Number
import Verif.Spec.StrToNum
/-! What C99 talks about: decimal numerals in texts. -/
namespace Duck
namespace Convert
open Num (Digits value signText)

/-- The text is the decimal numeral of the integer: a minus sign if it is negative, and its digits, the first of which is not 0
unless it is the only one. -/
def Writes (text : List UInt8) (i : Int) : Prop :=
  ∃ ds, Digits ds ∧ ds ≠ [] ∧ (value ds : Int) = i.natAbs ∧ (ds.head? = some 0x30 → ds = [0x30]) ∧
    text = (if i < 0 then [0x2d] else []) ++ ds

/-- The text shows an element of a number: integers by their numeral, floating point as the C library prints it. -/
def Shows (real : Number.Ty → Nat → List UInt8) (t : Number.Ty) (b : Nat) (text : List UInt8) : Prop :=
  match t.fmt with
  | none => Writes text (Number.intVal t b)
  | some _ => text = real t b

/-- Texts one after the other, with a separator between them. -/
def joined (sep : List UInt8) : List (List UInt8) → List UInt8
  | [] => []
  | [t] => t
  | t :: ts => t ++ sep ++ joined sep ts

/-- White space of the "C" locale: space, tab, newline, vertical tab, form feed, return. -/
def White (ws : List UInt8) : Prop := ∀ b ∈ ws, b = 0x20 ∨ (9 ≤ b.toNat ∧ b.toNat ≤ 13)

/-- The text begins with a number, after white space: `neg` and the digits `ds`, all of them. -/
def Begins (text : List UInt8) (neg : Bool) (ds : List UInt8) : Prop :=
  ∃ ws plus rest, White ws ∧ Digits ds ∧ ds ≠ [] ∧ (∀ b, rest.head? = some b → ¬ (48 ≤ b.toNat ∧ b.toNat ≤ 57)) ∧
    text = ws ++ signText neg plus ++ ds ++ rest

/-- The number of a sign and digits. -/
def signed (neg : Bool) (ds : List UInt8) : Int := if neg then -(value ds : Int) else value ds

/-- The nearest number of 64 bits. -/
def clamp (i : Int) : Int := max (-(2 ^ 63)) (min i (2 ^ 63 - 1))

/-- The integer of element `i` of a number. -/
def intAt (a : Number.Obj) (i : Nat) : Int := Number.intVal a.enc.ty (Number.elem a.enc.ty a.value i)

end Convert
end Duck
