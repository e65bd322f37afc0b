import Verif.Model.StrToNum
/-! What C43 talks about: decimal numerals. -/
namespace Duck
namespace Num

/-- ASCII digits. -/
def Digits (ds : List UInt8) : Prop := ∀ b ∈ ds, 48 ≤ b.toNat ∧ b.toNat ≤ 57

/-- The value of a digit string, most significant digit first. -/
def value (ds : List UInt8) : Nat := ds.foldl (fun a b => a * 10 + (b.toNat - 48)) 0

/-- "", "+" or "-" -/
def signText (neg plus : Bool) : List UInt8 := if neg then [0x2d] else if plus then [0x2b] else []

/-- The text of a numeral: sign, digits, optional ".digits", optional "e digits" (`cap` for 'E'). -/
def numeral (neg plus : Bool) (ds : List UInt8) (frac : Option (List UInt8)) (exp : Option (Bool × List UInt8)) : List UInt8 :=
  signText neg plus ++ ds ++ (frac.elim [] fun fs => 0x2e :: fs) ++ (exp.elim [] fun e => (if e.1 then 0x45 else 0x65) :: e.2)

/-- The number it denotes: an integer unless there is a fraction or exponent. -/
def meaning (neg : Bool) (ds : List UInt8) (frac : Option (List UInt8)) (exp : Option (Bool × List UInt8)) : Num :=
  match frac, exp with
  | none, none => .int (if neg then -(value ds : Int) else value ds)
  | _, _ => .dbl neg (value ds) ((frac.getD []).map fun b => b.toNat - 48) (exp.map fun e => value e.2)

/-- The text after a numeral does not continue it: it does not start with a digit, nor with a '.' where a fraction could
    start, nor with 'e' or 'E' where an exponent could. -/
def Ends (frac : Option (List UInt8)) (exp : Option (Bool × List UInt8)) (rest : List UInt8) : Prop :=
  ∀ b, rest.head? = some b → ¬ (48 ≤ b.toNat ∧ b.toNat ≤ 57) ∧
    (exp = none → b ≠ 0x65 ∧ b ≠ 0x45 ∧ (frac = none → b ≠ 0x2e))

end Num
end Duck
