import Verif.Spec.Unicode
import Verif.Model.TextTrim
/-! What C75-C77 talk about. -/
namespace Duck
namespace Text
open Unicode

/-- White space of the C locale, as code points: space, tab, line feed, vertical tab, form feed, carriage return. -/
def White (c : Int) : Prop := c = 32 ∨ 9 ≤ c ∧ c ≤ 13

instance (c : Int) : Decidable (White c) := by unfold White; infer_instance

/-- `Trimmed s t`: `t` is `s` without the white characters at both ends (`code` gives the code point). -/
def Trimmed {α : Type} (code : α → Int) (s t : List α) : Prop :=
  ∃ a b, s = a ++ t ++ b ∧ (∀ x ∈ a, White (code x)) ∧ (∀ x ∈ b, White (code x)) ∧
    (∀ x, t.head? = some x → ¬ White (code x)) ∧ (∀ x, t.getLast? = some x → ¬ White (code x))

/-- What a filter function keeps of a list of characters: it is asked about each of them in turn, with the number of
    characters before it and the number of those that were kept, until it answers "stop".  Also the final context. -/
def select {σ : Type} (f : Filter σ) : Nat → Nat → σ → List (Int × List UInt8) → List (List UInt8) × σ
  | _, _, x, [] => ([], x)
  | i, j, x, (c, bytes) :: cs =>
    let v := f i j bytes c x
    let rest := if v.stop then ([], v.context) else select f (i + 1) (if v.keep then j + 1 else j) v.context cs
    (if v.keep then bytes :: rest.1 else rest.1, rest.2)

/-- The bytes that separate words: space, tab, line feed, carriage return. -/
def Sep (b : UInt8) : Bool := b == 0x20 || b == 0x09 || b == 0x0a || b == 0x0d

/-- The words of a line or text: its maximal runs of bytes that are not separators. -/
def words : List UInt8 → List (List UInt8)
  | [] => []
  | b :: s =>
    if Sep b then words s
    else match s.head? with
      | none => [[b]]
      | some c => if Sep c then [b] :: words s else match words s with
        | w :: ws => (b :: w) :: ws
        | [] => [[b]]

/-- Every carriage return is followed by a line feed. -/
def CrLf : List UInt8 → Prop
  | [] => True
  | b :: s => (b = 0x0d → s.head? = some 0x0a) ∧ CrLf s

/-- An ASCII string without terminator inside. -/
def AsciiBytes (s : List UInt8) : Prop := ∀ b ∈ s, 0 < b.toNat ∧ b.toNat < 128

/-- ASCII bytes other than the terminator, vertical tab and form feed. -/
def Plain (s : List UInt8) : Prop := ∀ b ∈ s, 0 < b.toNat ∧ b.toNat < 128 ∧ b ≠ 0x0b ∧ b ≠ 0x0c

/-- Greedy filling: the line `cur` takes words, separated by one space, as long as it has at most `limit` bytes. -/
def fillFrom (limit : Nat) (cur : List UInt8) : List (List UInt8) → List (List UInt8)
  | [] => [cur]
  | w :: ws => if cur.length + 1 + w.length ≤ limit then fillFrom limit (cur ++ [0x20] ++ w) ws else cur :: fillFrom limit w ws

/-- The lines of a list of words. -/
def fill (limit : Nat) : List (List UInt8) → List (List UInt8)
  | [] => []
  | w :: ws => fillFrom limit w ws

end Text
end Duck
