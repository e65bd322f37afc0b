import Verif.Model.Unicode
/-! What C33-C35 talk about: texts, their UTF-8 bytes (Lean's own `String.utf8EncodeChar`), and the characters a byte
    string scans as. -/
namespace Duck
namespace Unicode

/-- The UTF-8 bytes of a text. -/
def utf8 (cs : List Char) : List UInt8 := cs.flatMap String.utf8EncodeChar

/-- A C string's content: no terminator inside. -/
def NulFree (s : List UInt8) : Prop := (0 : UInt8) ∉ s

/-- A byte in the range 0x80 to 0xbf, which UTF-8 uses only inside a character. -/
def IsTrailByte (b : UInt8) : Prop := 0x80 ≤ b.toNat ∧ b.toNat ≤ 0xbf

/-- `Scans s cs`: calling the scanner over and over on the C string `s` until the terminator yields the characters
    `cs`, each with the bytes it was scanned from. -/
inductive Scans : List UInt8 → List (Int × List UInt8) → Prop
  | nil : Scans [] []
  | cons (c : Int) (bytes rest : List UInt8) (cs : List (Int × List UInt8)) :
      bytes ≠ [] → ustrscan (bytes ++ rest ++ [0]) = some (c, bytes.length) → Scans rest cs →
      Scans (bytes ++ rest) ((c, bytes) :: cs)

/-- Position of the first occurrence of `needle` in `hay`. -/
def firstAt {α : Type} [DecidableEq α] (needle : List α) : List α → Option Nat
  | [] => if needle = [] then some 0 else none
  | x :: xs => if needle <+: x :: xs then some 0 else (firstAt needle xs).map (· + 1)

end Unicode
end Duck
