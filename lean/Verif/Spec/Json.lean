import Verif.Model.Json
import Verif.Spec.StrToNum
import Verif.Spec.Unicode
/-! What C40-C42 and C63 talk about: the grammar of JSON texts (RFC 8259) and the values they denote. -/
namespace Duck
namespace Json
open Unicode Num

/-- White space: blank, tab, line feed, carriage return. -/
def Ws (w : List UInt8) : Prop := ∀ b ∈ w, b = 0x20 ∨ b = 0x09 ∨ b = 0x0a ∨ b = 0x0d

/-- Two-character escapes: the letter after the backslash and the byte it stands for. -/
def escapes : List (UInt8 × UInt8) :=
  [(0x22, 0x22), (0x5c, 0x5c), (0x2f, 0x2f), (0x62, 0x08), (0x66, 0x0c), (0x6e, 0x0a), (0x72, 0x0d), (0x74, 0x09)]

/-- The value of a hexadecimal digit. -/
def Hex (b : UInt8) (d : Nat) : Prop :=
  (48 ≤ b.toNat ∧ b.toNat ≤ 57 ∧ d = b.toNat - 48) ∨ (97 ≤ b.toNat ∧ b.toNat ≤ 102 ∧ d = b.toNat - 87) ∨
    (65 ≤ b.toNat ∧ b.toNat ≤ 70 ∧ d = b.toNat - 55)

/-- `StrBody t s`: between quotation marks, `t` is a literal for the string with the bytes `s`. -/
inductive StrBody : List UInt8 → List UInt8 → Prop
  | nil : StrBody [] []
  /-- a byte other than the quotation mark, the backslash and NUL stands for itself -/
  | raw (b : UInt8) (t s) : b ≠ 0x22 → b ≠ 0x5c → b ≠ 0 → StrBody t s → StrBody (b :: t) (b :: s)
  /-- `\n` and the like -/
  | esc (c b : UInt8) (t s) : (c, b) ∈ escapes → StrBody t s → StrBody (0x5c :: c :: t) (b :: s)
  /-- `\uXXXX` stands for the UTF-8 bytes of the character -/
  | uni (h3 h2 h1 h0 : UInt8) (d3 d2 d1 d0 : Nat) (ch : Char) (t s) : Hex h3 d3 → Hex h2 d2 → Hex h1 d1 → Hex h0 d0 →
      ch.toNat = d3 * 4096 + d2 * 256 + d1 * 16 + d0 → ch.toNat ≠ 0 → StrBody t s →
      StrBody (0x5c :: 0x75 :: h3 :: h2 :: h1 :: h0 :: t) (String.utf8EncodeChar ch ++ s)

/-- Setting a key of a dictionary given as a list of entries. -/
def assign (d : List (List UInt8 × Json)) (e : List UInt8 × Json) : List (List UInt8 × Json) :=
  if e.1 ∈ d.map (·.1) then d.map fun x => if x.1 = e.1 then e else x else d ++ [e]

/-- `Numeral t n`: the numeral `t` denotes the number `n`.  Integer parts and exponents below 2^63, at most 17 fraction
    digits, no sign in the exponent (C43). -/
inductive Numeral : List UInt8 → Num → Prop
  | mk (neg ds frac exp) : Digits ds → ds ≠ [] → value ds < 2 ^ 63 →
      (∀ fs, frac = some fs → Digits fs ∧ fs.length ≤ 17) →
      (∀ e, exp = some e → Digits e.2 ∧ value e.2 < 2 ^ 63) → Numeral (numeral neg false ds frac exp) (meaning neg ds frac exp)

/-- The numbers of a vector, separated by commas. -/
inductive Nums : List UInt8 → List Num → Prop
  | one (a t b n) : Ws a → Ws b → Numeral t n → Nums (a ++ t ++ b) [n]
  | cons (a t b n t' l) : Ws a → Ws b → Numeral t n → Nums t' l → Nums (a ++ t ++ b ++ 0x2c :: t') (n :: l)

/-- Whether a number is not an integer. -/
def isReal : Num → Bool
  | .int _ => false
  | _ => true

/-- The number with the elements `l`: of integers if all are, else of floating point numbers, into which the integers are
    converted; of 32 bits or of 64 bits, when a single element is the number itself. -/
def vector (narrow : Bool) (l : List Num) : Json :=
  match narrow, l with
  | false, [n] => .num n
  | _, l => .vec narrow (l.any isReal) l

/-- The integers fit the elements of the vector. -/
def Fit (narrow : Bool) (l : List Num) : Prop := narrow = true → ∀ i, Num.int i ∈ l → -2 ^ 31 ≤ i ∧ i < 2 ^ 31

mutual
/-- `Val x t v`: the text `t`, without white space around it, denotes `v`.  With `x = some b` vectors are part of the
    grammar, read as 32 bit numbers if `b`, else as 64 bit numbers. -/
inductive Val (x : Option Bool) : List UInt8 → Json → Prop
  | null : Val x [0x6e, 0x75, 0x6c, 0x6c] .null
  | true : Val x [0x74, 0x72, 0x75, 0x65] (.bool true)
  | false : Val x [0x66, 0x61, 0x6c, 0x73, 0x65] (.bool false)
  | num (t n) : Numeral t n → Val x t (.num n)
  | vec (narrow t l) : x = some narrow → Nums t l → l.length < 2 ^ 24 → Fit narrow l →
      Val x (0x23 :: 0x5b :: t ++ [0x5d]) (vector narrow l)
  | str (t s) : StrBody t s → Val x (0x22 :: t ++ [0x22]) (.str s)
  | emptyList (w) : Ws w → Val x (0x5b :: w ++ [0x5d]) (.list [])
  | list (t l) : Elems x t l → Val x (0x5b :: t ++ [0x5d]) (.list l)
  | emptyDict (w) : Ws w → Val x (0x7b :: w ++ [0x7d]) (.dict [])
  /-- of members with the same key the last one counts -/
  | dict (t l) : Members x t l → Val x (0x7b :: t ++ [0x7d]) (.dict (l.foldl assign []))
/-- The elements of a list, separated by commas. -/
inductive Elems (x : Option Bool) : List UInt8 → List Json → Prop
  | one (a t b v) : Ws a → Ws b → Val x t v → Elems x (a ++ t ++ b) [v]
  | cons (a t b v t' l) : Ws a → Ws b → Val x t v → Elems x t' l → Elems x (a ++ t ++ b ++ 0x2c :: t') (v :: l)
/-- The members of a dictionary, separated by commas. -/
inductive Members (x : Option Bool) : List UInt8 → List (List UInt8 × Json) → Prop
  | one (a k s b c t d v) : Ws a → Ws b → Ws c → Ws d → StrBody k s → Val x t v →
      Members x (a ++ 0x22 :: k ++ [0x22] ++ b ++ [0x3a] ++ c ++ t ++ d) [(s, v)]
  | cons (a k s b c t d v t' l) : Ws a → Ws b → Ws c → Ws d → StrBody k s → Val x t v → Members x t' l →
      Members x (a ++ 0x22 :: k ++ [0x22] ++ b ++ [0x3a] ++ c ++ t ++ d ++ 0x2c :: t') ((s, v) :: l)
end

mutual
/-- The trees C41 is proved for: strings without NUL, integers whose absolute value is below 2^63, keys distinct and
    without NUL, quotation mark and backslash; with vectors (`x = some b`) also numbers of two or more and less than 2^24
    integers, of 32 bits if `b`. -/
inductive Plain (x : Option Bool) : Json → Prop
  | null : Plain x .null
  | bool (b) : Plain x (.bool b)
  | int (i : Int) : i.natAbs < 2 ^ 63 → Plain x (.num (.int i))
  | vec (narrow) (l : List Int) : x = some narrow → 2 ≤ l.length → l.length < 2 ^ 24 → (∀ i ∈ l, i.natAbs < 2 ^ 63) →
      (narrow = true → ∀ i ∈ l, -2 ^ 31 ≤ i ∧ i < 2 ^ 31) → Plain x (.vec narrow false (l.map .int))
  | str (s) : NulFree s → Plain x (.str s)
  | list (l) : PlainList x l → Plain x (.list l)
  | dict (l) : (l.map (·.1)).Nodup → PlainDict x l → Plain x (.dict l)
inductive PlainList (x : Option Bool) : List Json → Prop
  | nil : PlainList x []
  | cons (v l) : Plain x v → PlainList x l → PlainList x (v :: l)
inductive PlainDict (x : Option Bool) : List (List UInt8 × Json) → Prop
  | nil : PlainDict x []
  | cons (k : List UInt8) (v l) : 0 ∉ k → 0x22 ∉ k → 0x5c ∉ k → Plain x v → PlainDict x l → PlainDict x ((k, v) :: l)
end

end Json
end Duck
