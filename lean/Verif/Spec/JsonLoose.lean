import Verif.Spec.Json
/-! What the converse half of C63 talks about: exactly which texts `DKJSONParse` answers, and with what.

A value is read from the front of a text and leaves a rest: `LVal t v rest`.  Wherever that is more or less than RFC 8259
allows, the comment says so. -/
namespace Duck
namespace Json
open Unicode Num

/-- White space.  More than legal: vertical tab and form feed. -/
def Blank (b : UInt8) : Prop := b.toNat = 32 ∨ (9 ≤ b.toNat ∧ b.toNat ≤ 13)

def Blanks (w : List UInt8) : Prop := ∀ b ∈ w, Blank b

/-- The punctuation `,` `:` `[` `]` `{` `}`. -/
def Punct (b : UInt8) : Prop := b ∈ ([0x2c, 0x3a, 0x5b, 0x5d, 0x7b, 0x7d] : List UInt8)

/-- `LStr t s rest`: the text `t` after an opening quotation mark is read as the string `s`, and `rest` is left. -/
inductive LStr : List UInt8 → List UInt8 → List UInt8 → Prop
  | close (rest) : LStr (0x22 :: rest) [] rest
  /-- More than legal: the text may end before the closing quotation mark, also after a backslash. -/
  | ends : LStr [] [] []
  | slash : LStr [0x5c] [] []
  /-- More than legal: control characters and malformed UTF-8. -/
  | raw (b : UInt8) (t s rest) : b ≠ 0x22 → b ≠ 0x5c → LStr t s rest → LStr (b :: t) (b :: s) rest
  | esc (c b : UInt8) (t s rest) : (c, b) ∈ escapes → LStr t s rest → LStr (0x5c :: c :: t) (b :: s) rest
  /-- More than legal: a backslash with any other ASCII character, or (next) with any other character, is left out. -/
  | drop (c : UInt8) (t s rest) : c.toNat < 128 → c ∉ escapes.map (·.1) → c ≠ 0x75 → LStr t s rest →
      LStr (0x5c :: c :: t) s rest
  | dropWide (b : UInt8) (u t s rest) (c : Int) : 128 ≤ b.toNat → ustrscan (b :: u ++ t ++ [0]) = some (c, u.length + 1) →
      LStr t s rest → LStr (0x5c :: (b :: u ++ t)) s rest
  /-- `\u` and four bytes.  More than legal: they are read by `strtol` (so ` +7x` counts as 7), and the character NUL
      vanishes.  Less: halves of surrogate pairs. -/
  | uni (h3 h2 h1 h0 : UInt8) (ch : Char) (t s rest) : strtol16 [h3, h2, h1, h0] = (ch.toNat : Int) → LStr t s rest →
      LStr (0x5c :: 0x75 :: h3 :: h2 :: h1 :: h0 :: t) ((if ch.toNat = 0 then [] else String.utf8EncodeChar ch) ++ s) rest

/-- The number a numeral is read as: overflow from 2^63 up, and with more than 17 fraction digits. -/
def reading (neg : Bool) (ds : List UInt8) (frac : Option (List UInt8)) (exp : Option (Bool × List UInt8)) : Num :=
  if value ds < 2 ^ 63 ∧ (frac.getD []).length ≤ 17 ∧ value (exp.elim [] (·.2)) < 2 ^ 63 then meaning neg ds frac exp
  else .overflow

/-- `LWord p w`: the word `w` is read as `p`.  More than legal: anything may follow `true`, `false`, `null` and a numeral
    up to the end of the word; a numeral may lack digits (`-`, `1.`, `1e`) or begin with zeros. -/
inductive LWord : Json → List UInt8 → Prop
  | null (u) : LWord .null ([0x6e, 0x75, 0x6c, 0x6c] ++ u)
  | true (u) : LWord (.bool true) ([0x74, 0x72, 0x75, 0x65] ++ u)
  | false (u) : LWord (.bool false) ([0x66, 0x61, 0x6c, 0x73, 0x65] ++ u)
  | num (neg ds frac exp u) : neg = Bool.true ∨ ds ≠ [] → Digits ds → (∀ fs, frac = some fs → Digits fs) →
      (∀ e, exp = some e → Digits e.2) → Ends frac exp u → LWord (.num (reading neg ds frac exp)) (numeral neg Bool.false ds frac exp ++ u)

/-- The bytes of a word: no white space, no punctuation, no character from U+0100 up. -/
def Word (w : List UInt8) : Prop :=
  (∀ b ∈ w, ¬ Blank b ∧ ¬ Punct b) ∧ ∀ ch : Char, 0x100 ≤ ch.toNat → ¬ (String.utf8EncodeChar ch <:+: w)

/-- The rest after a word. -/
def Stop (rest : List UInt8) : Prop := ∀ b, rest.head? = some b → Blank b ∨ Punct b

mutual
/-- `LVal t v rest`: from the text `t` the value `v` is read, and `rest` is left. -/
inductive LVal : List UInt8 → Json → List UInt8 → Prop
  | word (w p v rest) : Blanks w → LWord v p → Word p → Stop rest → LVal (w ++ p ++ rest) v rest
  | str (w t s rest) : Blanks w → LStr t s rest → LVal (w ++ 0x22 :: t) (.str s) rest
  | list (w t l rest) : Blanks w → LElems t l rest → LVal (w ++ 0x5b :: t) (.list l) rest
  /-- of members with the same key the last one counts -/
  | dict (w t l rest) : Blanks w → LMembers t l rest → LVal (w ++ 0x7b :: t) (.dict (l.foldl assign [])) rest
/-- The elements of a list and the closing bracket.  More than legal: a comma before the bracket. -/
inductive LElems : List UInt8 → List Json → List UInt8 → Prop
  | nil (w rest) : Blanks w → LElems (w ++ 0x5d :: rest) [] rest
  | last (t v w rest) : LVal t v (w ++ 0x5d :: rest) → Blanks w → LElems t [v] rest
  | cons (t v w t' l rest) : LVal t v (w ++ 0x2c :: t') → Blanks w → LElems t' l rest → LElems t (v :: l) rest
/-- The members of a dictionary and the closing brace.  More than legal: a comma before the brace. -/
inductive LMembers : List UInt8 → List (List UInt8 × Json) → List UInt8 → Prop
  | nil (w rest) : Blanks w → LMembers (w ++ 0x7d :: rest) [] rest
  | last (t k w t' v w' rest) : LVal t (.str k) (w ++ 0x3a :: t') → Blanks w → LVal t' v (w' ++ 0x7d :: rest) → Blanks w' →
      LMembers t [(k, v)] rest
  | cons (t k w t' v w' t'' l rest) : LVal t (.str k) (w ++ 0x3a :: t') → Blanks w → LVal t' v (w' ++ 0x2c :: t'') →
      Blanks w' → LMembers t'' l rest → LMembers t ((k, v) :: l) rest
end

/-- The texts that are answered.  More than legal: anything may follow the value. -/
def Answered (t : List UInt8) (v : Json) : Prop := ∃ rest, LVal t v rest

end Json
end Duck
