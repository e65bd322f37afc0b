import Verif.Model.Printf
import Verif.Spec.Unicode
/-! What C78 talks about: formats as sequences of texts and directives. -/
namespace Duck
namespace Printf
open Unicode

/-- A length modifier. -/
inductive Modifier where
  | none | h | hh | l | ll | j | z | t
  deriving DecidableEq

/-- Its letters. -/
def Modifier.letters : Modifier → List UInt8
  | .none => []
  | .h => [0x68]
  | .hh => [0x68, 0x68]
  | .l => [0x6c]
  | .ll => [0x6c, 0x6c]
  | .j => [0x6a]
  | .z => [0x7a]
  | .t => [0x74]

/-- Is the argument a `long`?  (Otherwise an `int`.) -/
def Modifier.isLong : Modifier → Bool
  | .none | .h | .hh => false
  | .l | .ll | .j | .z | .t => true

/-- The size in bits of what `%n` stores. -/
def Modifier.bits : Modifier → Nat
  | .none => 32
  | .h => 16
  | .hh => 8
  | .l | .ll | .j | .z | .t => 64

/-- Flags, width and precision: `-`, `+`, blank, `#`, digits and `.`. -/
def isFlag (b : UInt8) : Bool := b ∈ [0x2d, 0x2b, 0x20, 0x23, 0x2e] || (0x30 ≤ b && b ≤ 0x39)

/-- The letters of the conversions of integers: d, i, u, o, x, X. -/
def integerLetters : List UInt8 := [0x64, 0x69, 0x75, 0x6f, 0x78, 0x58]
/-- The letters of the conversions of floating-point numbers: f, F, g, G, e, E, a, A. -/
def floatLetters : List UInt8 := [0x66, 0x46, 0x67, 0x47, 0x65, 0x45, 0x61, 0x41]

/-- A part of a format, with its argument. -/
inductive Piece where
  /-- literal text -/
  | text (cs : List Char)
  /-- `%%` -/
  | percent
  /-- `%s`, maybe with flags, width and precision -/
  | str (flags : List UInt8) (s : Option (List UInt8))
  /-- `%ls` -/
  | wide (flags : List UInt8) (s : Option (List (BitVec 32)))
  /-- `%@` with an object of the given description -/
  | obj (desc : List UInt8)
  /-- `%c` -/
  | chr (v : BitVec 32)
  /-- an `int`: `%d`, `%hhx`, `%5u`, … -/
  | int (flags : List UInt8) (mod : Modifier) (letter : UInt8) (v : BitVec 32)
  /-- a `long`: `%ld`, `%zu`, … -/
  | long (flags : List UInt8) (mod : Modifier) (letter : UInt8) (v : BitVec 64)
  /-- a `double`: `%f`, `%.3g`, `%lf`, … -/
  | dbl (flags : List UInt8) (l : Bool) (letter : UInt8) (v : BitVec 64)
  /-- a `long double`: `%Lf`, … -/
  | ldbl (flags : List UInt8) (letter : UInt8) (v : BitVec 128)
  /-- `%n` -/
  | count (mod : Modifier)
  deriving DecidableEq

/-- How it is written in the format. -/
def Piece.format : Piece → List UInt8
  | .text cs => utf8 cs
  | .percent => [0x25, 0x25]
  | .str flags _ => 0x25 :: (flags ++ [0x73])
  | .wide flags _ => 0x25 :: (flags ++ [0x6c, 0x73])
  | .obj _ => [0x25, 0x40]
  | .chr _ => [0x25, 0x63]
  | .int flags mod letter _ => 0x25 :: (flags ++ mod.letters ++ [letter])
  | .long flags mod letter _ => 0x25 :: (flags ++ mod.letters ++ [letter])
  | .dbl flags l letter _ => 0x25 :: (flags ++ (if l then [0x6c] else []) ++ [letter])
  | .ldbl flags letter _ => 0x25 :: (flags ++ [0x4c, letter])
  | .count mod => 0x25 :: (mod.letters ++ [0x6e])

/-- Its argument. -/
def Piece.args : Piece → List Arg
  | .text _ | .percent => []
  | .str _ s => [.cstr s]
  | .wide _ s => [.wstr s]
  | .obj d => [.obj d]
  | .chr v => [.int v]
  | .int _ _ _ v => [.int v]
  | .long _ _ _ v => [.long v]
  | .dbl _ _ _ v => [.dbl v]
  | .ldbl _ _ v => [.ldbl v]
  | .count _ => [.counter]

/-- Removing the zeros at the end of a decimal fraction, except directly after the point: "1.500" gives "1.5" and "2.000" gives "2.0". -/
def Pretty (s t : List UInt8) : Prop :=
  if (0x2e : UInt8) ∈ s then
    ∃ n, s = t ++ List.replicate n 0x30 ∧
      ∃ a b, t = a ++ 0x2e :: b ∧ (0x2e : UInt8) ∉ a ∧ (n = 0 ∨ b ≠ []) ∧ (b.length ≤ 1 ∨ b.getLast? ≠ some 0x30)
  else t = s

/-- "(null)", written for a NULL string. -/
def placeholder : List UInt8 := [0x28, 0x6e, 0x75, 0x6c, 0x6c, 0x29]
/-- The same in wide characters. -/
def widePlaceholder : List (BitVec 32) := [0x28, 0x6e, 0x75, 0x6c, 0x6c, 0x29]

/-- What it should write: `libc` gives the meaning of a directive of C. -/
def Piece.Writes (libc : Libc) : Piece → List UInt8 → Prop
  | .text cs, out => out = utf8 cs
  | .percent, out => out = [0x25]
  | .str flags s, out =>
    if flags = [] then out = s.getD placeholder else libc (Piece.str flags s).format (.cstr (some (s.getD placeholder))) = some out
  | .wide flags s, out => libc (Piece.wide flags s).format (.wstr (some (s.getD widePlaceholder))) = some out
  | .obj d, out => out = d
  | .chr v, out => out = [UInt8.ofBitVec (v.setWidth 8)]
  | .int flags mod letter v, out => libc (Piece.int flags mod letter v).format (.int v) = some out ∧ out.length < 120
  | .long flags mod letter v, out => libc (Piece.long flags mod letter v).format (.long v) = some out ∧ out.length < 120
  | .dbl flags l letter v, out =>
    ∃ full, libc (Piece.dbl flags l letter v).format (.dbl v) = some full ∧ full.length < 120 ∧
      if flags = [] ∧ letter = 0x66 then Pretty full out else out = full
  | .ldbl flags letter v, out =>
    libc (Piece.ldbl flags letter v).format (.ldbl v) = some out ∧ out.length < 120
  | .count _, out => out = []

/-- A part of a format that follows the rules: no `%` in texts, directives of at most seven bytes (unless they are `%s` alone). -/
def Piece.Ok : Piece → Prop
  | .text cs => '\x00' ∉ cs ∧ '%' ∉ cs
  | .percent | .obj _ | .chr _ | .count _ => True
  | .str flags _ => (∀ b ∈ flags, isFlag b = true) ∧ flags.length ≤ 5
  | .wide flags _ => (∀ b ∈ flags, isFlag b = true) ∧ flags.length ≤ 4
  | .int flags mod letter _ => (∀ b ∈ flags, isFlag b = true) ∧ mod.isLong = false ∧ letter ∈ integerLetters ∧ flags.length + mod.letters.length ≤ 5
  | .long flags mod letter _ => (∀ b ∈ flags, isFlag b = true) ∧ mod.isLong = true ∧ letter ∈ integerLetters ∧ flags.length + mod.letters.length ≤ 5
  | .dbl flags l letter _ => (∀ b ∈ flags, isFlag b = true) ∧ letter ∈ floatLetters ∧ flags.length + (if l then 1 else 0) ≤ 5
  | .ldbl flags letter _ => (∀ b ∈ flags, isFlag b = true) ∧ letter ∈ floatLetters ∧ flags.length ≤ 4

/-- What the parts of a format write. -/
inductive Outputs (libc : Libc) : List Piece → List (List UInt8) → Prop
  | nil : Outputs libc [] []
  | cons {p ps out outs} : p.Writes libc out → Outputs libc ps outs → Outputs libc (p :: ps) (out :: outs)

/-- What the `%n` directives store, when `n` bytes have been written before. -/
def stores : Nat → List Piece → List (List UInt8) → List (Nat × Nat)
  | n, p :: ps, out :: outs =>
    (match p with
      | .count mod => [(mod.bits, n % 2 ^ mod.bits)]
      | _ => []) ++ stores (n + out.length) ps outs
  | _, _, _ => []

/-- A stream to whose content everything written is added. -/
structure Appends {σ : Type} (write : Write σ) (content : σ → List UInt8) : Prop where
  content : ∀ s bs, content (write s bs).1 = content s ++ bs
  count : ∀ s bs, (write s bs).2 = bs.length

end Printf
end Duck
