import Verif.Model.StrToNum
/-
Model of Source/DKJSON.c.  A document is a tree; strings are the bytes before their terminator; a dictionary is the list
of its entries in enumeration order (the writer takes the order as given, the parser lists entries in order of first
insertion).  A pointer is the memory from it on; reading beyond it is undefined, `none`.  `isdigit` of a byte from 0x80
up is taken to be false.  Not modelled: reference counts, numbers of other types than those the parser makes.
-/
namespace Duck
namespace Json
open Unicode Num

inductive Json
  | null
  | bool (b : Bool)
  | num (n : Num)
  /-- a number of several elements, or of one element of 32 bits: int32_t, int64_t (`real` false), float or double;
      in a real one the element `.int i` is the integer converted -/
  | vec (narrow real : Bool) (l : List Num)
  | str (s : List UInt8)
  | list (l : List Json)
  | dict (l : List (List UInt8 × Json))

/-! ## Writer -/

/-- EscapedChars, DKJSON.c:181-192, without the end marker -/
def escapedChars : List (Int × List UInt8) :=
  [(92, [0x5c, 0x5c]), (34, [0x5c, 0x22]), (13, [0x5c, 0x72]), (12, [0x5c, 0x66]), (10, [0x5c, 0x6e]), (9, [0x5c, 0x74]),
   (8, [0x5c, 0x62])]

/-- The inner loop of WriteEscapedString, DKJSON.c:210-231: the replacement, or `none` when the character is written as
    it is -/
def escapeOf (ch : Int) : List (Int × List UInt8) → Option (List UInt8)
  | [] => none
  | e :: es => if e.1 < ch then none else if e.1 = ch then some e.2 else escapeOf ch es

/-- The outer loop of WriteEscapedString, DKJSON.c:206-237, with `cursor`, `bufferStart` and `bufferLength`: the bytes
    written -/
def escapeLoop (fuel : Nat) (m start : Mem) (len : Nat) : Option (List UInt8) :=
  (ustrscan m).bind fun r =>
    if r.2 = 0 then some (start.take len)
    else match fuel with
      | 0 => none
      | fuel + 1 =>
        match escapeOf r.1 escapedChars with
        | none => escapeLoop fuel (m.drop r.2) start (len + r.2)
        | some rep => (escapeLoop fuel (m.drop r.2) (m.drop r.2) 0).map fun out => start.take len ++ rep ++ out

/-- WriteEscapedString, DKJSON.c:194-240, of the string with content `s` (memory `s` and its terminator) -/
def writeString (s : List UInt8) : Option (List UInt8) :=
  (escapeLoop (s.length + 1) (s ++ [0]) (s ++ [0]) 0).map fun out => 0x22 :: out ++ [0x22]

/-- `indent` times "    ", DKJSON.c:254-255 -/
def spaces (indent : Nat) : List UInt8 := List.replicate (4 * indent) 0x20

/-- WriteComma, DKJSON.c:246-263 -/
def writeComma (pretty : Bool) (indent : Nat) (comma : Bool) : List UInt8 :=
  if comma then if pretty then 0x2c :: 0x0a :: spaces indent else [0x2c] else []

/-- BeginGroup, DKJSON.c:269-287 (the caller increments `indent`) -/
def beginGroup (pretty : Bool) (indent : Nat) (c : UInt8) : List UInt8 :=
  if pretty then c :: 0x0a :: spaces (indent + 1) else [c]

/-- EndGroup, DKJSON.c:293-306 -/
def endGroup (pretty : Bool) (indent : Nat) (c : UInt8) : List UInt8 :=
  if pretty then 0x0a :: spaces indent ++ [c] else [c]

/-- Decimal digits as printed by `%d` and PRId64, at most 20 of them -/
def decimal : Nat → Nat → List UInt8
  | 0, n => [UInt8.ofNat (48 + n % 10)]
  | fuel + 1, n => if n < 10 then [UInt8.ofNat (48 + n)] else decimal fuel (n / 10) ++ [UInt8.ofNat (48 + n % 10)]

/-- "%@" of a number of one element, DKJSON.c:116 and DKNumber.c:980-1032: integers in decimal, `real` for floating point -/
def writeNum (real : Num → List UInt8) : Num → List UInt8
  | .int i => if i < 0 then 0x2d :: decimal 19 i.natAbs else decimal 19 i.natAbs
  | n => real n

/-- An element of DKNumberFormatString, DKNumber.c:999-1010 -/
def writeElem (real : Num → List UInt8) (r : Bool) (n : Num) : List UInt8 := if r then real n else writeNum real n

/-- The loop of PRINT, DKNumber.c:992-995, after the first element -/
def writeRest (real : Num → List UInt8) (r : Bool) (sep : List UInt8) : List Num → List UInt8
  | [] => []
  | n :: l => sep ++ writeElem real r n ++ writeRest real r sep l

/-- A number in WriteObject, DKJSON.c:110-129, and DKNumberFormatString, DKNumber.c:980-1023; a number without elements
    prints uninitialised memory -/
def writeVec (real : Num → List UInt8) (ext r : Bool) : List Num → Option (List UInt8)
  | [] => none
  | [n] => some (writeElem real r n)
  | n :: l =>
    if ext then some ([0x23, 0x5b] ++ writeElem real r n ++ writeRest real r [0x2c, 0x20] l ++ [0x5d])
    else some (0x22 :: writeElem real r n ++ writeRest real r [0x20] l ++ [0x22])

/-- `"\"%@\":"` or `"\"%@\" : "`, DKJSON.c:159-160: the key is not escaped -/
def writeKey (pretty : Bool) (k : List UInt8) : List UInt8 :=
  0x22 :: k ++ (if pretty then [0x22, 0x20, 0x3a, 0x20] else [0x22, 0x3a])

mutual
/-- WriteObject, DKJSON.c:91-148 -/
def writeObject (real : Num → List UInt8) (pretty ext : Bool) (indent : Nat) (comma : Bool) : Json → Option (List UInt8)
  | .null => some (writeComma pretty indent comma ++ [0x6e, 0x75, 0x6c, 0x6c])
  | .bool true => some (writeComma pretty indent comma ++ [0x74, 0x72, 0x75, 0x65])
  | .bool false => some (writeComma pretty indent comma ++ [0x66, 0x61, 0x6c, 0x73, 0x65])
  | .num n => some (writeComma pretty indent comma ++ writeNum real n)
  | .vec _ r l => (writeVec real ext r l).map fun out => writeComma pretty indent comma ++ out
  | .str s => (writeString s).map fun out => writeComma pretty indent comma ++ out
  | .list l => (writeElems real pretty ext (indent + 1) false l).map fun out =>
      writeComma pretty indent comma ++ beginGroup pretty indent 0x5b ++ out ++ endGroup pretty indent 0x5d
  | .dict l => (writeMembers real pretty ext (indent + 1) false l).map fun out =>
      writeComma pretty indent comma ++ beginGroup pretty indent 0x7b ++ out ++ endGroup pretty indent 0x7d
/-- DKForeachObject with WriteObject, DKJSON.c:141, with `comma` set by the previous element (DKJSON.c:145) -/
def writeElems (real : Num → List UInt8) (pretty ext : Bool) (indent : Nat) (comma : Bool) : List Json → Option (List UInt8)
  | [] => some []
  | x :: xs => (writeObject real pretty ext indent comma x).bind fun a =>
      (writeElems real pretty ext indent true xs).map fun b => a ++ b
/-- DKForeachKeyAndObject with WriteKeyAndObject, DKJSON.c:134 and 155-167 -/
def writeMembers (real : Num → List UInt8) (pretty ext : Bool) (indent : Nat) (comma : Bool) :
    List (List UInt8 × Json) → Option (List UInt8)
  | [] => some []
  | (k, x) :: xs => (writeObject real pretty ext indent false x).bind fun a =>
      (writeMembers real pretty ext indent true xs).map fun b =>
        writeComma pretty indent comma ++ writeKey pretty k ++ a ++ b
end

/-- DKJSONWrite, DKJSON.c:71-85 -/
def write (real : Num → List UInt8) (pretty ext : Bool) (v : Json) : Option (List UInt8) :=
  (writeObject real pretty ext 0 false v).map fun out => if pretty then out ++ [0x0a] else out

/-! ## Parser -/

/-- What the C library and the compiler do where the code's behaviour is undefined: `isspace` of a character from 256
    up, and the C string found in an uninitialised array (`none`: anything may happen); and the options of the parser:
    `vec` is `some` with DKJSONVectorSyntaxExtension, `some true` with DKJSONVectorRead32BitTypes too (DKJSON.h:36-41) -/
structure Host where
  wide : Int → Option Bool
  junk : Option (List UInt8)
  vec : Option Bool

/-- Nothing is promised, with the options `x`. -/
def strict (x : Option Bool) : Host := ⟨fun _ => none, none, x⟩

/-- `isspace( ch )`, "C" locale -/
def isspace (H : Host) (ch : Int) : Option Bool :=
  if -1 ≤ ch ∧ ch < 256 then some (ch == 32 || (9 ≤ ch && ch ≤ 13)) else H.wide ch

/-- `strtol( hex, &end, 16 )` of one hexadecimal digit -/
def hexDigit (b : UInt8) : Option Nat :=
  if 48 ≤ b.toNat ∧ b.toNat ≤ 57 then some (b.toNat - 48)
  else if 97 ≤ b.toNat ∧ b.toNat ≤ 102 then some (b.toNat - 87)
  else if 65 ≤ b.toNat ∧ b.toNat ≤ 70 then some (b.toNat - 55)
  else none

/-- The digits of strtol, up to the first byte that is none -/
def hexGo (acc : Nat) : List UInt8 → Nat
  | [] => acc
  | b :: bs => match hexDigit b with
    | some d => hexGo (acc * 16 + d) bs
    | none => acc

/-- `strtol( hex, &end, 16 )` after white space and sign: an optional "0x" and digits -/
def hexBody : List UInt8 → Nat
  | 48 :: x :: b :: bs =>
    if (x == 120 || x == 88) && (hexDigit b).isSome then hexGo 0 (b :: bs) else hexGo 0 (48 :: x :: b :: bs)
  | bs => hexGo 0 bs

/-- White space before the number -/
def hexSkip : List UInt8 → List UInt8
  | [] => []
  | b :: bs => if isSpace b then hexSkip bs else b :: bs

/-- `strtol( hex, &end, 16 )` of the four bytes -/
def strtol16 (bs : List UInt8) : Int :=
  match hexSkip bs with
  | 45 :: bs => -(hexBody bs : Int)
  | 43 :: bs => hexBody bs
  | bs => hexBody bs

/-- ScanUnicodeCodePoint, DKJSON.c:529-547: what is appended to the buffer.  `dk_ustrwrite` writes into `char utf[8]`;
    when it refuses, the array is appended uninitialised. -/
def unicodePoint (H : Host) (m : Mem) : Option (List UInt8) :=
  if 4 ≤ m.length then
    (ustrwrite (strtol16 (m.take 4)) (List.replicate 8 0)).bind fun r =>
      if r.2 = 0 then H.junk else some (r.1.takeWhile (· ≠ 0))
  else none

/-- The switch of ScanStringToken except `case 'u'`, DKJSON.c:579-620: what is appended -/
def escapeChar (ch : Int) : List UInt8 :=
  if ch = 92 then [0x5c] else if ch = 34 then [0x22] else if ch = 98 then [0x08] else if ch = 102 then [0x0c]
  else if ch = 110 then [0x0a] else if ch = 114 then [0x0d] else if ch = 116 then [0x09] else if ch = 47 then [0x2f]
  else []

/-- ScanStringToken, DKJSON.c:553-638, with a buffer when `obj` (appends to a NULL buffer do nothing, but
    ScanUnicodeCodePoint runs all the same).  `m` is `token.str + token.length`.  Result: contents and cursor. -/
def scanString (H : Host) (obj : Bool) (fuel : Nat) (m : Mem) (acc : List UInt8) : Option (List UInt8 × Mem) :=
  (ustrscan m).bind fun r =>
    if r.2 = 0 then some (acc, m)
    else match fuel with
      | 0 => none
      | fuel + 1 =>
        if r.1 = 92 then
          (ustrscan (m.drop r.2)).bind fun e =>
            if e.1 = 117 then
              (if obj then unicodePoint H (m.drop (r.2 + e.2))
               else if 4 ≤ (m.drop (r.2 + e.2)).length then some [] else none).bind fun u =>
                scanString H obj fuel (m.drop (r.2 + e.2 + 4)) (acc ++ u)
            else scanString H obj fuel (m.drop (r.2 + e.2)) (acc ++ escapeChar e.1)
        else if r.1 = 34 then some (acc, m.drop r.2)
        else scanString H obj fuel (m.drop r.2) (acc ++ m.take r.2)

/-- Scanning white space, DKJSON.c:869-886: `none` at the end of the text, else the first character and its length -/
def skipSpace (H : Host) (fuel : Nat) (m : Mem) : Option (Option (Int × Nat) × Mem) :=
  (ustrscan m).bind fun r =>
    if r.2 = 0 then some (none, m)
    else (isspace H r.1).bind fun sp =>
      if sp then match fuel with
        | 0 => none
        | fuel + 1 => skipSpace H fuel (m.drop r.2)
      else some (some r, m)

/-- `strchr( ",:[]{}", c ) != NULL`: true for the terminator too -/
def isToken (c : UInt8) : Bool := c ∈ ([0x2c, 0x3a, 0x5b, 0x5d, 0x7b, 0x7d, 0] : List UInt8)

/-- The scan to the end of other tokens, DKJSON.c:917-930; `strchr` converts the character to `char` -/
def scanWord (H : Host) (fuel : Nat) (m : Mem) : Option Mem :=
  (ustrscan m).bind fun r =>
    if r.2 = 0 then some m
    else (isspace H r.1).bind fun sp =>
      if sp || isToken (UInt8.ofNat (r.1 % 256).toNat) then some m
      else match fuel with
        | 0 => none
        | fuel + 1 => scanWord H fuel (m.drop r.2)

/-- A token: `token.str`, the cursor `context->cursor`, whether the length is 0, and the object -/
structure Tok where
  str : Mem
  cur : Mem
  empty : Bool
  obj : Option Json

/-- The buffer of ScanVectorToken64 and ScanVectorToken32: `numberType` and the elements, DKJSON.c:654-658 -/
structure Buf where
  real : Bool
  elems : List Num

/-- `(int32_t)ival` -/
def wrap32 (i : Int) : Int := (BitVec.ofInt 32 i).toInt

/-- Appending a number to the buffer, DKJSON.c:670-704 and 777-813.  The conversion of the integers read before the first
    real keeps them as `.int`. -/
def Buf.push (narrow : Bool) (v : Buf) : Num → Buf
  | .int i => ⟨v.real, v.elems ++ [.int (if v.real then i else if narrow then wrap32 i else i)]⟩
  | .dbl a b c d => ⟨true, v.elems ++ [.dbl a b c d]⟩
  | .overflow => ⟨v.real, v.elems ++ [.overflow]⟩

/-- `DKNewNumber( value, DKEncode( numberType, count ) )`, DKJSON.c:724-727 and 833-836: the encoding keeps 24 bits of the
    count (DKEncoding.h:106-108).  A number of one int64_t or double is a number like any other. -/
def Buf.number (narrow : Bool) (v : Buf) : Json :=
  match narrow, v.elems.take (v.elems.length % 2 ^ 24) with
  | false, [n] => .num n
  | _, l => .vec narrow v.real l

/-- ScanToken, DKJSON.c:860-932; `obj` tells whether the caller asks for an object; `vector` is ScanVectorToken64 or
    ScanVectorToken32 -/
def tokenWith (H : Host) (vector : Bool → Mem → Mem → Mem → Option Tok) (obj : Bool) (m₀ : Mem) : Option Tok :=
  (skipSpace H m₀.length m₀).bind fun s =>
    match s with
    | (none, m) => some ⟨m, m, true, none⟩
    | (some (ch, n), m) =>
      if ch = 34 then
        (scanString H obj m.length (m.drop n) []).map fun r => ⟨m, r.2, false, if obj then some (.str r.1) else none⟩
      else if ch = 35 ∧ H.vec.isSome then vector obj m₀ m (m.drop n)
      else m.head?.bind fun c =>
        if isToken c then some ⟨m, m.drop n, false, none⟩
        else (scanWord H m.length (m.drop n)).map fun cur => ⟨m, cur, false, none⟩

mutual
/-- ScanVectorToken64 and ScanVectorToken32, DKJSON.c:644-745 and 751-854, of a token at `str`, scanned to `m`, with the
    cursor of the context still at `m₀`; without a bracket the length is the difference of the two (negative, as a
    size_t, after white space).  The first number bounds the calls and iterations. -/
def vectorAt (H : Host) : Nat → Bool → Mem → Mem → Mem → Option Tok
  | 0, _, _, _, _ => none
  | fuel + 1, obj, m₀, str, m => (ustrscan m).bind fun r =>
    if r.1 = 91 then (vectorLoop H fuel obj (m.drop r.2) ⟨false, []⟩).map fun v => ⟨str, v.2, false, v.1⟩
    else some ⟨str, m₀, m₀.length == str.length, none⟩
/-- The loop over the numbers, DKJSON.c:660-737 and 767-846: the object, and the cursor -/
def vectorLoop (H : Host) : Nat → Bool → Mem → Buf → Option (Option Json × Mem)
  | 0, _, _, _ => none
  | fuel + 1, obj, m, v => (tokenWith H (vectorAt H fuel) false m).bind fun t => t.str.head?.bind fun ch =>
    if ch = 0x2d ∨ isDigit ch then (strtonum t.str).bind fun n =>
      (tokenWith H (vectorAt H fuel) false t.cur).bind fun t' => t'.str.head?.bind fun ch' =>
        if ch' = 0x2c then vectorLoop H fuel obj t'.cur (v.push (H.vec == some true) n.1)
        else if ch' = 0x5d then
          some (if obj then some ((v.push (H.vec == some true) n.1).number (H.vec == some true)) else none, t'.cur)
        else some (none, t'.cur)
    else some (none, t.cur)
end

/-- ScanToken, DKJSON.c:860-932 -/
def scanToken (H : Host) (obj : Bool) (m : Mem) : Option Tok := tokenWith H (vectorAt H m.length) obj m

/-- `strncmp( m, word, strlen(word) ) == 0` -/
def startsWith : Mem → List UInt8 → Option Bool
  | _, [] => some true
  | [], _ :: _ => none
  | b :: m, p :: ps => if b = p then startsWith m ps else some false

/-- The result of ParseObject: 0 with an object, ']', '}', or -1 -/
inductive Res
  | ok (v : Json)
  | closeList
  | closeDict
  | error

/-- The tests for "true", "false" and "null", DKJSON.c:497-522 -/
def parseWord (m : Mem) : Option Res :=
  (startsWith m [0x74, 0x72, 0x75, 0x65]).bind fun t => if t then some (.ok (.bool true)) else
  (startsWith m [0x66, 0x61, 0x6c, 0x73, 0x65]).bind fun f => if f then some (.ok (.bool false)) else
  (startsWith m [0x6e, 0x75, 0x6c, 0x6c]).bind fun n => if n then some (.ok .null) else some .error

/-- DKDictionarySetObject with a string key, DKDictionary.c:212-219 (proved of the table in C21) -/
def setEntry (k : List UInt8) (v : Json) : List (List UInt8 × Json) → List (List UInt8 × Json)
  | [] => [(k, v)]
  | e :: es => if e.1 = k then (e.1, v) :: es else e :: setEntry k v es

mutual
/-- ParseObject, DKJSON.c:358-523: the result and the cursor; the first argument bounds the depth of calls and the
    iterations -/
def parseObject (H : Host) : Nat → Mem → Option (Res × Mem)
  | 0, _ => none
  | fuel + 1, m => (scanToken H true m).bind fun t =>
    if t.empty then some (.error, t.cur)
    else match t.obj with
      | some v => some (.ok v, t.cur)
      | none => t.str.head?.bind fun ch =>
        if ch = 0x5b then parseList H fuel t.cur []
        else if ch = 0x5d then some (.closeList, t.cur)
        else if ch = 0x7b then parseDict H fuel t.cur []
        else if ch = 0x7d then some (.closeDict, t.cur)
        else if ch = 0x2d ∨ isDigit ch then (strtonum t.str).map fun n => (.ok (.num n.1), t.cur)
        else (parseWord t.str).map fun r => (r, t.cur)
/-- The loop over elements, DKJSON.c:383-409; `acc` is the list so far -/
def parseList (H : Host) : Nat → Mem → List Json → Option (Res × Mem)
  | 0, _, _ => none
  | fuel + 1, m, acc => (parseObject H fuel m).bind fun r =>
    match r with
    | (.closeList, m) => some (.ok (.list acc), m)
    | (.ok v, m) => (scanToken H false m).bind fun t => t.str.head?.bind fun ch =>
        if ch = 0x5d then some (.ok (.list (acc ++ [v])), t.cur)
        else if ch = 0x2c then parseList H fuel t.cur (acc ++ [v])
        else some (.error, t.cur)
    | (_, m) => some (.error, m)
/-- The loop over members, DKJSON.c:423-468; `acc` is the dictionary so far -/
def parseDict (H : Host) : Nat → Mem → List (List UInt8 × Json) → Option (Res × Mem)
  | 0, _, _ => none
  | fuel + 1, m, acc => (parseObject H fuel m).bind fun r =>
    match r with
    | (.closeDict, m) => some (.ok (.dict acc), m)
    | (.ok (.str k), m) => (scanToken H false m).bind fun t => t.str.head?.bind fun ch =>
        if ch = 0x3a then (parseObject H fuel t.cur).bind fun r =>
          match r with
          | (.ok v, m) => (scanToken H false m).bind fun t => t.str.head?.bind fun ch =>
              if ch = 0x7d then some (.ok (.dict (setEntry k v acc)), t.cur)
              else if ch = 0x2c then parseDict H fuel t.cur (setEntry k v acc)
              else some (.error, t.cur)
          | (_, m) => some (.error, m)
        else some (.error, t.cur)
    | (_, m) => some (.error, m)
end

/-- What DKJSONParse returns: NULL, the model's `null`, unless ParseObject returned 0 -/
def Res.object : Res → Json
  | .ok v => v
  | _ => .null

/-- DKJSONParse, DKJSON.c:335-352, of the memory at the text -/
def parse (H : Host) (m : Mem) : Option Json := (parseObject H (2 * m.length) m).map fun r => r.1.object

end Json
end Duck
