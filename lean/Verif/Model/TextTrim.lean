import Verif.Model.Text
/-
Model of trimming, filtering and wrapping strings, Source/DKString.c:1238-1310 and 1345-1453.  As in Model/Text.lean strings are byte
lists, pointers are offsets into the memory of the string and `none` is undefined behaviour.
-/
namespace Duck
namespace Text
open Unicode

/-- `isspace` in the C locale.  The argument must be `EOF` (-1) or an `unsigned char`; for anything else the behaviour is
    undefined (ISO C 7.4; implementations index a table of 384 or 257 entries with it). -/
def isspace (ch : Int) : Option Bool :=
  if ch = -1 then some false
  else if 0 ≤ ch ∧ ch < 256 then some (ch = 32 ∨ 9 ≤ ch ∧ ch ≤ 13) else none

/-- The first loop of DKStringByTrimmingWhitespace, DKString.c:1359-1374, from offset `p`: `byteRange.location`,
    `byteRange.length` (and `len`) and `str` as an offset.  `location` is always the offset of the character being read. -/
def trimHead (m : Mem) (fuel p : Nat) : Option (Nat × Nat × Nat) :=
  (rd m p).bind fun b =>
    if b = 0 then some (p, 0, p)
    else match fuel with
      | 0 => none
      | fuel + 1 => (ustrscan (m.drop p)).bind fun r => (isspace r.1).bind fun sp =>
          if sp then trimHead m fuel (p + r.2) else some (p, r.2, p + r.2)

/-- The second loop, DKString.c:1377-1387: `byteRange.length` at the end -/
def trimTail (m : Mem) (fuel p len keep : Nat) : Option Nat :=
  (rd m p).bind fun b =>
    if b = 0 then some keep
    else match fuel with
      | 0 => none
      | fuel + 1 => (ustrscan (m.drop p)).bind fun r => (isspace r.1).bind fun sp =>
          trimTail m fuel (p + r.2) (len + r.2) (if sp then keep else len + r.2)

/-- DKStringByTrimmingWhitespace, DKString.c:1348-1396 -/
def trim (s : List UInt8) : Option (List UInt8) :=
  (trimHead (mem s) s.length 0).bind fun h =>
    (trimTail (mem s) s.length h.2.2 h.2.1 h.2.1).bind fun n =>
      if n ≠ s.length then copySubstring (mem s) h.1 n else some s

/-- What a filter function answers: DKFilterKeep, DKFilterStop (DKPlatform.h:329-339), and what it did to its context -/
structure Verdict (σ : Type) where
  keep : Bool
  stop : Bool
  context : σ

/-- A filter function: positions in the string and in the result, the bytes and the code point of the character, context -/
abbrev Filter (σ : Type) := Nat → Nat → List UInt8 → Int → σ → Verdict σ

/-- The loop of DKStringByFilteringString, DKString.c:1415-1446: the result so far and the context.  A character of
    more than seven bytes would be written outside `utf8` (`sizeof(DKChar8) = 8`). -/
def filterGo {σ : Type} (f : Filter σ) (m : Mem) (fuel p rdx wrx : Nat) (out : List UInt8) (x : σ) : Option (List UInt8 × σ) :=
  (rd m p).bind fun b =>
    if b = 0 then some (out, x)
    else match fuel with
      | 0 => none
      | fuel + 1 => (ustrscan (m.drop p)).bind fun r =>
          if r.2 < 8 then
            let bytes := (m.drop p).take r.2
            let v := f rdx wrx bytes r.1 x
            let out := if v.keep then out ++ bytes else out
            if v.stop then some (out, v.context)
            else filterGo f m fuel (p + r.2) (rdx + 1) (if v.keep then wrx + 1 else wrx) out v.context
          else none

/-- DKStringByFilteringString, DKString.c:1402-1453 -/
def filter {σ : Type} (f : Filter σ) (s : List UInt8) (x : σ) : Option (List UInt8 × σ) :=
  filterGo f (mem s) s.length 0 0 0 [] x

/-- `strcspn( cur, " \n\r\t" )` -/
def wordSpan (m : Mem) : Option Nat :=
  if (0 : UInt8) ∈ m then some (m.takeWhile fun b => b != 0 && b != 0x20 && b != 0x0a && b != 0x0d && b != 0x09).length else none

/-- `strspn( cur, " \t" )` -/
def blankSpan (m : Mem) : Option Nat :=
  if (0 : UInt8) ∈ m then some (m.takeWhile fun b => b == 0x20 || b == 0x09).length else none

/-- The variables of DKStringWrap, DKString.c:1247-1253: `cur` as an offset, `line`, `lineLength` and `array` -/
structure Wrap where
  cur : Nat
  line : List UInt8
  len : Nat
  lines : List (List UInt8)
  deriving DecidableEq

/-- Ending a line, DKString.c:1262-1265, 1281-1286: the trimmed line is added and the line is cleared -/
def Wrap.flush (w : Wrap) : Option Wrap :=
  (trim w.line).map fun t => { w with line := [], len := 0, lines := w.lines ++ [t] }

/-- DKStringAppendBytes of `n` bytes at `cur`, DKString.c:1269-1271 and 1297-1299; `none` when they are not all in the memory of the string -/
def Wrap.take (w : Wrap) (m : Mem) (n : Nat) : Option Wrap :=
  if w.cur + n ≤ m.length then some { w with cur := w.cur + n, line := w.line ++ (m.drop w.cur).take n, len := w.len + n } else none

/-- The first half of the loop, DKString.c:1257-1271.  The number of characters of the word is also used as its
    number of bytes. -/
def Wrap.word (w : Wrap) (m : Mem) (limit : Nat) : Option Wrap :=
  (wordSpan (m.drop w.cur)).bind fun bytes => (ustrnlen (m.drop w.cur) bytes).bind fun n =>
    (if 0 < w.len ∧ limit < w.len + n then w.flush else some w).bind fun w => w.take m n

/-- The second half, DKString.c:1273-1300 -/
def Wrap.space (w : Wrap) (m : Mem) : Option Wrap :=
  (rd m w.cur).bind fun b =>
    if b = 0x0d then some { w with cur := w.cur + 1 }
    else if b = 0x0a then
      (if 0 < w.len then w.flush else some w).map fun w => { w with cur := w.cur + 1, lines := w.lines ++ [[]] }
    else (blankSpan (m.drop w.cur)).bind fun n => w.take m n

/-- The loop of DKStringWrap, DKString.c:1255-1301 -/
def wrapGo (m : Mem) (limit : Nat) (fuel : Nat) (w : Wrap) : Option Wrap :=
  (rd m w.cur).bind fun b =>
    if b = 0 then some w
    else match fuel with
      | 0 => none
      | fuel + 1 => ((w.word m limit).bind fun w => w.space m).bind (wrapGo m limit fuel)

/-- DKStringWrap, DKString.c:1241-1310 -/
def wrap (s : List UInt8) (limit : Nat) : Option (List (List UInt8)) :=
  (wrapGo (mem s) limit s.length { cur := 0, line := [], len := 0, lines := [] }).bind fun w =>
    if 0 < w.len then w.flush.map (·.lines) else some w.lines

end Text
end Duck
