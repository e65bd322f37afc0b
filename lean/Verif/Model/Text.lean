import Verif.Model.Unicode
/-
Model of the character-level functions of Source/DKString.c on the bytes of a string.  `none` is undefined behaviour
(a read outside the string's memory or through NULL).  NULL receivers, the cursor and the hash cache are left out (see Model/Data.lean
for the latter); results of functions that autorelease or copy are the bytes of the resulting string.
-/
namespace Duck
namespace Text
open Unicode

/-- The memory of a string: its bytes and the four terminating zeros, DKByteArray.c:46-52 and DKString.c:331-335 -/
def mem (s : List UInt8) : Mem := s ++ [0, 0, 0, 0]

/-- `DKIndex` passed as `size_t` -/
def sizeT (i : Int) : Nat := (i % 2 ^ 64).toNat

/-- DKStringGetLength, DKString.c:887-897 -/
def getLength (s : List UInt8) : Option Nat := ustrlen (mem s)

/-- The loop of DKStringGetCharacterAtIndex, DKString.c:967-1000; `p` is `str` as an offset -/
def charAtGo (m : Mem) (index : Int) (fuel i p : Nat) : Option (Int × List UInt8) :=
  (rd m p).bind fun b =>
    if b = 0 then some (0, [])
    else match fuel with
      | 0 => none
      | fuel + 1 => (ustrscan (m.drop p)).bind fun r =>
          if (i : Int) = index then some (r.1, if r.2 < 8 then (m.drop p).take r.2 else [])
          else charAtGo m index fuel (i + 1) (p + r.2)

/-- DKStringGetCharacterAtIndex, DKString.c:961-1007 (`sizeof(DKChar8) = 8`, DKPlatform.h:270-275): the code point and
    the bytes stored through `utf8` -/
def charAt (s : List UInt8) (index : Int) : Option (Int × List UInt8) := charAtGo (mem s) index s.length 0 0

/-- CopySubstring, DKString.c:321-338 -/
def copySubstring (m : Mem) (loc len : Nat) : Option (List UInt8) :=
  if len = 0 then some [] else if loc + len ≤ m.length then some ((m.drop loc).take len) else none

/-- DKStringCopySubstring from a found start, DKString.c:1061-1070 -/
def substringFrom (s : List UInt8) (loc : Nat) (len : Int) : Option (Option (List UInt8)) :=
  (ustridx ((mem s).drop loc) (sizeT len)).bind fun e =>
    match e with
    | none => some none
    | some n => (copySubstring (mem s) loc n).map some

/-- DKStringCopySubstring, DKString.c:1047-1080; `some none` is NULL -/
def substring (s : List UInt8) (loc len : Int) : Option (Option (List UInt8)) :=
  if len > 0 then
    if s.length > 0 then
      (ustridx (mem s) (sizeT loc)).bind fun l =>
        match l with
        | none => some none
        | some l => substringFrom s l len
    else some none
  else some none

/-- DKStringCopySubstringFromIndex, DKString.c:1086-1114 -/
def substringFromIndex (s : List UInt8) (index : Int) : Option (Option (List UInt8)) :=
  if index ≥ 0 then
    if s.length > 0 then
      (ustridx (mem s) (sizeT index)).bind fun l =>
        match l with
        | none => some none
        | some l => (copySubstring (mem s) l (s.length - l)).map some
    else some none
  else some none

/-- DKStringCopySubstringToIndex, DKString.c:1120-1148 -/
def substringToIndex (s : List UInt8) (index : Int) : Option (Option (List UInt8)) :=
  if index ≥ 0 then
    if s.length > 0 then
      (ustridx (mem s) (sizeT index)).bind fun l =>
        match l with
        | none => some none
        | some l => (copySubstring (mem s) 0 l).map some
    else some none
  else some none

/-- The start pointer of the search, DKString.c:1164-1175; `some none` is NULL -/
def rangeStart (s : List UInt8) (startLoc : Int) : Option (Option Nat) :=
  if startLoc > 0 then ustridx (mem s) (sizeT startLoc) else some (some 0)

/-- DKStringGetRangeOfString, DKString.c:1154-1192.  When the start lies outside the string the pointer is NULL and
    the search reads through it. -/
def rangeOfString (s pat : List UInt8) (startLoc : Int) : Option (Int × Int) :=
  if s.length > 0 then
    (rangeStart s startLoc).bind fun p =>
      (rd (mem pat) 0).bind fun b =>
        if b ≠ 0 then
          p.bind fun k => (ustrstrRange ((mem s).drop k) (mem pat)).map fun r =>
            if r.1 ≠ -1 then (r.1 + startLoc, r.2) else r
        else some (-1, 0)
  else some (-1, 0)

/-- DKStringHasPrefix, DKString.c:849-853 -/
def hasPrefix (s pat : List UInt8) : Option Bool := (rangeOfString s pat 0).map fun r => r.1 == 0

/-- DKStringHasSuffix, DKString.c:859-871 -/
def hasSuffix (s pat : List UInt8) : Option Bool :=
  (getLength s).bind fun a => (getLength pat).bind fun b =>
    if a ≥ b then (rangeOfString s pat ((a : Int) - b)).map fun r => r.1 != -1 else some false

/-- DKStringHasSubstring, DKString.c:877-881 -/
def hasSubstring (s pat : List UInt8) : Option Bool := (rangeOfString s pat 0).map fun r => r.1 != -1

/-- DKStringCompareString on two different objects, DKString.c:770-790 -/
def compareString (a b : List UInt8) : Option Int := ustrcmp (mem a) (mem b)

/-- The loop of DKStringSplit, DKString.c:1211-1222: from offset `a`, the components and the offset where it stops.
    `while( a < b )`: with `b` NULL or `b = a` it stops. -/
def splitGo (m sep : Mem) (len : Nat) (fuel a : Nat) : Option (List (List UInt8) × Nat) :=
  (ustrstr (m.drop a) sep).bind fun b =>
    match b with
    | none => some ([], a)
    | some d =>
      if 0 < d then match fuel with
        | 0 => none
        | fuel + 1 => (copySubstring (m.drop a) 0 d).bind fun c =>
            (splitGo m sep len fuel (a + d + len)).map fun r => (c :: r.1, r.2)
      else some ([], a)

/-- DKStringSplit, DKString.c:1198-1235 -/
def split (s sep : List UInt8) : Option (List (List UInt8)) :=
  (strlen (mem sep)).bind fun len =>
    (splitGo (mem s) (mem sep) len s.length 0).bind fun r =>
      (rd (mem s) r.2).bind fun b =>
        if b ≠ 0 then
          (strlen ((mem s).drop r.2)).bind fun n => (copySubstring ((mem s).drop r.2) 0 n).map fun c => r.1 ++ [c]
        else some r.1

/-- The loop of DKStringCombine, DKString.c:1326-1335; `n` is the number of items left -/
def combineGo (sep : Option (List UInt8)) : List (List UInt8) → List UInt8 → List UInt8
  | [], acc => acc
  | [x], acc => acc ++ x
  | x :: xs, acc => combineGo sep xs (acc ++ x ++ sep.getD [])

/-- DKStringCombine, DKString.c:1316-1342 -/
def combine (xs : List (List UInt8)) (sep : Option (List UInt8)) : List UInt8 := combineGo sep xs []

/-- DKStringReplaceSubstring, DKString.c:1622-1632: the range is checked against, and applied to, the bytes -/
def replaceSubstring (s : List UInt8) (loc len : Int) (rep : List UInt8) : List UInt8 :=
  if 0 ≤ loc ∧ 0 ≤ len ∧ loc + len ≤ s.length then s.take loc.toNat ++ rep ++ s.drop (loc + len).toNat else s

/-- The loop of DKStringReplaceOccurrencesOfString, DKString.c:1643-1647.  `length` is the character length of the
    replacement; `fuel` bounds the iterations, `none` then stands for "still running". -/
def replaceGo (pat rep : List UInt8) (length : Nat) (fuel : Nat) (s : List UInt8) (range : Int × Int) : Option (List UInt8) :=
  if range.1 ≠ -1 then match fuel with
    | 0 => none
    | fuel + 1 =>
      let s := replaceSubstring s range.1 range.2 rep
      (rangeOfString s pat (range.1 + length)).bind fun r => replaceGo pat rep length fuel s r
  else some s

/-- DKStringReplaceOccurrencesOfString, DKString.c:1638-1656, with a bound on the iterations -/
def replaceAll (fuel : Nat) (s pat rep : List UInt8) : Option (List UInt8) :=
  (rangeOfString s pat 0).bind fun r => (getLength rep).bind fun n => replaceGo pat rep n fuel s r

end Text
end Duck
