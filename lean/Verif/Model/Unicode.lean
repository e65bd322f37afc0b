/-
Model of Source/DKUnicode.c and of the ICU macros it uses (ThirdParty/icu/unicode/utf8.h, ThirdParty/icu/utf_impl.c).
A pointer is the list of bytes from the pointer to the end of the readable memory; reading beyond it is undefined
behaviour, the outer `none` of every result.  Positions are `Nat`: wrap-around of the `int32_t` positions
(strings of 2 GB and more) is not modelled.
-/
namespace Duck
namespace Unicode

/-- Readable memory from a `const char *` on. -/
abbrev Mem := List UInt8

/-- `(uint8_t)s[k]` -/
def rd (s : Mem) (k : Nat) : Option Nat := s[k]?.map UInt8.toNat

/-- U8_COUNT_TRAIL_BYTES, ThirdParty/icu/unicode/utf8.h:64-67 -/
def countTrail (c : Nat) : Nat :=
  if c < 0xf0 then (if c ≥ 0xc0 then 1 else 0) + (if c ≥ 0xe0 then 1 else 0)
  else if c < 0xfe then 3 + (if c ≥ 0xf8 then 1 else 0) + (if c ≥ 0xfc then 1 else 0)
  else 0

/-- U8_MASK_LEAD_BYTE, ThirdParty/icu/unicode/utf8.h:90 -/
def maskLead (c count : Nat) : Nat := c &&& ((1 <<< (6 - count)) - 1)

/-- U8_IS_TRAIL, ThirdParty/icu/unicode/utf8.h (`((c)&0xc0)==0x80`) -/
def isTrail (c : Nat) : Bool := c &&& 0xc0 == 0x80

/-- `(uint8_t)(b - 0x80)` -/
def trail (b : Nat) : Nat := (b + 128) % 256

/-- utf8_minLegal, ThirdParty/icu/utf_impl.c:91-92 -/
def minLegal : Nat → Nat
  | 0 => 0
  | 1 => 0x80
  | 2 => 0x800
  | _ => 0x10000

/-- `case 1` of the switch, ThirdParty/icu/utf_impl.c:168-178.  The inner `none` is the `break` to error handling. -/
def body1 (s : Mem) (count i c : Nat) : Option (Option (Nat × Nat)) :=
  (rd s i).map fun b =>
    let t := trail b
    let c := c <<< 6 ||| t
    if t > 0x3f then none else if c ≥ minLegal count then some (c, i + 1) else none

/-- `case 2`, falling through to `case 1`, ThirdParty/icu/utf_impl.c:159-167 -/
def body2 (s : Mem) (count i c : Nat) : Option (Option (Nat × Nat)) :=
  (rd s i).bind fun b =>
    let t := trail b
    let c := c <<< 6 ||| t
    if c &&& 0xffe0 = 0x360 ∨ t > 0x3f then some none else body1 s count (i + 1) c

/-- `case 3`, falling through to `case 2`, ThirdParty/icu/utf_impl.c:153-158 -/
def body3 (s : Mem) (count i c : Nat) : Option (Option (Nat × Nat)) :=
  (rd s i).bind fun b =>
    let t := trail b
    let c := c <<< 6 ||| t
    if c ≥ 0x110 ∨ t > 0x3f then some none else body2 s count (i + 1) c

/-- The switch of utf8_nextCharSafeBody, ThirdParty/icu/utf_impl.c:145-180 -/
def body (s : Mem) (count c : Nat) : Option (Option (Nat × Nat)) :=
  match count with
  | 3 => body3 s 3 1 c
  | 2 => body2 s 2 1 c
  | 1 => body1 s 1 1 c
  | _ => some none

/-- Error handling: skip the trail bytes that are there, ThirdParty/icu/utf_impl.c:187-191 -/
def skip (s : Mem) : Nat → Nat → Option Nat
  | 0, i => some i
  | count + 1, i => (rd s i).bind fun b => if isTrail b then skip s count (i + 1) else some i

/-- utf8_nextCharSafeBody with `length = -1` and `strict = -1`, ThirdParty/icu/utf_impl.c:136-195.  `s` starts at
    the lead byte `c`; the result is the code point (or -1) and the number of bytes consumed. -/
def nextSlow (s : Mem) (c : Nat) : Option (Int × Nat) :=
  (body s (countTrail c) (maskLead c (countTrail c))).bind fun r =>
    match r with
    | some (v, n) => some ((v : Int), n)
    | none => (skip s (countTrail c) 1).map fun n => (-1, n)

/-- The inline case for three bytes, ThirdParty/icu/unicode/utf8.h:330-338, else the slow path -/
def next3 (s : Mem) (c : Nat) : Option (Int × Nat) :=
  (rd s 1).bind fun b1 =>
    if trail b1 ≤ 0x3f then
      (rd s 2).bind fun b2 =>
        if trail b2 ≤ 0x3f then some ((((c <<< 12 ||| trail b1 <<< 6 ||| trail b2) % 65536 : Nat) : Int), 3)
        else nextSlow s c
    else nextSlow s c

/-- The inline case for two bytes, ThirdParty/icu/unicode/utf8.h:339-345, else the slow path -/
def next2 (s : Mem) (c : Nat) : Option (Int × Nat) :=
  (rd s 1).bind fun b1 =>
    if trail b1 ≤ 0x3f then some ((((c &&& 0x1f) <<< 6 ||| trail b1 : Nat) : Int), 2) else nextSlow s c

/-- U8_NEXT with `length = -1` from position 0, ThirdParty/icu/unicode/utf8.h:326-351: the code point (or -1) and the
    number of bytes consumed -/
def next (s : Mem) : Option (Int × Nat) :=
  (rd s 0).bind fun c =>
    if c ≥ 0x80 then
      if 0xe0 < c ∧ c ≤ 0xec then next3 s c
      else if c < 0xe0 ∧ c ≥ 0xc2 then next2 s c
      else nextSlow s c
    else some ((c : Int), 1)

/-- dk_ustrscan, DKUnicode.c:252-267 -/
def ustrscan (s : Mem) : Option (Int × Nat) :=
  (rd s 0).bind fun b => if b = 0 then some (0, 0) else next s

/-- Storing bytes at the start of a buffer; `none` is a write outside it. -/
def store (buf bs : List UInt8) : Option (List UInt8) :=
  if bs.length ≤ buf.length then some (bs ++ buf.drop bs.length) else none

/-- The two-byte form, utf8.h:457-458 and utf_impl.c:201-202 -/
def enc2 (u : Nat) : List UInt8 := [UInt8.ofNat (u >>> 6 ||| 0xc0), UInt8.ofNat (u &&& 0x3f ||| 0x80)]
/-- The three-byte form, utf8.h:460-462 and utf_impl.c:208-210 -/
def enc3 (u : Nat) : List UInt8 :=
  [UInt8.ofNat (u >>> 12 ||| 0xe0), UInt8.ofNat (u >>> 6 &&& 0x3f ||| 0x80), UInt8.ofNat (u &&& 0x3f ||| 0x80)]
/-- The four-byte form, utf_impl.c:215-218 -/
def enc4 (u : Nat) : List UInt8 :=
  [UInt8.ofNat (u >>> 18 ||| 0xf0), UInt8.ofNat (u >>> 12 &&& 0x3f ||| 0x80), UInt8.ofNat (u >>> 6 &&& 0x3f ||| 0x80),
   UInt8.ofNat (u &&& 0x3f ||| 0x80)]

/-- utf8_appendCharSafeBody with `i = 0` and an error flag, ThirdParty/icu/utf_impl.c:198-240: the bytes to store, or
    `none` when it sets the flag.  `length` is the capacity as `int32_t`. -/
def appendSlow (length : Int) (u : Nat) : Option (List UInt8) :=
  if u ≤ 0x7ff then (if 1 < length then some (enc2 u) else none)
  else if u ≤ 0xffff then (if 2 < length ∧ ¬ (0xd800 ≤ u ∧ u ≤ 0xdfff) then some (enc3 u) else none)
  else if u ≤ 0x10ffff then (if 3 < length then some (enc4 u) else none)
  else none

/-- A 32-bit pattern as `int32_t`. -/
def asInt32 (n : Nat) : Int := if n < 2 ^ 31 then n else n - 2 ^ 32

/-- U8_APPEND with `i = 0`, ThirdParty/icu/unicode/utf8.h:453-466 -/
def appendBytes (capacity : Nat) (u : Nat) : Option (List UInt8) :=
  if u ≤ 0x7f then some [UInt8.ofNat u]
  else if u ≤ 0x7ff ∧ 1 < capacity then some (enc2 u)
  else if u ≤ 0xd7ff ∧ 2 < capacity then some (enc3 u)
  else appendSlow (asInt32 capacity) u

/-- dk_ustrwrite, DKUnicode.c:273-290, into a buffer of exactly `str_size` bytes: the buffer afterwards and the
    returned size -/
def ustrwrite (ch : Int) (buf : List UInt8) : Option (List UInt8 × Nat) :=
  let capacity := (buf.length + (2 ^ 32 - 1)) % 2 ^ 32
  match appendBytes capacity (ch % 2 ^ 32).toNat with
  | none => some (buf, 0)
  | some bs => (store buf bs).bind fun buf =>
      if bs.length < buf.length then some (buf.set bs.length 0, bs.length) else some (buf, bs.length)

/-- The loop of dk_ustrlen, DKUnicode.c:177-183; the first argument bounds the iterations -/
def ustrlenGo (fuel : Nat) (s : Mem) (length : Nat) : Option Nat :=
  (rd s 0).bind fun b =>
    if b = 0 then some length
    else match fuel with
      | 0 => none
      | fuel + 1 => (ustrscan s).bind fun r => ustrlenGo fuel (s.drop r.2) (length + 1)

/-- dk_ustrlen, DKUnicode.c:172-186 -/
def ustrlen (s : Mem) : Option Nat := ustrlenGo s.length s 0

/-- The loop of dk_ustrnlen, DKUnicode.c:197-203; `off = cur - str` -/
def ustrnlenGo (n : Nat) (fuel : Nat) (s : Mem) (off length : Nat) : Option Nat :=
  (rd s 0).bind fun b =>
    if b ≠ 0 ∧ off < n then match fuel with
      | 0 => none
      | fuel + 1 => (ustrscan s).bind fun r => ustrnlenGo n fuel (s.drop r.2) (off + r.2) (length + 1)
    else some length

/-- dk_ustrnlen, DKUnicode.c:192-206 -/
def ustrnlen (s : Mem) (n : Nat) : Option Nat := ustrnlenGo n s.length s 0 0

/-- The loop of dk_ustridx, DKUnicode.c:216-223, `idx - i` iterations to go.  `some none` is NULL,
    `some (some k)` the pointer `str + k`. -/
def ustridxGo (s : Mem) : Nat → Nat → Option (Option Nat)
  | 0, cur => some (some cur)
  | n + 1, cur => (ustrscan (s.drop cur)).bind fun r => if r.1 = 0 then some none else ustridxGo s n (cur + r.2)

/-- dk_ustridx, DKUnicode.c:212-226 -/
def ustridx (s : Mem) (idx : Nat) : Option (Option Nat) := ustridxGo s idx 0

/-- The loop of dk_ustrchr, DKUnicode.c:41-47 -/
def ustrchrGo (s : Mem) (ch : Int) (fuel i : Nat) : Option (Option Nat) :=
  (rd s i).bind fun b =>
    if b = 0 then some none
    else match fuel with
      | 0 => none
      | fuel + 1 => (next (s.drop i)).bind fun r =>
          if r.1 = ch then some (some (i + r.2)) else ustrchrGo s ch fuel (i + r.2)

/-- dk_ustrchr, DKUnicode.c:36-50: `some (some k)` is the pointer `str + k`, `some none` NULL -/
def ustrchr (s : Mem) (ch : Int) : Option (Option Nat) := ustrchrGo s ch s.length 0

/-- The inner loop of dk_ustrstr and dk_ustrstr_range, DKUnicode.c:93-100 and 131-140: `some k` when the whole of
    `str2` was matched after `k` further characters -/
def matchGo (s1 s2 : Mem) (fuel i j : Nat) (ch1 ch2 : Int) (len : Nat) : Option (Option Nat) :=
  if ch1 = ch2 then
    (rd s2 j).bind fun b =>
      if b = 0 then some (some len)
      else match fuel with
        | 0 => none
        | fuel + 1 => (next (s1.drop i)).bind fun r1 => (next (s2.drop j)).bind fun r2 =>
            matchGo s1 s2 fuel (i + r1.2) (j + r2.2) r1.1 r2.1 (len + 1)
  else some none

/-- The outer loop of dk_ustrstr and dk_ustrstr_range, DKUnicode.c:81-101 and 118-143: the byte position, character
    position and character length of the match.  (The two functions differ only in what they return.) -/
def strGo (s1 s2 : Mem) (fuel i loc : Nat) : Option (Option (Nat × Nat × Nat)) :=
  (rd s1 i).bind fun b =>
    if b = 0 then some none
    else match fuel with
      | 0 => none
      | fuel + 1 => (next (s1.drop i)).bind fun r1 => (next s2).bind fun r2 =>
          (matchGo s1 s2 s2.length (i + r1.2) r2.2 r1.1 r2.1 1).bind fun m =>
            match m with
            | some len => some (some (i, loc, len))
            | none => strGo s1 s2 fuel (i + r1.2) (loc + 1)

/-- Both search functions: the test for empty strings and the loop -/
def search (s1 s2 : Mem) : Option (Option (Nat × Nat × Nat)) :=
  (rd s1 0).bind fun a => if a = 0 then some none else
    (rd s2 0).bind fun b => if b = 0 then some none else strGo s1 s2 s1.length 0 0

/-- dk_ustrstr, DKUnicode.c:76-104 -/
def ustrstr (s1 s2 : Mem) : Option (Option Nat) := (search s1 s2).map fun r => r.map (·.1)

/-- dk_ustrstr_range, DKUnicode.c:110-146: location (`DKNotFound = -1`) and length -/
def ustrstrRange (s1 s2 : Mem) : Option (Int × Int) :=
  (search s1 s2).map fun r => match r with
    | some (_, loc, len) => ((loc : Int), (len : Int))
    | none => (-1, 0)

/-- The loop of dk_ustrcmp, DKUnicode.c:158-163 -/
def ustrcmpGo (fuel : Nat) (s1 s2 : Mem) : Option Int :=
  (next s1).bind fun r1 => (next s2).bind fun r2 =>
    if r1.1 = r2.1 ∧ r1.1 ≠ 0 then match fuel with
      | 0 => none
      | fuel + 1 => ustrcmpGo fuel (s1.drop r1.2) (s2.drop r2.2)
    else some (r2.1 - r1.1)

/-- dk_ustrcmp, DKUnicode.c:152-166 -/
def ustrcmp (s1 s2 : Mem) : Option Int := ustrcmpGo s1.length s1 s2

/-- The last test of utf8_prevCharSafeBody, ThirdParty/icu/utf_impl.c:268-278, for a lead byte `b` -/
def prevValue (b count shift c : Nat) : Int :=
  let v := c ||| maskLead b count <<< shift
  if count ≥ 4 ∨ v > 0x10ffff ∨ v < minLegal count ∨ (0xd800 ≤ v ∧ v ≤ 0xdfff) then -1 else v

/-- The loop of utf8_prevCharSafeBody with `start = 0`, `strict = -1`, ThirdParty/icu/utf_impl.c:252-306.  `pos` is
    the position to report when the trail byte stands alone.  Result: code point (or -1) and new position. -/
def prevGo (s : Mem) (pos : Nat) : Nat → Nat → Nat → Nat → Option (Int × Nat)
  | 0, _, _, _ => some (-1, pos)
  | i + 1, count, shift, c =>
    (rd s i).bind fun b =>
      if 0x80 ≤ b ∧ b < 0xfe then
        if b &&& 0x40 ≠ 0 then
          if count = countTrail b then some (prevValue b count shift c, i)
          else if count < countTrail b then some (-1, i) else some (-1, pos)
        else if count < 5 then prevGo s pos i (count + 1) (shift + 6) (c ||| (b &&& 0x3f) <<< shift)
        else some (-1, pos)
      else some (-1, pos)

/-- U8_PREV with `start = 0`, ThirdParty/icu/unicode/utf8.h:652-657, from position `i > 0` -/
def prev (s : Mem) (i : Nat) : Option (Int × Nat) :=
  (rd s (i - 1)).bind fun c =>
    if c ≥ 0x80 then
      if isTrail c then prevGo s (i - 1) (i - 1) 1 6 (c &&& 0x3f) else some (-1, i - 1)
    else some ((c : Int), i - 1)

/-- strlen -/
def strlen (s : Mem) : Option Nat :=
  if (0 : UInt8) ∈ s then some (s.takeWhile (· != 0)).length else none

/-- The loop of dk_ustrrchr, DKUnicode.c:61-67 -/
def ustrrchrGo (s : Mem) (ch : Int) (fuel i : Nat) : Option (Option Nat) :=
  if i > 0 then match fuel with
    | 0 => none
    | fuel + 1 => (prev s i).bind fun r => if r.1 = ch then some (some r.2) else ustrrchrGo s ch fuel r.2
  else some none

/-- dk_ustrrchr, DKUnicode.c:56-70 -/
def ustrrchr (s : Mem) (ch : Int) : Option (Option Nat) :=
  (strlen s).bind fun n => ustrrchrGo s ch n n

/-- The loop of dk_ustrridx, DKUnicode.c:237-243 -/
def ustrridxGo (s : Mem) (idx : Nat) (fuel i j : Nat) : Option (Option Nat) :=
  if i > 0 then match fuel with
    | 0 => none
    | fuel + 1 => (prev s i).bind fun r => if j ≥ idx then some (some r.2) else ustrridxGo s idx fuel r.2 (j + 1)
  else some none

/-- dk_ustrridx, DKUnicode.c:232-246 -/
def ustrridx (s : Mem) (idx : Nat) : Option (Option Nat) :=
  (strlen s).bind fun n => ustrridxGo s idx n n 0

end Unicode
end Duck
