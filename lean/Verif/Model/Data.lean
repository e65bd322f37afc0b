import Verif.Spec.Seq
import Verif.Model.Number
import Verif.Model.Range
/-!
Model of Source/DKData.c 174-186, 426-868, of the stream, equality and hash functions of Source/DKString.c (which has the same
stream code) 252-315, 449-470, 715-827, 919-937, 1459-1713, 2313-2405, of Source/DKPair.c 151-197 and Source/DKStruct.c 209-286.

Contents are lists of bytes; DKByteArrayReplaceBytes is the splice of Props/ByteArray.lean (C01, C02 prove that the byte array does
that, with terminating zeros).  Lengths are below 2^63.  The functions below are for sums and products that do not overflow; the calls
of a data object (`step`) treat the others too.
-/
namespace Duck
namespace Data

open Spec (splice)

/-- struct DKData (DKData.c 40-46), and the same fields of struct DKString. -/
structure Obj where
  bytes : List UInt8
  cursor : Nat
deriving DecidableEq, Repr

/-- DKDataSetCursor (DKData.c 174-186), DKStringSetCursor (DKString.c 252-264). -/
def setCursor (d : Obj) (c : Int) : Obj :=
  if c < 0 then { d with cursor := 0 }
  else if c > d.bytes.length then { d with cursor := d.bytes.length }
  else { d with cursor := c.toNat }

/-- SEEK_SET, SEEK_CUR, SEEK_END. -/
inductive Origin where
  | set | cur | «end»
deriving DecidableEq, Repr

/-- DKDataSeek (DKData.c 775-798), DKStringSeek (DKString.c 2313-2336). -/
def seek (d : Obj) (offset : Int) : Origin → Obj
  | .set => setCursor d offset
  | .cur => setCursor d (d.cursor + offset)
  | .end => setCursor d (d.bytes.length + d.cursor)

/-- The number of bytes of a request that the content has (DKData.c 828-831, 855-858; DKString.c 2365-2368, 2392-2395). -/
def available (d : Obj) (n : Nat) : Nat := if n > d.bytes.length - d.cursor then d.bytes.length - d.cursor else n

/-- DKDataRead (DKData.c 820-841), DKStringRead (DKString.c 2357-2378) of `length` bytes: the object, the bytes put in the buffer and the result;
    a zero `size` divides by zero. -/
def readBytes (d : Obj) (size length : Nat) : Option (Obj × List UInt8 × Nat) :=
  let d := setCursor d d.cursor
  let n := available d length
  if size = 0 then none else some (setCursor d (d.cursor + n), (d.bytes.drop d.cursor).take n, n / size)

/-- The same of `count` elements of `size` bytes. -/
def read (d : Obj) (size count : Nat) : Option (Obj × List UInt8 × Nat) := readBytes d size (size * count)

/-- DKDataWrite (DKData.c 847-868), DKStringWrite (DKString.c 2384-2405) of a buffer of `size * count` bytes. -/
def write (d : Obj) (buffer : List UInt8) (count : Nat) : Obj × Nat :=
  let d := setCursor d d.cursor
  let d := { d with bytes := splice d.bytes d.cursor (available d buffer.length) buffer }
  (setCursor d (d.cursor + buffer.length), count)

/-- DKDataSetLength (DKData.c 542-560), DKStringSetByteLength (DKString.c 919-937). -/
def setLength (d : Obj) (n : Nat) : Obj :=
  if n > d.bytes.length then { d with bytes := splice d.bytes d.bytes.length 0 (List.replicate (n - d.bytes.length) 0) }
  else if n < d.bytes.length then { d with bytes := splice d.bytes n (d.bytes.length - n) [] }
  else d

/-- DKDataIncreaseLength (DKData.c 566-575). -/
def increaseLength (d : Obj) (n : Nat) : Obj := { d with bytes := splice d.bytes d.bytes.length 0 (List.replicate n 0) }

/-- DKDataAppendData, DKDataAppendBytes (DKData.c 714-739), of other bytes than its own. -/
def append (d : Obj) (bs : List UInt8) : Obj := { d with bytes := splice d.bytes d.bytes.length 0 bs }

/-- DKRangeInsideOrEnd (DKPlatform.h 301), when the sum does not overflow. -/
def inRange (loc len : Int) (n : Nat) : Bool := decide (0 ≤ loc) && decide (0 ≤ len) && decide (loc + len ≤ n)

/-- DKDataReplaceBytes, DKDataDeleteBytes (DKData.c 745-769). -/
def replace (d : Obj) (loc len : Int) (bs : List UInt8) : Obj :=
  if inRange loc len d.bytes.length then { d with bytes := splice d.bytes loc.toNat len.toNat bs } else d

/-- DKDataGetByteRange and DKDataGetBytes (DKData.c 618-631, 689-708): the bytes copied; `none` if nothing is. -/
def getBytes (d : Obj) (loc len : Int) : Option (List UInt8) :=
  if inRange loc len d.bytes.length && decide (loc < d.bytes.length) then some ((d.bytes.drop loc.toNat).take len.toNat) else none

/-! ### Histories of a data object -/

/-- Calls. -/
inductive Op where
  | seek (offset : Int) (origin : Origin)
  | tell
  | read (size count : Nat)
  | write (buffer : List UInt8) (count : Nat)
  | setLength (n : Nat)
  | increaseLength (n : Nat)
  | append (bs : List UInt8)
  | replace (loc len : Int) (bs : List UInt8)
  | getBytes (loc len : Int)

/-- What a call returns. -/
inductive Out where
  | none
  | pos (n : Nat)
  | bytes (bs : List UInt8) (count : Nat)
  | count (n : Nat)
deriving DecidableEq, Repr

/-- One call; `none` is undefined behaviour.  The sum of the cursor and an offset (789) and that of a range (DKPlatform.h 298) may overflow.
    The product of DKDataRead (828) is computed modulo 2^64; as a DKIndex it may be negative, passes the comparison of line 830, and is
    the (then enormous) size given to memcpy (833). -/
def step (d : Obj) : Op → Option (Obj × Out)
  | .seek o .cur => if 2 ^ 63 ≤ d.cursor + o then none else some (seek d o .cur, .none)
  | .seek o w => some (seek d o w, .none)
  | .tell => some (d, .pos d.cursor)
  | .read size count => if 2 ^ 63 ≤ size * count % 2 ^ 64 then none
      else (readBytes d size (size * count % 2 ^ 64)).map fun r => (r.1, .bytes r.2.1 r.2.2)
  | .write b count => some ((write d b count).1, .count (write d b count).2)
  | .setLength n => some (setLength d n, .none)
  | .increaseLength n => some (increaseLength d n, .none)
  | .append bs => some (append d bs, .none)
  | .replace loc len bs => if rangeOverflows loc len then none else some (replace d loc len bs, .none)
  | .getBytes loc len => if rangeOverflows loc len then none else some (d, match getBytes d loc len with | some bs => .bytes bs bs.length | none => .none)

/-- A history and what its calls returned. -/
def run : Obj → List Op → Option (Obj × List Out)
  | d, [] => some (d, [])
  | d, op :: ops => (step d op).bind fun r => (run r.1 ops).map fun q => (q.1, r.2 :: q.2)

/-! ### Equality and hashing of data (DKData.c 426-491) -/

/-- memcmp on the first `n` bytes. -/
def memcmp : Nat → List UInt8 → List UInt8 → Int
  | n + 1, a :: as, b :: bs => if a = b then memcmp n as bs else (a.toNat : Int) - b.toNat
  | _, _, _ => 0

/-- DKDataCompare (440-474), both data objects. -/
def compare (a b : List UInt8) : Int :=
  let n := if a.length < b.length then a.length else b.length
  let c := memcmp n a b
  if c ≠ 0 then c else if a.length < b.length then -1 else if a.length > b.length then 1 else 0

/-- DKDataEqual (426-434). -/
def equal (a b : List UInt8) : Bool := compare a b == 0

/-- One step of the hash functions (DKPlatform.c 549-590): the bytes are signed. -/
def hashStep (h : BitVec 64) (c : UInt8) : BitVec 64 := 31 * h + c.toBitVec.signExtend 64

/-- dk_memhash64 (579-590). -/
def memhash (bs : List UInt8) : BitVec 64 := bs.foldl hashStep 0

/-- DKDataHash (480-491). -/
def hash (bs : List UInt8) : BitVec 64 := if bs.length > 0 then memhash bs else 0

/-! ### Strings with their cached hash (DKString.c) -/

/-- struct DKString (52-60). -/
structure Str where
  data : Obj
  hashCode : BitVec 64
deriving DecidableEq, Repr

/-- The C string: the bytes before the first zero. -/
def cstr (bs : List UInt8) : List UInt8 := bs.takeWhile (· != 0)

/-- dk_strhash64 (DKPlatform.c 549-560). -/
def strhash (bs : List UInt8) : BitVec 64 := (cstr bs).foldl hashStep 0

/-- UpdateHash (270-277). -/
def updateHash (s : Str) : Str :=
  if s.hashCode = 0 then (if s.data.bytes.length > 0 then { s with hashCode := strhash s.data.bytes } else s) else s

/-- TestEquality (283-295) of two different objects, after UpdateHash on both. -/
def testEquality (a b : Str) : Bool :=
  if (updateHash a).hashCode != (updateHash b).hashCode then false else cstr a.data.bytes == cstr b.data.bytes

/-- DKStringHash (815-827). -/
def strHash (s : Str) : BitVec 64 := (updateHash s).hashCode

/-- ReplaceBytes (311-315). -/
def replaceBytes (s : Str) (loc len : Nat) (bs : List UInt8) : Str :=
  ⟨{ s.data with bytes := splice s.data.bytes loc len bs }, 0⟩

/-- DKStringSetString, DKStringSetCString, DKStringSetBytes (1459-1526). -/
def setString (s : Str) (bs : List UInt8) : Str :=
  let s := replaceBytes s 0 s.data.bytes.length bs
  { s with data := setCursor s.data s.data.bytes.length }

/-- DKStringAppendString, DKStringAppendCString, DKStringAppendBytes (1532-1616), of another string. -/
def appendString (s : Str) (bs : List UInt8) : Str :=
  let s := replaceBytes s s.data.bytes.length 0 bs
  { s with data := setCursor s.data s.data.bytes.length }

/-- DKStringReplaceSubstring, DKStringDeleteSubstring (1622-1632, 1704-1713). -/
def replaceSubstring (s : Str) (loc len : Int) (bs : List UInt8) : Str :=
  if inRange loc len s.data.bytes.length then replaceBytes s loc.toNat len.toNat bs else s

/-- DKStringWrite (2384-2405): DKDataWrite and the hash reset of ReplaceBytes. -/
def strWrite (s : Str) (buffer : List UInt8) : Str := ⟨(write s.data buffer buffer.length).1, 0⟩

/-- DKStringSetByteLength (919-937): the cached hash stays. -/
def setByteLength (s : Str) (n : Nat) : Str := { s with data := setLength s.data n }

/-- A byte stored through the pointer of DKStringGetMutableBytePtr (1030-1041), which is NULL if the index is out of range: the
cached hash stays. -/
def poke (s : Str) (index : Int) (b : UInt8) : Str :=
  if 0 ≤ index ∧ index < s.data.bytes.length then { s with data := { s.data with bytes := s.data.bytes.set index.toNat b } } else s

/-- DKStringInitWithString (449-469) into a new string: the cached hash is copied. -/
def copyString (s : Str) : Str := ⟨⟨s.data.bytes, 0⟩, s.hashCode⟩

/-- Calls on the strings of a program, which are numbered. -/
inductive SOp where
  | set (i : Nat) (bs : List UInt8)
  | append (i : Nat) (bs : List UInt8)
  | replace (i : Nat) (loc len : Int) (bs : List UInt8)
  | write (i : Nat) (bs : List UInt8)
  | seek (i : Nat) (offset : Int) (origin : Origin)
  | setByteLength (i : Nat) (n : Nat)
  | poke (i : Nat) (index : Int) (b : UInt8)
  | hash (i : Nat)
  | equal (i j : Nat)
  | copy (i j : Nat)

/-- Replace string `i`. -/
def upd (p : Nat → Str) (i : Nat) (s : Str) : Nat → Str := fun k => if k = i then s else p k

/-- One call; `copy i j` makes the new string `j` from `i`. -/
def sstep (p : Nat → Str) : SOp → (Nat → Str)
  | .set i bs => upd p i (setString (p i) bs)
  | .append i bs => upd p i (appendString (p i) bs)
  | .replace i loc len bs => upd p i (replaceSubstring (p i) loc len bs)
  | .write i bs => upd p i (strWrite (p i) bs)
  | .seek i o w => upd p i { p i with data := seek (p i).data o w }
  | .setByteLength i n => upd p i (setByteLength (p i) n)
  | .poke i k b => upd p i (poke (p i) k b)
  | .hash i => upd p i (updateHash (p i))
  | .equal i j => upd (upd p i (updateHash (p i))) j (updateHash (p j))
  | .copy i j => upd p j (copyString (p i))

/-- A history; strings start out empty. -/
def srun (ops : List SOp) : Nat → Str := ops.foldl sstep fun _ => ⟨⟨[], 0⟩, 0⟩

/-! ### Pairs and structs -/

/-- Objects with value equality: NULL, strings, data, numbers, pairs and structs.  A string is given by its bytes (its cached hash
    is as computed). -/
inductive V where
  | null
  | str (bs : List UInt8)
  | data (bs : List UInt8)
  | num (n : Number.Obj)
  | pair (first second : V)
  | struct (semantic : List UInt8) (bs : List UInt8)

/-- A string just created. -/
def fresh (bs : List UInt8) : Str := ⟨⟨bs, 0⟩, 0⟩

/-- DKStructEqual (DKStruct.c 209-229), semantics not NULL. -/
def structEqual (s a t b : List UInt8) : Bool :=
  if testEquality (fresh s) (fresh t) then (if a.length = b.length then memcmp a.length a b == 0 else false) else false

/-- DKEqual (DKComparison.c 75-89) true of two objects: one object (`same`), or as the class decides; DKPairEqual is DKPair.c 151-162. -/
inductive Eqv : V → V → Prop
  | same (v : V) : Eqv v v
  | str {a b} (h : testEquality (fresh a) (fresh b) = true) : Eqv (.str a) (.str b)
  | data {a b} (h : equal a b = true) : Eqv (.data a) (.data b)
  | num {a b} (h : Number.equal a b = some true) : Eqv (.num a) (.num b)
  | pair {a b c d} (h1 : Eqv a c) (h2 : Eqv b d) : Eqv (.pair a b) (.pair c d)
  | struct {s a t b} (h : structEqual s a t b = true) : Eqv (.struct s a) (.struct t b)

/-- DKHash (DKComparison.c 124-133) with DKPairHash (DKPair.c 189-197) and DKStructHash (DKStruct.c 274-286). -/
def hashV : V → Option (BitVec 64)
  | .null => some 0
  | .str bs => some (strHash (fresh bs))
  | .data bs => some (hash bs)
  | .num n => Number.hash n
  | .pair a b => (hashV a).bind fun x => (hashV b).map fun y => x ^^^ y
  | .struct _ bs => some (memhash bs)

end Data
end Duck
