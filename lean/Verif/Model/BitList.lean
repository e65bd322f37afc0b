/-! Model of `DKBitList` (Source/DKBitList.c).  The storage is the list of its 32-bit words; an access outside it is
    `none`.  Indexes are `Nat`: BIT_INDEX converts the index to `size_t` (43), so a negative index is an access far
    outside the storage.  `1 << 31` is taken to be the sign bit, as every supported compiler does. -/
namespace Duck
namespace BitList

/-- struct DKBitList (46-53); `numInts` is the number of words. -/
structure Bits where
  numBits : Nat
  words : List (BitVec 32)

/-- ROUND_POW2( n, 32 ) (35). -/
def roundPow2 (n : Nat) : Nat := (n + 31) / 32 * 32

/-- DKBitListInit (118-155). -/
def init (length : Int) (value : Bool) : Bits :=
  let bits := if length ≤ 0 then 0 else length.toNat
  let ints := if length ≤ 0 then 1 else roundPow2 bits
  ⟨bits, List.replicate ints (if value then -1 else 0)⟩

/-- DKBitListGetLength (161-164). -/
def length (l : Bits) : Nat := l.numBits

/-- DKBitListSetAllBits (170-173). -/
def setAll (l : Bits) : Bits := { l with words := List.replicate l.words.length (-1) }

/-- DKBitListClearAllBits (179-182). -/
def clearAll (l : Bits) : Bits := { l with words := List.replicate l.words.length 0 }

/-- DKBitListFlipAllBits (188-196). -/
def flipAll (l : Bits) : Bits := { l with words := l.words.map (~~~ ·) }

/-- `_self->bits[BIT_INDEX( i )] = f( ..., 1 << BIT_OFFSET( i ) )`. -/
def update (f : BitVec 32 → BitVec 32 → BitVec 32) (l : Bits) (i : Nat) : Option Bits :=
  l.words[i / 32]?.map fun w => { l with words := l.words.set (i / 32) (f w (1#32 <<< (i % 32))) }

/-- DKBitListSetBit (202-209). -/
def setBit (l : Bits) (i : Nat) : Option Bits := update (fun w m => w ||| m) l i

/-- DKBitListClearBit (215-222). -/
def clearBit (l : Bits) (i : Nat) : Option Bits := update (fun w m => w &&& ~~~m) l i

/-- DKBitListFlipBit (228-235). -/
def flipBit (l : Bits) (i : Nat) : Option Bits := update (fun w m => w ^^^ m) l i

/-- DKBitListTestBit (241-250): the result is converted to `bool`. -/
def testBit (l : Bits) (i : Nat) : Option Bool :=
  l.words[i / 32]?.map fun w => (w &&& (1#32 <<< (i % 32))) >>> (i % 32) != 0

/-- DKBitListTestAndSetBit (256-266). -/
def testAndSet (l : Bits) (i : Nat) : Option (Bits × Bool) := (testBit l i).bind fun b => (setBit l i).map fun l => (l, b)

/-- DKBitListTestAndClearBit (272-282). -/
def testAndClear (l : Bits) (i : Nat) : Option (Bits × Bool) := (testBit l i).bind fun b => (clearBit l i).map fun l => (l, b)

/-- DKBitListTestAndFlipBit (288-298). -/
def testAndFlip (l : Bits) (i : Nat) : Option (Bits × Bool) := (testBit l i).bind fun b => (flipBit l i).map fun l => (l, b)

/-- `for( j = 0; j < n; j++ ) if( test( bits, j ) ) return i * 32 + j`. -/
def firstInWord (test : BitVec 32 → Nat → Bool) (w : BitVec 32) (i n : Nat) : Option Nat :=
  ((List.range n).find? (test w)).map (i * 32 + ·)

/-- The loops over the words: every word but the last is searched whole, the last up to `tail` bits (311-339, 356-384).
    `skip` is the word value that needs no search. -/
def firstLoop (skip : BitVec 32) (test : BitVec 32 → Nat → Bool) (tail : Nat) : List (BitVec 32) → Nat → Option Nat
  | [], _ => none
  | [w], i => if w ≠ skip then firstInWord test w i tail else none
  | w :: ws, i => (if w ≠ skip then firstInWord test w i 32 else none).or (firstLoop skip test tail ws (i + 1))

/-- DKBitListGetFirstSetBit (304-343); `none` is DKNotFound. -/
def firstSet (l : Bits) : Option Nat :=
  firstLoop 0 (fun w j => w &&& (1#32 <<< j) != 0) (l.numBits % 32) l.words 0

/-- DKBitListGetFirstClearBit (349-388). -/
def firstClear (l : Bits) : Option Nat :=
  firstLoop (-1) (fun w j => w &&& (1#32 <<< j) == 0) (l.numBits % 32) l.words 0

/-- `for( j = 0; j < n; j++ ) count += ...`. -/
def countInWord (term : BitVec 32 → Nat → BitVec 32) (w : BitVec 32) (n : Nat) : Nat :=
  ((List.range n).map fun j => (term w j).toNat).sum

/-- The loops over the words (403-425, 444-466). -/
def countLoop (skip : BitVec 32) (term : BitVec 32 → Nat → BitVec 32) (tail : Nat) : List (BitVec 32) → Nat
  | [] => 0
  | [w] => if w ≠ skip then countInWord term w tail else 0
  | w :: ws => (if w ≠ skip then countInWord term w 32 else 0) + countLoop skip term tail ws

/-- DKBitListCountSetBits (394-429). -/
def countSet (l : Bits) : Nat := countLoop 0 (fun w j => (w >>> j) &&& 1) (l.numBits % 32) l.words

/-- DKBitListCountClearBits (435-470). -/
def countClear (l : Bits) : Nat := countLoop (-1) (fun w j => ~~~(w >>> j) &&& 1) (l.numBits % 32) l.words

/-- The bit lists of a program, by handle: arguments of a merge may be the same list. -/
abbrev Store := Nat → Bits

/-- `r->bits[i] = f( a->bits[i], b->bits[i] )` for the `k` indexes from `i`. -/
def mergeLoop (f : BitVec 32 → BitVec 32 → BitVec 32) (a b r : Nat) : Nat → Nat → Store → Option Store
  | 0, _, s => some s
  | k + 1, i, s => (s a).words[i]?.bind fun x => (s b).words[i]?.bind fun y =>
      if i < (s r).words.length then
        mergeLoop f a b r k (i + 1) fun h => if h = r then { s r with words := (s r).words.set i (f x y) } else s h
      else none

/-- DKBitListMergeBits... (476-560): the number of words is that of the shorter of `a` and `b` (480-481 compares
    `b->numInts` twice and never looks at `r`). -/
def merge (f : BitVec 32 → BitVec 32 → BitVec 32) (a b r : Nat) (s : Store) : Option Store :=
  mergeLoop f a b r (min (min (s a).words.length (s b).words.length) (s b).words.length) 0 s

/-- The six merges (484, 499, 514, 529, 544, 559). -/
inductive MergeOp where
  | and | nand | or | nor | xor | nxor

def MergeOp.words : MergeOp → BitVec 32 → BitVec 32 → BitVec 32
  | .and => fun x y => x &&& y
  | .nand => fun x y => ~~~(x &&& y)
  | .or => fun x y => x ||| y
  | .nor => fun x y => ~~~(x ||| y)
  | .xor => fun x y => x ^^^ y
  | .nxor => fun x y => ~~~(x ^^^ y)

/-- Calls on one bit list. -/
inductive Op where
  | setAll | clearAll | flipAll
  | set (i : Nat) | clear (i : Nat) | flip (i : Nat) | test (i : Nat)
  | testAndSet (i : Nat) | testAndClear (i : Nat) | testAndFlip (i : Nat)

/-- One call and the `bool` it returns, if any. -/
def step (l : Bits) : Op → Option (Bits × Option Bool)
  | .setAll => some (BitList.setAll l, none)
  | .clearAll => some (BitList.clearAll l, none)
  | .flipAll => some (BitList.flipAll l, none)
  | .set i => (setBit l i).map (·, none)
  | .clear i => (clearBit l i).map (·, none)
  | .flip i => (flipBit l i).map (·, none)
  | .test i => (testBit l i).map fun b => (l, some b)
  | .testAndSet i => (BitList.testAndSet l i).map fun r => (r.1, some r.2)
  | .testAndClear i => (BitList.testAndClear l i).map fun r => (r.1, some r.2)
  | .testAndFlip i => (BitList.testAndFlip l i).map fun r => (r.1, some r.2)

/-- A history of calls. -/
def run (l : Bits) : List Op → Option (Bits × List (Option Bool))
  | [] => some (l, [])
  | op :: ops => (step l op).bind fun r => (run r.1 ops).map fun q => (q.1, r.2 :: q.2)

end BitList
end Duck
