import Verif.Model.GenericArray
/-
Model of Source/DKByteArray.c: the byte storage of DKData and DKString.
Cells hold `none` while uninitialised; `Option` results: `none` is undefined behaviour.
-/
namespace Duck

/-- `struct DKByteArray` (Source/DKByteArray.h).  `bytes = none` is the shared static `NULL_BYTES` (DKByteArray.c:40),
    four zero bytes that every writer leaves zero.  External storage (`maxLength = -1`) is not modelled. -/
structure BArray where
  bytes     : Option (Block UInt8)
  length    : Nat
  maxLength : Nat
deriving DecidableEq, Repr

namespace BArray

/-- MIN_BYTE_ARRAY_SIZE, DKByteArray.c:32 -/
def minSize : Nat := 64
/-- NULL_TERMINATOR_SIZE, DKByteArray.c:38 -/
def termSize : Nat := 4

/-- DKByteArrayInit, DKByteArray.c:58-63; also the result of DKByteArrayFinalize, 80-88 -/
def init : BArray := ⟨none, 0, 0⟩

/-- SetNullTerminator, DKByteArray.c:46-52.  On `NULL_BYTES` with length 0 it rewrites the four zeros;
    with length > 0 it would write outside the static array (UB). -/
def setNullTerminator (a : BArray) : Option BArray :=
  match a.bytes with
  | none => if a.length = 0 then some a else none
  | some b => (b.write a.length [some 0, some 0, some 0, some 0]).map fun b => { a with bytes := some b }

/-- DKByteArrayReserve, DKByteArray.c:94-119 -/
def reserve (a : BArray) (length : Nat) : Option BArray :=
  if a.maxLength < length then
    let length := if length < minSize then minSize else length
    let fresh := malloc UInt8 (length + termSize)
    let copied :=
      match a.bytes with
      | some old => if a.maxLength > 0 then fresh.copyIf 0 old 0 a.length else some fresh
      | none => some fresh
    copied.bind fun b => setNullTerminator { bytes := some b, length := a.length, maxLength := length }
  else some a

/-- The allocated length chosen by ResizeArray, DKByteArray.c:134-153 (note `<`, not `≤`, on line 136) -/
def resizeLength (oldLength requested : Nat) : Nat :=
  if requested < oldLength then oldLength
  else
    let n := oldLength + oldLength / 4
    let n := if n < requested then requested else n
    if n < minSize then minSize else n

/-- DKByteArraySetLength, DKByteArray.c:159-164 -/
def setLength (a : BArray) (length : Nat) : Option BArray :=
  (a.reserve length).bind fun a => setNullTerminator { a with length := length }

/-- The bytes the final memcpy / memset writes (DKByteArray.c:237-250), `src` as in `GArray.Src`;
    reading the array's own bytes after line 218 freed them, or overlapping memcpy, is UB. -/
def srcCells (src : GArray.Src UInt8) (loc length : Nat) (keep : Bool) (blk : Block UInt8) : Option (List (Option UInt8)) :=
  match src with
  | .null => some (List.replicate length (some 0))
  | .ext xs => if length ≤ xs.length then some ((xs.take length).map some) else none
  | .self off => if keep && (off + length ≤ loc || loc + length ≤ off) then blk.read off length else none

/-- DKByteArrayReplaceBytes, DKByteArray.c:170-253 -/
def replaceBytes (a : BArray) (loc len : Nat) (src : GArray.Src UInt8) (length : Nat) : Option BArray :=
  let rangeEnd := loc + len
  if len = 0 ∧ length = 0 then some a
  else
    let sufLen := a.length - rangeEnd
    let sufAfter := loc + length
    let newLength := a.length + length - len
    let newMax := resizeLength a.maxLength newLength
    let keep : Bool := newLength < a.maxLength
    let moved : Option (Option (Block UInt8)) :=
      match a.bytes with
      | none => if keep then some none else some (some (malloc UInt8 (newMax + termSize)))
      | some old =>
        if keep then (old.copyIf sufAfter old rangeEnd sufLen).map some
        else
          (((malloc UInt8 (newMax + termSize)).copyIf 0 old 0 loc).bind
            (fun fresh => fresh.copyIf sufAfter old rangeEnd sufLen)).map some
    match moved with
    | none => none
    | some none => if length > 0 then none else setNullTerminator { bytes := none, length := newLength, maxLength := newMax }
    | some (some blk) =>
      let blk? :=
        if length > 0 then (srcCells src loc length keep blk).bind (fun cs => blk.write loc cs)
        else some blk
      blk?.bind fun blk => setNullTerminator { bytes := some blk, length := newLength, maxLength := newMax }

/-- DKByteArrayAppendBytes, DKByteArray.c:259-263 -/
def append (a : BArray) (src : GArray.Src UInt8) (length : Nat) : Option BArray :=
  a.replaceBytes a.length 0 src length

/-- DKByteArrayAlignLength, DKByteArray.c:269-285, with its padding count.  `byteAlignment = 0` divides by zero (UB).
    The extra memset on line 279 rewrites the padding already zeroed by the append. -/
def alignLength (a : BArray) (byteAlignment : Nat) : Option (BArray × Nat) :=
  if byteAlignment = 0 then none
  else
    let remainder := a.length % byteAlignment
    if remainder > 0 then
      let pad := byteAlignment - remainder
      (a.append .null pad).bind fun a' =>
        match a'.bytes with
        | none => none
        | some b => (b.write a.length (List.replicate pad (some 0))).map fun b => ({ a' with bytes := some b }, pad)
    else some (a, 0)

/-- Reading one byte of the storage: `none` outside the block or uninitialised. -/
def byteAt (a : BArray) (i : Nat) : Option UInt8 :=
  match a.bytes with
  | none => if i < termSize then some 0 else none
  | some b => (b[i]?).join

/-- Operations of a history on a byte array. -/
inductive Op where
  | reserve (n : Nat)
  | setLength (n : Nat)
  | replace (loc len : Nat) (src : GArray.Src UInt8) (n : Nat)
  | append (src : GArray.Src UInt8) (n : Nat)
  | align (n : Nat)
  | finalize

/-- One operation of a history. -/
def step (a : BArray) : Op → Option BArray
  | .reserve n => a.reserve n
  | .setLength n => a.setLength n
  | .replace loc len src n => a.replaceBytes loc len src n
  | .append src n => a.append src n
  | .align n => (a.alignLength n).map (·.1)
  | .finalize => some init

/-- A whole history. -/
def run (a : BArray) (ops : List Op) : Option BArray := ops.foldlM step a

end BArray
end Duck
