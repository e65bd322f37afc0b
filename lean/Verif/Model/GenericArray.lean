/-
Model of Source/DKGenericArray.c: the growable array used by DKArray, DKLinkedList (sorting),
DKEgg, autorelease pools, ...

Storage is modelled as a block of cells, one cell per element; a cell holds `none` while it is
uninitialised.  `Option` results: `none` is undefined behaviour (access outside the block, use after free).
Indices are `Nat`: the code's `DKIndex` is signed but every public caller checks the range first.
-/
namespace Duck

/-- A memory block of element cells; `none` marks a cell never written since `malloc`.
    Models the block returned by `dk_malloc` (Source/DKPlatform.c), one cell per element
    instead of `elementSize` bytes. -/
abbrev Block (α : Type) := List (Option α)

/-- `dk_malloc( n * elementSize )`: a block of `n` uninitialised cells (never fails: the code treats failure as fatal). -/
def malloc (α : Type) (n : Nat) : Block α := List.replicate n none

/-- Read `n` cells at offset `off`; `none` (UB) if the range leaves the block. Used for the `src` side of memcpy/memmove. -/
def Block.read {α : Type} (b : Block α) (off n : Nat) : Option (List (Option α)) :=
  if off + n ≤ b.length then some ((b.drop off).take n) else none

/-- Write cells `src` at offset `off`; `none` (UB) if the range leaves the block. The `dst` side of memcpy/memmove/memset. -/
def Block.write {α : Type} (b : Block α) (off : Nat) (src : List (Option α)) : Option (Block α) :=
  if off + src.length ≤ b.length then some (b.take off ++ src ++ b.drop (off + src.length)) else none

/-- `if( n > 0 ) memcpy/memmove( dst + doff, src + soff, n )` -/
def Block.copyIf {α : Type} (dst : Block α) (doff : Nat) (src : Block α) (soff n : Nat) : Option (Block α) :=
  if n > 0 then (src.read soff n).bind (fun cells => dst.write doff cells) else some dst

/-- `struct DKGenericArray` (Source/DKGenericArray.h).  `elements = none` is the NULL pointer.
    External (read-only) storage, `maxLength = -1`, is not modelled: no mutating function accepts it. -/
structure GArray (α : Type) where
  elements  : Option (Block α)
  length    : Nat
  maxLength : Nat
deriving DecidableEq, Repr

namespace GArray
variable {α : Type}

/-- MIN_ELEMENT_ARRAY_SIZE, DKGenericArray.c:32 -/
def minSize : Nat := 32

/-- DKGenericArrayInit, DKGenericArray.c:40-48 -/
def init : GArray α := ⟨none, 0, 0⟩

/-- DKGenericArrayReserve, DKGenericArray.c:80-103 -/
def reserve (a : GArray α) (length : Nat) : Option (GArray α) :=
  if a.maxLength < length then
    let length := if length < minSize then minSize else length
    let fresh := malloc α length
    match a.elements with
    | some old =>
      (fresh.copyIf 0 old 0 a.length).map fun fresh =>
        { elements := some fresh, length := a.length, maxLength := length }
    | none => some { elements := some fresh, length := a.length, maxLength := length }
  else some a

/-- The allocated length chosen by ResizeArray, DKGenericArray.c:118-137 -/
def resizeLength (oldLength requested : Nat) : Nat :=
  if requested ≤ oldLength then oldLength
  else
    let n := oldLength + oldLength / 4
    let n := if n < requested then requested else n
    if n < minSize then minSize else n

/-- DKGenericArraySetLength, DKGenericArray.c:143-147 -/
def setLength (a : GArray α) (length : Nat) : Option (GArray α) := do
  let a ← a.reserve length
  some { a with length := length }

/-- The `elements` argument of ReplaceElements: NULL, memory not belonging to the array,
    or a pointer into the array's own storage at an element offset. -/
inductive Src (α : Type) where
  | null
  | ext (xs : List α)
  | self (offset : Nat)
deriving DecidableEq, Repr

/-- The cells the final memcpy / memset of ReplaceElements writes (DKGenericArray.c:219-232); `blk` is the array's
    storage at that point and `keep` tells that it is still the original allocation (otherwise the
    original was freed on line 200).  A memcpy whose source and destination overlap (UB in C) is rejected too. -/
def srcCells (zero : α) (src : Src α) (loc length : Nat) (keep : Bool) (blk : Block α) : Option (List (Option α)) :=
  match src with
  | .null => some (List.replicate length (some zero))
  | .ext xs => if length ≤ xs.length then some ((xs.take length).map some) else none
  | .self off => if keep && (off + length ≤ loc || loc + length ≤ off) then blk.read off length else none

/-- DKGenericArrayReplaceElements, DKGenericArray.c:153-233.
    `zero` is the element whose bytes are all zero (memset branch).
    Each memcpy/memmove/memset is bounds checked; reading the array's own storage after
    it was freed (line 200) is UB.  -/
def replaceElements (zero : α) (a : GArray α) (loc len : Nat) (src : Src α) (length : Nat) :
    Option (GArray α) :=
  let rangeEnd := loc + len
  if len = 0 ∧ length = 0 then some a
  else
    let sufLen := a.length - rangeEnd
    let sufAfter := loc + length
    let newLength := a.length + length - len
    let newMax := resizeLength a.maxLength newLength
    let keep : Bool := newLength ≤ a.maxLength      -- ResizeArray returned the same pointer
    -- move prefix and suffix
    let moved : Option (Option (Block α)) :=
      match a.elements with
      | none => if keep then some none else some (some (malloc α newMax))
      | some old =>
        if keep then (old.copyIf sufAfter old rangeEnd sufLen).map some
        else
          (((malloc α newMax).copyIf 0 old 0 loc).bind
            (fun fresh => fresh.copyIf sufAfter old rangeEnd sufLen)).map some
    match moved with
    | none => none
    | some none => if length > 0 then none else some { elements := none, length := newLength, maxLength := newMax }
    | some (some blk) =>
      -- insert or extend
      if length > 0 then
        ((srcCells zero src loc length keep blk).bind (fun cs => blk.write loc cs)).map fun blk =>
          { elements := some blk, length := newLength, maxLength := newMax }
      else some { elements := some blk, length := newLength, maxLength := newMax }

/-- DKGenericArrayAppendElements, DKGenericArray.c:239-243 -/
def append (zero : α) (a : GArray α) (src : Src α) (length : Nat) : Option (GArray α) :=
  a.replaceElements zero a.length 0 src length

/-- DKGenericArrayFinalize, DKGenericArray.c:66-74 -/
def finalize (_a : GArray α) : GArray α := ⟨none, 0, 0⟩

/-- DKGenericArrayGetPointerToElementAtIndex, DKGenericArray.c:249-253, dereferenced:
    outer `none` = index rejected (returns NULL); inner `none` = cell uninitialised or outside the block. -/
def get (a : GArray α) (index : Nat) : Option (Option α) :=
  if index < a.length then
    match a.elements with
    | none => some none
    | some b => some ((b[index]?).join)
  else none

/-- Operations of a history on a generic array. -/
inductive Op (α : Type) where
  | reserve (n : Nat)
  | replace (loc len : Nat) (src : Src α) (n : Nat)
  | append (src : Src α) (n : Nat)
  | finalize

/-- One operation of a history. -/
def step (zero : α) (a : GArray α) : Op α → Option (GArray α)
  | .reserve n => a.reserve n
  | .replace loc len src n => a.replaceElements zero loc len src n
  | .append src n => a.append zero src n
  | .finalize => some a.finalize

end GArray
end Duck
