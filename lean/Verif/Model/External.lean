import Verif.Model.ByteArray
/-!
# Model of the memory of data and strings (Source/DKByteArray.c, DKData.c, DKString.c), with memory that belongs to the caller

Unlike Model/ByteArray.lean, which follows one byte array that owns its storage, this is a program: the memory of the caller, the blocks of the library,
and any number of data and string objects on them, some made without copying (`...NoCopy`).  Results `none` are undefined behaviour: an access to freed memory
or outside of a block, freeing or writing memory of the caller, reading bytes that were never written.  Release build: DKAssert does nothing.
Lengths are not negative.
-/
namespace Duck
namespace External

/-- The memory of the caller (any kind of memory: static, on the stack, or on the heap), and the blocks made by dk_malloc.  Freed ones are `none`. -/
structure Mem where
  lent : List (Option (List UInt8))
  heap : List (Option (Block UInt8))

/-- Pointers to the first byte of NULL_BYTES (DKByteArray.c 40) or another static empty string, of a block of the library, or of memory of the caller. -/
inductive Ptr where
  | null
  | own (b : Nat)
  | lent (k : Nat)
deriving DecidableEq, Repr

/-- What is in the memory a pointer points to. -/
def Mem.cells (m : Mem) : Ptr → Option (Block UInt8)
  | .null => some (List.replicate 4 (some 0))
  | .own b => (m.heap[b]?).join
  | .lent k => ((m.lent[k]?).join).map (·.map some)

/-- Writing a block of the library; other memory is not the library's to write. -/
def Mem.store (m : Mem) (p : Ptr) (block : Block UInt8) : Option Mem :=
  match p with
  | .own b => ((m.heap[b]?).join).map fun _ => { m with heap := m.heap.set b (some block) }
  | _ => none

/-- dk_free (DKPlatform.c): only what came from dk_malloc, once. -/
def Mem.free (m : Mem) (p : Ptr) : Option Mem :=
  match p with
  | .own b => ((m.heap[b]?).join).map fun _ => { m with heap := m.heap.set b none }
  | _ => none

/-- memcpy or memset to `off` bytes after a pointer. -/
def Mem.write (m : Mem) (p : Ptr) (off : Nat) (cells : List (Option UInt8)) : Option Mem :=
  (m.cells p).bind fun block => (block.write off cells).bind fun block => m.store p block

/-- struct DKByteArray (DKByteArray.h): `max` is -1 for external storage. -/
structure Arr where
  bytes : Ptr
  length : Nat
  max : Int
deriving DecidableEq, Repr

/-- DKByteArrayInit (DKByteArray.c 58-63). -/
def Arr.init : Arr := ⟨.null, 0, 0⟩

/-- DKByteArrayInitWithExternalStorage (69-74). -/
def Arr.external (p : Ptr) (length : Nat) : Arr := ⟨p, length, -1⟩

/-- HAS_ALLOCATED_STORAGE (33). -/
def Arr.allocated (a : Arr) : Bool := a.bytes != .null && decide (0 < a.max)

/-- DKByteArrayFinalize (80-88). -/
def finalize (m : Mem) (a : Arr) : Option Mem := if a.allocated then m.free a.bytes else some m

/-- SetNullTerminator (46-52). -/
def terminate (m : Mem) (a : Arr) : Option Mem := m.write a.bytes a.length [some 0, some 0, some 0, some 0]

/-- A new block with these cells (dk_malloc). -/
def Mem.push (m : Mem) (block : Block UInt8) : Mem := { m with heap := m.heap ++ [some block] }

/-- 104-112: the new block with the content, the old one is freed. -/
def moveTo (m : Mem) (a : Arr) (size : Nat) : Option Mem :=
  if a.allocated then
    (m.cells a.bytes).bind fun old => ((malloc UInt8 (size + BArray.termSize)).copyIf 0 old 0 a.length).bind fun block =>
      (m.free a.bytes).map fun m => m.push block
  else some (m.push (malloc UInt8 (size + BArray.termSize)))

/-- DKByteArrayReserve (94-119). -/
def reserve (m : Mem) (a : Arr) (length : Nat) : Option (Mem × Arr) :=
  if a.max < length then
    let size := if length < BArray.minSize then BArray.minSize else length
    (moveTo m a size).bind fun m =>
      let a : Arr := ⟨.own (m.heap.length - 1), a.length, size⟩
      (terminate m a).map fun m => (m, a)
  else some (m, a)

/-- The length chosen by ResizeArray (134-153) when it allocates; `old >> 2` rounds down. -/
def resizeLength (old : Int) (requested : Nat) : Nat :=
  let n := old + old / 4
  let n := if n < requested then (requested : Int) else n
  if n < BArray.minSize then BArray.minSize else n.toNat

/-- The source of bytes: NULL, bytes of the caller, or the storage of an object. -/
inductive Src where
  | null
  | bytes (xs : List UInt8)
  | storage (p : Ptr)

/-- What is read from the source, when it is read. -/
def srcCells (m : Mem) (src : Src) (n : Nat) : Option (List (Option UInt8)) :=
  match src with
  | .null => some (List.replicate n (some 0))
  | .bytes xs => if n ≤ xs.length then some ((xs.take n).map some) else none
  | .storage p => (m.cells p).bind fun block => block.read 0 n

/-- 236-252: the new bytes and the terminator. -/
def insert (m : Mem) (a : Arr) (loc : Nat) (src : Src) (n : Nat) : Option (Mem × Arr) :=
  (if n > 0 then (srcCells m src n).bind fun cells => m.write a.bytes loc cells else some m).bind fun m => (terminate m a).map fun m => (m, a)

/-- 197-231 with a new block: what is before and after the range is copied, the old block is freed. -/
def grow (m : Mem) (a : Arr) (loc rangeEnd sufAfter sufLen size : Nat) : Option Mem :=
  if a.bytes = .null then some (m.push (malloc UInt8 (size + BArray.termSize)))
  else (m.cells a.bytes).bind fun old =>
    (((malloc UInt8 (size + BArray.termSize)).copyIf 0 old 0 loc).bind fun block => block.copyIf sufAfter old rangeEnd sufLen).bind fun block =>
      (m.free a.bytes).map fun m => m.push block

/-- 221-230: what is after the range is moved. -/
def shift (m : Mem) (a : Arr) (rangeEnd sufAfter sufLen : Nat) : Option Mem :=
  (m.cells a.bytes).bind fun old => (old.copyIf sufAfter old rangeEnd sufLen).bind fun block => m.store a.bytes block

/-- DKByteArrayReplaceBytes (170-253). -/
def replaceBytes (m : Mem) (a : Arr) (loc len : Nat) (src : Src) (n : Nat) : Option (Mem × Arr) :=
  if len = 0 ∧ n = 0 then some (m, a)
  else
    let newLength := a.length + n - len
    if (newLength : Int) < a.max then
      (shift m a (loc + len) (loc + n) (a.length - (loc + len))).bind fun m => insert m ⟨a.bytes, newLength, a.max⟩ loc src n
    else
      let size := resizeLength a.max newLength
      (grow m a loc (loc + len) (loc + n) (a.length - (loc + len)) size).bind fun m =>
        insert m ⟨.own (m.heap.length - 1), newLength, size⟩ loc src n

/-- A data or string object: its class, its reference count, its bytes, and the block that was allocated with it (DKString.c 326-329: the text of an immutable
    string is behind the object). -/
structure Obj where
  isString : Bool
  isMutable : Bool
  rc : Nat
  arr : Arr
  inner : Option Nat

/-- A program: memory and objects (`none`: freed). -/
structure State where
  mem : Mem
  objs : List (Option Obj)

/-- What a call answers. -/
inductive Out where
  | nothing
  | obj (i : Nat)
  | bytes (xs : List UInt8)
deriving DecidableEq, Repr

/-- DKAllocObject: a new object. -/
def State.add (s : State) (m : Mem) (o : Obj) : State × Out := (⟨m, s.objs ++ [some o]⟩, .obj s.objs.length)

/-- DKDataInitWithBytes (DKData.c 223-234), DKDataInitWithLength (257-268), and InitString for mutable strings (DKString.c 361-365). -/
def newBytes (s : State) (isString isMutable : Bool) (src : Src) (n : Nat) : Option (State × Out) :=
  (replaceBytes s.mem .init 0 0 src n).map fun r => s.add r.1 ⟨isString, isMutable, 1, r.2, none⟩

/-- CopySubstring (DKString.c 321-338), for immutable strings.  Simplified: the shared empty string (323-324) is a new object here. -/
def newString (s : State) (src : Src) (n : Nat) : Option (State × Out) :=
  if n = 0 then some (s.add s.mem ⟨true, false, 1, .external .null 0, none⟩)
  else (srcCells s.mem src n).bind fun cells =>
    let m := s.mem.push (malloc UInt8 (n + 4))
    let p := s.mem.heap.length
    (m.write (.own p) 0 cells).bind fun m => (m.write (.own p) n [some 0, some 0, some 0, some 0]).map fun m =>
      s.add m ⟨true, false, 1, .external (.own p) n, some p⟩

/-- The object, if it is alive. -/
def State.live (s : State) (i : Nat) : Option Obj := (s.objs[i]?).join

/-- The object has changed. -/
def State.put (s : State) (i : Nat) (m : Mem) (o : Option Obj) : State := ⟨m, s.objs.set i o⟩

/-- DKDeallocObject of the object with what is behind it. -/
def dealloc (m : Mem) : Option Nat → Option Mem
  | none => some m
  | some b => m.free (.own b)

/-- The bytes of an object, read through its pointer (DKDataGetBytePtr, DKStringGetCStringPtr, DKDataGetBytes, ...). -/
def readBytes (m : Mem) (a : Arr) : Option (List UInt8) := ((m.cells a.bytes).bind fun block => block.read 0 a.length).bind fun cells => cells.mapM id

/-- strlen of memory of the caller: the memory must have a NUL. -/
def strlen (xs : List UInt8) : Option Nat := if 0 ∈ xs then some (xs.takeWhile (· ≠ 0)).length else none

/-- The calls of a program. -/
inductive Op where
  /-- The caller gets memory, -/
  | callerNew (xs : List UInt8)
  /-- writes it -/
  | callerWrite (k off : Nat) (xs : List UInt8)
  /-- and gives it back. -/
  | callerFree (k : Nat)
  /-- DKDataInitWithBytes -/
  | data (isMutable : Bool) (xs : List UInt8)
  /-- DKDataInitWithLength -/
  | dataLength (isMutable : Bool) (n : Nat)
  /-- DKDataInitWithCapacity (DKData.c 317-328), DKStringInitWithCapacity (DKString.c 630-641) -/
  | capacity (isString : Bool) (n : Nat)
  /-- DKDataInitWithBytesNoCopy (DKData.c 240-251) -/
  | dataNoCopy (isMutable : Bool) (k n : Nat)
  /-- DKStringInitWithBytes (DKString.c 517-522) -/
  | string (isMutable : Bool) (xs : List UInt8)
  /-- DKStringInitWithCStringNoCopy (DKString.c 490-511) -/
  | stringNoCopy (k : Nat)
  | retain (i : Nat)
  | release (i : Nat)
  /-- DKCopy (DKStringCopy, DKDataCopy; DKRetain for immutable objects, DKString.c 124, DKData.c 80) -/
  | copy (i : Nat)
  /-- DKMutableCopy (DKString.c 706-709, DKData.c 512-521) -/
  | mutableCopy (i : Nat)
  /-- DKStringMakeImmutable (DKString.c 673-682), DKDataMakeImmutable (DKData.c 397-406) -/
  | makeImmutable (i : Nat)
  /-- DKDataReplaceBytes (DKData.c 745-754); also DKDataAppendBytes, DKDataDeleteBytes, DKDataWrite, and the edits of strings. -/
  | replace (i loc len : Nat) (xs : List UInt8)
  /-- DKDataAppendData (DKData.c 714-724) -/
  | appendData (i j : Nat)
  /-- DKDataSetLength (DKData.c 542-560), DKStringSetByteLength (DKString.c 919-937) -/
  | setLength (i n : Nat)
  /-- A write through DKDataGetMutableBytePtr (DKData.c 653-664). -/
  | poke (i off : Nat) (x : UInt8)
  | read (i : Nat)

/-- A change of a live object, refused for an immutable one (DKCheckKindOfClass). -/
def edit (s : State) (i : Nat) (f : Obj → Option (Mem × Arr)) : Option (State × Out) :=
  (s.live i).bind fun o =>
    if o.isMutable then (f o).map fun r => (s.put i r.1 (some { o with arr := r.2 }), .nothing) else some (s, .nothing)

/-- A copy of a live object: the class, and whether it is a new object. -/
def copyOf (s : State) (o : Obj) (isMutable : Bool) : Option (State × Out) :=
  if o.isString && !isMutable then newString s (.storage o.arr.bytes) o.arr.length
  else newBytes s o.isString isMutable (.storage o.arr.bytes) o.arr.length

/-- One call. -/
def step (s : State) : Op → Option (State × Out)
  | .callerNew xs => some (⟨{ s.mem with lent := s.mem.lent ++ [some xs] }, s.objs⟩, .nothing)
  | .callerWrite k off xs => ((s.mem.lent[k]?).join).bind fun old =>
      if off + xs.length ≤ old.length then
        some (⟨{ s.mem with lent := s.mem.lent.set k (some (old.take off ++ xs ++ old.drop (off + xs.length))) }, s.objs⟩, .nothing)
      else none
  | .callerFree k => ((s.mem.lent[k]?).join).map fun _ => (⟨{ s.mem with lent := s.mem.lent.set k none }, s.objs⟩, .nothing)
  | .data isMutable xs => newBytes s false isMutable (.bytes xs) xs.length
  | .dataLength isMutable n => newBytes s false isMutable .null n
  | .capacity isString n => (reserve s.mem .init n).map fun r => s.add r.1 ⟨isString, true, 1, r.2, none⟩
  | .dataNoCopy isMutable k n => some (s.add s.mem ⟨false, isMutable, 1, .external (.lent k) n, none⟩)
  | .string isMutable xs => if isMutable then newBytes s true true (.bytes xs) xs.length else newString s (.bytes xs) xs.length
  | .stringNoCopy k => ((s.mem.lent[k]?).join).bind fun xs => (strlen xs).map fun n => s.add s.mem ⟨true, false, 1, .external (.lent k) n, none⟩
  | .retain i => (s.live i).map fun o => (s.put i s.mem (some { o with rc := o.rc + 1 }), .nothing)
  | .release i => (s.live i).bind fun o =>
      if o.rc > 1 then some (s.put i s.mem (some { o with rc := o.rc - 1 }), .nothing)
      else (finalize s.mem o.arr).bind fun m => (dealloc m o.inner).map fun m => (s.put i m none, .nothing)
  | .copy i => (s.live i).bind fun o =>
      if o.isMutable then copyOf s o (!o.isString) else some (s.put i s.mem (some { o with rc := o.rc + 1 }), .obj i)
  | .mutableCopy i => (s.live i).bind fun o => copyOf s o true
  | .makeImmutable i => (s.live i).map fun o => (s.put i s.mem (some { o with isMutable := false }), .nothing)
  | .replace i loc len xs => edit s i fun o =>
      if loc + len ≤ o.arr.length then replaceBytes s.mem o.arr loc len (.bytes xs) xs.length else some (s.mem, o.arr)
  | .appendData i j => (s.live j).bind fun d => edit s i fun o => replaceBytes s.mem o.arr o.arr.length 0 (.storage d.arr.bytes) d.arr.length
  | .setLength i n => edit s i fun o =>
      if o.arr.length < n then replaceBytes s.mem o.arr o.arr.length 0 .null (n - o.arr.length)
      else if n < o.arr.length then replaceBytes s.mem o.arr n (o.arr.length - n) .null 0
      else some (s.mem, o.arr)
  | .poke i off x => edit s i fun o => if off < o.arr.length then (s.mem.write o.arr.bytes off [some x]).map fun m => (m, o.arr) else some (s.mem, o.arr)
  | .read i => (s.live i).bind fun o => (readBytes s.mem o.arr).map fun xs => (s, .bytes xs)

/-- A program begins without memory and objects. -/
def start : State := ⟨⟨[], []⟩, []⟩

/-- A whole program, and the answers of its calls. -/
def run : State → List Op → Option (State × List Out)
  | s, [] => some (s, [])
  | s, op :: ops => (step s op).bind fun r => (run r.1 ops).map fun q => (q.1, r.2 :: q.2)

end External
end Duck
