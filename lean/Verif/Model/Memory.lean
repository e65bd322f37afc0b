import Verif.Model.HashTable
/-!
# Model of the memory that containers and objects take and give back

DKGenericArray.c, DKByteArray.c, DKGenericHashTable.c, DKNodePool.c, DKAllocObject and DKDeallocObject, reduced to what they do with memory: calls of the allocator and accesses.
The model does not judge: it writes down every call of malloc and free and every access, as a trace; what a correct trace is, is in `Spec/Memory.lean`.
Not modelled: contents (C01, C06, C13), allocations that fail, byte counts of 2^63 and more, accesses to the source of a replacement (C57), other threads.
-/
namespace Duck
namespace Memory

/-- A pointer: a block of the allocator, memory of the program of so many bytes, or NULL_BYTES (DKByteArray.c 38). -/
inductive Ptr where
  | block (n : Nat)
  | caller (size : Nat)
  | static
deriving DecidableEq, Repr

/-- What is written down.  `cb`: by the callback of the program, not by the C library. -/
inductive Event where
  | malloc (cb : Bool) (n size : Nat)
  | free (cb : Bool) (p : Ptr)
  /-- bytes before `upto` are read or written; `none` is NULL -/
  | access (p : Option Ptr) (upto : Nat)
deriving DecidableEq, Repr

/-- malloc_callback, free_callback (DKPlatform.c 281-284; dk_calloc and dk_realloc are not used by the library), the number of blocks so far, and what happened. -/
structure Mem where
  mallocSet : Bool
  freeSet : Bool
  next : Nat
  trace : List Event
deriving DecidableEq, Repr

/-- dk_malloc (DKPlatform.c 330-346). -/
def Mem.malloc (m : Mem) (size : Nat) : Mem × Ptr := ({ m with next := m.next + 1, trace := m.trace ++ [.malloc m.mallocSet m.next size] }, .block m.next)

/-- dk_free (398-408). -/
def Mem.free (m : Mem) : Option Ptr → Mem
  | none => m
  | some p => { m with trace := m.trace ++ [.free m.freeSet p] }

/-- memcpy, memset, … with one side in `p`. -/
def Mem.access (m : Mem) (p : Option Ptr) (upto : Nat) : Mem := { m with trace := m.trace ++ [.access p upto] }

/-- An access that is made if a condition holds. -/
def Mem.accessIf (m : Mem) (c : Bool) (p : Option Ptr) (upto : Nat) : Mem := if c then m.access p upto else m

/-- `struct DKGenericArray` (DKGenericArray.h). -/
structure Arr where
  elements : Option Ptr
  esize : Nat
  length : Nat
  maxLength : Int
deriving DecidableEq, Repr

namespace Arr

/-- DKGenericArrayInit (DKGenericArray.c 40-48). -/
def init (esize : Nat) : Arr := ⟨none, esize, 0, 0⟩

/-- DKGenericArrayInitWithExternalStorage (54-60), with memory of `length` elements. -/
def external (esize length : Nat) : Arr := ⟨some (.caller (length * esize)), esize, length, -1⟩

/-- DKGenericArrayFinalize (66-74). -/
def finalize (m : Mem) (a : Arr) : Mem := if a.elements ≠ none ∧ 0 < a.maxLength then m.free a.elements else m

/-- DKGenericArrayReserve (80-103). -/
def reserve (m : Mem) (a : Arr) (length : Nat) : Mem × Arr :=
  if a.maxLength < length then
    let n := if length < 32 then 32 else length
    let r := m.malloc (n * a.esize)
    let m := match a.elements with
      | some _ => ((r.1.accessIf (a.length > 0) a.elements (a.length * a.esize)).accessIf (a.length > 0) (some r.2) (a.length * a.esize)).free a.elements
      | none => r.1
    (m, { a with elements := some r.2, maxLength := n })
  else (m, a)

/-- DKGenericArraySetLength (143-147). -/
def setLength (m : Mem) (a : Arr) (length : Nat) : Mem × Arr :=
  let r := reserve m a length
  (r.1, { r.2 with length := length })

/-- The length ResizeArray allocates (126-132). -/
def grown (min old requested : Int) : Int :=
  let n := old + old / 4
  let n := if n < requested then requested else n
  if n < min then min else n

/-- ResizeArray (118-137). -/
def resize (m : Mem) (a : Arr) (requested : Nat) : Mem × Option Ptr × Int :=
  if (requested : Int) ≤ a.maxLength then (m, a.elements, a.maxLength)
  else
    let n := grown 32 a.maxLength requested
    let r := m.malloc (n.toNat * a.esize)
    (r.1, some r.2, n)

/-- DKGenericArrayReplaceElements (153-235), for a range of the array. -/
def replace (m : Mem) (a : Arr) (loc len n : Nat) : Mem × Arr :=
  if len = 0 ∧ n = 0 then (m, a)
  else
    let newLength := a.length + n - len
    let suffix := a.length - (loc + len)
    let r := resize m a newLength
    let p := r.2.1
    let m := match a.elements with
      | none => r.1
      | some _ =>
        if a.elements ≠ p then
          ((((r.1.accessIf (loc > 0) a.elements (loc * a.esize)).accessIf (loc > 0) p (loc * a.esize)).accessIf (suffix > 0) a.elements (a.length * a.esize)).accessIf (suffix > 0) p
            ((loc + n + suffix) * a.esize)).free a.elements
        else (r.1.accessIf (suffix > 0) p (a.length * a.esize)).accessIf (suffix > 0) p ((loc + n + suffix) * a.esize)
    (m.accessIf (n > 0) p ((loc + n) * a.esize), { a with elements := p, length := newLength, maxLength := r.2.2 })

/-- DKGenericArrayAppendElements (241-245). -/
def append (m : Mem) (a : Arr) (n : Nat) : Mem × Arr := replace m a a.length 0 n

/-- Sorting, reading elements, and the reversals and shuffles of elements of 2, 4 and 8 bytes: the elements are accessed. -/
def visit (m : Mem) (a : Arr) : Mem := m.accessIf (a.length > 0) a.elements (a.length * a.esize)

/-- Reverse (412-434) and Shuffle (512-538): the scratch memory is allocated for large elements. -/
def permute (m : Mem) (a : Arr) : Mem :=
  if a.esize > 128 then
    let r := m.malloc a.esize
    let m := visit (r.1.accessIf (a.length > 1) (some r.2) a.esize) a
    m.free (some r.2)
  else visit m a

end Arr

/-- `struct DKByteArray` (DKByteArray.h). -/
structure Bytes where
  bytes : Ptr
  length : Nat
  maxLength : Int
deriving DecidableEq, Repr

namespace Bytes

/-- DKByteArrayInit (DKByteArray.c 57-62). -/
def init : Bytes := ⟨.static, 0, 0⟩

/-- DKByteArrayInitWithExternalStorage (68-73). -/
def external (length : Nat) : Bytes := ⟨.caller length, length, -1⟩

/-- HAS_ALLOCATED_STORAGE (31). -/
def allocated (a : Bytes) : Bool := a.bytes ≠ .static ∧ 0 < a.maxLength

/-- DKByteArrayFinalize (79-87). -/
def finalize (m : Mem) (a : Bytes) : Mem := if allocated a then m.free (some a.bytes) else m

/-- SetNullTerminator (44-50). -/
def terminate (m : Mem) (a : Bytes) : Mem := m.access (some a.bytes) (a.length + 4)

/-- DKByteArrayReserve (93-119). -/
def reserve (m : Mem) (a : Bytes) (length : Nat) : Mem × Bytes :=
  if a.maxLength < length then
    let n := if length < 64 then 64 else length
    let r := m.malloc (n + 4)
    let m := if allocated a then ((r.1.accessIf (a.length > 0) (some a.bytes) a.length).accessIf (a.length > 0) (some r.2) a.length).free (some a.bytes) else r.1
    let a := { a with bytes := r.2, maxLength := n }
    (terminate m a, a)
  else (m, a)

/-- DKByteArraySetLength (159-164). -/
def setLength (m : Mem) (a : Bytes) (length : Nat) : Mem × Bytes :=
  let r := reserve m a length
  let a := { r.2 with length := length }
  (terminate r.1 a, a)

/-- ResizeArray (134-153). -/
def resize (m : Mem) (a : Bytes) (requested : Nat) : Mem × Ptr × Int :=
  if (requested : Int) < a.maxLength then (m, a.bytes, a.maxLength)
  else
    let n := Arr.grown 64 a.maxLength requested
    let r := m.malloc (n.toNat + 4)
    (r.1, r.2, n)

/-- DKByteArrayReplaceBytes (170-253), for a range of the array. -/
def replace (m : Mem) (a : Bytes) (loc len n : Nat) : Mem × Bytes :=
  if len = 0 ∧ n = 0 then (m, a)
  else
    let newLength := a.length + n - len
    let suffix := a.length - (loc + len)
    let r := resize m a newLength
    let p := r.2.1
    let m :=
      if a.bytes ≠ .static then
        if a.bytes ≠ p then
          ((((r.1.accessIf (loc > 0) (some a.bytes) loc).accessIf (loc > 0) (some p) loc).accessIf (suffix > 0) (some a.bytes) a.length).accessIf (suffix > 0) (some p) (loc + n + suffix)).free
            (some a.bytes)
        else (r.1.accessIf (suffix > 0) (some p) a.length).accessIf (suffix > 0) (some p) (loc + n + suffix)
      else r.1
    let a : Bytes := ⟨p, newLength, r.2.2⟩
    (terminate (m.accessIf (n > 0) (some p) (loc + n)) a, a)

/-- DKByteArrayAppendBytes (259-263). -/
def append (m : Mem) (a : Bytes) (n : Nat) : Mem × Bytes := replace m a a.length 0 n

/-- DKByteArrayAlignLength (269-285); an alignment of 0 divides by zero and is not modelled. -/
def align (m : Mem) (a : Bytes) (k : Nat) : Mem × Bytes :=
  if 0 < a.length % k then
    let pad := k - a.length % k
    let r := append m a pad
    (r.1.access (some r.2.bytes) (a.length + pad), r.2)
  else (m, a)

/-- The contents and the terminator are read; memory of the program has no terminator. -/
def visit (m : Mem) (a : Bytes) : Mem := if a.maxLength < 0 then m.accessIf (a.length > 0) (some a.bytes) a.length else m.access (some a.bytes) (a.length + 4)

end Bytes

/-- How a call ends that does not return. -/
inductive Err where
  /-- DKFatalError, DKRequire -/
  | fatal
  /-- ResizeAndRehash is entered while the rows are moved -/
  | nested
  /-- the client uses something it does not have -/
  | illegal
deriving DecidableEq, Repr

/-- `struct DKGenericHashTable` (DKGenericHashTable.h) without the contents of the rows: `active` and `deleted` of them are. -/
structure Table where
  rows : Option Ptr
  rowSize : Nat
  rowCount : Nat
  maxActive : Nat
  active : Nat
  deleted : Nat
deriving DecidableEq, Repr

namespace Table

/-- DKGenericHashTableInit (DKGenericHashTable.c 336-350). -/
def init (rowSize : Nat) : Table := ⟨none, rowSize, 0, 0, 0, 0⟩

/-- A loop over all rows, or Find (269-331): rows are accessed. -/
def visit (m : Mem) (t : Table) : Mem := m.accessIf (t.rowCount > 0) t.rows (t.rowSize * t.rowCount)

/-- The loop of 246-257: `k` active rows of the old table are inserted (386-424) into this one; all keys are different, and no row of it is deleted. -/
def reinsert (old : Option Ptr) (upto : Nat) : Nat → Mem → Table → Except Err (Mem × Table)
  | 0, m, t => .ok (m, t)
  | k + 1, m, t =>
    let m := visit (m.access old upto) t
    let t := { t with active := t.active + 1 }
    if t.active + t.deleted < t.maxActive then reinsert old upto k m t else .error .nested

/-- ResizeAndRehash (219-262). -/
def resize (m : Mem) (t : Table) : Except Err (Mem × Table) :=
  if t.active + t.deleted < t.maxActive then .ok (m, t)
  else
    match (if t.rowCount = 0 ∨ t.active > t.deleted then HTable.nextSize t.rowCount else some (t.rowCount, t.maxActive)) with
    | none => .error .fatal
    | some size =>
      let r := m.malloc (t.rowSize * size.1)
      let u : Table := ⟨some r.2, t.rowSize, size.1, size.2, 0, 0⟩
      let m := visit r.1 u
      match t.rows with
      | none => .ok (m, u)
      | some _ => (reinsert t.rows (t.rowSize * t.rowCount) t.active (visit m t) u).map fun q => (q.1.free t.rows, q.2)

/-- What Find and the policy say about the key of an insertion. -/
inductive Outcome where
  /-- found, or not to be inserted -/
  | stays
  | empty
  | deleted
deriving DecidableEq, Repr

/-- DKGenericHashTableInsert (386-424).  Find divides by the number of rows. -/
def insert (m : Mem) (t : Table) (o : Outcome) : Except Err (Mem × Table) :=
  (if t.rows = none then resize m t else .ok (m, t)).bind fun r =>
    let m := r.1.access r.2.rows (r.2.rowSize * r.2.rowCount)
    match o with
    | .stays => .ok (m, r.2)
    | .empty => resize m { r.2 with active := r.2.active + 1 }
    | .deleted => resize m { r.2 with active := r.2.active + 1, deleted := r.2.deleted - 1 }

/-- DKGenericHashTableFind (372-380). -/
def find (m : Mem) (t : Table) : Mem := if 0 < t.active then m.access t.rows (t.rowSize * t.rowCount) else m

/-- DKGenericHashTableRemove (430-445). -/
def remove (m : Mem) (t : Table) (found : Bool) : Mem × Table :=
  if 0 < t.active then (m.access t.rows (t.rowSize * t.rowCount), if found then { t with active := t.active - 1, deleted := t.deleted + 1 } else t) else (m, t)

/-- DKGenericHashTableRemoveAll (451-467). -/
def removeAll (m : Mem) (t : Table) : Mem × Table := (visit m t, { t with active := 0, deleted := 0 })

/-- DKGenericHashTableFinalize (356-367). -/
def finalize (m : Mem) (t : Table) : Mem := (visit m t).free t.rows

end Table

/-- `struct DKNodePool` (DKNodePool.h): the blocks with their numbers of nodes, and the nodes of the free list, as block and index. -/
structure Pool where
  blocks : List (Nat × Nat)
  nodeSize : Nat
  nodeCount : Nat
  free : List (Nat × Nat)
  /-- the nodes that the client has; not in the program -/
  used : List (Nat × Nat)
deriving DecidableEq, Repr

namespace Pool

/-- Where a node begins (47, 51): after the header of two words. -/
def offset (nodeSize i : Nat) : Nat := 16 + nodeSize * i

/-- DKNodePoolFree (DKNodePool.c 134-141): the node is accessed as a pointer. -/
def push (m : Mem) (p : Pool) (x : Nat × Nat) : Mem × Pool := (m.access (some (.block x.1)) (offset p.nodeSize x.2 + 8), { p with free := x :: p.free })

/-- The loop of 49-53. -/
def pushAll (b : Nat) : Nat → Mem → Pool → Mem × Pool
  | 0, m, p => (m, p)
  | k + 1, m, p => let r := pushAll b k m p; push r.1 r.2 (b, k)

/-- DKNodePoolAllocBlock (37-56) and DKNodePoolAddBlock (62-78). -/
def addBlock (m : Mem) (p : Pool) (count : Nat) : Mem × Pool :=
  let c := if p.blocks ≠ [] then p.nodeCount else count
  let c := if c < 32 then 32 else c
  let b := m.next
  let r := pushAll b c ((m.malloc (16 + p.nodeSize * c)).1.access (some (.block b)) 16) p
  (r.1, { r.2 with blocks := (b, c) :: p.blocks, nodeCount := if p.blocks ≠ [] then p.nodeCount + c else c })

/-- DKNodePoolInit (84-93). -/
def init (m : Mem) (nodeSize nodeCount : Nat) : Mem × Pool :=
  let p : Pool := ⟨[], nodeSize, 0, [], []⟩
  if nodeCount > 0 then addBlock m p nodeCount else (m, p)

/-- DKNodePoolAlloc (119-130). -/
def alloc (m : Mem) (p : Pool) : Except Err (Mem × Pool) :=
  let r := if p.free = [] then addBlock m p 0 else (m, p)
  match r.2.free with
  | [] => .error .illegal
  | x :: rest => .ok (r.1.access (some (.block x.1)) (offset p.nodeSize x.2 + p.nodeSize), { r.2 with free := rest, used := x :: r.2.used })

/-- DKNodePoolFree of a node of the client. -/
def release (m : Mem) (p : Pool) (x : Nat × Nat) : Mem × Pool := push m { p with used := p.used.erase x } x

/-- DKNodePoolFinalize (99-113). -/
def finalize (m : Mem) (p : Pool) : Mem := p.blocks.foldl (fun m b => (m.access (some (.block b.1)) 16).free (some (.block b.1))) m

end Pool

/-- An object: DKAllocObject (DKRuntime.c 532). -/
structure Object where
  ptr : Ptr
  structSize : Nat
  extra : Nat
deriving DecidableEq, Repr

inductive Container where
  | arr (a : Arr)
  | bytes (a : Bytes)
  | table (t : Table)
  | pool (p : Pool)
  | object (o : Object)
deriving DecidableEq, Repr

/-- What a client can do with its containers. -/
inductive Op where
  | reserve (n : Nat)
  | setLength (n : Nat)
  | replace (loc len n : Nat)
  | append (n : Nat)
  | visit
  | permute
  | align (k : Nat)
  | insert (o : Table.Outcome)
  | find
  | remove (found : Bool)
  | removeAll
  | alloc
  | free (x : Nat × Nat)
deriving DecidableEq, Repr

inductive New where
  | arr (esize : Nat)
  | externalArr (esize length : Nat)
  | bytes
  | externalBytes (length : Nat)
  | table (rowSize : Nat)
  | pool (nodeSize nodeCount : Nat)
  | object (structSize extra : Nat)
deriving DecidableEq, Repr

inductive Action where
  /-- DKSetExternalAllocator; whether malloc and free are given -/
  | setAllocator (malloc free : Bool)
  /-- DKRuntimeInit, with or without zombies -/
  | start (zombies : Bool)
  | new (x : New)
  | op (i : Nat) (o : Op)
  | finalize (i : Nat)
deriving DecidableEq, Repr

structure State where
  mem : Mem
  started : Bool
  zombies : Bool
  /-- the containers in the order of their creation, `none` when finalized -/
  containers : List (Option Container)
  /-- the zombies -/
  undead : List Object
deriving DecidableEq, Repr

def State.init : State := ⟨⟨false, false, 0, []⟩, false, false, [], []⟩

/-- The initializers; DKAllocObject (DKRuntime.c 508-549). -/
def create (m : Mem) : New → Mem × Container
  | .arr e => (m, .arr (Arr.init e))
  | .externalArr e n => (m, .arr (Arr.external e n))
  | .bytes => (m, .bytes Bytes.init)
  | .externalBytes n => (m, .bytes (Bytes.external n))
  | .table r => (m, .table (Table.init r))
  | .pool s n => let r := Pool.init m s n; (r.1, .pool r.2)
  | .object s e => let r := m.malloc (s + e); (r.1.access (some r.2) s, .object ⟨r.2, s, e⟩)

/-- An operation on a container. -/
def apply (m : Mem) : Container → Op → Except Err (Mem × Container)
  | .arr a, .reserve n => let r := a.reserve m n; .ok (r.1, .arr r.2)
  | .arr a, .setLength n => let r := a.setLength m n; .ok (r.1, .arr r.2)
  | .arr a, .replace l k n => let r := a.replace m l k n; .ok (r.1, .arr r.2)
  | .arr a, .append n => let r := a.append m n; .ok (r.1, .arr r.2)
  | .arr a, .visit => .ok (a.visit m, .arr a)
  | .arr a, .permute => .ok (a.permute m, .arr a)
  | .bytes a, .reserve n => let r := a.reserve m n; .ok (r.1, .bytes r.2)
  | .bytes a, .setLength n => let r := a.setLength m n; .ok (r.1, .bytes r.2)
  | .bytes a, .replace l k n => let r := a.replace m l k n; .ok (r.1, .bytes r.2)
  | .bytes a, .append n => let r := a.append m n; .ok (r.1, .bytes r.2)
  | .bytes a, .align k => let r := a.align m k; .ok (r.1, .bytes r.2)
  | .bytes a, .visit => .ok (a.visit m, .bytes a)
  | .table t, .insert o => (t.insert m o).map fun r => (r.1, .table r.2)
  | .table t, .find => .ok (t.find m, .table t)
  | .table t, .remove f => let r := t.remove m f; .ok (r.1, .table r.2)
  | .table t, .removeAll => let r := t.removeAll m; .ok (r.1, .table r.2)
  | .table t, .visit => .ok (t.visit m, .table t)
  | .pool p, .alloc => (p.alloc m).map fun r => (r.1, .pool r.2)
  | .pool p, .free x => let r := p.release m x; .ok (r.1, .pool r.2)
  | .object o, .visit => .ok (m.access (some o.ptr) (o.structSize + o.extra), .object o)
  | _, _ => .error .illegal

/-- The finalizers; DKDeallocObject (DKRuntime.c 555-589). -/
def destroy (s : State) : Container → State
  | .arr a => { s with mem := a.finalize s.mem }
  | .bytes a => { s with mem := a.finalize s.mem }
  | .table t => { s with mem := t.finalize s.mem }
  | .pool p => { s with mem := p.finalize s.mem }
  | .object o =>
    if s.zombies then { s with mem := s.mem.access (some o.ptr) o.structSize, undead := o :: s.undead }
    else { s with mem := s.mem.free (some o.ptr) }

def step (s : State) : Action → Except Err State
  /- DKSetExternalAllocator (DKPlatform.c 290-301) -/
  | .setAllocator m f => if s.started then .error .fatal else .ok { s with mem := { s.mem with mallocSet := m, freeSet := f } }
  | .start z => .ok (if s.started then s else { s with started := true, zombies := z })
  | .new x => let r := create s.mem x; .ok { s with mem := r.1, containers := s.containers ++ [some r.2] }
  | .op i o =>
    match s.containers[i]? with
    | some (some c) => (apply s.mem c o).map fun r => { s with mem := r.1, containers := s.containers.set i (some r.2) }
    | _ => .error .illegal
  | .finalize i =>
    match s.containers[i]? with
    | some (some c) => let t := destroy s c; .ok { t with containers := s.containers.set i none }
    | _ => .error .illegal

def run (s : State) : List Action → Except Err State
  | [] => .ok s
  | a :: as => (step s a).bind fun s => run s as

end Memory
end Duck
