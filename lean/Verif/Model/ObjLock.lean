/-!
# Model of object locks (DKRuntime.c 693-726, DKRuntime+Metadata.c 90-204)

DKLockObject and DKUnlockObject on any number of objects by any number of threads.  What is done while the spin lock of the metadata table is held is one
step, every other access to shared memory is a step of its own; memory is sequentially consistent.  Simplified: the metadata table is a map (its hash table is
Model/HashTable.lean); a mutex is its holder (pthread_mutex_t of the default kind); addresses of metadata and mutexes are not used again; the metadata of an
object is given back with the object (weak references, which keep it longer, are Model/RefCount.lean, as is a release that reads the count of an object
before its metadata is made).
-/

namespace Duck
namespace ObjLock

/-- Which of the two functions is running. -/
inductive Call where
  | lock
  | unlock
deriving DecidableEq, Repr

/-- Where a thread is: in a call on object `o`, with metadata `m`. -/
inductive Pc where
  | idle
  /-- DKMetadataFindOrInsert, DKRuntime+Metadata.c 118-131 -/
  | find (o : Nat) (c : Call)
  /-- 134 -/
  | alloc (o : Nat) (c : Call)
  /-- 137-151: insert the new metadata -/
  | insert (o : Nat) (c : Call) (new : Nat)
  /-- 154-155: release the new metadata -/
  | discard (o : Nat) (c : Call) (m new : Nat)
  /-- DKRuntime.c 702 -/
  | test (o m : Nat)
  /-- 704 -/
  | create (o m : Nat)
  /-- 706, with the new mutex `x` -/
  | cas (o m x : Nat)
  /-- 707 -/
  | drop (o m x : Nat)
  /-- 710 -/
  | lock (o m : Nat)
  /-- 723 -/
  | unlock (o m : Nat)
deriving DecidableEq, Repr

/-- struct DKMetadata (DKRuntime.h 856-869). -/
structure Meta where
  owner : Nat
  mutex : Option Nat
deriving DecidableEq, Repr

/-- The metadata table, the metadata and mutexes in memory (`none`: not allocated or freed; a mutex is its holder), the threads, and, for the statements
    only, which thread has locked which object: the pairs of a return from DKLockObject without a return from DKUnlockObject. -/
structure State where
  table : Nat → Option Nat
  metas : Nat → Option Meta
  mutexes : Nat → Option (Option Nat)
  nextMeta : Nat
  nextMutex : Nat
  threads : Nat → Pc
  held : List (Nat × Nat)

/-- DKMetadataTableInit (DKRuntime+Metadata.c 90-103). -/
def init : State := ⟨fun _ => none, fun _ => none, fun _ => none, 0, 0, fun _ => .idle, []⟩

/-- Store. -/
def upd {β : Type} (f : Nat → β) (a : Nat) (b : β) : Nat → β := fun x => if x = a then b else f x

/-- Thread `i` goes on to `pc`. -/
def goto (s : State) (i : Nat) (pc : Pc) : State := { s with threads := upd s.threads i pc }

/-- DKMetadataFindOrInsert has returned `m` (DKRuntime.c 700, 722). -/
def after (o : Nat) (c : Call) (m : Nat) : Pc :=
  match c with
  | .lock => .test o m
  | .unlock => .unlock o m

inductive Res where
  | ok (s : State)
  /-- waiting for a mutex, or not in a call -/
  | blocked
  /-- freed memory is used, a locked mutex destroyed, or a mutex unlocked by a thread that has not locked it -/
  | bad

/-- DKRuntime+Metadata.c 154-155, DKMetadataFinalize (199-204): release metadata nobody else knows. -/
def discard (s : State) (i o : Nat) (c : Call) (m new : Nat) : Res :=
  match s.metas new with
  | some ⟨_, none⟩ => .ok (goto { s with metas := upd s.metas new none } i (after o c m))
  | _ => .bad

/-- DKRuntime.c 702. -/
def test (s : State) (i o m : Nat) : Res :=
  match s.metas m with
  | some ⟨_, none⟩ => .ok (goto s i (.create o m))
  | some ⟨_, some _⟩ => .ok (goto s i (.lock o m))
  | none => .bad

/-- DKAtomicCmpAndSwapPtr (706). -/
def cas (s : State) (i o m x : Nat) : Res :=
  match s.metas m with
  | some ⟨w, none⟩ => .ok (goto { s with metas := upd s.metas m (some ⟨w, some x⟩) } i (.lock o m))
  | some ⟨_, some _⟩ => .ok (goto s i (.drop o m x))
  | none => .bad

/-- DKRelease of a mutex (707): pthread_mutex_destroy (DKMutex.c 106-115). -/
def drop (s : State) (i o m x : Nat) : Res :=
  match s.mutexes x with
  | some none => .ok (goto { s with mutexes := upd s.mutexes x none } i (.lock o m))
  | _ => .bad

/-- DKLockObject returns. -/
def locked (s : State) (i o : Nat) : State := goto { s with held := (i, o) :: s.held } i .idle

/-- DKMutexLock (710; DKMutex.c 121-133): NULL is ignored. -/
def lock (s : State) (i o m : Nat) : Res :=
  match s.metas m with
  | some ⟨_, some x⟩ =>
    match s.mutexes x with
    | some none => .ok (locked { s with mutexes := upd s.mutexes x (some (some i)) } i o)
    | some (some _) => .blocked
    | none => .bad
  | some ⟨_, none⟩ => .ok (locked s i o)
  | none => .bad

/-- DKUnlockObject returns. -/
def unlocked (s : State) (i o : Nat) : State := goto { s with held := s.held.erase (i, o) } i .idle

/-- DKMutexUnlock (723; DKMutex.c 159-173): NULL is ignored. -/
def unlock (s : State) (i o m : Nat) : Res :=
  match s.metas m with
  | some ⟨_, some x⟩ =>
    match s.mutexes x with
    | some (some j) => if j = i then .ok (unlocked { s with mutexes := upd s.mutexes x (some none) } i o) else .bad
    | _ => .bad
  | some ⟨_, none⟩ => .ok (unlocked s i o)
  | none => .bad

/-- DKRuntime+Metadata.c 118-131. -/
def find (s : State) (i o : Nat) (c : Call) : Res :=
  match s.table o with
  | some m => .ok (goto s i (after o c m))
  | none => .ok (goto s i (.alloc o c))

/-- DKRuntime+Metadata.c 137-151. -/
def insert (s : State) (i o : Nat) (c : Call) (new : Nat) : Res :=
  match s.table o with
  | none => .ok (goto { s with table := upd s.table o (some new) } i (after o c new))
  | some m => .ok (goto s i (.discard o c m new))

/-- One step of thread `i`. -/
def step (s : State) (i : Nat) : Res :=
  match s.threads i with
  | .idle => .blocked
  | .find o c => find s i o c
  | .alloc o c => .ok (goto { s with metas := upd s.metas s.nextMeta (some ⟨o, none⟩), nextMeta := s.nextMeta + 1 } i (.insert o c s.nextMeta))
  | .insert o c new => insert s i o c new
  | .discard o c m new => discard s i o c m new
  | .test o m => test s i o m
  | .create o m => .ok (goto { s with mutexes := upd s.mutexes s.nextMutex (some none), nextMutex := s.nextMutex + 1 } i (.cas o m s.nextMutex))
  | .cas o m x => cas s i o m x
  | .drop o m x => drop s i o m x
  | .lock o m => lock s i o m
  | .unlock o m => unlock s i o m

/-- The last release of object `o` (DKRuntime+RefCount.c 108-113): DKMetadataRemove (DKRuntime+Metadata.c 164-174), DKMetadataFinalize (199-204). -/
def dealloc (s : State) (o : Nat) : Res :=
  match s.table o with
  | none => .ok s
  | some m =>
    match s.metas m with
    | some ⟨_, none⟩ => .ok { s with table := upd s.table o none, metas := upd s.metas m none }
    | some ⟨_, some x⟩ =>
      match s.mutexes x with
      | some none => .ok { s with table := upd s.table o none, metas := upd s.metas m none, mutexes := upd s.mutexes x none }
      | _ => .bad
    | none => .bad

inductive Action where
  /-- a thread calls DKLockObject or DKUnlockObject -/
  | call (i o : Nat) (c : Call)
  | step (i : Nat)
  | dealloc (o : Nat)
deriving DecidableEq, Repr

def act (s : State) : Action → Res
  | .call i o c => .ok (goto s i (.find o c))
  | .step i => step s i
  | .dealloc o => dealloc s o

end ObjLock
end Duck
