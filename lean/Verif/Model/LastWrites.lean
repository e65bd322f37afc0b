/-!
# Model of the last release of an object on machines with store buffers (DKRuntime+RefCount.c 48-181, 213-229, DKPlatform.h 655-733)

Any number of threads own references to an object and write its fields through them.  A write is seen by other threads only later, and writes to different fields in any order (as in `Visible`).  The atomic
operations on the count are full barriers (the __sync functions of GCC, DKPlatform.h 662-678): they wait until the buffer of the thread is empty and act on memory.  So are those of the spin lock
in DKResolveWeak (219).  The steps of C17 and C18 are single steps here.  The finalizer only reads.  Objects without reference counting (DKRefCountDisabledBit) are left out: they have no last release.
-/
namespace Duck
namespace LastWrites

/-- Where the object is: owned, in the finalizer that thread `i` runs, or freed. -/
inductive Stage where
  | owned
  | finalizing (i : Nat)
  | freed
deriving DecidableEq, Repr

/-- The count, the owners of the references (a thread is listed once for each of its references), the fields in memory, the writes of each thread that have not reached memory (oldest first), the stage, and
    whether a write has reached the memory of the object after it was freed. -/
structure State where
  rc : Nat
  owners : List Nat
  field : Nat → Nat
  buf : Nat → List (Nat × Nat)
  stage : Stage
  late : Bool

/-- An object with one reference, owned by thread 0, as DKAllocObject makes it (DKRuntime.c 511-546): its fields are 0. -/
def init : State := ⟨1, [0], fun _ => 0, fun _ => [], .owned, false⟩

/-- The value a buffer holds for field `k`, if any: the youngest. -/
def pending : List (Nat × Nat) → Nat → Option Nat
  | [], _ => none
  | (k', v) :: ws, k => (pending ws k).or (if k' = k then some v else none)

/-- What thread `i` reads from field `k`. -/
def read (s : State) (i k : Nat) : Nat := (pending (s.buf i) k).getD (s.field k)

inductive Action where
  /-- thread `i` writes `v` to field `k` -/
  | write (i k v : Nat)
  /-- DKRetain -/
  | retain (i : Nat)
  /-- DKResolveWeak with a weak reference -/
  | resolve (i : Nat)
  /-- thread `i` gives one of its references to thread `j`, through a lock or by a plain variable -/
  | give (i j : Nat) (locked : Bool)
  /-- DKRelease -/
  | release (i : Nat)
  /-- DKTryRelease -/
  | tryRelease (i : Nat)
  /-- the finalizer returns and the object is freed -/
  | free (i : Nat)
  /-- the write at place `j` in the buffer of thread `i` reaches memory -/
  | commit (i j : Nat)
deriving DecidableEq, Repr

/-- The buffer of thread `i` changes. -/
def setBuf (s : State) (i : Nat) (ws : List (Nat × Nat)) : State := { s with buf := fun j => if j = i then ws else s.buf j }

/-- DKRelease (70-118) after the barrier: the finalizer runs when the count is 0. -/
def drop (s : State) (i : Nat) : State := { s with rc := s.rc - 1, owners := s.owners.erase i, stage := if s.rc - 1 = 0 then .finalizing i else s.stage }

/-- A write of field `k` reaches memory. -/
def store (s : State) (k v : Nat) : State := { s with field := fun k' => if k' = k then v else s.field k', late := s.late || s.stage == .freed }

/-- One action; `none` if it has to wait or cannot happen. -/
def act (s : State) : Action → Option State
  | .write i k v => if i ∈ s.owners then some (setBuf s i (s.buf i ++ [(k, v)])) else none
  | .retain i => if i ∈ s.owners ∧ s.buf i = [] then some { s with rc := s.rc + 1, owners := i :: s.owners } else none
  | .resolve i => if s.rc ≠ 0 ∧ s.buf i = [] then some { s with rc := s.rc + 1, owners := i :: s.owners } else none
  | .give i j locked => if i ∈ s.owners ∧ (locked = true → s.buf i = []) then some { s with owners := j :: s.owners.erase i } else none
  | .release i => if i ∈ s.owners ∧ s.buf i = [] then some (drop s i) else none
  | .tryRelease i => if i ∈ s.owners then (if s.rc = 1 then (if s.buf i = [] then some (drop s i) else none) else some s) else none
  | .free i => if s.stage = .finalizing i then some { s with stage := .freed } else none
  | .commit i j => (s.buf i)[j]?.bind fun w => if pending ((s.buf i).take j) w.1 = none then some (setBuf (store s w.1 w.2) i ((s.buf i).eraseIdx j)) else none

/-- An execution. -/
def run (s : State) : List Action → Option State
  | [] => some s
  | a :: as => (act s a).bind fun s => run s as

end LastWrites
end Duck
