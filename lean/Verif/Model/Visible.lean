/-!
# Model of shared objects on machines with store buffers (DKRuntime.h 214-259, DKPlatform.h 714-733)

As `SharedInit`, but what a thread writes is seen by other threads only later: each thread has a buffer of writes that reach memory one by one, in the order in which they were made
(x86) or in any order (ARM, POWER; there every write here is to another place).  A thread reads its own writes.  The operations of the spin lock are full barriers, as the documentation
of GCC says of __sync_bool_compare_and_swap and __sync_and_and_fetch (DKPlatform.h 667, 664): they wait until the buffer of the thread is empty and act on memory.  The pointer is tested and
read without barriers.  Reads are made in the order of the program.  The object has `n` fields that `_Create` writes one after the other; `true` is a field that has been written.
-/
namespace Duck
namespace Visible

inductive Order where
  | inOrder
  | anyOrder
deriving DecidableEq, Repr

/-- A write that may not have reached memory yet: field `k` of object `o`, or the address of object `o` to the static variable. -/
inductive Write where
  | field (o k : Nat)
  | pointer (o : Nat)
deriving DecidableEq, Repr

/-- Where a caller of the accessor is. -/
inductive Pc where
  /-- 222 -/
  | test
  /-- 225 -/
  | lock
  /-- 227 -/
  | retest
  /-- 228: `_Create` begins -/
  | create
  /-- 228: `_Create` is about to write field `k` of object `o` -/
  | fill (o k : Nat)
  /-- 228: the address of the object is about to be stored -/
  | store (o : Nat)
  /-- 230 -/
  | unlock
  /-- 223 or 232 -/
  | read
  | done (result : Option Nat)
deriving DecidableEq, Repr

/-- A caller, and its writes that have not reached memory, oldest first. -/
structure Caller where
  pc : Pc
  buf : List Write
deriving DecidableEq, Repr

/-- Memory: the static variable, the lock and its holder, the fields of objects; the number of objects allocated; the callers. -/
structure State where
  shared : Option Nat
  lock : Option Nat
  field : Nat → Nat → Bool
  allocated : Nat
  callers : List Caller

/-- DKRuntime.h 216-217. -/
def init : State := ⟨none, none, fun _ _ => false, 0, []⟩

/-- The last address a caller has stored, if it has not reached memory. -/
def ownPointer : List Write → Option Nat
  | [] => none
  | .field _ _ :: ws => ownPointer ws
  | .pointer o :: ws => some ((ownPointer ws).getD o)

/-- What a caller reads from the static variable. -/
def readPointer (s : State) (c : Caller) : Option Nat := (ownPointer c.buf).or s.shared

/-- What a caller reads from field `k` of object `o`: whether it has been written. -/
def readField (s : State) (c : Caller) (o k : Nat) : Bool := c.buf.contains (.field o k) || s.field o k

/-- Caller `i` is replaced. -/
def put (s : State) (i : Nat) (c : Caller) : State := { s with callers := s.callers.set i c }

/-- One statement of the accessor (DKRuntime.h 220-233) for an object with `n` fields; `none` while it waits. -/
def step (n : Nat) (s : State) (i : Nat) (c : Caller) : Option State :=
  match c.pc with
  | .test => some (put s i ⟨if readPointer s c ≠ none then .read else .lock, c.buf⟩)
  | .lock => if c.buf = [] ∧ s.lock = none then some (put { s with lock := some i } i ⟨.retest, c.buf⟩) else none
  | .retest => some (put s i ⟨if readPointer s c = none then .create else .unlock, c.buf⟩)
  | .create => some (put { s with allocated := s.allocated + 1 } i ⟨.fill s.allocated 0, c.buf⟩)
  | .fill o k => some (put s i (if k < n then ⟨.fill o (k + 1), c.buf ++ [.field o k]⟩ else ⟨.store o, c.buf⟩))
  | .store o => some (put s i ⟨.unlock, c.buf ++ [.pointer o]⟩)
  | .unlock => if c.buf = [] then some (put { s with lock := none } i ⟨.read, c.buf⟩) else none
  | .read => some (put s i ⟨.done (readPointer s c), c.buf⟩)
  | .done _ => none

/-- A write reaches memory. -/
def apply (s : State) : Write → State
  | .field o k => { s with field := fun o' k' => if o' = o ∧ k' = k then true else s.field o' k' }
  | .pointer o => { s with shared := some o }

/-- The write at place `j` in the buffer of caller `i` reaches memory: with `inOrder` only the oldest can. -/
def commit (order : Order) (s : State) (i j : Nat) (c : Caller) : Option State :=
  if order = .inOrder ∧ j ≠ 0 then none else (c.buf[j]?).map fun w => put (apply s w) i ⟨c.pc, c.buf.eraseIdx j⟩

inductive Action where
  /-- a thread calls the accessor -/
  | call
  /-- caller `i` makes a step -/
  | step (i : Nat)
  /-- a write of caller `i` reaches memory -/
  | commit (i j : Nat)
deriving DecidableEq, Repr

def act (order : Order) (n : Nat) (s : State) : Action → Option State
  | .call => some { s with callers := s.callers ++ [⟨.test, []⟩] }
  | .step i => (s.callers[i]?).bind (step n s i)
  | .commit i j => (s.callers[i]?).bind (commit order s i j)

/-- An execution. -/
def run (order : Order) (n : Nat) (s : State) : List Action → Option State
  | [] => some s
  | a :: as => (act order n s a).bind fun s => run order n s as

end Visible
end Duck
