/-!
# Model of shared objects (DKRuntime.h 214-259, DKPlatform.h 714-733)

An accessor made by DKThreadSafeSharedObjectInit (or DKThreadSafeStaticObjectInit, DKThreadSafeClassInit, which are alike) and any number of threads in it,
statement by statement.  Memory is sequentially consistent.  Creating the object takes time and never gives NULL; what else it does is not modelled.
-/

namespace Duck
namespace Shared

/-- Where a caller of the accessor is. -/
inductive Pc where
  /-- 222 -/
  | test
  /-- 225: spins until it has the lock -/
  | lock
  /-- 227 -/
  | retest
  /-- 228: `_Create` begins -/
  | create
  /-- 228: `_Create` works on object `o` -/
  | build (o : Nat)
  /-- 228: the pointer is about to be stored -/
  | store (o : Nat)
  /-- 230 -/
  | unlock
  /-- 223 or 232 -/
  | read
  | done (result : Option Nat)
deriving DecidableEq, Repr

/-- The static variables of the accessor, the objects allocated and built so far, and the callers.  `lock` is the caller that has set the spin lock to 1. -/
structure State where
  shared : Option Nat
  lock : Option Nat
  allocated : Nat
  built : List Nat
  callers : List Pc
deriving DecidableEq, Repr

/-- DKRuntime.h 216-217. -/
def init : State := ⟨none, none, 0, [], []⟩

/-- Caller `i` goes on to `pc`. -/
def goto (s : State) (i : Nat) (pc : Pc) : State := { s with callers := s.callers.set i pc }

/-- One statement of the accessor (DKRuntime.h 220-233); `none` while the lock is taken (DKPlatform.h 722). -/
def step (s : State) (i : Nat) : Pc → Option State
  | .test => some (if s.shared ≠ none then goto s i .read else goto s i .lock)
  | .lock => if s.lock = none then some (goto { s with lock := some i } i .retest) else none
  | .retest => some (if s.shared = none then goto s i .create else goto s i .unlock)
  | .create => some (goto { s with allocated := s.allocated + 1 } i (.build s.allocated))
  | .build o => some (goto { s with built := s.built ++ [o] } i (.store o))
  | .store o => some (goto { s with shared := some o } i .unlock)
  | .unlock => some (goto { s with lock := none } i .read)
  | .read => some (goto s i (.done s.shared))
  | .done _ => none

inductive Action where
  /-- a thread calls the accessor -/
  | call
  /-- caller `i` makes a step -/
  | step (i : Nat)
deriving DecidableEq, Repr

def act (s : State) : Action → Option State
  | .call => some { s with callers := s.callers ++ [.test] }
  | .step i => (s.callers[i]?).bind (step s i)

/-- The states that can come about. -/
inductive Reach : State → Prop
  | init : Reach init
  | step {s a s'} : Reach s → act s a = some s' → Reach s'

end Shared
end Duck
