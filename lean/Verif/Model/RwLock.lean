/-!
# Model of read-write locks and timed waits (DKReadWriteLock.c 72-207, DKCondition.c 127-175)

Any number of threads on one DKReadWriteLock, on the two platforms.  A call of the system's lock is one step, so is each access to the member `exclusive`;
memory is sequentially consistent.  The system's lock is its holders: `writer` and `readers` (a thread may be among the readers more than once).
-/

namespace Duck
namespace RwLock

/-- DK_PLATFORM_POSIX, DK_PLATFORM_WINDOWS (DKPlatform.h). -/
inductive Platform where
  | posix
  | windows
deriving DecidableEq, Repr

/-- Where a thread is; `w` is the argument `readwrite`. -/
inductive Pc where
  | idle
  /-- DKReadWriteLockLock 125-142 -/
  | lock (w : Bool)
  /-- 135, `exclusive` is set -/
  | set
  /-- DKReadWriteLockTryLock 156-176 -/
  | tryLock (w : Bool)
  /-- 167, `exclusive` is set -/
  | trySet
  /-- DKReadWriteLockUnlock 193, 195 -/
  | unlock
  /-- 197, `exclusive` is cleared -/
  | clear
  /-- 198 -/
  | releaseExclusive
  /-- 203 -/
  | releaseShared
deriving DecidableEq, Repr

/-- The lock, the threads, what the last DKReadWriteLockTryLock of each returned, and, for the statements only, who has the lock as far as the functions have
    told: a return from DKReadWriteLockLock, or `true` from DKReadWriteLockTryLock, without a return from DKReadWriteLockUnlock. -/
structure State where
  writer : Option Nat
  readers : List Nat
  exclusive : Bool
  threads : Nat → Pc
  result : Nat → Option Bool
  held : List (Nat × Bool)

/-- DKReadWriteLockInit (75-89). -/
def init : State := ⟨none, [], false, fun _ => .idle, fun _ => none, []⟩

/-- Store. -/
def upd {β : Type} (f : Nat → β) (a : Nat) (b : β) : Nat → β := fun x => if x = a then b else f x

/-- Thread `i` goes on to `pc`. -/
def goto (s : State) (i : Nat) (pc : Pc) : State := { s with threads := upd s.threads i pc }

/-- A locking function returns to the caller, who now has the lock. -/
def got (s : State) (i : Nat) (w : Bool) : State := goto { s with held := (i, w) :: s.held } i .idle

/-- DKReadWriteLockTryLock returns `b`. -/
def tried (s : State) (i : Nat) (w b : Bool) : State :=
  { (if b then got s i w else goto s i .idle) with result := upd s.result i (some b) }

/-- DKReadWriteLockUnlock returns. -/
def released (s : State) (i : Nat) : State :=
  goto { s with held := s.held.erase (if (i, true) ∈ s.held then (i, true) else (i, false)) } i .idle

inductive Res where
  | ok (s : State)
  /-- waiting for the lock, or not in a call -/
  | blocked
  /-- the system's lock is released by someone who does not hold it -/
  | bad

/-- pthread_rwlock_wrlock, AcquireSRWLockExclusive and the try functions can take the lock for writing. -/
def writable (s : State) : Bool := s.writer.isNone && s.readers.isEmpty

/-- pthread_rwlock_rdlock, AcquireSRWLockShared and the try functions can take the lock for reading. -/
def readable (s : State) : Bool := s.writer.isNone

/-- DKReadWriteLockLock (119-144). -/
def lock (p : Platform) (s : State) (i : Nat) (w : Bool) : Res :=
  if w then
    if writable s then
      match p with
      | .posix => .ok (got { s with writer := some i } i true)
      | .windows => .ok (goto { s with writer := some i } i .set)
    else .blocked
  else
    if readable s then .ok (got { s with readers := i :: s.readers } i false)
    else .blocked

/-- DKReadWriteLockTryLock (150-180).  On Windows a lock for writing that is refused (165) leads to `return true` (179). -/
def tryLock (p : Platform) (s : State) (i : Nat) (w : Bool) : Res :=
  match p with
  | .posix =>
    if w then
      if writable s then .ok (tried { s with writer := some i } i true true) else .ok (tried s i true false)
    else
      if readable s then .ok (tried { s with readers := i :: s.readers } i false true) else .ok (tried s i false false)
  | .windows =>
    if w then
      if writable s then .ok (goto { s with writer := some i } i .trySet) else .ok (tried s i true true)
    else
      if readable s then .ok (tried { s with readers := i :: s.readers } i false true) else .ok (tried s i false false)

/-- DKReadWriteLockUnlock (186-207): on POSIX the system knows how the lock is held (193); on Windows `exclusive` is asked (195). -/
def unlock (p : Platform) (s : State) (i : Nat) : Res :=
  match p with
  | .posix =>
    if s.writer = some i then .ok (released { s with writer := none } i)
    else if i ∈ s.readers then .ok (released { s with readers := s.readers.erase i } i)
    else .bad
  | .windows => if s.exclusive then .ok (goto s i .clear) else .ok (goto s i .releaseShared)

/-- One step of thread `i`. -/
def step (p : Platform) (s : State) (i : Nat) : Res :=
  match s.threads i with
  | .idle => .blocked
  | .lock w => lock p s i w
  | .set => .ok (got { s with exclusive := true } i true)
  | .tryLock w => tryLock p s i w
  | .trySet => .ok (tried { s with exclusive := true } i true true)
  | .unlock => unlock p s i
  | .clear => .ok (goto { s with exclusive := false } i .releaseExclusive)
  | .releaseExclusive => if s.writer = some i then .ok (released { s with writer := none } i) else .bad
  | .releaseShared => if i ∈ s.readers then .ok (released { s with readers := s.readers.erase i } i) else .bad

inductive Action where
  /-- DKReadWriteLockLock, DKReadWriteLockTryLock, DKReadWriteLockUnlock are called -/
  | lock (i : Nat) (w : Bool)
  | tryLock (i : Nat) (w : Bool)
  | unlock (i : Nat)
  | step (i : Nat)
deriving DecidableEq, Repr

def act (p : Platform) (s : State) : Action → Res
  | .lock i w => .ok (goto s i (.lock w))
  | .tryLock i w => .ok (goto s i (.tryLock w))
  | .unlock i => .ok (goto s i .unlock)
  | .step i => step p s i

/-! ## Timed waits -/

/-- struct timespec. -/
structure Time where
  sec : Int
  nsec : Int
deriving DecidableEq, Repr

/-- The loop at DKCondition.c 154-158. -/
def normalize : Nat → Time → Option Time
  | 0, _ => none
  | k + 1, t => if t.nsec > 999999999 then normalize k ⟨t.sec + 1, t.nsec - 1000000000⟩ else some t

/-- DKCondition.c 135-158: the time `timeout` after `now`.  The timeout is given by the integers (time_t)ipart and (long)(fpart * 1000000000.0) the code makes
    of it; modf gives both parts the sign of the timeout.  Simplified: `time_t` and `long` are unbounded. -/
def endTime (now : Time) (ipart fpart : Int) : Option Time :=
  normalize (now.nsec + fpart).toNat.succ ⟨now.sec + ipart, now.nsec + fpart⟩

/-- pthread_cond_timedwait refuses a time with nanoseconds below 0 or above 999999999 (EINVAL). -/
def accepted (t : Time) : Bool := 0 ≤ t.nsec ∧ t.nsec ≤ 999999999

end RwLock
end Duck
