/-! Mutexes and conditions, DKMutex.c and DKCondition.c, over the mutexes and condition variables of the host, and the
program that waits for a condition under a mutex. -/
namespace Duck
namespace Mutex

/-- The two implementations, selected in DKMutex.c and DKCondition.c by DK_PLATFORM_POSIX and DK_PLATFORM_WINDOWS -/
inductive Platform
  | posix | windows
deriving DecidableEq, Repr

/-- The two kinds: DKMutexInit (DKMutex.c:61-76) and DKRecursiveMutexInit (DKMutex.c:82-100) -/
inductive Kind
  | plain | recursive
deriving DecidableEq, Repr

/-- Whether the thread that holds the mutex can lock it again: on POSIX when the attribute PTHREAD_MUTEX_RECURSIVE was
    given (DKMutex.c:89-93, but not at DKMutex.c:68); a critical section of Windows always (DKMutex.c:70, 95) -/
def reentrant : Platform → Kind → Bool
  | .posix, .plain => false
  | .posix, .recursive => true
  | .windows, _ => true

/-- A mutex and a condition, and the threads that wait for it: `asleep` until they are woken, `returning` until they have
    the mutex again -/
structure St where
  owner : Option Nat
  depth : Nat
  asleep : List Nat
  returning : List Nat
deriving DecidableEq, Repr

/-- Nobody has called anything -/
def init : St := ⟨none, 0, [], []⟩

/-- What is observed: a thread has been given the mutex or has given it back (one level of it) -/
inductive Log
  | entered (t : Nat)
  | left (t : Nat)
deriving DecidableEq, Repr

/-- What happens when a thread makes a call: it returns (with the result for the calls that have one), it does not return
    as long as the state is what it is, or it is undefined -/
inductive Res
  | returns (s : St) (log : List Log) (result : Bool)
  | blocks
  | undefined
deriving DecidableEq, Repr

/-- pthread_mutex_lock and EnterCriticalSection, called by DKMutexLock, DKMutex.c:121-133: a plain POSIX mutex that the
    thread holds already is never obtained -/
def lock (p : Platform) (k : Kind) (t : Nat) (s : St) : Res :=
  match s.owner with
  | none => .returns { s with owner := some t, depth := 1 } [.entered t] true
  | some u => if u = t ∧ reentrant p k then .returns { s with depth := s.depth + 1 } [.entered t] true else .blocks

/-- DKMutexTryLock, DKMutex.c:139-153, of a mutex that is not NULL (of NULL it returns true) -/
def tryLock (p : Platform) (k : Kind) (t : Nat) (s : St) : Res :=
  match s.owner with
  | none => .returns { s with owner := some t, depth := 1 } [.entered t] true
  | some u => if u = t ∧ reentrant p k then .returns { s with depth := s.depth + 1 } [.entered t] true else .returns s [] false

/-- One level is given back -/
def leave (s : St) : St := if s.depth = 1 then { s with owner := none, depth := 0 } else { s with depth := s.depth - 1 }

/-- DKMutexUnlock, DKMutex.c:159-173: the thread must hold the mutex; otherwise pthread_mutex_unlock of a recursive mutex
    fails (the error is ignored), of a plain one it is undefined, and so is LeaveCriticalSection -/
def unlock (p : Platform) (k : Kind) (t : Nat) (s : St) : Res :=
  if s.owner = some t then .returns (leave s) [.left t] true
  else match p, k with
    | .posix, .recursive => .returns s [] true
    | _, _ => .undefined

/-- DKConditionWait, DKCondition.c:100-121, and DKConditionTimedWait, DKCondition.c:127-175, up to the sleep: one level of
    the mutex is given back, also when the thread has locked it several times.  Without the mutex it is undefined.
    Simplified: the result of the two calls and the computation of the end time are left out. -/
def wait (t : Nat) (s : St) : Res :=
  if s.owner = some t then .returns { leave s with asleep := s.asleep ++ [t] } [.left t] true else .undefined

/-- DKConditionSignal, DKCondition.c:181-193: a thread that sleeps is woken, if there is one; `w` is the choice of the host -/
def signal (w : Nat) (s : St) : Res :=
  if w ∈ s.asleep then .returns { s with asleep := s.asleep.filter (· ≠ w), returning := s.returning ++ [w] } [] true
  else if s.asleep = [] then .returns s [] true else .blocks

/-- DKConditionSignalAll, DKCondition.c:199-211 -/
def signalAll (s : St) : Res := .returns { s with asleep := [], returning := s.returning ++ s.asleep } [] true

/-- A thread wakes without a signal, or because its time is up (DKCondition.c:160, 169) -/
def wake (w : Nat) (s : St) : Res :=
  if w ∈ s.asleep then .returns { s with asleep := s.asleep.filter (· ≠ w), returning := s.returning ++ [w] } [] true
  else .blocks

/-- DKConditionWait returns (DKCondition.c:108, 115): the thread has been woken and the mutex is free, or still its own -/
def resume (t : Nat) (s : St) : Res :=
  if t ∈ s.returning then
    match s.owner with
    | none => .returns { s with owner := some t, depth := 1, returning := s.returning.filter (· ≠ t) } [.entered t] true
    | some u =>
      if u = t then .returns { s with depth := s.depth + 1, returning := s.returning.filter (· ≠ t) } [.entered t] true
      else .blocks
  else .blocks

/-- The calls of the threads and what the host does -/
inductive Ev
  | lock (t : Nat) | tryLock (t : Nat) | unlock (t : Nat) | wait (t : Nat) | signal (t w : Nat) | signalAll (t : Nat)
  | wake (w : Nat) | resume (t : Nat)
deriving DecidableEq, Repr

/-- The thread that makes the call -/
def Ev.caller : Ev → Option Nat
  | .lock t | .tryLock t | .unlock t | .wait t | .signal t _ | .signalAll t => some t
  | .wake _ | .resume _ => none

/-- The effect of the definitions above; a thread that waits for the condition makes no calls -/
def step (p : Platform) (k : Kind) (s : St) (e : Ev) : Res :=
  if ∃ t ∈ e.caller, t ∈ s.asleep ∨ t ∈ s.returning then .blocks
  else match e with
    | .lock t => lock p k t s
    | .tryLock t => tryLock p k t s
    | .unlock t => unlock p k t s
    | .wait t => wait t s
    | .signal _ w => signal w s
    | .signalAll _ => signalAll s
    | .wake w => wake w s
    | .resume t => resume t s

/-- An execution: the state after it and what was observed; `none` when one of the events cannot happen or is undefined -/
def exec (p : Platform) (k : Kind) : List Ev → St → Option (St × List Log)
  | [], s => some (s, [])
  | e :: es, s => match step p k s e with
    | .returns s' l _ => (exec p k es s').map fun r => (r.1, l ++ r.2)
    | _ => none

/-! ## Waiting for a condition

    DKMutexLock( m ); while( !ready ) DKConditionWait( c, m ); DKMutexUnlock( m );      (a waiter)
    DKMutexLock( m ); ready = true; DKConditionSignalAll( c ); DKMutexUnlock( m );      (a setter)

DKThreadPoolWaitForTasks is such a waiter (DKThreadPool.c:907-923; the group is gone) and the completion of the last task of
a group such a setter (DKThreadPool.c:571-573, 486-490).  Simplified: the test is one variable, which is never reset. -/

/-- Where a thread is: a waiter before the lock, at the test, in the wait, after the loop; a setter before the lock, before
    the assignment, before the signal, before the unlock; at the end -/
inductive Pc
  | start | test | waiting | unlocking | setLock | setAssign | setSignal | setUnlock | done
deriving DecidableEq, Repr

/-- The whole system -/
structure Sys where
  st : St
  ready : Bool
  pc : Nat → Pc

/-- Set the position of a thread -/
def Sys.goto (s : Sys) (t : Nat) (c : Pc) : Sys := { s with pc := fun u => if u = t then c else s.pc u }

/-- Make a call and go on -/
def Sys.call (s : Sys) (t : Nat) (r : Res) (c : Pc) : Option Sys :=
  match r with
  | .returns st _ _ => some ({ s with st := st }.goto t c)
  | _ => none

/-- The next step of thread `t`; `none` when it cannot go on -/
def thread (p : Platform) (k : Kind) (t : Nat) (s : Sys) : Option Sys :=
  match s.pc t with
  | .start => s.call t (step p k s.st (.lock t)) .test
  | .test => if s.ready then some (s.goto t .unlocking) else s.call t (step p k s.st (.wait t)) .waiting
  | .waiting => s.call t (step p k s.st (.resume t)) .test
  | .unlocking => s.call t (step p k s.st (.unlock t)) .done
  | .setLock => s.call t (step p k s.st (.lock t)) .setAssign
  | .setAssign => some ({ s with ready := true }.goto t .setSignal)
  | .setSignal => s.call t (step p k s.st (.signalAll t)) .setUnlock
  | .setUnlock => s.call t (step p k s.st (.unlock t)) .done
  | .done => none

/-- A waiter is woken without a signal -/
def wakeUp (p : Platform) (k : Kind) (w : Nat) (s : Sys) : Option Sys :=
  match step p k s.st (.wake w) with
  | .returns st _ _ => some { s with st := st }
  | _ => none

/-- What the scheduler chooses -/
inductive Choice
  | thread (t : Nat)
  | wakeUp (w : Nat)
deriving DecidableEq, Repr

/-- An execution of the system -/
def go (p : Platform) (k : Kind) : List Choice → Sys → Option Sys
  | [], s => some s
  | .thread t :: cs, s => (thread p k t s).bind (go p k cs)
  | .wakeUp w :: cs, s => (wakeUp p k w s).bind (go p k cs)

end Mutex
end Duck
