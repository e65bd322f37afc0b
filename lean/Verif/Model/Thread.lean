/-!
# Model of threads (DKThread.c)

One DKThread object and everything that can be done to it: any number of threads call DKThreadStart and DKThreadCancel, retain and release the object,
and the operating system threads created for it execute DKThreadExec.  What is done with the spin lock held is one step.  Callers at the same point of the
same function are alike, so they are counted.

Using the object after it was deallocated, and aborting, are the result `crash`.
-/

namespace Duck
namespace Thr

/-- DKThreadState (DKThread.h 42-53); DKThreadStateUnknown is only for threads that Duck did not create. -/
inductive TState where
  | created
  | started
  | running
  | cancelled
  | finished
deriving DecidableEq, Repr

/-- Where DKThreadExec is (DKThread.c 420-461). -/
inductive Pc where
  /-- created by the operating system -/
  | born
  /-- the thread context is set (429-431) -/
  | ready
  /-- state is set (433-435) -/
  | begun
  /-- in the procedure (437-443) -/
  | calling
  /-- the procedure has returned -/
  | returned
  /-- state is set again (445-449) -/
  | ended
  /-- the thread context is finalized (452) -/
  | finalized
  /-- the object is released (454) -/
  | gone
deriving DecidableEq, Repr

/-- The DKThread object and the threads dealing with it.
    `count` is the reference count, `userRefs` how many of these references the callers have.  `retaining`, `creating` and `detaching` count the callers in
    DKThreadStart before DKThread.c 481, 484 and 485; `cancelling` counts those in DKThreadCancel before 546.  `execs` are the threads made by
    pthread_create, `procCalls` and `procReturns` count the calls of the procedure. -/
structure Thr where
  state : TState
  count : Int
  userRefs : Nat
  retaining : Nat
  creating : Nat
  detaching : Nat
  cancelling : Nat
  execs : List Pc
  detached : Bool
  procCalls : Nat
  procReturns : Nat
deriving DecidableEq, Repr

/-- DKThreadInit (DKThread.c 281-292, 380-413): the creator has the only reference. -/
def init : Thr := ⟨.created, 1, 1, 0, 0, 0, 0, [], false, 0, 0⟩

inductive Action where
  /-- a caller retains the object -/
  | retain
  /-- a caller releases the object -/
  | release
  /-- DKThreadStart (467) up to 479 or 493 -/
  | start
  | startRetain
  | startCreate
  | startDetach
  /-- DKThreadCancel (533) up to 541 or 546 -/
  | cancel
  | cancelLock
  /-- the next step of DKThreadExec in thread `i` -/
  | exec (i : Nat)
  /-- the procedure calls DKThreadExit -/
  | exit (i : Nat)
deriving DecidableEq, Repr

inductive Res where
  | ok (t : Thr)
  | crash
deriving DecidableEq, Repr

/-- Something is done to the object: it must not be deallocated. -/
def touch (t : Thr) (r : Res) : Option Res := if t.count ≤ 0 then some .crash else some r

/-- The calls in progress. -/
def busy (t : Thr) : Nat := t.retaining + t.creating + t.detaching + t.cancelling

/-- DKThreadStart with the lock held (DKThread.c 473-479, 491-494). -/
def start (t : Thr) : Thr :=
  if t.state = .created then { t with state := .started, retaining := t.retaining + 1 } else t

/-- DKThreadCancel: the first test (DKThread.c 539), without the lock. -/
def cancel (t : Thr) : Thr := if t.state = .created then t else { t with cancelling := t.cancelling + 1 }

/-- DKThreadCancel with the lock held (DKThread.c 546-551). -/
def cancelLock (t : Thr) : Thr :=
  { t with cancelling := t.cancelling - 1,
           state := if t.state = .started ∨ t.state = .running then .cancelled else t.state }

/-- A step of DKThreadExec (DKThread.c 420-461) in thread `i`, which is at `pc`. -/
def exec (t : Thr) (i : Nat) (pc : Pc) : Option Res :=
  match pc with
  | .born => touch t (.ok { t with execs := t.execs.set i .ready, count := t.count + 1 })
  | .ready => touch t (.ok { t with execs := t.execs.set i .begun, state := .running })
  | .begun => touch t (.ok { t with execs := t.execs.set i .calling, procCalls := t.procCalls + 1 })
  | .calling => touch t (.ok { t with execs := t.execs.set i .returned, procReturns := t.procReturns + 1 })
  | .returned => touch t (.ok { t with execs := t.execs.set i .ended, state := .finished })
  | .ended => touch t (.ok { t with execs := t.execs.set i .finalized, count := t.count - 1 })
  | .finalized => touch t (.ok { t with execs := t.execs.set i .gone, count := t.count - 1 })
  | .gone => none

/-- DKThreadExit called by the procedure (DKThread.c 560-573).  pthread_exit calls the destructor of the thread context (132-137), and that requires
    (94) that the stack of autorelease pools is empty; the pool pushed in 437 is still on it. -/
def exit (pc : Pc) : Option Res := if pc = .calling then some .crash else none

/-- One step; `none` if it cannot be taken.  Whoever calls a function of the object has a reference, and keeps it until the function returns; the procedure
    can get one with DKThreadGetCurrentThread. -/
def act (t : Thr) : Action → Option Res
  | .retain => if 0 < t.userRefs ∨ .calling ∈ t.execs then touch t (.ok { t with userRefs := t.userRefs + 1, count := t.count + 1 }) else none
  | .release => if busy t < t.userRefs then touch t (.ok { t with userRefs := t.userRefs - 1, count := t.count - 1 }) else none
  | .start => if 0 < t.userRefs then touch t (.ok (start t)) else none
  | .startRetain =>
      if 0 < t.retaining then touch t (.ok { t with retaining := t.retaining - 1, creating := t.creating + 1, count := t.count + 1 }) else none
  | .startCreate =>
      if 0 < t.creating then touch t (.ok { t with creating := t.creating - 1, detaching := t.detaching + 1, execs := t.execs ++ [.born] }) else none
  | .startDetach =>
      if 0 < t.detaching then touch t (.ok { t with detaching := t.detaching - 1, detached := true }) else none
  | .cancel => if 0 < t.userRefs then touch t (.ok (cancel t)) else none
  | .cancelLock => if 0 < t.cancelling then touch t (.ok (cancelLock t)) else none
  | .exec i => (t.execs[i]?).bind (exec t i)
  | .exit i => (t.execs[i]?).bind exit

/-- DKThreadGetState (DKThread.c 579-591). -/
def getState (t : Thr) : TState := t.state

/-- What DKThreadJoin (DKThread.c 502-527) can do: report an error (513), wait or return in pthread_join, or call pthread_join with a thread id that is not
    set yet or that belongs to a detached thread, which has no defined meaning (POSIX). -/
inductive Join where
  | error
  | waits
  | returns
  | undefined
deriving DecidableEq, Repr

/-- DKThreadJoin (DKThread.c 502-527). -/
def join (t : Thr) : Join :=
  if t.state = .created then .error
  else if t.detached then .undefined
  else match t.execs.getLast? with
    | none => .undefined
    | some .gone => .returns
    | some _ => .waits

/-- The states that can come about. -/
inductive Reach : Thr → Prop
  | init : Reach init
  | step {t a t'} : Reach t → act t a = some (.ok t') → Reach t'

end Thr
end Duck
