/-!
# Model of semaphores (DKSemaphore.c)

A semaphore, the calls that change its counter and any number of callers in DKSemaphoreWait.  What is done with the mutex held is one step;
pthread_cond_broadcast comes after the mutex is released and is a step of its own.  Threads can wake up without reason.  The Windows version is the same.
-/

namespace Duck
namespace Sem

/-- Where a caller of DKSemaphoreWait is (DKSemaphore.c 169-191). -/
inductive Pc where
  /-- before it tests the counter for the first time -/
  | entering
  /-- in pthread_cond_wait -/
  | asleep
  /-- woken up, but without the mutex -/
  | awake
  | returned
deriving DecidableEq, Repr

structure Waiter where
  value : BitVec 32
  pc : Pc
deriving DecidableEq, Repr

/-- What happened, for stating properties. -/
inductive Event where
  | increment (value : BitVec 32)
  | decrement (value : BitVec 32)
  | returned (value : BitVec 32)
deriving DecidableEq, Repr

/-- struct DKSemaphore (DKSemaphore.c 37-50); `counter` is int32_t.  `broadcasts` counts the calls of pthread_cond_broadcast about to be made. -/
structure Sem where
  counter : BitVec 32
  broadcasts : Nat
  waiters : List Waiter
  log : List Event
deriving DecidableEq, Repr

/-- DKSemaphoreInit (DKSemaphore.c 69-85); objects are allocated with all bytes zero. -/
def init : Sem := ⟨0, 0, [], []⟩

inductive Action where
  | increment (value : BitVec 32)
  | decrement (value : BitVec 32)
  | broadcast
  /-- DKSemaphoreWait is called -/
  | wait (value : BitVec 32)
  /-- caller `i` tests the counter -/
  | check (i : Nat)
  | spurious (i : Nat)
deriving DecidableEq, Repr

inductive Res where
  | ok (s : Sem)
  /-- DKRequire failed: the program is aborted -/
  | abort
deriving DecidableEq, Repr

/-- DKSemaphoreIncrement (DKSemaphore.c 107-118): int32_t plus uint32_t is computed as uint32_t. -/
def increment (s : Sem) (v : BitVec 32) : Sem :=
  { s with counter := s.counter + v, broadcasts := s.broadcasts + 1, log := s.log ++ [.increment v] }

/-- DKSemaphoreDecrement (DKSemaphore.c 137-149): the comparison is signed. -/
def decrement (s : Sem) (v : BitVec 32) : Res :=
  if s.counter.toInt ≥ v.toInt then
    .ok { s with counter := s.counter - v, broadcasts := s.broadcasts + 1, log := s.log ++ [.decrement v] }
  else .abort

/-- pthread_cond_broadcast (DKSemaphore.c 120, 151). -/
def wake (w : Waiter) : Waiter := if w.pc = .asleep then { w with pc := .awake } else w

/-- The loop condition (DKSemaphore.c 176-181) with the mutex held. -/
def check (s : Sem) (i : Nat) (w : Waiter) : Sem :=
  if s.counter = w.value then { s with waiters := s.waiters.set i { w with pc := .returned }, log := s.log ++ [.returned w.value] }
  else { s with waiters := s.waiters.set i { w with pc := .asleep } }

/-- One step; `none` if it cannot be taken. -/
def act (s : Sem) : Action → Option Res
  | .increment v => some (.ok (increment s v))
  | .decrement v => some (decrement s v)
  | .broadcast => if 0 < s.broadcasts then some (.ok { s with broadcasts := s.broadcasts - 1, waiters := s.waiters.map wake }) else none
  | .wait v => some (.ok { s with waiters := s.waiters ++ [⟨v, .entering⟩] })
  | .check i => (s.waiters[i]?).bind fun w => if w.pc = .entering ∨ w.pc = .awake then some (.ok (check s i w)) else none
  | .spurious i => (s.waiters[i]?).bind fun w => if w.pc = .asleep then some (.ok { s with waiters := s.waiters.set i (wake w) }) else none

/-- The states that can come about. -/
inductive Reach : Sem → Prop
  | init : Reach init
  | step {s a s'} : Reach s → act s a = some (.ok s') → Reach s'

end Sem
end Duck
