/-!
# Model of accessors that call each other (DKRuntime.h 214-259, DKPlatform.h 714-733)

As `SharedInit`, with every accessor of a set `A` and what creating their objects calls: `needs x` are the accessors that `_Create` of `x` calls, in order.  Any number of threads
call any accessors.  Memory is sequentially consistent.  What else `_Create` does is not modelled; it takes no other lock while it calls an accessor, and never gives NULL.
-/
namespace Duck
namespace Nested
variable {A : Type} [DecidableEq A]

/-- Where a call of an accessor is. -/
inductive Pc (A : Type) where
  /-- 222 -/
  | test
  /-- 225: spins until it has the lock -/
  | lock
  /-- 227 -/
  | retest
  /-- 228: in `_Create`, which has yet to call these accessors -/
  | create (rest : List A)
  /-- 228: the pointer is about to be stored -/
  | store
  /-- 230 -/
  | unlock
  /-- 223 or 232 -/
  | read
deriving DecidableEq, Repr

/-- A call of an accessor. -/
structure Frame (A : Type) where
  acc : A
  pc : Pc A
deriving DecidableEq, Repr

/-- A thread: the calls it is in, innermost first, the accessors it has yet to call, and what the calls so far have returned (`none` for NULL). -/
structure Thread (A : Type) where
  stack : List (Frame A)
  todo : List A
  results : List (A × Option Nat)
deriving DecidableEq, Repr

/-- The static variables of the accessors (DKRuntime.h 216-217), how often `_Create` has begun, and the threads.  `lock x` is the thread that has set the spin lock.  The object that
    the n-th creation makes is `n`. -/
structure State (A : Type) where
  shared : A → Option Nat
  lock : A → Option Nat
  made : A → Nat
  threads : List (Thread A)

/-- The static variables before the first call, with threads about to make calls. -/
def init (progs : List (List A)) : State A := ⟨fun _ => none, fun _ => none, fun _ => 0, progs.map fun p => ⟨[], p, []⟩⟩

/-- A variable of accessor `x` changes. -/
def upd {β : Type} (f : A → β) (x : A) (v : β) : A → β := fun y => if y = x then v else f y

/-- Thread `i` has another stack. -/
def goto (s : State A) (i : Nat) (t : Thread A) (stack : List (Frame A)) : State A := { s with threads := s.threads.set i { t with stack := stack } }

/-- An accessor returns `o`: to the client if it was not called by another accessor. -/
def ret (t : Thread A) (x : A) (o : Option Nat) (stack : List (Frame A)) : Thread A :=
  { t with stack := stack, results := if stack.isEmpty then t.results ++ [(x, o)] else t.results }

/-- One statement of the innermost call (DKRuntime.h 220-233) of thread `i`, at `pc` of accessor `x`; `none` while the lock is taken (DKPlatform.h 722). -/
def frameStep (needs : A → List A) (s : State A) (i : Nat) (t : Thread A) (x : A) (below : List (Frame A)) : Pc A → Option (State A)
  | .test => some (goto s i t (⟨x, if s.shared x ≠ none then .read else .lock⟩ :: below))
  | .lock => if s.lock x = none then some (goto { s with lock := upd s.lock x (some i) } i t (⟨x, .retest⟩ :: below)) else none
  | .retest =>
      if s.shared x = none then some (goto { s with made := upd s.made x (s.made x + 1) } i t (⟨x, .create (needs x)⟩ :: below))
      else some (goto s i t (⟨x, .unlock⟩ :: below))
  | .create (y :: ys) => some (goto s i t (⟨y, .test⟩ :: ⟨x, .create ys⟩ :: below))
  | .create [] => some (goto s i t (⟨x, .store⟩ :: below))
  | .store => some (goto { s with shared := upd s.shared x (some (s.made x)) } i t (⟨x, .unlock⟩ :: below))
  | .unlock => some (goto { s with lock := upd s.lock x none } i t (⟨x, .read⟩ :: below))
  | .read => some { s with threads := s.threads.set i (ret t x (s.shared x) below) }

/-- One statement of a thread; `none` if it waits, or has made all its calls. -/
def threadStep (needs : A → List A) (s : State A) (i : Nat) (t : Thread A) : Option (State A) :=
  match t.stack with
  | f :: below => frameStep needs s i t f.acc below f.pc
  | [] => match t.todo with
    | x :: xs => some { s with threads := s.threads.set i { t with stack := [⟨x, .test⟩], todo := xs } }
    | [] => none

/-- One statement of thread `i`. -/
def step (needs : A → List A) (s : State A) (i : Nat) : Option (State A) := (s.threads[i]?).bind (threadStep needs s i)

/-- An execution: the threads that make a step, one after the other. -/
def run (needs : A → List A) (s : State A) : List Nat → Option (State A)
  | [] => some s
  | i :: is => (step needs s i).bind fun s => run needs s is

end Nested
end Duck
