/-! Model of thread contexts (Source/DKThread.c 65-240, 324-356, 415-461; Source/DKRuntime+RefCount.c 302-347) on POSIX: the
    thread object, the dictionary and the autorelease pools of each thread.
    The contexts are in memory, named by their addresses; the key of thread local storage holds an address or NULL for each
    thread of the operating system.  Calls of different threads touch different contexts, so a history is a sequence of calls,
    in any interleaving.  `none` is undefined behaviour (no context, or one that is freed) or an abort.
    Simplified: keys and objects are numbers; releasing a reference is an event, and `uses` tells whether it runs code that
    needs the thread's context (a finalizer that autoreleases, reads a property, asks for the current thread); what that code
    does is left out.  The limit on nested pools is left out (Model/Autorelease.lean has it). -/
namespace Duck
namespace ThreadCtx

/-- struct DKThreadContext (DKThread.h 109-123); `low` holds lowWater[top] .. lowWater[0]. -/
structure Context where
  thread : Option Nat
  dict : Option (List (Nat × Nat))
  pool : List Nat
  low : List Nat

/-- What happens to the references of dictionaries, contexts and pools. -/
inductive Event where
  | retained (v : Nat)
  | released (v : Nat)
  | threadReleased (o : Nat)
  | poolReleased (v : Nat)
deriving DecidableEq

/-- `ctxs` are the contexts by address, `none` when freed; `cur` is the key; `threads` counts the thread objects made. -/
structure State where
  ctxs : List (Option Context)
  cur : Nat → Option Nat
  threads : Nat
  log : List Event

/-- Calls made by a thread. -/
inductive Call where
  /-- a thread begins in DKThreadExec -/
  | begin
  /-- the procedure has returned, DKThreadExec ends -/
  | finish
  /-- DKSetCurrentThreadContext( DKAllocThreadContext() ) in a thread not made by Duck -/
  | attach
  /-- DKFreeThreadContext of the context, after DKSetCurrentThreadContext( NULL ) -/
  | detach
  /-- DKFreeThreadContext( DKGetCurrentThreadContext() ) -/
  | free
  /-- the thread of the operating system ends -/
  | exit
  /-- DKThreadGetCurrentThread -/
  | current
  /-- DKThreadGetMainThread -/
  | main
  /-- DKDictionarySetObject in DKGetCurrentThreadDictionary -/
  | put (k v : Nat)
  /-- DKDictionaryGetObject in DKGetCurrentThreadDictionary -/
  | get (k : Nat)
  | autorelease (v : Nat)
  | push
  | pop

inductive Out where
  | unit
  | thread (o : Nat)
  | value (v : Option Nat)
deriving DecidableEq

/-- DKThreadContextInit (68-86). -/
def Context.init : Context := ⟨none, none, [], []⟩

/-- The context at an address, if it is there. -/
def load (s : State) (a : Nat) : Option Context := (s.ctxs[a]?).join

/-- The context of a thread with its address: DKGetCurrentThreadContext (173-186), used. -/
def here (s : State) (t : Nat) : Option (Nat × Context) := (s.cur t).bind fun a => (load s a).map fun c => (a, c)

def setCur (s : State) (t : Nat) (a : Option Nat) : State := { s with cur := fun u => if u = t then a else s.cur u }

def store (s : State) (a : Nat) (c : Option Context) : State := { s with ctxs := s.ctxs.set a c }

/-- A new context, and its address. -/
def alloc (s : State) (c : Context) : State := { s with ctxs := s.ctxs ++ [some c] }

/-- The objects of the dictionary. -/
def Context.values (c : Context) : List Nat := (c.dict.getD []).map (·.2)

/-- DKThreadContextFinalize (91-99), and the memory is gone: the thread object and the dictionary are released.  What is left in
    the pool is not. -/
def finalize (uses : Nat → Bool) (s : State) (t a : Nat) (c : Context) : Option State :=
  if c.values.any uses && (here s t).isNone then none
  else if c.low = [] then
    some { store s a none with
      log := s.log ++ c.thread.toList.map .threadReleased ++ c.values.map .released }
  else none

/-- DKFreeThreadContext (117-126). -/
def freeContext (uses : Nat → Bool) (s : State) (t a : Nat) : Option State := (load s a).bind fun c => finalize uses s t a c

/-- DKPushAutoreleasePool (DKRuntime+RefCount.c 302-312). -/
def Context.push (c : Context) : Context := { c with low := c.pool.length :: c.low }

/-- DKPopAutoreleasePool (318-326). -/
def pop (s : State) (a : Nat) (c : Context) : Option State :=
  match c.low with
  | [] => none
  | m :: low => some { store s a (some { c with pool := c.pool.take m, low := low }) with
      log := s.log ++ (c.pool.drop m).map .poolReleased }

/-- Insert into a dictionary, replacing the object for the key. -/
def insert (d : List (Nat × Nat)) (k v : Nat) : List (Nat × Nat) := (k, v) :: d.filter fun p => p.1 != k

def lookup (d : List (Nat × Nat)) (k : Nat) : Option Nat := (d.find? fun p => p.1 == k).map (·.2)

/-- DKGetCurrentThreadDictionary (228-236) and DKDictionarySetObject. -/
def put (s : State) (a : Nat) (c : Context) (k v : Nat) : State :=
  let d := c.dict.getD []
  { store s a (some { c with dict := some (insert d k v) }) with
    log := s.log ++ [.retained v] ++ (d.filter fun p => p.1 == k).map fun p => .released p.2 }

/-- DKThreadGetCurrentThread (324-341). -/
def current (s : State) (a : Nat) (c : Context) : State × Nat :=
  match c.thread with
  | some o => (s, o)
  | none => ({ store s a (some { c with thread := some s.threads }) with threads := s.threads + 1 }, s.threads)

/-- DKThreadGetMainThread (347-356): an abort when the object is not there. -/
def main (s : State) : Option Nat := (load s 0).bind fun c => c.thread

/-- The first part of DKThreadExec (415-437), for a new DKThread object. -/
def begin (s : State) (t : Nat) : State :=
  let s' := alloc s { Context.init.push with thread := some s.threads }
  { setCur s' t (some s.ctxs.length) with threads := s.threads + 1 }

/-- The last part of DKThreadExec (445-452). -/
def finish (uses : Nat → Bool) (s : State) (t : Nat) : Option State :=
  (here s t).bind fun r => (pop s r.1 r.2).bind fun s1 => (load s1 r.1).bind fun c => finalize uses (setCur s1 t none) t r.1 c

/-- The end of a thread: POSIX clears the key, then calls DKThreadContextDestructor (132-139) if it was not NULL. -/
def exit (uses : Nat → Bool) (s : State) (t : Nat) : Option State :=
  match s.cur t with
  | none => some s
  | some a => freeContext uses (setCur s t none) t a

/-- One call. -/
def step (uses : Nat → Bool) (s : State) (t : Nat) : Call → Option (State × Out)
  | .begin => some (begin s t, .unit)
  | .finish => (finish uses s t).map fun s => (s, .unit)
  | .attach => some (setCur (alloc s Context.init) t (some s.ctxs.length), .unit)
  | .detach => (s.cur t).bind fun a => (freeContext uses (setCur s t none) t a).map fun s => (s, .unit)
  | .free => (s.cur t).bind fun a => (freeContext uses s t a).map fun s => (s, .unit)
  | .exit => (exit uses s t).map fun s => (s, .unit)
  | .current => (here s t).map fun r => let q := current s r.1 r.2; (q.1, .thread q.2)
  | .main => (main s).map fun o => (s, .thread o)
  | .put k v => (here s t).map fun r => (put s r.1 r.2 k v, .unit)
  | .get k => (here s t).map fun r => (store s r.1 (some { r.2 with dict := some (r.2.dict.getD []) }), .value (lookup (r.2.dict.getD []) k))
  | .autorelease v => (here s t).map fun r => (store s r.1 (some { r.2 with pool := r.2.pool ++ [v] }), .unit)
  | .push => (here s t).map fun r => (store s r.1 (some r.2.push), .unit)
  | .pop => (here s t).bind fun r => (pop s r.1 r.2).map fun s => (s, .unit)

/-- A history. -/
def run (uses : Nat → Bool) : State → List (Nat × Call) → Option (State × List Out)
  | s, [] => some (s, [])
  | s, (t, c) :: h => (step uses s t c).bind fun r => (run uses r.1 h).map fun q => (q.1, r.2 :: q.2)

/-- After DKRuntimeInit (DKMainThreadContextInit, 196-211; DKRuntime.c 375, 421): thread 0 is the main thread. -/
def init : State := ⟨[some { Context.init with thread := some 0 }], fun t => if t = 0 then some 0 else none, 1, []⟩

end ThreadCtx
end Duck
