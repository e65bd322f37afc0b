import Verif.Model.GenericArray
/-!
Model of the autorelease pools, Source/DKRuntime+RefCount.c 239-347, for one thread (the pools are thread local).

A client program is a sequence of autorelease, push, pop and drain calls.  Releasing a reference may run code: a finalizer,
when it was the last one.  So an autoreleased reference carries the program its release will run.  `released` and
`autoreleased` events are recorded in `log`.

Simplified: the array of autoreleased objects (a DKGenericArray, modelled in Model/GenericArray.lean) is a list, the number
of cells allocated for it, and a number naming the allocation (it changes whenever ResizeArray allocates a new block and the
old one is freed); `low` holds lowWater[top] .. lowWater[0], so `top` is its length less one.  Loops and finalizers run on fuel.
-/
namespace Duck
namespace Arp

/-- A program.  `auto id e k`: autorelease the reference `id`, whose release will run `e`; then `k`. -/
inductive Prog where
  | done
  | auto (id : Nat) (e k : Prog)
  | push (k : Prog)
  | pop (k : Prog)
  | drain (k : Prog)
  deriving DecidableEq, Repr

/-- A reference in a pool. -/
structure Ref where
  id : Nat
  effect : Prog
  deriving DecidableEq, Repr

inductive Event where
  | autoreleased (id : Nat)
  | released (id : Nat)
  deriving DecidableEq, Repr

/-- struct DKThreadContext.arp (Source/DKThread.h): objects, top and lowWater. -/
structure State where
  objs : List Ref
  cap : Nat
  addr : Nat
  low : List Nat
  log : List Event
  deriving DecidableEq, Repr

/-- DKRequire failed (the process aborts); freed memory or memory outside the array was read; out of fuel; returned. -/
inductive Res where
  | abort | fault | spin
  | ok (s : State)
  deriving DecidableEq, Repr

/-- Sequencing. -/
def Res.bind : Res → (State → Res) → Res
  | .ok s, k => k s
  | .abort, _ => .abort
  | .fault, _ => .fault
  | .spin, _ => .spin

/-- DK_AUTORELEASE_POOL_STACK_SIZE, Source/DKConfig.h -/
def stackSize : Nat := 8

/-- DKAutorelease (332-347) of a counted object: append to the array, which moves when it is full (DKGenericArray.c 118-137). -/
def State.auto (s : State) (id : Nat) (e : Prog) : State :=
  { s with
    objs := s.objs ++ [⟨id, e⟩]
    cap := GArray.resizeLength s.cap (s.objs.length + 1)
    addr := if s.objs.length + 1 ≤ s.cap then s.addr else s.addr + 1
    log := s.log ++ [.autoreleased id] }

/-- The start of the innermost pool (248-256). -/
def State.loc (s : State) : Nat := s.low.headD 0

mutual

/-- A client program or finalizer: DKAutorelease (332), DKPushAutoreleasePool (302-312), DKPopAutoreleasePool (318-326),
    DKDrainAutoreleasePool (290-296). -/
def run : Nat → Prog → State → Res
  | 0, _, _ => .spin
  | _ + 1, .done, s => .ok s
  | n + 1, .auto id e k, s => run n k (s.auto id e)
  | n + 1, .push k, s => if s.low.length < stackSize then run n k { s with low := s.objs.length :: s.low } else .abort
  | n + 1, .pop k, s =>
      if 0 < s.low.length ∧ s.low.length ≤ stackSize then
        (drain n s).bind fun s => run n k { s with low := s.low.tail }
      else .abort
  | n + 1, .drain k, s => if s.low.length < stackSize then (drain n s).bind fun s => run n k s else .abort

/-- INTERNAL_DKDrainAutoreleasePool (239-288): the `while` loop. -/
def drain : Nat → State → Res
  | 0, _ => .spin
  | n + 1, s =>
      if s.loc < s.objs.length then
        (release n s s.loc 0 (s.objs.length - s.loc) s.addr s.objs.length).bind fun s' =>
          if s.loc + (s.objs.length - s.loc) ≤ s'.objs.length then
            drain n { s' with objs := s'.objs.take s.loc ++ s'.objs.drop (s.loc + (s.objs.length - s.loc)) }
          else .fault
      else .ok s

/-- The `for` loop (268-278): `addr` is the allocation `objects` points into, `alen` is `arrayLength`. -/
def release : Nat → State → (loc i len addr alen : Nat) → Res
  | 0, _, _, _, _, _, _ => .spin
  | n + 1, s, loc, i, len, addr, alen =>
      if i < len then
        if addr = s.addr then
          match s.objs[loc + i]? with
          | none => .fault
          | some r =>
              (run n r.effect { s with log := s.log ++ [.released r.id] }).bind fun s' =>
                if alen = s'.objs.length then release n s' loc (i + 1) len addr alen
                else release n s' loc (i + 1) len s'.addr s'.objs.length
        else .fault
      else .ok s

end

/-- The context of a new thread (DKThread.c 68-97). -/
def State.init : State := ⟨[], 0, 0, [], []⟩

end Arp
end Duck
