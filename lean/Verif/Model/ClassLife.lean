/-
Model of the lifetimes of classes and of their instances: DKNewClass, DKClassFinalize, DKAllocObject, DKDeallocObject, DKFinalize,
DKDealloc (DKRuntime.c) with DKRetain and DKRelease (DKRuntime+RefCount.c).

Classes and objects are numbered in the order of their creation.  A reference count of 0 means that the class was deallocated: a
use of it is an access to freed memory, and the result is `none`.  The finalizers of an object are code of the client, so the loop
of DKFinalize is modelled one call at a time: any other calls, of this thread (made by the finalizer) or of others, may come
between two steps.

Simplified: the root classes, which are static and not counted, are the absent superclass; the names, interface tables and
properties of a class are left out (C20, C55, C88), and so are the weak references (C18).  The release of a class, and of its
superclasses with it, is one step.
-/

namespace Duck
namespace ClassLife

/-- DKClass (DKRuntime.h, struct DKClass): `counted` is false for a class with the option DKDisableReferenceCounting, `big` is
    `structSize >= sizeof(DKZombie)`. -/
structure Cls where
  super : Option Nat
  counted : Bool
  big : Bool
  refs : Nat
  deriving DecidableEq, Repr

/-- The class with another reference count. -/
def Cls.withRefs (k : Cls) (n : Nat) : Cls := { k with refs := n }

/-- What has become of an object: it has references, or the loop of DKFinalize is at the class `next` (NULL: at its end), or it was
    freed, or it is a zombie that still refers to its class (`zombie->wasa`). -/
inductive St where
  | live (refs : Nat) | dying (next : Option Nat) | gone | zombie
  deriving DecidableEq, Repr

/-- DKObject: the class and the reference count; `counted` is the absence of DKRefCountDisabledBit. -/
structure Obj where
  isa : Nat
  counted : Bool
  st : St
  deriving DecidableEq, Repr

/-- The classes and objects made so far; `calls` are the finalizers called (object, class), and `fins` the classes finalized, the
    most recent last. -/
structure State where
  classes : List Cls
  objects : List Obj
  calls : List (Nat × Nat)
  fins : List Nat
  deriving DecidableEq, Repr

def start : State := ⟨[], [], [], []⟩

/-- DKRetain (DKRuntime+RefCount.c 48-67) of a class. -/
def retainCls (cs : List Cls) (c : Nat) : Option (List Cls) :=
  cs[c]?.bind fun k => if k.refs = 0 then none else some (cs.set c (k.withRefs (k.refs + 1)))

/-- DKRelease (DKRuntime+RefCount.c 73-119) of a class, with DKClassFinalize (DKRuntime.c 476-501), which releases the superclass;
    the classes finalized. -/
def releaseCls : Nat → List Cls → Nat → Option (List Cls × List Nat)
  | 0, _, _ => none
  | f + 1, cs, c =>
    cs[c]?.bind fun k =>
      if k.refs = 0 then none
      else if k.refs = 1 then
        match k.super with
        | none => some (cs.set c (k.withRefs 0), [c])
        | some p => (releaseCls f (cs.set c (k.withRefs 0)) p).map fun r => (r.1, c :: r.2)
      else some (cs.set c (k.withRefs (k.refs - 1)), [])

/-- DKNewClass (DKRuntime.c 439-470): `cls->superclass = DKRetain( superclass )`. -/
def newClass (s : State) (super : Option Nat) (counted big : Bool) : Option State :=
  match super with
  | none => some { s with classes := s.classes ++ [⟨none, counted, big, 1⟩] }
  | some p => (retainCls s.classes p).map fun cs => { s with classes := cs ++ [⟨some p, counted, big, 1⟩] }

/-- DKAllocObject (DKRuntime.c 511-547). -/
def alloc (s : State) (c : Nat) : Option State :=
  s.classes[c]?.bind fun k =>
    (retainCls s.classes c).map fun cs => { s with classes := cs, objects := s.objects ++ [⟨c, k.counted, .live 1⟩] }

/-- DKRetain (DKRuntime+RefCount.c 48-67) of an object. -/
def retain (s : State) (o : Nat) : Option State :=
  s.objects[o]?.bind fun x =>
    match x.st with
    | .live n => if x.counted then some { s with objects := s.objects.set o { x with st := .live (n + 1) } } else some s
    | _ => none

/-- DKRelease (DKRuntime+RefCount.c 73-119) of an object; at zero DKFinalize (DKRuntime.c 678-690) begins with
    `cls = obj->isa`. -/
def release (s : State) (o : Nat) : Option State :=
  s.objects[o]?.bind fun x =>
    match x.st with
    | .live n =>
      if x.counted then
        some { s with objects := s.objects.set o { x with st := if n - 1 = 0 then .dying (some x.isa) else .live (n - 1) } }
      else some s
    | _ => none

/-- One iteration of the loop of DKFinalize (DKRuntime.c 684-688): calls the finalizer of the class and goes on to the superclass.
    After the loop DKDealloc (607-616), which reads the class, and DKDeallocObject (553-584). -/
def finalizeStep (zombies : Bool) (s : State) (o : Nat) : Option State :=
  s.objects[o]?.bind fun x =>
    match x.st with
    | .dying (some c) =>
      s.classes[c]?.bind fun k =>
        if k.refs = 0 then none
        else some { s with objects := s.objects.set o { x with st := .dying k.super }, calls := s.calls ++ [(o, c)] }
    | .dying none =>
      s.classes[x.isa]?.bind fun k =>
        if k.refs = 0 then none
        else if zombies && k.big then some { s with objects := s.objects.set o { x with st := .zombie } }
        else (releaseCls (s.classes.length + 1) s.classes x.isa).map fun r =>
          { s with classes := r.1, objects := s.objects.set o { x with st := .gone }, fins := s.fins ++ r.2 }
    | _ => none

/-- The calls of the client, and the steps of the finalization of an object. -/
inductive Op where
  | newClass (super : Option Nat) (counted big : Bool)
  | retainClass (c : Nat) | releaseClass (c : Nat)
  | alloc (c : Nat) | retain (o : Nat) | release (o : Nat)
  | finalize (o : Nat)
  deriving DecidableEq, Repr

def step (zombies : Bool) (s : State) : Op → Option State
  | .newClass p counted big => newClass s p counted big
  | .retainClass c => (retainCls s.classes c).map fun cs => { s with classes := cs }
  | .releaseClass c => (releaseCls (s.classes.length + 1) s.classes c).map fun r =>
      { s with classes := r.1, fins := s.fins ++ r.2 }
  | .alloc c => alloc s c
  | .retain o => retain s o
  | .release o => release s o
  | .finalize o => finalizeStep zombies s o

def runFrom (zombies : Bool) (s : State) : List Op → Option State
  | [] => some s
  | op :: ops => (step zombies s op).bind fun s' => runFrom zombies s' ops

def run (zombies : Bool) (ops : List Op) : Option State := runFrom zombies start ops

end ClassLife
end Duck
