import Verif.Model.ClassLife

/-
Specification of the lifetimes of classes: what the client owns, computed from the history of its calls alone, and which classes
are needed.
-/

namespace Duck
namespace ClassLife

/-- What the client knows: how many classes and objects were made, of which superclass and class, whether the class counts the
    references to its instances, and how many references to each the client owns. -/
structure Ledger where
  nc : Nat
  no : Nat
  super : Nat → Option Nat
  counted : Nat → Bool
  isa : Nat → Nat
  ownC : Nat → Nat
  ownO : Nat → Nat

def upd {α : Type} (f : Nat → α) (i : Nat) (a : α) : Nat → α := fun j => if j = i then a else f j

def Ledger.empty : Ledger := ⟨0, 0, fun _ => none, fun _ => false, fun _ => 0, fun _ => 0, fun _ => 0⟩

/-- Making, or retaining, gives the client one reference; releasing takes one. -/
def Ledger.step (l : Ledger) : Op → Ledger
  | .newClass p counted _ =>
      { l with nc := l.nc + 1, super := upd l.super l.nc p, counted := upd l.counted l.nc counted, ownC := upd l.ownC l.nc 1 }
  | .retainClass c => { l with ownC := upd l.ownC c (l.ownC c + 1) }
  | .releaseClass c => { l with ownC := upd l.ownC c (l.ownC c - 1) }
  | .alloc c => { l with no := l.no + 1, isa := upd l.isa l.no c, ownO := upd l.ownO l.no 1 }
  | .retain o => { l with ownO := upd l.ownO o (l.ownO o + 1) }
  | .release o => { l with ownO := upd l.ownO o (l.ownO o - 1) }
  | .finalize _ => l

/-- A class is needed when the client owns a reference to it, when an instance of it is still there, or when a subclass of it is
    needed. -/
inductive Needed (l : Ledger) (there : Nat → Prop) : Nat → Prop
  | own (c : Nat) : 0 < l.ownC c → Needed l there c
  | inst (o : Nat) : o < l.no → there o → Needed l there (l.isa o)
  | sub (d c : Nat) : Needed l there d → l.super d = some c → Needed l there c

/-- The state of an object, and whether a class was not yet deallocated. -/
def State.obj (s : State) (o : Nat) : Option St := s.objects[o]?.map (·.st)

def State.there (s : State) (o : Nat) : Prop := ∃ t, s.obj o = some t ∧ t ≠ .gone

def State.alive (s : State) (c : Nat) : Prop := ∃ k, s.classes[c]? = some k ∧ k.refs ≠ 0

/-- The rules for the client: it makes subclasses and instances of, and retains, only classes that are needed; it releases a class,
    and retains or releases an object, only when it owns a reference to it; and finalizers are called only for objects that are
    being finalized. -/
def Legal (l : Ledger) (s : State) : Op → Prop
  | .newClass none _ _ => True
  | .newClass (some p) _ _ => Needed l s.there p
  | .retainClass c => Needed l s.there c
  | .releaseClass c => 0 < l.ownC c
  | .alloc c => Needed l s.there c
  | .retain o => 0 < l.ownO o
  | .release o => 0 < l.ownO o
  | .finalize o => ∃ n, s.obj o = some (.dying n)

/-- A legal history, with what the client owns and the state at its end. -/
inductive History (zombies : Bool) : List Op → Ledger → State → Prop
  | start : History zombies [] .empty start
  | more (ops : List Op) (l : Ledger) (s : State) (op : Op) (s' : State) :
      History zombies ops l s → Legal l s op → step zombies s op = some s' → History zombies (ops ++ [op]) (l.step op) s'

/-- The class and its superclasses, the most derived first. -/
inductive Chain (super : Nat → Option Nat) : Option Nat → List Nat → Prop
  | nil : Chain super none []
  | cons (c : Nat) (cs : List Nat) : Chain super (super c) cs → Chain super (some c) (c :: cs)

/-- The finalizers called for an object, in order. -/
def State.callsOf (s : State) (o : Nat) : List Nat := (s.calls.filter (·.1 = o)).map (·.2)

end ClassLife
end Duck
