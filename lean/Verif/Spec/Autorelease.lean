import Verif.Model.Autorelease
/-! What is observed of autorelease pools, and which client programs respect the documented limits. -/
namespace Duck
namespace Arp

/-- How often `id` was autoreleased / released in a log, and how often it waits in a list of references. -/
def autos (id : Nat) (l : List Event) : Nat := l.count (.autoreleased id)
def rels (id : Nat) (l : List Event) : Nat := l.count (.released id)
def waiting (id : Nat) (q : List Ref) : Nat := q.countP fun r => r.id == id

/-- The program, run with `d` pools pushed, keeps to the stack: it never has more than 8 pools, never pops more than were
    pushed, and does not drain explicitly with 8 pools pushed.  `base` is `none` for a client's main program.
    A finalizer (`some b`) runs on top of somebody else's `b` pools: it leaves those alone and pops what it pushed. -/
def Fits (base : Option Nat) : Prog → Nat → Prop
  | .done, d => ∀ b, base = some b → d = b
  | .auto _ e k, d => Fits (some d) e d ∧ Fits base k d
  | .push k, d => d < stackSize ∧ Fits base k (d + 1)
  | .pop k, d => 0 < d ∧ d ≤ stackSize ∧ base ≠ some d ∧ Fits base k (d - 1)
  | .drain k, d => d < stackSize ∧ base ≠ some d ∧ Fits base k d

/-- A finalizer that uses no pools of its own: it may autorelease, and so may the finalizers this leads to. -/
def Flat : Prog → Prop
  | .done => True
  | .auto _ e k => Flat e ∧ Flat k
  | _ => False

/-- Every finalizer the program leads to is flat. -/
def FlatEffects : Prog → Prop
  | .done => True
  | .auto _ e k => Flat e ∧ FlatEffects k
  | .push k | .pop k | .drain k => FlatEffects k

/-- The number of autorelease calls the program leads to, those in finalizers included. -/
def Prog.autos : Prog → Nat
  | .done => 0
  | .auto _ e k => 1 + e.autos + k.autos
  | .push k | .pop k | .drain k => k.autos

/-- The pools are well formed: their starts are in order, and inside the array. -/
def Marks : List Nat → Nat → Prop
  | [], _ => True
  | m :: ms, n => m ≤ n ∧ Marks ms m

end Arp
end Duck
