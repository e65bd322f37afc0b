import Verif.Model.Copying
import Verif.Spec.Property
/-! C102: what a program may do with objects and their copies, and what it can see of them. -/
namespace Duck
namespace Copying
open Property (Id Obj Heap Slot live held)

/-- An item of a list. -/
def item : Slot → Option Id
  | .strong x => some x
  | _ => none

/-- All that can be seen of an object: what it is, its bytes and its items. -/
structure Contents where
  kind : Kind
  bytes : List UInt8
  items : List (Option Id)
deriving DecidableEq

def contents (s : State) (i : Id) : Option Contents :=
  (live s.heap i).map fun o => ⟨kind o.cls, s.bytes i, o.fields.map item⟩

/-- The object exists and is an instance of a mutable class. -/
def Mutable (s : State) (i : Id) : Prop := ∃ o, live s.heap i = some o ∧ isMutable o.cls = true

/-- An object that exists. -/
def Exists (s : State) (i : Id) : Prop := ∃ o, live s.heap i = some o

/-- An object the caller may use: they own a reference or it is in a list that exists. -/
def Usable (s : State) (i : Id) : Prop := i ∈ s.client ∨ i ∈ held s.heap

/-- The ownership rules: use only usable objects; release only what you own. -/
def Legal (s : State) : Op → Prop
  | .new _ _ items => ∀ x, some x ∈ items → Usable s x
  | .retain i => Usable s i
  | .release i => i ∈ s.client
  | .copy i => Usable s i
  | .mutableCopy i => Usable s i
  | .setBytes i _ => Usable s i
  | .change i _ _ objects => i ∈ s.client ∧ ∀ x, some x ∈ objects → Usable s x

/-- A history of calls that follow the rules. -/
inductive Run : State → List Op → State → Prop
  | nil (s : State) : Run s [] s
  | cons {s s1 s2 : State} {op : Op} {ops : List Op} {r : Option Id} : Legal s op → step s op = some (s1, r) → Run s1 ops s2 → Run s (op :: ops) s2

/-- Nothing allocated. -/
def start : State := ⟨[], fun _ => [], []⟩

/-- The states a program can be in. -/
def Reachable (s : State) : Prop := ∃ ops, Run start ops s

/-- The object a call changes. -/
def changes : Op → Option Id
  | .setBytes i _ => some i
  | .change i _ _ _ => some i
  | _ => none

end Copying
end Duck
