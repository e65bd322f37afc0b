import Verif.Model.DictOwn
import Verif.Spec.Property
import Verif.Spec.HashTable
/-! What the ownership statements are about: the references a table holds, callers that follow the ownership rules, and the
    histories of their calls. -/
namespace Duck
namespace DictOwn
open HTable Property

/-- The references the rows of a table hold: each key and each object. -/
def refs (rows : List (Row Key (Option Id))) : List Id := (entries rows).flatMap fun e => e.1.1 :: e.2.toList

/-- The references all tables hold. -/
def inTables (s : State) : List Id := s.tables.flatMap fun t => match t with | some t => refs t.rows | none => []

/-- An object the caller may use: it owns a reference, or the object is in a table. -/
def Usable (s : State) (i : Id) : Prop := i ∈ s.client ∨ i ∈ inTables s

/-- The table exists and was not deallocated. -/
def Exists (s : State) (d : Nat) : Prop := ∃ t, s.tables[d]? = some (some t)

/-- The ownership rules: use only usable objects and tables that exist; release only what you own. -/
def Legal (s : State) : Op → Prop
  | .alloc _ _ fs => ∀ i ∈ fs, Usable s i
  | .retain i => Usable s i
  | .release i => i ∈ s.client
  | .new => True
  | .insert d k obj _ => Exists s d ∧ Usable s k ∧ ∀ x, obj = some x → Usable s x
  | .add d x _ => Exists s d ∧ Usable s x
  | .remove d k => Exists s d ∧ Usable s k
  | .get d k => Exists s d ∧ Usable s k
  | .removeAll d => Exists s d
  | .copy d => Exists s d
  | .dispose d => Exists s d

/-- A history of calls that follow the rules. -/
inductive Run (hash : Nat × Nat → Nat) (eqv : Nat × Nat → Nat × Nat → Bool) (Γ : Classes) : State → List Op → State → Prop
  | nil (s : State) : Run hash eqv Γ s [] s
  | cons {s s1 s2 : State} {op : Op} {ops : List Op} {r : Option Id} : Legal s op → step hash eqv Γ s op = .ok (s1, r) →
      Run hash eqv Γ s1 ops s2 → Run hash eqv Γ s (op :: ops) s2

/-- Nothing allocated. -/
def start : State := ⟨[], [], []⟩

/-- The states a program can be in. -/
def Reachable (hash : Nat × Nat → Nat) (eqv : Nat × Nat → Nat × Nat → Bool) (Γ : Classes) (s : State) : Prop :=
  ∃ ops, Run hash eqv Γ start ops s

/-- The contents of an object, as DKEqual sees it. -/
def valueOf (s : State) (i : Id) : Nat × Nat := match live s.heap i with | some o => (o.cls, o.value) | none => (0, 0)

/-- The map a table stands for: contents of keys with their objects. -/
def contents (s : State) (d : Nat) : List ((Nat × Nat) × Option Id) :=
  match s.tables[d]? with
  | some (some t) => (entries t.rows).map fun e => (e.1.2, e.2)
  | _ => []

/-- What a call should do to the map of table `d`. -/
def specCall (eqv : Nat × Nat → Nat × Nat → Bool) (s : State) (d : Nat) (m : List ((Nat × Nat) × Option Id)) : Op → List ((Nat × Nat) × Option Id)
  | .insert d' k obj p => if d' = d then (specInsert eqv m (valueOf s k) obj p).1 else m
  | .add d' x p => if d' = d then (specInsert eqv m (valueOf s x) (some x) p).1 else m
  | .remove d' k => if d' = d then specRemove eqv m (valueOf s k) else m
  | .removeAll d' => if d' = d then [] else m
  | .dispose d' => if d' = d then [] else m
  | _ => m

/-- The table a call works on. -/
def target : Op → Option Nat
  | .insert d _ _ _ | .add d _ _ | .remove d _ | .get d _ => some d
  | _ => none

end DictOwn
end Duck
