import Verif.Model.Observe
import Verif.Spec.ValueProp
/-! What observers and custom getters and setters are for. -/
namespace Duck
namespace Observe
open ValueProp (Name Val Kind Definition Obj Call)
open Number (Mem Enc)

/-- Set a property in one of the ways of C82. -/
def run (C : Class) (name : Name) (s : St) : Call → Option St
  | .object x => setObject C name x s
  | .number src enc => setNumber C name src enc s
  | .struct sem src => setStruct C name sem src s
  | .bool b => setBool C name b s

/-- The definitions alone, as in C82. -/
def plain (C : Class) : List Definition := C.table.map (·.d)

/-- What an observer does to the object; nothing if there is none. -/
def effect (f : Option (Obj → Obj)) (o : Obj) : Obj := f.getD id o

/-- The call of an observer, if there is one. -/
def told (f : Option (Obj → Obj)) (e : Event) : List Event := f.toList.map fun _ => e

/-- The value a call sets, as an object. -/
def boxed : Call → Val
  | .object x => x
  | .number src enc => .num ⟨enc, src⟩
  | .struct sem src => ValueProp.newStruct sem src
  | .bool b => ValueProp.boolean b

/-- What C95 says of a write: nothing is told and nothing changes, of any object; or willWrite is told, the property is written as
    without observers, then didWrite is told. -/
def WritesOnce (C : Class) (p : Property) (name : Name) (c : Call) (s : St) : Prop :=
  ((∀ o, c.run (plain C) o name = some o) ∧ run C name s c = some s) ∨
  run C name s c = (c.run (plain C) (effect p.hooks.willWrite s.obj) name).map fun o =>
    ⟨effect p.hooks.didWrite o, s.log ++ told p.hooks.willWrite .willWrite ++ told p.hooks.didWrite .didWrite⟩

/-- What C95 says of a read: nothing is told and nothing changes, and the value does not depend on the object; or willRead is told,
    the property is read as without observers, then didRead is told. -/
def ReadsOnce {α : Type} (p : Property) (s : St) (without : Obj → Option α) (r : Option (α × St)) : Prop :=
  (∃ a, (∀ o, without o = some a) ∧ r = some (a, s)) ∨
  r = (without (effect p.hooks.willRead s.obj)).map fun a =>
    (a, ⟨effect p.hooks.didRead (effect p.hooks.willRead s.obj), s.log ++ told p.hooks.willRead .willRead ++ told p.hooks.didRead .didRead⟩)

end Observe
end Duck
