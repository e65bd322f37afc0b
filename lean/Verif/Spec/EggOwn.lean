import Verif.Model.EggOwn
/-
What C113 speaks of: programs that use archivers and unarchivers as they should, and what they see.
-/
namespace Duck
namespace EggOwn

/-- A memory as it is before an archiver or unarchiver exists: a counted object has the owners it has in the program and at
    least one, there is no reference to free memory, and different objects have different serial numbers. -/
structure Sound (m : Mem) : Prop where
  owners : ∀ a s n, m.cell a = .counted s n → n = m.client a ∧ 0 < n
  free : ∀ a, m.cell a = .free → m.client a = 0
  older : ∀ a s, m.obj a = some s → s < m.next
  one : ∀ a b s, m.obj a = some s → m.obj b = some s → a = b

/-- The rest of the program makes objects in free memory, retains objects that exist, and releases only what it owns. -/
def Fair (m : Mem) : Own → Prop
  | .new a => m.cell a = .free
  | .keep a => m.cell a ≠ .free
  | .drop a => 0 < m.client a

/-! ## Archiver -/

/-- An event while there is an archiver: something the rest of the program does, or a call of one of the `DKEggAdd...` functions
    with an object -/
inductive AEvent
  | own (o : Own)
  | add (a : Addr)
deriving DecidableEq, Repr

/-- What the rest of the program may do; it adds only objects that exist. -/
def AFair (s : Arch) : AEvent → Prop
  | .own o => Fair s.mem o
  | .add a => s.mem.cell a ≠ .free

/-- The event happens: the new state, and for an object that was added its serial number and what AddObject returned -/
def astep (egg : Nat → Bool) (s : Arch) : AEvent → Option (Arch × List (Nat × Added))
  | .own o => (own s.mem o).map fun m => ({ s with mem := m }, [])
  | .add a => (s.mem.obj a).bind fun n => (addObject egg s a).map fun r => (r.1, [(n, r.2)])

/-- The states of an archiver, with the objects added and their indexes -/
inductive ARun (egg : Nat → Bool) : Arch → List (Nat × Added) → Prop
  | start (m : Mem) (rootless : Bool) : Sound m → ARun egg (newArch m rootless) []
  | step (s s' : Arch) (l l' : List (Nat × Added)) (e : AEvent) : ARun egg s l → AFair s e → astep egg s e = some (s', l') →
      ARun egg s' (l ++ l')

/-! ## Unarchiver -/

/-- An event while there is an unarchiver: something the rest of the program does; a request for the object with an index, with
    the address where an object is made if it has to be; the return of the innermost `initWithEgg` -/
inductive UEvent
  | own (o : Own)
  | get (i : Nat) (a : Addr)
  | done (r : Init)
deriving DecidableEq, Repr

/-- What the rest of the program may do: `initWithEgg` returns another object only if it owns it and hands it over, and the
    allocator gives free memory. -/
def UFair (s : Unarch) : UEvent → Prop
  | .own o => Fair s.mem o
  | .get _ a => s.mem.cell a = .free
  | .done (.other b) => s.running ≠ [] ∧ 0 < s.mem.client b
  | .done _ => s.running ≠ []

/-- The event happens. -/
def ustep (kind : Nat → Kind) (s : Unarch) : UEvent → Option (Unarch × Got)
  | .own o => (own s.mem o).map fun m => ({ s with mem := m }, .null)
  | .get i a => getObject kind s i a
  | .done r => finishInit s r

/-- The placeholders are objects that are not counted. -/
def Placeholders (kind : Nat → Kind) (m : Mem) : Prop := ∀ i p, kind i = .placeholder p → ∃ n, m.cell p = .static n

/-- The states of an unarchiver later than `s` -/
inductive ULater (kind : Nat → Kind) (s : Unarch) : Unarch → Prop
  | now : ULater kind s s
  | step (t t' : Unarch) (e : UEvent) (g : Got) : ULater kind s t → UFair t e → ustep kind t e = some (t', g) → ULater kind s t'

/-- The states of an unarchiver -/
inductive URun (kind : Nat → Kind) : Unarch → Prop
  | stream (m : Mem) (count : Nat) (t : Unarch) : Sound m → Placeholders kind m → ULater kind (newFromStream m count) t → URun kind t
  | data (m : Mem) (d : Addr) (count : Nat) (t : Unarch) : Sound m → Placeholders kind m → 0 < m.client d →
      ULater kind (newFromData m d count) t → URun kind t

end EggOwn
end Duck
