import Verif.Model.Names
/-!
The classes of a program without any table: a list, in the order in which they were made.
-/
namespace Duck
namespace Names
open Enum

/-- The class `c` can be found under the name `n`. -/
def Cls.answers (n : Name) (c : Cls) : Bool := c.name == some n && c.phase != .gone

/-- What a call does and returns; `none` if it ends the program (a second class of the same name) or cannot be made. -/
def expected (cs : List Cls) : Op → Option (List Cls × Out)
  | .create none => some (cs ++ [⟨none, .live⟩], .class cs.length)
  | .create (some n) => if cs.any (·.answers n) then none else some (cs ++ [⟨some n, .live⟩], .class cs.length)
  | .drop i => (cs[i]?).bind fun c => if c.phase = .live then some (cs.set i ⟨c.name, .dying⟩, .done) else none
  | .finalize i => (cs[i]?).bind fun c => if c.phase = .dying then some (cs.set i ⟨c.name, .gone⟩, .done) else none
  | .find none => some (cs, .found none)
  | .find (some n) => some (cs, .found (cs.findIdx? (·.answers n)))

/-- A history. -/
def expectedRun (cs : List Cls) : List Op → Option (List Cls × List Out)
  | [] => some (cs, [])
  | op :: ops => (expected cs op).bind fun r => (expectedRun r.1 ops).map fun q => (q.1, r.2 :: q.2)

/-- The call takes a class without a name out of the database. -/
def Unnamed (cs : List Cls) (op : Op) : Prop := ∃ i ph, op = .finalize i ∧ cs[i]? = some ⟨none, ph⟩

/-- Creations of classes with a name. -/
def isNamed : Op → Bool
  | .create (some _) => true
  | _ => false

/-- How many classes with a name a history creates. -/
def creations (ops : List Op) : Nat := ops.countP isNamed

end Names
end Duck
