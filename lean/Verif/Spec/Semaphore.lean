import Verif.Model.Semaphore

/-! # Specification of semaphores -/

namespace Duck
namespace Sem

/-- What an event adds to the number that the counter should have. -/
def Event.amount : Event → Int
  | .increment v => v.toNat
  | .decrement v => -v.toNat
  | .returned _ => 0

/-- Increments minus decrements. -/
def total (log : List Event) : Int := (log.map Event.amount).sum

/-- The number that the event is about. -/
def Event.value : Event → Nat
  | .increment v | .decrement v | .returned v => v.toNat

/-- Every number used, and the counter at every moment, fits in 31 bits. -/
def Small (log : List Event) : Prop := (∀ e ∈ log, e.value < 2 ^ 31) ∧ ∀ l, l <+: log → total l < 2 ^ 31

/-- The steps of broadcasting and of woken callers. -/
def Action.internal : Action → Bool
  | .broadcast | .check _ => true
  | _ => false

/-- A series of such steps, with its length. -/
inductive Steps : Nat → Sem → Sem → Prop
  | nil (s) : Steps 0 s s
  | cons {n s a s' s''} : a.internal → act s a = some (.ok s') → Steps n s' s'' → Steps (n + 1) s s''

/-- No such step can be taken. -/
def Quiet (s : Sem) : Prop := ∀ a : Action, a.internal → act s a = none

end Sem
end Duck
