import Verif.Model.Thread

/-! # Specification of threads -/

namespace Duck
namespace Thr

/-- A series of steps. -/
inductive Run : Thr → List Action → Thr → Prop
  | nil (t) : Run t [] t
  | cons {t a t' as t''} : act t a = some (.ok t') → Run t' as t'' → Run t (a :: as) t''

/-- The order of the states in a thread's life. -/
def TState.rank : TState → Nat
  | .created => 0
  | .started => 1
  | .running => 2
  | .cancelled => 3
  | .finished => 4

/-- What DKThreadStart still has to do and what the new thread does; it waits for nobody. -/
def Action.internal : Action → Bool
  | .startRetain | .startCreate | .startDetach | .exec _ => true
  | _ => false

/-- No such step can be taken. -/
def Quiet (t : Thr) : Prop := ∀ a : Action, a.internal → act t a = none

end Thr
end Duck
