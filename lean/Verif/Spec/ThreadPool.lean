import Verif.Model.ThreadPool

/-! What the properties of thread pools (C49, C50, C68, C69) speak about: the sequence of events. -/
namespace Duck
namespace Pool

/-- The tasks added, in order. -/
def added (l : List Event) : List Task := l.filterMap fun | .added t => some t | _ => none

/-- The tasks started, in order. -/
def started (l : List Event) : List Task := l.filterMap fun | .started t => some t | _ => none

/-- The tasks that have returned, in order. -/
def finished (l : List Event) : List Task := l.filterMap fun | .finished t => some t | _ => none

/-- The tasks (or completions) of group `g`. -/
def ofGroup (k : Kind) (g : Nat) (l : List Task) : List Task := l.filter fun t => t.kind = k ∧ t.owner = g

/-- A step of a worker or the delivery of a signal, as opposed to a new call by the user of the pool or a spurious wakeup. -/
def Action.internal : Action → Bool
  | .signal _ | .signalNobody | .begin _ | .acquire _ | .check _ | .next _ | .finish _ | .exit _ => true
  | .stopCancel | .stopSignal | .stopEnd => true
  | _ => false

/-- A sequence of steps. -/
inductive Steps : Pool → List Action → Pool → Prop
  | nil {p} : Steps p [] p
  | cons {p a p' as p''} : act p a = some (.ok p') → Steps p' as p'' → Steps p (a :: as) p''

/-- Nothing happens any more unless the pool is used again. -/
def Quiet (p : Pool) : Prop := ∀ a, a.internal = true → act p a = none

/-- Calls DKThreadPoolRemoveAllTasks nowhere. -/
def NoRemove (p : Pool) : Prop := Event.removed ∉ p.log

end Pool
end Duck
