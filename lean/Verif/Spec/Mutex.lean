import Verif.Model.Mutex
/-! What C128 talks about. -/
namespace Duck
namespace Mutex

/-- How often thread `t` has been given the mutex -/
def entries (l : List Log) (t : Nat) : Nat := l.count (.entered t)

/-- How often it has given it back -/
def exits (l : List Log) (t : Nat) : Nat := l.count (.left t)

/-- Thread `t` is inside: it has been given the mutex more often than it has given it back -/
def Inside (l : List Log) (t : Nat) : Prop := exits l t < entries l t

instance (l : List Log) (t : Nat) : Decidable (Inside l t) := inferInstanceAs (Decidable (_ < _))

/-- The system at the start: `n` threads, of which those with `setter t` are setters and the others waiters -/
def initial (n : Nat) (setter : Nat → Bool) : Sys :=
  ⟨init, false, fun t => if t < n then (if setter t then .setLock else .start) else .done⟩

/-- The number of steps of threads in an execution -/
def steps : List Choice → Nat
  | [] => 0
  | .thread _ :: cs => steps cs + 1
  | .wakeUp _ :: cs => steps cs

end Mutex
end Duck
