import Verif.Model.Dispatch
/-! C104: executions of any number of threads on the interface table of a class, and what is asked of them. -/
namespace Duck
namespace Dispatch

/-- One event: an idle thread makes a call, or a thread makes a step. -/
inductive Event (E : Env) : State → State → Prop
  | find {s t} (sel) : s.threads t = .idle → Event E s (callFind s t sel)
  | insert {s t i} : s.threads t = .idle → s.seen i = false → Event E s (callInsert s t i)
  | step {s s' t} : act E s t = .ok s' → Event E s s'

/-- The interface a thread is installing. -/
def Pc.installs : Pc → Option Nat
  | .install i => some i
  | .lockIn i => some i
  | .insert i => some i
  | _ => none

/-- All other threads are outside of the table. -/
def Alone (s : State) (t : Nat) : Prop := ∀ t', t' ≠ t → s.threads t' = .idle

/-- The discipline: an interface is installed while no other thread uses the table; or it is the first one for its selector, nobody else installs one
    for this selector, and the rows of the table stay where they are. -/
def Disciplined (E : Env) (s : State) : Prop :=
  ∀ t i, (s.threads t).installs = some i →
    Alone s t ∨ (s.table (E.selOf i) = none ∧ (∀ t' i', t' ≠ t → (s.threads t').installs = some i' → E.selOf i' ≠ E.selOf i) ∧
      (s.threads t = .insert i → E.moves (s.count + 1) = false))

/-- Executions without any discipline. -/
inductive Steps (E : Env) : State → State → Prop
  | refl (s) : Steps E s s
  | tail {s s' s''} : Steps E s s' → Event E s' s'' → Steps E s s''

/-- Executions that follow the discipline throughout. -/
inductive Runs (E : Env) : State → State → Prop
  | refl (s) : Runs E s s
  | tail {s s' s''} : Runs E s s' → Event E s' s'' → Disciplined E s'' → Runs E s s''

end Dispatch
end Duck
