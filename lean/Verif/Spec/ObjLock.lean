import Verif.Model.ObjLock
/-! What the callers of DKLockObject and DKUnlockObject must do. -/
namespace Duck
namespace ObjLock

/-- The object of the call a thread is in. -/
def Pc.object : Pc → Option Nat
  | .idle => none
  | .find o _ => some o
  | .alloc o _ => some o
  | .insert o _ _ => some o
  | .discard o _ _ _ => some o
  | .test o _ => some o
  | .create o _ => some o
  | .cas o _ _ => some o
  | .drop o _ _ => some o
  | .lock o _ => some o
  | .unlock o _ => some o

/-- A thread is in one call at a time; it unlocks what it has locked; an object is deallocated only when nobody has locked it and nobody is in a call
    on it. -/
def Legal (s : State) : Action → Prop
  | .call i o c => s.threads i = .idle ∧ (c = .unlock → (i, o) ∈ s.held)
  | .step _ => True
  | .dealloc o => (∀ i, (s.threads i).object ≠ some o) ∧ ∀ i, (i, o) ∉ s.held

/-- The function a thread is in. -/
def Pc.call : Pc → Option Call
  | .idle => none
  | .find _ c => some c
  | .alloc _ c => some c
  | .insert _ c _ => some c
  | .discard _ c _ _ => some c
  | .test _ _ => some .lock
  | .create _ _ => some .lock
  | .cas _ _ _ => some .lock
  | .drop _ _ _ => some .lock
  | .lock _ _ => some .lock
  | .unlock _ _ => some .unlock

/-- The locks after a call on `o` by thread `i` has returned: a lock is taken, or given back. -/
def returned (held : List (Nat × Nat)) (i o : Nat) : Call → List (Nat × Nat)
  | .lock => (i, o) :: held
  | .unlock => held.erase (i, o)

/-- The states that can come about. -/
inductive Reach : State → Prop
  | init : Reach init
  | step {s a s'} : Reach s → Legal s a → act s a = .ok s' → Reach s'

/-- A stretch of an execution and what was done in it. -/
inductive Run : State → List Action → State → Prop
  | nil (s) : Run s [] s
  | cons {s a s' as s''} : Legal s a → act s a = .ok s' → Run s' as s'' → Run s (a :: as) s''

/-- The metadata of an object and its mutex are in memory. -/
def InUse (s : State) (o m : Nat) (x : Option Nat) : Prop := s.table o = some m ∧ s.metas m = some ⟨o, x⟩

end ObjLock
end Duck
