import Verif.Model.RwLock
/-! What the callers of a read-write lock must do. -/
namespace Duck
namespace RwLock

/-- A thread is in one call at a time; it does not lock for writing what it has locked, nor lock for reading what it has locked for writing (it may ask with
    the try function); it unlocks what it has locked. -/
def Legal (s : State) : Action → Prop
  | .lock i w => s.threads i = .idle ∧ (i, true) ∉ s.held ∧ (w = true → (i, false) ∉ s.held)
  | .tryLock i _ => s.threads i = .idle
  | .unlock i => s.threads i = .idle ∧ ((i, true) ∈ s.held ∨ (i, false) ∈ s.held)
  | .step _ => True

instance (s : State) (a : Action) : Decidable (Legal s a) := by
  cases a <;> unfold Legal <;> infer_instance

/-- The states that can come about on a platform when only the actions in `P` are done. -/
inductive Reach (p : Platform) (P : Action → Prop) : State → Prop
  | init : Reach p P init
  | step {s a s'} : Reach p P s → P a → Legal s a → act p s a = .ok s' → Reach p P s'

/-- The actions the guarantee is for: on Windows all but the attempt to lock for writing. -/
def Fine (p : Platform) (a : Action) : Prop := p = .windows → ∀ i, a ≠ .tryLock i true

/-- The call a thread is in: `some (some w)` is a locking function, with its argument, `some none` is DKReadWriteLockUnlock. -/
def Pc.call : Pc → Option (Option Bool)
  | .idle => none
  | .lock w => some (some w)
  | .set => some (some true)
  | .tryLock w => some (some w)
  | .trySet => some (some true)
  | .unlock => some none
  | .clear => some none
  | .releaseExclusive => some none
  | .releaseShared => some none

/-- Is the call DKReadWriteLockTryLock? -/
def Pc.trying : Pc → Bool
  | .tryLock _ => true
  | .trySet => true
  | _ => false

/-- Who has the lock after a call of thread `i` has returned; a locking function that has returned `false` has not taken it. -/
def returned (held : List (Nat × Bool)) (i : Nat) (call : Option Bool) (result : Bool) : List (Nat × Bool) :=
  match call with
  | some w => if result then (i, w) :: held else held
  | none => held.erase (if (i, true) ∈ held then (i, true) else (i, false))

/-- The rule of a read-write lock: one writer, alone, or any number of readers. -/
def Exclusive (held : List (Nat × Bool)) : Prop :=
  ∀ i, (i, true) ∈ held → held = [(i, true)]

/-- All of a time in nanoseconds. -/
def Time.total (t : Time) : Int := t.sec * 1000000000 + t.nsec

end RwLock
end Duck
