import Verif.Model.LastWrites
/-! What is asked of the last release of an object, for Props/LastWrites.lean. -/
namespace Duck
namespace LastWrites

/-- References change hands through locks only. -/
def Locked : Action → Prop
  | .give _ _ locked => locked = true
  | _ => True

/-- The value of the last write to field `k` in an execution, if there is one. -/
def lastOf : List Action → Nat → Option Nat
  | [], _ => none
  | .write _ k' v :: as, k => (lastOf as k).or (if k' = k then some v else none)
  | _ :: as, k => lastOf as k

/-- What was written to field `k` last, by any thread; fields are 0 at first. -/
def lastWritten (as : List Action) (k : Nat) : Nat := (lastOf as k).getD 0

/-- No two threads write a field at the same time: while a write of a thread to it is on its way, no other thread writes it.  (A lock around the writes sees to this.) -/
def Ordered (s : State) : List Action → Prop
  | [] => True
  | a :: as => (∀ i k v, a = .write i k v → ∀ j, j ≠ i → pending (s.buf j) k = none) ∧ ∀ s', act s a = some s' → Ordered s' as

end LastWrites
end Duck
