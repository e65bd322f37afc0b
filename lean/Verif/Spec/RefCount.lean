import Verif.Model.RefCount
/-! What is observed of reference counting: who owns what, and the schedules a theorem ranges over. -/
namespace Duck
namespace RefCount

/-- Somebody owns a strong reference (outside of calls in progress). -/
def State.Owned (s : State) : Prop := ∃ th ∈ s.threads, 0 < th.strong

/-- No call is in progress. -/
def State.Quiet (s : State) : Prop := ∀ th ∈ s.threads, th.pc = .idle

/-- No strong (weak) reference is owned. -/
def State.NoStrong (s : State) : Prop := ∀ th ∈ s.threads, th.strong = 0
def State.NoWeak (s : State) : Prop := ∀ th ∈ s.threads, th.weak = []

/-- The owned references, and references to come: fewer than 2^28 in all, counting one for each thread that is inside a
    call (which uses or produces one). -/
def State.Few (s : State) : Prop := (s.threads.map fun th => th.strong + 1).sum < 2 ^ 28

/-- The calls of C17: no weak references. -/
def Label.Strong : Label → Prop
  | .call _ .retainWeak => False
  | _ => True

/-- A metadata object is not attached while another thread is inside DKRelease between its read of the count word
    (without the metadata bit) and its decrement.  Every schedule that takes the first weak reference before the object
    is shared satisfies this. -/
def Calm (s : State) (l : Label) : Prop :=
  ∀ t th u, l = .go t → s.threads[t]? = some th → th.pc = .insert u → ∀ th' ∈ s.threads, th'.pc ≠ .relDec

end RefCount
end Duck
