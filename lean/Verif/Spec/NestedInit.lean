import Verif.Model.Accessors
/-! What is asked of accessors that call each other, for Props/NestedInit.lean. -/
namespace Duck
namespace Nested
variable {A : Type}

/-- No accessor needs itself, not even by way of others. -/
def Acyclic (needs : A → List A) : Prop := ∃ rank : A → Nat, ∀ x, ∀ y ∈ needs x, rank y < rank x

/-- A thread has made all its calls, and each has returned the first object that was created for the accessor. -/
def Finished (t : Thread A) (calls : List A) : Prop := t.stack = [] ∧ t.todo = [] ∧ t.results = calls.map fun x => (x, some 1)

end Nested
end Duck
