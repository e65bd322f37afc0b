import Verif.Model.Making
import Verif.Spec.Dictionary
import Verif.Spec.BinaryTree
import Verif.Spec.Array
/-! What a collection made of given objects is expected to contain. -/
namespace Duck
namespace Make
variable {K V O : Type}

/-- The entry for key `q` in a dictionary made of the pairs `ps`: a copy of the key given first, the object given last; none if no key is equal to `q`. -/
def wanted (eqv : K → K → Bool) (cp : K → K) (ps : List (K × V)) (q : K) : Option (K × V) :=
  match ps.find? fun e => eqv e.1 q, ps.reverse.find? fun e => eqv e.1 q with
  | some a, some b => some (cp a.1, b.2)
  | _, _ => none

/-- `x` is given, and nothing equal to it is given after it. -/
def LastOf (eqv : K → K → Bool) (xs : List K) (x : K) : Prop := ∃ a b, xs = a ++ x :: b ∧ ∀ y ∈ b, eqv y x = false

/-- Objects followed by the NULL that ends them, and whatever is behind it. -/
def ended (xs : List O) (rest : List (Option O)) : List (Option O) := xs.map some ++ none :: rest

/-- Keys and objects in turn. -/
def flat (ps : List (O × Option O)) : List (Option O) := ps.flatMap fun e => [some e.1, e.2]

end Make
end Duck
