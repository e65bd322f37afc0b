import Verif.Model.Graph
/-! What a user expects of a graph after a history of calls, independent of how edges are stored. -/
namespace Duck
namespace Graph
variable {V K : Type} (cls : V → K)

/-- The call names the edge from `a` to `b`: first vertices are matched by equality, second vertices by identity. -/
def Names (src dst : V) (both : Bool) (a b : V) : Prop :=
  (cls src = cls a ∧ dst = b) ∨ (both = true ∧ cls dst = cls a ∧ src = b)

/-- After the history (most recent call first) there is an edge from `a` to `b`: some call added it, and no later one removed it. -/
def Present : List (Op V) → V → V → Prop
  | [], _, _ => False
  | .add s t both :: h, a, b => Names cls s t both a b ∨ Present h a b
  | .remove s t both :: h, a, b => ¬ Names cls s t both a b ∧ Present h a b
  | .removeAll :: _, _, _ => False
  | .setInfo _ _ _ :: h, a, b => Present h a b

/-- The call removes the edge from `a` to `b`, if there is one. -/
def Removes : Op V → V → V → Prop
  | .remove s t both, a, b => Names cls s t both a b
  | .removeAll, _, _ => True
  | _, _, _ => False

/-- `b` can be reached from `a` along edges. -/
inductive Reach (h : List (Op V)) (a : V) : V → Prop where
  | refl : Reach h a a
  | step {b c : V} : Reach h a b → Present cls h b c → Reach h a c

end Graph
end Duck
