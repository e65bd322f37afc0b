import Verif.Model.Predicate
/-! The proposition a predicate object stands for. -/
namespace Duck
namespace Pred
variable {O K : Type} [DecidableEq O] (w : World O K)

/-- An operand: the stored object, or the object the predicate is evaluated with if none is stored; then the property at the
    key path, if there is one. -/
inductive Operand (obj subst : Option O) : Option K → Option O → Prop where
  | plain : Operand obj subst none (obj.or subst)
  | path {k o} : obj.or subst = some o → Operand obj subst (some k) (w.property o k)
  | null {k} : obj.or subst = none → Operand obj subst (some k) none

/-- `o` is a predicate with operator `op` whose operands are `a` and `b`.  The key path of `b`, if any, is that of `a`. -/
structure Node (s : Option O) (o : O) (op : Op) (a b : Option O) : Prop where
  node : ∃ p, w.pred o = some p ∧ p.op = op ∧ Operand w p.objA s p.keyA a ∧ Operand w p.objB s p.keyB b ∧
    (p.keyB = none ∨ p.keyB = p.keyA)

mutual
/-- The object, evaluated with `s`, stands for the proposition. -/
inductive Means (s : Option O) : Option O → Prop → Prop where
  | null : Means s none False
  | value {o} : w.pred o = none → Means s (some o) (w.getBool o = true)
  | not {o a b P} : Node w s o .NOT a b → Means s a P → Means s (some o) (¬ P)
  | and {o a b P Q} : Node w s o .AND a b → Means s a P → Means s b Q → Means s (some o) (P ∧ Q)
  | or {o a b P Q} : Node w s o .OR a b → Means s a P → Means s b Q → Means s (some o) (P ∨ Q)
  | is {o a b} : Node w s o .IS a b → Means s (some o) (a = b)
  | isnt {o a b} : Node w s o .ISNT a b → Means s (some o) (a ≠ b)
  | iff {o a b P Q} : Node w s o .EQ a b → isPred w a = true ∨ isPred w b = true → Means s a P → Means s b Q → Means s (some o) (P ↔ Q)
  | niff {o a b P Q} : Node w s o .NEQ a b → isPred w a = true ∨ isPred w b = true → Means s a P → Means s b Q → Means s (some o) (¬ (P ↔ Q))
  | eq {o a b} : Node w s o .EQ a b → isPred w a = false → isPred w b = false → Means s (some o) (equalRef w a b = true)
  | neq {o a b} : Node w s o .NEQ a b → isPred w a = false → isPred w b = false → Means s (some o) (¬ equalRef w a b = true)
  | lt {o a b c} : Node w s o .LT a b → compareRef w a b = some c → Means s (some o) (0 < c)
  | lte {o a b c} : Node w s o .LTE a b → compareRef w a b = some c → Means s (some o) (0 < c ∨ c = 0)
  | gt {o a b c} : Node w s o .GT a b → compareRef w a b = some c → Means s (some o) (c < 0)
  | gte {o a b c} : Node w s o .GTE a b → compareRef w a b = some c → Means s (some o) (c < 0 ∨ c = 0)
  | all {o a b l Ps} : Node w s o .ALL (some a) b → w.elements a = some l → MeansEach s l Ps → Means s (some o) (∀ P ∈ Ps, P)
  | any {o a b l Ps} : Node w s o .ANY (some a) b → w.elements a = some l → MeansEach s l Ps → Means s (some o) (∃ P ∈ Ps, P)
  | none {o a b l Ps} : Node w s o .NONE (some a) b → w.elements a = some l → MeansEach s l Ps → Means s (some o) (¬ ∃ P ∈ Ps, P)
/-- The objects stand for the propositions, one by one. -/
inductive MeansEach (s : Option O) : List (Option O) → List Prop → Prop where
  | nil : MeansEach s [] []
  | cons {x l P Ps} : Means s x P → MeansEach s l Ps → MeansEach s (x :: l) (P :: Ps)
end

end Pred
end Duck
