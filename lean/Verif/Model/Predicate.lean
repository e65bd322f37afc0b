import Verif.Model.Text
/-!
Model of predicates: Source/DKPredicate.c 47-787.

Objects other than predicates are given by a `World`: what the interfaces they implement answer.  `Option O` is an object
reference, `none` is NULL, and equality on `O` is pointer equality.  `none` as the result of a function means that it aborts
(an interface is missing), reads memory that is not a string, or has not returned within the fuel.
-/
namespace Duck
namespace Pred
variable {O K : Type} [DecidableEq O]

/-- DKPredicateOp (DKPredicate.h 36-83). -/
inductive Op where
  | unspecified | NOT | AND | OR | IS | ISNT | EQ | NEQ | LT | LTE | GT | GTE | ALL | ANY | NONE | IN | CONTAINS | KEYIN
  | CONTAINSKEY | ISA | LIKE | BEGINSWITH | ENDSWITH
  deriving DecidableEq, Repr

/-- struct DKPredicate (47-58). -/
structure Predicate (O K : Type) where
  op : Op
  objA : Option O
  keyA : Option K
  objB : Option O
  keyB : Option K

/-- The objects a predicate is evaluated on. -/
structure World (O K : Type) where
  /-- DKIsKindOfClass( obj, DKPredicateClass() ), and the predicate. -/
  pred : O → Option (Predicate O K)
  /-- DKGetPropertyForKeyPath (DKRuntime+Properties.c 750-759) on an object. -/
  property : O → K → Option O
  /-- DKGetBool (DKConversion.c 58-73) on an object. -/
  getBool : O → Bool
  /-- DKIsKindOfClass( obj, DKStringClass() ), and the bytes of the string. -/
  string : O → Option (List UInt8)
  /-- The `equal` and `compare` methods of objects that are not two strings. -/
  equal : O → O → Bool
  compare : O → O → Int
  /-- The objects visited by the `foreachObject` method of the Collection interface, if implemented. -/
  elements : O → Option (List (Option O))
  /-- The `containsObject` and `containsKey` methods of the collection interfaces, if implemented. -/
  containsObject : O → Option (Option O → Bool)
  containsKey : O → Option (Option O → Bool)
  /-- For a class DKIsKindOfClass( _, cls ), for a selector DKQueryInterface( _, sel, NULL ). -/
  kind : O → Option (O → Bool)

variable (w : World O K)

/-- DKIsKindOfClass( obj, DKPredicateClass() ). -/
def isPred (x : Option O) : Bool := (x.bind w.pred).isSome

/-- DKEqual (DKComparison.c 75-89); on two strings DKStringEqual (DKString.c 715-724), which compares bytes (C60). -/
def equalRef (a b : Option O) : Bool :=
  if a = b then true else
  match a, b with
  | some x, some y => match w.string x, w.string y with
    | some s, some t => s == t
    | _, _ => w.equal x y
  | _, _ => false

/-- DKCompare (DKComparison.c 95-109); on two strings DKStringCompare (DKString.c 730-747). -/
def compareRef (a b : Option O) : Option Int :=
  if a = b then some 0 else
  match a, b with
  | some x, some y => match w.string x, w.string y with
    | some s, some t => Text.compareString s t
    | _, _ => some (w.compare x y)
  | none, _ => some (-1)
  | some _, none => some 1

/-- EvaluateEQ (402-414). -/
def evalEQ (ev : Option O → Option Bool) (a b : Option O) : Option Bool :=
  if isPred w a || isPred w b then (ev a).bind fun x => (ev b).map fun y => x == y else some (equalRef w a b)

/-- foreachObject with EvaluateALLCallback (469-475): whether every callback returned 0. -/
def allGo (ev : Option O → Option Bool) : List (Option O) → Option Bool
  | [] => some true
  | x :: xs => (ev x).bind fun r => if r then allGo ev xs else some false

/-- EvaluateALL (477-488). -/
def evalALL (ev : Option O → Option Bool) (a : Option O) : Option Bool :=
  match a.bind w.elements with
  | none => some false
  | some l => allGo ev l

/-- foreachObject with EvaluateANYCallback (494-500): whether some callback returned 1. -/
def anyGo (ev : Option O → Option Bool) : List (Option O) → Option Bool
  | [] => some false
  | x :: xs => (ev x).bind fun r => if r then some true else anyGo ev xs

/-- EvaluateANY (502-513). -/
def evalANY (ev : Option O → Option Bool) (a : Option O) : Option Bool :=
  match a.bind w.elements with
  | none => some false
  | some l => anyGo ev l

/-- A string function (DKString.c 849-881) on two references: NULL has no substrings; anything else must be a string.
    (DKStringGetRangeOfString takes the C string of a NULL pattern, which is the empty string.) -/
def onStrings (f : List UInt8 → List UInt8 → Option Bool) (a b : Option O) : Option Bool :=
  match a with
  | none => some false
  | some x => (w.string x).bind fun s =>
    match b with
    | none => f s []
    | some y => (w.string y).bind (f s)

/-- DKContainsObject (DKCollection.c 106-115). -/
def containsObject (c x : Option O) : Option Bool :=
  match c with
  | none => some false
  | some c => (w.containsObject c).map fun f => f x

/-- DKContainsKey (DKCollection.c 91-100). -/
def containsKey (c x : Option O) : Option Bool :=
  match c with
  | none => some false
  | some c => (w.containsKey c).map fun f => f x

/-- DKIsKindOfClass( obj, DKStringClass() ). -/
def isString (x : Option O) : Bool := (x.bind w.string).isSome

/-- EvaluateIN (528-534). -/
def evalIN (a b : Option O) : Option Bool :=
  if isString w b then onStrings w Text.hasSubstring b a else containsObject w b a

/-- EvaluateCONTAINS (540-546). -/
def evalCONTAINS (a b : Option O) : Option Bool :=
  if isString w b then onStrings w Text.hasSubstring a b else containsObject w a b

/-- EvaluateISA (570-582). -/
def evalISA (a b : Option O) : Option Bool :=
  match a with
  | none => some true
  | some x => match b.bind w.kind with
    | none => some false
    | some f => some (f x)

/-- EvaluateLIKE (588-591), DKStringEqualToString (DKString.c 753-764). -/
def evalLIKE (a b : Option O) : Option Bool :=
  match a with
  | none => some false
  | some x => if b = some x then some true else (w.string x).bind fun s => (b.bind w.string).map fun t => s == t

/-- The functions of the operator table (348-609, 616-673); `ev` is DKEvaluateInternal with the same substitution. -/
def apply (ev : Option O → Option Bool) (op : Op) (a b : Option O) : Option Bool :=
  match op with
  | .unspecified => some false
  | .NOT => (ev a).map (!·)
  | .AND => (ev a).bind fun x => if x then ev b else some false
  | .OR => (ev a).bind fun x => if x then some true else ev b
  | .IS => some (decide (a = b))
  | .ISNT => some (decide (a ≠ b))
  | .EQ => evalEQ w ev a b
  | .NEQ => (evalEQ w ev a b).map (!·)
  | .LT => (compareRef w a b).map fun c => decide (c > 0)
  | .LTE => (compareRef w a b).map fun c => decide (c ≥ 0)
  | .GT => (compareRef w a b).map fun c => decide (c < 0)
  | .GTE => (compareRef w a b).map fun c => decide (c ≤ 0)
  | .ALL => evalALL w ev a
  | .ANY => evalANY w ev a
  | .NONE => (evalANY w ev a).map (!·)
  | .IN => evalIN w a b
  | .CONTAINS => evalCONTAINS w a b
  | .KEYIN => containsKey w b a
  | .CONTAINSKEY => containsKey w a b
  | .ISA => evalISA w a b
  | .LIKE => evalLIKE w a b
  | .BEGINSWITH => onStrings w Text.hasPrefix a b
  | .ENDSWITH => onStrings w Text.hasSuffix a b

/-- DKGetPropertyForKeyPath (DKRuntime+Properties.c 640-666, 750-759): NULL for a NULL object, and for a NULL path, which has no components. -/
def atPath (x : Option O) (key : Option K) : Option O := x.bind fun o => key.bind fun k => w.property o k

/-- The first operand (325, 328-329). -/
def operandA (p : Predicate O K) (subst : Option O) : Option O :=
  if p.keyA.isSome then atPath w (p.objA.or subst) p.keyA else p.objA.or subst

/-- The second operand (326, 331-332): the path is that of the first one. -/
def operandB (p : Predicate O K) (subst : Option O) : Option O :=
  if p.keyB.isSome then atPath w (p.objB.or subst) p.keyA else p.objB.or subst

/-- DKEvaluateInternal (770-778) with DKPredicateEvaluateWithObject (317-338); `fuel` bounds the nesting. -/
def eval (fuel : Nat) (subst x : Option O) : Option Bool :=
  match x with
  | none => some false
  | some o =>
    match w.pred o with
    | none => some (w.getBool o)
    | some p =>
      match fuel with
      | 0 => none
      | fuel + 1 => apply w (eval fuel subst) p.op (operandA w p subst) (operandB w p subst)

/-- DKPredicateEvaluateWithObject (317-338) on a predicate. -/
def evaluateWithObject (fuel : Nat) (p : Predicate O K) (subst : Option O) : Option Bool :=
  apply w (eval w fuel subst) p.op (operandA w p subst) (operandB w p subst)

/-- DKPredicateEvaluate (290-311): the operands without substitution. -/
def evaluate (fuel : Nat) (p : Predicate O K) : Option Bool :=
  apply w (eval w fuel none) p.op
    (if p.keyA.isSome then atPath w p.objA p.keyA else p.objA) (if p.keyB.isSome then atPath w p.objB p.keyA else p.objB)

/-! ### Operator names -/

/-- The operators in enumeration order. -/
def allOps : List Op := [.unspecified, .NOT, .AND, .OR, .IS, .ISNT, .EQ, .NEQ, .LT, .LTE, .GT, .GTE, .ALL, .ANY, .NONE, .IN, .CONTAINS,
  .KEYIN, .CONTAINSKEY, .ISA, .LIKE, .BEGINSWITH, .ENDSWITH]

/-- DKStringFromPredicateOp (748-754) with the names of PredicateOpInfoTable (616-673). -/
def opName : Op → String
  | .unspecified => "Unspecified" | .NOT => "NOT" | .AND => "AND" | .OR => "OR" | .IS => "IS" | .ISNT => "ISNT" | .EQ => "EQ"
  | .NEQ => "NEQ" | .LT => "LT" | .LTE => "LTE" | .GT => "GT" | .GTE => "GTE" | .ALL => "ALL" | .ANY => "ANY" | .NONE => "NONE"
  | .IN => "IN" | .CONTAINS => "CONTAINS" | .KEYIN => "KEYIN" | .CONTAINSKEY => "CONTAINSKEY" | .ISA => "ISA" | .LIKE => "LIKE"
  | .BEGINSWITH => "BEGINSWITH" | .ENDSWITH => "ENDSWITH"

/-- The aliases of PredicateOpLookupTable (689-726), in the order in which they are added. -/
def aliases : List (String × Op) := [("=", .EQ), ("==", .EQ), ("!=", .NEQ), ("<>", .NEQ), (">", .GT), ("<", .LT), (">=", .GTE), ("<=", .LTE),
  ("&&", .AND), ("||", .OR), ("!", .NOT)]

/-- PredicateOpLookupTable (676-729): a name that is present already is not added (DKDictionaryAddObject). -/
def lookupTable : List (String × Op) := allOps.map (fun op => (opName op, op)) ++ aliases

/-- DKPredicateOpFromString (760-764): the number NULL is 0, DKPredicateUnspecified. -/
def opFromString (s : String) : Op := ((lookupTable.find? fun e => e.1 == s).map (·.2)).getD .unspecified

end Pred
end Duck
