import Verif.Model.ValueProp
/-! The calls on value properties, and when two properties have nothing in common. -/
namespace Duck
namespace ValueProp
open Number (Mem Enc)

/-- The ways of setting a property. -/
inductive Call where
  | object (x : Val)
  | number (src : Mem) (enc : Enc)
  | struct (sem : Option Name) (src : Mem)
  | bool (b : Bool)

/-- Set a property. -/
def Call.run (T : List Definition) (o : Obj) (name : Name) : Call → Option Obj
  | .object x => setObject T o name x
  | .number src enc => setNumber T o name src enc
  | .struct sem src => setStruct T o name sem src
  | .bool b => setBool T o name b

/-- The first byte and the number of bytes of a property that is not an object. -/
def Kind.place : Kind → Option (Nat × Nat)
  | .object _ _ _ => none
  | .number off enc => some (off, enc.size)
  | .enum off enc _ => some (off, enc.size)
  | .struct off size => some (off, size)

/-- Two properties share no byte and no reference. -/
def Apart (p q : Kind) : Prop :=
  match p, q with
  | .object a _ _, .object b _ _ => a ≠ b
  | p, q => ∀ a n b m, p.place = some (a, n) → q.place = some (b, m) → a + n ≤ b ∨ b + m ≤ a

/-- A value of encoding `se` can be stored as `de` without running over: not matrices of different shapes where the elements of
    the source are larger. -/
def Fitting (se de : Enc) : Prop :=
  de.count = se.count ∨ se.matrix = false ∨ de.matrix = false ∨ se.ty.size ≤ de.ty.size

/-- The encoding of a number property. -/
def Kind.enc : Kind → Option Enc
  | .number _ enc => some enc
  | .enum _ enc _ => some enc
  | _ => none

/-- The call does not run over: numbers are `Fitting`, and structures have a size an encoding can hold. -/
def Call.Safe (k : Kind) : Call → Prop
  | .object (.num n) => ∀ de, k.enc = some de → Fitting n.enc de
  | .object _ => True
  | .number _ se => ∀ de, k.enc = some de → Fitting se de
  | .struct _ src => src.length < 2 ^ 24
  | .bool _ => True

/-- A property reads the same on two objects, whatever call reads it. -/
def SameRead (T : List Definition) (o o' : Obj) (name : Name) : Prop :=
  getObject T o' name = getObject T o name ∧
  (∀ dst de, getNumber T o' name dst de = getNumber T o name dst de) ∧
  (∀ sem size, size < 2 ^ 24 → getStruct T o' name sem size = getStruct T o name sem size) ∧
  getBool T o' name = getBool T o name

end ValueProp
end Duck
