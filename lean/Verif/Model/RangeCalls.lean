import Verif.Model.Array
import Verif.Model.LinkedList
import Verif.Model.Data
/-! The calls that take a range, with their check (DKCheckRange, DKPlatform.h 617-626).  The replacements of arrays, linked lists and data
    objects are those of Model/Array, Model/LinkedList and Model/Data. -/
namespace Duck
namespace Range
open Arr (Ref rawGet)

/-- The loop of INTERNAL_DKArrayGetObjectsInRange (DKArray.c 449-452): `n` objects from index `i`, with the unchecked accessor. -/
def objectsFrom (a : GArray Ref) : Nat → Nat → Option (List Ref)
  | 0, _ => some []
  | n + 1, i => (rawGet a i).bind fun o => (objectsFrom a n (i + 1)).map (o :: ·)

/-- INTERNAL_DKArrayGetObjectsInRange (DKArray.c 445-455), given the result of its check: the objects put in the buffer. -/
def arrayObjects (check : Option Bool) (a : GArray Ref) (loc len : Int) : Option (List Ref) :=
  check.bind fun ok => if ok then objectsFrom a len.toNat loc.toNat else some []

/-- DKStringReplaceSubstring, DKStringDeleteSubstring (DKString.c 1622-1632, 1704-1713), given the result of the check. -/
def stringReplace (check : Option Bool) (s : Data.Str) (loc len : Int) (bs : List UInt8) : Option Data.Str :=
  check.map fun ok => if ok then Data.replaceBytes s loc.toNat len.toNat bs else s

end Range
end Duck
