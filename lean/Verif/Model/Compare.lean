import Verif.Model.Text
import Verif.Model.Data
import Verif.Model.Number
/-!
# Model of the comparison of objects of all classes

DKEqual and DKCompare (Source/DKComparison.c 44-109) with the methods of the classes: DKString.c 715-745, DKData.c 424-474, DKNumber.c 877-924,
DKPair.c 151-183, DKStruct.c 209-268, DKList.c 607-679, and DKPointerEqual and DKPointerCompare.

Objects are trees with the address of each object.  Left out: dictionaries and sets (C24; DKCompare compares their addresses), objects that contain themselves.
Release build: DKAssert does nothing.  The result `none` is undefined behaviour: an object is used as one of another class, or NULL is dereferenced.
-/
namespace Duck
namespace Compare

/-- An object, or NULL; `other` is an instance of a class without comparison methods of its own (DKDefaultComparison, DKRuntime.c 174-186). -/
inductive Obj where
  | null
  | str (addr : Nat) (bytes : List UInt8)
  | data (addr : Nat) (bytes : List UInt8)
  | num (addr : Nat) (n : Number.Obj)
  | pair (addr : Nat) (first second : Obj)
  /-- structures of less than 2^31 bytes (the size is kept as int32_t, DKStruct.c 166); the semantic is a string or NULL -/
  | struct (addr : Nat) (semantic : Obj) (bytes : List UInt8)
  /-- arrays, and linked lists -/
  | list (addr : Nat) (linked : Bool) (items : List Obj)
  | other (addr : Nat)

/-- The pointer to an object. -/
def Obj.addr : Obj → Nat
  | .null => 0
  | .str p _ | .data p _ | .num p _ | .pair p _ _ | .struct p _ _ | .list p _ _ | .other p => p

/-- DKPointerCompare (DKComparison.c 50-59). -/
def pointerCompare (a b : Nat) : Int := if a < b then 1 else if a > b then -1 else 0

/-- DKStringCompare (DKString.c 731-748) of a string. -/
def strCompare (p : Nat) (xs : List UInt8) : Obj → Option Int
  | .str _ ys => Text.compareString xs ys
  | b => some (pointerCompare p b.addr)

/-- DKStringCompare of a string or NULL. -/
def semCompare : Obj → Obj → Option Int
  | .str p xs, b => strCompare p xs b
  | a, b => some (pointerCompare a.addr b.addr)

/-- DKStringEqualToString (753-764) of strings or NULL, with TestEquality (283-295): a NULL second string is dereferenced. -/
def semEqual : Obj → Obj → Option Bool
  | .str p xs, b =>
      if p = b.addr then some true
      else match b with
        | .str _ ys => some (Data.testEquality (Data.fresh xs) (Data.fresh ys))
        | _ => none
  | _, _ => some false

/-- DKDataCompare (DKData.c 440-474). -/
def dataCompare (p : Nat) (xs : List UInt8) : Obj → Option Int
  | .data _ ys => some (Data.compare xs ys)
  | b => some (pointerCompare p b.addr)

/-- DKNumberCompare (DKNumber.c 889-924): the class of the other object is not checked. -/
def numCompare (n : Number.Obj) : Obj → Option Int
  | .num _ m => Number.compare n m
  | _ => none

/-- 247-262 of DKStructCompare. -/
def valueCompare (a b : List UInt8) : Int :=
  if a.length < b.length then 1 else if a.length > b.length then -1 else if a.length = 0 then 0 else Data.memcmp a.length a b

/-- DKStructCompare (DKStruct.c 235-268). -/
def structCompare (p : Nat) (sem : Obj) (xs : List UInt8) : Obj → Option Int
  | .struct _ sem' ys => (semCompare sem sem').map fun c => if c ≠ 0 then c else valueCompare xs ys
  | b => some (pointerCompare p b.addr)

/-- DKCompare (DKComparison.c 94-109) of an object that is not NULL; `method` is what the class answers. -/
def dispatch (p : Nat) (b : Obj) (method : Option Int) : Option Int :=
  if p = b.addr then some 0 else match b with
    | .null => some 1
    | _ => method

mutual
/-- DKCompare (DKComparison.c 94-109), with DKPairCompare (DKPair.c 168-183) and DKListCompare (DKList.c 642-679). -/
def compare : Obj → Obj → Option Int
  | .null, b => some (if b.addr = 0 then 0 else -1)
  | .str p xs, b => dispatch p b (strCompare p xs b)
  | .data p xs, b => dispatch p b (dataCompare p xs b)
  | .num p n, b => dispatch p b (numCompare n b)
  | .pair p x y, b => dispatch p b (match b with
      | .pair _ x' y' => (compare x x').bind fun c => if c = 0 then compare y y' else some c
      | b => some (pointerCompare p b.addr))
  | .struct p sem xs, b => dispatch p b (structCompare p sem xs b)
  | .list p l xs, b => dispatch p b (match b with
      | .list _ l' ys => if l = l' then compareItems xs ys else none
      | b => some (pointerCompare p b.addr))
  | .other p, b => dispatch p b (some (pointerCompare p b.addr))
/-- The loop of DKListCompare (657-674).  Both counts are those of the first list (652-653: `list2->getCount( _self )`, by the method of the other class if that
    is another); objects past the end of the second list are NULL. -/
def compareItems : List Obj → List Obj → Option Int
  | [], _ => some 0
  | x :: xs, ys => (compare x (ys.headD .null)).bind fun c => if c ≠ 0 then some c else compareItems xs ys.tail
end

/-- DKReverseCompare (DKComparison.c 115-118). -/
def reverseCompare (a b : Obj) : Option Int := (compare a b).map fun c => -c

/-- DKStringEqual (DKString.c 715-725). -/
def strEqual (xs : List UInt8) : Obj → Bool
  | .str _ ys => Data.testEquality (Data.fresh xs) (Data.fresh ys)
  | _ => false

/-- DKDataEqual (DKData.c 424-434). -/
def dataEqual (p : Nat) (xs : List UInt8) (b : Obj) : Option Bool := (dataCompare p xs b).map (· == 0)

/-- DKNumberEqual (DKNumber.c 877-883). -/
def numEqual (n : Number.Obj) : Obj → Option Bool
  | .num _ m => Number.equal n m
  | _ => some false

/-- DKStructEqual (DKStruct.c 209-229). -/
def structEqual (sem : Obj) (xs : List UInt8) : Obj → Option Bool
  | .struct _ sem' ys => (semEqual sem sem').map fun e => e && (xs.length == ys.length && Data.memcmp xs.length xs ys == 0)
  | _ => some false

/-- DKEqual (DKComparison.c 74-88) of an object that is not NULL. -/
def dispatchEqual (p : Nat) (b : Obj) (method : Option Bool) : Option Bool :=
  if p = b.addr then some true else match b with
    | .null => some false
    | _ => method

mutual
/-- DKEqual (DKComparison.c 74-88), with DKPairEqual (DKPair.c 151-162) and DKListEqual (DKList.c 607-636). -/
def equal : Obj → Obj → Option Bool
  | .null, b => some (b.addr == 0)
  | .str p xs, b => dispatchEqual p b (some (strEqual xs b))
  | .data p xs, b => dispatchEqual p b (dataEqual p xs b)
  | .num p n, b => dispatchEqual p b (numEqual n b)
  | .pair p x y, b => dispatchEqual p b (match b with
      | .pair _ x' y' => (equal x x').bind fun e => if e then equal y y' else some false
      | _ => some false)
  | .struct p sem xs, b => dispatchEqual p b (structEqual sem xs b)
  | .list p _ xs, b => dispatchEqual p b (match b with
      | .list _ _ ys => if ys.length = xs.length then equalItems xs ys else some false
      | _ => some false)
  | .other p, b => dispatchEqual p b (some (p == b.addr))
/-- The loop of DKListEqual (620-628), for lists of one length. -/
def equalItems : List Obj → List Obj → Option Bool
  | [], _ => some true
  | x :: xs, ys => (equal x (ys.headD .null)).bind fun e => if e then equalItems xs ys.tail else some false
end

end Compare
end Duck
