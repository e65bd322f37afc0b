import Verif.Model.EggClasses
import Verif.Spec.Egg
/-! The value of an object, as the tree of values below it: what a user sees of it, whatever the addresses of objects and the byte order of the machine. -/
namespace Duck
namespace Egg
open Encoding (encode getType getCount getTypeSize isNumber typeGetSize)

/-- The number whose bytes in memory are `b`. -/
def numVal (o : Order) (b : Bytes) : Nat :=
  match o with
  | .big => b.foldl (fun n x => 256 * n + x.toNat) 0
  | .little => b.reverse.foldl (fun n x => 256 * n + x.toNat) 0

/-- The values of the elements of `k` bytes of `b`. -/
def elems (o : Order) (k : Nat) (b : Bytes) : List Nat :=
  (List.range (b.length / k)).map fun i => numVal o ((b.drop (i * k)).take k)

/-- A value, down to some depth: `cut` is where the depth is exceeded, `undefined` is not a value.  Strings are told apart by their text and whether they
    are mutable; numbers by their encoding and the values of their elements; data by its type and elements; other objects by class and members. -/
inductive Tree where
  | cut
  | undefined
  | null
  | str (isMut : Bool) (t : Bytes)
  | num (var : Bool) (enc : BitVec 32) (vals : List Nat)
  | bool (b : Bool)
  | data (isMut : Bool) (tag : BitVec 32) (vals : List Nat)
  | list (c : Cls) (xs : List Tree)
  | table (c : Cls) (ps : List (Tree × Tree))
  | pair (a b : Tree)
  | struct (semantic : Tree) (b : Bytes)
  | pred (op objA keyA objB keyB : Tree)

/-- The size of the elements of data: bytes, unless its type is that of a number. -/
def elemSize (tag : BitVec 32) : Nat := if typeIsNumber tag then typeGetSize tag else 1

/-- The value of an object of the memory `H` of a machine of byte order `o`, down to `n` levels. -/
def tree (o : Order) (H : Nat → Option Val) : Nat → Option Nat → Tree
  | _, none => .null
  | 0, some _ => .cut
  | n + 1, some i =>
    match H i with
    | none => .undefined
    | some (.str c t) => .str (c = .mutableString) t
    | some (.num v e b) => .num v e (elems o (getTypeSize e) b)
    | some (.bool b) => .bool b
    | some (.data m tag b) => .data m tag (elems o (elemSize tag) b)
    | some (.list c xs) => .list c (xs.map (tree o H n))
    | some (.table c ps) => .table c (ps.map fun p => (tree o H n (some p.1), tree o H n p.2))
    | some (.pair a b) => .pair (tree o H n a) (tree o H n b)
    | some (.struct s b) => .struct (tree o H n s) b
    | some (.pred op a ka b kb) => .pred (tree o H n op) (tree o H n a) (tree o H n ka) (tree o H n b) (tree o H n kb)

/-- The objects an object refers to. -/
def Val.refs : Val → List Nat
  | .list _ xs => xs.filterMap id
  | .table _ ps => ps.flatMap fun p => p.1 :: p.2.toList
  | .pair a b => a.toList ++ b.toList
  | .struct s _ => s.toList
  | .pred op a ka b kb => op.toList ++ a.toList ++ ka.toList ++ b.toList ++ kb.toList
  | _ => []

/-- Objects as Duck makes them, with fewer than 2^24 bytes, elements or members (a text has a NUL byte more): constant strings have no NUL bytes, a number has
    the bytes its encoding says, data has a type of numbers (then it has some, and whole ones) or none, structures are not empty; and lists of two
    or more objects hold no NULL. -/
def Val.Ok : Val → Prop
  | .str c t => (c = .string ∨ (c = .constant ∧ 0 ∉ t) ∨ c = .mutableString) ∧ t.length + 1 < 2 ^ 24
  | .num _ e b => isNumber e = true ∧ getTypeSize e ∈ [1, 2, 4, 8] ∧ b.length = getTypeSize e * (getCount e).toNat
  | .bool _ => True
  | .data _ tag b =>
    if typeIsNumber tag then typeGetSize tag ∈ [1, 2, 4, 8] ∧ ∃ n, 0 < n ∧ n < 2 ^ 24 ∧ b.length = typeGetSize tag * n
    else tag = 0 ∧ b.length < 2 ^ 24
  | .list c xs => (∃ m, c = .array m ∨ c = .linkedList m) ∧ xs.length < 2 ^ 24 ∧ (2 ≤ xs.length → none ∉ xs)
  | .table c ps => (∃ m, c = .hashTable m ∨ c = .tree m) ∧ ps.length < 2 ^ 24
  | .pair _ _ => True
  | .struct _ b => b ≠ [] ∧ b.length < 2 ^ 24
  | .pred _ _ _ _ _ => True

end Egg
end Duck
