import Verif.Model.BitList
/-! A bit list of length `n` is a set of indexes below `n`. -/
namespace Duck
namespace BitList

/-- What each call does to a set of indexes. -/
def specStep (f : Nat → Bool) : Op → (Nat → Bool) × Option Bool
  | .setAll => (fun _ => true, none)
  | .clearAll => (fun _ => false, none)
  | .flipAll => (fun i => !f i, none)
  | .set k => (fun i => if i = k then true else f i, none)
  | .clear k => (fun i => if i = k then false else f i, none)
  | .flip k => (fun i => if i = k then !f k else f i, none)
  | .test k => (f, some (f k))
  | .testAndSet k => (fun i => if i = k then true else f i, some (f k))
  | .testAndClear k => (fun i => if i = k then false else f i, some (f k))
  | .testAndFlip k => (fun i => if i = k then !f k else f i, some (f k))

def specRun (f : Nat → Bool) : List Op → (Nat → Bool) × List (Option Bool)
  | [] => (f, [])
  | op :: ops => ((specRun (specStep f op).1 ops).1, (specStep f op).2 :: (specRun (specStep f op).1 ops).2)

/-- The call's index is below the length. -/
def Op.InRange (n : Nat) : Op → Prop
  | .set i | .clear i | .flip i | .test i | .testAndSet i | .testAndClear i | .testAndFlip i => i < n
  | _ => True

/-- The call is not one of those that turn on bits beyond the length. -/
def Op.Quiet : Op → Prop
  | .setAll | .flipAll => False
  | _ => True

/-- `k` is the least index below `n` whose bit is `b`. -/
def IsLeast (f : Nat → Bool) (n : Nat) (b : Bool) (k : Nat) : Prop := k < n ∧ f k = b ∧ ∀ j < k, f j ≠ b

/-- Number of indexes below `n` whose bit is `b`. -/
def countBelow (f : Nat → Bool) (n : Nat) (b : Bool) : Nat := (List.range n).countP (fun i => f i = b)

/-- The Boolean meaning of the merges. -/
def MergeOp.bool : MergeOp → Bool → Bool → Bool
  | .and => fun x y => x && y
  | .nand => fun x y => !(x && y)
  | .or => fun x y => x || y
  | .nor => fun x y => !(x || y)
  | .xor => fun x y => x != y
  | .nxor => fun x y => x == y

end BitList
end Duck
