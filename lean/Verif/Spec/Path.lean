/-! What C38 and C62 talk about: a path is a flag "absolute" and a list of nonempty components. -/
namespace Duck
namespace Path

/-- The pieces between slashes, empty ones included. -/
def pieces : List UInt8 → List (List UInt8)
  | [] => [[]]
  | b :: s => if b = 0x2f then [] :: pieces s else
    match pieces s with
    | [] => [[b]]
    | p :: ps => (b :: p) :: ps

/-- The components of a path: the nonempty pieces. -/
def comps (s : List UInt8) : List (List UInt8) := (pieces s).filter (· ≠ [])

/-- A path starts at the root if its first byte is a slash. -/
def abs (s : List UInt8) : Bool := s.head? == some 0x2f

/-- The standard spelling of a path: no doubled and no trailing slash. -/
def build (absolute : Bool) (cs : List (List UInt8)) : List UInt8 :=
  (if absolute then [0x2f] else []) ++ [0x2f].intercalate cs

end Path
end Duck
