/-! What an enumeration means: the list of names and values it was made from. -/
namespace Duck
namespace Enum

/-- The value registered last for a name. -/
def valueOf {W : Type} : List (List UInt8 × W) → List UInt8 → Option W
  | [], _ => none
  | x :: l, name =>
    match valueOf l name with
    | some v => some v
    | none => if x.1 = name then some x.2 else none

end Enum
end Duck
