import Verif.Spec.Unicode
/-! What C36 and C37 talk about. -/
namespace Duck
namespace Text
open Unicode

/-- `Replaced pat rep s out`: `out` is `s` with the first occurrence of `pat` replaced by `rep`, then the first
    occurrence in what follows it, and so on: the left-to-right non-overlapping occurrences. -/
inductive Replaced {α : Type} [DecidableEq α] (pat rep : List α) : List α → List α → Prop
  | done (s : List α) : firstAt pat s = none → Replaced pat rep s s
  | hit (a rest out : List α) : firstAt pat (a ++ pat ++ rest) = some a.length → Replaced pat rep rest out →
      Replaced pat rep (a ++ pat ++ rest) (a ++ rep ++ out)

/-- A component that ends exactly where the next separator begins: followed by the separator, it contains no earlier
    occurrence.  (For a separator of one character this says that the character does not occur in it.) -/
def Component (sep p : List Char) : Prop := p ≠ [] ∧ firstAt sep (p ++ sep) = some p.length

end Text
end Duck
