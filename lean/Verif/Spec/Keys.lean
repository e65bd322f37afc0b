import Verif.Model.Keys
import Verif.Spec.Compare
/-! What an object is as a key, for Props/Keys.lean. -/
namespace Duck
namespace Compare

/-- The value of an object; arrays and lists count as themselves. -/
inductive Value where
  | null
  | text (bytes : List UInt8)
  | bytes (bytes : List UInt8)
  | number (elements : List Number.Num)
  | pair (first second : Value)
  | record (semantic : Value) (bytes : List UInt8)
  | object (addr : Nat)
deriving DecidableEq

def value : Obj → Value
  | .null => .null
  | .str _ bs => .text bs
  | .data _ bs => .bytes bs
  | .num _ n => .number ((List.range n.enc.count).map n.at)
  | .pair _ a b => .pair (value a) (value b)
  | .struct _ s bs => .record (value s) bs
  | .list p _ _ => .object p
  | .other p => .object p

/-- The objects that can be keys beside each other: strings without NUL, data, numbers of one type and count without NaN and floating-point zero, structures with a semantic,
    pairs of these, and objects compared by identity; not arrays and lists. -/
def Keyable (t : Number.Ty) (c : Nat) : Obj → Prop
  | .null | .data _ _ | .other _ => True
  | .str _ bs => (0 : UInt8) ∉ bs
  | .num _ n => n.Ok ∧ n.enc.ty = t ∧ n.enc.count = c ∧ ∀ i, i < c → n.at i ≠ .nan ∧ (t.fmt = none ∨ n.at i ≠ .fin 0)
  | .pair _ a b => Keyable t c a ∧ Keyable t c b
  | .struct _ s _ => ∃ p bs, s = .str p bs ∧ (0 : UInt8) ∉ bs
  | .list _ _ _ => False

end Compare
end Duck
