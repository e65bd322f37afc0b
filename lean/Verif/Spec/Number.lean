import Verif.Model.Number
/-! What numbers mean, for the properties of Props/Number.lean. -/
namespace Duck
namespace Number

/-- Numeric order. -/
inductive Less : Num → Num → Prop
  | fin {a b : Int} (h : a < b) : Less (.fin a) (.fin b)
  | below (a : Int) : Less (.inf true) (.fin a)
  | above (a : Int) : Less (.fin a) (.inf false)
  | infs : Less (.inf true) (.inf false)

/-- The bit pattern of element `i` of a block of elements of type `t`. -/
def elem (t : Ty) (m : Mem) (i : Nat) : Nat := leNat ((m.drop (i * t.size)).take t.size)

/-- The value of element `i` of a number. -/
def Obj.at (o : Obj) (i : Nat) : Num := val o.enc.ty (elem o.enc.ty o.value i)

/-- The block has the size of its encoding. -/
def Obj.Ok (o : Obj) : Prop := o.value.length = o.enc.size

/-- A type can represent a value. -/
def Fits (t : Ty) (v : Num) : Prop := ∃ c, c < 2 ^ t.bits ∧ val t c = v

/-- A number holding one value of a type, by its bit pattern. -/
def scalar (t : Ty) (b : Nat) : Obj := ⟨vec t 1, leBytes t.size b⟩

end Number
end Duck
