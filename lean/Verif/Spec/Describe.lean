import Verif.Model.Describe
import Verif.Spec.Convert
/-! What C107 talks about: the text that describes a collection. -/
namespace Duck
namespace Describe

/-- The members of an object: what a collection holds, keys included. -/
def Obj.members : Obj → List Nat
  | .string _ | .plain _ => []
  | .list _ os => os.filterMap id
  | .keyed _ es => es.flatMap fun e => e.1.toList ++ e.2.toList

/-- `j` is a member of `i`. -/
def Member (h : Heap) (j i : Nat) : Prop := j ∈ (h i).members

/-- Strings are shown in quotation marks, other objects as they are. -/
def quoted (o : Obj) (t : List UInt8) : List UInt8 :=
  match o with
  | .string _ => [0x22] ++ t ++ [0x22]
  | _ => t

/-- The whole text of a collection: class, number of members, a line for each member, lines separated by commas. -/
def layout (name count : List UInt8) (lines : List (List UInt8)) : List UInt8 :=
  name ++ ", ".toUTF8.data.toList ++ count ++ " objects = (".toUTF8.data.toList ++
    Convert.joined [0x2c] (lines.map fun l => "\n    ".toUTF8.data.toList ++ l) ++ "\n)".toUTF8.data.toList

mutual
/-- `text` describes the object. -/
inductive Describes (h : Heap) : Nat → List UInt8 → Prop
  | string {i b} : h i = .string b → Describes h i b
  | plain {i t} : h i = .plain t → Describes h i t
  | list {i name os count lines} : h i = .list name os → Convert.Writes count (os.length : Int) → Lines h os lines → Describes h i (layout name count lines)
  | keyed {i name es count lines} : h i = .keyed name es → Convert.Writes count (es.length : Int) → KeyedLines h es lines →
      Describes h i (layout name count lines)
/-- The lines of a list: one for each object, in order. -/
inductive Lines (h : Heap) : List (Option Nat) → List (List UInt8) → Prop
  | nil : Lines h [] []
  | cons {o os l ls} : Line h o l → Lines h os ls → Lines h (o :: os) (l :: ls)
/-- A member as it is shown. -/
inductive Line (h : Heap) : Option Nat → List UInt8 → Prop
  | null : Line h none "null".toUTF8.data.toList
  | obj {i t} : Describes h i t → Line h (some i) (quoted (h i) t)
/-- The lines of a dictionary: key = object. -/
inductive KeyedLines (h : Heap) : List (Option Nat × Option Nat) → List (List UInt8) → Prop
  | nil : KeyedLines h [] []
  | cons {k o es a b ls} : Line h k a → Line h o b → KeyedLines h es ls → KeyedLines h ((k, o) :: es) ((a ++ " = ".toUTF8.data.toList ++ b) :: ls)
end

/-- No collection has 2^31 members or more. -/
def Small (h : Heap) : Prop := ∀ i, match h i with
  | .list _ os => os.length < 2 ^ 31
  | .keyed _ es => es.length < 2 ^ 31
  | _ => True

end Describe
end Duck
