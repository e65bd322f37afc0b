import Verif.Model.XmlDesc
import Verif.Spec.Xml
/-!
What C89 talks about: trees that can be written without escaping anything, and when two trees are the same.
-/
namespace Duck
namespace Xml

mutual
/-- The same elements and texts; the attributes of an element have no order. -/
inductive Same : Node → Node → Prop
  | text (s) : Same (.text s) (.text s)
  | elem (name) {as as' ks ks'} : as.Perm as' → SameAll ks ks' → Same (.elem name as ks) (.elem name as' ks')
inductive SameAll : List Node → List Node → Prop
  | nil : SameAll [] []
  | cons {k k' ks ks'} : Same k k' → SameAll ks ks' → SameAll (k :: ks) (k' :: ks')
end

/-- A value of an attribute that is written as it is: no quote, no markup, no white space but blanks. -/
def ValueOK (v : Bytes) : Prop := ∀ b ∈ v, Plain b ∧ b ≠ 0x22 ∧ b ≠ 0x3c ∧ b ≠ 0x26 ∧ b ≠ 0x09 ∧ b ≠ 0x0a

/-- The text is one that DKXMLParse makes (words separated by single blanks, maybe a blank at the end), without markup. -/
def TextOK (t : Bytes) : Prop := t ≠ [] ∧ squeeze true t = t ∧ ∀ b ∈ t, Plain b ∧ b ≠ 0x3c ∧ b ≠ 0x26

/-- The first child is a text. -/
def startsWithText : List Node → Bool
  | .text _ :: _ => true
  | _ => false

mutual
/-- A tree without anything that would have to be escaped. -/
def Writable : Node → Prop
  | .text t => TextOK t
  | .elem name attrs kids => Name name ∧ (∀ a ∈ attrs, Name a.1 ∧ ValueOK a.2) ∧ (attrs.map Prod.fst).Nodup ∧ WritableAll kids
/-- The children of an element: no two texts next to each other. -/
def WritableAll : List Node → Prop
  | [] => True
  | k :: ks => Writable k ∧ (startsWithText [k] = true → startsWithText ks = false) ∧ WritableAll ks
end

mutual
/-- The tree in which every text ends in a blank. -/
def settle : Node → Node
  | .text t => .text (if t.getLast? = some 0x20 then t else t ++ [0x20])
  | .elem name attrs kids => .elem name attrs (settleAll kids)
def settleAll : List Node → List Node
  | [] => []
  | k :: ks => settle k :: settleAll ks
end

mutual
/-- No character in the texts and values of the tree has to be escaped. -/
def NoMarkup : Node → Prop
  | .text t => ∀ b ∈ t, Plain b ∧ b ≠ 0x3c ∧ b ≠ 0x26
  | .elem _ attrs kids => (∀ a ∈ attrs, ValueOK a.2) ∧ NoMarkupAll kids
def NoMarkupAll : List Node → Prop
  | [] => True
  | k :: ks => NoMarkup k ∧ NoMarkupAll ks
end

/-- An element. -/
def IsElement : Node → Prop
  | .elem .. => True
  | .text _ => False

end Xml
end Duck
