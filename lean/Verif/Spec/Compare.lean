import Verif.Model.Compare
import Verif.Spec.Number
import Verif.Spec.Text
/-! What can be compared, and what the comparison means, for Props/Compare.lean. -/
namespace Duck
namespace Compare

/-- What objects have to have in common to be compared.  NULL is of every kind. -/
inductive Kind where
  | text
  | bytes
  /-- numbers of one type, and as many of them -/
  | number (t : Number.Ty) (count : Nat)
  | pair (first second : Kind)
  /-- structures, which have a semantic if `named` -/
  | record (named : Bool)
  /-- arrays, or linked lists, of one length -/
  | list (linked : Bool) (items : Kind) (length : Nat)
  /-- objects compared by identity -/
  | identity

/-- A string of well-formed text without NUL. -/
def IsText : Obj → Prop
  | .str _ bs => ∃ cs : List Char, '\x00' ∉ cs ∧ bs = Unicode.utf8 cs
  | _ => False

def HasKind : Kind → Obj → Prop
  | _, .null => True
  | .text, o => IsText o
  | .bytes, .data _ _ => True
  | .number t c, .num _ n => n.Ok ∧ n.enc.ty = t ∧ n.enc.count = c ∧ ∀ i, i < c → n.at i ≠ .nan
  | .pair k l, .pair _ x y => HasKind k x ∧ HasKind l y
  | .record named, .struct _ sem _ => IsText sem ∨ (sem = .null ∧ named = false)
  | .list l k n, .list _ l' items => l' = l ∧ items.length = n ∧ ∀ x ∈ items, HasKind k x
  | .identity, .other _ => True
  | _, _ => False

/-- Every structure of this kind has a semantic. -/
def Kind.Named : Kind → Prop
  | .record named => named = true
  | .pair k l => k.Named ∧ l.Named
  | .list _ k _ => k.Named
  | _ => True

/-- An object is part of another, or it itself. -/
inductive Part : Obj → Obj → Prop
  | self (x : Obj) : Part x x
  | first {x p a b} (h : Part x a) : Part x (.pair p a b)
  | second {x p a b} (h : Part x b) : Part x (.pair p a b)
  | semantic {x p s bs} (h : Part x s) : Part x (.struct p s bs)
  | item {x y p l ys} (h : Part x y) (hy : y ∈ ys) : Part x (.list p l ys)

/-- An object as it is in memory: at each address there is one object, and none at NULL. -/
def InMemory (mem : Nat → Obj) (o : Obj) : Prop := ∀ x, Part x o → x = .null ∨ (x.addr ≠ 0 ∧ mem x.addr = x)

/-- Objects with the same value. -/
inductive Same : Kind → Obj → Obj → Prop
  | null {k} : Same k .null .null
  | text {p q bs} : Same .text (.str p bs) (.str q bs)
  | bytes {p q bs} : Same .bytes (.data p bs) (.data q bs)
  | number {t c p q a b} (h : ∀ j, j < c → Number.Obj.at a j = Number.Obj.at b j) : Same (.number t c) (.num p a) (.num q b)
  | pair {k l p q a b c d} (h1 : Same k a c) (h2 : Same l b d) : Same (.pair k l) (.pair p a b) (.pair q c d)
  | record {n p q s t bs} (h : Same .text s t) : Same (.record n) (.struct p s bs) (.struct q t bs)
  | list {l k n p q xs ys} (h : ∀ i (h1 : i < xs.length) (h2 : i < ys.length), Same k xs[i] ys[i]) : Same (.list l k n) (.list p l xs) (.list q l ys)
  | identity {p} : Same .identity (.other p) (.other p)

/-- The order of semantics: none, then by text. -/
inductive NamedBefore : Obj → Obj → Prop
  | none {q bs} : NamedBefore .null (.str q bs)
  | text {p q} {a b : List Char} (ha : '\x00' ∉ a) (hb : '\x00' ∉ b) (h : a < b) : NamedBefore (.str p (Unicode.utf8 a)) (.str q (Unicode.utf8 b))

/-- The order: texts and numbers ascend; bytes descend; pairs, lists and structures by their first difference; shorter structures before longer ones;
    what is compared by identity by address; NULL after everything else. -/
inductive Before : Kind → Obj → Obj → Prop
  | null {k a} (h : a ≠ .null) : Before k a .null
  | text {p q} {a b : List Char} (ha : '\x00' ∉ a) (hb : '\x00' ∉ b) (h : a < b) : Before .text (.str p (Unicode.utf8 a)) (.str q (Unicode.utf8 b))
  | bytes {p q} {a b : List UInt8} (h : b < a) : Before .bytes (.data p a) (.data q b)
  | number {t c p q a b} (k : Nat) (hk : k < c) (he : ∀ j, j < k → Number.Obj.at a j = Number.Obj.at b j) (h : Number.Less (Number.Obj.at a k) (Number.Obj.at b k)) :
      Before (.number t c) (.num p a) (.num q b)
  | first {k l p q a b c d} (h : Before k a c) : Before (.pair k l) (.pair p a b) (.pair q c d)
  | second {k l p q a b c d} (h1 : Same k a c) (h2 : Before l b d) : Before (.pair k l) (.pair p a b) (.pair q c d)
  | semantic {n p q s t a b} (h : NamedBefore s t) : Before (.record n) (.struct p s a) (.struct q t b)
  | size {n p q s t} {a b : List UInt8} (h1 : Same .text s t) (h2 : a.length < b.length) : Before (.record n) (.struct p s a) (.struct q t b)
  | value {n p q s t} {a b : List UInt8} (h1 : Same .text s t) (h2 : a.length = b.length) (h3 : b < a) : Before (.record n) (.struct p s a) (.struct q t b)
  | list {l k n p q xs ys} (i : Nat) (h1 : i < xs.length) (h2 : i < ys.length) (he : ∀ j (h : j < i), Same k (xs[j]'(by omega)) (ys[j]'(by omega)))
      (h : Before k xs[i] ys[i]) : Before (.list l k n) (.list p l xs) (.list q l ys)
  | identity {p q} (h : p < q) : Before .identity (.other p) (.other q)

end Compare
end Duck
