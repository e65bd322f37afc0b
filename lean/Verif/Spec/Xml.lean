import Verif.Model.Xml

/-! What C73 talks about: XML documents as a grammar with the bytes each construct is written with and the tree
    it stands for.  The grammar is the one of the XML recommendation, byte-wise (every byte above 0x7F is a
    name or character byte); the restrictions that come from the code are marked. -/

namespace Duck.Xml

/-- An ASCII literal as bytes. -/
def ascii (s : String) : Bytes := s.toList.map fun c => UInt8.ofNat c.toNat

/-! ## Bytes -/

/-- `S`: white space, after line ends have become line feeds. -/
def Blank (b : UInt8) : Prop := b = 0x20 ∨ b = 0x09 ∨ b = 0x0a

/-- `NameStartChar`. -/
def NameStart (b : UInt8) : Prop :=
  (0x61 ≤ b ∧ b ≤ 0x7a) ∨ (0x41 ≤ b ∧ b ≤ 0x5a) ∨ b = 0x3a ∨ b = 0x5f ∨ 0x80 ≤ b

/-- `NameChar`. -/
def NameChar (b : UInt8) : Prop := NameStart b ∨ (0x30 ≤ b ∧ b ≤ 0x39) ∨ b = 0x2d ∨ b = 0x2e

/-- A character of the document: not the terminator, and not a carriage return (line ends are the subject of a
    theorem of their own). -/
def Plain (b : UInt8) : Prop := b ≠ 0 ∧ b ≠ 0x0d

def Name (n : Bytes) : Prop := ∃ b l, n = b :: l ∧ NameStart b ∧ ∀ c ∈ l, NameChar c
def Blanks (w : Bytes) : Prop := ∀ b ∈ w, Blank b
def Blanks1 (w : Bytes) : Prop := w ≠ [] ∧ Blanks w
def Quote (q : UInt8) : Prop := q = 0x22 ∨ q = 0x27

/-! ## References -/

/-- A character or entity reference: the five predefined entities and numbers in base ten or sixteen. -/
inductive Ref
  | lt | gt | amp | apos | quot
  | dec (ds : Bytes)
  | hex (ds : Bytes)
  deriving DecidableEq

/-- The value of a digit. -/
def digitVal (c : UInt8) : Nat :=
  if 0x30 ≤ c ∧ c ≤ 0x39 then c.toNat - 0x30
  else if 0x61 ≤ c ∧ c ≤ 0x66 then c.toNat - 0x61 + 10
  else c.toNat - 0x41 + 10

def number (base : Nat) (ds : Bytes) : Nat := ds.foldl (fun n c => n * base + digitVal c) 0

def Ref.bytes : Ref → Bytes
  | .lt => ascii "&lt;"
  | .gt => ascii "&gt;"
  | .amp => ascii "&amp;"
  | .apos => ascii "&apos;"
  | .quot => ascii "&quot;"
  | .dec ds => ascii "&#" ++ ds ++ ascii ";"
  | .hex ds => ascii "&#x" ++ ds ++ ascii ";"

/-- The code point. -/
def Ref.value : Ref → Nat
  | .lt => 0x3c
  | .gt => 0x3e
  | .amp => 0x26
  | .apos => 0x27
  | .quot => 0x22
  | .dec ds => number 10 ds
  | .hex ds => number 16 ds

/-- The UTF-8 bytes of the character. -/
def Ref.chars (r : Ref) : Bytes := String.utf8EncodeChar (Char.ofNat r.value)

/-- A reference to a character of XML. -/
def Ref.Legal (r : Ref) : Prop :=
  (match r with
    | .dec ds => ds ≠ [] ∧ ∀ c ∈ ds, 0x30 ≤ c ∧ c ≤ 0x39
    | .hex ds => ds ≠ [] ∧ ∀ c ∈ ds, (0x30 ≤ c ∧ c ≤ 0x39) ∨ (0x61 ≤ c ∧ c ≤ 0x66) ∨ (0x41 ≤ c ∧ c ≤ 0x46)
    | _ => True) ∧
  r.value ≠ 0 ∧ r.value.isValidChar ∧ r.value ≠ 0xFFFE ∧ r.value ≠ 0xFFFF

/-- Restriction of the code: at most six decimal or five hexadecimal digits, and not a code point from U+E000 to
    U+E7FD. -/
def Ref.Supported (r : Ref) : Prop :=
  (match r with
    | .dec ds => ds.length ≤ 6
    | .hex ds => ds.length ≤ 5
    | _ => True) ∧
  ¬ (0xE000 ≤ r.value ∧ r.value ≤ 0xE7FD)

def Ref.OK (r : Ref) : Prop := r.Legal ∧ r.Supported

/-! ## Attributes -/

inductive AItem
  | char (b : UInt8)
  | ref (r : Ref)
  deriving DecidableEq

def AItem.bytes : AItem → Bytes
  | .char b => [b]
  | .ref r => r.bytes

/-- Tabs and line feeds in a value become blanks; references do not. -/
def AItem.chars : AItem → Bytes
  | .char b => if b = 0x09 ∨ b = 0x0a then [0x20] else [b]
  | .ref r => r.chars

def AItem.OK (q : UInt8) : AItem → Prop
  | .char b => Plain b ∧ b ≠ q ∧ b ≠ 0x3c ∧ b ≠ 0x26
  | .ref r => r.OK

/-- ` name = "value"`, with the white space before it and around `=`. -/
structure Attr where
  pre : Bytes
  name : Bytes
  w1 : Bytes
  w2 : Bytes
  quote : UInt8
  items : List AItem
  deriving DecidableEq

def Attr.bytes (a : Attr) : Bytes :=
  a.pre ++ a.name ++ a.w1 ++ ascii "=" ++ a.w2 ++ [a.quote] ++ a.items.flatMap AItem.bytes ++ [a.quote]

def Attr.value (a : Attr) : Bytes := a.items.flatMap AItem.chars

def Attr.OK (a : Attr) : Prop :=
  Blanks1 a.pre ∧ Name a.name ∧ Blanks a.w1 ∧ Blanks a.w2 ∧ Quote a.quote ∧ ∀ i ∈ a.items, i.OK a.quote

/-- No two attributes of an element have the same name. -/
def AttrsOK (l : List Attr) : Prop := (∀ a ∈ l, a.OK) ∧ (l.map Attr.name).Nodup

def attrsBytes (l : List Attr) : Bytes := l.flatMap Attr.bytes
def attrsValue (l : List Attr) : List (Bytes × Bytes) := l.map fun a => (a.name, a.value)

/-! ## Comments, processing instructions -/

/-- The text of a comment has no `--` and does not end in `-`. -/
def CommentOK (s : Bytes) : Prop := (∀ b ∈ s, Plain b) ∧ ¬ (ascii "--" <:+: s ++ ascii "-")

def commentBytes (s : Bytes) : Bytes := ascii "<!--" ++ s ++ ascii "-->"

/-- A processing instruction: its target, the white space after it, and its text (empty if there is no white
    space). -/
structure PI where
  target : Bytes
  sep : Bytes
  text : Bytes
  deriving DecidableEq

def PI.bytes (p : PI) : Bytes := ascii "<?" ++ p.target ++ p.sep ++ p.text ++ ascii "?>"

/-- ASCII letters in lower case. -/
def lower (b : UInt8) : UInt8 := if 0x41 ≤ b ∧ b ≤ 0x5a then b + 32 else b

/-- The target is a name other than `xml` in any case, the text does not contain `?>`.  Restriction of the code:
    the text does not contain `??` and does not end in `?`. -/
def PI.OK (p : PI) : Prop :=
  Name p.target ∧ p.target.map lower ≠ ascii "xml" ∧
  (p.sep = [] ∧ p.text = [] ∨ Blanks1 p.sep) ∧ (∀ b ∈ p.text, Plain b) ∧
  ¬ (ascii "?>" <:+: p.text) ∧ ¬ (ascii "??" <:+: p.text ++ ascii "?")

/-! ## Content -/

/-- The content of an element: an element comes with its content and with what follows it. -/
inductive Content
  | nil
  | char (b : UInt8) (rest : Content)
  | ref (r : Ref) (rest : Content)
  | cdata (s : Bytes) (rest : Content)
  | comment (s : Bytes) (rest : Content)
  | pi (p : PI) (rest : Content)
  | elem (name : Bytes) (attrs : List Attr) (w : Bytes) (body : Content) (wEnd : Bytes) (rest : Content)
  | empty (name : Bytes) (attrs : List Attr) (w : Bytes) (rest : Content)

def Content.bytes : Content → Bytes
  | .nil => []
  | .char b c => b :: c.bytes
  | .ref r c => r.bytes ++ c.bytes
  | .cdata s c => ascii "<![CDATA[" ++ s ++ ascii "]]>" ++ c.bytes
  | .comment s c => commentBytes s ++ c.bytes
  | .pi p c => p.bytes ++ c.bytes
  | .elem n as w body wEnd c =>
      ascii "<" ++ n ++ attrsBytes as ++ w ++ ascii ">" ++ body.bytes ++ ascii "</" ++ n ++ wEnd ++ ascii ">" ++ c.bytes
  | .empty n as w c => ascii "<" ++ n ++ attrsBytes as ++ w ++ ascii "/>" ++ c.bytes

/-- Restriction of the code: in a CDATA section a `]` is not followed by white space. -/
def CDataOK (s : Bytes) : Prop :=
  (∀ b ∈ s, Plain b) ∧ ¬ (ascii "]]>" <:+: s) ∧ ∀ b, Num.isSpace b = true → ¬ ([0x5d, b] <:+: s)

def Content.OK : Content → Prop
  | .nil => True
  | .char b c => (Plain b ∧ b ≠ 0x3c ∧ b ≠ 0x26) ∧ c.OK
  | .ref r c => r.OK ∧ c.OK
  | .cdata s c => CDataOK s ∧ c.OK
  | .comment s c => CommentOK s ∧ c.OK
  | .pi p c => p.OK ∧ c.OK
  | .elem n as w body wEnd c => Name n ∧ AttrsOK as ∧ Blanks w ∧ body.OK ∧ Blanks wEnd ∧ c.OK
  | .empty n as w c => Name n ∧ AttrsOK as ∧ Blanks w ∧ c.OK

/-- White space in text: every run becomes one blank, and disappears at the start. -/
def squeeze (afterSpace : Bool) : Bytes → Bytes
  | [] => []
  | b :: l =>
      if Num.isSpace b then (if afterSpace then squeeze true l else 0x20 :: squeeze true l)
      else b :: squeeze false l

/-- The text child for the characters between two elements; none if there is only white space. -/
def textNode (run : Bytes) : List Node := if squeeze true run = [] then [] else [.text (squeeze true run)]

/-- The children of an element whose content begins with the characters `run`: references and CDATA sections
    belong to the text around them, comments and processing instructions leave no trace. -/
def Content.kids (run : Bytes) : Content → List Node
  | .nil => textNode run
  | .char b c => c.kids (run ++ [b])
  | .ref r c => c.kids (run ++ r.chars)
  | .cdata s c => c.kids (run ++ s)
  | .comment _ c => c.kids run
  | .pi _ c => c.kids run
  | .elem n as _ body _ c => textNode run ++ .elem n (attrsValue as) (body.kids []) :: c.kids []
  | .empty n as _ c => textNode run ++ .elem n (attrsValue as) [] :: c.kids []

/-! ## Documents -/

/-- A piece of a document type declaration: a plain byte or a quoted string. -/
inductive DtAtom
  | char (b : UInt8)
  | str (q : UInt8) (s : Bytes)
  deriving DecidableEq

def DtAtom.bytes : DtAtom → Bytes
  | .char b => [b]
  | .str q s => [q] ++ s ++ [q]

def DtAtom.OK : DtAtom → Prop
  | .char b => Plain b ∧ ¬ Quote b ∧ b ≠ 0x3c ∧ b ≠ 0x3e
  | .str q s => Quote q ∧ ∀ b ∈ s, Plain b ∧ b ≠ q

/-- A part of a document type declaration. -/
inductive DtItem
  | atom (a : DtAtom)
  | comment (s : Bytes)
  | pi (p : PI)
  | decl (first : UInt8) (l : List DtAtom)
  deriving DecidableEq

def DtItem.bytes : DtItem → Bytes
  | .atom a => a.bytes
  | .comment s => commentBytes s
  | .pi p => p.bytes
  | .decl b l => ascii "<!" ++ [b] ++ l.flatMap DtAtom.bytes ++ ascii ">"

def DtItem.OK : DtItem → Prop
  | .atom a => a.OK
  | .comment s => CommentOK s
  | .pi p => p.OK
  | .decl b l => NameStart b ∧ ∀ a ∈ l, a.OK

/-- White space, comments, processing instructions; before the root also document type declarations. -/
inductive Misc
  | blanks (w : Bytes)
  | comment (s : Bytes)
  | pi (p : PI)
  | doctype (l : List DtItem)
  deriving DecidableEq

def Misc.bytes : Misc → Bytes
  | .blanks w => w
  | .comment s => commentBytes s
  | .pi p => p.bytes
  | .doctype l => ascii "<!DOCTYPE" ++ l.flatMap DtItem.bytes ++ ascii ">"

def Misc.OK (before : Bool) : Misc → Prop
  | .blanks w => Blanks w
  | .comment s => CommentOK s
  | .pi p => p.OK
  | .doctype l => before = true ∧ ∀ i ∈ l, i.OK

/-- ` name = "..."` in the XML declaration. -/
structure Eq where
  pre : Bytes
  w1 : Bytes
  w2 : Bytes
  quote : UInt8
  deriving DecidableEq

def Eq.bytes (e : Eq) (name value : Bytes) : Bytes :=
  e.pre ++ name ++ e.w1 ++ ascii "=" ++ e.w2 ++ [e.quote] ++ value ++ [e.quote]

def Eq.OK (e : Eq) : Prop := Blanks1 e.pre ∧ Blanks e.w1 ∧ Blanks e.w2 ∧ Quote e.quote

/-- The XML declaration: version 1.n, an encoding, standalone or not. -/
structure Decl where
  ver : Eq
  minor : Bytes
  enc : Option (Eq × Bytes)
  std : Option (Eq × Bool)
  w : Bytes
  deriving DecidableEq

def Decl.bytes (d : Decl) : Bytes :=
  ascii "<?xml" ++ d.ver.bytes (ascii "version") (ascii "1." ++ d.minor) ++
  (match d.enc with
    | some (e, n) => e.bytes (ascii "encoding") n
    | none => []) ++
  (match d.std with
    | some (e, y) => e.bytes (ascii "standalone") (if y then ascii "yes" else ascii "no")
    | none => []) ++ d.w ++ ascii "?>"

def EncName (n : Bytes) : Prop :=
  ∃ b l, n = b :: l ∧ ((0x61 ≤ b ∧ b ≤ 0x7a) ∨ (0x41 ≤ b ∧ b ≤ 0x5a)) ∧
    ∀ c ∈ l, (0x61 ≤ c ∧ c ≤ 0x7a) ∨ (0x41 ≤ c ∧ c ≤ 0x5a) ∨ (0x30 ≤ c ∧ c ≤ 0x39) ∨ c = 0x2e ∨ c = 0x5f ∨ c = 0x2d

def Decl.OK (d : Decl) : Prop :=
  d.ver.OK ∧ (d.minor ≠ [] ∧ ∀ c ∈ d.minor, 0x30 ≤ c ∧ c ≤ 0x39) ∧
  (∀ e n, d.enc = some (e, n) → e.OK ∧ EncName n) ∧ (∀ e y, d.std = some (e, y) → e.OK) ∧ Blanks d.w

/-- The root element. -/
inductive Root
  | elem (name : Bytes) (attrs : List Attr) (w : Bytes) (body : Content)
  | empty (name : Bytes) (attrs : List Attr) (w : Bytes)

/-- Restriction of the code: no white space before the `>` that ends the root element. -/
def Root.bytes : Root → Bytes
  | .elem n as w body => ascii "<" ++ n ++ attrsBytes as ++ w ++ ascii ">" ++ body.bytes ++ ascii "</" ++ n ++ ascii ">"
  | .empty n as w => ascii "<" ++ n ++ attrsBytes as ++ w ++ ascii "/>"

def Root.OK : Root → Prop
  | .elem n as w body => Name n ∧ AttrsOK as ∧ Blanks w ∧ body.OK
  | .empty n as w => Name n ∧ AttrsOK as ∧ Blanks w

def Root.tree : Root → Node
  | .elem n as _ body => .elem n (attrsValue as) (body.kids [])
  | .empty n as _ => .elem n (attrsValue as) []

/-- A document. -/
structure Doc where
  bom : Bool
  decl : Option Decl
  before : List Misc
  root : Root
  after : List Misc

def Doc.bytes (d : Doc) : Bytes :=
  (if d.bom then [0xef, 0xbb, 0xbf] else []) ++
  (match d.decl with
    | some x => x.bytes
    | none => []) ++
  d.before.flatMap Misc.bytes ++ d.root.bytes ++ d.after.flatMap Misc.bytes

def Doc.OK (d : Doc) : Prop :=
  (∀ x, d.decl = some x → x.OK) ∧ (∀ m ∈ d.before, m.OK true) ∧ d.root.OK ∧ ∀ m ∈ d.after, m.OK false

/-- What comes before the root element. -/
def Doc.prolog (d : Doc) : Bytes :=
  (if d.bom then [0xef, 0xbb, 0xbf] else []) ++
  (match d.decl with
    | some x => x.bytes
    | none => []) ++
  d.before.flatMap Misc.bytes

/-- A start tag and content after it, for the beginning of a document that stops inside an element. -/
structure Opened where
  name : Bytes
  attrs : List Attr
  w : Bytes
  body : Content

def Opened.bytes (o : Opened) : Bytes := ascii "<" ++ o.name ++ attrsBytes o.attrs ++ o.w ++ ascii ">" ++ o.body.bytes

def Opened.OK (o : Opened) : Prop := Name o.name ∧ AttrsOK o.attrs ∧ Blanks o.w ∧ o.body.OK

/-- Line ends as the recommendation (2.11) has them: CR LF and CR become LF. -/
def normLines : Bytes → Bytes
  | [] => []
  | [b] => if b = 0x0d then [0x0a] else [b]
  | 0x0d :: 0x0a :: l => 0x0a :: normLines l
  | b :: l => (if b = 0x0d then 0x0a else b) :: normLines l

end Duck.Xml
