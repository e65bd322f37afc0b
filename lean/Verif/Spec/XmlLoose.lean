import Verif.Spec.Xml

/-! What the converse half of C73 talks about: the texts `DKXMLParse` answers with a tree.

The constructs are those of `Spec/Xml.lean`, with the same bytes; here each comes with what the parser asks of it
(`Taken`) and with what it makes of it.  Wherever that is more or less than the XML recommendation asks, the comment
says so. -/

namespace Duck.Xml

/-! ## References -/

/-- UTF-8 for any number up to 0x1FFFFF, surrogates included. -/
def utf8Of (v : Nat) : Bytes :=
  (if v < 0x80 then [v]
   else if v < 0x800 then [0xC0 + v / 0x40, 0x80 + v % 0x40]
   else if v < 0x10000 then [0xE0 + v / 0x1000, 0x80 + v / 0x40 % 0x40, 0x80 + v % 0x40]
   else [0xF0 + v / 0x40000, 0x80 + v / 0x1000 % 0x40, 0x80 + v / 0x40 % 0x40, 0x80 + v % 0x40]).map UInt8.ofNat

/-- More than legal: the surrogates U+D800 to U+DFFE.  Less: long references and U+E000 to U+E7FD. -/
def Ref.Taken (r : Ref) : Prop :=
  (match r with
    | .dec ds => ds.length ≤ 6 ∧ ∀ c ∈ ds, 0x30 ≤ c ∧ c ≤ 0x39
    | .hex ds => ds.length ≤ 5 ∧ ∀ c ∈ ds, (0x30 ≤ c ∧ c ≤ 0x39) ∨ (0x61 ≤ c ∧ c ≤ 0x66) ∨ (0x41 ≤ c ∧ c ≤ 0x46)
    | _ => True) ∧
  r.value ≠ 0 ∧ r.value ≤ 0x10FFFF ∧ r.value ≠ 0xFFFE ∧ r.value ≠ 0xFFFF ∧ ¬ (0xDFFF ≤ r.value ∧ r.value ≤ 0xE7FD)

/-! ## Attributes -/

def AItem.taken (q : UInt8) : AItem → Prop
  | .char b => Plain b ∧ b ≠ q ∧ b ≠ 0x3c ∧ b ≠ 0x26
  | .ref r => r.Taken

def AItem.text : AItem → Bytes
  | .char b => if b = 0x09 ∨ b = 0x0a then [0x20] else [b]
  | .ref r => utf8Of r.value

def Attr.Taken (a : Attr) : Prop :=
  Blanks1 a.pre ∧ Name a.name ∧ Blanks a.w1 ∧ Blanks a.w2 ∧ Quote a.quote ∧ ∀ i ∈ a.items, i.taken a.quote

def Attr.text (a : Attr) : Bytes := a.items.flatMap AItem.text

/-- Give `k` the value `v`. -/
def lastPut (k v : Bytes) : List (Bytes × Bytes) → List (Bytes × Bytes)
  | [] => [(k, v)]
  | (k', v') :: l => if k' = k then (k, v) :: l else (k', v') :: lastPut k v l

/-- More than legal: a name may come again, and then its last value counts. -/
def lastValues (l : List Attr) : List (Bytes × Bytes) := l.foldl (fun m a => lastPut a.name a.text m) []

/-! ## Processing instructions -/

/-- Pieces of the text of a processing instruction: a byte other than `?`, or `?` and a byte other than `>`.  Less
    than legal: `??>` does not end the instruction. -/
inductive PiText : Bytes → Prop
  | nil : PiText []
  | char (b : UInt8) (l : Bytes) : Plain b → b ≠ 0x3f → PiText l → PiText (b :: l)
  | mark (b : UInt8) (l : Bytes) : Plain b → b ≠ 0x3e → PiText l → PiText (0x3f :: b :: l)

def PI.Taken (p : PI) : Prop :=
  Name p.target ∧ p.target.map lower ≠ ascii "xml" ∧ (p.sep = [] ∧ p.text = [] ∨ Blanks1 p.sep) ∧ PiText p.text

/-! ## Content -/

/-- More than legal: `]]>` outside CDATA sections, and attributes that come again. -/
def Content.Taken : Content → Prop
  | .nil => True
  | .char b c => (Plain b ∧ b ≠ 0x3c ∧ b ≠ 0x26) ∧ c.Taken
  | .ref r c => r.Taken ∧ c.Taken
  | .cdata s c => ((∀ b ∈ s, Plain b) ∧ ¬ (ascii "]]>" <:+: s)) ∧ c.Taken
  | .comment s c => CommentOK s ∧ c.Taken
  | .pi p c => p.Taken ∧ c.Taken
  | .elem n as w body wEnd c => Name n ∧ (∀ a ∈ as, a.Taken) ∧ Blanks w ∧ body.Taken ∧ Blanks wEnd ∧ c.Taken
  | .empty n as w c => Name n ∧ (∀ a ∈ as, a.Taken) ∧ Blanks w ∧ c.Taken

/-- The characters of a CDATA section; white space after `]` is marked as being kept. -/
def cdataText (afterBracket : Bool) : Bytes → List (UInt8 × Bool)
  | [] => []
  | b :: l => (b, afterBracket) :: cdataText (b == 0x5d) l

def soft (l : Bytes) : List (UInt8 × Bool) := l.map (·, false)

/-- White space in text: every run becomes one blank, and disappears at the start, but for what is marked. -/
def squeezeText (afterSpace : Bool) : List (UInt8 × Bool) → Bytes
  | [] => []
  | (b, keep) :: l =>
      if Num.isSpace b && !keep then (if afterSpace then squeezeText true l else 0x20 :: squeezeText true l)
      else b :: squeezeText (Num.isSpace b) l

def textChild (run : List (UInt8 × Bool)) : List Node :=
  if squeezeText true run = [] then [] else [.text (squeezeText true run)]

/-- The children of an element whose content begins with the characters `run`. -/
def Content.children (run : List (UInt8 × Bool)) : Content → List Node
  | .nil => textChild run
  | .char b c => c.children (run ++ [(b, false)])
  | .ref r c => c.children (run ++ soft (utf8Of r.value))
  | .cdata s c => c.children (run ++ cdataText false s)
  | .comment _ c => c.children run
  | .pi _ c => c.children run
  | .elem n as _ body _ c => textChild run ++ .elem n (lastValues as) (body.children []) :: c.children []
  | .empty n as _ c => textChild run ++ .elem n (lastValues as) [] :: c.children []

/-! ## Documents -/

/-- In a document type declaration; `<` is a plain byte inside a declaration of the internal subset. -/
def DtAtom.Taken (inside : Bool) : DtAtom → Prop
  | .char b => Plain b ∧ ¬ Quote b ∧ (b = 0x3c → inside = true) ∧ b ≠ 0x3e
  | .str q s => Quote q ∧ ∀ b ∈ s, Plain b ∧ b ≠ q

/-- More than legal: a declaration may begin with any byte but `-`. -/
def DtItem.Taken : DtItem → Prop
  | .atom a => a.Taken false
  | .comment s => CommentOK s
  | .pi p => p.Taken
  | .decl b l => (Plain b ∧ b ≠ 0x2d) ∧ ∀ a ∈ l, a.Taken true

/-- More than legal: any number of document type declarations, about anything. -/
def Misc.Taken (before : Bool) : Misc → Prop
  | .blanks w => Blanks w
  | .comment s => CommentOK s
  | .pi p => p.Taken
  | .doctype l => before = true ∧ ∀ i ∈ l, i.Taken

/-- How the end tag of the root ends.  More than legal: a blank stands for its `>`.  Less: a blank before the `>`. -/
def Root.endedBy (z : UInt8) : Root → Bytes
  | .elem n as w body => ascii "<" ++ n ++ attrsBytes as ++ w ++ ascii ">" ++ body.bytes ++ ascii "</" ++ n ++ [z]
  | .empty n as w => ascii "<" ++ n ++ attrsBytes as ++ w ++ ascii "/>"

def Root.Taken : Root → Prop
  | .elem n as w body => Name n ∧ (∀ a ∈ as, a.Taken) ∧ Blanks w ∧ body.Taken
  | .empty n as w => Name n ∧ (∀ a ∈ as, a.Taken) ∧ Blanks w

def Root.made : Root → Node
  | .elem n as _ body => .elem n (lastValues as) (body.children [])
  | .empty n as _ => .elem n (lastValues as) []

/-- A text the parser takes.  More than legal: white space before the XML declaration. -/
structure TakenText where
  bom : Bool
  lead : Bytes
  decl : Option Decl
  before : List Misc
  root : Root
  z : UInt8
  after : List Misc

def TakenText.bytes (d : TakenText) : Bytes :=
  (if d.bom then [0xef, 0xbb, 0xbf] else []) ++ d.lead ++
  (match d.decl with
    | some x => x.bytes
    | none => []) ++
  d.before.flatMap Misc.bytes ++ d.root.endedBy d.z ++ d.after.flatMap Misc.bytes

def TakenText.Taken (d : TakenText) : Prop :=
  Blanks d.lead ∧ (∀ x, d.decl = some x → x.OK) ∧ (∀ m ∈ d.before, m.Taken true) ∧ d.root.Taken ∧
  (d.z = 0x3e ∨ Blank d.z) ∧ ∀ m ∈ d.after, m.Taken false

end Duck.Xml
