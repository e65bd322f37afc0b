import Verif.Spec.Url
/-! What C80 and C81 talk about. -/
namespace Duck
namespace Query
open Unicode

/-- The percent-escape of a text: every character of the table of escapes is replaced by its escape. -/
def percent (s : List Char) : List Char :=
  s.flatMap fun c => match Url.chars.find? (fun e => e.1 == c) with
    | some e => e.2
    | none => [c]

/-- The characters with an escape, in the order in which the program enumerates its table -/
def enumeration : List Char :=
  ['=', '>', '?', '@', '}', '{', '|', '~', '“', '[', '\\', ' ', ']', '^', '#', '$', '%', '&', '`', '+', ',', '/', '‘', ':', ';', '<']

/-- The characters enumerated before '%' -/
def early : List Char := ['=', '>', '?', '@', '}', '{', '|', '~', '“', '[', '\\', ' ', ']', '^', '#', '$']

/-- What the program makes of a text: the escapes of the characters enumerated before '%' are escaped again, so that
    " " becomes "%2520" -/
def doubled (s : List Char) : List Char :=
  s.flatMap fun c => if c ∈ early then percent (percent [c]) else percent [c]

/-- What comes back: these characters stay escaped -/
def comesBack (s : List Char) : List Char := s.flatMap fun c => if c ∈ early then percent [c] else [c]

/-- A text that can be escaped and unescaped: ASCII, no terminator, no '%' -/
def Decodable (s : List Char) : Prop := ∀ c ∈ s, c.toNat < 128 ∧ c ≠ '\x00' ∧ c ≠ '%'

/-- An ASCII text without terminator; `fuel` bounds the rounds of each replacement loop -/
def Writable (fuel : Nat) (s : List Char) : Prop := (∀ c ∈ s, c.toNat < 128 ∧ c ≠ '\x00') ∧ 5 * s.length < 2 ^ 63 ∧ 5 * s.length ≤ fuel

/-- The same without '%' -/
def Fits (fuel : Nat) (s : List Char) : Prop := Decodable s ∧ 5 * s.length < 2 ^ 63 ∧ 5 * s.length ≤ fuel

/-- Parameters: names with values, or without (NULL). -/
abbrev Pairs := List (List Char × Option (List Char))

/-- A parameter in a query: `name=value` or `name`, where names and values are written by `w`. -/
def pairText (w : List Char → List Char) : List Char × Option (List Char) → List Char
  | (k, some v) => w k ++ '=' :: w v
  | (k, none) => w k

/-- A query: `name=value&name=value`. -/
def queryText (w : List Char → List Char) (ps : Pairs) : List Char := ['&'].intercalate (ps.map (pairText w))

/-- Names and values that are not empty and satisfy a condition -/
def Pairs.All (P : List Char → Prop) (ps : Pairs) : Prop :=
  ∀ p ∈ ps, p.1 ≠ [] ∧ P p.1 ∧ ∀ v, p.2 = some v → v ≠ [] ∧ P v

/-- A style declaration with blanks: `color : red`. -/
structure Style where
  before : List Char
  name : List Char
  afterName : List Char
  beforeValue : List Char
  value : List Char
  after : List Char

def Style.text (d : Style) : List Char := d.before ++ d.name ++ d.afterName ++ ':' :: (d.beforeValue ++ d.value ++ d.after)

/-- White space: blank, tab, line feed, vertical tab, form feed, carriage return. -/
def isBlank (c : Char) : Bool := c ∈ [' ', '\t', '\n', '\x0b', '\x0c', '\r']

/-- A name or value: not empty, without white space at the ends, without `:` and `;`. -/
structure Word (w : List Char) : Prop where
  first : ∃ c, w.head? = some c ∧ isBlank c = false
  last : ∃ c, w.getLast? = some c ∧ isBlank c = false
  chars : ∀ c ∈ w, c ≠ ':' ∧ c ≠ ';' ∧ c ≠ '\x00' ∧ c.toNat < 256

/-- A declaration of a name and a value, with white space around them. -/
structure Style.Ok (d : Style) : Prop where
  name : Word d.name
  value : Word d.value
  blanks : ∀ c ∈ d.before ++ d.afterName ++ d.beforeValue ++ d.after, isBlank c = true

/-- What stands between semicolons: a declaration, or a text without a colon (for example a comment or white space) -/
inductive Item where
  | decl (d : Style)
  | other (t : List Char)

def Item.text : Item → List Char
  | .decl d => d.text
  | .other t => t

def Item.Ok : Item → Prop
  | .decl d => d.Ok
  | .other t => t ≠ [] ∧ ∀ c ∈ t, c ≠ ':' ∧ c ≠ ';' ∧ c ≠ '\x00'

/-- The declarations -/
def declared : List Item → List (List Char × List Char)
  | [] => []
  | .decl d :: is => (d.name, d.value) :: declared is
  | .other _ :: is => declared is

/-- Style declarations: separated by `;`, with or without one at the end. -/
def stylesText (is : List Item) (final : Bool) : List Char := [';'].intercalate (is.map Item.text) ++ if final then [';'] else []

/-- The value of the last pair with the given name. -/
def lastValue {α : Type} (ps : List (List Char × α)) (name : List Char) : Option α := (ps.reverse.find? fun p => p.1 == name).map (·.2)

end Query
end Duck
