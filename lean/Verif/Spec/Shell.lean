import Verif.Model.Shell
import Verif.Spec.StrToNum
/-! What C86 and C87 talk about: segments. -/
namespace Duck
namespace Shell
open Printf

/-- What is written in one call of DKShellWrite: an object with its content type and annotation, and whether encoders are skipped. -/
structure Segment (α : Type) where
  object : Obj α
  contentType : List UInt8
  annotation : List UInt8
  raw : Bool

/-- A string for one line: no NUL and no line feed. -/
def OneLine (s : List UInt8) : Prop := (0 : UInt8) ∉ s ∧ (0x0a : UInt8) ∉ s

/-- Texts have a content type starting with "text", data objects have not. -/
def Fits {α : Type} (contentType : List UInt8) : Obj α → Prop
  | .text _ => [0x74, 0x65, 0x78, 0x74] <+: contentType
  | .data _ => ¬ [0x74, 0x65, 0x78, 0x74] <+: contentType
  | .other _ => False

/-- The content of a segment: `e` stands for the object in the stream.  Either it is the object itself, or the encoder registered for the
    content type turns the object into it and back. -/
def Encodes {α : Type} (reg : Registry α) (seg : Segment α) (e : Obj α) : Prop :=
  (seg.raw = true ∧ e = seg.object) ∨ (reg seg.contentType = none ∧ e = seg.object) ∨
  (seg.raw = false ∧ ∃ enc, reg seg.contentType = some enc ∧ enc.encode seg.object = some e ∧ enc.decode e = some seg.object)

/-- The bytes of a text or data object. -/
def Bytes {α : Type} : Obj α → List UInt8 → Prop
  | .text bs, out => out = bs
  | .data bs, out => out = bs
  | .other _, _ => False

/-- A segment that can be read back: a content that is not empty and fits the content type, a content type of one line that does not start
    with a blank, an annotation of one line that is not empty. -/
structure Good {α : Type} (reg : Registry α) (seg : Segment α) : Prop where
  type : OneLine seg.contentType
  noBlank : ∀ b, seg.contentType.head? = some b → Num.isSpace b = false
  annotation : OneLine seg.annotation
  noReturn : (0x0d : UInt8) ∉ seg.annotation
  notEmpty : seg.annotation ≠ []
  content : ∃ e bs, Encodes reg seg e ∧ Fits seg.contentType e ∧ Bytes e bs ∧ bs ≠ [] ∧ bs.length < 2 ^ 63

/-- `sprintf` of a `size_t` gives a decimal numeral of it, not longer than the buffer of DKSPrintf. -/
def Decimal (libc : Libc) : Prop :=
  ∀ v : BitVec 64, ∃ ds, libc [0x25, 0x7a, 0x75] (.long v) = some ds ∧ Num.Digits ds ∧ ds ≠ [] ∧ Num.value ds = v.toNat ∧ ds.length < 120

/-- The text of a segment: the headers, an empty line, the annotation and an empty line, the content. -/
def layout (contentType digits annotation bytes : List UInt8) : List UInt8 :=
  "SHELL-Version 1.0\n".toUTF8.data.toList ++ "Content-Type: ".toUTF8.data.toList ++ contentType ++ "\nContent-Length: ".toUTF8.data.toList ++
    digits ++ "\n\n".toUTF8.data.toList ++ (if annotation = [] then [] else annotation ++ "\n\n".toUTF8.data.toList) ++ bytes

/-- No line of the stream is a "Content-Length:" header with a number from 2^63 up (as `strtoul` reads it, NUL bytes left out). -/
def SmallLengths (bytes : List UInt8) : Prop :=
  ∀ before line after, bytes = before ++ line ++ after → (0x0a : UInt8) ∉ line → lengthField <+: line.filter (· != 0) →
    strtoul (headerValue (line.filter (· != 0)) lengthField.length) < 2 ^ 63

end Shell
end Duck
