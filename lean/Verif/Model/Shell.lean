import Verif.Model.Printf
import Verif.Model.Text
import Verif.Model.StrToNum
/-
Model of Source/DKShell.c: segments of a multipart stream, with a content type, an annotation and a content of known length.

The stream is read as a data object or string (Model/Data.lean, Model/Printf.lean) and may be any stream when it is written.  Objects
are text (DKString), data (DKData) or any other object, which has no Buffer interface.  `none` is undefined behaviour.
The lock of the registry of encoders makes its uses atomic, so that the registry is a value here.
-/
namespace Duck
namespace Shell
open Unicode Printf

/-- An object to write or read: a string, a data object, or an object without the Buffer interface (DKString.c 138-146, DKData.c 94-102). -/
inductive Obj (α : Type) where
  | text (bytes : List UInt8)
  | data (bytes : List UInt8)
  | other (x : α)
  deriving DecidableEq

/-- struct DKShellEncoder, DKShell.c:61-69, without the content type (the key of the registry) and the context (part of the functions);
    the functions may return NULL. -/
structure Encoder (α : Type) where
  encode : Obj α → Option (Obj α)
  decode : Obj α → Option (Obj α)

/-- The dictionary of encoders, DKShell.c:85-103 -/
abbrev Registry (α : Type) := List UInt8 → Option (Encoder α)

/-- DKShellRegisterContentType, DKShell.c:141-152: DKDictionarySetObject replaces an encoder of the same content type. -/
def register {α : Type} (reg : Registry α) (contentType : List UInt8) (e : Encoder α) : Registry α :=
  fun t => if t = contentType then some e else reg t

/-- DKShellGetEncoderForContentType, DKShell.c:158-169; a NULL content type is not found. -/
def encoderFor {α : Type} (reg : Registry α) (contentType : Option (List UInt8)) : Option (Encoder α) := contentType.bind reg

/-- "binary/egg", DKShell.h:76 -/
def typeEgg : List UInt8 := [0x62, 0x69, 0x6e, 0x61, 0x72, 0x79, 0x2f, 0x65, 0x67, 0x67]
/-- "text/json", DKShell.h:79 -/
def typeJson : List UInt8 := [0x74, 0x65, 0x78, 0x74, 0x2f, 0x6a, 0x73, 0x6f, 0x6e]
/-- "text/xml", DKShell.h:80 -/
def typeXml : List UInt8 := [0x74, 0x65, 0x78, 0x74, 0x2f, 0x78, 0x6d, 0x6c]

/-- The built-in encoders, DKShell.c:85-103, 178-242; eggs, JSON and XML are parameters.  XML is only decoded. -/
def builtIn {α : Type} (egg json : Encoder α) (xmlParse : Obj α → Option (Obj α)) : Registry α :=
  register (register (register (fun _ => none) typeEgg egg) typeJson json) typeXml { encode := some, decode := xmlParse }

/-- DKShellHeaderString, DKShell.c:47: "SHELL-Version 1.0" -/
def headerString : List UInt8 := [0x53, 0x48, 0x45, 0x4c, 0x4c, 0x2d, 0x56, 0x65, 0x72, 0x73, 0x69, 0x6f, 0x6e, 0x20, 0x31, 0x2e, 0x30]
/-- "Content-Type:", DKShell.c:300 -/
def typeField : List UInt8 := [0x43, 0x6f, 0x6e, 0x74, 0x65, 0x6e, 0x74, 0x2d, 0x54, 0x79, 0x70, 0x65, 0x3a]
/-- "Content-Length:", DKShell.c:306 -/
def lengthField : List UInt8 := [0x43, 0x6f, 0x6e, 0x74, 0x65, 0x6e, 0x74, 0x2d, 0x4c, 0x65, 0x6e, 0x67, 0x74, 0x68, 0x3a]
/-- "text", DKShell.c:333 -/
def textPrefix : List UInt8 := [0x74, 0x65, 0x78, 0x74]

/-! ### Reading -/

/-- GetHeaderValue, DKShell.c:252-260, on a line without its terminator -/
def headerValue (s : List UInt8) (skip : Nat) : List UInt8 := (s.drop skip).dropWhile Num.isSpace

/-- The digits of `strtoul`, C11 7.22.1.4: the value, which stays at ULONG_MAX when it is exceeded -/
def digitValue (ds : List UInt8) : Nat := min (ds.foldl (fun a b => a * 10 + (b.toNat - 48)) 0) (2 ^ 64 - 1)

/-- `strtoul( s, NULL, 10 )`, C11 7.22.1.4: blanks, an optional sign, digits; a minus sign negates in the unsigned type -/
def strtoul (s : List UInt8) : Nat :=
  let s := s.dropWhile Num.isSpace
  if s.head? = some 0x2d then (2 ^ 64 - digitValue (s.tail.takeWhile Num.isDigit)) % 2 ^ 64
  else if s.head? = some 0x2b then digitValue (s.tail.takeWhile Num.isDigit)
  else digitValue (s.takeWhile Num.isDigit)

/-- The loop over the headers, DKShell.c:292-311: the stream, the content type and the content length.  The lines of DKGets have no NUL. -/
def readHeaders : Nat → Data.Obj → Option (List UInt8) → Nat → Option (Data.Obj × Option (List UInt8) × Nat)
  | 0, _, _, _ => none
  | fuel + 1, d, ct, len => (gets d).bind fun r =>
    if r.2 = [] then some (r.1, ct, len)
    else if typeField.isPrefixOf r.2 then readHeaders fuel r.1 (some (headerValue r.2 13)) len
    else if lengthField.isPrefixOf r.2 then readHeaders fuel r.1 ct (strtoul (headerValue r.2 15))
    else readHeaders fuel r.1 ct len

/-- What DKShellRead returns and stores in its output parameters -/
structure Result (α : Type) where
  returned : Nat
  object : Option (Obj α)
  contentType : Option (List UInt8)
  annotation : Option (List UInt8)
  deriving DecidableEq

/-- The object that the content is read into, DKShell.c:331-337: text if the content type starts with "text", else data -/
def container {α : Type} (ct : Option (List UInt8)) (bytes : List UInt8) : Obj α :=
  if ct.any fun t => textPrefix.isPrefixOf t then .text bytes else .data bytes

/-- Decoding, DKShell.c:350-358 -/
def decoded {α : Type} (reg : Registry α) (raw : Bool) (ct : Option (List UInt8)) (object : Obj α) : Option (Obj α) :=
  if raw then some object
  else match encoderFor reg ct with
    | some e => e.decode object
    | none => some object

/-- Reading the content, DKShell.c:328-360.  A length from 2^63 up is a negative DKIndex for DKBufferSetLength, which then writes the
    terminator outside the buffer. -/
def readContent {α : Type} (reg : Registry α) (raw : Bool) (d : Data.Obj) (ct : Option (List UInt8)) (len : Nat) (annotation : Option (List UInt8)) :
    Option (Data.Obj × Result α) :=
  if len = 0 then some (d, ⟨1, none, ct, annotation⟩)
  else if 2 ^ 63 ≤ len then none
  else (Data.read d 1 len).map fun r =>
    if r.2.2 ≠ len then (r.1, ⟨0, none, ct, annotation⟩) else (r.1, ⟨1, decoded reg raw ct (container ct r.2.1), ct, annotation⟩)

/-- Reading the annotation, DKShell.c:313-325 -/
def readAnnotation {α : Type} (reg : Registry α) (raw : Bool) (d : Data.Obj) (ct : Option (List UInt8)) (len : Nat) : Option (Data.Obj × Result α) :=
  (gets d).bind fun a => (Text.getLength a.2).bind fun n =>
    if n > 0 then (getc a.1).bind fun c => if c.2 ≠ 0x0a then some (c.1, ⟨0, none, ct, none⟩) else readContent reg raw c.1 ct len (some a.2)
    else readContent reg raw a.1 ct len none

/-- DKShellRead, DKShell.c:266-361; `raw` is the option DKShellNoAutoEncoding. -/
def read {α : Type} (reg : Registry α) (raw : Bool) (d : Data.Obj) : Option (Data.Obj × Result α) :=
  (gets d).bind fun p => (Text.getLength p.2).bind fun n =>
    if n = 0 then some (p.1, ⟨0, none, none, none⟩)
    else if p.2 ≠ headerString then some (p.1, ⟨0, none, none, none⟩)
    else (readHeaders (p.1.bytes.length + 1) p.1 none 0).bind fun h => readAnnotation reg raw h.1 h.2.1 h.2.2

/-! ### Writing -/

/-- The Buffer interface, DKShell.c:390-396, 412: the bytes of the object; an object without it gives `none`. -/
def buffer {α : Type} : Obj α → Option (List UInt8)
  | .text bs => some bs
  | .data bs => some bs
  | .other _ => none

/-- Encoding, DKShell.c:381-387: NULL is `none` -/
def encoded {α : Type} (reg : Registry α) (raw : Bool) (ct : Option (List UInt8)) (object : Obj α) : Option (Obj α) :=
  if raw then some object
  else match encoderFor reg ct with
    | some e => e.encode object
    | none => some object

/-- Writing the header, DKShell.c:398-402: the formats are "%s\n", "Content-Type: %s\n", "Content-Length: %zu\n". -/
def writeHeader {σ : Type} (write : Write σ) (libc : Libc) (s : σ) (ct : List UInt8) (len : Nat) : Option σ :=
  (printf write libc s [0x25, 0x73, 0x0a] [.cstr (some headerString)]).bind fun s1 =>
    (printf write libc s1.1 (typeField ++ [0x20, 0x25, 0x73, 0x0a]) [.cstr (some ct)]).bind fun s2 =>
      (printf write libc s2.1 (lengthField ++ [0x20, 0x25, 0x7a, 0x75, 0x0a]) [.long (BitVec.ofNat 64 len)]).map fun s3 =>
        (putc write s3.1 0x0a).1

/-- Writing the annotation, DKShell.c:404-409, of a C string -/
def writeAnnotation {σ : Type} (write : Write σ) (libc : Libc) (s : σ) (annotation : List UInt8) : Option σ :=
  if annotation ≠ [] then
    (printf write libc s [0x25, 0x73, 0x0a] [.cstr (some annotation)]).map fun s1 => (putc write s1.1 0x0a).1
  else some s

/-- Writing the content, DKShell.c:411-417 -/
def writeContent {σ : Type} (write : Write σ) (s : σ) (bytes : List UInt8) : σ × Nat :=
  ((write s bytes).1, if (write s bytes).2 = bytes.length then 1 else 0)

/-- DKShellWrite, DKShell.c:367-418; `raw` is the option DKShellNoAutoEncoding.  The content type may be NULL; a NULL annotation is an
    empty one.  A NULL encoded object is dereferenced by DKQueryInterface. -/
def write {α σ : Type} (write : Write σ) (libc : Libc) (reg : Registry α) (raw : Bool) (s : σ) (object : Obj α) (ct : Option (List UInt8))
    (annotation : List UInt8) : Option (σ × Nat) :=
  if (Data.cstr annotation).any fun b => b == 0x0d || b == 0x0a then some (s, 0)
  else (encoded reg raw ct object).bind fun e =>
    match buffer e with
    | none => some (s, 0)
    | some bytes => (writeHeader write libc s (Data.cstr (ct.getD [])) bytes.length).bind fun s1 =>
      (writeAnnotation write libc s1 (Data.cstr annotation)).map fun s2 => writeContent write s2 bytes

end Shell
end Duck
