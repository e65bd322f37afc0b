import Verif.Model.Xml
import Verif.Model.Printf
/-!
Model of the description of XML elements, Source/DKXML.c 121-172.

The description is written to a mutable string with DKSPrintf (Model/Printf.lean).  The order in which the attributes, a dictionary, are enumerated is a
parameter.  `none` is undefined behaviour.
-/
namespace Duck
namespace Xml
open Printf

/-- One call of DKSPrintf whose result is ignored. -/
def put {σ : Type} (write : Write σ) (libc : Libc) (s : σ) (format : Bytes) (args : List Arg) : Option σ := (printf write libc s format args).map (·.1)

/-- WriteIndent (DKXML.c 121-125): the format is two blanks. -/
def writeIndent {σ : Type} (write : Write σ) (libc : Libc) (s : σ) : Nat → Option σ
  | 0 => some s
  | n + 1 => (put write libc s [0x20, 0x20] []).bind fun s => writeIndent write libc s n

/-- WriteAttribute (DKXML.c 127-132), for each attribute: the format is ` %@="%@"`. -/
def writeAttributes {σ : Type} (write : Write σ) (libc : Libc) (s : σ) : List (Bytes × Bytes) → Option σ
  | [] => some s
  | a :: l => (put write libc s [0x20, 0x25, 0x40, 0x3d, 0x22, 0x25, 0x40, 0x22] [.obj a.1, .obj a.2]).bind fun s => writeAttributes write libc s l

mutual
/-- INTERNAL_DKXMLElementGetDescription (DKXML.c 134-161) for an element, and lines 153-157 for a text; the formats are `<%@`, `>\n`, `</%@>\n` and `%@\n`. -/
def describe {σ : Type} (write : Write σ) (libc : Libc) (order : List (Bytes × Bytes) → List (Bytes × Bytes)) (indent : Nat) (s : σ) : Node → Option σ
  | .elem name attrs kids =>
    (writeIndent write libc s indent).bind fun s =>
    (put write libc s [0x3c, 0x25, 0x40] [.obj name]).bind fun s =>
    (writeAttributes write libc s (order attrs)).bind fun s =>
    (put write libc s [0x3e, 0x0a] []).bind fun s =>
    (describeAll write libc order (indent + 1) s kids).bind fun s =>
    (writeIndent write libc s indent).bind fun s =>
    put write libc s [0x3c, 0x2f, 0x25, 0x40, 0x3e, 0x0a] [.obj name]
  | .text t =>
    (writeIndent write libc s indent).bind fun s =>
    put write libc s [0x25, 0x40, 0x0a] [.obj t]

/-- The loop over the children (DKXML.c 143-158). -/
def describeAll {σ : Type} (write : Write σ) (libc : Libc) (order : List (Bytes × Bytes) → List (Bytes × Bytes)) (indent : Nat) (s : σ) : List Node → Option σ
  | [] => some s
  | k :: ks => (describe write libc order indent s k).bind fun s => describeAll write libc order indent s ks
end

/-- DKXMLElementGetDescription (DKXML.c 163-173): the bytes of the string. -/
def description (libc : Libc) (order : List (Bytes × Bytes) → List (Bytes × Bytes)) (t : Node) : Option Bytes :=
  (describe writeData libc order 0 ⟨[], 0⟩ t).map (·.bytes)

end Xml
end Duck
