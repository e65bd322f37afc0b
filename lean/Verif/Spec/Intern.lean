import Verif.Model.Intern
/-!
# What strings are: plain texts

An object is its class and its bytes; equal strings are those with the same bytes before the first NUL; a literal is one object for one text.
The rules of the partial theorem are also here (results `none`): DKStringSetByteLength is only called for strings that were not hashed or compared since their last
edit (`seen`), a string made for the class of constant strings is a C string with its right length, and literals have no NUL.
-/
namespace Duck
namespace Intern
namespace Texts

/-- A string: its class, its bytes, and whether it (or the string it is a copy of) was hashed or compared since it was last edited. -/
structure Thing where
  cls : Cls
  bytes : List UInt8
  seen : Bool
deriving DecidableEq, Repr

abbrev World := List Thing

/-- The text of a string. -/
def text (bytes : List UInt8) : List UInt8 := bytes.takeWhile (· != 0)

/-- The constant string with this text. -/
def constant (w : World) (t : List UInt8) : Option Nat := w.findIdx? fun x => decide (x.cls = .constant) && x.bytes == t

/-- The literal with this text. -/
def literal (w : World) (t : List UInt8) : World × Nat :=
  match constant w t with
  | some p => (w, p)
  | none => (w ++ [⟨.constant, t, true⟩], w.length)

/-- An immutable string with these bytes: the literal "" if there are none. -/
def immutable (w : World) (bytes : List UInt8) (seen : Bool) : World × Nat :=
  if bytes = [] then literal w [] else (w ++ [⟨.plain, bytes, seen⟩], w.length)

/-- A mutable string with these bytes. -/
def changeable (w : World) (bytes : List UInt8) (seen : Bool) : World × Nat := (w ++ [⟨.changeable, bytes, seen⟩], w.length)

/-- The string was hashed or compared. -/
def look (w : World) (i : Nat) : World := w.modify i fun x => { x with seen := true }

/-- An edit, which only mutable strings have. -/
def edit (w : World) (i : Nat) (f : Thing → Thing) : Option (World × Out) :=
  (w[i]?).map fun x => if x.cls = .changeable then (w.set i (f x), .nothing) else (w, .nothing)

/-- A result that is an object. -/
def ofNew (r : World × Nat) : World × Out := (r.1, .obj r.2)

/-- A new string of a class. -/
def init (w : World) (cls : Cls) (mem : List UInt8) (length : Nat) : Option (World × Nat) :=
  if length ≤ mem.length then match cls with
    | .plain => some (immutable w (mem.take length) false)
    | .changeable => some (changeable w (mem.take length) false)
    | .constant => if 0 ∈ mem ∧ (text mem).length = length then
        some (match constant w (mem.take length) with
          | some p => (w, p)
          | none => immutable w (mem.take length) false)
      else none
  else none

/-- One call. -/
def step (w : World) : Op → Option (World × Out)
  | .literal t => if 0 ∈ t then none else some (ofNew (literal w t))
  | .init cls mem length => (init w cls mem length).map ofNew
  | .initWithString isMutable i => (w[i]?).map fun x => ofNew (if isMutable then changeable w x.bytes x.seen else immutable w x.bytes x.seen)
  | .copy i => (w[i]?).map fun x => if x.cls = .changeable then ofNew (immutable w x.bytes x.seen) else (w, .obj i)
  | .mutableCopy i => (w[i]?).map fun x => ofNew (changeable w x.bytes x.seen)
  | .makeImmutable i => edit w i fun x => { x with cls := .plain }
  | .replace i loc len xs => edit w i fun x =>
      if loc + len ≤ x.bytes.length then { x with bytes := x.bytes.take loc ++ xs ++ x.bytes.drop (loc + len), seen := false } else x
  | .setByteLength i n => (w[i]?).bind fun x =>
      if x.cls = .changeable ∧ x.seen = true ∧ n ≠ x.bytes.length then none
      else edit w i fun x => { x with bytes := x.bytes.take n ++ List.replicate (n - x.bytes.length) 0 }
  | .substring i loc len => (w[i]?).bind fun x => if loc + len ≤ x.bytes.length then some (ofNew (immutable w ((x.bytes.drop loc).take len) false)) else none
  | .hash i => (w[i]?).map fun x => (look w i, .hash (Data.strhash (text x.bytes)))
  | .equal i j => (w[i]?).bind fun x => (w[j]?).map fun y =>
      if i = j then (w, .bool true) else (look (look w i) j, .bool (text x.bytes == text y.bytes))
  | .read i => (w[i]?).map fun x => (w, .bytes x.bytes)

/-- A whole program, and the answers of its calls. -/
def run : World → List Op → Option (World × List Out)
  | w, [] => some (w, [])
  | w, op :: ops => (step w op).bind fun r => (run r.1 ops).map fun q => (q.1, r.2 :: q.2)

end Texts
end Intern
end Duck
