import Verif.Model.External
import Verif.Spec.Seq
/-! What programs with memory of the caller do: an object has a sequence of bytes, or shows the first bytes of some memory of the caller.  There are no blocks,
    pointers and capacities here. -/
namespace Duck
namespace External
namespace Plain

/-- The content of an object: its own bytes, or the first `n` bytes of memory `k` of the caller, as they are at the time. -/
inductive Content where
  | own (xs : List UInt8)
  | lent (k n : Nat)

structure Thing where
  isString : Bool
  isMutable : Bool
  rc : Nat
  content : Content

structure World where
  lent : List (Option (List UInt8))
  things : List (Option Thing)

def World.live (w : World) (i : Nat) : Option Thing := (w.things[i]?).join

/-- The bytes of an object. -/
def World.bytes (w : World) : Content → List UInt8
  | .own xs => xs
  | .lent k n => (((w.lent[k]?).join).getD []).take n

def World.add (w : World) (t : Thing) : World × Out := (⟨w.lent, w.things ++ [some t]⟩, .obj w.things.length)

def World.put (w : World) (i : Nat) (t : Option Thing) : World := ⟨w.lent, w.things.set i t⟩

/-- Is memory `k` shown by the object? -/
def Content.shows (k : Nat) : Content → Bool
  | .own _ => false
  | .lent j _ => j == k

/-- Does a live object show memory `k`? -/
def World.shown (w : World) (k : Nat) : Bool := w.things.any fun t => match t with
  | some t => t.content.shows k
  | none => false

/-- Replacing the bytes of a live object, refused for an immutable one. -/
def World.edit (w : World) (i : Nat) (f : List UInt8 → List UInt8) : Option (World × Out) :=
  (w.live i).map fun t =>
    (if t.isMutable then w.put i (some { t with content := .own (f (w.bytes t.content)) }) else w, .nothing)

/-- Every call; `none`: the program breaks the rules.  The rules: memory of the caller is not used after it was given back, and not given back while an object
    shows it; only immutable objects show memory of the caller, and no more than there is; texts end with a NUL; dead objects are not used; data is not
    appended to itself. -/
def step (w : World) : Op → Option (World × Out)
  | .callerNew xs => some (⟨w.lent ++ [some xs], w.things⟩, .nothing)
  | .callerWrite k off xs => ((w.lent[k]?).join).bind fun old =>
      if off + xs.length ≤ old.length then some (⟨w.lent.set k (some (Duck.Spec.splice old off xs.length xs)), w.things⟩, .nothing) else none
  | .callerFree k => ((w.lent[k]?).join).bind fun _ => if w.shown k then none else some (⟨w.lent.set k none, w.things⟩, .nothing)
  | .data isMutable xs => some (w.add ⟨false, isMutable, 1, .own xs⟩)
  | .dataLength isMutable n => some (w.add ⟨false, isMutable, 1, .own (List.replicate n 0)⟩)
  | .capacity isString _ => some (w.add ⟨isString, true, 1, .own []⟩)
  | .dataNoCopy isMutable k n => ((w.lent[k]?).join).bind fun xs =>
      if isMutable = false ∧ n ≤ xs.length then some (w.add ⟨false, false, 1, .lent k n⟩) else none
  | .string isMutable xs => some (w.add ⟨true, isMutable, 1, .own xs⟩)
  | .stringNoCopy k => ((w.lent[k]?).join).bind fun xs =>
      if 0 ∈ xs then some (w.add ⟨true, false, 1, .lent k (xs.takeWhile (· ≠ 0)).length⟩) else none
  | .retain i => (w.live i).map fun t => (w.put i (some { t with rc := t.rc + 1 }), .nothing)
  | .release i => (w.live i).map fun t => (w.put i (if t.rc > 1 then some { t with rc := t.rc - 1 } else none), .nothing)
  | .copy i => (w.live i).map fun t =>
      if t.isMutable then w.add ⟨t.isString, !t.isString, 1, .own (w.bytes t.content)⟩
      else (w.put i (some { t with rc := t.rc + 1 }), .obj i)
  | .mutableCopy i => (w.live i).map fun t => w.add ⟨t.isString, true, 1, .own (w.bytes t.content)⟩
  | .makeImmutable i => (w.live i).map fun t => (w.put i (some { t with isMutable := false }), .nothing)
  | .replace i loc len xs => w.edit i fun old => if loc + len ≤ old.length then Duck.Spec.splice old loc len xs else old
  | .appendData i j => if i = j then none else (w.live j).bind fun t => w.edit i fun old => old ++ w.bytes t.content
  | .setLength i n => w.edit i fun old => old.take n ++ List.replicate (n - old.length) 0
  | .poke i off x => w.edit i fun old => old.set off x
  | .read i => (w.live i).map fun t => (w, .bytes (w.bytes t.content))

def start : World := ⟨[], []⟩

def run : World → List Op → Option (World × List Out)
  | w, [] => some (w, [])
  | w, op :: ops => (step w op).bind fun r => (run r.1 ops).map fun q => (q.1, r.2 :: q.2)

end Plain

/-- The blocks the library has not given back. -/
def State.blocks (s : State) : List (Block UInt8) := s.mem.heap.filterMap id

/-- The objects that are alive. -/
def State.alive (s : State) : List Obj := s.objs.filterMap id

end External
end Duck
