import Verif.Model.Egg
/-! What it means that an archive reproduces what was archived, independent of how archives are laid out. -/
namespace Duck
namespace Egg

/-- The key and the kind of a call that adds something. -/
def Put.key : Put → Bytes
  | .object k _ | .coll k _ | .keyed k _ | .text k _ | .binary k _ | .number k _ _ => k

def Put.kind : Put → Kind
  | .object _ _ => .object
  | .coll _ _ => .coll
  | .keyed _ _ => .keyed
  | .text _ _ => .text
  | .binary _ _ => .binary
  | .number _ _ _ => .number

/-- The objects a call refers to. -/
def Put.targets : Put → List Nat
  | .object _ (some (.obj o)) => [o]
  | .coll _ xs => xs.filterMap id
  | .keyed _ ps => ps.flatMap fun p => p.1 :: p.2.toList
  | _ => []

/-- The same elements of `k` bytes in the other byte order. -/
def ElementsReversed (k : Nat) (b b' : Bytes) : Prop :=
  b'.length = b.length ∧ ∀ i < b.length, b'[i]? = b[i / k * k + (k - 1 - i % k)]?

/-- The bytes of a number of elements of `k` bytes on the machine that reads, if they were `b` on the machine that writes. -/
def SameNumber (w r : Order) (k : Nat) (b b' : Bytes) : Prop := if w = r then b' = b else ElementsReversed k b b'

/-- What was read is what was added, when the new object for `o` is `ψ o`. -/
def Matches (w r : Order) (ψ : Nat → Option Nat) : Put → Got → Prop
  | .object _ none, v => v = .object none
  | .object _ (some (.obj o)), v => ∃ id, ψ o = some id ∧ v = .object (some (.obj id))
  | .object _ (some (.cls n)), v => v = .object (some (.cls n))
  | .object _ (some (.sel n)), v => v = .object (some (.sel n))
  | .coll _ xs, v => v = .coll (xs.map (·.bind ψ)) ∧ ∀ o, some o ∈ xs → (ψ o).isSome
  | .keyed _ ps, v => ∃ ys, v = .keyed ys ∧ ys.map (fun y => (some y.1, y.2)) = ps.map (fun p => (ψ p.1, p.2.bind ψ)) ∧
      ∀ k o, (k, some o) ∈ ps → (ψ o).isSome
  | .text _ t, v => v = .text (some t)
  | .binary _ b, v => v = .binary (some b)
  | .number _ e b, v => ∃ b', v = .number (some ((Encoding.getCount e).toNat, b')) ∧ SameNumber w r (Encoding.getTypeSize e) b b'

/-- The encoding of text, binary data and numbers. -/
def Put.enc : Put → Option (BitVec 32)
  | .text _ t => some (Encoding.encode tText (BitVec.ofNat 32 (t.length + 1)))
  | .binary _ b => some (Encoding.encode tBinary (BitVec.ofNat 32 b.length))
  | .number _ e _ => some e
  | _ => none

/-- A key can be read as what was added under it; one of text, binary data or a number can also be asked for its encoding, or be read as one of
    the other two. -/
abbrev Fits (p : Put) (k : Kind) : Prop := p.kind = k ∨ (p.enc.isSome ∧ k ∈ [Kind.encoding, .text, .binary, .number])

/-- What is read under a key whose value is of another kind: its encoding, if that is asked for, and nothing otherwise. -/
def ReadAs (p : Put) (k : Kind) (v : Got) : Prop := if k = .encoding then ∃ e, p.enc = some e ∧ v = .encoding e else v = absent k

/-- What is read under a key is what was added under that key, or nothing if nothing was. -/
def ReadsBack (w r : Order) (ψ : Nat → Option Nat) (ps : List Put) (g : Kind × Bytes) (v : Got) : Prop :=
  (∃ p ∈ ps, p.key = g.2 ∧ p.kind = g.1 ∧ Matches w r ψ p v) ∨ ((∀ p ∈ ps, p.key ≠ g.2) ∧ v = absent g.1) ∨
    ∃ p ∈ ps, p.key = g.2 ∧ p.kind ≠ g.1 ∧ ReadAs p g.1 v

/-- A call that can be archived: names are known and have no NUL byte, sizes are below 2^24, numbers are numbers and come with their
    bytes, and a collection of several objects holds no NULL. -/
def PutOk (R : Reader) : Put → Prop
  | .object _ (some (.cls n)) => R.isClass n = true ∧ 0 ∉ n ∧ n.length + 1 < 2 ^ 24
  | .object _ (some (.sel n)) => R.isSelector n = true ∧ 0 ∉ n ∧ n.length + 1 < 2 ^ 24
  | .object _ _ => True
  | .coll _ xs => xs.length < 2 ^ 24 ∧ (2 ≤ xs.length → none ∉ xs)
  | .keyed _ ps => ps.length < 2 ^ 24
  | .text _ t => t.length + 1 < 2 ^ 24
  | .binary _ b => b.length < 2 ^ 24
  | .number _ e b => Encoding.isNumber e = true ∧ Encoding.getTypeSize e ∈ [1, 2, 4, 8] ∧
      b.length = Encoding.getTypeSize e * (Encoding.getCount e).toNat

/-- A call does not refer to the object `root`, nor to a class or selector called `name`. -/
def Avoids (root : Option Nat) (name : Bytes) (p : Put) : Prop :=
  (∀ o ∈ p.targets, some o ≠ root) ∧
  (∀ k n, p = .object k (some (.cls n)) ∨ p = .object k (some (.sel n)) → n ≠ name)

/-- Keys that are added or read together can be told apart: different ones have different hashes, and each is added once and read as
    what was added. -/
def KeysOk (ps : List Put) (gs : List (Kind × Bytes)) : Prop :=
  ps.Pairwise (fun p q => strhash32 p.key ≠ strhash32 q.key) ∧
  ∀ p ∈ ps, ∀ g ∈ gs, strhash32 p.key = strhash32 g.2 → p.key = g.2 ∧ Fits p g.1

/-- The objects `U` can be archived by one machine and unarchived by the other: nothing outside `U` is referred to, and every object,
    call and key is fit for it. -/
structure Archivable (W : World) (R : Reader) (U : List Nat) : Prop where
  closed : ∀ o ∈ U, ∀ p ∈ W.puts o, ∀ t ∈ p.targets, t ∈ U
  egg : ∀ o ∈ U, W.egg o = true
  cls : ∀ o ∈ U, R.isClass (W.cls o) = true ∧ R.egg (W.cls o) = true ∧ 0 ∉ W.cls o ∧ (W.cls o).length + 1 < 2 ^ 24
  puts : ∀ o ∈ U, ∀ p ∈ W.puts o, PutOk R p
  keys : ∀ o ∈ U, KeysOk (W.puts o) (R.gets (W.cls o))

/-- The new object `i` is what the `initWithEgg` method of the class of `o` makes of what `o` added. -/
def IsCopy (W : World) (R : Reader) (w r : Order) (ψ : Nat → Option Nat) (st : USt) (o i : Nat) : Prop :=
  ∃ gots, st.heap.lookup i = some (W.cls o, gots) ∧ gots.length = (R.gets (W.cls o)).length ∧
    ∀ (k : Nat) g v, (R.gets (W.cls o))[k]? = some g → gots[k]? = some v → ReadsBack w r ψ (W.puts o) g v

/-- `ψ` pairs every object met with one new object of its own, which is a copy of it. -/
def Copies (W : World) (R : Reader) (w r : Order) (ψ : Nat → Option Nat) (st : USt) : Prop :=
  (∀ a b i, ψ a = some i → ψ b = some i → a = b) ∧ (∀ o i, ψ o = some i → IsCopy W R w r ψ st o i) ∧
    ∀ e ∈ st.heap, ∃ o, ψ o = some e.1

end Egg
end Duck
