import Verif.Model.Data
/-! A file: what C32 says a data object behaves like.  Uses only the names of the calls and results from the model. -/
namespace Duck
namespace Data

/-- Content and position. -/
structure File where
  content : List UInt8
  pos : Nat
deriving DecidableEq, Repr

/-- The position, clamped to the content. -/
def File.at (f : File) : Nat := min f.pos f.content.length

/-- A position clamped to `0..n`. -/
def clamp (c : Int) (n : Nat) : Nat := min c.toNat n

/-- Each call on a file; `none` for calls outside the contract (elements of size zero). -/
def File.step (f : File) : Op → Option (File × Out)
  | .seek o .set => some ({ f with pos := clamp o f.content.length }, .none)
  | .seek o .cur => some ({ f with pos := clamp (f.pos + o) f.content.length }, .none)
  | .seek o .end => some ({ f with pos := clamp (f.content.length + o) f.content.length }, .none)
  | .tell => some (f, .pos f.pos)
  | .read size count =>
    let got := (f.content.drop f.at).take (size * count)
    if size = 0 then none else some ({ f with pos := f.at + got.length }, .bytes got (got.length / size))
  | .write b count => some (⟨f.content.take f.at ++ b ++ f.content.drop (f.at + b.length), f.at + b.length⟩, .count count)
  | .setLength n => some ({ f with content := f.content.take n ++ List.replicate (n - f.content.length) 0 }, .none)
  | .increaseLength n => some ({ f with content := f.content ++ List.replicate n 0 }, .none)
  | .append bs => some ({ f with content := f.content ++ bs }, .none)
  | .replace loc len bs =>
    if 0 ≤ loc ∧ 0 ≤ len ∧ loc + len ≤ f.content.length then
      some ({ f with content := f.content.take loc.toNat ++ bs ++ f.content.drop (loc.toNat + len.toNat) }, .none)
    else some (f, .none)
  | .getBytes loc len =>
    if 0 ≤ loc ∧ 0 ≤ len ∧ loc + len ≤ f.content.length ∧ loc < f.content.length then
      some (f, .bytes ((f.content.drop loc.toNat).take len.toNat) len.toNat)
    else some (f, .none)

/-- A history. -/
def File.run : File → List Op → Option (File × List Out)
  | f, [] => some (f, [])
  | f, op :: ops => (f.step op).bind fun r => (File.run r.1 ops).map fun q => (q.1, r.2 :: q.2)

/-- A call that does what its caller may rely on when the numbers are 64-bit numbers: no sum, and no number of bytes, gets larger; the
    elements of a read are not empty. -/
def Op.Defined (pos : Nat) : Op → Prop
  | .seek o .cur => pos + o < 2 ^ 63
  | .read size count => 0 < size ∧ size * count % 2 ^ 64 < 2 ^ 63
  | .replace loc len _ | .getBytes loc len => 0 ≤ loc ∧ 0 ≤ len → loc + len < 2 ^ 63
  | _ => True

/-- The call does not seek backwards from the end, nor ask for more bytes than there can be. -/
def Op.NotBeforeEnd : Op → Prop
  | .seek o .end => 0 ≤ o
  | .read size count => size * count < 2 ^ 63
  | _ => True

end Data
end Duck
