import Verif.Model.Encoding
/-! Bytes of a word, and the sizes of the encoded C types. -/
namespace Duck
namespace Encoding

/-- Byte `k` of a word, least significant first. -/
def byte {w : Nat} (x : BitVec w) (k : Nat) : BitVec 8 := x.extractLsb' (8 * k) 8

/-- `y` has the `n` bytes of `x` in the opposite order. -/
def BytesReversed {w : Nat} (n : Nat) (x y : BitVec w) : Prop := ∀ k < n, byte y k = byte x (n - 1 - k)

/-- Bytes of a word in the order they lie in memory. -/
def inMemory (littleEndianHost : Bool) (x : BitVec 32) : List (BitVec 8) :=
  if littleEndianHost then [byte x 0, byte x 1, byte x 2, byte x 3] else [byte x 3, byte x 2, byte x 1, byte x 0]

/-- The encodable C types and their sizes: signed and unsigned integers of 1, 2, 4 and 8 bytes, float and double. -/
def numberSizes : List (Nat × Nat) :=
  [(8, 1), (9, 2), (11, 4), (15, 8), (16, 1), (17, 2), (19, 4), (23, 8), (24, 4), (25, 8)]

end Encoding
end Duck
