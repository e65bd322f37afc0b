/-!
Model of Source/DKNumber.c 65-305 (cast and compare functions) and 447-1193 (numbers), on memory bytes.

A number's value is a block of bytes, little-endian (the byte order of the hosts the project targets).  Integers are two's
complement, `float` and `double` IEEE 754 binary32 and binary64, conversions to them round to nearest even.  Conversions of a
floating-point value outside the target's range to an integer are undefined behaviour in C: `none`.  Encodings are given by
their type and shape; their packing into 32 bits is Model/Encoding.lean.
-/
namespace Duck
namespace Number

/-! ### Bytes -/

abbrev Mem := List (BitVec 8)

/-- The `n` bytes of `v`, least significant first. -/
def leBytes : Nat → Nat → List (BitVec 8)
  | 0, _ => []
  | n + 1, v => BitVec.ofNat 8 v :: leBytes n (v / 256)

/-- The value of bytes, least significant first. -/
def leNat : List (BitVec 8) → Nat
  | [] => 0
  | b :: bs => b.toNat + 256 * leNat bs

/-- Reading `n` bytes at `off`; `none` outside the block. -/
def read (m : Mem) (off n : Nat) : Option Nat := if off + n ≤ m.length then some (leNat ((m.drop off).take n)) else none

/-- Writing `n` bytes at `off`; `none` outside the block. -/
def write (m : Mem) (off n v : Nat) : Option Mem :=
  if off + n ≤ m.length then some (m.take off ++ leBytes n v ++ m.drop (off + n)) else none

/-! ### Types (DKEncoding.h 55-87) -/

/-- The number types. -/
inductive Ty where
  | i8 | i16 | i32 | i64 | u8 | u16 | u32 | u64 | f32 | f64
deriving DecidableEq, Repr

/-- sizeof. -/
def Ty.size : Ty → Nat
  | .i8 | .u8 => 1
  | .i16 | .u16 => 2
  | .i32 | .u32 | .f32 => 4
  | .i64 | .u64 | .f64 => 8

/-- Bits. -/
def Ty.bits (t : Ty) : Nat := 8 * t.size

/-- Signed integers. -/
def Ty.signed : Ty → Bool
  | .i8 | .i16 | .i32 | .i64 => true
  | _ => false

/-- A floating-point format: precision, the exponent field of infinities, and the smallest positive number in units of 2^-1074. -/
structure Fmt where
  p : Nat
  top : Nat
  unit : Nat

/-- binary32 and binary64. -/
def Ty.fmt : Ty → Option Fmt
  | .f32 => some ⟨24, 255, 2 ^ 925⟩
  | .f64 => some ⟨53, 2047, 1⟩
  | _ => none

/-- What a bit pattern stands for: a number (times 2^1074, which makes all of them integers), an infinity, or not a number. -/
inductive Num where
  | fin (n : Int)
  | inf (neg : Bool)
  | nan
deriving DecidableEq, Repr

/-- 2^1074. -/
def scale : Nat := 2 ^ 1074

/-- Integer of a bit pattern. -/
def intVal (t : Ty) (b : Nat) : Int := if t.signed && decide (2 ^ (t.bits - 1) ≤ b) then (b : Int) - 2 ^ t.bits else b

/-- The sign bit of a floating-point pattern. -/
def signBit (t : Ty) (b : Nat) : Bool := decide (2 ^ (t.bits - 1) ≤ b)

/-- The magnitude of a floating-point pattern without its sign bit. -/
def Fmt.decode (f : Fmt) (mag : Nat) : Nat :=
  if mag / 2 ^ (f.p - 1) = 0 then (mag % 2 ^ (f.p - 1)) * f.unit
  else (2 ^ (f.p - 1) + mag % 2 ^ (f.p - 1)) * 2 ^ (mag / 2 ^ (f.p - 1) - 1) * f.unit

/-- Negate if the sign bit is set. -/
def withSign (neg : Bool) (n : Nat) : Int := if neg then -(n : Int) else n

/-- What a floating-point pattern stands for. -/
def floatVal (t : Ty) (f : Fmt) (b : Nat) : Num :=
  let mag := b % 2 ^ (t.bits - 1)
  if mag / 2 ^ (f.p - 1) = f.top then (if mag % 2 ^ (f.p - 1) = 0 then .inf (signBit t b) else .nan)
  else .fin (withSign (signBit t b) (f.decode mag))

/-- What a pattern of a type stands for. -/
def val (t : Ty) (b : Nat) : Num :=
  match t.fmt with
  | none => .fin (intVal t b * scale)
  | some f => floatVal t f b

/-! ### Conversion (DefineCastFunction, DKNumber.c 70-75) -/

/-- Round to the nearest multiple of `q`, ties to even; the quotient. -/
def roundEven (n q : Nat) : Nat := if q < 2 * (n % q) ∨ (q = 2 * (n % q) ∧ (n / q) % 2 = 1) then n / q + 1 else n / q

/-- The exponent of the last place of a magnitude. -/
def Fmt.lastPlace (f : Fmt) (n : Nat) : Nat := Nat.log2 (n / f.unit) - (f.p - 1)

/-- The pattern nearest to a magnitude, infinity past the largest. -/
def Fmt.encode (f : Fmt) (n : Nat) : Nat :=
  min (f.lastPlace n * 2 ^ (f.p - 1) + roundEven n (f.unit * 2 ^ f.lastPlace n)) (f.top * 2 ^ (f.p - 1))

/-- Add the sign bit. -/
def addSign (t : Ty) (neg : Bool) (mag : Nat) : Nat := if neg then mag + 2 ^ (t.bits - 1) else mag

/-- Smallest and largest value of an integer type. -/
def Ty.lo (t : Ty) : Int := if t.signed then -(2 ^ (t.bits - 1)) else 0
def Ty.hi (t : Ty) : Int := if t.signed then 2 ^ (t.bits - 1) - 1 else 2 ^ t.bits - 1

/-- The pattern of an integer in an integer type: modulo 2^bits. -/
def wrap (t : Ty) (v : Int) : Nat := (v % 2 ^ t.bits).toNat

/-- Number to an integer type, from floating point: truncation toward zero, undefined outside the range. -/
def truncTo (t : Ty) : Num → Option Nat
  | .fin n => if t.lo ≤ n.tdiv scale ∧ n.tdiv scale ≤ t.hi then some (wrap t (n.tdiv scale)) else none
  | _ => none

/-- A quiet NaN of a format. -/
def Fmt.nan (f : Fmt) : Nat := f.top * 2 ^ (f.p - 1) + 2 ^ (f.p - 2)

/-- Number to a floating-point type; `neg` is the sign. -/
def roundTo (t : Ty) (f : Fmt) (neg : Bool) : Num → Nat
  | .fin n => addSign t neg (f.encode n.natAbs)
  | .inf _ => addSign t neg (f.top * 2 ^ (f.p - 1))
  | .nan => addSign t neg f.nan

/-- `(ytype)x` for `x` of type `xt` with pattern `b`. -/
def cast (xt yt : Ty) (b : Nat) : Option Nat :=
  match xt.fmt, yt.fmt with
  | none, none => some (wrap yt (intVal xt b))
  | none, some g => some (roundTo yt g (decide (intVal xt b < 0)) (val xt b))
  | some _, none => truncTo yt (val xt b)
  | some _, some g => some (roundTo yt g (signBit xt b) (val xt b))

/-- Cast_x_to_y (70-75): `n` iterations from `i`; `x` and `y` point `xo` and `yo` bytes into the blocks. -/
def castLoop (xt yt : Ty) (x : Mem) (xo yo : Nat) : Nat → Nat → Mem → Option Mem
  | 0, _, y => some y
  | n + 1, i, y => (read x (xo + i * xt.size) xt.size).bind fun b => (cast xt yt b).bind fun c =>
      (write y (yo + i * yt.size) yt.size c).bind fun y => castLoop xt yt x xo yo n (i + 1) y

/-! ### Comparison (DefineCmpFunction, 89-102) -/

/-- `<` on numbers of one type: false if either is not a number. -/
def Num.lt : Num → Num → Bool
  | .fin a, .fin b => decide (a < b)
  | .fin _, .inf neg => !neg
  | .inf neg, .fin _ => neg
  | .inf a, .inf b => a && !b
  | _, _ => false

/-- One iteration: `x < (xtype)y`, then `x > (xtype)y`. -/
def cmpElem (xt yt : Ty) (x y : Nat) : Option Int :=
  (cast yt xt y).map fun y => if (val xt x).lt (val xt y) then 1 else if (val xt y).lt (val xt x) then -1 else 0

/-- Cmp_x_to_y. -/
def cmpLoop (xt yt : Ty) (x y : Mem) : Nat → Nat → Option Int
  | 0, _ => some 0
  | n + 1, i => (read x (i * xt.size) xt.size).bind fun a => (read y (i * yt.size) yt.size).bind fun b =>
      (cmpElem xt yt a b).bind fun c => if c ≠ 0 then some c else cmpLoop xt yt x y n (i + 1)

/-! ### Numbers -/

/-- The shape of an encoding (DKEncoding.h 106-174): vectors have one row. -/
structure Enc where
  ty : Ty
  matrix : Bool
  rows : Nat
  cols : Nat
deriving DecidableEq, Repr

/-- DKEncodingGetCount, DKEncodingGetSize. -/
def Enc.count (e : Enc) : Nat := e.rows * e.cols
def Enc.size (e : Enc) : Nat := e.ty.size * e.count

/-- A vector (or scalar) encoding. -/
def vec (t : Ty) (n : Nat) : Enc := ⟨t, false, 1, n⟩

/-- A DKNumber: its encoding (the object's tag) and its value (447-487). -/
structure Obj where
  enc : Enc
  value : Mem

/-- memcmp on blocks of the same length. -/
def memcmp : Mem → Mem → Int
  | a :: as, b :: bs => if a = b then memcmp as bs else (a.toNat : Int) - b.toNat
  | _, _ => 0

/-- DKNumberCompare (889-924), both not NULL. -/
def compare (a b : Obj) : Option Int :=
  if a.enc.count = b.enc.count then cmpLoop a.enc.ty b.enc.ty a.value b.value b.enc.count 0
  else if a.enc.size < b.enc.size then some 1
  else if a.enc.size > b.enc.size then some (-1)
  else some (memcmp a.value b.value)

/-- DKNumberEqual (877-883). -/
def equal (a b : Obj) : Option Bool := (compare a b).map fun c => c == 0

/-- dk_memhash64 (DKPlatform.c 579-590): the bytes are signed. -/
def memhash (m : Mem) : BitVec 64 := m.foldl (fun h c => 31 * h + c.signExtend 64) 0

/-- DKNumberHash (930-974), 64-bit. -/
def hash (a : Obj) : Option (BitVec 64) :=
  if a.enc.count = 1 then (read a.value 0 a.enc.ty.size).map fun b =>
    match a.enc.ty.fmt with
    | none => BitVec.ofInt 64 (intVal a.enc.ty b)
    | some _ => BitVec.ofNat 64 b
  else some (memhash a.value)

/-- The loop over the rows of two matrices (1072-1077): `n` iterations remain; `so`, `dO` are srcPtr and dstPtr. -/
def rowLoop (st dt : Ty) (src : Mem) (cols sStride dStride : Nat) : Nat → Nat → Nat → Mem → Option Mem
  | 0, _, _, dst => some dst
  | n + 1, so, dO, dst => (castLoop st dt src so dO cols 0 dst).bind (rowLoop st dt src cols sStride dStride n (so + sStride) (dO + dStride))

/-- DKNumberConvert (1038-1088), between number encodings; the number of values converted and the destination. -/
def convert (src : Mem) (se : Enc) (dst : Mem) (de : Enc) : Option (Nat × Mem) :=
  if de.count = se.count then (castLoop se.ty de.ty src 0 0 de.count 0 dst).map fun m => (de.count, m)
  else if se.matrix && de.matrix then
    let sStride := se.ty.size * se.cols
    let dStride := se.ty.size * de.cols
    let rows := if se.rows < de.rows then se.rows else de.rows
    let cols := if se.cols < de.cols then se.cols else de.cols
    (rowLoop se.ty de.ty src cols sStride dStride rows 0 0 dst).map fun m => (rows * cols, m)
  else
    let count := if se.count < de.count then se.count else de.count
    (castLoop se.ty de.ty src 0 0 count 0 dst).map fun m => (count, m)

/-- DKNumberInitWithNumber (493-523): a new number of the same count, zeroed by the allocator. -/
def initWithNumber (a : Obj) (t : Ty) : Option Obj :=
  (castLoop a.enc.ty t a.value 0 0 a.enc.count 0 (List.replicate (vec t a.enc.count).size 0)).map fun m => ⟨vec t a.enc.count, m⟩

/-- DKNumberGetInt32, GetInt64, GetFloat, GetDouble (1115-1193): the pattern, 0 unless exactly one value was converted. -/
def getScalar (a : Obj) (t : Ty) : Option Nat :=
  (convert a.value a.enc (List.replicate t.size 0) (vec t 1)).bind fun r => if r.1 = 1 then read r.2 0 t.size else some 0

/-- DKNumberGetBool (1094-1109). -/
def getBool (a : Obj) : Option Bool := (getScalar a .i32).map fun b => b != 0

/-- The element index of DKNumberEnumerateMatrixValue, DKNumberSetEnumeratedMatrixValue (825, 860), row by row. -/
def matrixIndices (e : Enc) : List Nat := (List.range e.rows).flatMap fun row => (List.range e.cols).map fun col => row * e.rows + col

end Number
end Duck
