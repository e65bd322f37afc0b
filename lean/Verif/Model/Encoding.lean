/-! Model of `DKEncoding` (Source/DKEncoding.h, Source/DKEncoding.c) and of the byte-order operations of
    Source/DKPlatform.h.  `uint32_t` is `BitVec 32`; `sizeof( void * )` is 8. -/
namespace Duck
namespace Encoding

/-- DKMaxEncodingTypes (DKEncoding.h 38-91). -/
def maxTypes : Nat := 26

/-- DKEncode (DKEncoding.h 106-108). -/
def encode (type count : BitVec 32) : BitVec 32 := ((type <<< 24) &&& 0x7f000000#32) ||| (count &&& 0x00ffffff#32)

/-- DKEncodeMatrix (DKEncoding.h 111-115). -/
def encodeMatrix (type rows cols : BitVec 32) : BitVec 32 :=
  0x80000000#32 ||| ((type <<< 24) &&& 0x7f000000#32) ||| ((rows &&& 0xfff#32) <<< 12) ||| (cols &&& 0xfff#32)

/-- DKEncodingIsMatrix (DKEncoding.h 134). -/
def isMatrix (e : BitVec 32) : Bool := e &&& 0x80000000#32 != 0

/-- DKEncodingGetType (DKEncoding.h 137-140). -/
def getType (e : BitVec 32) : BitVec 32 := (e &&& 0x7f000000#32) >>> 24

/-- DKEncodingGetCount (DKEncoding.h 142-152). -/
def getCount (e : BitVec 32) : BitVec 32 :=
  if isMatrix e then ((e >>> 12) &&& 0xfff#32) * (e &&& 0xfff#32) else e &&& 0x00ffffff#32

/-- DKEncodingGetRows (DKEncoding.h 154-160). -/
def getRows (e : BitVec 32) : BitVec 32 := if isMatrix e then (e >>> 12) &&& 0xfff#32 else 1

/-- DKEncodingGetCols (DKEncoding.h 162-168). -/
def getCols (e : BitVec 32) : BitVec 32 := if isMatrix e then e &&& 0xfff#32 else e &&& 0x00ffffff#32

/-- DKEncodingEqv (DKEncoding.h 170-174). -/
def eqv (a b : BitVec 32) : Bool := getType a == getType b && getCount a == getCount b

/-- The sizes in TypeInfo (DKEncoding.c 43-78). -/
def typeInfo : List Nat :=
  [0, 8, 8, 8, 16, 1, 1, 0, 1, 2, 0, 4, 0, 0, 0, 8, 1, 2, 0, 4, 0, 0, 0, 8, 4, 8]

/-- DKEncodingTypeGetSize (DKEncoding.c 93-99). -/
def typeGetSize (t : BitVec 32) : Nat :=
  if 0 < t.toNat ∧ t.toNat < maxTypes then typeInfo.getD t.toNat 0 else typeInfo.getD 0 0

/-- DKEncodingGetTypeSize (DKEncoding.c 105-113). -/
def getTypeSize (e : BitVec 32) : Nat :=
  if 0 < (getType e).toNat ∧ (getType e).toNat < maxTypes then typeInfo.getD (getType e).toNat 0 else typeInfo.getD 0 0

/-- DKEncodingGetSize (DKEncoding.c 84-87); `size_t` arithmetic. -/
def getSize (e : BitVec 32) : BitVec 64 := BitVec.ofNat 64 (getTypeSize e) * (getCount e).setWidth 64

/-- DKEncodingIsNumber (DKEncoding.c 162-168). -/
def isNumber (e : BitVec 32) : Bool := 8 ≤ (getType e).toNat && (getType e).toNat ≤ 25 && 0 < (getCount e).toNat

/-- DKEncodingIsInteger (DKEncoding.c 174-180). -/
def isInteger (e : BitVec 32) : Bool := 8 ≤ (getType e).toNat && (getType e).toNat ≤ 23 && 0 < (getCount e).toNat

/-- DKEncodingIsReal (DKEncoding.c 186-192). -/
def isReal (e : BitVec 32) : Bool := 24 ≤ (getType e).toNat && (getType e).toNat ≤ 25 && 0 < (getCount e).toNat

/-- The base type of DKEncodeIntegerType( ctype ) (DKEncoding.h 119): DKEncodingTypeInt8 + sizeof(ctype) - 1. -/
def integerType (sizeof : Nat) : Nat := 8 + sizeof - 1

/-! ### Byte order -/

/-- DKSwapInt16 (DKPlatform.h 746-752); the operand is promoted to `int`, the results truncated to 16 bits. -/
def swapInt16 (x : BitVec 16) : BitVec 16 :=
  let x := x.setWidth 32
  let byte0 := (x <<< 8).setWidth 16
  let byte1 := (x >>> 8).setWidth 16
  byte0 ||| byte1

/-- DKSwapInt32 (DKPlatform.h 754-762). -/
def swapInt32 (x : BitVec 32) : BitVec 32 :=
  let byte0 := x <<< 24
  let byte1 := (x <<< 8) &&& 0x00ff0000#32
  let byte2 := (x >>> 8) &&& 0x0000ff00#32
  let byte3 := x >>> 24
  byte0 ||| byte1 ||| byte2 ||| byte3

/-- DKSwapInt64 (DKPlatform.h 764-770). -/
def swapInt64 (x : BitVec 64) : BitVec 64 :=
  let word0 := (swapInt32 (x.setWidth 32)).setWidth 64
  let word1 := (swapInt32 ((x.sshiftRight 32).setWidth 32)).setWidth 64
  word0 ||| word1

/-- __builtin_bswap16 (DKPlatform.h 740): the GCC documentation's "the order of bytes in x reversed; 0xaabb becomes 0xbbaa". -/
def builtin16 (x : BitVec 16) : BitVec 16 := (x.extractLsb' 0 8 ++ x.extractLsb' 8 8).cast rfl

/-- __builtin_bswap32 (DKPlatform.h 741). -/
def builtin32 (x : BitVec 32) : BitVec 32 :=
  (x.extractLsb' 0 8 ++ x.extractLsb' 8 8 ++ x.extractLsb' 16 8 ++ x.extractLsb' 24 8).cast rfl

/-- __builtin_bswap64 (DKPlatform.h 742). -/
def builtin64 (x : BitVec 64) : BitVec 64 :=
  (x.extractLsb' 0 8 ++ x.extractLsb' 8 8 ++ x.extractLsb' 16 8 ++ x.extractLsb' 24 8 ++
    x.extractLsb' 32 8 ++ x.extractLsb' 40 8 ++ x.extractLsb' 48 8 ++ x.extractLsb' 56 8).cast rfl

/-- DKSwapInt32BigToHost and HostToBig, LittleToHost and HostToLittle (DKPlatform.h 797-800, 824-827). -/
def big32 (littleEndianHost : Bool) (x : BitVec 32) : BitVec 32 := if littleEndianHost then builtin32 x else x
def little32 (littleEndianHost : Bool) (x : BitVec 32) : BitVec 32 := if littleEndianHost then x else builtin32 x

end Encoding
end Duck
