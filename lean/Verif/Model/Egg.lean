import Verif.Model.Encoding
/-! Model of Source/DKEgg.c: the archiver, the bytes it writes, and the unarchiver.

    Objects that are archived are numbers.  What an object's `addToEgg` method does is a list of calls of the `DKEggAdd...`
    functions, and what the `initWithEgg` method of a class does is a list of calls of the `DKEggGet...` functions; these are the
    parameters `World` and `Reader`.  Undefined behaviour, and running out of fuel, is `none`.

    Simplifications: the hash tables `visitedObjects` and `symbolTable` are association lists (their behaviour is C05/C06);
    constant strings are identified by their text (C54), so the symbol table is keyed by text; reference counts are left out;
    `initWithEgg` returns the object it was given.  The archiver's byte order is always native (set in 937, never changed), so
    the swapping branches of AddEncodedData (1160-1185) are not modelled. -/
namespace Duck
namespace Egg
open Encoding (encode getType getCount getTypeSize getSize isNumber swapInt32)

abbrev Bytes := List UInt8

/-- DKByteOrder (DKPlatform.h 342-357). -/
inductive Order where
  | big
  | little
deriving DecidableEq, Repr

/-- The byte that stores a DKByteOrder in a header: DKByteOrderBigEndian is 1, DKByteOrderLittleEndian is 2 (DKPlatform.h 344-347). -/
def Order.byte : Order → UInt8
  | .big => 1
  | .little => 2

/-- The bytes of a uint32_t in the memory of a machine of that byte order. -/
def put32 (o : Order) (x : BitVec 32) : Bytes :=
  match o with
  | .little => [⟨x.extractLsb' 0 8⟩, ⟨x.extractLsb' 8 8⟩, ⟨x.extractLsb' 16 8⟩, ⟨x.extractLsb' 24 8⟩]
  | .big => [⟨x.extractLsb' 24 8⟩, ⟨x.extractLsb' 16 8⟩, ⟨x.extractLsb' 8 8⟩, ⟨x.extractLsb' 0 8⟩]

/-- The uint32_t whose bytes in memory are `a b c d`. -/
def of4 (o : Order) (a b c d : UInt8) : BitVec 32 :=
  match o with
  | .little => (d.toBitVec ++ c.toBitVec ++ b.toBitVec ++ a.toBitVec).cast rfl
  | .big => (a.toBitVec ++ b.toBitVec ++ c.toBitVec ++ d.toBitVec).cast rfl

/-- Reading a uint32_t at byte offset `off`; outside the bytes it is undefined. -/
def get32 (o : Order) (bs : Bytes) (off : Nat) : Option (BitVec 32) :=
  match bs.drop off with
  | a :: b :: c :: d :: _ => some (of4 o a b c d)
  | _ => none

/-- dk_strhash32 (DKPlatform.c 536-547); `char` is signed. -/
def strhash32 (s : Bytes) : BitVec 32 := s.foldl (fun h c => 31#32 * h + c.toBitVec.signExtend 32) 0#32

/-- The encodings of classes, selectors, objects, keyed objects, text and binary data (DKEncoding.h 43-53). -/
def tClass : BitVec 32 := 1
def tSelector : BitVec 32 := 2
def tObject : BitVec 32 := 3
def tKeyed : BitVec 32 := 4
def tText : BitVec 32 := 5
def tBinary : BitVec 32 := 6

/-! ### Archiver -/

/-- DKEggAttribute (DKEgg.c 100-106). -/
structure Attr where
  hashkey : BitVec 32
  enc : BitVec 32
  value : BitVec 32
deriving DecidableEq, Repr

/-- struct ArchivedObject (DKEgg.c 835-840). -/
structure AObj where
  className : BitVec 32
  attrs : List Attr
deriving DecidableEq, Repr

/-- struct DKEggArchiver (DKEgg.c 821-833); the top of the stack comes first. -/
structure Arch where
  rootless : Bool
  stack : List Nat
  objs : List AObj
  visited : List (Nat × Nat)
  syms : List (Bytes × Nat)
  data : Bytes
deriving DecidableEq, Repr

/-- A reference given to DKEggAddObject: an object, a class or a selector (DKEgg.c 1304-1320). -/
inductive Ref where
  | obj (o : Nat)
  | cls (name : Bytes)
  | sel (name : Bytes)
deriving DecidableEq, Repr

/-- A call made by an `addToEgg` method.  `text` is followed by a NUL byte in memory. -/
inductive Put where
  | object (key : Bytes) (r : Option Ref)
  | coll (key : Bytes) (xs : List (Option Nat))
  | keyed (key : Bytes) (ps : List (Nat × Option Nat))
  | text (key : Bytes) (t : Bytes)
  | binary (key : Bytes) (b : Bytes)
  | number (key : Bytes) (enc : BitVec 32) (b : Bytes)
deriving DecidableEq, Repr

/-- The objects that are archived: whether they implement the Egg interface, the name of their class, their `addToEgg` method. -/
structure World where
  egg : Nat → Bool
  cls : Nat → Bytes
  puts : Nat → List Put

/-- DKByteArrayAlignLength (DKByteArray.c 269-286). -/
def align (data : Bytes) (size : Nat) : Bytes :=
  if data.length % size > 0 then data ++ List.replicate (size - data.length % size) 0 else data

/-- AddEncodedData (DKEgg.c 1144-1193): a type of size 0 divides by zero, a source that is too short is read beyond its end. -/
def addEncoded (s : Arch) (enc : BitVec 32) (src : Bytes) : Option (Arch × Nat) :=
  if getTypeSize enc = 0 then none
  else if src.length < getTypeSize enc * (getCount enc).toNat then none
  else some ({ s with data := align s.data (getTypeSize enc) ++ src.take (getTypeSize enc * (getCount enc).toNat) },
    (align s.data (getTypeSize enc)).length)

/-- AddSymbol (DKEgg.c 1199-1223). -/
def addSymbol (s : Arch) (name : Bytes) : Option (Arch × Nat) :=
  match s.syms.lookup name with
  | some i => some (s, i)
  | none => (addEncoded s (encode tText (BitVec.ofNat 32 (name.length + 1))) (name ++ [0])).map fun r =>
      ({ r.1 with syms := (name, r.2) :: r.1.syms }, r.2)

/-- AddAttribute (DKEgg.c 1275-1288); the stack is never empty where it is called, an empty one is undefined. -/
def addAttr (s : Arch) (key : Bytes) (enc : BitVec 32) (value : Nat) : Option Arch :=
  match s.stack with
  | [] => none
  | index :: _ =>
    if index < s.objs.length then
      some { s with objs := s.objs.modify index fun a =>
        { a with attrs := a.attrs ++ [⟨strhash32 key, enc, BitVec.ofNat 32 value⟩] } }
    else none

/-- Storing a uint32_t in the data section (DKEgg.c 1350-1352, 1425-1428); outside it is undefined. -/
def patch (data : Bytes) (off : Nat) (bs : Bytes) : Option Bytes :=
  if off + bs.length ≤ data.length then some (data.take off ++ bs ++ data.drop (off + bs.length)) else none

/-- What AddObject is to the functions that call it: a new state, and an index (`none` for the error -1). -/
abbrev Adder := Arch → Nat → Option (Arch × Option Nat)

/-- AddSymbol or AddObject, and the encoding, for a reference (DKEgg.c 1304-1320). -/
def addRef (add : Adder) (s : Arch) : Ref → Option (Arch × Option Nat × BitVec 32)
  | .cls name => (addSymbol s name).map fun r => (r.1, some r.2, encode tClass 1)
  | .sel name => (addSymbol s name).map fun r => (r.1, some r.2, encode tSelector 1)
  | .obj o => (add s o).map fun r => (r.1, r.2, encode tObject 1)

/-- DKEggAddObject (DKEgg.c 1294-1327): index 0 is not stored. -/
def putObject (add : Adder) (s : Arch) (key : Bytes) : Option Ref → Option Arch
  | none => some s
  | some r => (addRef add s r).bind fun x =>
      match x.2.1 with
      | none => some x.1
      | some index => if index > 0 then addAttr x.1 key x.2.2 index else some x.1

/-- DKEggAddCollectionCallback over the elements (DKEgg.c 1340-1358, 1395). -/
def collLoop (ord : Order) (add : Adder) (offset : Nat) : List (Option Nat) → Arch → Nat → Option Arch
  | [], s, _ => some s
  | none :: xs, s, count => collLoop ord add offset xs s count
  | some o :: xs, s, count => (add s o).bind fun r =>
      match r.2 with
      | none => collLoop ord add offset xs r.1 count
      | some index => (patch r.1.data (offset + 4 * count) (put32 ord (BitVec.ofNat 32 index))).bind fun d =>
          collLoop ord add offset xs { r.1 with data := d } (count + 1)

/-- DKEggAddCollection (DKEgg.c 1360-1400). -/
def putColl (ord : Order) (add : Adder) (s : Arch) (key : Bytes) (xs : List (Option Nat)) : Option Arch :=
  match xs with
  | [] => some s
  | [none] => addAttr s key (encode tObject (BitVec.ofNat 32 1)) 0
  | [some o] => (add s o).bind fun r =>
      match r.2 with
      | none => some r.1
      | some index => addAttr r.1 key (encode tObject (BitVec.ofNat 32 1)) index
  | _ =>
    (collLoop ord add (align s.data 4).length xs { s with data := align s.data 4 ++ List.replicate (4 * xs.length) 0 } 0).bind fun s' =>
      addAttr s' key (encode tObject (BitVec.ofNat 32 xs.length)) (align s.data 4).length

/-- The index stored for the value of a pair (DKEgg.c 1421); `none` is the error -1. -/
def addValue (add : Adder) (s : Arch) : Option Nat → Option (Arch × Option Nat)
  | none => some (s, some 0)
  | some o => add s o

/-- DKEggAddKeyedCollectionCallback over the pairs (DKEgg.c 1413-1434, 1454). -/
def keyedLoop (ord : Order) (add : Adder) (offset : Nat) : List (Nat × Option Nat) → Arch → Nat → Option Arch
  | [], s, _ => some s
  | (k, v) :: ps, s, count => (add s k).bind fun r =>
      match r.2 with
      | none => keyedLoop ord add offset ps r.1 count
      | some ki =>
        if ki > 0 then
          (addValue add r.1 v).bind fun q =>
            match q.2 with
            | none => keyedLoop ord add offset ps q.1 count
            | some vi =>
              (patch q.1.data (offset + 8 * count) (put32 ord (BitVec.ofNat 32 ki) ++ put32 ord (BitVec.ofNat 32 vi))).bind fun d =>
                keyedLoop ord add offset ps { q.1 with data := d } (count + 1)
        else keyedLoop ord add offset ps r.1 count

/-- DKEggAddKeyedCollection (DKEgg.c 1436-1458). -/
def putKeyed (ord : Order) (add : Adder) (s : Arch) (key : Bytes) (ps : List (Nat × Option Nat)) : Option Arch :=
  (keyedLoop ord add (align s.data 4).length ps { s with data := align s.data 4 ++ List.replicate (8 * ps.length) 0 } 0).bind fun s' =>
    addAttr s' key (encode tKeyed (BitVec.ofNat 32 ps.length)) (align s.data 4).length

/-- DKEggAddTextData (DKEgg.c 1464-1488) with `length` the number of bytes of the text; text that is too long is not stored.
    (Length 0 is replaced by `strlen`, which is 0 as well.) -/
def putText (s : Arch) (key : Bytes) (t : Bytes) : Option Arch :=
  if t.length + 1 > 0xffffff then some s
  else (addEncoded s (encode tText (BitVec.ofNat 32 (t.length + 1))) (t ++ [0])).bind fun r =>
    addAttr r.1 key (encode tText (BitVec.ofNat 32 (t.length + 1))) r.2

/-- DKEggAddBinaryData (DKEgg.c 1494-1507). -/
def putBinary (s : Arch) (key : Bytes) (b : Bytes) : Option Arch :=
  if b.length > 0xffffff then some s
  else (addEncoded s (encode tBinary (BitVec.ofNat 32 b.length)) b).bind fun r =>
    addAttr r.1 key (encode tBinary (BitVec.ofNat 32 b.length)) r.2

/-- DKEggAddNumberData (DKEgg.c 1513-1520). -/
def putNumber (s : Arch) (key : Bytes) (enc : BitVec 32) (b : Bytes) : Option Arch :=
  (addEncoded s enc b).bind fun r => addAttr r.1 key enc r.2

/-- One call of an `addToEgg` method. -/
def put (ord : Order) (add : Adder) (s : Arch) : Put → Option Arch
  | .object key r => putObject add s key r
  | .coll key xs => putColl ord add s key xs
  | .keyed key ps => putKeyed ord add s key ps
  | .text key t => putText s key t
  | .binary key b => putBinary s key b
  | .number key enc b => putNumber s key enc b

/-- The calls of an `addToEgg` method in turn. -/
def putAll (ord : Order) (add : Adder) : List Put → Arch → Option Arch
  | [], s => some s
  | p :: ps, s => (put ord add s p).bind (putAll ord add ps)

/-- AddObject (DKEgg.c 1229-1269); the fuel bounds the depth of nested calls. -/
def addObject (ord : Order) (W : World) (fuel : Nat) (s : Arch) (o : Nat) : Option (Arch × Option Nat) :=
  if W.egg o = false then some (s, none)
  else match s.visited.lookup o with
  | some i => some (s, some i)
  | none =>
    match fuel with
    | 0 => none
    | fuel + 1 => (addSymbol s (W.cls o)).bind fun r =>
        (putAll ord (addObject ord W fuel) (W.puts o)
          { r.1 with objs := r.1.objs ++ [⟨BitVec.ofNat 32 r.2, []⟩],
                     visited := (o, s.objs.length) :: r.1.visited,
                     stack := s.objs.length :: r.1.stack }).map fun s' =>
          ({ s' with stack := s'.stack.tail }, some s.objs.length)

/-- A new archiver before its root is added (DKEgg.c 937-953). -/
def emptyArch (rootless : Bool) : Arch := ⟨rootless, [], [], [], [], []⟩

/-- DKEggArchiverInitWithObject with an object (DKEgg.c 956-961). -/
def archiveObject (ord : Order) (W : World) (fuel : Nat) (root : Nat) : Option Arch :=
  (addObject ord W fuel (emptyArch false) root).map (·.1)

/-- "DKHashTable" (DKEgg.c 970). -/
def hashTableName : Bytes := [68, 75, 72, 97, 115, 104, 84, 97, 98, 108, 101]

/-- DKEggArchiverInitWithObject without an object (DKEgg.c 964-976). -/
def newRootless : Option Arch :=
  (addSymbol (emptyArch true) hashTableName).map fun r =>
    { r.1 with objs := [⟨BitVec.ofNat 32 r.2, []⟩], stack := [0] }

/-- A rootless archiver after calls of the `DKEggAdd...` functions. -/
def archiveRootless (ord : Order) (W : World) (fuel : Nat) (ps : List Put) : Option Arch :=
  newRootless.bind (putAll ord (addObject ord W fuel) ps)

/-- DKEggPrefix (DKEgg.c 57): "EGG-Version: 1.0\n" and the NUL that ends it. -/
def eggPrefix : Bytes := [69, 71, 71, 45, 86, 101, 114, 115, 105, 111, 110, 58, 32, 49, 46, 48, 10, 0]

/-- The number of attributes counted in BuildHeader (DKEgg.c 1027-1031). -/
def attrCount (objs : List AObj) : Nat := (objs.map (·.attrs.length)).sum

/-- BuildHeader and WriteHeader (DKEgg.c 1011-1044); sizeof(DKEggHeader) is 48, sizeof(DKEggObject) and sizeof(DKEggAttribute) 12. -/
def header (ord : Order) (s : Arch) : Bytes :=
  eggPrefix ++ [0, 0] ++ [1, 1, ord.byte, if s.rootless then 1 else 0] ++
    put32 ord 48 ++ put32 ord (BitVec.ofNat 32 s.objs.length) ++
    put32 ord (BitVec.ofNat 32 (48 + 12 * s.objs.length)) ++ put32 ord (BitVec.ofNat 32 (attrCount s.objs)) ++
    put32 ord (BitVec.ofNat 32 (48 + 12 * s.objs.length + 12 * attrCount s.objs)) ++ put32 ord (BitVec.ofNat 32 s.data.length)

/-- WriteObjectTable (DKEgg.c 1050-1069). -/
def objectTable (ord : Order) : List AObj → Nat → Bytes
  | [], _ => []
  | a :: objs, index =>
    put32 ord a.className ++ put32 ord (BitVec.ofNat 32 index) ++ put32 ord (BitVec.ofNat 32 a.attrs.length) ++
      objectTable ord objs (index + a.attrs.length)

/-- The bytes of an attribute. -/
def attrBytes (ord : Order) (a : Attr) : Bytes := put32 ord a.hashkey ++ put32 ord a.enc ++ put32 ord a.value

/-- WriteAttributeTable (DKEgg.c 1075-1089). -/
def attributeTable (ord : Order) (objs : List AObj) : Bytes := objs.flatMap fun a => a.attrs.flatMap (attrBytes ord)

/-- DKEggArchiverGetArchivedData, and what DKEggArchiverWriteToStream writes (DKEgg.c 1109-1138).  The loops over the objects use
    the number of objects as it is stored in the header. -/
def archivedData (ord : Order) (s : Arch) : Bytes :=
  header ord s ++ objectTable ord (s.objs.take (s.objs.length % 2 ^ 32)) 0 ++
    attributeTable ord (s.objs.take (s.objs.length % 2 ^ 32)) ++ s.data

/-! ### Unarchiver -/

/-- struct DKEggUnarchiver (DKEgg.c 125-138) without the changing parts.  `limit` is the number of bytes behind the table pointers. -/
structure Un where
  order : Order
  foreign : Bool
  rootless : Bool
  bytes : Bytes
  limit : Nat
  nobj : Nat
  nattr : Nat
deriving DecidableEq, Repr

/-- DKSwapInt32 if the archive has another byte order. -/
def fix (foreign : Bool) (x : BitVec 32) : BitVec 32 := if foreign then swapInt32 x else x

/-- The words of the header (DKEgg.c 87-89), swapped if the archive has another byte order (181-191). -/
def headerWord (order : Order) (foreign : Bool) (bs : Bytes) (off : Nat) : Option (BitVec 32) :=
  (get32 order bs off).map (fix foreign)

/-- The checks of the header (DKEgg.c 352-374): prefix, version, encoding version. -/
def headerOk (bs : Bytes) : Bool := bs.take 18 == eggPrefix && bs[20]? == some 1 && bs[21]? == some 1

/-- The size of header and tables (DKEgg.c 382-384). -/
def tableEnd (nobj nattr : Nat) : Nat := 48 + 12 * nobj + 12 * nattr

/-- DKEggUnarchiverInitWithData (DKEgg.c 330-444); `some none` is the result NULL.  The tables are swapped where they are read
    instead of in place; the sum in 403 is a uint32_t. -/
def initWithData (order : Order) (bs : Bytes) : Option (Option Un) :=
  if bs.length < 48 then some none
  else if headerOk bs = false then some none
  else
    (bs[22]?).bind fun bo =>
    (bs[23]?).bind fun rl =>
    (headerWord order (bo != order.byte) bs 28).bind fun nobj =>
    (headerWord order (bo != order.byte) bs 36).bind fun nattr =>
    (headerWord order (bo != order.byte) bs 40).bind fun di =>
    (headerWord order (bo != order.byte) bs 44).bind fun dl =>
      if (bo != order.byte) = true ∧ bs.length < tableEnd nobj.toNat nattr.toNat then some none
      else if bs.length < (di + dl).toNat then some none
      else some (some ⟨order, bo != order.byte, rl != 0, bs,
        if bo != order.byte then tableEnd nobj.toNat nattr.toNat else bs.length, nobj.toNat, nattr.toNat⟩)

/-- DKEggUnarchiverInitWithStream (DKEgg.c 227-324) for a stream that holds `bs`.  An archive length below the size of the header
    makes the remaining length wrap around: undefined. -/
def initWithStream (order : Order) (bs : Bytes) : Option (Option Un) :=
  if bs.length < 48 then some none
  else if headerOk bs = false then some none
  else
    (bs[22]?).bind fun bo =>
    (bs[23]?).bind fun rl =>
    (headerWord order (bo != order.byte) bs 28).bind fun nobj =>
    (headerWord order (bo != order.byte) bs 36).bind fun nattr =>
    (headerWord order (bo != order.byte) bs 40).bind fun di =>
    (headerWord order (bo != order.byte) bs 44).bind fun dl =>
      if (di + dl).toNat < 48 then none
      else if bs.length - 48 < (di + dl).toNat - 48 then some none
      else some (some ⟨order, bo != order.byte, rl != 0, bs.take (di + dl).toNat, (di + dl).toNat, nobj.toNat, nattr.toNat⟩)

/-- A word of the object or attribute table (DKEgg.c 197-221). -/
def tableWord (u : Un) (off : Nat) : Option (BitVec 32) :=
  if off + 4 ≤ u.limit then (get32 u.order u.bytes off).map (fix u.foreign) else none

/-- `objectTable[index]` (DKEgg.c 93-98): class name, first attribute, number of attributes. -/
def objectAt (u : Un) (index : Nat) : Option (BitVec 32 × BitVec 32 × BitVec 32) :=
  (tableWord u (48 + 12 * index)).bind fun c =>
  (tableWord u (48 + 12 * index + 4)).bind fun i =>
  (tableWord u (48 + 12 * index + 8)).map fun l => (c, i, l)

/-- `attributeTable[index]`. -/
def attributeAt (u : Un) (index : Nat) : Option Attr :=
  (tableWord u (48 + 12 * u.nobj + 12 * index)).bind fun h =>
  (tableWord u (48 + 12 * u.nobj + 12 * index + 4)).bind fun e =>
  (tableWord u (48 + 12 * u.nobj + 12 * index + 8)).map fun v => ⟨h, e, v⟩

/-- The loop of GetAttribute over the attributes from `i` on, `n` of them (DKEgg.c 457-463). -/
def findAttr (u : Un) (hash : BitVec 32) (first : BitVec 32) : Nat → Nat → Option (Option Attr)
  | 0, _ => some none
  | n + 1, i => (attributeAt u (first + BitVec.ofNat 32 i).toNat).bind fun a =>
      if a.hashkey = hash then some (some a) else findAttr u hash first n (i + 1)

/-- GetAttribute (DKEgg.c 450-466) for the object on top of the stack. -/
def getAttr (u : Un) (stack : List Nat) (key : Bytes) : Option (Option Attr) :=
  match stack with
  | [] => none
  | index :: _ => (objectAt u index).bind fun o => findAttr u (strhash32 key) o.2.1 o.2.2.toNat 0

/-- `&data[offset]` up to the end of the archive (DKEgg.c 429-431). -/
def dataFrom (u : Un) (off : Nat) : Bytes := u.bytes.drop (tableEnd u.nobj u.nattr + off)

/-- The bytes before the first NUL; without one the string is read beyond the end. -/
def cstr : Bytes → Option Bytes
  | [] => none
  | b :: bs => if b = 0 then some [] else (cstr bs).map (b :: ·)

/-- `n` bytes of the data section. -/
def dataBytes (u : Un) (off n : Nat) : Option Bytes :=
  if n ≤ (dataFrom u off).length then some ((dataFrom u off).take n) else none

/-- The bytes of `n` elements of `k` bytes, each swapped: DKSwapInt16, DKSwapInt32 and __builtin_bswap64 reverse the bytes (C16). -/
def swapChunks (k : Nat) : Nat → Bytes → Bytes
  | 0, _ => []
  | n + 1, bs => (bs.take k).reverse ++ swapChunks k n (bs.drop k)

/-- A call made by an `initWithEgg` method. -/
inductive Kind where
  | object
  | coll
  | keyed
  | text
  | binary
  | number
  | encoding
deriving DecidableEq, Repr

/-- What the machine that reads knows: the classes and selectors with a name, the classes that implement Egg, and the
    `initWithEgg` method of each class. -/
structure Reader where
  isClass : Bytes → Bool
  isSelector : Bytes → Bool
  egg : Bytes → Bool
  gets : Bytes → List (Kind × Bytes)

/-- A reference to a new object, a class or a selector. -/
inductive NRef where
  | obj (id : Nat)
  | cls (name : Bytes)
  | sel (name : Bytes)
deriving DecidableEq, Repr

/-- The result of a call of a `DKEggGet...` function; for collections, the calls of the callback. -/
inductive Got where
  | object (r : Option NRef)
  | coll (xs : List (Option Nat))
  | keyed (ps : List (Nat × Option Nat))
  | text (t : Option Bytes)
  | binary (b : Option Bytes)
  | number (n : Option (Nat × Bytes))
  | encoding (e : BitVec 32)
deriving DecidableEq, Repr

/-- The changing parts of an unarchiver and of memory: unarchived objects by index, stack, the number of objects allocated so
    far, and, for each object whose `initWithEgg` method has returned, its class and what it read. -/
structure USt where
  memo : List (Option Nat)
  stack : List Nat
  next : Nat
  heap : List (Nat × Bytes × List Got)
deriving DecidableEq, Repr

/-- A new unarchiver (DKEgg.c 434-440). -/
def uInit (u : Un) : USt := ⟨List.replicate u.nobj none, if u.rootless then [0] else [], 0, []⟩

/-- What DKEggUnarchiverGetObject is to its callers. -/
abbrev Getter := USt → Nat → Option (USt × Option Nat)

/-- An object of a collection: index 0 stands for NULL (DKEgg.c 619, 634, 673). -/
def getOne (get : Getter) (st : USt) (index : Nat) : Option (USt × Option Nat) :=
  if index > 0 then get st index else some (st, none)

/-- The indexes stored at `off` (DKEgg.c 625-632). -/
def indexesAt (u : Un) (off : Nat) : Nat → Option (List Nat)
  | 0 => some []
  | n + 1 => (get32 u.order (dataFrom u off) 0).bind fun x =>
      (indexesAt u (off + 4) n).map (((fix u.foreign x).toNat) :: ·)

/-- The loop of DKEggGetCollection (DKEgg.c 627-636). -/
def getAllObjects (get : Getter) : List Nat → USt → Option (USt × List (Option Nat))
  | [], st => some (st, [])
  | i :: is, st => (getOne get st i).bind fun r =>
      (getAllObjects get is r.1).map fun q => (q.1, r.2 :: q.2)

/-- The loop of DKEggGetKeyedCollection (DKEgg.c 658-676); the keys and values alternate. -/
def getAllPairs (get : Getter) : List Nat → USt → Option (USt × List (Nat × Option Nat))
  | k :: v :: is, st => (get st k).bind fun r =>
      match r.2 with
      | none => getAllPairs get is r.1
      | some key => (getOne get r.1 v).bind fun q =>
          (getAllPairs get is q.1).map fun p => (p.1, (key, q.2) :: p.2)
  | _, st => some (st, [])

/-- DKEggUnarchiverGetClass and DKEggUnarchiverGetSelector (DKEgg.c 472-504): NULL if the name is not recognized. -/
def getName (u : Un) (known : Bytes → Bool) (off : BitVec 32) : Option (Option Bytes) :=
  (cstr (dataFrom u off.toNat)).map fun name => if known name then some name else none

/-- DKEggGetObject (DKEgg.c 584-601). -/
def getObject (R : Reader) (u : Un) (get : Getter) (st : USt) (a : Attr) : Option (USt × Option NRef) :=
  if a.enc = encode tObject 1 then (get st a.value.toNat).map fun r => (r.1, r.2.map .obj)
  else if a.enc = encode tClass 1 then (getName u R.isClass a.value).map fun n => (st, n.map .cls)
  else if a.enc = encode tSelector 1 then (getName u R.isSelector a.value).map fun n => (st, n.map .sel)
  else some (st, none)

/-- DKEggGetCollection (DKEgg.c 607-640). -/
def getColl (u : Un) (get : Getter) (st : USt) (a : Attr) : Option (USt × List (Option Nat)) :=
  if getType a.enc = tObject then
    if (getCount a.enc).toNat = 1 then (getOne get st a.value.toNat).map fun r => (r.1, [r.2])
    else (indexesAt u a.value.toNat (getCount a.enc).toNat).bind fun is => getAllObjects get is st
  else some (st, [])

/-- DKEggGetKeyedCollection (DKEgg.c 646-679). -/
def getKeyed (u : Un) (get : Getter) (st : USt) (a : Attr) : Option (USt × List (Nat × Option Nat)) :=
  if getType a.enc = tKeyed then
    (indexesAt u a.value.toNat (2 * (getCount a.enc).toNat)).bind fun is => getAllPairs get is st
  else some (st, [])

/-- DKEggGetTextDataPtr (DKEgg.c 685-703): the bytes it points at, as many as it stores in `*length`. -/
def getText (u : Un) (a : Attr) : Option (Option Bytes) :=
  if getType a.enc = tText then
    (dataBytes u a.value.toNat (if 0 < (getSize a.enc).toNat then (getSize a.enc).toNat - 1 else 0)).map some
  else some none

/-- DKEggGetBinaryDataPtr (DKEgg.c 724-739). -/
def getBinary (u : Un) (a : Attr) : Option (Option Bytes) :=
  if getType a.enc = tBinary then (dataBytes u a.value.toNat (getSize a.enc).toNat).map some else some none

/-- The bytes DKEggGetNumberData stores (DKEgg.c 771-807); another size is a failed assertion. -/
def numberBytes (u : Un) (size count : Nat) (bs : Bytes) : Option Bytes :=
  if size = 1 ∨ u.foreign = false then some bs
  else if size = 2 ∨ size = 4 ∨ size = 8 then some (swapChunks size count bs)
  else none

/-- DKEggGetNumberData (DKEgg.c 760-814): the count it returns and the bytes it stores. -/
def getNumber (u : Un) (a : Attr) : Option (Option (Nat × Bytes)) :=
  if isNumber a.enc then
    (dataBytes u a.value.toNat (getTypeSize a.enc * (getCount a.enc).toNat)).bind fun bs =>
      (numberBytes u (getTypeSize a.enc) (getCount a.enc).toNat bs).map fun bs => some ((getCount a.enc).toNat, bs)
  else some none

/-- The result of a get for a key that is not there; DKEncodingNull is 0 (DKEncoding.h 81). -/
def absent : Kind → Got
  | .object => .object none
  | .coll => .coll []
  | .keyed => .keyed []
  | .text => .text none
  | .binary => .binary none
  | .number => .number none
  | .encoding => .encoding 0

/-- A get, once its attribute is found; the last is DKEggGetEncoding (DKEgg.c 570-578). -/
def getFrom (R : Reader) (u : Un) (get : Getter) (st : USt) (a : Attr) : Kind → Option (USt × Got)
  | .object => (getObject R u get st a).map fun r => (r.1, .object r.2)
  | .coll => (getColl u get st a).map fun r => (r.1, .coll r.2)
  | .keyed => (getKeyed u get st a).map fun r => (r.1, .keyed r.2)
  | .text => (getText u a).map fun t => (st, .text t)
  | .binary => (getBinary u a).map fun b => (st, .binary b)
  | .number => (getNumber u a).map fun n => (st, .number n)
  | .encoding => some (st, .encoding a.enc)

/-- One call of an `initWithEgg` method. -/
def get (R : Reader) (u : Un) (g : Getter) (st : USt) (k : Kind × Bytes) : Option (USt × Got) :=
  (getAttr u st.stack k.2).bind fun a =>
    match a with
    | none => some (st, absent k.1)
    | some a => getFrom R u g st a k.1

/-- The calls of an `initWithEgg` method in turn. -/
def getAll (R : Reader) (u : Un) (g : Getter) : List (Kind × Bytes) → USt → Option (USt × List Got)
  | [], st => some (st, [])
  | k :: ks, st => (get R u g st k).bind fun r => (getAll R u g ks r.1).map fun q => (q.1, r.2 :: q.2)

/-- DKEggUnarchiverGetObject (DKEgg.c 510-555). -/
def unGetObject (R : Reader) (u : Un) (fuel : Nat) (st : USt) (index : Nat) : Option (USt × Option Nat) :=
  if index < u.nobj then
    match st.memo[index]? with
    | some (some id) => some (st, some id)
    | _ =>
      match fuel with
      | 0 => none
      | fuel + 1 => (objectAt u index).bind fun o =>
          (getName u R.isClass o.1).bind fun n =>
            match n with
            | none => some (st, none)
            | some name =>
              if R.egg name = false then some (st, none)
              else
                (getAll R u (unGetObject R u fuel) (R.gets name)
                  { st with memo := st.memo.set index (some st.next), stack := index :: st.stack, next := st.next + 1 }).map fun q =>
                  ({ q.1 with memo := q.1.memo.set index (some st.next), stack := q.1.stack.tail,
                              heap := (st.next, name, q.2) :: q.1.heap }, some st.next)
  else some (st, none)

/-- DKEggGetRootObject (DKEgg.c 561-564) on a new unarchiver. -/
def unarchive (R : Reader) (u : Un) (fuel : Nat) : Option (USt × Option Nat) := unGetObject R u fuel (uInit u) 0

/-- DKEggGetTextData (DKEgg.c 705-718): the bytes copied and the result, a `size_t`. -/
def getTextData (u : Un) (a : Attr) : Option (Bytes × BitVec 64) :=
  (getText u a).map fun t =>
    match t with
    | some t => (t, BitVec.ofNat 64 t.length - 1)
    | none => ([], 0)

/-- DKEggGetBinaryData (DKEgg.c 741-754). -/
def getBinaryData (u : Un) (a : Attr) (length : Nat) : Option (Bytes × Nat) :=
  (getBinary u a).map fun b =>
    match b with
    | some b => if b.length = length then (b, length) else ([], 0)
    | none => ([], 0)

end Egg
end Duck
