import Verif.Model.Data
import Verif.Model.Text
/-
Model of Source/DKFile.c, of DKDataInitWithContentsOfFile (DKData.c 273-311), DKStringInitWithContentsOfFile (DKString.c 573-624) and of the stream
functions of DKStream.c 45-127 on files, over a model of the files and streams of the C library (POSIX).

Simplifications: a disk has regular files and directories, by name; links, permissions, full disks and failing devices are not modelled.  Only one
stream is open for a file, and no other program changes it.  Output is buffered; each `fwrite` is told by `flush` whether the library empties its
buffer, which it may at any time.  Input directly after output, and output directly after input that did not reach the end of the file, are
undefined (ISO C 7.21.5.3) and `none`.  Streams are binary.
-/
namespace Duck
namespace File
open Data (Origin)

/-- What a name stands for. -/
inductive Node where
  | file (bytes : List UInt8)
  | dir (size : Nat)
  deriving DecidableEq, Repr

/-- The disk. -/
abbrev Disk := List UInt8 → Option Node

/-- A disk with a name changed. -/
def Disk.set (d : Disk) (p : List UInt8) (n : Node) : Disk := fun q => if q = p then some n else d q

/-- The modes of fopen: "rb", "wb", "ab", and with "+". -/
inductive Mode where
  | r | w | a | rp | wp | ap
  deriving DecidableEq, Repr

def Mode.reads : Mode → Bool
  | .r | .rp | .wp | .ap => true
  | .w | .a => false
def Mode.writes : Mode → Bool
  | .r => false
  | _ => true
def Mode.appends : Mode → Bool
  | .a | .ap => true
  | _ => false

/-- The operation that the next one must not follow directly. -/
inductive Last where
  | none | input | output
  deriving DecidableEq, Repr

/-- A FILE: its file, mode, position, output not yet on the disk (and where it goes), and error indicator. -/
structure Stream where
  path : List UInt8
  mode : Mode
  pos : Nat
  pending : Option (Nat × List UInt8)
  last : Last
  error : Bool
  deriving DecidableEq, Repr

/-- Bytes put over others from a position; bytes before it that were not there are 0. -/
def overwrite (b : List UInt8) (off : Nat) (bs : List UInt8) : List UInt8 :=
  (b ++ List.replicate (off - b.length) 0).take off ++ bs ++ b.drop (off + bs.length)

/-- The bytes of the file on the disk. -/
def Disk.bytes (d : Disk) (p : List UInt8) : List UInt8 :=
  match d p with
  | some (.file b) => b
  | _ => []

/-- fopen. -/
def fopen (d : Disk) (p : List UInt8) (m : Mode) : Disk × Option Stream :=
  match m, d p with
  | .r, none | .rp, none => (d, none)
  | .r, some _ => (d, some ⟨p, m, 0, none, .none, false⟩)
  | _, some (.dir _) => (d, none)
  | .rp, some (.file _) => (d, some ⟨p, m, 0, none, .none, false⟩)
  | .w, _ | .wp, _ => (d.set p (.file []), some ⟨p, m, 0, none, .none, false⟩)
  | .a, none | .ap, none => (d.set p (.file []), some ⟨p, m, 0, none, .none, false⟩)
  | .a, some (.file _) | .ap, some (.file _) => (d, some ⟨p, m, 0, none, .none, false⟩)

/-- The library writes its buffer to the disk. -/
def flush (d : Disk) (s : Stream) : Disk × Stream :=
  match s.pending with
  | none => (d, s)
  | some (o, bs) => (d.set s.path (.file (overwrite (d.bytes s.path) (if s.mode.appends then (d.bytes s.path).length else o) bs)), { s with pending := none })

/-- The output in the buffer after more of it. -/
def buffered (d : Disk) (s : Stream) (buf : List UInt8) : Nat × List UInt8 :=
  match s.pending with
  | some (o, p) => (o, p ++ buf)
  | none => (if s.mode.appends then (d.bytes s.path).length else s.pos, buf)

/-- fwrite( buffer, size, count, s ). -/
def fwrite (d : Disk) (s : Stream) (buf : List UInt8) (size count : Nat) (now : Bool) : Option (Disk × Stream × Nat) :=
  if buf.length ≠ size * count then none
  else if size * count = 0 then some (d, s, 0)
  else if s.mode.writes = false then some (d, { s with error := true }, 0)
  else if s.last = .input then none
  else
    let p := buffered d s buf
    let s := { s with pending := some p, pos := p.1 + p.2.length, last := .output }
    if now then some ((flush d s).1, (flush d s).2, count) else some (d, s, count)

/-- fread( buffer, size, count, s ): the bytes put in the buffer and the result. -/
def fread (d : Disk) (s : Stream) (size count : Nat) : Option (Stream × List UInt8 × Nat) :=
  if size * count = 0 then some (s, [], 0)
  else if s.mode.reads = false then some ({ s with error := true }, [], 0)
  else if s.last = .output then none
  else match d s.path with
    | some (.dir _) => some ({ s with error := true }, [], 0)
    | _ =>
      let bs := ((d.bytes s.path).drop s.pos).take (size * count)
      some ({ s with pos := s.pos + bs.length, last := if bs.length < size * count then .none else .input }, bs, bs.length / size)

/-- The position that fseek goes to. -/
def target (d : Disk) (s : Stream) (offset : Int) : Origin → Int
  | .set => offset
  | .cur => s.pos + offset
  | .end => (d.bytes s.path).length + offset

/-- fseek: 0, or -1 if the position would be negative. -/
def fseek (d : Disk) (s : Stream) (offset : Int) (o : Origin) : Disk × Stream × Int :=
  let r := flush d s
  if target r.1 r.2 offset o < 0 then (r.1, r.2, -1)
  else (r.1, { r.2 with pos := (target r.1 r.2 offset o).toNat, last := .none }, 0)

/-- fclose. -/
def fclose (d : Disk) (s : Stream) : Disk := (flush d s).1

/-- `st_size` of fstat. -/
def statSize (d : Disk) (s : Stream) : Nat :=
  match d s.path with
  | some (.file b) => b.length
  | some (.dir n) => n
  | none => 0

/-! ### DKFile (the object is its `file` pointer and `closeOnDealloc`, DKFile.c 36-41) -/

/-- struct DKFile (DKFile.c 36-41). -/
structure Obj where
  file : Option Stream
  closeOnDealloc : Bool
  deriving DecidableEq, Repr

/-- DKStringGetCStringPtr, as fopen reads it: up to the first zero. -/
def cname (name : List UInt8) : List UInt8 := name.takeWhile (· ≠ 0)

/-- DKFileOpen (DKFile.c 128-150). -/
def openFile (d : Disk) (name : List UInt8) (m : Mode) : Disk × Option Obj :=
  ((fopen d (cname name) m).1, (fopen d (cname name) m).2.map fun s => ⟨some s, true⟩)

/-- DKFileClose (DKFile.c 156-175), on an object that is retained elsewhere (it also releases it). -/
def closeFile (d : Disk) (f : Obj) : Disk × Obj × Int :=
  match f.file with
  | some s => (fclose d s, { f with file := none }, 0)
  | none => (d, f, -1)

/-- DKFileFinalize (DKFile.c 90-101): the disk, and the stream if it stays open. -/
def finalize (d : Disk) (f : Obj) : Disk × Option Stream :=
  match f.file with
  | some s => if f.closeOnDealloc then (fclose d s, none) else (d, some s)
  | none => (d, none)

/-- DKFileExists (DKFile.c 107-122). -/
def existsFile (d : Disk) (name : List UInt8) : Bool := (d (cname name)).isSome

/-- DKFileGetLength (DKFile.c 245-280). -/
def getLength (d : Disk) (f : Obj) : Nat :=
  match f.file with
  | some s => statSize d s
  | none => 0

/-- Stream operations (DKStream.c 45-115). -/
inductive Op where
  | seek (offset : Int) (o : Origin)
  | tell
  | status
  | read (size count : Nat)
  | write (buf : List UInt8) (size count : Nat) (now : Bool)

/-- What they give. -/
inductive Out where
  | result (i : Int)
  | bytes (bs : List UInt8) (count : Nat)
  | count (n : Nat)
  deriving DecidableEq, Repr

/-- DKFileSeek, DKFileTell, DKFileGetStatus, DKFileRead, DKFileWrite (DKFile.c 193-239, 286-311). -/
def step (d : Disk) (f : Obj) (op : Op) : Option (Disk × Obj × Out) :=
  match f.file with
  | none =>
    some (d, f, match op with
      | .seek _ _ | .tell | .status => .result (-1)
      | .read _ _ => .bytes [] 0
      | .write _ _ _ _ => .count 0)
  | some s =>
    match op with
    | .seek offset o => some ((fseek d s offset o).1, { f with file := some (fseek d s offset o).2.1 }, .result (fseek d s offset o).2.2)
    | .tell => some (d, f, .result s.pos)
    | .status => some (d, f, .result (if s.error then 1 else 0))
    | .read size count => (fread d s size count).map fun r => (d, { f with file := some r.1 }, .bytes r.2.1 r.2.2)
    | .write buf size count now => (fwrite d s buf size count now).map fun r => (r.1, { f with file := some r.2.1 }, .count r.2.2)

/-- A history. -/
def run : Disk → Obj → List Op → Option (Disk × Obj × List Out)
  | d, f, [] => some (d, f, [])
  | d, f, op :: ops => (step d f op).bind fun r => (run r.1 r.2.1 ops).map fun q => (q.1, q.2.1, r.2.2 :: q.2.2)

/-! ### Contents of files -/

/-- The argument of DKDataInitWithContentsOfFile: NULL, a name, a DKFile, another object. -/
inductive Source where
  | null
  | name (s : List UInt8)
  | file (f : Obj)
  | other

/-- The bytes of the new object: `none` where nothing was written.  DKByteArraySetLength does not clear them (DKByteArray.c 159-164). -/
abbrev Cells := List (Option UInt8)

/-- fread into a buffer of `n` bytes. -/
def fill (n : Nat) (bs : List UInt8) : Cells := bs.map some ++ List.replicate (n - bs.length) none

/-- `DKFileGetLength`, `DKByteArraySetLength`, `DKFileRead` (DKData.c 291-299, DKString.c 604-612): the bytes, and the file. -/
def readAll (d : Disk) (f : Obj) : Option (Cells × Obj) :=
  if 0 < getLength d f then
    match f.file with
    | some s => (fread d s 1 (getLength d f)).map fun r => (fill (getLength d f) r.2.1, { f with file := some r.1 })
    | none => some (fill (getLength d f) [], f)
  else some ([], f)

/-- What the contents of a file give: the disk, the bytes, the file that was passed, and whether an error was reported. -/
structure Loaded where
  disk : Disk
  bytes : Cells
  file : Option Obj
  error : Bool

/-- DKDataInitWithContentsOfFile (DKData.c 273-311), DKStringInitWithContentsOfFile (DKString.c 573-624). -/
def contents (d : Disk) : Source → Option Loaded
  | .null => some ⟨d, [], none, false⟩
  | .other => some ⟨d, [], none, true⟩
  | .file f => (readAll d f).map fun r => ⟨d, r.1, some r.2, false⟩
  | .name s =>
    match openFile d s .r with
    | (d, none) => some ⟨d, [], none, false⟩
    | (d, some f) => (readAll d f).map fun r => ⟨(closeFile d r.2).1, r.1, none, false⟩

/-! ### The same operations on data (DKData.c 775-868, 110-111) -/

/-- A stream operation on a DKData; `now` has no meaning. -/
def dataStep (x : Data.Obj) : Op → Option (Data.Obj × Out)
  | .seek offset o => some (Data.seek x offset o, .result 0)
  | .tell => some (x, .result x.cursor)
  | .status => some (x, .result 0)
  | .read size count => (Data.read x size count).map fun r => (r.1, .bytes r.2.1 r.2.2)
  | .write buf size count _ => if buf.length = size * count then some ((Data.write x buf count).1, .count (Data.write x buf count).2) else none

/-- A history on data. -/
def dataRun : Data.Obj → List Op → Option (Data.Obj × List Out)
  | x, [] => some (x, [])
  | x, op :: ops => (dataStep x op).bind fun r => (dataRun r.1 ops).map fun q => (q.1, r.2 :: q.2)

/-- DKStreamGetLength of a DKData (DKData.c 111, 527-536). -/
def dataLength (x : Data.Obj) : Nat := x.bytes.length

/-- DKStreamGetLength of a DKString is DKStringGetLength, the number of characters (DKString.c 155, 887-897). -/
def stringLength (bytes : List UInt8) : Option Nat := Text.getLength bytes

end File
end Duck
