import Verif.Model.File
/-! What C100 says a file is: bytes and a position, without buffers. -/
namespace Duck
namespace File
open Data (Origin)

/-- The bytes with others put over them from a position; a gap is filled with 0. -/
def put (b : List UInt8) (at_ : Nat) (bs : List UInt8) : List UInt8 :=
  (List.range (max b.length (at_ + bs.length))).map fun i => if at_ ≤ i ∧ i < at_ + bs.length then bs.getD (i - at_) 0 else b.getD i 0

/-- An open file. -/
structure Abs where
  mode : Mode
  content : List UInt8
  pos : Nat
  error : Bool

/-- Where a seek goes. -/
def Abs.goal (a : Abs) (offset : Int) : Origin → Int
  | .set => offset
  | .cur => a.pos + offset
  | .end => a.content.length + offset

/-- One operation. -/
def Abs.step (a : Abs) : Op → Abs × Out
  | .seek offset o => if a.goal offset o < 0 then (a, .result (-1)) else ({ a with pos := (a.goal offset o).toNat }, .result 0)
  | .tell => (a, .result a.pos)
  | .status => (a, .result (if a.error then 1 else 0))
  | .read size count =>
    if size * count = 0 then (a, .bytes [] 0)
    else if a.mode.reads = false then ({ a with error := true }, .bytes [] 0)
    else
      let bs := (a.content.drop a.pos).take (size * count)
      ({ a with pos := a.pos + bs.length }, .bytes bs (bs.length / size))
  | .write buf size count _ =>
    if size * count = 0 then (a, .count 0)
    else if a.mode.writes = false then ({ a with error := true }, .count 0)
    else
      let at_ := if a.mode.appends then a.content.length else a.pos
      ({ a with content := put a.content at_ buf, pos := at_ + buf.length }, .count count)

/-- A history. -/
def Abs.run (a : Abs) : List Op → Abs × List Out
  | [] => (a, [])
  | op :: ops => (((a.step op).1.run ops).1, (a.step op).2 :: ((a.step op).1.run ops).2)

/-- A file just opened: empty if the mode truncates it. -/
def Abs.start (d : Disk) (p : List UInt8) (m : Mode) : Abs :=
  ⟨m, match m, d p with | .w, _ | .wp, _ => [] | _, some (.file b) => b | _, _ => [], 0, false⟩

/-- An operation that data and files have in common: seeks stay inside the content, those from the end go there, and items are not empty. -/
def Abs.Inside (a : Abs) : Op → Prop
  | .seek offset .end => offset = 0
  | .seek offset o => 0 ≤ a.goal offset o ∧ a.goal offset o ≤ a.content.length
  | .tell | .status => True
  | .read size _ => 0 < size
  | .write _ size _ _ => 0 < size

/-- All operations of a history are. -/
def Abs.AllInside (a : Abs) : List Op → Prop
  | [] => True
  | op :: ops => a.Inside op ∧ (a.step op).1.AllInside ops

/-- Writing chunks of bytes; the library writes its buffer to the disk when it likes. -/
def writes (chunks : List (List UInt8 × Bool)) : List Op := chunks.map fun c => .write c.1 1 c.1.length c.2

/-- All the bytes of the chunks. -/
def total (chunks : List (List UInt8 × Bool)) : List UInt8 := (chunks.map Prod.fst).flatten

end File
end Duck
