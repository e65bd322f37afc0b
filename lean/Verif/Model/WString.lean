import Verif.Model.Data
/-! Model of the conversions between strings and wide strings on Windows (Source/DKString.c 2514-2585).
    MultiByteToWideChar and WideCharToMultiByte belong to Windows; what they do is given by `Host`.  A wide string is its
    16-bit units with the terminator.  `none` is undefined behaviour. -/
namespace Duck
namespace WString

abbrev Unit16 := BitVec 16

/-- The conversions of Windows with code page CP_UTF8, flags 0 and a terminated source: the converted text with its terminator,
    `none` if it cannot be converted. -/
structure Host where
  toWide : List UInt8 → Option (List Unit16)
  toUtf8 : List Unit16 → Option (List UInt8)

/-- What a conversion does, given the destination (NULL or `capacity` units of memory) and its size argument: its result,
    and what it has written.  A size of 0 asks for the size needed; a NULL destination with another size is ERROR_INVALID_PARAMETER,
    a short one ERROR_INSUFFICIENT_BUFFER; both give 0.  Writing past the destination is undefined behaviour. -/
def convert {α : Type} (converted : Option (List α)) (dst : Option Nat) (size : Nat) : Option (Nat × List α) :=
  match converted with
  | none => some (0, [])
  | some w =>
    if size = 0 then some (w.length, [])
    else match dst with
      | none => some (0, [])
      | some capacity => if size < w.length then some (0, []) else if w.length ≤ capacity then some (w.length, w) else none

/-- DKDataGetMutableBytePtr at index 0 (DKData.c 653-664): NULL if there is no such byte, else the memory there. -/
def bytePtr (d : Data.Obj) : Option Nat := if 0 < d.bytes.length then some d.bytes.length else none

/-- DKMutableDataWithCapacity (DKData.h 54, DKData.c 317-328): memory is reserved, the data is empty. -/
def dataWithCapacity (_capacity : Nat) : Data.Obj := ⟨[], 0⟩

/-- The units written at the start of the data, each two bytes in memory on a little-endian host. -/
def poke (d : Data.Obj) (w : List Unit16) : Data.Obj :=
  { d with bytes := w.flatMap (fun u => [UInt8.ofNat u.toNat, UInt8.ofNat (u.toNat / 256)]) ++ d.bytes.drop (2 * w.length) }

/-- DKStringGetWStringAsData (2555-2583): the data, the inner `none` is NULL.  The source is the string's bytes as a C string. -/
def asData (h : Host) (s : List UInt8) : Option (Option Data.Obj) :=
  if s.length = 0 then some none
  else
    let converted := h.toWide (Data.cstr s)
    (convert converted none 0).bind fun r =>
      if r.1 = 0 then some none
      else
        let d := dataWithCapacity (r.1 * 2)
        (convert converted ((bytePtr d).map (· / 2)) r.1).map fun q => if q.1 = r.1 then some (poke d q.2) else none

/-- DKStringGetWString (2539-2549): DKDataGetBytePtr (DKData.c 601-612) of the data, as units; NULL (no such byte) is the inner `none`. -/
def getWString (h : Host) (s : List UInt8) : Option (Option (List UInt8)) :=
  (asData h s).map fun d =>
    match d with
    | none => some [0, 0]
    | some d => if 0 < d.bytes.length then some d.bytes else none

/-- DKStringInitWithWString (2520-2533): DKStringInitWithCString takes the bytes before the terminator; a block of the size 0 has
    none. -/
def initWithWString (h : Host) (w : List Unit16) : Option (List UInt8) :=
  (convert (h.toUtf8 w) none 0).bind fun r =>
    (convert (h.toUtf8 w) (some r.1) r.1).bind fun q => if (0 : UInt8) ∈ q.2 then some (Data.cstr q.2) else none

end WString
end Duck
