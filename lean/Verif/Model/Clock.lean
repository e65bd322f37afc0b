import Verif.Model.Encoding
import Verif.Model.Number
/-! Model of the clocks and of the generation of identifiers (Source/DKPlatform.c 413-531, 699-764).
    DKDateTime is a double; here it is a whole number of ticks of 10^-7 seconds, the finest unit of the clocks read: the
    rounding of the double is left out.  dk_systemtime (767-800) is the same as dk_datetime, or the quotient of two counters
    of Windows, which is not modelled.  `none` is undefined behaviour or an indeterminate result. -/
namespace Duck
namespace Clock

/-- A second in ticks. -/
def second : Int := 10000000

/-- DKAbsoluteTimeSince1970 (DKPlatform.h 285), in seconds. -/
def absoluteTimeSince1970 : Int := 978307200

/-- struct timeval. -/
structure TimeVal where
  sec : Int
  usec : Int

/-- dk_datetime on POSIX (DKPlatform.c 703-711); `none` if gettimeofday fails. -/
def date (t : Option TimeVal) : Int :=
  match t with
  | none => 0
  | some t => t.sec * second - absoluteTimeSince1970 * second + t.usec * 10

/-- dk_localtime on POSIX (737-746), with the tz_minuteswest of gettimeofday. -/
def localTime (t : Option (TimeVal × Int)) : Int :=
  match t with
  | none => 0
  | some (t, west) => t.sec * second - absoluteTimeSince1970 * second + t.usec * 10 + west * 60 * second

/-- nsecs_since_1601 on Windows (721): the FILETIME from its halves. -/
def fileTime (high low : BitVec 32) : BitVec 64 := (high.setWidth 64 <<< 32) ||| low.setWidth 64

/-- nsecs_since_1970 (722). -/
def since1970 (f : BitVec 64) : BitVec 64 := f - BitVec.ofNat 64 (11644473600000 * 10000)

/-- dk_datetime on Windows (713-728); the operands are unsigned 64-bit. -/
def dateWindows (f : BitVec 64) : Int :=
  let n := since1970 f
  let secs := n / 10000000#64
  let nsecs := n - secs
  (secs.toNat : Int) * second - absoluteTimeSince1970 * second + (nsecs.toNat : Int)

/-- dk_localtime on Windows (748-761) with the Bias in minutes, `none` for TIME_ZONE_ID_INVALID. -/
def localTimeWindows (f : BitVec 64) (bias : Option Int) : Int :=
  dateWindows f + (match bias with | some b => b * 60 * second | none => 0)

end Clock

namespace Uuid
open Number (leBytes)

/-- ascii_to_hex (432-443). -/
def asciiToHex : List UInt8 :=
  [0, 0, 0, 0, 0, 0, 0, 0, 0, 0, 0, 0, 0, 0, 0, 0,
   0, 0, 0, 0, 0, 0, 0, 0, 0, 0, 0, 0, 0, 0, 0, 0,
   0, 0, 0, 0, 0, 0, 0, 0, 0, 0, 0, 0, 0, 0, 0, 0,
   0, 1, 2, 3, 4, 5, 6, 7, 8, 9, 0, 0, 0, 0, 0, 0,
   0, 10, 11, 12, 13, 14, 15, 0, 0, 0, 0, 0, 0, 0, 0, 0,
   0, 0, 0, 0, 0, 0, 0, 0, 0, 0, 0, 0, 0, 0, 0, 0,
   0, 10, 11, 12, 13, 14, 15, 0, 0, 0, 0, 0, 0, 0, 0, 0,
   0, 0, 0, 0, 0, 0, 0, 0, 0, 0, 0, 0, 0, 0, 0, 0]

/-- One entry of the table. -/
def digit (c : UInt8) : Option UInt8 := asciiToHex[(c &&& 0x7F).toNat]?

/-- dk_uuid_readbyte (445-450) at an offset of the buffer. -/
def readByte (buffer : List UInt8) (i : Nat) : Option UInt8 :=
  (buffer[i]?).bind fun a => (buffer[i + 1]?).bind fun b => (digit a).bind fun n0 => (digit b).map fun n1 => n0 <<< 4 ||| n1

/-- The offsets of the bytes in the text (466-487). -/
def offsets : List Nat := [0, 2, 4, 6, 9, 11, 14, 16, 19, 21, 24, 26, 28, 30, 32, 34]

/-- dk_uuid_generate on Android (452-491), given what /proc/sys/kernel/random/uuid holds; `none` if it cannot be opened.
    A NULL stream is undefined behaviour, a short read leaves the identifier indeterminate. -/
def generateAndroid (file : Option (List UInt8)) : Option (List UInt8) :=
  file.bind fun f =>
    let buffer := f.take 36
    if buffer.length = 36 then offsets.mapM (readByte (buffer ++ [0])) else none

/-- A Windows GUID. -/
structure Guid where
  data1 : BitVec 32
  data2 : BitVec 16
  data3 : BitVec 16
  data4 : List UInt8

/-- Bytes as they are in memory on a little-endian host. -/
def stored (n v : Nat) : List UInt8 := (leBytes n v).map fun b => UInt8.ofBitVec b

/-- dk_uuid_generate on Windows (496-531), a little-endian host without GCC builtins; `none` if CoCreateGuid fails. -/
def generateWindows (g : Option Guid) : List UInt8 :=
  let g := g.getD ⟨0, 0, 0, List.replicate 8 0⟩
  stored 4 (Encoding.swapInt32 g.data1).toNat ++ stored 2 (Encoding.swapInt16 g.data2).toNat ++
    stored 2 (Encoding.swapInt16 g.data3).toNat ++ g.data4

end Uuid
end Duck
