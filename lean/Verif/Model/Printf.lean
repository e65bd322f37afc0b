import Verif.Model.Unicode
import Verif.Model.Data
/-
Model of formatted output and of line and character input and output, Source/DKStream.c:133-594.

The stream is any object with a `write` method; `sprintf` of the C library on a single directive is a parameter.  `none` is undefined
behaviour: reading beyond the format, writing beyond a buffer, an argument of another type than `va_arg` asks for.
-/
namespace Duck
namespace Printf
open Unicode

/-- The `write` method of a stream, with `size = 1`: the stream afterwards and the number of bytes it says were written -/
abbrev Write (σ : Type) := σ → List UInt8 → σ × Nat

/-- An argument, by its type after the default promotions (LP64) -/
inductive Arg where
  /-- `int`, `unsigned`, and `char` and `short`, which are promoted -/
  | int (v : BitVec 32)
  /-- `long`, `long long`, `size_t`, `intmax_t`, `ptrdiff_t` and their unsigned or signed forms -/
  | long (v : BitVec 64)
  | dbl (bits : BitVec 64)
  | ldbl (bits : BitVec 128)
  | ptr (p : BitVec 64)
  /-- a `const char *`, possibly NULL -/
  | cstr (s : Option (List UInt8))
  /-- a `const wchar_t *`, possibly NULL -/
  | wstr (s : Option (List (BitVec 32)))
  /-- an object, given by its description -/
  | obj (desc : List UInt8)
  /-- the address of a counter for `%n` -/
  | counter
  deriving DecidableEq

/-- `sprintf` with a format that is a single directive, and its argument: the characters without terminator; `none` is undefined -/
abbrev Libc := List UInt8 → Arg → Option (List UInt8)

/-- IntegerSize, DKStream.c:151-189 -/
def integerSize (format : List UInt8) (len : Nat) : Option Nat :=
  if len ≤ 2 then some 4
  else (rd format (len - 2)).bind fun m1 => (rd format (len - 3)).map fun m2 =>
    if m1 = 0x6c then (if m2 = 0x6c then 8 else 8)
    else if m1 = 0x68 then (if m2 = 0x68 then 1 else 2)
    else if m1 = 0x70 then 8 else if m1 = 0x6a then 8 else if m1 = 0x7a then 8 else if m1 = 0x74 then 8 else 4

/-- FloatSize, DKStream.c:191-195 -/
def floatSize (format : List UInt8) (len : Nat) : Option Nat := (rd format (len - 2)).map fun m => if m = 0x4c then 16 else 8

/-- IsUnformattedFloat, DKStream.c:197-203 -/
def isUnformatted (format : List UInt8) (len : Nat) : Option Bool :=
  (rd format (len - 1)).bind fun f => (rd format (len - 2)).map fun m => f == 0x66 && (len == 2 || (len == 3 && m == 0x6c))

/-- The loop of TrimZeroes, DKStream.c:213-217, with `i + 1` characters left -/
def trimGo (num : List UInt8) (stop : Nat) : Nat → Nat
  | 0 => 0
  | i + 1 => if i > stop ∧ num[i]? = some 0x30 then trimGo num stop i else i + 1

/-- TrimZeroes, DKStream.c:205-221: what is left of the characters -/
def trimZeroes (num : List UInt8) : List UInt8 :=
  if (0x2e : UInt8) ∈ num then num.take (trimGo num ((num.takeWhile (· != 0x2e)).length + 1) num.length) else num

/-- CopyFormat, DKStream.c:223-228, into a buffer of eight bytes -/
def copyFormat (m : Mem) (cursor len : Nat) : Option (List UInt8) :=
  if len < 8 then (if cursor + len ≤ m.length then some ((m.drop cursor).take len) else none) else none

/-- WriteCounter, DKStream.c:230-273: the number of bits stored and what is stored, if anything -/
def writeCounter (format : List UInt8) (len count : Nat) : Option (Option (Nat × Nat)) :=
  (rd format (len - 2)).map fun m =>
    if len = 2 then some (32, count % 2 ^ 32)
    else if len = 3 then
      if m = 0x6c then some (64, count % 2 ^ 64) else if m = 0x68 then some (16, count % 2 ^ 16) else if m = 0x6a then some (64, count % 2 ^ 64)
      else if m = 0x7a then some (64, count % 2 ^ 64) else if m = 0x74 then some (64, count % 2 ^ 64) else none
    else if len = 4 then
      if m = 0x6c then some (64, count % 2 ^ 64) else if m = 0x68 then some (8, count % 2 ^ 8) else none
    else none

/-- The stream, `write_count`, the arguments left and what `%n` directives stored -/
structure St (σ : Type) where
  stream : σ
  count : Nat
  args : List Arg
  stores : List (Nat × Nat)

variable {σ : Type}

/-- `write_count += stream->write( _self, …, 1, n )` -/
def St.emit (write : Write σ) (st : St σ) (bs : List UInt8) : St σ :=
  { st with stream := (write st.stream bs).1, count := st.count + (write st.stream bs).2 }

/-- Flushing the current sequence, DKStream.c:314-318 and 519-523 -/
def St.flush (write : Write σ) (m : Mem) (st : St σ) (start count : Nat) : Option (St σ) :=
  if count > 0 then (if start + count ≤ m.length then some (st.emit write ((m.drop start).take count)) else none) else some st

/-- `va_arg( arg_ptr, int )` -/
def St.popInt (st : St σ) : Option (BitVec 32 × St σ) :=
  match st.args with
  | .int v :: r => some (v, { st with args := r })
  | _ => none

/-- `va_arg( arg_ptr, int64_t )` -/
def St.popLong (st : St σ) : Option (BitVec 64 × St σ) :=
  match st.args with
  | .long v :: r => some (v, { st with args := r })
  | _ => none

/-- `va_arg( arg_ptr, double )` -/
def St.popDbl (st : St σ) : Option (BitVec 64 × St σ) :=
  match st.args with
  | .dbl v :: r => some (v, { st with args := r })
  | _ => none

/-- `va_arg( arg_ptr, long double )` -/
def St.popLdbl (st : St σ) : Option (BitVec 128 × St σ) :=
  match st.args with
  | .ldbl v :: r => some (v, { st with args := r })
  | _ => none

/-- `va_arg( arg_ptr, const char * )` -/
def St.popStr (st : St σ) : Option (Option (List UInt8) × St σ) :=
  match st.args with
  | .cstr s :: r => some (s, { st with args := r })
  | _ => none

/-- `va_arg( arg_ptr, const wchar_t * )` -/
def St.popWide (st : St σ) : Option (Option (List (BitVec 32)) × St σ) :=
  match st.args with
  | .wstr s :: r => some (s, { st with args := r })
  | _ => none

/-- `va_arg( arg_ptr, DKObjectRef )` and its description -/
def St.popObj (st : St σ) : Option (List UInt8 × St σ) :=
  match st.args with
  | .obj d :: r => some (d, { st with args := r })
  | _ => none

/-- `va_arg( arg_ptr, void * )` -/
def St.popCounter (st : St σ) : Option (St σ) :=
  match st.args with
  | .counter :: r => some { st with args := r }
  | _ => none

/-- "(null)" -/
def nullText : List UInt8 := [0x28, 0x6e, 0x75, 0x6c, 0x6c, 0x29]
/-- L"(null)" -/
def nullWide : List (BitVec 32) := [0x28, 0x6e, 0x75, 0x6c, 0x6c, 0x29]

/-- `snprintf` twice and a write, DKStream.c:367-377 and 389-399.  The buffer has the length asked for. -/
def St.viaBuffer (write : Write σ) (libc : Libc) (st : St σ) (fmt : List UInt8) (a : Arg) : Option (St σ) :=
  (libc fmt a).map fun out => if out.length > 0 then st.emit write out else st

/-- Case 's', DKStream.c:359-407 -/
def St.string (write : Write σ) (libc : Libc) (m : Mem) (cursor tok : Nat) (st : St σ) : Option (St σ) :=
  (rd m (cursor + tok - 1)).bind fun before =>
    if before = 0x6c then
      st.popWide.bind fun a => (copyFormat m cursor (tok + 1)).bind fun fmt => a.2.viaBuffer write libc fmt (.wstr (some (a.1.getD nullWide)))
    else
      st.popStr.bind fun a =>
        if tok > 1 then (copyFormat m cursor (tok + 1)).bind fun fmt => a.2.viaBuffer write libc fmt (.cstr (some (a.1.getD nullText)))
        else some (a.2.emit write (a.1.getD nullText))

/-- Writing `tmp`, DKStream.c:456-460 and 490-501: 120 bytes with the terminator; the count does not depend on the stream -/
def St.number (write : Write σ) (st : St σ) (out : List UInt8) : Option (St σ) :=
  if out.length < 120 then
    some { st with stream := if out.length > 0 then (write st.stream out).1 else st.stream, count := st.count + out.length }
  else none

/-- Writing `tmp` after trimming zeros; the buffer is filled before they are trimmed -/
def St.float (write : Write σ) (st : St σ) (fmt out : List UInt8) : Option (St σ) :=
  if out.length < 120 then
    (isUnformatted fmt fmt.length).bind fun u => st.number write (if u ∧ out.length > 0 then trimZeroes out else out)
  else none

/-- Cases 'd' to 'p', DKStream.c:425-460 -/
def St.integer (write : Write σ) (libc : Libc) (m : Mem) (cursor tok : Nat) (st : St σ) : Option (St σ) :=
  (copyFormat m cursor (tok + 1)).bind fun fmt => (integerSize (m.drop cursor) (tok + 1)).bind fun size =>
    if size = 8 then st.popLong.bind fun a => (libc fmt (.long a.1)).bind fun out => a.2.number write out
    else st.popInt.bind fun a => (libc fmt (.int a.1)).bind fun out => a.2.number write out

/-- Cases 'f' to 'A', DKStream.c:463-501 -/
def St.floating (write : Write σ) (libc : Libc) (m : Mem) (cursor tok : Nat) (st : St σ) : Option (St σ) :=
  (copyFormat m cursor (tok + 1)).bind fun fmt => (floatSize (m.drop cursor) (tok + 1)).bind fun size =>
    if size = 8 then st.popDbl.bind fun a => (libc fmt (.dbl a.1)).bind fun out => a.2.float write fmt out
    else st.popLdbl.bind fun a => (libc fmt (.ldbl a.1)).bind fun out => a.2.float write fmt out

/-- Case 'c', DKStream.c:419-422 with DKPutc, 586-594: one byte is written, and counted when what DKPutc returns, the
    argument (or EOF), equals `ch`, which is 'c' -/
def St.char (write : Write σ) (st : St σ) : Option (St σ) :=
  st.popInt.map fun a =>
    let w := write a.2.stream [UInt8.ofBitVec (a.1.setWidth 8)]
    let r : BitVec 32 := if w.2 = 1 then a.1 else -1
    { a.2 with stream := w.1, count := if r = 0x63 then a.2.count + 1 else a.2.count }

/-- Case 'n', DKStream.c:504-507 -/
def St.counter (m : Mem) (cursor tok : Nat) (st : St σ) : Option (St σ) :=
  (copyFormat m cursor (tok + 1)).bind fun fmt => st.popCounter.bind fun st => (writeCounter fmt fmt.length st.count).map fun r =>
    { st with stores := st.stores ++ r.toList }

/-- The characters that end a directive, DKStream.c:343 -/
def tokens : List UInt8 := [0x40, 0x25, 0x63, 0x73, 0x64, 0x69, 0x6f, 0x78, 0x58, 0x75, 0x66, 0x46, 0x65, 0x45, 0x61, 0x41, 0x67, 0x47, 0x6e, 0x70]

/-- `strcspn( …, "@%csdioxXufFeEaAgGnp" )` -/
def tokenSpan (m : Mem) : Option Nat :=
  if (0 : UInt8) ∈ m then some (m.takeWhile fun b => b != 0 && !tokens.contains b).length else none

/-- The switch, DKStream.c:350-513: the state, `seq_start` and `seq_count` -/
def St.directive (write : Write σ) (libc : Libc) (m : Mem) (cursor tok : Nat) (ch : UInt8) (st : St σ) : Option (St σ × Nat × Nat) :=
  if ch = 0x25 then some (st, cursor + tok, 1)
  else
    (if ch = 0x73 then st.string write libc m cursor tok
     else if ch = 0x40 then st.popObj.map fun a => a.2.emit write a.1
     else if ch = 0x63 then st.char write
     else if ch ∈ [0x64, 0x69, 0x75, 0x6f, 0x78, 0x58, 0x70] then st.integer write libc m cursor tok
     else if ch ∈ [0x66, 0x46, 0x67, 0x47, 0x65, 0x45, 0x61, 0x41] then st.floating write libc m cursor tok
     else if ch = 0x6e then st.counter m cursor tok
     else some st).map fun st => (st, cursor + tok + 1, 0)

/-- The loop of DKVSPrintf, DKStream.c:303-523 -/
def go (write : Write σ) (libc : Libc) (m : Mem) (fuel cursor start count : Nat) (st : St σ) : Option (St σ) :=
  (ustrscan (m.drop cursor)).bind fun r =>
    if r.2 = 0 then st.flush write m start count
    else match fuel with
      | 0 => none
      | fuel + 1 =>
        if r.2 > 1 ∨ r.1 ≠ 0x25 then go write libc m fuel (cursor + r.2) start (count + r.2) st
        else
          (st.flush write m start count).bind fun st => (tokenSpan (m.drop (cursor + 1))).bind fun k =>
            (m[cursor + (k + 1)]?).bind fun ch => (st.directive write libc m cursor (k + 1) ch).bind fun d =>
              go write libc m fuel (cursor + (k + 1) + 1) d.2.1 d.2.2 d.1

/-- DKVSPrintf, DKStream.c:275-526, on a stream that is not NULL: the stream, what is returned, and what was stored through `%n` -/
def printf (write : Write σ) (libc : Libc) (s : σ) (format : List UInt8) (args : List Arg) : Option (σ × Int × List (Nat × Nat)) :=
  (go write libc (format ++ [0]) format.length 0 0 0 { stream := s, count := 0, args := args, stores := [] }).map fun st =>
    (st.stream, (BitVec.ofNat 32 st.count).toInt, st.stores)

/-! ### Lines and characters, on a data object or string -/

/-- The `write` method of data objects and strings -/
def writeData : Write Data.Obj := fun d bs => Data.write d bs bs.length

/-- The loop of DKGets, DKStream.c:540-546: the stream and the bytes of the string.  DKStringAppendCString appends up to the terminator. -/
def getsLoop : Nat → Data.Obj → List UInt8 → Option (Data.Obj × List UInt8)
  | 0, d, acc => (Data.read d 1 1).bind fun r => if r.2.2 = 1 then none else some (r.1, acc)
  | fuel + 1, d, acc => (Data.read d 1 1).bind fun r =>
    if r.2.2 = 1 then (if r.2.1 = [0x0a] then some (r.1, acc) else getsLoop fuel r.1 (if r.2.1 = [0] then acc else acc ++ r.2.1))
    else some (r.1, acc)

/-- DKGets, DKStream.c:532-549: every pass reads one byte -/
def gets (d : Data.Obj) : Option (Data.Obj × List UInt8) := getsLoop d.bytes.length d []

/-- DKPuts, DKStream.c:555-566: zero or EOF -/
def puts (write : Write σ) (s : σ) (bs : List UInt8) : σ × Int :=
  ((write s bs).1, if (write s bs).2 = bs.length then 0 else -1)

/-- DKGetc, DKStream.c:572-580: the byte as a `char`, which is signed, or EOF -/
def getc (d : Data.Obj) : Option (Data.Obj × Int) :=
  (Data.read d 1 1).map fun r => (r.1, if r.2.2 = 1 then (match r.2.1 with | [b] => b.toBitVec.toInt | _ => -1) else -1)

/-- DKPutc, DKStream.c:586-594 -/
def putc (write : Write σ) (s : σ) (ch : Int) : σ × Int :=
  let w := write s [UInt8.ofBitVec (BitVec.ofInt 8 ch)]
  (w.1, if w.2 = 1 then ch else -1)

end Printf
end Duck
