import Verif.Model.StrToNum

/-!
# XML documents: `DKXMLParse` (Source/DKXML.c) and the tokenizer it drives (ThirdParty/yxml/yxml.c)

The tokenizer is a byte-driven automaton with a fixed-size stack of NUL-terminated names.  It is
modelled byte for byte, including its buffer: an access outside the buffer, a NULL dereference or
an arithmetic underflow is the result `none`, which no run of the program may reach.

Configuration: release build, `DKError` prints and continues (DKPlatform.h 390-392).
-/

namespace Duck.Xml

abbrev Bytes := List UInt8

/-! ## Character classes (yxml.c 98-112) -/

/-- `yxml_isSP` (yxml.c 100). -/
def isSP (c : UInt8) : Bool := c == 0x20 || c == 0x09 || c == 0x0a
/-- `yxml_isAlpha` (yxml.c 101): unsigned arithmetic, so the difference is below 26 exactly in this range. -/
def isAlpha (c : UInt8) : Bool := 0x61 ≤ (c ||| 32) && (c ||| 32) < 0x7b
/-- `yxml_isNum` (yxml.c 102). -/
def isNum (c : UInt8) : Bool := 0x30 ≤ c && c < 0x3a
/-- `yxml_isHex` (yxml.c 103). -/
def isHex (c : UInt8) : Bool := isNum c || (0x61 ≤ (c ||| 32) && (c ||| 32) < 0x67)
/-- `yxml_isEncName` (yxml.c 104). -/
def isEncName (c : UInt8) : Bool := isAlpha c || isNum c || c == 0x2e || c == 0x5f || c == 0x2d
/-- `yxml_isNameStart` (yxml.c 105). -/
def isNameStart (c : UInt8) : Bool := isAlpha c || c == 0x3a || c == 0x5f || 128 ≤ c
/-- `yxml_isName` (yxml.c 106). -/
def isName (c : UInt8) : Bool := isNameStart c || isNum c || c == 0x2d || c == 0x2e
/-- `yxml_isRef` (yxml.c 112). -/
def isRef (c : UInt8) : Bool := isNum c || isAlpha c || c == 0x23

/-! ## States and transitions (yxml.c 28-95, 362-1050) -/

/-- `yxml_state_t` (yxml.c 28-95). -/
inductive St
  | string | attr0 | attr1 | attr2 | attr3 | attr4 | cd0 | cd1 | cd2 | comment0 | comment1 
  | comment2 | comment3 | comment4 | dt0 | dt1 | dt2 | dt3 | dt4 | elem0 | elem1 | elem2 | 
  elem3 | enc0 | enc1 | enc2 | enc3 | etag0 | etag1 | etag2 | init | le0 | le1 | le2 | le3 
  | lee1 | lee2 | leq0 | misc0 | misc1 | misc2 | misc2a | misc3 | pi0 | pi1 | pi2 | pi3 | 
  pi4 | std0 | std1 | std2 | std3 | ver0 | ver1 | ver2 | ver3 | xmldecl0 | xmldecl1 | 
  xmldecl2 | xmldecl3 | xmldecl4 | xmldecl5 | xmldecl6 | xmldecl7 | xmldecl8 | xmldecl9
  deriving DecidableEq, Repr

/-- The action a transition calls after changing the state: one constructor for each `yxml_*`
function called from the switch of `yxml_parse` (yxml.c 362-1050), and `ok` for `return YXML_OK`. -/
inductive Act
  | ok | attrstart | attrname | attrnameend | dataattr | attrvalend
  | refstart | ref | refattrval | refcontent | datacontent | datacd1 | datacd2
  | elemstart | elemname | elemnameend | selfclose | elemclose | elemcloseend
  | pistart | piname | piabort | pinameend | datapi1 | datapi2 | pivalend
  deriving DecidableEq, Repr

/-- The control part of `yxml_t` (yxml.h): `state`, `nextstate`, the rest of the literal that
`string` points to, `quote`. -/
structure Ctl where
  st : St
  next : St
  lit : Bytes
  quote : UInt8
  deriving DecidableEq, Repr

/-- The switch of `yxml_parse` (yxml.c 362-1050): new control state and the action to perform;
`none` stands for falling out of the switch, which returns `YXML_ESYN` (yxml.c 1051). -/
def trans (c : Ctl) (ch : UInt8) : Option (Ctl × Act) :=
  match c.st with
  | .string => match c.lit with
    | b :: l => if ch = b then some ({ c with lit := l, st := if l = [] then c.next else c.st }, .ok) else none
    | [] => none
  | .attr0 =>
      if isName ch then some (c, .attrname)
      else if isSP ch then some ({ c with st := .attr1 }, .attrnameend)
      else if ch = 0x3d then some ({ c with st := .attr2 }, .attrnameend)
      else none
  | .attr1 => if isSP ch then some (c, .ok) else if ch = 0x3d then some ({ c with st := .attr2 }, .ok) else none
  | .attr2 =>
      if isSP ch then some (c, .ok)
      else if ch = 0x27 ∨ ch = 0x22 then some ({ c with st := .attr3, quote := ch }, .ok)
      else none
  | .attr3 =>
      if ch ≠ c.quote ∧ ch ≠ 0x3c ∧ ch ≠ 0x26 then some (c, .dataattr)
      else if ch = 0x26 then some ({ c with st := .attr4 }, .refstart)
      else if c.quote = ch then some ({ c with st := .elem2 }, .attrvalend)
      else none
  | .attr4 => if isRef ch then some (c, .ref) else if ch = 0x3b then some ({ c with st := .attr3 }, .refattrval) else none
  | .cd0 => if ch = 0x5d then some ({ c with st := .cd1 }, .ok) else some (c, .datacontent)
  | .cd1 => if ch = 0x5d then some ({ c with st := .cd2 }, .ok) else some ({ c with st := .cd0 }, .datacd1)
  | .cd2 =>
      if ch = 0x5d then some (c, .datacontent)
      else if ch = 0x3e then some ({ c with st := .misc2 }, .ok)
      else some ({ c with st := .cd0 }, .datacd2)
  | .comment0 => if ch = 0x2d then some ({ c with st := .comment1 }, .ok) else none
  | .comment1 => if ch = 0x2d then some ({ c with st := .comment2 }, .ok) else none
  | .comment2 => if ch = 0x2d then some ({ c with st := .comment3 }, .ok) else some (c, .ok)
  | .comment3 => if ch = 0x2d then some ({ c with st := .comment4 }, .ok) else some ({ c with st := .comment2 }, .ok)
  | .comment4 => if ch = 0x3e then some ({ c with st := c.next }, .ok) else none
  | .dt0 =>
      if ch = 0x3e then some ({ c with st := .misc1 }, .ok)
      else if ch = 0x27 ∨ ch = 0x22 then some ({ c with st := .dt1, quote := ch, next := .dt0 }, .ok)
      else if ch = 0x3c then some ({ c with st := .dt2 }, .ok)
      else some (c, .ok)
  | .dt1 => if c.quote = ch then some ({ c with st := c.next }, .ok) else some (c, .ok)
  | .dt2 =>
      if ch = 0x3f then some ({ c with st := .pi0, next := .dt0 }, .ok)
      else if ch = 0x21 then some ({ c with st := .dt3 }, .ok)
      else none
  | .dt3 => if ch = 0x2d then some ({ c with st := .comment1, next := .dt0 }, .ok) else some ({ c with st := .dt4 }, .ok)
  | .dt4 =>
      if ch = 0x27 ∨ ch = 0x22 then some ({ c with st := .dt1, quote := ch, next := .dt4 }, .ok)
      else if ch = 0x3e then some ({ c with st := .dt0 }, .ok)
      else some (c, .ok)
  | .elem0 =>
      if isName ch then some (c, .elemname)
      else if isSP ch then some ({ c with st := .elem1 }, .elemnameend)
      else if ch = 0x2f then some ({ c with st := .elem3 }, .elemnameend)
      else if ch = 0x3e then some ({ c with st := .misc2 }, .elemnameend)
      else none
  | .elem1 =>
      if isSP ch then some (c, .ok)
      else if ch = 0x2f then some ({ c with st := .elem3 }, .ok)
      else if ch = 0x3e then some ({ c with st := .misc2 }, .ok)
      else if isNameStart ch then some ({ c with st := .attr0 }, .attrstart)
      else none
  | .elem2 =>
      if isSP ch then some ({ c with st := .elem1 }, .ok)
      else if ch = 0x2f then some ({ c with st := .elem3 }, .ok)
      else if ch = 0x3e then some ({ c with st := .misc2 }, .ok)
      else none
  | .elem3 => if ch = 0x3e then some ({ c with st := .misc2 }, .selfclose) else none
  | .enc0 => if isSP ch then some (c, .ok) else if ch = 0x3d then some ({ c with st := .enc1 }, .ok) else none
  | .enc1 =>
      if isSP ch then some (c, .ok)
      else if ch = 0x27 ∨ ch = 0x22 then some ({ c with st := .enc2, quote := ch }, .ok)
      else none
  | .enc2 => if isAlpha ch then some ({ c with st := .enc3 }, .ok) else none
  | .enc3 => if isEncName ch then some (c, .ok) else if c.quote = ch then some ({ c with st := .xmldecl6 }, .ok) else none
  | .etag0 => if isNameStart ch then some ({ c with st := .etag1 }, .elemclose) else none
  | .etag1 =>
      if isName ch then some (c, .elemclose)
      else if isSP ch then some ({ c with st := .etag2 }, .elemcloseend)
      else if ch = 0x3e then some ({ c with st := .misc2 }, .elemcloseend)
      else none
  | .etag2 => if isSP ch then some (c, .ok) else if ch = 0x3e then some ({ c with st := .misc2 }, .ok) else none
  | .init =>
      if ch = 0xef then some ({ c with st := .string, next := .misc0, lit := [0xbb, 0xbf] }, .ok)
      else if isSP ch then some ({ c with st := .misc0 }, .ok)
      else if ch = 0x3c then some ({ c with st := .le0 }, .ok)
      else none
  | .le0 =>
      if ch = 0x21 then some ({ c with st := .lee1 }, .ok)
      else if ch = 0x3f then some ({ c with st := .leq0 }, .ok)
      else if isNameStart ch then some ({ c with st := .elem0 }, .elemstart)
      else none
  | .le1 =>
      if ch = 0x21 then some ({ c with st := .lee1 }, .ok)
      else if ch = 0x3f then some ({ c with st := .pi0, next := .misc1 }, .ok)
      else if isNameStart ch then some ({ c with st := .elem0 }, .elemstart)
      else none
  | .le2 =>
      if ch = 0x21 then some ({ c with st := .lee2 }, .ok)
      else if ch = 0x3f then some ({ c with st := .pi0, next := .misc2 }, .ok)
      else if ch = 0x2f then some ({ c with st := .etag0 }, .ok)
      else if isNameStart ch then some ({ c with st := .elem0 }, .elemstart)
      else none
  | .le3 =>
      if ch = 0x21 then some ({ c with st := .comment0, next := .misc3 }, .ok)
      else if ch = 0x3f then some ({ c with st := .pi0, next := .misc3 }, .ok)
      else none
  | .lee1 =>
      if ch = 0x2d then some ({ c with st := .comment1, next := .misc1 }, .ok)
      else if ch = 0x44 then some ({ c with st := .string, next := .dt0, lit := [0x4f, 0x43, 0x54, 0x59, 0x50, 0x45] }, .ok)
      else none
  | .lee2 =>
      if ch = 0x2d then some ({ c with st := .comment1, next := .misc2 }, .ok)
      else if ch = 0x5b then some ({ c with st := .string, next := .cd0, lit := [0x43, 0x44, 0x41, 0x54, 0x41, 0x5b] }, .ok)
      else none
  | .leq0 =>
      if ch = 0x78 then some ({ c with st := .xmldecl0, next := .misc1 }, .pistart)
      else if isNameStart ch then some ({ c with st := .pi1, next := .misc1 }, .pistart)
      else none
  | .misc0 => if isSP ch then some (c, .ok) else if ch = 0x3c then some ({ c with st := .le0 }, .ok) else none
  | .misc1 => if isSP ch then some (c, .ok) else if ch = 0x3c then some ({ c with st := .le1 }, .ok) else none
  | .misc2 =>
      if ch = 0x3c then some ({ c with st := .le2 }, .ok)
      else if ch = 0x26 then some ({ c with st := .misc2a }, .refstart)
      else some (c, .datacontent)
  | .misc2a => if isRef ch then some (c, .ref) else if ch = 0x3b then some ({ c with st := .misc2 }, .refcontent) else none
  | .misc3 => if isSP ch then some (c, .ok) else if ch = 0x3c then some ({ c with st := .le3 }, .ok) else none
  | .pi0 => if isNameStart ch then some ({ c with st := .pi1 }, .pistart) else none
  | .pi1 =>
      if isName ch then some (c, .piname)
      else if ch = 0x3f then some ({ c with st := .pi4 }, .pinameend)
      else if isSP ch then some ({ c with st := .pi2 }, .pinameend)
      else none
  | .pi2 => if ch = 0x3f then some ({ c with st := .pi3 }, .ok) else some (c, .datapi1)
  | .pi3 => if ch = 0x3e then some ({ c with st := c.next }, .pivalend) else some ({ c with st := .pi2 }, .datapi2)
  | .pi4 => if ch = 0x3e then some ({ c with st := c.next }, .pivalend) else none
  | .std0 => if isSP ch then some (c, .ok) else if ch = 0x3d then some ({ c with st := .std1 }, .ok) else none
  | .std1 =>
      if isSP ch then some (c, .ok)
      else if ch = 0x27 ∨ ch = 0x22 then some ({ c with st := .std2, quote := ch }, .ok)
      else none
  | .std2 =>
      if ch = 0x79 then some ({ c with st := .string, next := .std3, lit := [0x65, 0x73] }, .ok)
      else if ch = 0x6e then some ({ c with st := .string, next := .std3, lit := [0x6f] }, .ok)
      else none
  | .std3 => if c.quote = ch then some ({ c with st := .xmldecl8 }, .ok) else none
  | .ver0 => if isSP ch then some (c, .ok) else if ch = 0x3d then some ({ c with st := .ver1 }, .ok) else none
  | .ver1 =>
      if isSP ch then some (c, .ok)
      else if ch = 0x27 ∨ ch = 0x22 then some ({ c with st := .string, quote := ch, next := .ver2, lit := [0x31, 0x2e] }, .ok)
      else none
  | .ver2 => if isNum ch then some ({ c with st := .ver3 }, .ok) else none
  | .ver3 => if isNum ch then some (c, .ok) else if c.quote = ch then some ({ c with st := .xmldecl4 }, .ok) else none
  | .xmldecl0 =>
      if ch = 0x6d then some ({ c with st := .xmldecl1 }, .piname)
      else if isName ch then some ({ c with st := .pi1 }, .piname)
      else if ch = 0x3f then some ({ c with st := .pi4 }, .pinameend)
      else if isSP ch then some ({ c with st := .pi2 }, .pinameend)
      else none
  | .xmldecl1 =>
      if ch = 0x6c then some ({ c with st := .xmldecl2 }, .piname)
      else if isName ch then some ({ c with st := .pi1 }, .piname)
      else if ch = 0x3f then some ({ c with st := .pi4 }, .pinameend)
      else if isSP ch then some ({ c with st := .pi2 }, .pinameend)
      else none
  | .xmldecl2 =>
      if isSP ch then some ({ c with st := .xmldecl3 }, .piabort)
      else if isName ch then some ({ c with st := .pi1 }, .piname)
      else none
  | .xmldecl3 =>
      if isSP ch then some (c, .ok)
      else if ch = 0x76 then some ({ c with st := .string, next := .ver0, lit := [0x65, 0x72, 0x73, 0x69, 0x6f, 0x6e] }, .ok)
      else none
  | .xmldecl4 =>
      if isSP ch then some ({ c with st := .xmldecl5 }, .ok)
      else if ch = 0x3f then some ({ c with st := .xmldecl9 }, .ok)
      else none
  | .xmldecl5 =>
      if isSP ch then some (c, .ok)
      else if ch = 0x3f then some ({ c with st := .xmldecl9 }, .ok)
      else if ch = 0x65 then some ({ c with st := .string, next := .enc0, lit := [0x6e, 0x63, 0x6f, 0x64, 0x69, 0x6e, 0x67] }, .ok)
      else if ch = 0x73 then some ({ c with st := .string, next := .std0, lit := [0x74, 0x61, 0x6e, 0x64, 0x61, 0x6c, 0x6f, 0x6e, 0x65] }, .ok)
      else none
  | .xmldecl6 =>
      if isSP ch then some ({ c with st := .xmldecl7 }, .ok)
      else if ch = 0x3f then some ({ c with st := .xmldecl9 }, .ok)
      else none
  | .xmldecl7 =>
      if isSP ch then some (c, .ok)
      else if ch = 0x3f then some ({ c with st := .xmldecl9 }, .ok)
      else if ch = 0x73 then some ({ c with st := .string, next := .std0, lit := [0x74, 0x61, 0x6e, 0x64, 0x61, 0x6c, 0x6f, 0x6e, 0x65] }, .ok)
      else none
  | .xmldecl8 => if isSP ch then some (c, .ok) else if ch = 0x3f then some ({ c with st := .xmldecl9 }, .ok) else none
  | .xmldecl9 => if ch = 0x3e then some ({ c with st := .misc1 }, .ok) else none

/-! ## The stack of names (yxml.c 197-274) -/

/-- The buffer after `yxml_t`, `stacklen`, and the offsets of the pointers `elem`, `attr`, `pi`
into the buffer (yxml.h). -/
structure Mem where
  buf : Bytes
  len : Nat
  elem : Nat
  attr : Nat
  pi : Nat
  deriving DecidableEq, Repr

/-- A one-byte store; `none` when outside the buffer. -/
def store (buf : Bytes) (i : Nat) (b : UInt8) : Option Bytes :=
  if i < buf.length then some (buf.set i b) else none

/-- `yxml_pushstack` (yxml.c 197-206).  The inner `none` is `YXML_ESTACK`; the position of the new
name is `len + 1`. -/
def pushstack (m : Mem) (ch : UInt8) : Option (Option Mem) :=
  if m.buf.length ≤ m.len + 2 then some none
  else (store m.buf (m.len + 1) ch).bind fun b =>
    (store b (m.len + 2) 0).map fun b => some { m with buf := b, len := m.len + 2 }

/-- `yxml_pushstackc` (yxml.c 209-216). -/
def pushstackc (m : Mem) (ch : UInt8) : Option (Option Mem) :=
  if m.buf.length ≤ m.len + 1 then some none
  else (store m.buf m.len ch).bind fun b =>
    (store b (m.len + 1) 0).map fun b => some { m with buf := b, len := m.len + 1 }

/-- The loop of `yxml_popstack` (yxml.c 219-223): decrement first, stop at a zero byte; `none` when
`stacklen` would be decremented below zero. -/
def popLen (buf : Bytes) : Nat → Option Nat
  | 0 => none
  | n + 1 => (buf[n]?).bind fun b => if b = 0 then some n else popLen buf n

/-- `yxml_popstack` (yxml.c 219-223). -/
def popstack (m : Mem) : Option Mem := (popLen m.buf m.len).map fun n => { m with len := n }

/-- `while(*(x->elem-1)) x->elem--` (yxml.c 237-238). -/
def rewind (buf : Bytes) : Nat → Option Nat
  | 0 => none
  | n + 1 => (buf[n]?).bind fun b => if b = 0 then some (n + 1) else rewind buf n

/-- Return codes of `yxml_parse` (yxml.h 37-95). -/
inductive Ret
  | ok | elemstart | content | elemend | attrstart | attrval | attrend
  | pistart | picontent | piend
  | eref | eclose | estack | esyn
  deriving DecidableEq, Repr

/-- The codes for which `INTERNAL_DKXMLParse` gives up (DKXML.c 234-252). -/
def Ret.isError : Ret → Bool
  | .eref | .eclose | .estack | .esyn => true
  | _ => false

/-- `yxml_t` (yxml.h): the control state, `ignore`, the C string in `data` (at most seven bytes,
without its terminator; `reflen` is its length while a reference is read), and the stack.  `line`,
`byte` and `total` only appear in messages and are left out. -/
structure Parser where
  ctl : Ctl
  ignore : UInt8
  data : Bytes
  mem : Mem
  deriving DecidableEq, Repr

/-! ## References (yxml.c 277-324) -/

/-- The digits of a hexadecimal reference (yxml.c 298-299). -/
def hexDigit (c : UInt8) : Nat := if c ≤ 0x39 then c.toNat - 0x30 else (c ||| 32).toNat - 0x61 + 10

/-- `yxml_refend`'s decoding (yxml.c 294-313): zero when the reference means nothing.  `data` is
at most seven bytes long, so neither loop can overflow 32 bits. -/
def refValue (d : Bytes) : Nat :=
  match d with
  | 0x23 :: 0x78 :: r =>
      if (r.dropWhile isHex) = [] then (r.takeWhile isHex).foldl (fun n c => n * 16 + hexDigit c) 0 else 0
  | 0x23 :: r =>
      if (r.dropWhile isNum) = [] then (r.takeWhile isNum).foldl (fun n c => n * 10 + (c.toNat - 0x30)) 0 else 0
  | d =>
      if d.take 5 = [0x6c, 0x74] then 0x3c
      else if d.take 5 = [0x67, 0x74] then 0x3e
      else if d.take 5 = [0x61, 0x6d, 0x70] then 0x26
      else if d.take 5 = [0x61, 0x70, 0x6f, 0x73] then 0x27
      else if d.take 5 = [0x71, 0x75, 0x6f, 0x74] then 0x22
      else 0

/-- The test on the code point (yxml.c 316).  `ch-0xDFFF` is unsigned, hence the wrap around. -/
def refRejected (ch : Nat) : Bool :=
  ch == 0 || 0x10FFFF < ch || ch == 0xFFFE || ch == 0xFFFF || (ch + 2 ^ 32 - 0xDFFF) % 2 ^ 32 < 0x7FF

/-- `yxml_setutf8` (yxml.c 130-147). -/
def setutf8 (ch : Nat) : Bytes :=
  if ch ≤ 0x7F then [UInt8.ofNat ch]
  else if ch ≤ 0x7FF then [UInt8.ofNat (0xC0 ||| ch >>> 6), UInt8.ofNat (0x80 ||| (ch &&& 0x3F))]
  else if ch ≤ 0xFFFF then
    [UInt8.ofNat (0xE0 ||| ch >>> 12), UInt8.ofNat (0x80 ||| (ch >>> 6 &&& 0x3F)),
      UInt8.ofNat (0x80 ||| (ch &&& 0x3F))]
  else
    [UInt8.ofNat (0xF0 ||| ch >>> 18), UInt8.ofNat (0x80 ||| (ch >>> 12 &&& 0x3F)),
      UInt8.ofNat (0x80 ||| (ch >>> 6 &&& 0x3F)), UInt8.ofNat (0x80 ||| (ch &&& 0x3F))]

/-! ## Actions (yxml.c 150-324) -/

/-- `YXML_OK` or `YXML_ESTACK` after a push; `f` sets the pointer to the new name. -/
def pushed (p : Parser) (f : Mem → Mem) : Option Mem → Parser × Ret
  | some m => ({ p with mem := f m }, .ok)
  | none => (p, .estack)

/-- `yxml_selfclose` (yxml.c 233-244). -/
def selfclose (p : Parser) : Option (Parser × Ret) :=
  (popstack p.mem).bind fun m =>
    if m.len ≠ 0 then
      (rewind m.buf (m.len - 1)).map fun e => ({ p with mem := { m with elem := e } }, .elemend)
    else some ({ p with mem := { m with elem := 0 }, ctl := { p.ctl with st := .misc3 } }, .elemend)

/-- `yxml_elemclose` (yxml.c 247-252). -/
def elemclose (p : Parser) (ch : UInt8) : Option (Parser × Ret) :=
  (p.mem.buf[p.mem.elem]?).map fun b =>
    if b ≠ ch then (p, .eclose) else ({ p with mem := { p.mem with elem := p.mem.elem + 1 } }, .ok)

/-- `yxml_elemcloseend` (yxml.c 255-259). -/
def elemcloseend (p : Parser) : Option (Parser × Ret) :=
  (p.mem.buf[p.mem.elem]?).bind fun b => if b ≠ 0 then some (p, .eclose) else selfclose p

/-- `yxml_pinameend` (yxml.c 271-273), reading as far as `&&` makes it read. -/
def pinameend (p : Parser) : Option (Parser × Ret) :=
  (p.mem.buf[p.mem.pi]?).bind fun a =>
    if (a ||| 32) ≠ 0x78 then some (p, .pistart) else
    (p.mem.buf[p.mem.pi + 1]?).bind fun a =>
      if (a ||| 32) ≠ 0x6d then some (p, .pistart) else
      (p.mem.buf[p.mem.pi + 2]?).bind fun a =>
        if (a ||| 32) ≠ 0x6c then some (p, .pistart) else
        (p.mem.buf[p.mem.pi + 3]?).map fun a => if a ≠ 0 then (p, .pistart) else (p, .esyn)

/-- `yxml_refend` (yxml.c 293-320). -/
def refend (p : Parser) (r : Ret) : Parser × Ret :=
  if refRejected (refValue p.data) then (p, .eref) else ({ p with data := setutf8 (refValue p.data) }, r)

/-- The functions called from the switch (yxml.c 150-324). -/
def perform (a : Act) (p : Parser) (ch : UInt8) : Option (Parser × Ret) :=
  match a with
  | .ok => some (p, .ok)
  | .elemstart => (pushstack p.mem ch).map (pushed p fun m => { m with elem := p.mem.len + 1 })
  | .attrstart => (pushstack p.mem ch).map (pushed p fun m => { m with attr := p.mem.len + 1 })
  | .pistart => (pushstack p.mem ch).map (pushed p fun m => { m with pi := p.mem.len + 1 })
  | .elemname | .attrname | .piname => (pushstackc p.mem ch).map (pushed p id)
  | .elemnameend => some (p, .elemstart)
  | .attrnameend => some (p, .attrstart)
  | .attrvalend => (popstack p.mem).map fun m => ({ p with mem := m }, .attrend)
  | .piabort => (popstack p.mem).map fun m => ({ p with mem := m }, .ok)
  | .pivalend => (popstack p.mem).map fun m => ({ p with mem := { m with pi := 0 } }, .piend)
  | .pinameend => pinameend p
  | .selfclose => selfclose p
  | .elemclose => elemclose p ch
  | .elemcloseend => elemcloseend p
  | .refstart => some ({ p with data := [] }, .ok)
  | .ref => some (if 7 ≤ p.data.length then (p, .eref) else ({ p with data := p.data ++ [ch] }, .ok))
  | .refattrval => some (refend p .attrval)
  | .refcontent => some (refend p .content)
  | .dataattr => some ({ p with data := [if ch = 0x09 ∨ ch = 0x0a then 0x20 else ch] }, .attrval)
  | .datacontent => some ({ p with data := [ch] }, .content)
  | .datacd1 => some ({ p with data := [0x5d, ch] }, .content)
  | .datacd2 => some ({ p with data := [0x5d, 0x5d, ch] }, .content)
  | .datapi1 => some ({ p with data := [ch] }, .picontent)
  | .datapi2 => some ({ p with data := [0x3f, ch] }, .picontent)

/-- The switch and the action it ends with (yxml.c 362-1051). -/
def feed (p : Parser) (ch : UInt8) : Option (Parser × Ret) :=
  match trans p.ctl ch with
  | some (c, a) => perform a { p with ctl := c } ch
  | none => some (p, .esyn)

/-- `yxml_parse` (yxml.c 338-1052): a zero byte is an error, and the three ways to end a line
become a line feed (yxml.c 346-360). -/
def step (p : Parser) (ch : UInt8) : Option (Parser × Ret) :=
  if ch = 0 then some (p, .esyn)
  else if p.ignore = ch then some ({ p with ignore := 0 }, .ok)
  else feed { p with ignore := if ch = 0x0d then 0x0a else 0 } (if ch = 0x0d then 0x0a else ch)

/-- `yxml_init` (yxml.c 327-335) on a buffer of `size` bytes whose contents are arbitrary. -/
def initParser (junk : Nat → UInt8) (size : Nat) : Option Parser :=
  (store ((List.range size).map junk) 0 0).map fun b =>
    { ctl := { st := .init, next := .string, lit := [], quote := 0 }
      ignore := 0, data := [], mem := { buf := b, len := 0, elem := 0, attr := 0, pi := 0 } }

/-- `yxml_eof` (yxml.c 1055-1059). -/
def atEnd (p : Parser) : Bool := p.ctl.st == .misc3

/-! ## Building the tree (DKXML.c 178-356) -/

/-- `DKXMLElement` (DKXML.c 47-54) and the strings among its children.  The attributes are a
`DKMutableDictionary`, modelled as an association list without repeated keys. -/
inductive Node
  | text (s : Bytes)
  | elem (name : Bytes) (attrs : List (Bytes × Bytes)) (kids : List Node)

/-- An element that is still open: its name, its attributes so far and its children so far. -/
structure Frame where
  name : Bytes
  attrs : List (Bytes × Bytes)
  kids : List Node

/-- The variables of `INTERNAL_DKXMLParse` (DKXML.c 218-226).  `stack` holds the open elements,
innermost first; the code links an element into its parent when it is opened and goes on changing
it there, here it is linked when it is closed.  `started` says whether `root` is set, `done` is the
element that was the last to leave the stack. -/
structure Builder where
  started : Bool
  done : Option Node
  stack : List Frame
  attr : Option Bytes

/-- Does the string end in white space (DKXML.c 200-208)?  `dk_ustrridx( str, 0 )` is the start of
the last character; if that character is one byte it is the last byte of the string, otherwise it
starts with a byte above 0x7F, which `isspace` does not accept in the C locale. -/
def endsInSpace (s : Bytes) : Bool :=
  match s.getLast? with
  | some b => Num.isSpace b
  | none => false

/-- `DKXMLAppendTextContent` (DKXML.c 178-210) on the list of children. -/
def appendText (kids : List Node) (ch : Bytes) : List Node :=
  match kids.getLast? with
  | some (.text t) =>
      if !Num.isSpace (ch.headD 0) then kids.dropLast ++ [.text (t ++ ch)]
      else if !endsInSpace t && t ≠ [] then kids.dropLast ++ [.text (t ++ [0x20])]
      else kids
  | _ => if Num.isSpace (ch.headD 0) then kids else kids ++ [.text ch]

/-- `DKDictionarySetObject` (DKXML.c 305) on the association list. -/
def setAttr (l : List (Bytes × Bytes)) (k v : Bytes) : List (Bytes × Bytes) :=
  match l with
  | [] => [(k, v)]
  | (k', v') :: l => if k' = k then (k', v) :: l else (k', v') :: setAttr l k v

/-- Closing the innermost element (DKXML.c 289-291). -/
def closeFrame (b : Builder) : Option Builder :=
  match b.stack with
  | [] => none
  | [f] => some { b with stack := [], done := some (.elem f.name f.attrs f.kids) }
  | f :: g :: l => some { b with stack := { g with kids := g.kids ++ [.elem f.name f.attrs f.kids] } :: l }

/-- The switch of `INTERNAL_DKXMLParse` (DKXML.c 232-320) for the codes that are not errors.
`s` is the string the case reads from the parser.  `none` is a NULL dereference: text or an
attribute or a second root while no element is open, an attribute value that was not started, or
the removal of an element from an empty stack. -/
def build (b : Builder) (r : Ret) (s : Bytes) : Option Builder :=
  match r with
  | .elemstart =>
      if b.started && b.stack.isEmpty then none
      else some { b with started := true, stack := { name := s, attrs := [], kids := [] } :: b.stack }
  | .content =>
      match b.stack with
      | [] => none
      | f :: l => some { b with stack := { f with kids := appendText f.kids s } :: l }
  | .elemend => closeFrame b
  | .attrstart => some { b with attr := some [] }
  | .attrval => b.attr.map fun v => { b with attr := some (v ++ s) }
  | .attrend =>
      match b.stack, b.attr with
      | f :: l, some v => some { b with stack := { f with attrs := setAttr f.attrs s v } :: l, attr := none }
      | _, _ => none
  | _ => some b

/-- Reading a C string from the buffer; `none` when it has no terminator there. -/
def cstring (buf : Bytes) (i : Nat) : Option Bytes :=
  if (buf.drop i).contains 0 then some ((buf.drop i).takeWhile (· ≠ 0)) else none

/-- The string a case of the switch reads: `parser->elem` (DKXML.c 260), `parser->data` (DKXML.c
285, 298), `parser->attr` (DKXML.c 304). -/
def token (p : Parser) (r : Ret) : Option Bytes :=
  match r with
  | .elemstart => cstring p.mem.buf p.mem.elem
  | .attrend => cstring p.mem.buf p.mem.attr
  | .content | .attrval => some p.data
  | _ => some []

/-- How the loop of `INTERNAL_DKXMLParse` ends: at `error` with the code, or at the end of the
string. -/
inductive Outcome
  | error (r : Ret)
  | done (p : Parser) (b : Builder)

/-- What the loop does with one code (DKXML.c 232-320). -/
def handle (b : Builder) (q : Parser × Ret) : Option (Except Ret (Parser × Builder)) :=
  if q.2.isError then some (.error q.2)
  else (token q.1 q.2).bind fun s => (build b q.2 s).map fun b => .ok (q.1, b)

/-- The loop of `INTERNAL_DKXMLParse` (DKXML.c 228-321). -/
def loop (p : Parser) (b : Builder) : Bytes → Option Outcome
  | [] => some (.done p b)
  | ch :: l => ((step p ch).bind (handle b)).bind fun
      | .error r => some (.error r)
      | .ok (p, b) => loop p b l

/-- The variables before the loop (DKXML.c 218-226). -/
def emptyBuilder : Builder := { started := false, done := none, stack := [], attr := none }

/-- `INTERNAL_DKXMLParse` without the retry (DKXML.c 216-340): the last code and the result. -/
def parseOnce (junk : Nat → UInt8) (size : Nat) (xml : Bytes) : Option (Ret × Option Node) :=
  (initParser junk size).bind fun p => (loop p emptyBuilder xml).map fun
    | .error r => (r, none)
    | .done p b => (.ok, if atEnd p then b.done else none)

/-- `INTERNAL_DKXMLParse` (DKXML.c 216-344): the outer `none` is a crash or a recursion that has
not ended after `fuel` calls, the inner one is NULL. -/
def parseFrom (junk : Nat → UInt8) (fuel : Nat) (size : Nat) (xml : Bytes) : Option (Option Node) :=
  match fuel with
  | 0 => none
  | fuel + 1 => (parseOnce junk size xml).bind fun
      | (.estack, _) => parseFrom junk fuel (size * 2) xml
      | (_, n) => some n

/-- `DKXMLParse` (DKXML.c 350-356) of a string without a zero byte. -/
def parse (junk : Nat → UInt8) (fuel : Nat) (xml : Bytes) : Option (Option Node) :=
  if xml.length = 0 then some none else parseFrom junk fuel (16 * 1024) xml

end Duck.Xml
