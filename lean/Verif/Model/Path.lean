import Verif.Model.Text
/-
Model of the path functions of Source/DKString.c on the bytes of a string.  `none` is undefined behaviour.  NULL receivers
are left out.  `int32_t` offsets are unbounded here (they overflow for strings of 2^31 bytes and more).
-/
namespace Duck
namespace Path
open Unicode Text

/-- DKPathComponentSeparator, DKPlatform.h:314 -/
def slash : UInt8 := 0x2f
/-- DKPathExtensionSeparator, DKPlatform.h:315 -/
def dot : UInt8 := 0x2e

/-- DKStringIsAbsolutePath, DKString.c:1719-1729 -/
def isAbsolute (s : List UInt8) : Bool := decide (s.length > 0) && s.head? == some slash

/-- The loop of DKStringStandardizePath, DKString.c:2076-2088.  `src` is an offset; `out` are the bytes written so far
    from the start of the same buffer: `dst` never passes `src`, so the unread part is unchanged. -/
def standardizeGo (m : Mem) (fuel src : Nat) (out : List UInt8) (was : Bool) : Option (List UInt8 × Bool) :=
  (ustrscan (m.drop src)).bind fun r =>
    if r.2 ≠ 0 then match fuel with
      | 0 => none
      | fuel + 1 =>
        standardizeGo m fuel (src + r.2)
          (if !was || !(r.1 == 47) then out ++ (m.drop src).take r.2 else out) (r.1 == 47)
    else some (out, was)

/-- DKStringStandardizePath, DKString.c:2062-2100 -/
def standardize (s : List UInt8) : Option (List UInt8) :=
  (standardizeGo (mem s) s.length 0 [] false).map fun r =>
    r.1.take (if r.2 && decide (r.1.length > 1) then r.1.length - 1 else r.1.length)

/-- "Empty or root path", DKString.c:1743, 1965 and 2011 -/
def emptyOrRoot (s : List UInt8) : Bool := s.length == 0 || (s.length == 1 && s.head? == some slash)

/-- Skipping trailing slashes, DKString.c:1750-1760 -/
def skipSlashes (m : Mem) (fuel e : Nat) : Option Nat :=
  if e > 0 then match fuel with
    | 0 => none
    | fuel + 1 => (prev m e).bind fun r => if r.1 ≠ 47 then some e else skipSlashes m fuel r.2
  else some e

/-- Finding the last slash, DKString.c:1765-1775 -/
def findSlash (m : Mem) (fuel start : Nat) : Option Nat :=
  if start > 0 then match fuel with
    | 0 => none
    | fuel + 1 => (prev m start).bind fun r => if r.1 = 47 then some start else findSlash m fuel r.2
  else some start

/-- DKStringGetLastPathComponent, DKString.c:1734-1790 -/
def lastComponent (s : List UInt8) : Option (List UInt8) :=
  if emptyOrRoot s then some []
  else (skipSlashes (mem s) s.length s.length).bind fun e =>
    (findSlash (mem s) s.length e).bind fun start =>
      if e = 0 then some s else copySubstring (mem s) start (e - start)

/-- DKStringAppendPathComponent, DKString.c:1931-1948 -/
def appendComponent (s c : List UInt8) : Option (List UInt8) :=
  standardize ((if s.length > 0 then s ++ [slash] else s) ++ c)

/-- The cut of DKStringDeleteLastPathComponent, DKString.c:1968-1991 -/
def cutLast (t : List UInt8) : Option (List UInt8) :=
  (ustrrchr (mem t) 47).map fun r =>
    match r with
    | none => []
    | some 0 => t.take 1
    | some k => t.take k

/-- DKStringDeleteLastPathComponent, DKString.c:1954-1993 -/
def deleteLast (s : List UInt8) : Option (List UInt8) :=
  (standardize s).bind fun t => if emptyOrRoot t then some t else cutLast t

/-- Finding the extension, DKString.c:1804-1814, 1837-1847 and 2038-2048: the offset of the '.', if it belongs to the
    last path component -/
def extension (s : List UInt8) : Option (Option Nat) :=
  (ustrrchr (mem s) 46).bind fun e =>
    match e with
    | none => some none
    | some e => (ustrrchr (mem s) 47).map fun l =>
        match l with
        | some l => if e < l then none else some e
        | none => some e

/-- DKStringHasPathExtension, DKString.c:1796-1824 (`strcmp` on NUL-free strings is equality) -/
def hasExtension (s ext : List UInt8) : Option Bool :=
  (extension s).bind fun e =>
    match e with
    | none => some (ext.length == 0)
    | some e => (ustrscan ((mem s).drop e)).map fun r => s.drop (e + r.2) == ext

/-- DKStringGetPathExtension, DKString.c:1830-1857 -/
def getExtension (s : List UInt8) : Option (List UInt8) :=
  (extension s).bind fun e =>
    match e with
    | none => some []
    | some e => copySubstring (mem s) (e + 1) (s.length - (e + 1))

/-- DKStringAppendPathExtension, DKString.c:1999-2023 (`DKError` only prints) -/
def appendExtension (s ext : List UInt8) : Option (List UInt8) :=
  (standardize s).map fun t => if emptyOrRoot t then t else t ++ [dot] ++ ext

/-- DKStringDeletePathExtension, DKString.c:2029-2056 -/
def deleteExtension (s : List UInt8) : Option (List UInt8) :=
  (standardize s).bind fun t => (extension t).map fun e =>
    match e with
    | none => t
    | some e => t.take e

end Path
end Duck
