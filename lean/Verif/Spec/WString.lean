import Verif.Model.WString
import Verif.Spec.Unicode
/-! UTF-16, and what Windows promises. -/
namespace Duck
namespace WString

/-- The UTF-16 units of a character. -/
def units (c : Char) : List Unit16 :=
  if c.toNat < 0x10000 then [BitVec.ofNat 16 c.toNat]
  else [BitVec.ofNat 16 (0xD800 + (c.toNat - 0x10000) / 1024), BitVec.ofNat 16 (0xDC00 + (c.toNat - 0x10000) % 1024)]

/-- The UTF-16 units of a text. -/
def utf16 (cs : List Char) : List Unit16 := cs.flatMap units

/-- Windows converts texts. -/
structure Host.Right (h : Host) : Prop where
  wide : ∀ cs : List Char, '\x00' ∉ cs → h.toWide (Unicode.utf8 cs) = some (utf16 cs ++ [0])
  utf8 : ∀ cs : List Char, '\x00' ∉ cs → h.toUtf8 (utf16 cs ++ [0]) = some (Unicode.utf8 cs ++ [0])

/-- The bytes of a wide string in memory, terminator included. -/
def wideBytes (cs : List Char) : List UInt8 := (utf16 cs ++ [0]).flatMap fun (u : Unit16) => [UInt8.ofNat u.toNat, UInt8.ofNat (u.toNat / 256)]

end WString
end Duck
