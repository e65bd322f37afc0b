import Verif.Model.Text
/-
Model of escaping by a dictionary of patterns and of the URL percent escapes, Source/DKString.c:1662-1698 and 2106-2176.
Strings are byte lists without terminator.  The dictionary is a hash table, so the order in which it is enumerated
depends on hashes and on its size; the functions here take that order as an argument.
-/
namespace Duck
namespace Url
open Unicode Text

/-- DKStringURLPercentEscapePatterns, DKString.c:2106-2136 (UTF-8 bytes of key and object, in source order) -/
def table : List (List UInt8 × List UInt8) :=
  [([0x20], [0x25, 0x32, 0x30]),
   ([0x23], [0x25, 0x32, 0x33]),
   ([0x24], [0x25, 0x32, 0x34]),
   ([0x25], [0x25, 0x32, 0x35]),
   ([0x26], [0x25, 0x32, 0x36]),
   ([0x40], [0x25, 0x34, 0x30]),
   ([0x60], [0x25, 0x36, 0x30]),
   ([0x2f], [0x25, 0x32, 0x46]),
   ([0x3a], [0x25, 0x33, 0x41]),
   ([0x3b], [0x25, 0x33, 0x42]),
   ([0x3c], [0x25, 0x33, 0x43]),
   ([0x3d], [0x25, 0x33, 0x44]),
   ([0x3e], [0x25, 0x33, 0x45]),
   ([0x3f], [0x25, 0x33, 0x46]),
   ([0x5b], [0x25, 0x35, 0x42]),
   ([0x5c], [0x25, 0x35, 0x43]),
   ([0x5d], [0x25, 0x35, 0x44]),
   ([0x5e], [0x25, 0x35, 0x45]),
   ([0x7b], [0x25, 0x37, 0x42]),
   ([0x7c], [0x25, 0x37, 0x43]),
   ([0x7d], [0x25, 0x37, 0x44]),
   ([0x7e], [0x25, 0x37, 0x45]),
   ([0xe2, 0x80, 0x9c], [0x25, 0x32, 0x32]),
   ([0xe2, 0x80, 0x98], [0x25, 0x32, 0x37]),
   ([0x2b], [0x25, 0x32, 0x42]),
   ([0x2c], [0x25, 0x32, 0x43])]

/-- DKStringEscape, DKString.c:1662-1677: each key is replaced by its object, in enumeration order.  `fuel` bounds the
    iterations of each replacement loop; `none` is "still running". -/
def escape (fuel : Nat) : List (List UInt8 × List UInt8) → List UInt8 → Option (List UInt8)
  | [], s => some s
  | e :: es, s => (replaceAll fuel s e.1 e.2).bind (escape fuel es)

/-- DKStringUnescape, DKString.c:1683-1698: each object is replaced by its key, in the same enumeration order -/
def unescape (fuel : Nat) : List (List UInt8 × List UInt8) → List UInt8 → Option (List UInt8)
  | [], s => some s
  | e :: es, s => (replaceAll fuel s e.2 e.1).bind (unescape fuel es)

end Url
end Duck
