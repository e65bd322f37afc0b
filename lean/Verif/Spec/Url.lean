import Verif.Spec.Unicode
/-! What C39 talks about. -/
namespace Duck
namespace Url
open Unicode

/-- The escapes as text: character and its escape -/
def chars : List (Char × List Char) :=
  [(' ', ['%', '2', '0']),
   ('#', ['%', '2', '3']),
   ('$', ['%', '2', '4']),
   ('%', ['%', '2', '5']),
   ('&', ['%', '2', '6']),
   ('@', ['%', '4', '0']),
   ('`', ['%', '6', '0']),
   ('/', ['%', '2', 'F']),
   (':', ['%', '3', 'A']),
   (';', ['%', '3', 'B']),
   ('<', ['%', '3', 'C']),
   ('=', ['%', '3', 'D']),
   ('>', ['%', '3', 'E']),
   ('?', ['%', '3', 'F']),
   ('[', ['%', '5', 'B']),
   ('\\', ['%', '5', 'C']),
   (']', ['%', '5', 'D']),
   ('^', ['%', '5', 'E']),
   ('{', ['%', '7', 'B']),
   ('|', ['%', '7', 'C']),
   ('}', ['%', '7', 'D']),
   ('~', ['%', '7', 'E']),
   ('“', ['%', '2', '2']),
   ('‘', ['%', '2', '7']),
   ('+', ['%', '2', 'B']),
   (',', ['%', '2', 'C'])]

/-- The entry as the program stores it -/
def entry (e : Char × List Char) : List UInt8 × List UInt8 := (utf8 [e.1], utf8 e.2)

end Url
end Duck
