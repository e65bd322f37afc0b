import Verif.Model.StrShare
/-! What the answers of C114 should be, from the texts alone. -/
namespace Duck
namespace StrShare
open Data

/-- The text of a string. -/
def St.text (s : St) (i : Nat) : List UInt8 := (s.str i).data.bytes

/-- The right answer to a call: the hash of the text, whether the texts (up to a NUL) are the same, a new string with the
    same text. -/
def Right (s : St) : Call → Res → Prop
  | .hash i, .code h => h = strhash (s.text i)
  | .equal i j, .truth b => b = true ↔ cstr (s.text i) = cstr (s.text j)
  | .copy i, .made k => k < s.n ∧ s.text k = s.text i
  | _, _ => False

end StrShare
end Duck
