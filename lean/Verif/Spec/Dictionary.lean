import Verif.Model.Dictionary
import Verif.Spec.HashTable
/-! What dictionaries and sets are expected to do. -/
namespace Duck
namespace Dict
open HTable
variable {K V : Type} (eqv : K → K → Bool) (cp : K → K)

/-- What an insertion under a policy makes of the entry for its key: the key of an existing entry is kept, a new entry gets a copy. -/
def put (p : Policy) (k : K) (o : Option V) (old : Option (K × Option V)) : Option (K × Option V) :=
  match p, old with
  | .always, some e => some (e.1, o)
  | .always, none => some (cp k, o)
  | .ifFound, some e => some (e.1, o)
  | .ifFound, none => none
  | .ifNotFound, some e => some e
  | .ifNotFound, none => some (cp k, o)

/-- The entry a history (most recent call first) leaves for key `q`. -/
def held : List (Op K V) → K → Option (K × Option V)
  | [], _ => none
  | .set k o :: h, q => if eqv k q then put cp .always k o (held h q) else held h q
  | .add k o :: h, q => if eqv k q then put cp .ifNotFound k o (held h q) else held h q
  | .replace k o :: h, q => if eqv k q then put cp .ifFound k o (held h q) else held h q
  | .remove k :: h, q => if eqv k q then none else held h q
  | .removeAll :: _, _ => none

/-- The entry of a dictionary for key `q`, as found by looking through all its entries. -/
def entry (d : HTable.Table K V) (q : K) : Option (K × V) := (entries d.rows).find? fun e => eqv e.1 q

/-- The two entries for a key agree: both absent, or both there with equal objects. -/
def agree (veq : V → V → Bool) : Option (K × Option V) → Option (K × Option V) → Prop
  | none, none => True
  | some a, some b => eqObj veq a.2 b.2 = true
  | _, _ => False

/-- Equality as an equivalence relation. -/
structure Equivalence (veq : V → V → Bool) : Prop where
  refl : ∀ a, veq a a = true
  symm : ∀ a b, veq a b = true → veq b a = true
  trans : ∀ a b c, veq a b = true → veq b c = true → veq a c = true

/-- No entry has a NULL object. -/
def NoNull (d : Dict K V) : Prop := ∀ e ∈ entries d.rows, e.2 ≠ none

/-- `x` is in the set (an equal object is). -/
def In (s : HSet K) (x : K) : Prop := ∃ y ∈ members s, eqv y x = true

/-- The sets a program can build. -/
inductive IsSet (hash : K → Nat) : HSet K → Prop where
  | init {xs : List K} {s : HSet K} : setInit hash eqv xs = .ok s → IsSet hash s
  | add {s t : HSet K} {x : K} : IsSet hash s → setAdd hash eqv s x = .ok t → IsSet hash t
  | remove {s t : HSet K} {x : K} : IsSet hash s → setRemove hash eqv s x = .ok t → IsSet hash t
  | removeAll {s : HSet K} : IsSet hash s → IsSet hash (HTable.removeAll s)

end Dict
end Duck
