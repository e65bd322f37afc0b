import Verif.Model.HashTable
/-! A finite map as a plain list of entries with pairwise different keys, and what each call does to it. -/
namespace Duck
namespace HTable
variable {K V : Type} (eqv : K → K → Bool)

/-- What a class must provide to be usable as a key: equality is an equivalence and equal keys hash alike. -/
structure KeyClass (hash : K → Nat) (eqv : K → K → Bool) : Prop where
  refl : ∀ a, eqv a a = true
  symm : ∀ a b, eqv a b = true → eqv b a = true
  trans : ∀ a b c, eqv a b = true → eqv b c = true → eqv a c = true
  hash_eq : ∀ a b, eqv a b = true → hash a = hash b

/-- Does the map contain a key equal to `k`? -/
def has (m : List (K × V)) (k : K) : Bool := m.any (fun e => eqv e.1 k)

/-- The object stored for `k`. -/
def specGet (m : List (K × V)) (k : K) : Option V := (m.find? (fun e => eqv e.1 k)).map (·.2)

/-- Insert under a policy: the new map, and whether it changed. -/
def specInsert (m : List (K × V)) (k : K) (v : V) (p : Policy) : List (K × V) × Bool :=
  if has eqv m k then
    if p = .ifNotFound then (m, false) else (m.map (fun e => if eqv e.1 k then (e.1, v) else e), true)
  else
    if p = .ifFound then (m, false) else ((k, v) :: m, true)

/-- Remove every entry whose key equals `k`. -/
def specRemove (m : List (K × V)) (k : K) : List (K × V) := m.filter (fun e => !eqv e.1 k)

/-- One call on the map. -/
def specStep (m : List (K × V)) : Op K V → List (K × V) × Out V
  | .get k => (m, .value (specGet eqv m k))
  | .insert k v p => ((specInsert eqv m k v p).1, .changed (specInsert eqv m k v p).2)
  | .remove k => (specRemove eqv m k, .done)
  | .removeAll => ([], .done)
  | .count => (m, .count m.length)

/-- A history on the map. -/
def specRun (m : List (K × V)) : List (Op K V) → List (K × V) × List (Out V)
  | [] => (m, [])
  | op :: ops =>
    ((specRun (specStep eqv m op).1 ops).1, (specStep eqv m op).2 :: (specRun (specStep eqv m op).1 ops).2)

/-- The number of insertions in a history. -/
def insertions (ops : List (Op K V)) : Nat := ops.countP fun op => match op with | .insert .. => true | _ => false

/-- Number of rows that are not empty: live entries plus tombstones. -/
def occupied (t : Table K V) : Nat := t.rows.countP (fun r => match r with | .empty => false | _ => true)

end HTable
end Duck
