import Verif.Model.LinkedList
import Verif.Spec.Order
/-! A linked list is a sequence of (object, priority) entries; what each call does to the sequence. -/
namespace Duck
namespace LList
open HTable (Policy)
variable {V P : Type}

/-- The allocator returns a node that is not in use (C13), whenever only finitely many are. -/
def Fresh (pick : Nat → Heap V P → Nat) : Prop :=
  ∀ n (h : Heap V P) (live : List Nat), (∀ p, h p ≠ none → p ∈ live) → h (pick n h) = none

/-- The objects visited by iteration. -/
def iterate (l : LinkedList V P) : Option (List V) :=
  (apply l (fun v (acc : List V) => (0, acc ++ [v])) []).map (·.2)

/-- Insert an entry before position `i`. -/
def insertAt {α : Type} (xs : List α) (i : Nat) (x : α) : List α := xs.take i ++ x :: xs.drop i

/-- Position at which a priority is inserted: before the first entry of lower priority, else at the end. -/
def slot (gt : P → P → Bool) (xs : List (V × P)) (priority : P) : Nat := xs.findIdx (fun e => gt priority e.2)

/-- Priority insertion: refused by the policy, or the new entry goes to its slot and an old entry of the same object
    (the last one, should there be several) is taken out. -/
def specPriority [DecidableEq V] (gt : P → P → Bool) (xs : List (V × P)) (v : V) (p : P) (policy : Policy) :
    List (V × P) × Bool :=
  if (v ∈ xs.map (·.1) ∧ policy = .ifNotFound) ∨ (v ∉ xs.map (·.1) ∧ policy = .ifFound) then (xs, false)
  else if v ∈ xs.map (·.1) then
    let old := xs.length - 1 - xs.reverse.findIdx (fun e => e.1 = v)
    ((insertAt xs (slot gt xs p) (v, p)).eraseIdx (if old ≥ slot gt xs p then old + 1 else old), true)
  else (insertAt xs (slot gt xs p) (v, p), true)

/-- `SpecStep … xs op out xs'`: the call `op` on the sequence `xs` reports `out` and leaves `xs'`. -/
def SpecStep [DecidableEq V] (zero : P) (gt : P → P → Bool) (xs : List (V × P)) (op : Op V P) (out : Out V P)
    (xs' : List (V × P)) : Prop :=
  match op with
  | .replace loc len objs => out = .done ∧
      xs' = if 0 ≤ loc ∧ 0 ≤ len ∧ loc + len ≤ xs.length
        then xs.take loc.toNat ++ objs.map (·, zero) ++ xs.drop (loc + len).toNat else xs
  | .get i => xs' = xs ∧ out = .value (if 0 ≤ i then xs[i.toNat]? else none)
  | .getRange loc len => xs' = xs ∧ out = .values (if 0 ≤ loc ∧ 0 ≤ len ∧ loc + len ≤ xs.length
        then ((xs.map (·.1)).drop loc.toNat).take len.toNat else [])
  | .insertPriority v p pol => xs' = (specPriority gt xs v p pol).1 ∧ out = .changed (specPriority gt xs v p pol).2
  | .reverse => xs' = xs.reverse ∧ out = .done
  | .sort cmp => out = .done ∧ (xs'.map (·.1)).Perm (xs.map (·.1)) ∧
      Spec.Sorted cmp (xs'.map (·.1)) ∧ xs'.map (·.2) = xs.map (·.2)
  | .count => xs' = xs ∧ out = .count xs.length

/-- A sort is given a consistent comparator; the end of a range is a 64-bit number. -/
def OpOk : Op V P → Prop
  | .replace loc len _ | .getRange loc len => loc + len < 2 ^ 63
  | .sort cmp => Spec.TotalPreorder cmp
  | _ => True

/-- Forward and backward links agree, and the ends are ends. -/
structure LinksAgree (l : LinkedList V P) : Prop where
  forward : ∀ a n b, l.heap a = some n → n.next = some b → ∃ m, l.heap b = some m ∧ m.prev = some a
  backward : ∀ a n b, l.heap a = some n → n.prev = some b → ∃ m, l.heap b = some m ∧ m.next = some a
  first : ∀ a n, l.heap a = some n → (n.prev = none ↔ l.first = some a)
  last : ∀ a n, l.heap a = some n → (n.next = none ↔ l.last = some a)

/-- A history of calls that all follow `SpecStep`. -/
inductive SpecRun [DecidableEq V] (zero : P) (gt : P → P → Bool) :
    List (V × P) → List (Op V P) → List (Out V P) → List (V × P) → Prop
  | nil (xs) : SpecRun zero gt xs [] [] xs
  | cons {xs op out xs' ops outs xs''} : SpecStep zero gt xs op out xs' → SpecRun zero gt xs' ops outs xs'' →
      SpecRun zero gt xs (op :: ops) (out :: outs) xs''

/-- `gt` is "greater than" on priorities: a strict weak order (any ordering of numbers without NaN). -/
structure StrictWeak (gt : P → P → Bool) : Prop where
  irrefl : ∀ a, gt a a = false
  trans : ∀ a b c, gt a b = true → gt b c = true → gt a c = true
  cotrans : ∀ a b c, gt a c = true → gt a b = true ∨ gt b c = true

/-- The entries in the order in which they were last inserted.  An insertion the policy refuses changes nothing; one it
    accepts takes out the object's old entry. -/
def chronicle [DecidableEq V] (log : List (V × P)) : List (V × P × Policy) → List (V × P) × List Bool
  | [] => (log, [])
  | (v, p, policy) :: rest =>
    if (v ∈ log.map (·.1) ∧ policy = .ifNotFound) ∨ (v ∉ log.map (·.1) ∧ policy = .ifFound) then
      let r := chronicle log rest
      (r.1, false :: r.2)
    else
      let r := chronicle (log.filter (fun e => e.1 ≠ v) ++ [(v, p)]) rest
      (r.1, true :: r.2)

/-- Highest priority first, and entries of equal priority in the order of `log`. -/
structure PriorityOrder (gt : P → P → Bool) (log xs : List (V × P)) : Prop where
  entries : xs.Perm log
  descending : xs.Pairwise (fun x y => gt y.2 x.2 = false)
  stable : ∀ q, xs.filter (fun e => !gt e.2 q && !gt q e.2) = log.filter (fun e => !gt e.2 q && !gt q e.2)

end LList
end Duck
