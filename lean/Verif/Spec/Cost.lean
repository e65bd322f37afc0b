import Verif.Model.Memory
import Verif.Spec.SharedReads
/-! What growing costs: the memory that is allocated in total, also what has been freed again.  Whatever is copied when a container
    grows is copied into a block that is allocated for it, so this bounds the copying as well. -/
namespace Duck
namespace Cost
open Memory

/-- The bytes an event allocates. -/
def size : Event → Nat
  | .malloc _ _ n => n
  | _ => 0

/-- The bytes allocated in total. -/
def allocated (trace : List Event) : Nat := (trace.map size).sum

/-- A replacement: `len` elements at `loc` by `n` others. -/
structure Edit where
  loc : Nat
  len : Nat
  n : Nat

/-- What the edits put in. -/
def put (es : List Edit) : Nat := (es.map (·.n)).sum

/-- Edits of an array, from the beginning. -/
def arrRun (m : Mem) (a : Arr) : List Edit → Mem × Arr
  | [] => (m, a)
  | e :: es => let r := Arr.replace m a e.loc e.len e.n; arrRun r.1 r.2 es

/-- Edits of bytes. -/
def bytesRun (m : Mem) (a : Bytes) : List Edit → Mem × Bytes
  | [] => (m, a)
  | e :: es => let r := Bytes.replace m a e.loc e.len e.n; bytesRun r.1 r.2 es

/-- The length stays within `cap` at every time. -/
def Within (cap : Nat) : Nat → List Edit → Prop
  | _, [] => True
  | length, e :: es => length + e.n - e.len ≤ cap ∧ Within cap (length + e.n - e.len) es

/-- Changes of a hash table: what an insertion finds is given. -/
inductive TOp where
  | insert (o : Table.Outcome)
  | remove (found : Bool)
  | removeAll

/-- How many insertions there are. -/
def inserts : List TOp → Nat
  | [] => 0
  | .insert _ :: ops => inserts ops + 1
  | _ :: ops => inserts ops

/-- Changes one after another. -/
def tableRun (m : Mem) (t : Table) : List TOp → Except Err (Mem × Table)
  | [] => .ok (m, t)
  | .insert o :: ops => (Table.insert m t o).bind fun r => tableRun r.1 r.2 ops
  | .remove f :: ops => tableRun (Table.remove m t f).1 (Table.remove m t f).2 ops
  | .removeAll :: ops => tableRun (Table.removeAll m t).1 (Table.removeAll m t).2 ops

/-- `k` times the length is set to one more than before, from `a.length` on. -/
def stretch (m : Mem) (a : Bytes) : Nat → Mem × Bytes
  | 0 => (m, a)
  | k + 1 => let r := stretch m a k; Bytes.setLength r.1 r.2 (r.2.length + 1)

end Cost
end Duck
