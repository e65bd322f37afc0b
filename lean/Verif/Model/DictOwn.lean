import Verif.Model.HashTable
import Verif.Model.Property
/-! Model of the ownership of keys and objects by dictionaries and sets: the row callbacks of `DKHashTable`
    (Source/DKHashTable.c 241-335, 697-792) inside the operations of `DKGenericHashTable` (Source/DKGenericHashTable.c).

    The heap is that of Model/Property.lean: objects with reference counts and fields, where freeing an object releases what
    its fields hold.  A key in the table carries its contents (class and value), which do not change while it is in the
    table; `hash` and `eqv` are DKHash and DKEqual on contents.  The probing is that of Model/HashTable.lean.  Touching a
    freed object is the failure `freed`. -/
namespace Duck
namespace DictOwn
open HTable Property

/-- A key: the object and its contents. -/
abbrev Key := Id × Nat × Nat

/-- A dictionary or set. -/
abbrev Tab := Table Key (Option Id)

/-- How a call can go wrong: the table fails (C07), or a freed object is used. -/
inductive Bad where
  | table (f : Fail)
  | freed
deriving DecidableEq, Repr

/-- Lift an operation on the heap. -/
def alive {α : Type} : Option α → Except Bad α
  | some a => .ok a
  | none => .error .freed

/-- Lift an operation on the table. -/
def tableOp {α : Type} : Except Fail α → Except Bad α
  | .ok a => .ok a
  | .error f => .error (.table f)

/-- DKRetain of a reference that may be NULL. -/
def retainRef (h : Heap) : Option Id → Option Heap
  | none => some h
  | some i => retain h i

/-- Lines 279-283 of RowUpdate: the old object is released before the new one is retained. -/
def exchange (h : Heap) (old new : Option Id) : Option Heap :=
  if old = new then some h else (release h old.toList).bind fun h => retainRef h new

/-- RowUpdate (269-284). -/
def rowUpdate (h : Heap) (r : Option (Row Key (Option Id))) (key : Key) (obj : Option Id) : Option (Heap × Row Key (Option Id)) :=
  match r with
  | some (.active k old) => (exchange h old obj).map fun h => (h, .active k obj)
  | _ => (retain h key.1).bind fun h => (exchange h none obj).map fun h => (h, .active key obj)

/-- RowDelete (286-295). -/
def rowDelete (h : Heap) (e : Key × Option Id) : Option Heap :=
  (release h [e.1.1]).bind fun h => release h e.2.toList

/-- Find (DKGenericHashTable.c 268-330) calls DKHash on the key and DKEqual on the key and the keys of rows.
    Simplified: it touches the keys of all rows instead of those it comes across. -/
def findRow (hash : Nat × Nat → Nat) (eqv : Nat × Nat → Nat × Nat → Bool) (h : Heap) (t : Tab) (key : Key) : Except Bad (Nat × Status) :=
  if (live h key.1).isSome && (entries t.rows).all (fun e => (live h e.1.1).isSome) then
    tableOp (find (fun k : Key => hash k.2) (fun a b : Key => eqv a.2 b.2) t.rows key)
  else .error .freed

variable (hash : Nat × Nat → Nat) (eqv : Nat × Nat → Nat × Nat → Bool)

/-- Lines 397-423 of DKGenericHashTableInsert, for a table that has rows; `rz` is ResizeAndRehash. -/
def insertAt (rz : Heap → Tab → Except Bad (Heap × Tab)) (h : Heap) (t : Tab) (key : Key) (obj : Option Id) (p : Policy) :
    Except Bad (Heap × Tab × Bool) :=
  (findRow hash eqv h t key).bind fun r =>
    match r.2 with
    | .active =>
        if p = .ifNotFound then .ok (h, t, false)
        else (alive (rowUpdate h t.rows[r.1]? key obj)).map fun u => (u.1, { t with rows := t.rows.set r.1 u.2 }, true)
    | s =>
        if p = .ifFound then .ok (h, t, false)
        else (alive (rowUpdate h t.rows[r.1]? key obj)).bind fun u =>
          (rz u.1 { t with rows := t.rows.set r.1 u.2, activeCount := t.activeCount + 1,
                           deletedCount := if s = .deleted then t.deletedCount - 1 else t.deletedCount }).map fun q => (q.1, q.2, true)

/-- DKGenericHashTableInsert (391-424). -/
def insertWith (rz : Heap → Tab → Except Bad (Heap × Tab)) (h : Heap) (t : Tab) (key : Key) (obj : Option Id) (p : Policy) :
    Except Bad (Heap × Tab × Bool) :=
  if t.rows.isEmpty then (rz h t).bind fun q => insertAt hash eqv rz q.1 q.2 key obj p
  else insertAt hash eqv rz h t key obj p

/-- ResizeAndRehash (219-262): every active row is inserted in the new rows and then deleted. -/
def resize : Nat → Heap → Tab → Except Bad (Heap × Tab)
  | 0, h, t => if fits t then .ok (h, t) else .error (.table .depth)
  | d + 1, h, t =>
    if fits t then .ok (h, t)
    else match newSize t with
      | none => .error (.table .tooBig)
      | some s => (entries t.rows).foldlM
          (fun q e => (insertWith hash eqv (resize d) q.1 q.2 e.1 e.2 .always).bind fun r => (alive (rowDelete r.1 e)).map fun h => (h, r.2.1))
          (h, ⟨List.replicate s.1 .empty, 0, 0, s.2⟩)

/-- DKGenericHashTableInsert with these rows. -/
def insertRow (h : Heap) (t : Tab) (key : Key) (obj : Option Id) (p : Policy) : Except Bad (Heap × Tab) :=
  (insertWith hash eqv (resize hash eqv 2) h t key obj p).map fun r => (r.1, r.2.1)

/-- The contents of an object. -/
def keyOf (h : Heap) (x : Id) : Option Key := (live h x).map fun o => (x, o.cls, o.value)

/-- INTERNAL_DKHashTableInsertObject (717-728) and InsertKeyAndObject (305-318): the key is copied, inserted and released. -/
def insertObject (Γ : Classes) (h : Heap) (t : Tab) (k : Id) (obj : Option Id) (p : Policy) : Except Bad (Heap × Tab) :=
  (alive (copyObject Γ h k)).bind fun c => (alive (keyOf c.1 c.2)).bind fun key =>
    (insertRow hash eqv c.1 t key obj p).bind fun r => (alive (release r.1 [c.2])).map fun h => (h, r.2)

/-- INTERNAL_DKHashTableAddObjectToSet (783-792, ifNotFound) and InsertObject (324-335, always). -/
def addObject (h : Heap) (t : Tab) (x : Id) (p : Policy) : Except Bad (Heap × Tab) :=
  (alive (keyOf h x)).bind fun key => insertRow hash eqv h t key (some x) p

/-- INTERNAL_DKHashTableRemoveObject (743-750) with DKGenericHashTableRemove (430-444). -/
def removeObject (h : Heap) (t : Tab) (k : Id) : Except Bad (Heap × Tab) :=
  (alive (keyOf h k)).bind fun key =>
    if t.activeCount > 0 then
      (findRow hash eqv h t key).bind fun r =>
        match r.2, t.rows[r.1]? with
        | .active, some (.active k v) => (alive (rowDelete h (k, v))).map fun h =>
            (h, { t with rows := t.rows.set r.1 .deleted, activeCount := t.activeCount - 1, deletedCount := t.deletedCount + 1 })
        | _, _ => .ok (h, t)
    else .ok (h, t)

/-- Delete every active row: DKGenericHashTableFinalize (355-367), the loop of DKGenericHashTableRemoveAll (452-460). -/
def deleteAll (h : Heap) (l : List (Key × Option Id)) : Except Bad Heap := l.foldlM (fun h e => alive (rowDelete h e)) h

/-- DKHashTableCopy (526-540): every entry is inserted in a new table. -/
def copyTable (Γ : Classes) (h : Heap) (t : Tab) : Except Bad (Heap × Tab) :=
  (entries t.rows).foldlM (fun q e => insertObject hash eqv Γ q.1 q.2 e.1.1 e.2 .always) (h, HTable.init)

/-- INTERNAL_DKHashTableGetObject (597-609). -/
def getObject (h : Heap) (t : Tab) (k : Id) : Except Bad (Option Id) :=
  (alive (keyOf h k)).bind fun key =>
    if t.activeCount > 0 then (findRow hash eqv h t key).map fun r => if r.2 = .active then (objectAt t.rows r.1).join else none
    else .ok none

/-- A program's objects, tables (`none` once deallocated) and, for the statements only, the references it owns. -/
structure State where
  heap : Heap
  tables : List (Option Tab)
  client : List Id

/-- The calls of a program. -/
inductive Op where
  /-- A new object that holds others in its fields; the caller owns it. -/
  | alloc (cls value : Nat) (fields : List Id)
  | retain (i : Id)
  | release (i : Id)
  /-- DKNewMutableDictionary, DKNewMutableSet. -/
  | new
  /-- DKDictionarySetObject, DKDictionaryAddObject, ... with their policy. -/
  | insert (d : Nat) (k : Id) (obj : Option Id) (p : Policy)
  /-- DKSetAddObject (ifNotFound), or adding an element to a set that is initialized (always). -/
  | add (d : Nat) (x : Id) (p : Policy)
  | remove (d : Nat) (k : Id)
  | get (d : Nat) (k : Id)
  | removeAll (d : Nat)
  | copy (d : Nat)
  /-- The last release of a table. -/
  | dispose (d : Nat)

/-- The table `d`; using one that was deallocated is a failure. -/
def table (s : State) (d : Nat) : Except Bad Tab := alive (s.tables[d]?).join

/-- Put back heap and table. -/
def put (s : State) (d : Nat) (q : Heap × Tab) : State := { s with heap := q.1, tables := s.tables.set d (some q.2) }

/-- One call and what it returns. -/
def step (Γ : Classes) (s : State) : Op → Except Bad (State × Option Id)
  | .alloc cls value fs => (alive (retains s.heap fs)).map fun h =>
      ({ s with heap := h ++ [some ⟨cls, value, 1, fs.map .strong⟩], client := h.length :: s.client }, some h.length)
  | .retain i => (alive (retain s.heap i)).map fun h => ({ s with heap := h, client := i :: s.client }, some i)
  | .release i => (alive (release s.heap [i])).map fun h => ({ s with heap := h, client := s.client.erase i }, none)
  | .new => .ok ({ s with tables := s.tables ++ [some HTable.init] }, none)
  | .insert d k obj p => (table s d).bind fun t => (insertObject hash eqv Γ s.heap t k obj p).map fun q => (put s d q, none)
  | .add d x p => (table s d).bind fun t => (addObject hash eqv s.heap t x p).map fun q => (put s d q, none)
  | .remove d k => (table s d).bind fun t => (removeObject hash eqv s.heap t k).map fun q => (put s d q, none)
  | .get d k => (table s d).bind fun t => (getObject hash eqv s.heap t k).map fun r => (s, r)
  | .removeAll d => (table s d).bind fun t => (deleteAll s.heap (entries t.rows)).map fun h => (put s d (h, HTable.removeAll t), none)
  | .copy d => (table s d).bind fun t => (copyTable hash eqv Γ s.heap t).map fun q =>
      ({ s with heap := q.1, tables := s.tables ++ [some q.2] }, none)
  | .dispose d => (table s d).bind fun t => (deleteAll s.heap (entries t.rows)).map fun h =>
      ({ s with heap := h, tables := s.tables.set d none }, none)

end DictOwn
end Duck
