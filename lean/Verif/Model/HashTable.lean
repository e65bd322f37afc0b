/-! Model of `DKGenericHashTable` (Source/DKGenericHashTable.c) with the row callbacks of `DKHashTable`
    (Source/DKHashTable.c 241-295).  A row's key and object are abstract values; `hash` and `eqv` are the key
    class's `DKHash` and `DKEqual`.  Reference counting of keys and objects is not part of this file. -/
namespace Duck
namespace HTable

/-- A row: DKRowStatusEmpty, DKRowStatusDeleted, or a live key and object
    (DKGenericHashTable.h 42-53, DKHashTable.c 241-245). -/
inductive Row (K V : Type) where
  | empty
  | deleted
  | active (key : K) (object : V)
deriving Repr, DecidableEq

/-- The status reported by `Find` (DKGenericHashTable.c 268). -/
inductive Status where
  | empty | deleted | active
deriving Repr, DecidableEq

/-- DKInsertPolicy. -/
inductive Policy where
  | always | ifFound | ifNotFound
deriving Repr, DecidableEq

/-- The ways an operation can go wrong.
    `outOfTable`: a probe computed a row index outside the table (the C code reads past the allocation).
    `tooBig`: `NextHashTableSize` raised its fatal error.
    `outOfFuel`, `depth`: artefacts of the model; shown never to occur. -/
inductive Fail where
  | outOfTable | tooBig | outOfFuel | depth
deriving Repr, DecidableEq

/-- struct DKGenericHashTable (DKGenericHashTable.h).  `rows = []` stands for `rows == NULL`; `rowCount` is
    the length of `rows`.  The counts are the C code's signed counters. -/
structure Table (K V : Type) where
  rows : List (Row K V)
  activeCount : Int
  deletedCount : Int
  maxActive : Int
deriving Repr, DecidableEq

/-- HashTableSizes, the active `#if 1` branch (DKGenericHashTable.c 44-90). -/
def sizes : List (Nat × Nat) :=
  [(11, 5), (17, 8), (25, 12), (61, 30), (127, 63), (191, 95), (509, 254), (1021, 510), (1531, 765),
   (2297, 1148), (3583, 1791), (5623, 2811), (8447, 4223), (12799, 6399), (19447, 9723), (29179, 14589),
   (44029, 22014), (66047, 33023), (99317, 49658), (148991, 74495), (223711, 111855), (335609, 167804),
   (503551, 251775), (755449, 377724), (1133303, 566651), (1700087, 850043), (2550269, 1275134),
   (3825649, 1912824), (5738743, 2869371), (8608247, 4304123), (12912379, 6456189), (19368703, 9684351),
   (29053181, 14526590), (43579873, 21789936), (65369851, 32684925), (98054897, 49027448),
   (147082471, 73541235), (220623863, 110311931), (330936049, 165468024), (496404217, 248202108),
   (744606449, 372303224), (1116909791, 558454895), (1675364863, 837682431)]

/-- NextHashTableSize (201-213); `none` is its fatal error. -/
def nextSize (rowCount : Nat) : Option (Nat × Nat) := sizes.find? (fun s => s.1 > rowCount)

variable {K V : Type} (hash : K → Nat) (eqv : K → K → Bool)

/-- DKGenericHashTableInit (336-349). -/
def init : Table K V := ⟨[], 0, 0, 0⟩

/-- One step of the probe sequence, lines 318-322: `i++; x += 2*i - 1; if (x >= rowCount) x -= rowCount`. -/
def next (n i x : Nat) : Nat := if x + (2 * (i + 1) - 1) ≥ n then x + (2 * (i + 1) - 1) - n else x + (2 * (i + 1) - 1)

/-- Lines 312-315: remember the first deleted row. -/
def remember (fd : Option Nat) (x : Nat) : Option Nat := match fd with | none => some x | some d => some d

/-- The loop of `Find` (279-326).  Returns the row index and the status. -/
def findLoop (rows : List (Row K V)) (key : K) : Nat → Nat → Nat → Option Nat → Except Fail (Nat × Status)
  | 0, _, _, _ => .error .outOfFuel
  | f + 1, i, x, fd =>
    match rows[x]? with
    | none => .error .outOfTable
    | some .empty => (match fd with | some d => .ok (d, .deleted) | none => .ok (x, .empty))
    | some (.active k _) =>
        if eqv k key then .ok (x, .active) else findLoop rows key f (i + 1) (next rows.length i x) fd
    | some .deleted => findLoop rows key f (i + 1) (next rows.length i x) (remember fd x)

/-- Find (268-330).  The fuel `rowCount + 2` is always enough (`find_no_fuel`). -/
def find (rows : List (Row K V)) (key : K) : Except Fail (Nat × Status) :=
  findLoop eqv rows key (rows.length + 2) 0 (hash key % rows.length) none

/-- RowUpdate (DKHashTable.c 269-284): an active row keeps its key; any other row takes the new one. -/
def rowUpdate (r : Option (Row K V)) (key : K) (object : V) : Row K V :=
  match r with
  | some (.active k _) => .active k object
  | _ => .active key object

/-- The test of line 221 (a negative sum would convert to a huge size_t). -/
def fits (t : Table K V) : Bool := 0 ≤ t.activeCount + t.deletedCount && t.activeCount + t.deletedCount < t.maxActive

/-- Lines 228-234: the dimensions of the rebuilt table. -/
def newSize (t : Table K V) : Option (Nat × Int) :=
  if t.rows.length = 0 ∨ t.activeCount > t.deletedCount then
    (nextSize t.rows.length).map (fun s => (s.1, (s.2 : Int)))
  else some (t.rows.length, t.maxActive)

/-- The live entries in row order (DKGenericHashTableForeachRow, 472-483). -/
def entries (rows : List (Row K V)) : List (K × V) :=
  rows.filterMap (fun r => match r with | .active k v => some (k, v) | _ => none)

/-- Lines 397-423 of DKGenericHashTableInsert, for a table that has rows; `rz` is ResizeAndRehash. -/
def insertAt (rz : Table K V → Except Fail (Table K V)) (t : Table K V) (key : K) (object : V) (p : Policy) :
    Except Fail (Table K V × Bool) :=
  (find hash eqv t.rows key).bind fun r =>
    match r.2 with
    | .active =>
        if p = .ifNotFound then .ok (t, false)
        else .ok ({ t with rows := t.rows.set r.1 (rowUpdate t.rows[r.1]? key object) }, true)
    | s =>
        if p = .ifFound then .ok (t, false)
        else (rz { t with rows := t.rows.set r.1 (rowUpdate t.rows[r.1]? key object),
                          activeCount := t.activeCount + 1,
                          deletedCount := if s = .deleted then t.deletedCount - 1 else t.deletedCount }).map
              (fun t => (t, true))

/-- DKGenericHashTableInsert (391-424): lazy allocation, then `insertAt`. -/
def insertWith (rz : Table K V → Except Fail (Table K V)) (t : Table K V) (key : K) (object : V) (p : Policy) :
    Except Fail (Table K V × Bool) :=
  if t.rows.isEmpty then (rz t).bind (fun t => insertAt hash eqv rz t key object p)
  else insertAt hash eqv rz t key object p

/-- ResizeAndRehash (219-262).  It calls DKGenericHashTableInsert, which calls it back; the first argument
    bounds that nesting (running out of it is `Fail.depth`, shown never to happen). -/
def resize : Nat → Table K V → Except Fail (Table K V)
  | 0, t => if fits t then .ok t else .error .depth
  | d + 1, t =>
    if fits t then .ok t
    else match newSize t with
      | none => .error .tooBig
      | some s => (entries t.rows).foldlM
          (fun t e => (insertWith hash eqv (resize d) t e.1 e.2 .always).map (·.1))
          ⟨List.replicate s.1 .empty, 0, 0, s.2⟩

/-- DKGenericHashTableInsert with DKHashTable's rows. -/
def insert (t : Table K V) (key : K) (object : V) (p : Policy) : Except Fail (Table K V × Bool) :=
  insertWith hash eqv (resize hash eqv 2) t key object p

/-- The object of row `x` (DKHashTable.c 603-608). -/
def objectAt (rows : List (Row K V)) (x : Nat) : Option V :=
  match rows[x]? with
  | some (.active _ v) => some v
  | _ => none

/-- DKGenericHashTableFind (373-385) followed by reading the row's object (DKHashTable.c 597-609). -/
def get (t : Table K V) (key : K) : Except Fail (Option V) :=
  if t.activeCount > 0 then
    (find hash eqv t.rows key).map (fun r => if r.2 = .active then objectAt t.rows r.1 else none)
  else .ok none

/-- DKGenericHashTableRemove (430-444). -/
def remove (t : Table K V) (key : K) : Except Fail (Table K V) :=
  if t.activeCount > 0 then
    (find hash eqv t.rows key).map (fun r =>
      if r.2 = .active then
        { t with rows := t.rows.set r.1 .deleted, activeCount := t.activeCount - 1,
                 deletedCount := t.deletedCount + 1 }
      else t)
  else .ok t

/-- DKGenericHashTableRemoveAll (450-466). -/
def removeAll (t : Table K V) : Table K V :=
  { t with rows := t.rows.map (fun _ => .empty), activeCount := 0, deletedCount := 0 }

/-- A call of the API. -/
inductive Op (K V : Type) where
  | get (key : K)
  | insert (key : K) (object : V) (p : Policy)
  | remove (key : K)
  | removeAll
  | count

/-- What a call reports to its caller. -/
inductive Out (V : Type) where
  | value (v : Option V)
  | changed (b : Bool)
  | done
  | count (n : Int)
deriving DecidableEq

/-- One call. `count` reads activeCount (DKHashTable.c, DKHashTableGetCount). -/
def step (t : Table K V) : Op K V → Except Fail (Table K V × Out V)
  | .get k => (get hash eqv t k).map (fun v => (t, .value v))
  | .insert k v p => (insert hash eqv t k v p).map (fun r => (r.1, .changed r.2))
  | .remove k => (remove hash eqv t k).map (fun t => (t, .done))
  | .removeAll => .ok (removeAll t, .done)
  | .count => .ok (t, .count t.activeCount)

/-- A history of calls, with everything reported. -/
def run (t : Table K V) : List (Op K V) → Except Fail (Table K V × List (Out V))
  | [] => .ok (t, [])
  | op :: ops => (step hash eqv t op).bind fun r => (run r.1 ops).map fun q => (q.1, r.2 :: q.2)

end HTable
end Duck
