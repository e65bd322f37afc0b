import Mathlib.Logic.Function.Basic
/-!
# Model of the interface table of a class used by many threads (Source/DKRuntime+Interfaces.c 110-121, 179-252)

DKInterfaceTableFind (behind DKGetInterface, DKQueryInterface, DKGetMsgHandler, ...) and DKInterfaceTableInsert (behind DKInstallInterface,
DKInstallMsgHandler, ...) on one table.  What is done while the spin lock of the table is held is one step, every other access to shared memory is a
step of its own; memory is sequentially consistent.  Simplified: the hash table is a map and the number of its keys (the table itself is
Model/HashTable.lean); the rows are moved to new memory when the number of keys reaches a size; an interface is installed at most once; tables of
subclasses and the copying of a table to them (158-167) are not modelled.
-/

namespace Duck
namespace Dispatch

/-- What does not change: the selector of an interface, the cache line of a selector (274-277), the numbers of keys at which the table gets new rows
    (DKGenericHashTable.c 198-262), and the interfaces that somebody else owns too. -/
structure Env where
  selOf : Nat → Nat
  lineOf : Nat → Nat
  moves : Nat → Bool
  shared : Nat → Bool

/-- Where a thread is: looking up selector `sel`, or installing interface `i`. -/
inductive Pc where
  | idle
  /-- 228: read the cache -/
  | look (sel : Nat)
  /-- 230: read the selector of the interface found there -/
  | peek (sel i : Nat)
  /-- 239 -/
  | lock (sel : Nat)
  /-- 240-241, with the lock -/
  | search (sel : Nat)
  /-- 246: read `*entry`, which is a row in the memory number `gen` -/
  | entry (sel gen : Nat)
  /-- 246: write the interface to the cache -/
  | fill (sel gen i : Nat)
  /-- 248 -/
  | again (sel gen : Nat)
  /-- The caller has the interface, and reads a method from it. -/
  | found (sel i : Nat)
  /-- 251: not found -/
  | missing (sel : Nat)
  /-- 199 -/
  | install (i : Nat)
  /-- 202 -/
  | lockIn (i : Nat)
  /-- 203-204, with the lock -/
  | insert (i : Nat)
deriving DecidableEq, Repr

/-- struct DKInterfaceTable: the cache, the hash table (as a map from selectors, the number of its keys, and the number of the memory its rows are in),
    the holder of the lock.  Which interfaces were freed, and where the threads are.  `seen`: the interfaces installed so far. -/
structure State where
  cache : Nat → Option Nat
  table : Nat → Option Nat
  count : Nat
  gen : Nat
  holder : Option Nat
  freed : Nat → Bool
  seen : Nat → Bool
  threads : Nat → Pc

/-- An empty table (DKInterfaceTableInit 141-157). -/
def start : State := ⟨fun _ => none, fun _ => none, 0, 0, none, fun _ => false, fun _ => false, fun _ => .idle⟩

/-- Result of a step: a new state, nothing because the lock is taken (or there is nothing to do), or an access to freed memory. -/
inductive Outcome where
  | ok (s : State)
  | wait
  | bad

def State.goto (s : State) (t : Nat) (pc : Pc) : State := { s with threads := Function.update s.threads t pc }

/-- InterfaceTableRowUpdate (110-121): the old interface loses the reference of the table. -/
def freeOld (E : Env) (freed : Nat → Bool) : Option Nat → Nat → Bool
  | none => freed
  | some j => Function.update freed j (!E.shared j)

/-- DKGenericHashTableInsert( ..., DKInsertAlways ) (DKGenericHashTable.c 391-424). -/
def insertRow (E : Env) (s : State) (i : Nat) : State :=
  let fresh := (s.table (E.selOf i)).isNone
  let count := if fresh then s.count + 1 else s.count
  { s with table := Function.update s.table (E.selOf i) (some i), count := count,
           gen := if fresh && E.moves count then s.gen + 1 else s.gen, freed := freeOld E s.freed (s.table (E.selOf i)) }

/-- One step of thread `t` (DKInterfaceTableFind 211-252, DKInterfaceTableInsert 182-205). -/
def act (E : Env) (s : State) (t : Nat) : Outcome :=
  match s.threads t with
  | .idle => .wait
  | .look sel =>
    match s.cache (E.lineOf sel) with
    | some i => .ok (s.goto t (.peek sel i))
    | none => .ok (s.goto t (.lock sel))
  | .peek sel i => if s.freed i then .bad else if E.selOf i = sel then .ok (s.goto t (.found sel i)) else .ok (s.goto t (.lock sel))
  | .lock sel => if s.holder = none then .ok ({ s with holder := some t }.goto t (.search sel)) else .wait
  | .search sel =>
    if s.table sel = none then .ok ({ s with holder := none }.goto t (.missing sel)) else .ok ({ s with holder := none }.goto t (.entry sel s.gen))
  | .entry sel gen =>
    if gen ≠ s.gen then .bad
    else match s.table sel with
      | some i => .ok (s.goto t (.fill sel gen i))
      | none => .bad
  | .fill sel gen i => .ok ({ s with cache := Function.update s.cache (E.lineOf sel) (some i) }.goto t (.again sel gen))
  | .again sel gen =>
    if gen ≠ s.gen then .bad
    else match s.table sel with
      | some i => .ok (s.goto t (.found sel i))
      | none => .bad
  | .found _ i => if s.freed i then .bad else .ok (s.goto t .idle)
  | .missing _ => .ok (s.goto t .idle)
  | .install i => .ok ({ s with cache := Function.update s.cache (E.lineOf (E.selOf i)) (some i) }.goto t (.lockIn i))
  | .lockIn i => if s.holder = none then .ok ({ s with holder := some t }.goto t (.insert i)) else .wait
  | .insert i => .ok ({ insertRow E s i with holder := none }.goto t .idle)

/-- A thread calls DKInterfaceTableFind (211-216). -/
def callFind (s : State) (t sel : Nat) : State := s.goto t (.look sel)

/-- A thread calls DKInterfaceTableInsert, with an interface it made (182-195). -/
def callInsert (s : State) (t i : Nat) : State := { s with seen := Function.update s.seen i true }.goto t (.install i)

end Dispatch
end Duck
