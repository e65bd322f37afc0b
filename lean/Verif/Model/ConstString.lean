/-!
# Model of constant strings (DKString.c 2590-2736)

`__DKStringGetConstantString` executed by any number of threads, statement by statement, memory being sequentially consistent.  A text is the bytes up to
the NUL; the text behind a pointer does not change afterwards (constant strings do not copy it).  The hash table is a list of pointers: that
DKGenericHashTableFind gives the row with an equal string and that DKGenericHashTableInsert with DKInsertIfNotFound adds a row exactly if there is none are
properties of the hash table (C06, C07).

Using a table or a string that was freed, or the NULL table, is the result `crash`.
-/

namespace Duck
namespace Const

abbrev Text := List UInt8

/-- Where a call is.  Lines are those of DKString.c. -/
inductive Pc where
  /-- 2640 -/
  | test
  /-- 2642-2654: makes a table -/
  | newTable
  /-- 2656: has made table `t` -/
  | tableLock (t : Nat)
  /-- 2658-2659 -/
  | setTable (t : Nat)
  /-- 2661 -/
  | tableUnlock (t : Nat)
  /-- 2663-2667 -/
  | compare (t : Nat)
  /-- 2693 -/
  | findLock
  /-- 2694 -/
  | find
  /-- 2696-2708, with the entry found -/
  | findUnlock (found : Option Nat)
  /-- 2711-2713 -/
  | alloc
  /-- 2716: has made string `p` -/
  | insertLock (p : Nat)
  /-- 2718-2727 -/
  | insert (p : Nat)
  /-- 2729, with the result -/
  | insertUnlock (p r : Nat)
  /-- 2732-2735 -/
  | discard (p r : Nat)
  | done (result : Option Nat)
deriving DecidableEq, Repr

/-- A call of `__DKStringGetConstantString( str, insert )`. -/
structure Call where
  text : Text
  insert : Bool
  pc : Pc
deriving DecidableEq, Repr

/-- A constant string, with the call that made it. -/
structure Str where
  text : Text
  maker : Nat
  freed : Bool
deriving DecidableEq, Repr

/-- A hash table, with the call that made it. -/
structure Table where
  maker : Nat
  freed : Bool
deriving DecidableEq, Repr

/-- DKConstantStringTable, its rows, DKConstantStringTableLock (with the call that holds it), everything allocated, and the calls. -/
structure State where
  table : Option Nat
  rows : List Nat
  lock : Option Nat
  tables : List Table
  strings : List Str
  calls : List Call
deriving DecidableEq, Repr

/-- DKString.c 2591-2592. -/
def init : State := ⟨none, [], none, [], [], []⟩

inductive Res where
  | ok (s : State)
  | crash
deriving DecidableEq, Repr

/-- The text of string `p`. -/
def textOf (s : State) (p : Nat) : Option Text := (s.strings[p]?).map Str.text

/-- The string `p` can be used. -/
def live (s : State) (p : Nat) : Bool := match s.strings[p]? with
  | some x => !x.freed
  | none => false

/-- The table can be used: it is not NULL, and neither it nor a string in it was freed. -/
def usable (s : State) : Bool := match s.table with
  | none => false
  | some t => match s.tables[t]? with
    | some x => !x.freed && s.rows.all (live s)
    | none => false

/-- DKGenericHashTableFind( DKConstantStringTable, &lookupString ). -/
def find (s : State) (x : Text) : Option Nat := s.rows.find? fun p => textOf s p = some x

/-- Call `i` goes on to `pc`. -/
def goto (s : State) (i : Nat) (c : Call) (pc : Pc) : Res := .ok { s with calls := s.calls.set i { c with pc := pc } }

/-- DKGenericHashTableFinalize and dk_free of table `t` (DKString.c 2665-2666). -/
def freeTable (s : State) (t : Nat) : Option State := match s.tables[t]? with
  | some x => if x.freed then none else some { s with tables := s.tables.set t { x with freed := true } }
  | none => none

/-- DKDeallocObject( newConstantString ) (DKString.c 2733). -/
def freeString (s : State) (p : Nat) : Option State := match s.strings[p]? with
  | some x => if x.freed then none else some { s with strings := s.strings.set p { x with freed := true } }
  | none => none

/-- DKString.c 2663-2667. -/
def discardTable (s : State) (i : Nat) (c : Call) (t : Nat) : Res :=
  if s.table = some t then goto s i c .findLock
  else match freeTable s t with
    | some s' => goto s' i c .findLock
    | none => .crash

/-- DKString.c 2732-2735. -/
def discardString (s : State) (i : Nat) (c : Call) (p r : Nat) : Res :=
  if r = p then goto s i c (.done (some r))
  else match freeString s p with
    | some s' => goto s' i c (.done (some r))
    | none => .crash

/-- What call `i` does next (DKString.c 2638-2736); `none` while the lock is taken, and when it has returned. -/
def step (s : State) (i : Nat) (c : Call) : Option Res :=
  match c.pc with
  | .test => some (goto s i c (if s.table = none then .newTable else .findLock))
  | .newTable => some (goto { s with tables := s.tables ++ [⟨i, false⟩] } i c (.tableLock s.tables.length))
  | .tableLock t => if s.lock = none then some (goto { s with lock := some i } i c (.setTable t)) else none
  | .setTable t => some (goto { s with table := if s.table = none then some t else s.table } i c (.tableUnlock t))
  | .tableUnlock t => some (goto { s with lock := none } i c (.compare t))
  | .compare t => some (discardTable s i c t)
  | .findLock => if s.lock = none then some (goto { s with lock := some i } i c .find) else none
  | .find => some (if usable s then goto s i c (.findUnlock (find s c.text)) else .crash)
  | .findUnlock found => some (goto { s with lock := none } i c (if found = none ∧ c.insert then .alloc else .done found))
  | .alloc => some (goto { s with strings := s.strings ++ [⟨c.text, i, false⟩] } i c (.insertLock s.strings.length))
  | .insertLock p => if s.lock = none then some (goto { s with lock := some i } i c (.insert p)) else none
  | .insert p => some (if usable s then match find s c.text with
      | none => goto { s with rows := s.rows ++ [p] } i c (.insertUnlock p p)
      | some q => goto s i c (.insertUnlock p q) else .crash)
  | .insertUnlock p r => some (goto { s with lock := none } i c (.discard p r))
  | .discard p r => some (discardString s i c p r)
  | .done _ => none

inductive Action where
  /-- a thread calls `__DKStringGetConstantString`; NULL is the empty text (2671-2672) -/
  | call (text : Text) (insert : Bool)
  /-- call `i` makes a step -/
  | step (i : Nat)
deriving DecidableEq, Repr

def act (s : State) : Action → Option Res
  | .call x ins => some (.ok { s with calls := s.calls ++ [⟨x, ins, .test⟩] })
  | .step i => (s.calls[i]?).bind (step s i)

/-- The states that can come about. -/
inductive Reach : State → Prop
  | init : Reach init
  | step {s a s'} : Reach s → act s a = some (.ok s') → Reach s'

end Const
end Duck
