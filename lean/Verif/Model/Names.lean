import Verif.Model.Enum
/-!
Model of the name databases of classes and selectors (DKRuntime+Reflection.c 54-178, 316-409) and of their users, DKNewClass and DKClassFinalize
(DKRuntime.c 438-501), DKAllocSelector and DKSelectorFinalize (DKRuntime+Interfaces.c 265-296).

Both databases are the same code, and are modelled once, for classes.  The rows are pointers to classes: the row callbacks (DKRuntime+Reflection.c
54-92) make the table of `Model/HashTable.lean` with the name as key and the class as object.  The name of a class is a copy and does not change
while it is in the table; names are their bytes.  The spin lock around each use of the table makes it atomic, so that a history of calls by any number of
threads is a list.  Not modelled: the references of a class other than the fact that it has some.
-/
namespace Duck
namespace Names
open HTable Enum

/-- Where a class is in its life. -/
inductive Phase where
  /-- there are references to it -/
  | live
  /-- the last reference was released, but its finalizer has not taken it out of the database yet (DKRuntime.c 840-875) -/
  | dying
  /-- its finalizer has taken it out of the database -/
  | gone
deriving DecidableEq, Repr

/-- The parts of struct DKClass that matter here (DKRuntime+Class.h). -/
structure Cls where
  name : Key
  phase : Phase
deriving DecidableEq, Repr

/-- ClassNameDatabase (DKRuntime+Reflection.c 46) and the classes made; a pointer is the number of the class. -/
structure State where
  table : Table Key Nat
  classes : List Cls

/-- DKNameDatabaseInit (DKRuntime+Reflection.c 102-116). -/
def init : State := ⟨HTable.init, []⟩

inductive Error where
  /-- DKFatalError: a class of that name already exists -/
  | fatal
  /-- a NULL pointer is dereferenced -/
  | crash
  /-- the hash table fails (C06, C07) -/
  | table (e : Fail)
  /-- there is no such class to release or finalize: not a call a program can make -/
  | illegal
deriving DecidableEq, Repr

/-- A result of the hash table. -/
def lift {α β : Type} (x : Except Fail α) (f : α → Except Error β) : Except Error β :=
  match x with
  | .ok a => f a
  | .error e => .error (.table e)

/-- DKNameDatabaseInsertClass (DKRuntime+Reflection.c 122-137), called by DKNewClass (DKRuntime.c 453-467) with the new class. -/
def create (s : State) (name : Key) : Except Error (State × Nat) :=
  match name with
  | none => .ok (⟨s.table, s.classes ++ [⟨none, .live⟩]⟩, s.classes.length)
  | some n => lift (HTable.insert hashKey eqKey s.table (some n) s.classes.length .ifNotFound) fun r =>
    if r.2 then .ok (⟨r.1, s.classes ++ [⟨some n, .live⟩]⟩, s.classes.length) else .error .fatal

/-- Does the search for a NULL name (hash code 0, DKString.c 815-828) compare a name with it?  DKStringEqualToString dereferences NULL then
    (DKString.c 283-291, 753-762). -/
def meetsName (t : Table Key Nat) : Except Fail Bool :=
  if t.activeCount > 0 then (HTable.find hashKey (fun _ _ => true) t.rows none).map fun r => r.2 == .active else .ok false

/-- DKNameDatabaseRemoveClass (DKRuntime+Reflection.c 143-148), called by DKClassFinalize (DKRuntime.c 482) also for classes without a name. -/
def removeName (t : Table Key Nat) (name : Key) : Except Error (Table Key Nat) :=
  match name with
  | none => lift (meetsName t) fun b => if b then .error .crash else .ok t
  | some n => lift (HTable.remove hashKey eqKey t (some n)) .ok

/-- The last reference to class `i` is released. -/
def drop (s : State) (i : Nat) : Except Error State :=
  match s.classes[i]? with
  | some c => if c.phase = .live then .ok { s with classes := s.classes.set i { c with phase := .dying } } else .error .illegal
  | none => .error .illegal

/-- DKClassFinalize (DKRuntime.c 476-501) of class `i`. -/
def finalize (s : State) (i : Nat) : Except Error State :=
  match s.classes[i]? with
  | some c => if c.phase = .dying then (removeName s.table c.name).map fun t => ⟨t, s.classes.set i { c with phase := .gone }⟩ else .error .illegal
  | none => .error .illegal

/-- DKClassFromString (DKRuntime+Reflection.c 328-351), DKClassFromCString (357-369). -/
def fromString (s : State) (name : Key) : Except Error (Option Nat) :=
  match name with
  | none => .ok none
  | some n => lift (HTable.get hashKey eqKey s.table (some n)) .ok

inductive Op where
  | create (name : Key)
  | drop (i : Nat)
  | finalize (i : Nat)
  | find (name : Key)
deriving DecidableEq, Repr

/-- What a call returns. -/
inductive Out where
  | class (i : Nat)
  | done
  | found (i : Option Nat)
deriving DecidableEq, Repr

def step (s : State) : Op → Except Error (State × Out)
  | .create n => (create s n).map fun r => (r.1, .class r.2)
  | .drop i => (drop s i).map fun s => (s, .done)
  | .finalize i => (finalize s i).map fun s => (s, .done)
  | .find n => (fromString s n).map fun r => (s, .found r)

/-- A history of calls, with what they return. -/
def run (s : State) : List Op → Except Error (State × List Out)
  | [] => .ok (s, [])
  | op :: ops => (step s op).bind fun r => (run r.1 ops).map fun q => (q.1, r.2 :: q.2)

/-- DKStringFromClass (DKRuntime+Reflection.c 316-322) of class `i`. -/
def nameOf (s : State) (i : Nat) : Option Key := (s.classes[i]?).map Cls.name

end Names
end Duck
