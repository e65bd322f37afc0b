import Verif.Model.Text
/-! Model of object properties (Source/DKRuntime+Properties.c): DKSetProperty, DKGetProperty and their key path
    versions, for properties that hold an object (DKInstallObjectProperty, 123-159) and have no custom getter, setter
    or observer, in classes without a Property interface.
    The heap holds objects with their reference counts.  Simplified: an identifier stands for an address and is never
    reused; a weak reference is the identifier of its target (Model/RefCount.lean is about the machinery behind it);
    the property table of a class is a list (Model/HashTable.lean is about the table); the finalizer of a class
    releases what its fields hold, as Duck's own classes do, and the memory of an object is given back before its
    fields are released instead of after. -/
namespace Duck
namespace Property

/-- An object. -/
abbrev Id := Nat

/-- A name or a key path, as bytes. -/
abbrev Name := List UInt8

/-- A field that holds an object: NULL, a retained object, or a retained weak reference to an object. -/
inductive Slot where
  | null
  | strong (o : Id)
  | weak (o : Id)
deriving DecidableEq, Repr

/-- struct DKProperty (DKRuntime.h 620-642).  `offset` counts fields; `accepts` is the predicate, applied to the class
    and the contents of the object, or to NULL. -/
structure Definition where
  name : Name
  readOnly : Bool
  weak : Bool
  copy : Bool
  offset : Nat
  accepts : Option (Nat × Nat) → Bool

/-- The classes of a program, which are set up before their objects: property tables (DKInstallProperty, 84-96, and
    DKCopyPropertiesTable, 102-117), the number of fields, and whether DKCopy only retains (immutable instances). -/
structure Classes where
  table : Nat → List Definition
  size : Nat → Nat
  immutable : Nat → Bool

/-- An object: its class, contents that DKEqual compares, reference count and fields. -/
structure Obj where
  cls : Nat
  value : Nat
  count : Nat
  fields : List Slot
deriving DecidableEq, Repr

/-- All objects ever allocated; `none` is memory that was given back. -/
abbrev Heap := List (Option Obj)

/-- The object at an address. -/
def live (h : Heap) (i : Id) : Option Obj := h[i]?.join

/-- What a field owns. -/
def owned : Slot → List Id
  | .strong o => [o]
  | _ => []

/-- What the fields own. -/
def strongs (l : List Slot) : List Id := l.flatMap owned

/-- Sum of the reference counts. -/
def total (h : Heap) : Nat := (h.map fun c => match c with | some o => o.count | none => 0).sum

/-- DKRelease (DKRuntime+RefCount.c 72-119) of each object in turn; an object whose count drops to zero is deallocated and
    what its fields own is released too.  `none` is the use of freed memory.  `fuel` bounds the number of releases
    (the sum of the counts is enough, `release_ok`). -/
def releases (fuel : Nat) (h : Heap) (l : List Id) : Option Heap :=
  match l, fuel with
  | [], _ => some h
  | _ :: _, 0 => none
  | i :: rest, fuel + 1 =>
    match live h i with
    | none => none
    | some o =>
      if o.count > 1 then releases fuel (h.set i (some { o with count := o.count - 1 })) rest
      else releases fuel (h.set i none) (strongs o.fields ++ rest)

/-- DKRelease of a list of objects. -/
def release (h : Heap) (l : List Id) : Option Heap := releases (total h) h l

/-- DKRetain (DKRuntime+RefCount.c 50-67). -/
def retain (h : Heap) (i : Id) : Option Heap :=
  (live h i).map fun o => h.set i (some { o with count := o.count + 1 })

/-- Retain every object of a list. -/
def retains (h : Heap) : List Id → Option Heap
  | [] => some h
  | i :: l => (retain h i).bind fun h => retains h l

/-- Store into a field. -/
def write (h : Heap) (i : Id) (k : Nat) (v : Slot) : Heap :=
  match live h i with
  | some o => h.set i (some { o with fields := o.fields.set k v })
  | none => h

/-- The heap, the autorelease pool and, for the statements only, the references the calling code owns. -/
structure State where
  heap : Heap
  pool : List Id
  client : List Id
deriving DecidableEq, Repr

/-- DKGetPropertyDefinition (314-333). -/
def definition (Γ : Classes) (cls : Nat) (name : Name) : Option Definition := (Γ.table cls).find? fun p => p.name = name

/-- DKCopy (DKCopying.c 42-51): immutable objects are retained, others duplicated with everything they own. -/
def copyObject (Γ : Classes) (h : Heap) (x : Id) : Option (Heap × Id) :=
  (live h x).bind fun o =>
    if Γ.immutable o.cls then (retain h x).map fun h => (h, x)
    else (retains h (strongs o.fields)).map fun h => (h ++ [some { o with count := 1 }], h.length)

/-- `DKRelease( *ref ); *ref = v;` (494-495, 501-502, 508-509). -/
def replace (h : Heap) (i : Id) (k : Nat) (v : Slot) : Option Heap :=
  (live h i).bind fun o => (o.fields[k]?).bind fun old =>
    (release h (owned old)).bind fun h => (live h i).map fun _ => write h i k v

/-- The class and contents of an object, for predicates; `none` if it was freed. -/
def look (h : Heap) : Option Id → Option (Option (Nat × Nat))
  | none => some none
  | some x => (live h x).map fun o => some (o.cls, o.value)

/-- The three ways of storing (491-510), after the checks. -/
def store (Γ : Classes) (h : Heap) (i : Id) (p : Definition) : Option Id → Option Heap
  | none => replace h i p.offset .null
  | some x =>
    if p.copy then (copyObject Γ h x).bind fun r => replace r.1 i p.offset (.strong r.2)
    else if p.weak then (live h x).bind fun _ => replace h i p.offset (.weak x)
    else (retain h x).bind fun h => replace h i p.offset (.strong x)

/-- DKWritePropertyObject (469-514) for an object property: CheckPredicateRequirement (388-397), then `store`. -/
def writeObject (Γ : Classes) (h : Heap) (i : Id) (p : Definition) (x : Option Id) : Option Heap :=
  (look h x).bind fun v => if p.accepts v then store Γ h i p x else some h

/-- DKTrySetProperty (672-701); a NULL receiver is ignored. -/
def setProperty (Γ : Classes) (s : State) (i : Option Id) (name : Name) (x : Option Id) : Option State :=
  match i with
  | none => some s
  | some i => (live s.heap i).bind fun o =>
    match definition Γ o.cls name with
    | none => some s
    | some p => if p.readOnly then some s else (writeObject Γ s.heap i p x).map fun h => { s with heap := h }

/-- DKAutorelease of a retained object or NULL. -/
def autoreleased (s : State) (x : Id) : Option (State × Option Id) :=
  (retain s.heap x).map fun h => ({ s with heap := h, pool := x :: s.pool }, some x)

/-- DKReadPropertyObject (561-596) for an object property.  A weak reference whose target was freed resolves to NULL
    (DKRuntime+RefCount.c 211-231).  `none` is also the confusion of a weak reference and an object. -/
def readObject (s : State) (i : Id) (p : Definition) : Option (State × Option Id) :=
  (live s.heap i).bind fun o => (o.fields[p.offset]?).bind fun v =>
    match v, p.weak with
    | .null, _ => some (s, none)
    | .weak x, true => if (live s.heap x).isSome then autoreleased s x else some (s, none)
    | .strong x, false => autoreleased s x
    | .weak _, false => none
    | .strong _, true => none

/-- DKTryGetProperty (720-744). -/
def getProperty (Γ : Classes) (s : State) (i : Option Id) (name : Name) : Option (State × Option Id) :=
  match i with
  | none => some (s, none)
  | some i => (live s.heap i).bind fun o =>
    match definition Γ o.cls name with
    | none => some (s, none)
    | some p => readObject s i p

/-- The loop 653-657 of DKResolveTargetForKeyPath. -/
def resolveLoop (Γ : Classes) (s : State) (target : Option Id) (key : Name) : List Name → Option (State × Option Id × Name)
  | [] => some (s, target, key)
  | k :: keys => (getProperty Γ s target key).bind fun r => resolveLoop Γ r.1 r.2 k keys

/-- DKResolveTargetForKeyPath (640-666); the inner `none` is its `false`. -/
def resolve (Γ : Classes) (s : State) (root : Option Id) (path : Name) : Option (Option (State × Option Id × Name)) :=
  match root with
  | none => some none
  | some r => (Text.split path [46]).bind fun keys =>
    match keys with
    | [] => some none
    | k :: keys => (resolveLoop Γ s (some r) k keys).map some

/-- DKTryGetPropertyForKeyPath (750-759). -/
def getPath (Γ : Classes) (s : State) (root : Option Id) (path : Name) : Option (State × Option Id) :=
  (resolve Γ s root path).bind fun r =>
    match r with
    | none => some (s, none)
    | some (s, target, key) => getProperty Γ s target key

/-- DKTrySetPropertyForKeyPath (707-714). -/
def setPath (Γ : Classes) (s : State) (root : Option Id) (path : Name) (x : Option Id) : Option State :=
  (resolve Γ s root path).bind fun r =>
    match r with
    | none => some s
    | some (s, target, key) => setProperty Γ s target key x

/-- The calls of a program. -/
inductive Op where
  /-- DKAlloc/DKInit: a new object with empty fields; the caller owns it. -/
  | alloc (cls value : Nat)
  | retain (i : Id)
  | release (i : Id)
  | autorelease (i : Id)
  /-- The end of an autorelease pool. -/
  | drain
  | set (i : Id) (name : Name) (x : Option Id)
  | get (i : Id) (name : Name)
  /-- A class assigns one of its own fields: retain the new object (or a weak reference to it), release the old. -/
  | assign (i : Id) (k : Nat) (x : Option Id)
deriving DecidableEq, Repr

/-- Is the field declared weak? -/
def weakField (Γ : Classes) (cls k : Nat) : Bool := (Γ.table cls).any fun p => p.offset == k && p.weak

/-- A class assigning a field. -/
def assignField (Γ : Classes) (h : Heap) (i : Id) (k : Nat) : Option Id → Option Heap
  | none => replace h i k .null
  | some x => (live h i).bind fun o =>
    if weakField Γ o.cls k then (live h x).bind fun _ => replace h i k (.weak x)
    else (retain h x).bind fun h => replace h i k (.strong x)

/-- One call and what it returns. -/
def step (Γ : Classes) (s : State) : Op → Option (State × Option Id)
  | .alloc cls value =>
      some ({ s with heap := s.heap ++ [some ⟨cls, value, 1, List.replicate (Γ.size cls) .null⟩], client := s.heap.length :: s.client },
        some s.heap.length)
  | .retain i => (retain s.heap i).map fun h => ({ s with heap := h, client := i :: s.client }, some i)
  | .release i => (release s.heap [i]).map fun h => ({ s with heap := h, client := s.client.erase i }, none)
  | .autorelease i => some ({ s with pool := i :: s.pool, client := s.client.erase i }, some i)
  | .drain => (release s.heap s.pool).map fun h => ({ s with heap := h, pool := [] }, none)
  | .set i name x => (setProperty Γ s (some i) name x).map fun s => (s, none)
  | .get i name => getProperty Γ s (some i) name
  | .assign i k x => (assignField Γ s.heap i k x).map fun h => ({ s with heap := h }, none)

end Property
end Duck
