import Mathlib.Logic.Function.Basic
/-
The archiver and the unarchiver of Source/DKEgg.c once more, now with the memory of the objects: who owns which object, how
long it exists, and which object an address belongs to.  Addresses are numbers; memory that was freed may be used again for
another object, so every object has a serial number besides its address.  What the program around does, the `addToEgg` and
`initWithEgg` methods included, is a sequence of events; nested calls are events that happen before the call they are nested
in has finished.  The use of a freed object is undefined, `none`.  Simplified: what is archived (attributes, symbols, bytes) is
left out, see Model.Egg; one thread; the references of the rest of the program, be they variables or fields of objects, are one
number for each object.
-/
namespace Duck
namespace EggOwn

abbrev Addr := Nat

/-- What is at an address: free memory; an object that is counted, with its owners (DKRuntime+RefCount.c:48-119); an object
    that is not counted, like a constant string or the placeholder of a class (DKString.c:2676-2690,
    DKPlaceholderStruct, DKStruct.c:113-135, DKBoolean.c:41-51) -/
inductive Cell
  | free
  | counted (serial : Nat) (owners : Nat)
  | static (serial : Nat)
deriving DecidableEq, Repr

/-- The memory: what is at each address, the serial number of the next object, and how often the rest of the program owns the
    object at an address -/
structure Mem where
  cell : Addr → Cell
  next : Nat
  client : Addr → Nat

/-- The serial number of the object in a cell -/
def Cell.serial : Cell → Option Nat
  | .free => none
  | .counted s _ => some s
  | .static s => some s

/-- The object at an address -/
def Mem.obj (m : Mem) (a : Addr) : Option Nat := (m.cell a).serial

/-- DKAlloc at an address that is free, one owner (DKRuntime.c:511-550) -/
def alloc (m : Mem) (a : Addr) : Mem :=
  { m with cell := Function.update m.cell a (.counted m.next 1), next := m.next + 1 }

/-- DKRetain, DKRuntime+RefCount.c:48-68 -/
def retain (m : Mem) (a : Addr) : Option Mem :=
  match m.cell a with
  | .free => none
  | .counted s n => some { m with cell := Function.update m.cell a (.counted s (n + 1)) }
  | .static _ => some m

/-- DKRelease, DKRuntime+RefCount.c:74-119: the last owner frees the object.  (The references the object itself held are those
    of the rest of the program, which may release them at any time.) -/
def release (m : Mem) (a : Addr) : Option Mem :=
  match m.cell a with
  | .free => none
  | .counted _ 0 => none
  | .counted _ 1 => some { m with cell := Function.update m.cell a .free }
  | .counted s (n + 2) => some { m with cell := Function.update m.cell a (.counted s (n + 1)) }
  | .static _ => some m

/-- DKRelease of each object -/
def releaseAll : List Addr → Mem → Option Mem
  | [], m => some m
  | a :: l, m => (release m a).bind (releaseAll l)

/-- The rest of the program has one more reference. -/
def gain (m : Mem) (a : Addr) : Mem := { m with client := Function.update m.client a (m.client a + 1) }

/-- The rest of the program has one reference less. -/
def lose (m : Mem) (a : Addr) : Mem := { m with client := Function.update m.client a (m.client a - 1) }

/-- What the rest of the program does by itself: making an object, at an address the allocator chooses; DKRetain; DKRelease -/
inductive Own
  | new (a : Addr)
  | keep (a : Addr)
  | drop (a : Addr)
deriving DecidableEq, Repr

/-- The effect of that on the memory -/
def own (m : Mem) : Own → Option Mem
  | .new a => some (gain (alloc m a) a)
  | .keep a => (retain m a).map (gain · a)
  | .drop a => (release m a).map (lose · a)

/-! ## The archiver -/

/-- struct DKEggArchiver, DKEgg.c:821-833: the objects of `archivedObjects` (NULL for the anonymous root), and the rows of
    `visitedObjects`, which compares pointers (855-893) -/
structure Arch where
  mem : Mem
  recs : List (Option Addr)
  visited : List (Addr × Nat)

/-- The result of AddObject: an index, or -1 for an object that cannot be archived -/
inductive Added
  | index (i : Nat)
  | error
deriving DecidableEq, Repr

/-- DKEggArchiverInitWithObject, DKEgg.c:927-980: without a root object the first record has no object -/
def newArch (m : Mem) (rootless : Bool) : Arch := ⟨m, if rootless then [none] else [], []⟩

/-- AddObject, DKEgg.c:1229-1269, up to the call of `addToEgg`; which objects implement the Egg interface is a parameter -/
def addObject (egg : Nat → Bool) (s : Arch) (a : Addr) : Option (Arch × Added) :=
  match s.mem.obj a with
  | none => none
  | some n =>
    if egg n = false then some (s, .error)
    else match s.visited.lookup a with
    | some i => some (s, .index i)
    | none => (retain s.mem a).map fun m =>
        (⟨m, s.recs ++ [some a], (a, s.recs.length) :: s.visited⟩, .index s.recs.length)

/-- DKEggArchiverFinalize, DKEgg.c:986-1005 -/
def finishArch (s : Arch) : Option Mem := releaseAll (s.recs.filterMap id) s.mem

/-! ## The unarchiver -/

/-- What DKEggUnarchiverGetClass and DKQueryInterface find for the class named in the archive (DKEgg.c:523-542): no class; a
    class without the Egg interface; a class with it whose objects DKAlloc makes; one for which DKAlloc gives a placeholder that
    is not counted (DKNumber.c:413-429, DKStruct.c:113-123, DKBoolean.c:105-112) -/
inductive Kind
  | unknown
  | plain
  | egg
  | placeholder (p : Addr)
deriving DecidableEq, Repr

/-- struct DKEggUnarchiver, DKEgg.c:125-138: the data object the table pointers point into (`none` if the bytes are its own,
    227-324), `unarchivedObjects`, and the calls of `initWithEgg` that have not finished: their index and object -/
structure Unarch where
  mem : Mem
  source : Option Addr
  slots : List (Option Addr)
  running : List (Nat × Addr)

/-- DKEggUnarchiverInitWithStream, DKEgg.c:227-324: `count` objects, none of them made yet; the bytes are copied -/
def newFromStream (m : Mem) (count : Nat) : Unarch := ⟨m, none, List.replicate count none, []⟩

/-- DKEggUnarchiverInitWithData, DKEgg.c:330-444, of a valid archive in the byte order of the machine: header and tables are
    read where they are, in the data object, which is not retained -/
def newFromData (m : Mem) (data : Addr) (count : Nat) : Unarch := ⟨m, some data, List.replicate count none, []⟩

/-- The bytes of the archive can be read. -/
def readable (s : Unarch) : Bool :=
  match s.source with
  | none => true
  | some d => (s.mem.obj d).isSome

/-- The result of DKEggUnarchiverGetObject: NULL, an object, or not yet known because `initWithEgg` is running -/
inductive Got
  | null
  | object (a : Addr)
  | running
deriving DecidableEq, Repr

/-- DKEggUnarchiverGetObject, DKEgg.c:512-560, for an index without object, up to the call of `initWithEgg`; `a` is the address
    DKAlloc gives -/
def makeObject (s : Unarch) (i : Nat) (a : Addr) : Kind → Option (Unarch × Got)
  | .unknown => some (s, .null)
  | .plain => (release (alloc s.mem a) a).map fun m => ({ s with mem := m }, .null)
  | .egg => some ({ s with mem := alloc s.mem a, slots := s.slots.set i (some a), running := (i, a) :: s.running }, .running)
  | .placeholder p => some ({ s with slots := s.slots.set i (some p), running := (i, p) :: s.running }, .running)

/-- DKEggUnarchiverGetObject, DKEgg.c:512-560 -/
def getObject (kind : Nat → Kind) (s : Unarch) (i : Nat) (a : Addr) : Option (Unarch × Got) :=
  if readable s = false then none
  else match s.slots[i]? with
  | none => some (s, .null)
  | some (some b) => some (s, .object b)
  | some none => makeObject s i a (kind i)

/-- What `initWithEgg` returns: the object it was given; NULL, after it released that; another object, a reference to which it
    hands over, after it released the one it was given -/
inductive Init
  | same
  | null
  | other (b : Addr)
deriving DecidableEq, Repr

/-- The return of the innermost `initWithEgg` and what DKEggUnarchiverGetObject does then (DKEgg.c:552-559) -/
def finishInit (s : Unarch) (r : Init) : Option (Unarch × Got) :=
  match s.running with
  | [] => none
  | (i, a) :: rest =>
    match r with
    | .same => some ({ s with slots := s.slots.set i (some a), running := rest }, .object a)
    | .null => (release s.mem a).map fun m => ({ s with mem := m, slots := s.slots.set i none, running := rest }, .null)
    | .other b => (release s.mem a).map fun m =>
        ({ s with mem := lose m b, slots := s.slots.set i (some b), running := rest }, .object b)

/-- DKEggUnarchiverFinalize, DKEgg.c:159-175; DKRelease of NULL does nothing -/
def finishUnarch (s : Unarch) : Option Mem := releaseAll (s.slots.filterMap id) s.mem

end EggOwn
end Duck
