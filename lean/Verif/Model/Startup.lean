import Verif.Model.Names
import Verif.Model.Accessors
/-!
# Model of the start of the runtime (Source/DKRuntime.c 276-429, DKRuntime+Symbols.c 73-129)

DKRuntimeInit, statement by statement, over the name databases of `Names` and the accessors of `Accessors`.  The root classes and the static selectors are static
variables.  A name is a constant string, so that giving one creates the class of constant strings (DKString.c 2678).  Using a root class before InitRootClass has filled it, or a name database before
DKNameDatabaseInit, calls NULL function pointers: a crash.  Not modelled: the interface tables of the root classes (C20, C58), the spin locks of the accessors and databases (C53, C88, C118), reference counts.
-/
namespace Duck
namespace Startup
open Nested (Accessor)
open Enum (Name Key)

/-- The root classes (DKRuntime.c 64-71). -/
inductive Root where
  | DKRootClass | DKClassClass | DKSelectorClass | DKInterfaceClass | DKMsgHandlerClass | DKMetadataClass | DKObjectClass | DKZombieClass
deriving DecidableEq, Repr

/-- The static selectors (DKRuntime.c 148-156). -/
inductive Static where
  | Allocation | Comparison | Copying | Description | Locking | Buffer | Stream | Egg | Conversion
deriving DecidableEq, Repr

/-- A class or selector: a static variable, or made by its accessor. -/
inductive Obj (S : Type) where
  | static (s : S)
  | made (a : Accessor)
deriving DecidableEq, Repr

/-- The static variables. -/
structure State where
  /-- _DKRuntimeIsInitialized (DKRuntime.c 278) -/
  flag : Bool
  /-- _DKRuntimeEnableZombieObjects (279) -/
  zombies : Bool
  /-- DKThreadContextKeyInitialized (DKThread.c 198-200) -/
  key : Bool
  /-- the root classes that InitRootClass has filled -/
  roots : List Root
  /-- ClassNameDatabase (DKRuntime+Reflection.c 46), `none` before DKNameDatabaseInit; `classIds[i]` is the i-th class inserted -/
  classes : Option Names.State
  classIds : List (Obj Root)
  /-- SelectorNameDatabase (49) -/
  selectors : Option Names.State
  selectorIds : List (Obj Static)
  /-- the accessors whose object exists -/
  created : List Accessor
  /-- the thread object of the main thread exists (DKThread.c 324-342) -/
  thread : Bool
  /-- DKMetadataTableInit was called (DKRuntime+Metadata.c 90-103) -/
  metadata : Bool

/-- Before main. -/
def fresh : State := ⟨false, false, false, [], none, [], none, [], [], false, false⟩

/-- The bytes of a name. -/
def bytes (s : String) : Name := s.toList.map fun c => UInt8.ofNat c.toNat

/-- What an accessor makes. -/
inductive Kind where
  /-- DKNewClass with this name, NULL for DKString and DKConstantString (DKString.c 103, 192) -/
  | class (name : Option String)
  /-- DKAllocSelector (DKRuntime.h 360-381) -/
  | selector (name : String)
  /-- a table or message handler -/
  | other
deriving DecidableEq, Repr

/-- The names of the classes are those of the calls of DKNewClass, at the lines cited in `Accessor` (DKHashTable.c 184 has a small h). -/
def kind : Accessor → Kind
  | .DKArrayClass => .class "DKArray"
  | .DKMutableArrayClass => .class "DKMutableArray"
  | .DKBinaryTreeClass => .class "DKBinaryTree"
  | .DKMutableBinaryTreeClass => .class "DKMutableBinaryTree"
  | .DKBitListClass => .class "DKBitList"
  | .DKBooleanClass => .class "DKBoolean"
  | .selCollection => .selector "Collection"
  | .selKeyedCollection => .selector "KeyedCollection"
  | .DKConditionClass => .class "DKCondition"
  | .DKDataClass => .class "DKData"
  | .DKMutableDataClass => .class "DKMutableData"
  | .selDictionary => .selector "Dictionary"
  | .DKEggUnarchiverClass => .class "DKEggUnarchiver"
  | .DKEggArchiverClass => .class "DKEggArchiver"
  | .DKEnumClass => .class "DKEnum"
  | .DKFileClass => .class "DKFile"
  | .DKGraphEdgeClass => .class "DKGraphEdge"
  | .DKGraphNodeClass => .class "DKGraphNode"
  | .DKGraphClass => .class "DKGraph"
  | .DKHashTableClass => .class "DKHashTable"
  | .DKMutableHashTableClass => .class "DKMutablehashTable"
  | .DKLinkedListClass => .class "DKLinkedList"
  | .DKMutableLinkedListClass => .class "DKMutableLinkedList"
  | .selList => .selector "List"
  | .DKMutexClass => .class "DKMutex"
  | .DKNumberClass => .class "DKNumber"
  | .DKVariableNumberClass => .class "DKVariableNumber"
  | .DKPairClass => .class "DKPair"
  | .DKPredicateClass => .class "DKPredicate"
  | .PredicateOpInfoTable => .other
  | .PredicateOpLookupTable => .other
  | .DKReadWriteLockClass => .class "DKReadWriteLock"
  | .selDKDynamicMsgHandler => .selector "DKDynamicMsgHandler"
  | .selDKRespondsToDynamicMsg => .selector "DKRespondsToDynamicMsg"
  | .selMsgHandlerNotFound => .selector "MsgHandlerNotFound"
  | .DKMsgHandlerNotFound => .other
  | .DKPropertyClass => .class "DKProperty"
  | .selProperty => .selector "Property"
  | .DKSemaphoreClass => .class "DKSemaphore"
  | .selSet => .selector "Set"
  | .DKShellEncoderClass => .class "DKShellEncoder"
  | .DKShellEncoders => .other
  | .DKStringClass => .class none
  | .DKConstantStringClass => .class none
  | .DKMutableStringClass => .class "DKMutableString"
  | .DKStringURLPercentEscapePatterns => .other
  | .DKStructClass => .class "DKStruct"
  | .DKThreadClass => .class "DKThread"
  | .DKThreadPoolClass => .class "DKThreadPool"
  | .DKXMLElementClass => .class "DKXMLElement"

/-- All root classes are usable: DKNewClass and DKAllocSelector allocate instances of two of them, subclasses of a third, and interfaces. -/
def usable (s : State) : Bool :=
  [.DKRootClass, .DKClassClass, .DKSelectorClass, .DKInterfaceClass, .DKMsgHandlerClass, .DKMetadataClass, .DKObjectClass, .DKZombieClass].all fun r => s.roots.contains r

/-- DKNameDatabaseInsertClass (DKRuntime+Reflection.c 122-137). -/
def insertClass (s : State) (c : Obj Root) (name : String) : Except Names.Error State :=
  match s.classes with
  | none => .error .crash
  | some db => (Names.create db (some (bytes name))).map fun r => { s with classes := some r.1, classIds := s.classIds ++ [c] }

/-- DKNameDatabaseInsertSelector (154-169). -/
def insertSelector (s : State) (c : Obj Static) (name : String) : Except Names.Error State :=
  match s.selectors with
  | none => .error .crash
  | some db => (Names.create db (some (bytes name))).map fun r => { s with selectors := some r.1, selectorIds := s.selectorIds ++ [c] }

/-- What `_Create` of an accessor does with the databases (DKRuntime.c 439-470, DKRuntime+Interfaces.c 265-281). -/
def make (s : State) (a : Accessor) : Except Names.Error State :=
  if usable s then
    match kind a with
    | .class none => .ok s
    | .class (some n) => insertClass s (.made a) n
    | .selector n => insertSelector s (.made a) n
    | .other => .ok s
  else .error .crash

/-- A call of an accessor: DKThreadSafeSharedObjectInit (DKRuntime.h 220-233), in one thread.  `_Create` calls other accessors first or, for the selectors of the interfaces it installs, later: they
    go to the other database.  The first argument bounds the nesting, 6 is enough (`C118_library`). -/
def touch : Nat → State → Accessor → Except Names.Error State
  | 0, _, _ => .error .illegal
  | d + 1, s, a =>
    if s.created.contains a then .ok s
    else ((Nested.needs a).foldlM (touch d) s).bind fun s => (make s a).map fun s => { s with created := a :: s.created }

/-- DKSTR( … ) (DKString.c 2678). -/
def string (s : State) : Except Names.Error State := touch 6 s .DKConstantStringClass

/-- A statement of DKRuntimeInit. -/
inductive Step where
  /-- DKMainThreadContextInit (DKRuntime.c 375) -/
  | mainThread
  /-- InitRootClass (378-385) -/
  | initRoot (r : Root)
  /-- DKNameDatabaseInit (396) -/
  | nameDatabase
  /-- SetRootClassName (399-406) -/
  | nameRoot (r : Root) (name : String)
  /-- SetStaticSelectorName (408-415) -/
  | nameSelector (x : Static) (name : String)
  /-- SetRootClassName of DKString and DKConstantString (417-418) -/
  | nameMade (a : Accessor) (name : String)
  /-- DKThreadGetCurrentThread (421) -/
  | thread
  /-- DKMetadataTableInit (424) -/
  | metadata
  /-- an accessor called by DKRuntimeInitSymbols (427); the static selectors need nothing -/
  | symbol (a : Accessor)
deriving DecidableEq, Repr

def exec (s : State) : Step → Except Names.Error State
  | .mainThread => if s.key then .error .fatal else .ok { s with key := true }
  | .initRoot r => .ok { s with roots := r :: s.roots }
  | .nameDatabase => .ok { s with classes := some Names.init, selectors := some Names.init }
  | .nameRoot r n => (string s).bind fun s => insertClass s (.static r) n
  | .nameSelector x n => (string s).bind fun s => insertSelector s (.static x) n
  | .nameMade a n => (touch 6 s a).bind fun s => (string s).bind fun s => insertClass s (.made a) n
  | .thread => if s.key then (touch 6 s .DKThreadClass).map fun s => { s with thread := true } else .error .crash
  | .metadata => .ok { s with metadata := true }
  | .symbol a => touch 6 s a

/-- The body of DKRuntimeInit (375-427) after the flag is set; the symbols are those of DKRuntime+Symbols.c 83-128, the static selectors left out. -/
def body : List Step :=
  [.mainThread,
   .initRoot .DKRootClass, .initRoot .DKClassClass, .initRoot .DKSelectorClass, .initRoot .DKInterfaceClass, .initRoot .DKMsgHandlerClass, .initRoot .DKMetadataClass, .initRoot .DKObjectClass,
   .initRoot .DKZombieClass,
   .nameDatabase,
   .nameRoot .DKRootClass "DKRootClass", .nameRoot .DKClassClass "DKClass", .nameRoot .DKSelectorClass "DKSelector", .nameRoot .DKInterfaceClass "DKInterface",
   .nameRoot .DKMsgHandlerClass "DKMsgHandler", .nameRoot .DKObjectClass "DKObject", .nameRoot .DKMetadataClass "DKMetadata", .nameRoot .DKZombieClass "DKZombie",
   .nameSelector .Allocation "Allocation", .nameSelector .Comparison "Comparison", .nameSelector .Copying "Copying", .nameSelector .Conversion "Conversion",
   .nameSelector .Description "Description", .nameSelector .Buffer "Buffer", .nameSelector .Stream "Stream", .nameSelector .Egg "Egg",
   .nameMade .DKStringClass "DKString", .nameMade .DKConstantStringClass "DKConstantString",
   .thread, .metadata,
   .symbol .DKArrayClass, .symbol .DKMutableArrayClass, .symbol .DKBinaryTreeClass, .symbol .DKMutableBinaryTreeClass, .symbol .selCollection, .symbol .selKeyedCollection,
   .symbol .selDictionary, .symbol .DKHashTableClass, .symbol .DKMutableHashTableClass, .symbol .DKGraphClass, .symbol .DKGraphEdgeClass, .symbol .DKLinkedListClass,
   .symbol .DKMutableLinkedListClass, .symbol .selList, .symbol .selSet,
   .symbol .DKBooleanClass, .symbol .DKDataClass, .symbol .DKMutableDataClass, .symbol .DKNumberClass, .symbol .DKPairClass, .symbol .DKStringClass, .symbol .DKConstantStringClass,
   .symbol .DKMutableStringClass, .symbol .DKStructClass,
   .symbol .DKThreadClass, .symbol .DKThreadPoolClass, .symbol .DKMutexClass, .symbol .DKConditionClass, .symbol .DKReadWriteLockClass, .symbol .DKSemaphoreClass,
   .symbol .DKEggArchiverClass, .symbol .DKEggUnarchiverClass, .symbol .DKEnumClass, .symbol .DKFileClass, .symbol .DKPredicateClass]

/-- 371-372. -/
def begin (s : State) (options : BitVec 32) : State := { s with flag := true, zombies := options &&& 1 != 0 }

/-- DKRuntimeInit (367-429). -/
def runtimeInit (s : State) (options : BitVec 32) : Except Names.Error State :=
  if s.flag then .ok s else body.foldlM exec (begin s options)

/-- DKRootClass, DKClassClass, … (DKRuntime.c 74-120): DKRequire. -/
def rootClass (s : State) (r : Root) : Except Names.Error Root := if s.flag then .ok r else .error .fatal

/-- The object of a row. -/
def nth {α : Type} (l : List α) : Option Nat → Option α
  | none => none
  | some i => l[i]?

/-- DKClassFromString (DKRuntime+Reflection.c 328-351). -/
def classFromString (s : State) (name : Key) : Except Names.Error (Option (Obj Root)) :=
  match name, s.classes with
  | none, _ => .ok none
  | some _, none => .error .crash
  | some n, some db => (Names.fromString db (some n)).map (nth s.classIds)

/-- DKSelectorFromString (387-409). -/
def selectorFromString (s : State) (name : Key) : Except Names.Error (Option (Obj Static)) :=
  match name, s.selectors with
  | none, _ => .ok none
  | some _, none => .error .crash
  | some n, some db => (Names.fromString db (some n)).map (nth s.selectorIds)

/-- The name of the i-th object named. -/
def nameAt (db : Option Names.State) : Option Nat → Key
  | none => none
  | some i => ((db.bind fun d => Names.nameOf d i).getD none)

/-- DKStringFromClass (316-322) of a class that exists: NULL if it has no name. -/
def stringFromClass (s : State) (c : Obj Root) : Key := nameAt s.classes (s.classIds.findIdx? (· == c))

/-- DKStringFromSelector (375-381). -/
def stringFromSelector (s : State) (x : Obj Static) : Key := nameAt s.selectors (s.selectorIds.findIdx? (· == x))

/-- Where a thread is in its call of DKRuntimeInit (DKRuntime.c 367-429). -/
inductive Pc where
  /-- 369 -/
  | test
  /-- 371-372 -/
  | set
  /-- these statements are left -/
  | run (rest : List Step)
  /-- it has returned -/
  | done
deriving DecidableEq, Repr

/-- Threads that call DKRuntimeInit with these options. -/
structure Par where
  state : State
  threads : List (BitVec 32 × Pc)

def goto (s : State) (l : List (BitVec 32 × Pc)) (i : Nat) (o : BitVec 32) (pc : Pc) : Par := ⟨s, l.set i (o, pc)⟩

/-- Thread `i` executes its next statement.  The body of the `if` does not lock anything. -/
def threadStep (p : Par) (i : Nat) : Except Names.Error Par :=
  match p.threads[i]? with
  | none => .error .illegal
  | some (o, .test) => .ok (goto p.state p.threads i o (if p.state.flag then .done else .set))
  | some (o, .set) => .ok (goto (begin p.state o) p.threads i o (.run body))
  | some (o, .run []) => .ok (goto p.state p.threads i o .done)
  | some (o, .run (x :: rest)) => (exec p.state x).map fun s => goto s p.threads i o (.run rest)
  | some (_, .done) => .error .illegal

/-- A schedule. -/
def threadRun (p : Par) (is : List Nat) : Except Names.Error Par := is.foldlM threadStep p

/-- The class of a class object: InitRootClass (DKRuntime.c 322), DKNewClass (451). -/
def isa : Obj Root → Root
  | .static _ => .DKRootClass
  | .made _ => .DKClassClass

/-- The superclass of a class (DKRuntime.c 378-385; the second argument of DKNewClass, at the lines cited in `Accessor`). -/
def superclass : Obj Root → Option (Obj Root)
  | .static .DKMsgHandlerClass => some (.static .DKInterfaceClass)
  | .static _ => none
  | .made .DKMutableArrayClass => some (.made .DKArrayClass)
  | .made .DKMutableBinaryTreeClass => some (.made .DKBinaryTreeClass)
  | .made .DKBooleanClass => some (.made .DKNumberClass)
  | .made .DKMutableDataClass => some (.made .DKDataClass)
  | .made .DKMutableHashTableClass => some (.made .DKHashTableClass)
  | .made .DKMutableLinkedListClass => some (.made .DKLinkedListClass)
  | .made .DKVariableNumberClass => some (.made .DKNumberClass)
  | .made .DKConstantStringClass => some (.made .DKStringClass)
  | .made .DKMutableStringClass => some (.made .DKStringClass)
  | .made _ => some (.static .DKObjectClass)

/-- The loop of DKIsSubclass (DKRuntime+Reflection.c 302-306) and DKIsKindOfClass (282-286), with a bound on the number of superclasses: 4 is enough. -/
def isSubclass : Nat → Option (Obj Root) → Obj Root → Bool
  | 0, _, _ => false
  | _ + 1, none, _ => false
  | d + 1, some c, x => c == x || isSubclass d (superclass c) x

/-- EvaluateISA (DKPredicate.c 570-582) for an instance of class `c` and a class `d`. -/
def evaluateISA (c d : Obj Root) : Bool := if isSubclass 4 (some (.static (isa d))) (.static .DKClassClass) then isSubclass 4 (some c) d else false

end Startup
end Duck
