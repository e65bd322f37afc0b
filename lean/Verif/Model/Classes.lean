/-!
Model of classes and interface tables: Source/DKRuntime.c 439-725, Source/DKRuntime+Interfaces.c 141-697 and
Source/DKRuntime+Reflection.c 264-311.

Classes are numbered in the order of their creation.  Selectors are numbers (they are compared by address); `line` gives the
cache line of each (`sel->cacheline`, any assignment).  Simplified: the hash table of an interface table (keyed by selector,
DKInsertAlways; the table itself is modelled in Model/HashTable.lean) is a list of entries, at most one per selector;
methods are numbers, `none` for DKUninitializedMethodError.
-/
namespace Duck
namespace Rt

/-- DKInterface (DKRuntime.h 418-425): an interface object, its selector and its methods. -/
structure Iface where
  id : Nat
  sel : Nat
  methods : List (Option Nat)
  deriving DecidableEq, Repr

/-- struct DKInterfaceTable (DKRuntime.h 820-826). -/
structure Table where
  cache : Nat → Option Iface
  entries : List Iface

/-- DKStaticCacheSize (DKRuntime.h 308). -/
def staticLines : Nat := 16

/-- Store into a cache line. -/
def setLine (f : Nat → Option Iface) (n : Nat) (v : Option Iface) : Nat → Option Iface := fun m => if m = n then v else f m

/-- DKGenericHashTableFind with a key for `sel`. -/
def Table.look (t : Table) (sel : Nat) : Option Iface := t.entries.find? fun i => i.sel == sel

/-- DKGenericHashTableInsert, DKInsertAlways: replace the entry for the same selector. -/
def Table.put (t : Table) (i : Iface) : Table := { t with entries := i :: t.entries.filter fun j => j.sel != i.sel }

/-- DKInterfaceTableInit (DKRuntime+Interfaces.c 141-167). -/
def Table.init : Option Table → Table
  | none => ⟨fun _ => none, []⟩
  | some p => ⟨fun n => if n < staticLines then p.cache n else none, p.entries⟩

/-- DKInterfaceTableInsert (182-205). -/
def Table.insert (line : Nat → Nat) (t : Table) (i : Iface) : Table := { t with cache := setLine t.cache (line i.sel) (some i) }.put i

/-- The search of the hash table in DKInterfaceTableFind (233-252). -/
def Table.search (line : Nat → Nat) (t : Table) (sel : Nat) : Option Iface × Table :=
  match t.look sel with
  | some e => (some e, { t with cache := setLine t.cache (line sel) (some e) })
  | none => (none, t)

/-- DKInterfaceTableFind (211-252), `none` when the not-found callback is called: what it returns, and the table it leaves. -/
def Table.find (line : Nat → Nat) (t : Table) (sel : Nat) : Option Iface × Table :=
  match t.cache (line sel) with
  | some i => if i.sel = sel then (some i, t) else t.search line sel
  | none => t.search line sel

/-- DKGetStaticInterfaceFastUnsafe (DKRuntime.h 469-479): the cache line, unchecked. -/
def Table.fast (t : Table) (n : Nat) : Option Iface := t.cache n

/-- struct DKClass (DKRuntime.h 832-852), less name and properties.  `init` and `finalize` are function numbers. -/
structure Class where
  super : Option Nat
  init : Option Nat
  finalize : Option Nat
  sealed : Bool       -- DKPreventSubclassing
  abstract : Bool     -- DKAbstractBaseClass
  explicit : Bool     -- DKNoImplicitInitializer
  inst : Table
  cls : Table

abbrev World := List Class

/-- How a call can end other than by returning. -/
inductive Err where
  | fatal     -- DKFatalError or DKRequire: the process aborts
  | crash     -- a NULL class is dereferenced (also: a class number that does not exist)
  deriving DecidableEq, Repr

/-- The options of a new class. -/
structure Opts where
  init : Option Nat
  finalize : Option Nat
  sealed : Bool
  abstract : Bool
  explicit : Bool
  deriving DecidableEq, Repr

/-- DKNewClass (DKRuntime.c 439-470). -/
def newClass (w : World) (super : Option Nat) (o : Opts) : Except Err World :=
  match super with
  | none => .ok (w ++ [⟨none, o.init, o.finalize, o.sealed, o.abstract, o.explicit, Table.init none, Table.init none⟩])
  | some p =>
      match w[p]? with
      | none => .error .crash
      | some c =>
          if c.sealed then .error .fatal
          else .ok (w ++ [⟨some p, o.init, o.finalize, o.sealed, o.abstract, o.explicit, Table.init (some c.inst), Table.init (some c.cls)⟩])

/-- The copying loop of DKInterfaceInheritMethods (DKRuntime+Interfaces.c 351-355). -/
def inherit : List (Option Nat) → List (Option Nat) → List (Option Nat)
  | d :: ds, s :: ss => (if d = none then s else d) :: inherit ds ss
  | ds, _ => ds

/-- DKInterfaceInheritMethods (337-357), with `_class` class `p`. -/
def inheritMethods (line : Nat → Nat) (w : World) (i : Iface) (p : Nat) : Except Err (Iface × World) :=
  match w[p]? with
  | none => .error .crash
  | some c =>
      let w' := w.set p { c with inst := (c.inst.find line i.sel).2 }
      match (c.inst.find line i.sel).1 with
      | none => .ok (i, w')
      | some s => if i.methods.length = s.methods.length then .ok ({ i with methods := inherit i.methods s.methods }, w') else .error .fatal

/-- DKInterfaceTableInsert into the instance table of class `c`; also DKInstallMsgHandler (479-491), whose interface has one method. -/
def installRaw (line : Nat → Nat) (w : World) (c : Nat) (i : Iface) : Except Err World :=
  match w[c]? with
  | none => .error .crash
  | some k => .ok (w.set c { k with inst := k.inst.insert line i })

/-- DKInstallInterface (363-367).  A class without superclass makes DKInterfaceInheritMethods dereference NULL. -/
def install (line : Nat → Nat) (w : World) (c : Nat) (i : Iface) : Except Err World :=
  match w[c]? with
  | none => .error .crash
  | some k =>
      match k.super with
      | none => .error .crash
      | some p => (inheritMethods line w i p).bind fun r => installRaw line r.2 c r.1

/-- DKInstallClassInterface (383-386), DKInstallClassMsgHandler (497-509). -/
def installClass (line : Nat → Nat) (w : World) (c : Nat) (i : Iface) : Except Err World :=
  match w[c]? with
  | none => .error .crash
  | some k => .ok (w.set c { k with cls := k.cls.insert line i })

/-- DKQueryInterface (439-452) on an instance of class `c`: the interface, or NULL. -/
def query (line : Nat → Nat) (w : World) (c sel : Nat) : Except Err (Option Iface × World) :=
  match w[c]? with
  | none => .error .crash
  | some k => .ok ((k.inst.find line sel).1, w.set c { k with inst := (k.inst.find line sel).2 })

/-- DKQueryClassInterface (458-469). -/
def queryClass (line : Nat → Nat) (w : World) (c sel : Nat) : Except Err (Option Iface × World) :=
  match w[c]? with
  | none => .error .crash
  | some k => .ok ((k.cls.find line sel).1, w.set c { k with cls := (k.cls.find line sel).2 })

/-- A call. -/
inductive Op where
  | newClass (super : Option Nat) (o : Opts)
  | install (c : Nat) (i : Iface)
  | installRaw (c : Nat) (i : Iface)
  | installClass (c : Nat) (i : Iface)
  | query (c sel : Nat)
  | queryClass (c sel : Nat)
  deriving DecidableEq, Repr

/-- One call. -/
def step (line : Nat → Nat) (w : World) : Op → Except Err World
  | .newClass p o => newClass w p o
  | .install c i => install line w c i
  | .installRaw c i => installRaw line w c i
  | .installClass c i => installClass line w c i
  | .query c sel => (query line w c sel).map (·.2)
  | .queryClass c sel => (queryClass line w c sel).map (·.2)

/-- A history of calls, most recent first. -/
def run (line : Nat → Nat) (w₀ : World) : List Op → Except Err World
  | [] => .ok w₀
  | op :: h => (run line w₀ h).bind fun w => step line w op

/-! ### Chains of superclasses -/

/-- `for( cls = isa; cls != NULL; cls = cls->superclass )`: the loop of DKFinalize (DKRuntime.c 684-688); the finalizers called,
    in order.  The result is `none` when the loop has not ended (fuel), or leaves the world. -/
def finalizeLoop (w : World) : Nat → Option Nat → Option (List Nat)
  | _, none => some []
  | 0, some _ => none
  | n + 1, some c => (w[c]?).bind fun k => (finalizeLoop w n k.super).map fun l => k.finalize.toList ++ l

/-- DKFinalize (678-690) of an instance of class `c`. -/
def finalize (w : World) (c : Nat) : Option (List Nat) := finalizeLoop w (w.length + 1) (some c)

/-- What DKInit does: calls an initializer, nothing, or DKFatalError. -/
inductive Init where
  | call (f : Nat) | nothing | fatal
  deriving DecidableEq, Repr

/-- The loop of DKInit (628-640) and DKSuperInit (656-668). -/
def initLoop (w : World) : Nat → Option Nat → Option Init
  | _, none => some .nothing
  | 0, some _ => none
  | n + 1, some c => (w[c]?).bind fun k =>
      match k.init with
      | some f => some (.call f)
      | none => if k.explicit then some .fatal else initLoop w n k.super

/-- DKInit (622-644) of an instance of class `c`. -/
def init (w : World) (c : Nat) : Option Init := initLoop w (w.length + 1) (some c)

/-- DKSuperInit (650-672); `superclass` may be NULL. -/
def superInit (w : World) (superclass : Option Nat) : Option Init := initLoop w (w.length + 1) superclass

/-- The loop of DKIsKindOfClass (DKRuntime+Reflection.c 285-289) and DKIsSubclass (303-307); the class looked for may be NULL. -/
def kindLoop (w : World) (target : Option Nat) : Nat → Option Nat → Option Bool
  | _, none => some false
  | 0, some _ => none
  | n + 1, some c => (w[c]?).bind fun k => if target = some c then some true else kindLoop w target n k.super

/-- DKIsKindOfClass (279-293) of an instance of class `c`. -/
def isKindOf (w : World) (c : Nat) (target : Option Nat) : Option Bool := kindLoop w target (w.length + 1) (some c)

/-- DKIsSubclass (299-311). -/
def isSubclass (w : World) (c : Option Nat) (target : Option Nat) : Option Bool := kindLoop w target (w.length + 1) c

/-- DKAllocObject (511-547): may an instance of class `c` be made? -/
def alloc (w : World) (c : Nat) : Except Err Unit :=
  match w[c]? with
  | none => .error .crash
  | some k => if k.abstract then .error .fatal else .ok ()

end Rt
end Duck
