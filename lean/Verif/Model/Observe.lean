import Verif.Model.ValueProp
/-! Model of properties with custom getters and setters, with observers, and of classes with a Property interface
    (Source/DKRuntime+Properties.c 423-633, 672-744, 763-1127), on top of Model/ValueProp.lean.
    Observers, getters and setters are functions on the object; which of them are called, and in which order, is recorded in
    a log.  `none` is undefined behaviour.  Simplified as in Model/ValueProp.lean; observers change nothing but the object, and
    are given the property they are installed for; a number or structure made for a weak property is gone before didWrite is
    called, not after. -/
namespace Duck
namespace Observe
open ValueProp (Name Val Kind Definition Obj)
open Number (Mem Enc)

/-- What was called. -/
inductive Event where
  | willRead
  | didRead
  | willWrite
  | didWrite
  | getter
  | setter (x : Val)
  | interfaceGet
  | interfaceSet (x : Val)

/-- The functions of struct DKProperty (DKRuntime.h 634-642); `none` is NULL. -/
structure Hooks where
  getter : Option (Obj → Obj × Val)
  setter : Option (Obj → Val → Obj)
  willRead : Option (Obj → Obj)
  didRead : Option (Obj → Obj)
  willWrite : Option (Obj → Obj)
  didWrite : Option (Obj → Obj)

structure Property where
  d : Definition
  hooks : Hooks

/-- struct DKPropertyInterface (DKRuntime.h 654-660). -/
structure Interface where
  get : Obj → Name → Obj × Val
  set : Obj → Name → Val → Obj

structure Class where
  table : List Property
  interface : Option Interface

structure St where
  obj : Obj
  log : List Event

/-- DKGetPropertyDefinition (314-333). -/
def lookup (T : List Property) (name : Name) : Option Property := T.find? fun p => p.d.name = name

/-- DKWillReadProperty, DKDidReadProperty, DKWillWriteProperty, DKDidWriteProperty (425-463). -/
def notify (f : Option (Obj → Obj)) (e : Event) (s : St) : St :=
  match f with
  | none => s
  | some f => ⟨f s.obj, s.log ++ [e]⟩

/-- Something between two notifications. -/
def access {α : Type} (will did : Option (Obj → Obj)) (ew ed : Event) (act : St → Option (α × St)) (s : St) : Option (α × St) :=
  (act (notify will ew s)).map fun r => (r.1, notify did ed r.2)

def writing (p : Property) (act : St → Option (Unit × St)) (s : St) : Option St :=
  (access p.hooks.willWrite p.hooks.didWrite .willWrite .didWrite act s).map (·.2)

def reading {α : Type} (p : Property) (act : St → Option (α × St)) (s : St) : Option (α × St) :=
  access p.hooks.willRead p.hooks.didRead .willRead .didRead act s

/-- A change of the object. -/
def change (f : Obj → Option Obj) (s : St) : Option (Unit × St) := (f s.obj).map fun o => ((), { s with obj := o })

/-- A look at the object. -/
def look {α : Type} (f : Obj → Option α) (s : St) : Option (α × St) := (f s.obj).map fun a => (a, s)

/-! ### DKWritePropertyObject (469-554) -/

/-- Whether a write of the object gets as far as the notifications: the object meets the predicate (488-490), it is a string for an
    enumeration (519-525), a number (532-536), or a structure (544-548). -/
def tried (k : Kind) (x : Val) : Bool :=
  match k, x with
  | .object _ _ accepts, x => accepts x
  | .enum _ _ _, .str _ => true
  | _, .num _ => true
  | _, .struct _ _ => true
  | _, _ => false

/-- DKWritePropertyObject (469-554). -/
def writeObject (p : Property) (x : Val) (s : St) : Option St :=
  match p.hooks.setter with
  | some f => writing p (fun s => some ((), ⟨f s.obj x, s.log ++ [.setter x]⟩)) s
  | none => if tried p.d.kind x then writing p (change fun o => ValueProp.writeObject o p.d x) s else some s

/-- A property that is not defined: DKPropertyInterface, if the class has it (679-695, 776-790, 945-959). -/
def setMissing (C : Class) (name : Name) (x : Val) (s : St) : Option St :=
  match C.interface with
  | some i => some ⟨i.set s.obj name x, s.log ++ [.interfaceSet x]⟩
  | none => some s

/-- DKTrySetProperty (672-701), DKSetProperty. -/
def setObject (C : Class) (name : Name) (x : Val) (s : St) : Option St :=
  match lookup C.table name with
  | none => setMissing C name x s
  | some p => if p.d.readOnly then some s else writeObject p x s

/-- 796-817, for a property that can be written. -/
def writeNumber (p : Property) (src : Mem) (se : Enc) (s : St) : Option St :=
  if p.hooks.setter.isSome then writeObject p (.num ⟨se, src⟩) s
  else match p.d.kind with
    | .object slot weak accepts =>
      if accepts (.num ⟨se, src⟩) then writing p (change fun o => ValueProp.writeNew o slot weak accepts (.num ⟨se, src⟩)) s else some s
    | .number off enc => writing p (change fun o => (ValueProp.convertTo o.mem off enc src se).map fun r => { o with mem := r.2 }) s
    | .enum off enc _ => writing p (change fun o => (ValueProp.convertTo o.mem off enc src se).map fun r => { o with mem := r.2 }) s
    | .struct _ _ => writing p (change some) s

/-- DKSetNumberProperty (766-820). -/
def setNumber (C : Class) (name : Name) (src : Mem) (se : Enc) (s : St) : Option St :=
  match lookup C.table name with
  | none => setMissing C name (.num ⟨se, src⟩) s
  | some p => if p.d.readOnly then some s else writeNumber p src se s

/-- 964-980, for a property that can be written. -/
def writeStruct (p : Property) (sem : Option Name) (src : Mem) (s : St) : Option St :=
  if p.hooks.setter.isSome then writeObject p (ValueProp.newStruct sem src) s
  else match p.d.kind with
    | .object slot weak accepts =>
      let x := ValueProp.newStruct sem src
      if accepts x then writing p (change fun o => ValueProp.writeNew o slot weak accepts x) s else some s
    | .struct off size =>
      if ValueProp.packedSize size = ValueProp.packedSize src.length then
        writing p (change fun o => (ValueProp.copyTo o.mem off src).map fun m => { o with mem := m }) s
      else some s
    | _ => some s

/-- DKSetStructProperty (935-981). -/
def setStruct (C : Class) (name : Name) (sem : Option Name) (src : Mem) (s : St) : Option St :=
  match lookup C.table name with
  | none => setMissing C name (ValueProp.newStruct sem src) s
  | some p =>
    if p.d.readOnly then some s else if ValueProp.semanticOk p.d sem then writeStruct p sem src s else some s

/-- DKSetBoolProperty (1098-1101). -/
def setBool (C : Class) (name : Name) (b : Bool) (s : St) : Option St := setObject C name (ValueProp.boolean b) s

/-! ### DKReadPropertyObject (561-633) -/

/-- Only a structure without semantic is not read (622-632). -/
def readable (d : Definition) : Bool :=
  match d.kind with
  | .struct _ _ => d.semantic.isSome
  | _ => true

/-- The getter (566-573). -/
def callGetter (g : Obj → Obj × Val) (s : St) : Option (Val × St) := some ((g s.obj).2, ⟨(g s.obj).1, s.log ++ [.getter]⟩)

/-- DKReadPropertyObject (561-633). -/
def readObject (p : Property) (s : St) : Option (Val × St) :=
  match p.hooks.getter with
  | some g => reading p (callGetter g) s
  | none => if readable p.d then reading p (look fun o => ValueProp.readObject o p.d) s else some (.null, s)

/-- A property that is not defined (727-741). -/
def getMissing (C : Class) (name : Name) (s : St) : Option Val × St :=
  match C.interface with
  | some i => (some (i.get s.obj name).2, ⟨(i.get s.obj name).1, s.log ++ [.interfaceGet]⟩)
  | none => (none, s)

/-- DKTryGetProperty (720-744), DKGetProperty. -/
def getObject (C : Class) (name : Name) (s : St) : Option (Val × St) :=
  match lookup C.table name with
  | none => let r := getMissing C name s; some (r.1.getD .null, r.2)
  | some p => readObject p s

/-- The property is read as an object (882, 1055). -/
def asObject (p : Property) : Bool :=
  p.hooks.getter.isSome || match p.d.kind with | .object _ _ _ => true | _ => false

/-- UnpackNumber (835-851) of what was read. -/
def unpackNumber (r : Option (Val × St)) (dst : Mem) (de : Enc) : Option ((Nat × Mem) × St) :=
  r.bind fun q => (ValueProp.unpackNumber q.1 dst de).map fun n => (n, q.2)

/-- 880-905. -/
def readNumber (p : Property) (dst : Mem) (de : Enc) (s : St) : Option ((Nat × Mem) × St) :=
  if asObject p then unpackNumber (readObject p s) dst de
  else match p.d.kind with
    | .number off enc => reading p (look fun o => Number.convert (ValueProp.bytesAt o.mem off enc.size) enc dst de) s
    | .enum off enc _ => reading p (look fun o => Number.convert (ValueProp.bytesAt o.mem off enc.size) enc dst de) s
    | _ => reading p (look fun _ => some (0, dst)) s

/-- DKGetNumberProperty (853-913). -/
def getNumber (C : Class) (name : Name) (dst : Mem) (de : Enc) (s : St) : Option ((Nat × Mem) × St) :=
  match lookup C.table name with
  | none =>
    match getMissing C name s with
    | (some x, s) => unpackNumber (some (x, s)) dst de
    | (none, s) => some ((0, dst), s)
  | some p => readNumber p dst de s

/-- 1063-1072: the bytes of the object. -/
def readBytes (p : Property) (size : Nat) (s : St) : Option (Option Mem × St) :=
  match p.d.kind with
  | .struct off psize =>
    if ValueProp.packedSize psize = ValueProp.packedSize size then
      reading p (look fun o => if off + size ≤ o.mem.length then some (some (ValueProp.bytesAt o.mem off size)) else none) s
    else some (none, s)
  | _ => some (none, s)

/-- 1055-1072: when the object read is not the structure asked for, the bytes are tried. -/
def readStruct (p : Property) (sem : Option Name) (size : Nat) (s : St) : Option (Option Mem × St) :=
  if asObject p then
    (readObject p s).bind fun r =>
      match ValueProp.unpackStruct r.1 sem size with
      | some b => some (some b, r.2)
      | none => readBytes p size r.2
  else readBytes p size s

/-- DKGetStructProperty (1019-1077): an inner `none` is its 0. -/
def getStruct (C : Class) (name : Name) (sem : Option Name) (size : Nat) (s : St) : Option (Option Mem × St) :=
  match lookup C.table name with
  | none =>
    match getMissing C name s with
    | (some x, s) => some (ValueProp.unpackStruct x sem size, s)
    | (none, s) => some (none, s)
  | some p => if ValueProp.semanticOk p.d sem then readStruct p sem size s else some (none, s)

end Observe
end Duck
