import Verif.Spec.Observe
/-! C95: observers, custom getters and setters, Property interfaces. -/
namespace Duck
namespace Observe
open ValueProp (Name Val Kind Definition Obj Call)
open Number (Mem Enc)

theorem lookup_plain (C : Class) (name : Name) : ValueProp.lookup (plain C) name = (lookup C.table name).map (·.d) := by
  simp only [ValueProp.lookup, plain, lookup, List.find?_map]
  rfl

theorem notify_eq (f : Option (Obj → Obj)) (e : Event) (s : St) : notify f e s = ⟨effect f s.obj, s.log ++ told f e⟩ := by
  cases f with
  | none => simp [notify, effect, told]
  | some f => simp [notify, effect, told]

theorem writing_change (p : Property) (f : Obj → Option Obj) (s : St) : writing p (change f) s =
    (f (effect p.hooks.willWrite s.obj)).map fun o =>
      ⟨effect p.hooks.didWrite o, s.log ++ told p.hooks.willWrite .willWrite ++ told p.hooks.didWrite .didWrite⟩ := by
  simp only [writing, access, change, notify_eq]
  cases f (effect p.hooks.willWrite s.obj) <;> rfl

theorem reading_look {α : Type} (p : Property) (f : Obj → Option α) (s : St) : reading p (look f) s =
    (f (effect p.hooks.willRead s.obj)).map fun a =>
      (a, ⟨effect p.hooks.didRead (effect p.hooks.willRead s.obj),
        s.log ++ told p.hooks.willRead .willRead ++ told p.hooks.didRead .didRead⟩) := by
  simp only [reading, access, look, notify_eq]
  cases f (effect p.hooks.willRead s.obj) <;> rfl

theorem untried {k : Kind} {x : Val} (h : tried k x = false) (p : Definition) (hk : p.kind = k) (o : Obj) : ValueProp.writeObject o p x = some o := by
  subst hk
  simp only [ValueProp.writeObject]
  cases hk : p.kind with
  | object slot weak accepts =>
    rw [hk] at h
    simp only [tried] at h
    simp only [ValueProp.writeRef, h, Bool.false_eq_true, if_false]
  | number off enc => rw [hk] at h; cases x <;> simp_all [tried, ValueProp.writeValue]
  | enum off enc e => rw [hk] at h; cases x <;> simp_all [tried, ValueProp.writeValue]
  | struct off size => rw [hk] at h; cases x <;> simp_all [tried]

theorem object_once (C : Class) (p : Property) (name : Name) (hp : lookup C.table name = some p) (hs : p.hooks.setter = none) (s : St)
    (x : Val) : WritesOnce C p name (.object x) s := by
  have hl := lookup_plain C name
  rw [hp] at hl
  simp only [WritesOnce, run, Call.run, setObject, ValueProp.setObject, hp, hl, Option.map_some]
  by_cases hr : p.d.readOnly = true
  · simp [hr]
  · simp only [hr, Bool.false_eq_true, if_false, writeObject, hs]
    by_cases ht : tried p.d.kind x = true
    · right
      rw [if_pos ht, writing_change]
    · left
      rw [if_neg ht]
      exact ⟨untried (by simpa using ht) p.d rfl, rfl⟩

/-- C95: every way of setting a property without custom setter either is refused, without telling anyone and without changing
    anything, or tells willWrite once, then sets the property as without observers, then tells didWrite once. -/
theorem C95_write (C : Class) (p : Property) (name : Name) (hp : lookup C.table name = some p) (hs : p.hooks.setter = none) (s : St)
    (c : Call) : WritesOnce C p name c s := by
  have hl := lookup_plain C name
  rw [hp] at hl
  cases c with
  | object x => exact object_once C p name hp hs s x
  | bool b => exact object_once C p name hp hs s (ValueProp.boolean b)
  | number src se =>
    simp only [WritesOnce, run, Call.run, setNumber, ValueProp.setNumber, hp, hl, Option.map_some]
    by_cases hr : p.d.readOnly = true
    · simp [hr]
    · simp only [hr, Bool.false_eq_true, if_false, writeNumber, hs, Option.isSome_none]
      cases hk : p.d.kind with
      | object slot weak accepts =>
        simp only
        by_cases ha : accepts (.num ⟨se, src⟩) = true
        · right
          rw [if_pos ha, writing_change]
        · left
          rw [if_neg ha]
          exact ⟨fun o => by simp only [ValueProp.writeNew, if_neg ha], rfl⟩
      | number off enc => right; simp only [writing_change]
      | enum off enc e => right; simp only [writing_change]
      | struct off size => right; simp only [writing_change]
  | struct sem src =>
    simp only [WritesOnce, run, Call.run, setStruct, ValueProp.setStruct, hp, hl, Option.map_some]
    by_cases hr : p.d.readOnly = true
    · simp [hr]
    · simp only [hr, Bool.false_eq_true, if_false]
      by_cases hm : ValueProp.semanticOk p.d sem = true
      · simp only [hm, if_true, writeStruct, hs, Option.isSome_none, Bool.false_eq_true, if_false]
        cases hk : p.d.kind with
        | object slot weak accepts =>
          simp only
          by_cases ha : accepts (ValueProp.newStruct sem src) = true
          · right
            rw [if_pos ha, writing_change]
          · left
            rw [if_neg ha]
            exact ⟨fun o => by simp only [ValueProp.writeNew, if_neg ha], rfl⟩
        | number off enc => left; exact ⟨fun _ => rfl, rfl⟩
        | enum off enc e => left; exact ⟨fun _ => rfl, rfl⟩
        | struct off size =>
          simp only
          by_cases he : ValueProp.packedSize size = ValueProp.packedSize src.length
          · right
            simp only [if_pos he, writing_change]
          · left
            simp only [if_neg he]
            exact ⟨fun _ => trivial, trivial⟩
      · left
        simp [hm]

/-- C95: every way of getting a property without custom getter either finds nothing, without telling anyone, or tells willRead
    once, then gets the property as without observers, then tells didRead once. -/
theorem C95_read (C : Class) (p : Property) (name : Name) (hp : lookup C.table name = some p) (hg : p.hooks.getter = none) (s : St) :
    ReadsOnce p s (fun o => ValueProp.getObject (plain C) o name) (getObject C name s) ∧
    (∀ dst de, ReadsOnce p s (fun o => ValueProp.getNumber (plain C) o name dst de) (getNumber C name dst de s)) ∧
    (∀ sem size, ReadsOnce p s (fun o => ValueProp.getStruct (plain C) o name sem size) (getStruct C name sem size s)) := by
  have hl := lookup_plain C name
  rw [hp] at hl
  refine ⟨?_, fun dst de => ?_, fun sem size => ?_⟩
  · simp only [ReadsOnce, getObject, ValueProp.getObject, hp, hl, Option.map_some, readObject, hg]
    by_cases hr : readable p.d = true
    · right
      rw [if_pos hr, reading_look]
    · left
      refine ⟨.null, fun o => ?_, by rw [if_neg hr]⟩
      simp only [readable] at hr
      simp only [ValueProp.readObject]
      cases hk : p.d.kind with
      | struct off size =>
        rw [hk] at hr
        simp only [ValueProp.readStruct]
        cases hm : p.d.semantic with
        | none => rfl
        | some x => rw [hm] at hr; simp at hr
      | _ => rw [hk] at hr; simp at hr
  · right
    simp only [getNumber, ValueProp.getNumber, hp, hl, Option.map_some, readNumber, asObject, hg, Option.isSome_none, Bool.false_or]
    cases hk : p.d.kind with
    | object slot weak accepts =>
      simp only [if_true, unpackNumber, readObject, hg, readable, hk, reading_look, ValueProp.readObject]
      cases (effect p.hooks.willRead s.obj).refs[slot]? <;> simp
    | number off enc => simp only [Bool.false_eq_true, if_false, reading_look]
    | enum off enc e => simp only [Bool.false_eq_true, if_false, reading_look]
    | struct off psize => simp only [Bool.false_eq_true, if_false, reading_look]
  · simp only [ReadsOnce, getStruct, ValueProp.getStruct, hp, hl, Option.map_some]
    by_cases hm : ValueProp.semanticOk p.d sem = true
    · simp only [hm, if_true, readStruct, asObject, hg, Option.isSome_none, Bool.false_or]
      cases hk : p.d.kind with
      | object slot weak accepts =>
        right
        simp only [if_true, readObject, hg, readable, hk, reading_look, ValueProp.readObject]
        cases (effect p.hooks.willRead s.obj).refs[slot]? with
        | none => rfl
        | some x =>
          simp only [Option.map_some, Option.bind_some]
          cases ValueProp.unpackStruct x sem size with
          | none => simp [readBytes, hk]
          | some b => rfl
      | number off enc => left; exact ⟨none, fun _ => rfl, by simp [readBytes, hk]⟩
      | enum off enc e => left; exact ⟨none, fun _ => rfl, by simp [readBytes, hk]⟩
      | struct off psize =>
        simp only [Bool.false_eq_true, if_false, readBytes, hk]
        by_cases he : ValueProp.packedSize psize = ValueProp.packedSize size
        · right
          simp only [if_pos he, reading_look]
        · left
          exact ⟨none, fun _ => by simp [he], by simp [he]⟩
    · left
      exact ⟨none, fun _ => by simp [hm], by simp [hm]⟩

/-! ## A class to try the theorems on -/

def noHooks : Hooks := ⟨none, none, none, none, none, none⟩

/-- Every observer adds a reference to an object of its own. -/
def mark (i : Nat) (o : Obj) : Obj := { o with refs := o.refs ++ [.other i] }

def marking : Hooks := ⟨none, none, some (mark 1), some (mark 2), some (mark 3), some (mark 4)⟩

/-- Properties: a (int16), r (int16, read-only), s (structure "P" of 2 bytes), o (object, numbers only), and the first two bytes of
    the object's header with a getter for a structure "Q". -/
def sample : Class := ⟨[⟨⟨[97], none, false, .number 8 (Number.vec .i16 1)⟩, marking⟩, ⟨⟨[114], none, true, .number 8 (Number.vec .i16 1)⟩, marking⟩,
  ⟨⟨[115], some [80], false, .struct 10 2⟩, marking⟩,
  ⟨⟨[111], none, false, .object 0 false fun x => match x with | .num _ => true | _ => false⟩, marking⟩,
  ⟨⟨[113], none, true, .struct 0 2⟩, { marking with getter := some fun o => (o, .struct (some [81]) [7, 7]) }⟩], none⟩

def fresh : Obj := ⟨[0xAA, 0xBB, 0, 0, 0, 0, 0, 0, 0, 0, 0, 0], [.null]⟩

def outcome (s : Option St) : Option (Mem × List Val × List Event) := s.map fun s => (s.obj.mem, s.obj.refs, s.log)

example : outcome (run sample [97] ⟨fresh, []⟩ (.number [7, 1] (Number.vec .i16 1))) =
    some ([0xAA, 0xBB, 0, 0, 0, 0, 0, 0, 7, 1, 0, 0], [.null, .other 3, .other 4], [.willWrite, .didWrite]) := rfl

example : outcome (run sample [111] ⟨fresh, []⟩ (.object (.str [65]))) = some (fresh.mem, [.null], []) := rfl

/-! ## Refused and missing properties -/

/-- C95: read-only properties, and properties that are not defined in a class without Property interface, are not set in any way, and
    no one is told. -/
theorem C95_refused (C : Class) (name : Name) (s : St) (c : Call) (h : ∀ p, lookup C.table name = some p → p.d.readOnly = true)
    (hi : lookup C.table name = none → C.interface = none) : run C name s c = some s := by
  cases hp : lookup C.table name with
  | none =>
    have hi := hi hp
    cases c <;> simp [run, setObject, setNumber, setStruct, setBool, hp, setMissing, hi]
  | some p =>
    have hr := h p hp
    cases c <;> simp [run, setObject, setNumber, setStruct, setBool, hp, hr]

example : run sample [114] ⟨fresh, []⟩ (.object (.num ⟨Number.vec .i16 1, [1, 0]⟩)) = some ⟨fresh, []⟩ := rfl

/-- C95: in a class with Property interface a property that is not defined is set by the interface, whichever way, with the value as
    an object, once. -/
theorem C95_interface_set (C : Class) (name : Name) (s : St) (c : Call) (i : Interface) (hp : lookup C.table name = none)
    (hi : C.interface = some i) :
    run C name s c = some ⟨i.set s.obj name (boxed c), s.log ++ [.interfaceSet (boxed c)]⟩ := by
  cases c <;> simp [run, setObject, setNumber, setStruct, setBool, hp, setMissing, hi, boxed]

/-- C95: and what it gives is the value, whichever way. -/
theorem C95_interface_get (C : Class) (name : Name) (s : St) (i : Interface) (hp : lookup C.table name = none) (hi : C.interface = some i)
    (o : Obj) (x : Val) (hx : i.get s.obj name = (o, x)) :
    getObject C name s = some (x, ⟨o, s.log ++ [.interfaceGet]⟩) ∧
    (∀ dst de, getNumber C name dst de s = (ValueProp.unpackNumber x dst de).map fun n => (n, ⟨o, s.log ++ [.interfaceGet]⟩)) ∧
    (∀ sem size, getStruct C name sem size s = some (ValueProp.unpackStruct x sem size, ⟨o, s.log ++ [.interfaceGet]⟩)) := by
  refine ⟨?_, fun dst de => ?_, fun sem size => ?_⟩
  · simp [getObject, hp, getMissing, hi, hx]
  · simp [getNumber, hp, getMissing, hi, hx, unpackNumber]
  · simp [getStruct, hp, getMissing, hi, hx]

/-- A class of numbers under any name. -/
example : (getNumber ⟨[], some ⟨fun o _ => (o, .num ⟨Number.vec .i8 1, [5]⟩), fun o _ _ => o⟩⟩ [120] [0, 0] (Number.vec .i16 1) ⟨fresh, []⟩).map
    (fun r => (r.1, r.2.log)) = some ((1, [5, 0]), [.interfaceGet]) := rfl

/-! ## Custom setters and getters -/

/-- C95: a custom setter is given the value, whichever way it is set, once, between the notifications; nothing else is written.
    The predicate of the property is not asked. -/
theorem C95_setter (C : Class) (p : Property) (name : Name) (hp : lookup C.table name = some p) (f : Obj → Val → Obj)
    (hs : p.hooks.setter = some f) (hr : p.d.readOnly = false) (s : St) (c : Call)
    (hm : ∀ sem src, c = .struct sem src → ValueProp.semanticOk p.d sem = true) :
    run C name s c = some ⟨effect p.hooks.didWrite (f (effect p.hooks.willWrite s.obj) (boxed c)),
      s.log ++ told p.hooks.willWrite .willWrite ++ [.setter (boxed c)] ++ told p.hooks.didWrite .didWrite⟩ := by
  have key : ∀ x, writeObject p x s = some ⟨effect p.hooks.didWrite (f (effect p.hooks.willWrite s.obj) x),
      s.log ++ told p.hooks.willWrite .willWrite ++ [.setter x] ++ told p.hooks.didWrite .didWrite⟩ := by
    intro x
    simp only [writeObject, hs, writing, access, notify_eq, Option.map_some]
  cases c with
  | object x => simp only [run, setObject, hp, hr, Bool.false_eq_true, if_false, key, boxed]
  | number src se => simp only [run, setNumber, hp, hr, Bool.false_eq_true, if_false, writeNumber, hs, Option.isSome_some, if_true, key, boxed]
  | struct sem src =>
    simp only [run, setStruct, hp, hr, Bool.false_eq_true, if_false, hm sem src rfl, if_true, writeStruct, hs, Option.isSome_some, key, boxed]
  | bool b => simp only [run, setBool, setObject, hp, hr, Bool.false_eq_true, if_false, key, boxed]

example : outcome (run ⟨[⟨⟨[97], none, false, .object 0 false fun _ => false⟩, { marking with setter := some fun o x => { o with refs := o.refs ++ [x] } }⟩], none⟩
    [97] ⟨fresh, []⟩ (.object (.str [65]))) =
    some (fresh.mem, [.null, .other 3, .str [65], .other 4], [.willWrite, .setter (.str [65]), .didWrite]) := rfl

/-- C95 (partial): a custom getter is asked once, between the notifications, whichever way the property is read, and its answer is the
    value.  Missing: structures, when the answer is not the structure asked for, for which it is false. -/
theorem C95_getter_partial (C : Class) (p : Property) (name : Name) (hp : lookup C.table name = some p) (g : Obj → Obj × Val)
    (hg : p.hooks.getter = some g) (s : St) (o : Obj) (x : Val) (hx : g (effect p.hooks.willRead s.obj) = (o, x)) (s' : St)
    (hs : s' = ⟨effect p.hooks.didRead o, s.log ++ told p.hooks.willRead .willRead ++ [.getter] ++ told p.hooks.didRead .didRead⟩) :
    getObject C name s = some (x, s') ∧
    (∀ dst de, getNumber C name dst de s = (ValueProp.unpackNumber x dst de).map fun n => (n, s')) ∧
    (∀ sem size b, ValueProp.semanticOk p.d sem = true → ValueProp.unpackStruct x sem size = some b →
      getStruct C name sem size s = some (some b, s')) := by
  subst hs
  have key : readObject p s = some (x, ⟨effect p.hooks.didRead o,
      s.log ++ told p.hooks.willRead .willRead ++ [.getter] ++ told p.hooks.didRead .didRead⟩) := by
    simp only [readObject, hg, reading, access, callGetter, notify_eq, hx, Option.map_some]
  refine ⟨?_, fun dst de => ?_, fun sem size b hm hb => ?_⟩
  · simp only [getObject, hp, key]
  · simp only [getNumber, hp, readNumber, asObject, hg, Option.isSome_some, Bool.true_or, if_true, key, unpackNumber, Option.bind_some]
  · simp only [getStruct, hp, hm, if_true, readStruct, asObject, hg, Option.isSome_some, Bool.true_or, key, Option.bind_some, hb]

example : (getStruct sample [113] (some [81]) 2 ⟨fresh, []⟩).map (fun r => (r.1, r.2.log)) =
    some (some [7, 7], [.willRead, .getter, .didRead]) := rfl

/-! ## What is not so -/

/-- The property is false of structures with a custom getter: when the answer is not the structure asked for, the bytes at the offset
    of the property are the value, here the header of the object, and the observers are told twice. -/
theorem C95_struct_getter_fails : (getStruct sample [113] none 2 ⟨fresh, []⟩).map (fun r => (r.1, r.2.log)) =
    some (some [0xAA, 0xBB], [.willRead, .getter, .didRead, .willRead, .didRead]) := rfl

/-- For every getter that answers with anything but the structure asked for, if the property has a size. -/
theorem C95_struct_getter_header_fails (C : Class) (p : Property) (name : Name) (hp : lookup C.table name = some p) (g : Obj → Obj × Val)
    (hg : p.hooks.getter = some g) (size : Nat) (hk : p.d.kind = .struct 0 size) (s : St) (o : Obj) (x : Val)
    (hx : g (effect p.hooks.willRead s.obj) = (o, x)) (sem : Option Name) (hm : ValueProp.semanticOk p.d sem = true)
    (hu : ValueProp.unpackStruct x sem size = none) (o' : Obj) (ho : o' = effect p.hooks.willRead (effect p.hooks.didRead o))
    (hl : size ≤ o'.mem.length) :
    ∃ s', getStruct C name sem size s = some (some (o'.mem.take size), s') := by
  subst ho
  simp only [getStruct, hp, hm, if_true, readStruct, asObject, hg, Option.isSome_some, Bool.true_or, readObject, reading, access, callGetter,
    notify_eq, hx, Option.map_some, Option.bind_some, hu, readBytes, hk, look, Nat.zero_add, if_pos hl]
  simp [ValueProp.bytesAt]

/-- Observers are told of writes that fail: a number for a structure. -/
theorem C95_notified_fails : outcome (run sample [115] ⟨fresh, []⟩ (.object (.num ⟨Number.vec .i8 1, [5]⟩))) =
    some (fresh.mem, [.null, .other 3, .other 4], [.willWrite, .didWrite]) ∧
    (∀ o, Call.run (plain sample) o [115] (.object (.num ⟨Number.vec .i8 1, [5]⟩)) = some o) := ⟨rfl, fun _ => rfl⟩

end Observe
end Duck
