import Verif.Model.Classes
/-! What the class and interface calls are expected to do, in terms of the history of calls. -/
namespace Duck
namespace Rt

/-- The worlds a program starts from: the root classes, before the first lookup; a superclass comes before its subclasses. -/
structure Start (w : World) : Prop where
  noCache : ∀ k ∈ w, (∀ n, k.inst.cache n = none) ∧ ∀ n, k.cls.cache n = none
  order : ∀ (c : Nat) (k : Class) (p : Nat), w[c]? = some k → k.super = some p → p < c

/-- How many classes there are after a history. -/
def classes (w₀ : World) : List Op → Nat
  | [] => w₀.length
  | .newClass _ _ :: h => classes w₀ h + 1
  | _ :: h => classes w₀ h

/-- The superclass of a class. -/
def superOf (w₀ : World) (c : Nat) : List Op → Option Nat
  | [] => (w₀[c]?).bind (·.super)
  | .newClass p _ :: h => if c = classes w₀ h then p else superOf w₀ c h
  | _ :: h => superOf w₀ c h

/-- An interface with its unset methods filled from another one. -/
def filled (i : Iface) : Option Iface → Iface
  | none => i
  | some s => { i with methods := (i.methods.zip s.methods).map fun m => if m.1 = none then m.2 else m.1 }

/-- The interface that instances of class `c` have for `sel` after a history (most recent call first): the one most recently
    installed on the class (with its unset methods filled from the superclass's, at that time); failing that, the one the
    superclass had when the class was created; failing that, what the class had at the start. -/
def current (w₀ : World) : List Op → Nat → Nat → Option Iface
  | [], c, sel => (w₀[c]?).bind fun k => k.inst.entries.find? fun i => i.sel == sel
  | .install c' i :: h, c, sel =>
      if c' = c ∧ i.sel = sel then some (filled i ((superOf w₀ c h).bind fun p => current w₀ h p sel)) else current w₀ h c sel
  | .installRaw c' i :: h, c, sel => if c' = c ∧ i.sel = sel then some i else current w₀ h c sel
  | .newClass p _ :: h, c, sel => if c = classes w₀ h then p.bind fun p => current w₀ h p sel else current w₀ h c sel
  | _ :: h, c, sel => current w₀ h c sel

/-- The same for class interfaces. -/
def currentClass (w₀ : World) : List Op → Nat → Nat → Option Iface
  | [], c, sel => (w₀[c]?).bind fun k => k.cls.entries.find? fun i => i.sel == sel
  | .installClass c' i :: h, c, sel => if c' = c ∧ i.sel = sel then some i else currentClass w₀ h c sel
  | .newClass p _ :: h, c, sel => if c = classes w₀ h then p.bind fun p => currentClass w₀ h p sel else currentClass w₀ h c sel
  | _ :: h, c, sel => currentClass w₀ h c sel

/-- What was said of a class when it was created: its superclass and options. -/
def Class.told (k : Class) : Option Nat × Opts := (k.super, ⟨k.init, k.finalize, k.sealed, k.abstract, k.explicit⟩)

/-- What the history says of each class. -/
def told (w₀ : World) : List Op → List (Option Nat × Opts)
  | [] => w₀.map Class.told
  | .newClass p o :: h => told w₀ h ++ [(p, o)]
  | _ :: h => told w₀ h

/-- `Chain w c l`: `l` is class `c`, its superclass, and so on up to a class without superclass. -/
inductive Chain (w : World) : Nat → List Class → Prop where
  | root {c : Nat} {k : Class} : w[c]? = some k → k.super = none → Chain w c [k]
  | cons {c p : Nat} {k : Class} {l : List Class} : w[c]? = some k → k.super = some p → Chain w p l → Chain w c (k :: l)

/-- `Ancestor w c d`: `d` is `c` or an ancestor of `c`. -/
inductive Ancestor (w : World) : Nat → Nat → Prop where
  | refl {c : Nat} {k : Class} : w[c]? = some k → Ancestor w c c
  | up {c p d : Nat} {k : Class} : w[c]? = some k → k.super = some p → Ancestor w p d → Ancestor w c d

/-- The initializer a chain of classes calls: that of the first class having one, unless a class before it forbids leaving it out. -/
def firstInit : List Class → Init
  | [] => .nothing
  | k :: l => match k.init with | some f => .call f | none => if k.explicit then .fatal else firstInit l

/-- Every interface ever installed (or there at the start) on cache line `n` of an instance table is for selector `s`. -/
def OnlyOn (line : Nat → Nat) (n s : Nat) (h : List Op) : Prop :=
  (∀ c i, Op.install c i ∈ h → line i.sel = n → i.sel = s) ∧ ∀ c i, Op.installRaw c i ∈ h → line i.sel = n → i.sel = s

end Rt
end Duck
