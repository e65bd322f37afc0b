import Verif.Lemmas.Keys
import Verif.Props.HashTable
/-! C117: objects as keys of dictionaries and members of sets. -/
namespace Duck
namespace Compare
open Unicode

variable {mem : Nat → Obj} {t : Number.Ty} {c : Nat}

/-- **C117 (partial).** Two keys of any classes are equal exactly when they have the same value.  Missing: arrays and lists (`C117_list_fails`), numbers of different types
    (`C117_types_fail`) and counts, NaN and zero (`C117_zero_fails`), structures without a semantic (C116), strings with NUL. -/
theorem C117_equal_partial (a b : Obj) (ha : Keyable t c a) (hb : Keyable t c b) (ma : InMemory mem a) (mb : InMemory mem b) :
    ∃ e, equal a b = some e ∧ (e = true ↔ value a = value b) := value_equal a b ha hb ma mb

/-- **C117 (partial).** Keys with the same value have the same hash.  Missing: as above. -/
theorem C117_hash_partial (a b : Obj) (ha : Keyable t c a) (hb : Keyable t c b) (h : value a = value b) : ∃ x, hash a = some x ∧ hash b = some x :=
  value_hash a b ha hb h

/-- Keys at their places in a memory. -/
abbrev Key (mem : Nat → Obj) (t : Number.Ty) (c : Nat) := {o : Obj // Keyable t c o ∧ InMemory mem o}

/-- The hash and the equality that a hash table uses for its keys. -/
def keyHash (a : Key mem t c) : Nat := ((hash a.1).getD 0).toNat
def keyEqual (a b : Key mem t c) : Bool := (equal a.1 b.1).getD false

theorem keyEqual_iff (a b : Key mem t c) : keyEqual a b = true ↔ value a.1 = value b.1 := by
  obtain ⟨e, h1, h2⟩ := value_equal a.1 b.1 a.2.1 b.2.1 a.2.2 b.2.2
  rw [keyEqual, h1]; exact h2

/-- **C117 (partial).** So keys of any mixture of these classes are what a hash table requires (C06): equality is an equivalence, and equal keys hash alike.  Missing: as above. -/
theorem C117_key_class_partial (mem : Nat → Obj) (t : Number.Ty) (c : Nat) : HTable.KeyClass (keyHash (mem := mem) (t := t) (c := c)) keyEqual where
  refl a := (keyEqual_iff a a).mpr rfl
  symm a b h := (keyEqual_iff b a).mpr ((keyEqual_iff a b).mp h).symm
  trans a b d h1 h2 := (keyEqual_iff a d).mpr (((keyEqual_iff a b).mp h1).trans ((keyEqual_iff b d).mp h2))
  hash_eq a b h := by
    obtain ⟨x, h1, h2⟩ := value_hash a.1 b.1 a.2.1 b.2.1 ((keyEqual_iff a b).mp h)
    rw [keyHash, keyHash, h1, h2]

/-- **C117 (partial).** A dictionary with at most ten insertions, any number of other calls, and any mixture of such keys behaves as a finite map from values: an object is found under
    every key with the same value as the one it was inserted with, and no other.  Missing: as above; longer histories are C06 (`C117_dictionary_long_partial`). -/
theorem C117_dictionary_partial {V : Type} (ops : List (HTable.Op (Key mem t c) V)) (h : HTable.insertions ops ≤ 10) :
    ∃ tab outs, HTable.run keyHash keyEqual HTable.init ops = .ok (tab, outs) ∧
      outs = (HTable.specRun (fun a b : Key mem t c => decide (value a.1 = value b.1)) [] ops).2 ∧
      (HTable.entries tab.rows).Perm (HTable.specRun (fun a b : Key mem t c => decide (value a.1 = value b.1)) [] ops).1 := by
  have e : (fun a b : Key mem t c => decide (value a.1 = value b.1)) = keyEqual := by
    funext a b
    rw [Bool.eq_iff_iff, keyEqual_iff, decide_eq_true_iff]
  rw [e]
  exact HTable.C06_map_short (C117_key_class_partial mem t c) ops h

/-- **C117 (partial).** With any number of insertions the same holds as long as the table does not fail (C06, C07).  Missing: as above. -/
theorem C117_dictionary_long_partial {V : Type} (ops : List (HTable.Op (Key mem t c) V)) (tab : HTable.Table (Key mem t c) V) (outs : List (HTable.Out V))
    (h : HTable.run keyHash keyEqual HTable.init ops = .ok (tab, outs)) :
    outs = (HTable.specRun (fun a b : Key mem t c => decide (value a.1 = value b.1)) [] ops).2 ∧
      (HTable.entries tab.rows).Perm (HTable.specRun (fun a b : Key mem t c => decide (value a.1 = value b.1)) [] ops).1 := by
  have e : (fun a b : Key mem t c => decide (value a.1 = value b.1)) = keyEqual := by
    funext a b
    rw [Bool.eq_iff_iff, keyEqual_iff, decide_eq_true_iff]
  rw [e]
  have := HTable.C06_map_partial (C117_key_class_partial mem t c) ops
  rw [h] at this
  exact this

/-! ## A memory with keys of several classes -/

def keyA : Obj := .str 16 [97]
def keyA' : Obj := .str 32 [97]
def keyD : Obj := .data 48 [97]
def keyN : Obj := .num 64 (Number.scalar .i32 97)
def keyP : Obj := .pair 80 keyA keyN
def keyP' : Obj := .pair 96 keyA' keyN
def keys : Nat → Obj
  | 16 => keyA | 32 => keyA' | 48 => keyD | 64 => keyN | 80 => keyP | 96 => keyP'
  | _ => .null

theorem simple_in {o : Obj} (h : o.addr ≠ 0 ∧ keys o.addr = o) (hp : ∀ p a b, o ≠ .pair p a b) (hs : ∀ p s b, o ≠ .struct p s b) (hl : ∀ p l ys, o ≠ .list p l ys) :
    InMemory keys o := fun x hx => by
  cases hx with
  | self => exact .inr h
  | first _ => exact absurd rfl (hp _ _ _)
  | second _ => exact absurd rfl (hp _ _ _)
  | semantic _ => exact absurd rfl (hs _ _ _)
  | item _ _ => exact absurd rfl (hl _ _ _)

theorem pairOf_in {p : Nat} {a b : Obj} (h : p ≠ 0 ∧ keys p = .pair p a b) (ha : InMemory keys a) (hb : InMemory keys b) : InMemory keys (.pair p a b) := fun x hx => by
  cases hx with
  | self => exact .inr h
  | first hx => exact ha x hx
  | second hx => exact hb x hx

theorem keyA_in : InMemory keys keyA := simple_in ⟨by decide, rfl⟩ (fun _ _ _ h => nomatch h) (fun _ _ _ h => nomatch h) (fun _ _ _ h => nomatch h)
theorem keyA'_in : InMemory keys keyA' := simple_in ⟨by decide, rfl⟩ (fun _ _ _ h => nomatch h) (fun _ _ _ h => nomatch h) (fun _ _ _ h => nomatch h)
theorem keyD_in : InMemory keys keyD := simple_in ⟨by decide, rfl⟩ (fun _ _ _ h => nomatch h) (fun _ _ _ h => nomatch h) (fun _ _ _ h => nomatch h)
theorem keyN_in : InMemory keys keyN := simple_in ⟨by decide, rfl⟩ (fun _ _ _ h => nomatch h) (fun _ _ _ h => nomatch h) (fun _ _ _ h => nomatch h)
theorem keyN_ok : Keyable .i32 1 keyN := ⟨rfl, rfl, rfl, fun i hi => ⟨by
  rcases (by omega : i = 0) with rfl
  decide +kernel, .inl rfl⟩⟩

def kA : Key keys .i32 1 := ⟨keyA, by show (0 : UInt8) ∉ [97]; decide, keyA_in⟩
def kA' : Key keys .i32 1 := ⟨keyA', by show (0 : UInt8) ∉ [97]; decide, keyA'_in⟩
def kD : Key keys .i32 1 := ⟨keyD, trivial, keyD_in⟩
def kN : Key keys .i32 1 := ⟨keyN, keyN_ok, keyN_in⟩
def kP : Key keys .i32 1 := ⟨keyP, ⟨kA.2.1, keyN_ok⟩, pairOf_in ⟨by decide, rfl⟩ keyA_in keyN_in⟩
def kP' : Key keys .i32 1 := ⟨keyP', ⟨kA'.2.1, keyN_ok⟩, pairOf_in ⟨by decide, rfl⟩ keyA'_in keyN_in⟩

/-- A string, data with the same bytes, a number and a pair, all but the pair with one hash, are different keys; another string and another pair with the same values find the objects. -/
example : (HTable.run keyHash keyEqual HTable.init [.insert kA 1 .always, .insert kD 2 .always, .insert kN 3 .always, .insert kP 4 .always, .get kA', .get kD, .get kN, .get kP', .count]).map (·.2) =
    .ok [.changed true, .changed true, .changed true, .changed true, .value (some 1), .value (some 2), .value (some 3), .value (some 4), .count 4] := by decide +kernel
example : hash keyA = some 97 ∧ hash keyD = some 97 ∧ hash keyN = some 97 ∧ hash keyP = some 0 := by decide +kernel

/-! ## Refutations -/

/-- **C117 (refuted).** Two arrays, or lists, with the same objects are equal, but at addresses less than 2^64 and 16 bytes or more apart they have different hashes: a dictionary does not
    find the one under the other. -/
theorem C117_list_fails (p q : Nat) (hp : p + 16 ≤ q) (hq : q + 15 < 2 ^ 64) (l : Bool) (xs : List Obj) :
    equal (.list p l xs) (.list q l xs) = some true ∧ hash (.list p l xs) ≠ hash (.list q l xs) := by
  have h1 : p ≠ (Obj.list q l xs).addr := by show p ≠ q; omega
  constructor
  · rw [equal, disp (by simp) h1]
    exact (if_pos rfl).trans (equalItems_self xs)
  · simp only [hash, Copying.pointerHash, ne_eq, Option.some.injEq]
    intro h
    have h2 := congrArg BitVec.toNat h
    rw [BitVec.toNat_ofNat, BitVec.toNat_ofNat, Nat.mod_eq_of_lt (by omega), Nat.mod_eq_of_lt (by omega)] at h2
    omega

example : equal (.list 16 false [keyA]) (.list 64 false [keyA]) = some true ∧ hash (.list 16 false [keyA]) = some 1 ∧ hash (.list 64 false [keyA]) = some 4 := by decide +kernel

/-- **C117 (refuted).** Equality of numbers of different types is not symmetric: the second is converted to the type of the first, so the byte 44 equals 300, but 300 does not equal it. -/
theorem C117_types_fail : equal (.num 16 (Number.scalar .u8 44)) (.num 32 (Number.scalar .i32 300)) = some true ∧
    equal (.num 32 (Number.scalar .i32 300)) (.num 16 (Number.scalar .u8 44)) = some false := by decide +kernel

/-- **C117 (refuted).** Zero and negative zero are equal but have different hashes. -/
theorem C117_zero_fails : equal (.num 16 (Number.scalar .f64 0)) (.num 32 (Number.scalar .f64 0x8000000000000000)) = some true ∧
    hash (.num 16 (Number.scalar .f64 0)) ≠ hash (.num 32 (Number.scalar .f64 0x8000000000000000)) := by decide +kernel

end Compare
end Duck
