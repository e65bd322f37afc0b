import Verif.Lemmas.Compare
import Verif.Props.ArrayOps
/-! C116: the order and the equality of objects. -/
namespace Duck
namespace Compare
open Unicode

variable {mem : Nat → Obj}

/-- **C116 (partial).** Any two objects of one kind can be compared, however deep pairs and lists are nested: the result is positive exactly when the first is
    before the second, negative exactly when it is after it, and zero exactly when they have the same value.  Missing: objects of different kinds
    (`C116_mixed_fails`, `C116_number_fails`, `C116_classes_fails`), lists of different lengths (C28), strings with bytes that are not text. -/
theorem C116_meaning_partial (k : Kind) (a b : Obj) (ha : HasKind k a) (hb : HasKind k b) (ma : InMemory mem a) (mb : InMemory mem b) :
    ∃ c, compare a b = some c ∧ (0 < c ↔ Before k a b) ∧ (c = 0 ↔ Same k a b) ∧ (c < 0 ↔ Before k b a) := by
  obtain ⟨h1, h2⟩ := means k a b ⟨ha, ma⟩ ⟨hb, mb⟩
  exact ⟨_, h1, h2⟩

/-- **C116 (partial).** On the objects of one kind the comparison is a total preorder, and so is the reverse one.  This is what sorting (C03) and ordered trees (C08)
    require of it.  Missing: as above. -/
theorem C116_order_partial (mem : Nat → Obj) (k : Kind) :
    Spec.TotalPreorder (fun a b : {o // HasKind k o ∧ InMemory mem o} => (compare a.1 b.1).getD 0) ∧
    Spec.TotalPreorder (fun a b : {o // HasKind k o ∧ InMemory mem o} => (reverseCompare a.1 b.1).getD 0) := by
  have l := laws (mem := mem) k
  refine ⟨⟨fun a b => l.anti _ _ a.2 b.2, fun a b c => l.trans _ _ _ a.2 b.2 c.2⟩, ?_⟩
  have e : ∀ a b : {o // HasKind k o ∧ InMemory mem o}, (reverseCompare a.1 b.1).getD 0 = -cmpI a.1 b.1 := fun a b => by
    rw [reverseCompare, (means k a.1 b.1 a.2 b.2).1]; rfl
  refine ⟨fun a b => ?_, fun a b c => ?_⟩
  · have := l.anti b.1 a.1 b.2 a.2
    rw [e, e]; omega
  · have h1 := l.anti b.1 a.1 b.2 a.2
    have h2 := l.anti c.1 b.1 c.2 b.2
    have h3 := l.anti c.1 a.1 c.2 a.2
    have h4 := l.anti a.1 b.1 a.2 b.2
    have h5 := l.anti b.1 c.1 b.2 c.2
    have h6 := l.anti a.1 c.1 a.2 c.2
    have h7 := l.trans c.1 b.1 a.1 c.2 b.2 a.2
    rw [e, e, e]; omega

/-- **C116 (partial).** Sorting an array of objects of one kind yields a permutation in which no object is before an earlier one; sorting it with the reverse
    comparison one in which no object is after an earlier one.  Missing: as above. -/
theorem C116_sort_partial (k : Kind) (xs : List {o // HasKind k o ∧ InMemory mem o}) :
    (∃ ys, ArrayOps.sortObjects (fun a b => (compare a.1 b.1).getD 0) (xs.length + 1) xs = some ys ∧ ys.Perm xs ∧ ys.Pairwise fun a b => ¬ Before k b.1 a.1) ∧
    (∃ ys, ArrayOps.sortObjects (fun a b => (reverseCompare a.1 b.1).getD 0) (xs.length + 1) xs = some ys ∧ ys.Perm xs ∧ ys.Pairwise fun a b => ¬ Before k a.1 b.1) := by
  have l := laws (mem := mem) k
  obtain ⟨ys, h1, h2, h3⟩ := ArrayOps.C03_sort _ (C116_order_partial mem k).1 xs (xs.length + 1) (by omega)
  obtain ⟨zs, g1, g2, g3⟩ := ArrayOps.C03_sort _ (C116_order_partial mem k).2 xs (xs.length + 1) (by omega)
  refine ⟨⟨ys, h1, h2, h3.imp fun {a b} h => ?_⟩, ⟨zs, g1, g2, g3.imp fun {a b} h => ?_⟩⟩
  · rw [← (means k a.1 b.1 a.2 b.2).2.2.2]
    exact fun h' => absurd h' (Int.not_lt.mpr h)
  · rw [← (means k a.1 b.1 a.2 b.2).2.1]
    have h' : 0 ≤ (reverseCompare a.1 b.1).getD 0 := h
    rw [reverseCompare, (means k a.1 b.1 a.2 b.2).1, Option.map_some, Option.getD_some] at h'
    omega

/-- **C116 (partial).** Two objects of one kind are equal exactly when they have the same value, and exactly when the comparison is zero.  Missing: structures without
    a semantic (`C116_struct_fails`). -/
theorem C116_equal_partial (k : Kind) (hk : k.Named) (a b : Obj) (ha : HasKind k a) (hb : HasKind k b) (ma : InMemory mem a) (mb : InMemory mem b) :
    ∃ e, equal a b = some e ∧ (e = true ↔ Same k a b) ∧ (e = true ↔ compare a b = some 0) := by
  obtain ⟨e, h1, h2⟩ := equal_means k a b hk ⟨ha, ma⟩ ⟨hb, mb⟩
  obtain ⟨h3, -, h4, -⟩ := means k a b ⟨ha, ma⟩ ⟨hb, mb⟩
  refine ⟨e, h1, h2, ?_⟩
  rw [h2, h3, ← h4]
  simp

/-- **C116.** Every object equals itself and compares as zero with itself, whatever it is. -/
theorem C116_self (a : Obj) : equal a a = some true ∧ compare a a = some 0 := ⟨equal_self a, compare_self a⟩

/-! ## A memory with pairs of a string and an array of numbers -/

def one : Obj := .num 10 ⟨Number.vec .f64 1, Number.leBytes 8 0x3ff0000000000000⟩
def two : Obj := .num 11 ⟨Number.vec .f64 1, Number.leBytes 8 0x4000000000000000⟩
def name : Obj := .str 20 (utf8 ['d', 'é'])
def name' : Obj := .str 21 (utf8 ['d', 'é'])
def low : Obj := .pair 30 name (.list 40 false [one, two])
def high : Obj := .pair 31 name' (.list 41 false [two, one])
def pairKind : Kind := .pair .text (.list false (.number .f64 1) 2)
def memory : Nat → Obj
  | 10 => one | 11 => two | 20 => name | 21 => name' | 30 => low | 31 => high | 40 => .list 40 false [one, two] | 41 => .list 41 false [two, one]
  | _ => .null

theorem leaf_part {x o : Obj} (h : Part x o) (hp : ∀ p a b, o ≠ .pair p a b) (hs : ∀ p s b, o ≠ .struct p s b) (hl : ∀ p l ys, o ≠ .list p l ys) : x = o := by
  cases h with
  | self => rfl
  | first _ => exact absurd rfl (hp _ _ _)
  | second _ => exact absurd rfl (hp _ _ _)
  | semantic _ => exact absurd rfl (hs _ _ _)
  | item _ _ => exact absurd rfl (hl _ _ _)

theorem leaf_in {o : Obj} (h : o.addr ≠ 0 ∧ mem o.addr = o) (hp : ∀ p a b, o ≠ .pair p a b) (hs : ∀ p s b, o ≠ .struct p s b) (hl : ∀ p l ys, o ≠ .list p l ys) :
    InMemory mem o := fun x hx => by
  rw [leaf_part hx hp hs hl]; exact .inr h

theorem pair_in {p : Nat} {a b : Obj} (h : p ≠ 0 ∧ mem p = .pair p a b) (ha : InMemory mem a) (hb : InMemory mem b) : InMemory mem (.pair p a b) := fun x hx => by
  cases hx with
  | self => exact .inr h
  | first hx => exact ha x hx
  | second hx => exact hb x hx

theorem list_in {p : Nat} {l : Bool} {ys : List Obj} (h : p ≠ 0 ∧ mem p = .list p l ys) (hy : ∀ y ∈ ys, InMemory mem y) : InMemory mem (.list p l ys) := fun x hx => by
  cases hx with
  | self => exact .inr h
  | item hx hm => exact hy _ hm x hx

theorem one_in : InMemory memory one := leaf_in ⟨by decide, rfl⟩ (fun _ _ _ h => nomatch h) (fun _ _ _ h => nomatch h) (fun _ _ _ h => nomatch h)
theorem two_in : InMemory memory two := leaf_in ⟨by decide, rfl⟩ (fun _ _ _ h => nomatch h) (fun _ _ _ h => nomatch h) (fun _ _ _ h => nomatch h)
theorem name_in : InMemory memory name := leaf_in ⟨by decide, rfl⟩ (fun _ _ _ h => nomatch h) (fun _ _ _ h => nomatch h) (fun _ _ _ h => nomatch h)
theorem name'_in : InMemory memory name' := leaf_in ⟨by decide, rfl⟩ (fun _ _ _ h => nomatch h) (fun _ _ _ h => nomatch h) (fun _ _ _ h => nomatch h)

theorem low_in : InMemory memory low := pair_in ⟨by decide, rfl⟩ name_in (list_in ⟨by decide, rfl⟩ fun y hy => by
  rcases List.mem_cons.mp hy with rfl | hy
  · exact one_in
  · rw [List.mem_singleton.mp hy]; exact two_in)
theorem high_in : InMemory memory high := pair_in ⟨by decide, rfl⟩ name'_in (list_in ⟨by decide, rfl⟩ fun y hy => by
  rcases List.mem_cons.mp hy with rfl | hy
  · exact two_in
  · rw [List.mem_singleton.mp hy]; exact one_in)

set_option exponentiation.threshold 2000 in
theorem one_kind : HasKind (.number .f64 1) one := ⟨rfl, rfl, rfl, by decide +kernel⟩
set_option exponentiation.threshold 2000 in
theorem two_kind : HasKind (.number .f64 1) two := ⟨rfl, rfl, rfl, by decide +kernel⟩

theorem low_kind : HasKind pairKind low := ⟨⟨_, by decide, rfl⟩, rfl, rfl, fun y hy => by
  rcases List.mem_cons.mp hy with rfl | hy
  · exact one_kind
  · rw [List.mem_singleton.mp hy]; exact two_kind⟩
theorem high_kind : HasKind pairKind high := ⟨⟨_, by decide, rfl⟩, rfl, rfl, fun y hy => by
  rcases List.mem_cons.mp hy with rfl | hy
  · exact two_kind
  · rw [List.mem_singleton.mp hy]; exact one_kind⟩

/-- Equal names, then 1 before 2: the pair (dé, [1, 2]) is before (dé, [2, 1]). -/
example : HasKind pairKind low ∧ HasKind pairKind high ∧ InMemory memory low ∧ InMemory memory high ∧ pairKind.Named ∧ compare low high = some 1 ∧
    compare high low = some (-1) ∧ equal low high = some false ∧ equal name name' = some true ∧ compare name name' = some 0 :=
  ⟨low_kind, high_kind, low_in, high_in, ⟨trivial, trivial⟩, by decide +kernel, by decide +kernel, by decide +kernel, by decide +kernel, by decide +kernel⟩

set_option exponentiation.threshold 2000 in
theorem one_less_two : Number.Less (Number.Obj.at ⟨Number.vec .f64 1, Number.leBytes 8 0x3ff0000000000000⟩ 0) (Number.Obj.at ⟨Number.vec .f64 1, Number.leBytes 8 0x4000000000000000⟩ 0) := by
  have h1 : Number.Obj.at ⟨Number.vec .f64 1, Number.leBytes 8 0x3ff0000000000000⟩ 0 = .fin Number.scale := by decide +kernel
  have h2 : Number.Obj.at ⟨Number.vec .f64 1, Number.leBytes 8 0x4000000000000000⟩ 0 = .fin (2 * Number.scale) := by decide +kernel
  rw [h1, h2]
  exact .fin (by decide +kernel)

example : Before pairKind low high :=
  .second .text (.list 0 (by decide) (by decide) (fun j h => absurd h (by omega)) (.number 0 (by decide) (fun j h => absurd h (by omega)) one_less_two))

/-- Sorting puts the two in this order, sorting in reverse in the other. -/
example : ((ArrayOps.sortObjects (fun a b => (compare a.1 b.1).getD 0) 3 [(⟨high, high_kind, high_in⟩ : {o // HasKind pairKind o ∧ InMemory memory o}), ⟨low, low_kind, low_in⟩]).map
      fun ys => ys.map (·.1.addr)) = some [30, 31] ∧
    ((ArrayOps.sortObjects (fun a b => (reverseCompare a.1 b.1).getD 0) 3 [(⟨high, high_kind, high_in⟩ : {o // HasKind pairKind o ∧ InMemory memory o}), ⟨low, low_kind, low_in⟩]).map
      fun ys => ys.map (·.1.addr)) = some [31, 30] := by decide +kernel

/-! ## Refutations -/

/-- A memory with the strings "b" at 1 and "a" at 3, and an object of another class at 2. -/
def mixed : Nat → Obj
  | 1 => .str 1 (utf8 ['b']) | 2 => .other 2 | 3 => .str 3 (utf8 ['a'])
  | _ => .null

/-- **C116 (refuted).** Objects of different classes are compared by address, strings by text, so there are objects a, b, c with a before b, b before c and c before a: the order is
    not transitive, and no array with them can be sorted. -/
theorem C116_mixed_fails : ∃ (mem : Nat → Obj) (a b c : Obj), InMemory mem a ∧ InMemory mem b ∧ InMemory mem c ∧ HasKind .text a ∧ HasKind .text b ∧ HasKind .identity c ∧
    compare a b = some 1 ∧ compare b c = some 1 ∧ compare c a = some 1 :=
  ⟨mixed, .str 3 (utf8 ['a']), .str 1 (utf8 ['b']), .other 2,
    leaf_in ⟨by decide, rfl⟩ (fun _ _ _ h => nomatch h) (fun _ _ _ h => nomatch h) (fun _ _ _ h => nomatch h),
    leaf_in ⟨by decide, rfl⟩ (fun _ _ _ h => nomatch h) (fun _ _ _ h => nomatch h) (fun _ _ _ h => nomatch h),
    leaf_in ⟨by decide, rfl⟩ (fun _ _ _ h => nomatch h) (fun _ _ _ h => nomatch h) (fun _ _ _ h => nomatch h),
    ⟨_, by decide, rfl⟩, ⟨_, by decide, rfl⟩, trivial, by decide +kernel, by decide +kernel, by decide +kernel⟩

/-- **C116 (refuted).** Comparing a number with a string, whatever they are, uses the string as a number, although comparing the string with the number is defined. -/
theorem C116_number_fails (p q : Nat) (h : p ≠ q) (n : Number.Obj) (xs : List UInt8) :
    compare (.num p n) (.str q xs) = none ∧ (compare (.str q xs) (.num p n)).isSome := by
  have h1 : p ≠ (Obj.str q xs).addr := h
  have h2 : q ≠ (Obj.num p n).addr := Ne.symm h
  rw [compare, compare, dispatch, dispatch, if_neg h1, if_neg h2]
  · exact ⟨rfl, rfl⟩
  all_goals exact fun h => nomatch h

/-- **C116 (refuted).** An array and a linked list with the same objects are equal, but comparing them uses the one as the other. -/
theorem C116_classes_fails (p q : Nat) (h : p ≠ q) (xs : List Obj) :
    equal (.list p false xs) (.list q true xs) = some true ∧ compare (.list p false xs) (.list q true xs) = none := by
  have h1 : p ≠ (Obj.list q true xs).addr := h
  rw [equal, compare, dispatch, dispatchEqual, if_neg h1, if_neg h1]
  · exact ⟨(if_pos rfl).trans (equalItems_self xs), rfl⟩
  all_goals exact fun h => nomatch h

/-- **C116 (refuted).** Two structures without a semantic and with the same bytes compare as zero but are not equal; asking whether a structure with a semantic equals one without
    dereferences NULL. -/
theorem C116_struct_fails (p q s : Nat) (h : p ≠ q) (hs : s ≠ 0) (t xs ys : List UInt8) :
    compare (.struct p .null xs) (.struct q .null xs) = some 0 ∧ equal (.struct p .null xs) (.struct q .null xs) = some false ∧
    equal (.struct p (.str s t) xs) (.struct q .null ys) = none := by
  have h1 : ∀ a b, p ≠ (Obj.struct q a b).addr := fun _ _ => h
  rw [equal, equal, compare, dispatch, dispatchEqual, dispatchEqual, if_neg (h1 _ _), if_neg (h1 _ _), if_neg (h1 _ _)]
  · refine ⟨?_, rfl, ?_⟩
    · have : valueCompare xs xs = 0 := (value_sign xs xs).2.1.mpr rfl
      simp only [structCompare, semCompare, Obj.addr, pointerCompare, Option.map_some, this]
      decide
    · have : semEqual (.str s t) .null = none := by simp only [semEqual]; exact if_neg hs
      simp only [structEqual, this]
      rfl
  all_goals exact fun h => nomatch h

/-- **C116.** The orders of texts and of bytes are opposite: the string "a" is before the string "b", the data with the bytes of "a" is after the data with those of "b". -/
theorem C116_direction (p q r s : Nat) (h : p ≠ q) (h' : r ≠ s) :
    compare (.str p (utf8 ['a'])) (.str q (utf8 ['b'])) = some 1 ∧ compare (.data r (utf8 ['a'])) (.data s (utf8 ['b'])) = some (-1) := by
  have h1 : p ≠ (Obj.str q (utf8 ['b'])).addr := h
  have h2 : r ≠ (Obj.data s (utf8 ['b'])).addr := h'
  rw [compare, compare, dispatch, dispatch, if_neg h1, if_neg h2]
  · simp only [strCompare, dataCompare]
    exact ⟨by decide +kernel, by decide +kernel⟩
  all_goals exact fun h => nomatch h

end Compare
end Duck
