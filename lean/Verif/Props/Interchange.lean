import Verif.Lemmas.Interchange
import Verif.Props.LinkedList
import Verif.Props.Foreach
import Verif.Spec.Interchange
/-! C124: a program that uses lists, sets or dictionaries through their interfaces behaves the same whichever class implements them. -/
namespace Duck
namespace Inter
open Arr (Ref)

/-- **C124, lists.** A program given an array and a linked list gets the same answer to every call, the answer of a sequence, and in
    the end both hold the same objects in the same order. -/
theorem C124_lists (eqv : Nat → Nat → Bool) {pick : Nat → LList.Heap Ref Int → Nat} (hp : LList.Fresh pick) (ops : List ListOp)
    (ho : ∀ op ∈ ops, ListOk op) :
    ∃ a l anss ys, listRun array eqv emptyArray ops = some (a, anss) ∧ listRun (linked pick) eqv LList.init ops = some (l, anss) ∧
      FollowsAll eqv [] ops anss ys ∧ GArray.Observes a.2 ys ∧ LList.iterate l = some ys := by
  obtain ⟨a, l, anss, ys, h1, h2, h3, h4, as, es, h5, -, h6⟩ :=
    two_run (eqv := eqv) array_refines (linked_refines hp) ops (l := emptyArray) (m := LList.init) (xs := [])
      ⟨GArray.Rep_init, fun _ => rfl⟩ ⟨[], [], LList.init_links, Or.inl ⟨rfl, rfl, rfl⟩, rfl⟩ ho
  exact ⟨a, l, anss, ys, h1, h2, h3, ⟨h4.1.1, h4.1.get_eq⟩, by rw [← h6]; exact LList.iterate_spec h5⟩

example : (listRun array (· == ·) emptyArray
      [.append [some 3, none, some 1], .insert (some 7) 1, .reverse, .indexOf (some 3), .get 0, .remove none, .range 0 2, .count]).map (·.2) =
    some [.done, .done, .done, .number 3, .object (some 1), .done, .objects [some 1, some 7], .number 3] := by decide +kernel

/-- The hypotheses can be met: an allocator, and calls of every kind. -/
example := C124_lists (· == ·) (Foreach.lowest_fresh (V := Ref) (P := Int)) [.append [some 3, none], .sort (fun _ _ => 0), .insert (some 1) 1, .get 5]
  (by simp [ListOk]; exact ⟨by intro a b; simp, by intro a b c; simp⟩)

/-- Arrays can be shuffled: the objects stay the same, whatever the random numbers. -/
theorem C124_array_shuffle (eqv : Nat → Nat → Bool) (ops : List ListOp) (ho : ∀ op ∈ ops, ListOk op) (r1 r2 : Nat → Nat) :
    ∃ a anss ys a' zs, listRun array eqv emptyArray ops = some (a, anss) ∧ FollowsAll eqv [] ops anss ys ∧
      array.shuffle r1 r2 a = some a' ∧ GArray.Observes a'.2 zs ∧ zs.Perm ys := by
  obtain ⟨a, l, anss, ys, h1, -, h3, h4, -⟩ :=
    two_run (eqv := eqv) array_refines array_refines ops (l := emptyArray) (m := emptyArray) (xs := [])
      ⟨GArray.Rep_init, fun _ => rfl⟩ ⟨GArray.Rep_init, fun _ => rfl⟩ ho
  obtain ⟨zs, s1, s2⟩ := ArrayOps.C05_shuffle_perm_partial 8 r1 r2 ys
  obtain ⟨a', r, hr⟩ := reorder_ok h4.1 s1 s2.length_eq
  exact ⟨a, anss, ys, (a.1, a'), zs, h1, h3, by simp only [array, r, Option.map_some], ⟨hr.1, hr.get_eq⟩, s2⟩

/-- **C124 is false of shuffling**: a linked list of two or more objects crashes, an array does not. -/
theorem C124_shuffle_fails (pick : Nat → LList.Heap Ref Int → Nat) (l : LList.LinkedList Ref Int) (h : 2 ≤ (linked pick).count l)
    (r1 r2 : Nat → Nat) : (linked pick).shuffle r1 r2 l = none := LList.C11_shuffle_crashes l (by have : ((2 : Nat) : Int) ≤ l.count := h; omega)

example : (listRun (linked (fun n _ => n)) (· == ·) LList.init [.append [some 1, some 2]]).map (fun r => (linked (fun n _ => n)).count r.1) =
    some 2 := by decide +kernel

/-- **C124, sets (partial).** A program on a set gets the same answers from an array, a linked list and a binary tree, the answers of
    a set; a hash table gives the same answers or fails, which it does only when a table of 25 rows has 11 in use or the table has
    grown to 1675364863 rows.  Missing: the failures of the hash table. -/
theorem C124_sets_partial {hash : Nat → Nat} {eqv : Nat → Nat → Bool} {cmp : Nat → Nat → Int} (hc : Consistent hash eqv cmp)
    {pick : Nat → LList.Heap Ref Int → Nat} (hp : LList.Fresh pick) (ops : List SetOp) :
    (∃ a, listSetRun array eqv emptyArray ops = some (a, (setRun eqv [] ops).2)) ∧
    (∃ l, listSetRun (linked pick) eqv LList.init ops = some (l, (setRun eqv [] ops).2)) ∧
    (∃ t, treeSetRun cmp BTree.init ops = some (t, (setRun eqv [] ops).2)) ∧
    match tableSetRun hash eqv HTable.init ops with
    | .ok (_, anss) => anss = (setRun eqv [] ops).2
    | .error e => ∃ pre op post t outs, ops = pre ++ op :: post ∧ tableSetRun hash eqv HTable.init pre = .ok (t, outs) ∧
        ((e = .outOfTable ∧ t.rows.length = 25 ∧ HTable.occupied t = 11) ∨ (e = .tooBig ∧ 1675364863 ≤ t.rows.length)) := by
  refine ⟨?_, ?_, ?_, ?_⟩
  · obtain ⟨a, h, -⟩ := listSet_run hc.key array_refines ops (l := emptyArray) (xs := []) List.Pairwise.nil ⟨GArray.Rep_init, fun _ => rfl⟩
    exact ⟨a, h⟩
  · obtain ⟨l, h, -⟩ := listSet_run hc.key (linked_refines hp) ops (l := LList.init) (xs := []) List.Pairwise.nil
      ⟨[], [], LList.init_links, Or.inl ⟨rfl, rfl, rfl⟩, rfl⟩
    exact ⟨l, h⟩
  · obtain ⟨t, h, -⟩ := BTree.C08_sorted_map hc.order (ops.map toTree)
    refine ⟨t, ?_⟩
    rw [treeSetRun_eq, h, show ops.map toTree = (ops.map toTable).map dictToTree by
      rw [List.map_map]; exact List.map_congr_left fun op _ => toTree_eq op, treeSpec_eq, keyEq_eq hc]
    simp only [Option.map_some, List.map_map, Option.some.injEq, Prod.mk.injEq, true_and]
    rw [← (specRun_set eqv ops []).2]
    exact List.map_congr_left fun o _ => fromTree_drop o
  · have h := HTable.C06_map_partial hc.key (ops.map toTable)
    rw [tableSetRun_eq]
    cases hr : HTable.run hash eqv HTable.init (ops.map toTable) with
    | ok q =>
      rw [hr] at h
      show q.2.map fromTable = _
      rw [h.1]; exact (specRun_set eqv ops []).2
    | error e =>
      rw [hr] at h
      obtain ⟨pre, op, post, t, outs, e1, e2, -, e4⟩ := h
      obtain ⟨p, q, rfl, h1, h2⟩ := List.map_eq_append_iff.mp e1
      obtain ⟨o, q', rfl, -, -⟩ := List.map_eq_cons_iff.mp h2
      exact ⟨p, o, q', t, outs.map fromTable, rfl, by rw [tableSetRun_eq, h1, e2]; rfl, e4⟩

theorem tableSet_small {hash : Nat → Nat} {eqv : Nat → Nat → Bool} (kc : HTable.KeyClass hash eqv) (ops : List SetOp)
    (hs : additions ops ≤ 10) : ∃ t, tableSetRun hash eqv HTable.init ops = .ok (t, (setRun eqv [] ops).2) := by
  obtain ⟨t, outs, h4, h5, -⟩ := HTable.C06_map_short kc (ops.map toTable) (by
    unfold HTable.insertions
    rw [List.countP_map]
    refine Nat.le_trans (Nat.le_of_eq ?_) hs
    exact List.countP_congr fun op _ => by cases op <;> simp [toTable])
  refine ⟨t, ?_⟩
  rw [tableSetRun_eq, h4, h5]
  show Except.ok (t, _) = _
  rw [← (specRun_set eqv ops []).2]
  rfl

/-- **C124, small sets.** A program that adds at most ten objects gets the same answers from all four classes. -/
theorem C124_small_sets {hash : Nat → Nat} {eqv : Nat → Nat → Bool} {cmp : Nat → Nat → Int} (hc : Consistent hash eqv cmp)
    {pick : Nat → LList.Heap Ref Int → Nat} (hp : LList.Fresh pick) (ops : List SetOp) (hs : additions ops ≤ 10) :
    ∃ a l b t anss, listSetRun array eqv emptyArray ops = some (a, anss) ∧ listSetRun (linked pick) eqv LList.init ops = some (l, anss) ∧
      treeSetRun cmp BTree.init ops = some (b, anss) ∧ tableSetRun hash eqv HTable.init ops = .ok (t, anss) ∧
      anss = (setRun eqv [] ops).2 := by
  obtain ⟨⟨a, h1⟩, ⟨l, h2⟩, ⟨b, h3⟩, -⟩ := C124_sets_partial hc hp ops
  obtain ⟨t, h4⟩ := tableSet_small hc.key ops hs
  exact ⟨a, l, b, t, _, h1, h2, h3, h4, rfl⟩

/-- Numbers whose last digit counts. -/
theorem digits_consistent : Consistent (fun a => a % 10) (fun a b => a % 10 == b % 10) (fun a b => ((b % 10 : Nat) : Int) - ((a % 10 : Nat) : Int)) where
  key := ⟨by simp, by simp; omega, by simp; omega, by simp⟩
  order := ⟨by intro a b; omega, by intro a b c; omega⟩
  agree := by intro a b; simp; omega

example : (tableSetRun (fun a => a % 10) (fun a b => a % 10 == b % 10) HTable.init [.add 13, .add 3, .member 23, .add 4, .remove 33, .count]).map (·.2) =
    .ok [.done, .done, .member (some 13), .done, .done, .count 1] := by rfl

example := C124_small_sets digits_consistent (Foreach.lowest_fresh (V := Ref) (P := Int)) [.add 13, .add 3, .member 23, .add 4, .remove 33, .count]
  (by decide)

/-- **C124, dictionaries (partial).** A program on a dictionary gets the same answers from a hash table and a binary tree, and in the
    end both hold the same entries, unless the hash table fails (C06).  Missing: those failures. -/
theorem C124_dictionaries_partial {K V : Type} {hash : K → Nat} {eqv : K → K → Bool} {cmp : K → K → Int} (hc : Consistent hash eqv cmp)
    (ops : List (HTable.Op K V)) :
    ∃ b outs, BTree.run cmp BTree.init (ops.map dictToTree) = some (b, outs) ∧
      match HTable.run hash eqv HTable.init ops with
      | .ok (t, outs') => outs'.map dictOfTable = outs.map dictOfTree ∧ (HTable.entries t.rows).Perm (BTree.contents b)
      | .error e => ∃ pre op post t outs, ops = pre ++ op :: post ∧ HTable.run hash eqv HTable.init pre = .ok (t, outs) ∧
          ((e = .outOfTable ∧ t.rows.length = 25 ∧ HTable.occupied t = 11) ∨ (e = .tooBig ∧ 1675364863 ≤ t.rows.length)) := by
  obtain ⟨b, h1, h2, -⟩ := BTree.C08_sorted_map hc.order (ops.map dictToTree)
  rw [treeSpec_eq, keyEq_eq hc] at h1 h2
  refine ⟨b, _, h1, ?_⟩
  have h := HTable.C06_map_partial hc.key ops
  cases hr : HTable.run hash eqv HTable.init ops with
  | ok q =>
    rw [hr] at h
    refine ⟨?_, h.2.trans h2.symm⟩
    rw [h.1, List.map_map]
    exact List.map_congr_left fun o _ => (dict_drop o).symm
  | error e =>
    rw [hr] at h
    obtain ⟨pre, op, post, t, outs, e1, e2, -, e4⟩ := h
    exact ⟨pre, op, post, t, outs, e1, e2, e4⟩

example : (BTree.run (fun a b : Nat => ((b % 10 : Nat) : Int) - ((a % 10 : Nat) : Int)) BTree.init
      (([.insert 13 1 .always, .insert 3 2 .ifNotFound, .insert 23 5 .ifFound, .get 33, .count] : List (HTable.Op Nat Nat)).map dictToTree)).map (·.2.map dictOfTree) =
    some [.done, .done, .done, .value (some 5), .count 1] := by rfl

/-! ### Building a set from objects -/

/-- **C124, building.** A set built from an array of objects holds, for every object, the last of the objects equal to it: in a tree, in
    a table and in a list when the default class of sets is one of these.  (At most ten objects for the table; see C06.) -/
theorem C124_built {hash : Nat → Nat} {eqv : Nat → Nat → Bool} {cmp : Nat → Nat → Int} (hc : Consistent hash eqv cmp) (dflt : SetClass)
    (hd : dflt ≠ .list) (fuel : Nat) (cls : SetClass) (os : List Nat) (hs : os.length ≤ 10 ∨ cls = .tree ∨ (cls = .list ∧ dflt = .tree)) :
    ∃ ms, build hash eqv cmp dflt (fuel + 2) cls os = some ms ∧ ms.Pairwise (fun a b => eqv a b = false) ∧
      ∀ o, ms.find? (eqv · o) = os.reverse.find? (eqv · o) := by
  have tree : ∀ f, ∃ ms, build hash eqv cmp dflt (f + 1) .tree os = some ms ∧ ms.Pairwise (fun a b => eqv a b = false) ∧
      ∀ o, ms.find? (eqv · o) = os.reverse.find? (eqv · o) := fun f => by
    obtain ⟨t, h1, h2, -⟩ := BTree.C08_sorted_map hc.order ((insAll os).map dictToTree)
    rw [treeSpec_eq, keyEq_eq hc] at h1 h2
    have hb := built_ok hc.key h2
    refine ⟨_, ?_, hb⟩
    have e : (insAll os).map dictToTree = os.map fun o => BTree.Op.insert o o .always := by simp [insAll, dictToTree]
    rw [e] at h1
    simp only [build, h1, Option.map_some, BTree.contents]
  have table : os.length ≤ 10 → ∀ f, ∃ ms, build hash eqv cmp dflt (f + 1) .table os = some ms ∧ ms.Pairwise (fun a b => eqv a b = false) ∧
      ∀ o, ms.find? (eqv · o) = os.reverse.find? (eqv · o) := fun hl f => by
    obtain ⟨t, outs, h1, -, h2⟩ := HTable.C06_map_short hc.key (insAll os) (Nat.le_trans List.countP_le_length (by simpa [insAll] using hl))
    have hb := built_ok hc.key h2
    refine ⟨_, ?_, hb⟩
    simp only [insAll] at h1
    simp only [build, h1]
  cases cls with
  | tree => exact tree (fuel + 1)
  | table => exact table (by rcases hs with h | h | h; (exact h); (cases h); (cases h.1)) (fuel + 1)
  | list =>
    simp only [build]
    cases dflt with
    | list => exact absurd rfl hd
    | tree => exact tree fuel
    | table => exact table (by rcases hs with h | h | h; (exact h); (cases h); (cases h.2)) fuel

example : build (fun a => a % 10) (fun a b => a % 10 == b % 10) (fun a b => ((b % 10 : Nat) : Int) - ((a % 10 : Nat) : Int)) .tree 2 .list [13, 4, 3] =
    some [3, 4] := by rfl

/-- **C124 is false when lists are the default class of sets**: building a set never ends, whatever the objects. -/
theorem C124_default_fails (hash : Nat → Nat) (eqv : Nat → Nat → Bool) (cmp : Nat → Nat → Int) (os : List Nat) :
    ∀ fuel, build hash eqv cmp .list fuel .list os = none
  | 0 => rfl
  | fuel + 1 => C124_default_fails hash eqv cmp os fuel

/-- **Adding and building differ**: of two equal objects, adding them one after the other keeps the first, building keeps the last. -/
theorem C124_built_differs_fails {hash : Nat → Nat} {eqv : Nat → Nat → Bool} {cmp : Nat → Nat → Int} (hc : Consistent hash eqv cmp)
    (a b : Nat) (h : eqv a b = true) (hne : a ≠ b) :
    (∃ t, tableSetRun hash eqv HTable.init [.add a, .add b, .member a] = .ok (t, [.done, .done, .member (some a)])) ∧
    ∃ ms, build hash eqv cmp .table 2 .table [a, b] = some ms ∧ ms.find? (eqv · a) = some b ∧ (some b : Option Nat) ≠ some a := by
  constructor
  · obtain ⟨t, h1⟩ := tableSet_small hc.key [.add a, .add b, .member a] (by simp [additions])
    refine ⟨t, ?_⟩
    rw [h1]
    simp [setRun, setStep, h, hc.key.refl]
  · obtain ⟨ms, h1, -, h2⟩ := C124_built hc .table (by decide) 0 .table [a, b] (Or.inl (by simp))
    refine ⟨ms, h1, ?_, by simpa using fun e => hne e.symm⟩
    rw [h2]
    simp [hc.key.symm _ _ h]

/-- **C124 is false of dictionaries as members**: two dictionaries with the same entries are equal, but compare and hash by address; an
    array holds one of them, a hash table and a binary tree both. -/
theorem C124_inconsistent_fails :
    ((listSetRun array (fun _ _ => true) emptyArray [.add 1, .add 2, .count]).map (·.2) = some [.done, .done, .count 1]) ∧
    ((tableSetRun id (fun _ _ => true) HTable.init [.add 1, .add 2, .count]).map (·.2) = .ok [.done, .done, .count 2]) ∧
    ((treeSetRun (fun a b : Nat => (b : Int) - a) BTree.init [.add 1, .add 2, .count]).map (·.2) = some [.done, .done, .count 2]) := by
  refine ⟨by decide +kernel, rfl, rfl⟩

/-- **C124 is false of lists as members**: two lists of the same objects are equal and compare alike, but hash by address; an array and
    a binary tree hold one of them, a hash table both. -/
theorem C124_lists_as_members_fails :
    ((listSetRun array (fun _ _ => true) emptyArray [.add 1, .add 2, .count]).map (·.2) = some [.done, .done, .count 1]) ∧
    ((treeSetRun (fun _ _ => 0) BTree.init [.add 1, .add 2, .count]).map (·.2) = some [.done, .done, .count 1]) ∧
    ((tableSetRun id (fun _ _ => true) HTable.init [.add 1, .add 2, .count]).map (·.2) = .ok [.done, .done, .count 2]) := by
  refine ⟨by decide +kernel, rfl, rfl⟩

end Inter
end Duck
