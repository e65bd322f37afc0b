import Verif.Lemmas.BinaryTree
/-! C08, C09, C10: the binary tree is a sorted map, stays balanced, and cannot report its first object. -/
namespace Duck
namespace BTree
open HTable (Policy)
variable {K V : Type} {cmp : K → K → Int}

/-- **C08.** For every consistent comparator and every history on an empty tree: no call corrupts the sentinel, every
    reported value (lookups, counts) is that of the finite map, and a traversal visits exactly the map's entries,
    each once, in comparator order. -/
theorem C08_sorted_map (hc : Spec.TotalPreorder cmp) (ops : List (Op K V)) :
    ∃ t, run cmp init ops = some (t, (specRun cmp [] ops).2) ∧
      (contents t).Perm (specRun cmp [] ops).1 ∧ StrictlySorted cmp (contents t) := by
  obtain ⟨t, h1, h2, h3⟩ := run_ok hc ops (init_good (cmp := cmp)) (m := []) (List.Perm.refl _)
  refine ⟨t, h1, ?_, ?_⟩ <;> rw [contents_eq]
  · exact h3
  · exact h2.sorted

/-- The comparator of the integers, in Duck's convention (positive: first argument comes first). -/
theorem int_order : Spec.TotalPreorder (fun a b : Int => b - a) :=
  ⟨by intro a b; omega, by intro a b c; omega⟩

/-- A comparator under which different keys compare equal also qualifies. -/
theorem half_order : Spec.TotalPreorder (fun a b : Int => b / 2 - a / 2) :=
  ⟨by intro a b; omega, by intro a b c; omega⟩

/-- A history with rotations, policies, removal of an inner node and of a missing key. -/
example : (run (fun a b : Int => b - a) init
    [.insert 1 10 .always, .insert 2 20 .always, .insert 3 30 .ifNotFound, .insert 4 40 .always, .insert 5 50 .always,
     .insert 5 51 .ifNotFound, .insert 4 41 .ifFound, .insert 9 90 .ifFound, .remove 2, .remove 7, .get 4, .get 2,
     .count]).map (fun r => (contents r.1, r.2.drop 10)) =
    some ([(1, 10), (3, 30), (4, 41), (5, 50)], [.value (some 41), .value none, .count 4]) := by decide

/-- **C08, traversal.** DKBinaryTreeTraverseInOrder calls back on the entries in comparator order, stopping at the
    first non-zero result, which it returns: whatever the callback, it sees a prefix of the sorted entries. -/
theorem C08_traverse_stops {S : Type} (f : K → V → S → Int × S) (t : Tree K V) (s : S) :
    traverse f t.root s = (contents t).foldl (fun (a : Int × S) e => if a.1 ≠ 0 then a else f e.1 e.2 a.2) (0, s) := by
  rw [contents_eq, traverse_eq]
  have stuck : ∀ (m : List (K × V)) (a : Int × S), a.1 ≠ 0 →
      m.foldl (fun (a : Int × S) e => if a.1 ≠ 0 then a else f e.1 e.2 a.2) a = a := by
    intro m
    induction m with
    | nil => intro a _; rfl
    | cons e m ih => intro a ha; rw [List.foldl_cons, if_pos ha]; exact ih a ha
  generalize toList t.root = m
  induction m generalizing s with
  | nil => rfl
  | cons e m ih =>
    rw [List.foldl_cons, if_neg (by simp)]
    unfold foldStop
    by_cases h : (f e.1 e.2 s).1 ≠ 0
    · rw [if_pos h, stuck m _ h]
    · rw [if_neg h, ih]
      have : f e.1 e.2 s = (0, (f e.1 e.2 s).2) := by
        rw [← Decidable.of_not_not h]
      rw [← this]

/-- **C08, copies.** Copying a reachable tree yields a tree with the same entries. -/
theorem C08_copy (hc : Spec.TotalPreorder cmp) (ops : List (Op K V)) (t : Tree K V) (outs : List (Out V))
    (h : run cmp init ops = some (t, outs)) :
    ∃ c, copy cmp t = some c ∧ contents c = contents t ∧ c.count = t.count := by
  obtain ⟨t', h1, h2, h3⟩ := run_ok hc ops (init_good (cmp := cmp)) (m := []) (List.Perm.refl _)
  rw [h] at h1; cases h1
  obtain ⟨c, e1, e2, e3⟩ := copy_fold hc (toList t.root) init init_good (by simpa [init] using h2.sorted)
  refine ⟨c, ?_, ?_, ?_⟩
  · rw [copy, traverse_eq, e1]
  · rw [contents_eq, contents_eq, e3]; rfl
  · rw [e2.count, e3, h2.count]; rfl

example : ∃ t outs, run (fun a b : Int => b - a) init [.insert 3 1 .always, .insert 1 2 .always, .insert 2 3 .always] =
    some (t, outs) ∧ contents t = [(1, 2), (2, 3), (3, 1)] := ⟨_, _, rfl, by decide⟩

/-- **C09.** After every history the longest path of the tree, and with it the number of comparisons of any lookup, is
    at most twice the logarithm of its size. -/
theorem C09_balanced (hc : Spec.TotalPreorder cmp) (ops : List (Op K V)) (t : Tree K V) (outs : List (Out V))
    (h : run cmp init ops = some (t, outs)) :
    height t.root ≤ 2 * Nat.log2 ((contents t).length + 1) ∧
    ∀ key, findCost cmp key t.root ≤ 2 * Nat.log2 ((contents t).length + 1) := by
  obtain ⟨t', h1, h2, _⟩ := run_ok hc ops (init_good (cmp := cmp)) (m := []) (List.Perm.refl _)
  rw [h] at h1; cases h1
  have hh : height t.root ≤ 2 * Nat.log2 ((contents t).length + 1) := by
    have a := (height_le t.root h2.aa).1
    have b := level_size t.root h2.aa
    rw [contents_eq]
    have := (Nat.le_log2 (n := (toList t.root).length + 1) (by omega)).mpr b
    omega
  exact ⟨hh, fun key => Nat.le_trans (findCost_le key t.root) hh⟩

/-- Seven ascending inserts, which would make an unbalanced tree of height 7, give height 3. -/
example : (run (fun a b : Int => b - a) init ([1, 2, 3, 4, 5, 6, 7].map fun i => .insert i i .always)).map
    (fun r => (height r.1.root, (contents r.1).length)) = some (3, 7) := by decide

/-- **C10 is false.** The walk of DKBinaryTreeGetFirstObject never reaches the end of its loop: on every tree, the
    empty one included, it is still walking after any number of steps. -/
theorem C10_never_returns (t : Tree K V) (fuel : Nat) : firstWalk fuel t.root = none := by
  generalize t.root = n
  induction fuel generalizing n with
  | zero => rfl
  | succ f ih => exact ih n.left

namespace PtrNode

/-- **C08, leaf fix-up.** AllocNode gives a new node level 0, the sentinel's level.  Skew and Split then rotate it
    against the sentinel twice; the net effect is a leaf of level 1 and an unchanged sentinel, as `insertRec` assumes. -/
theorem C08_new_leaf (m : Mem) (p : Nat) (hp : p ≠ 0) (h0 : m 0 = ⟨0, 0, 0⟩) (hm : m p = ⟨0, 0, 0⟩) :
    split (skew (m, p)) = (set m p ⟨0, 0, 1⟩, p) := by
  have hp' : (0 : Nat) ≠ p := fun h => hp h.symm
  simp only [skew, hm, h0, if_true, rotateLeftChild, set, hp', if_false]
  simp only [split, rotateRightChild, set, hp, hp', if_false, if_true]
  refine Prod.ext ?_ ?_
  · funext q
    by_cases hq : q = p
    · subst hq; simp [set]
    · by_cases hq0 : q = 0
      · subst hq0; simp [hp', h0, set]
      · simp [hq, hq0, set]
  · simp

/-- The situation arises: an empty tree's sentinel and one freshly allocated node. -/
example : split (skew (fun _ => ⟨0, 0, 0⟩, 5)) = (set (fun _ => ⟨0, 0, 0⟩) 5 ⟨0, 0, 1⟩, 5) :=
  C08_new_leaf _ 5 (by decide) rfl rfl

theorem At.frame {kv : Nat → K × V} {m m' : Mem} : ∀ {t : Node K V} {p : Nat} {as : List Nat}, At m kv p t as →
    (∀ q ∈ as, m' q = m q) → At m' kv p t as
  | .nil, _, _, h, _ => h
  | .node l k v lev r, p, as, ⟨hp, h1, h2, al, ar, h3, h4, h5⟩, hm => by
    subst h3
    have e : m' p = m p := hm p (by simp)
    refine ⟨hp, by rw [e]; exact h1, h2, al, ar, rfl, ?_, ?_⟩ <;> rw [e]
    · exact At.frame h4 (fun q hq => hm q (by simp [hq]))
    · exact At.frame h5 (fun q hq => hm q (by simp [hq]))

theorem At.level_eq {kv : Nat → K × V} {m : Mem} (h0 : m 0 = ⟨0, 0, 0⟩) : ∀ {t : Node K V} {p : Nat} {as : List Nat},
    At m kv p t as → (m p).level = t.level
  | .nil, _, _, ⟨rfl, _⟩ => by rw [h0]; rfl
  | .node .., _, _, ⟨_, h, _⟩ => h

theorem set_same (m : Mem) (p : Nat) (n : PtrNode) : set m p n p = n := by simp [set]
theorem set_other (m : Mem) {p q : Nat} (n : PtrNode) (h : q ≠ p) : set m p n q = m q := by simp [set, h]

/-- **C08, Skew.** On memory that represents a tree, the pointer assignments of Skew do what the tree-level `skew`
    says, on the same nodes, and touch no other memory. -/
theorem C08_skew_refines {kv : Nat → K × V} {m : Mem} {p : Nat} {t t' : Node K V} {as : List Nat} (h : At m kv p t as)
    (hn : as.Nodup) (h0 : m 0 = ⟨0, 0, 0⟩) (ht : BTree.skew t = some t') :
    At (skew (m, p)).1 kv (skew (m, p)).2 t' as ∧ (∀ q, q ∉ as → (skew (m, p)).1 q = m q) := by
  match t, h with
  | .nil, ⟨hp, ha⟩ =>
    cases ht
    subst hp ha
    simp only [skew, h0, if_true, rotateLeftChild]
    exact ⟨⟨rfl, rfl⟩, fun q _ => by unfold set; split <;> simp_all⟩
  | .node l k v lev r, ⟨hp, h1, h2, al, ar, h3, h4, h5⟩ =>
    subst h3
    have hl := h4.level_eq h0
    by_cases hlev : l.level = lev
    · match l, h4 with
      | .nil, ⟨h6, _⟩ =>
        simp only [BTree.skew] at ht; rw [if_pos hlev] at ht; cases ht
      | .node ll lk lv llev lr, ⟨hq, g1, g2, all, alr, g3, g4, g5⟩ =>
        subst g3
        simp only [level_node] at hlev
        subst hlev
        rw [skew_rot] at ht; cases ht
        generalize hqe : (m p).left = q at *
        have hqp : q ≠ p := by
          rintro rfl
          simp only [List.append_assoc, List.cons_append, List.nodup_append, List.nodup_cons] at hn
          simp at hn
        have hcond : (m (m p).left).level = (m p).level := by rw [hqe, g1, h1]
        have e : skew (m, p) = (set (set m p { m p with left := (m q).right }) q { m q with right := p }, q) := by
          unfold skew; simp only; rw [if_pos hcond]
          simp only [rotateLeftChild, hqe, set_other m _ hqp]
        rw [e]
        have hmem : ∀ x, x ≠ p → x ≠ q →
            (set (set m p { m p with left := (m q).right }) q { m q with right := p }) x = m x := by
          intro x hx1 hx2; rw [set_other _ _ hx2, set_other _ _ hx1]
        simp only [List.append_assoc, List.cons_append] at hn ⊢
        rw [List.nodup_append] at hn
        obtain ⟨n1, n2, n3⟩ := hn
        rw [List.nodup_cons] at n2
        obtain ⟨n4, n5⟩ := n2
        rw [List.nodup_append] at n5
        obtain ⟨n6, n7, n8⟩ := n5
        rw [List.nodup_cons] at n7
        refine ⟨⟨hq, ?_, g2, all, alr ++ p :: ar, rfl, ?_, ?_⟩, ?_⟩
        · simp only [set_same, g1]
        · simp only [set_same]
          refine g4.frame (fun x hx => hmem x ?_ ?_)
          · exact n3 x hx p (by simp)
          · exact n3 x hx q (by simp)
        · simp only [set_same]
          refine ⟨hp, ?_, h2, alr, ar, rfl, ?_, ?_⟩
          · simp only [set_other _ _ (Ne.symm hqp), set_same, h1]
          · simp only [set_other _ _ (Ne.symm hqp), set_same]
            refine g5.frame (fun x hx => hmem x ?_ ?_)
            · exact n8 x hx p (by simp)
            · rintro rfl; exact n4 (by simp [hx])
          · simp only [set_other _ _ (Ne.symm hqp), set_same]
            refine h5.frame (fun x hx => hmem x ?_ ?_)
            · rintro rfl; exact n7.1 hx
            · rintro rfl; exact n4 (by simp [hx])
        · intro x hx
          refine hmem x ?_ ?_ <;> (rintro rfl; exact hx (by simp))
    · rw [skew_stay hlev] at ht; cases ht
      have e : skew (m, p) = (m, p) := by
        unfold skew; simp only; rw [if_neg]; rw [hl, h1]; exact hlev
      rw [e]
      exact ⟨⟨hp, h1, h2, al, ar, rfl, h4, h5⟩, fun _ _ => rfl⟩

/-- **C08, Split.** Likewise for Split, whenever the tree-level `split` is defined (so the sentinel is not written). -/
theorem C08_split_refines {kv : Nat → K × V} {m : Mem} {p : Nat} {t t' : Node K V} {as : List Nat} (h : At m kv p t as)
    (hn : as.Nodup) (h0 : m 0 = ⟨0, 0, 0⟩) (ht : BTree.split t = some t') :
    At (split (m, p)).1 kv (split (m, p)).2 t' as ∧ (∀ q, q ∉ as → (split (m, p)).1 q = m q) := by
  match t, h with
  | .nil, _ => cases ht
  | .node l k v lev r, ⟨hp, h1, h2, al, ar, h3, h4, h5⟩ =>
    subst h3
    by_cases hlev : r.right.level = lev
    · match r, h5 with
      | .nil, ⟨h6, _⟩ =>
        simp only [BTree.split] at ht; rw [if_pos hlev] at ht; cases ht
      | .node rl rk rv rlev rr, ⟨hq, g1, g2, arl, arr, g3, g4, g5⟩ =>
        subst g3
        simp only [right_node] at hlev
        rw [split_rot hlev] at ht; cases ht
        have hrr := g5.level_eq h0
        generalize hqe : (m p).right = q at *
        have hqp : q ≠ p := by
          rintro rfl
          rw [List.nodup_append, List.nodup_cons] at hn
          simp at hn
        have hcond : (m (m (m p).right).right).level = (m p).level := by rw [hqe, hrr, h1, hlev]
        have e : split (m, p) = (set (set (set m p { m p with right := (m q).left }) q { m q with left := p }) q
            { m q with left := p, level := (m q).level + 1 }, q) := by
          unfold split; simp only; rw [if_pos hcond]
          simp only [rotateRightChild, hqe, set_other m _ hqp, set_same]
        rw [e]
        have hmem : ∀ x, x ≠ p → x ≠ q →
            (set (set (set m p { m p with right := (m q).left }) q { m q with left := p }) q
            { m q with left := p, level := (m q).level + 1 }) x = m x := by
          intro x hx1 hx2; rw [set_other _ _ hx2, set_other _ _ hx2, set_other _ _ hx1]
        rw [List.nodup_append] at hn
        obtain ⟨n1, n2, n3⟩ := hn
        rw [List.nodup_cons] at n2
        obtain ⟨n4, n5⟩ := n2
        rw [List.nodup_append] at n5
        obtain ⟨n6, n7, n8⟩ := n5
        rw [List.nodup_cons] at n7
        refine ⟨⟨hq, ?_, g2, al ++ p :: arl, arr, by simp, ?_, ?_⟩, ?_⟩
        · simp only [set_same, g1]
        · simp only [set_same]
          refine ⟨hp, ?_, h2, al, arl, rfl, ?_, ?_⟩
          · simp only [set_other _ _ (Ne.symm hqp), set_same, h1]
          · simp only [set_other _ _ (Ne.symm hqp), set_same]
            refine h4.frame (fun x hx => hmem x ?_ ?_)
            · exact n3 x hx p (by simp)
            · exact n3 x hx q (by simp)
          · simp only [set_other _ _ (Ne.symm hqp), set_same]
            refine g4.frame (fun x hx => hmem x ?_ ?_)
            · rintro rfl; exact n4 (by simp [hx])
            · exact n8 x hx q (by simp)
        · simp only [set_same]
          refine g5.frame (fun x hx => hmem x ?_ ?_)
          · rintro rfl; exact n4 (by simp [hx])
          · rintro rfl; exact n7.1 hx
        · intro x hx
          refine hmem x ?_ ?_ <;> (rintro rfl; exact hx (by simp))
    · rw [split_stay hlev] at ht; cases ht
      have e : split (m, p) = (m, p) := by
        unfold split; simp only; rw [if_neg]; rw [h1]
        match r, h5 with
        | .nil, ⟨h6, _⟩ => rw [h6, h0]; simpa [h0] using hlev
        | .node rl rk rv rlev rr, ⟨hq, g1, g2, arl, arr, g3, g4, g5⟩ =>
          rw [g5.level_eq h0]; simpa using hlev
      rw [e]
      exact ⟨⟨hp, h1, h2, al, ar, rfl, h4, h5⟩, fun _ _ => rfl⟩

/-- Memory of a two-node tree whose left child has the root's level, on which Skew rotates. -/
example : At (fun q => if q = 5 then ⟨6, 0, 1⟩ else ⟨0, 0, if q = 6 then 1 else 0⟩) (fun q => (q, q)) 5
    (.node (.node .nil 6 6 1 .nil) 5 5 1 .nil) [6, 5] ∧
    (BTree.skew (.node (.node .nil 6 6 1 .nil) 5 5 1 .nil)).isSome := by
  refine ⟨⟨by decide, rfl, rfl, [6], [], rfl, ⟨by decide, rfl, rfl, [], [], rfl, ⟨rfl, rfl⟩, ⟨rfl, rfl⟩⟩, ⟨rfl, rfl⟩⟩, by decide⟩

end PtrNode

end BTree
end Duck
