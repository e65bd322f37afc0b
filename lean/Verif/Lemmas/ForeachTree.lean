import Verif.Lemmas.Foreach
import Verif.Lemmas.BinaryTree
/-! Enumerating a tree whose objects are replaced meanwhile. -/
namespace Duck
namespace Foreach
open HTable (Policy)
open BTree (Node AA SS toList)
variable {S K V : Type} {cmp : K → K → Int}

/-- The tree without its objects. -/
def shape : Node K V → Node K Unit
  | .nil => .nil
  | .node l k _ lev r => .node (shape l) k () lev (shape r)

theorem shape_level : ∀ t : Node K V, (shape t).level = t.level
  | .nil => rfl
  | .node .. => rfl

theorem shape_right : ∀ t : Node K V, (shape t).right = shape t.right
  | .nil => rfl
  | .node .. => rfl

theorem AA_shape : ∀ t : Node K V, AA (shape t) ↔ AA t
  | .nil => Iff.rfl
  | .node l k v lev r => by
    simp only [shape, AA, AA_shape l, AA_shape r, shape_level, shape_right]

theorem keys_shape : ∀ t : Node K V, (toList (shape t)).map (·.1) = (toList t).map (·.1)
  | .nil => rfl
  | .node l k v lev r => by simp [shape, keys_shape l, keys_shape r]

theorem SS_keys (t : Node K V) : SS cmp (toList t) ↔ ((toList t).map (·.1)).Pairwise (fun a b => 0 < cmp a b) := by
  rw [List.pairwise_map]; exact Iff.rfl

theorem ptr_shape {t u : Node K V} (h : shape t = shape u) : ptr t = ptr u := by
  cases t <;> cases u <;> simp_all [shape, ptr]

/-- A tree in order. -/
structure TreeOk (cmp : K → K → Int) (t : Node K V) : Prop where
  aa : AA t
  sorted : SS cmp (toList t)

theorem TreeOk.of_shape {t u : Node K V} (h : TreeOk cmp t) (e : shape u = shape t) : TreeOk cmp u := by
  refine ⟨?_, ?_⟩
  · rw [← AA_shape, e, AA_shape]; exact h.aa
  · rw [SS_keys, ← keys_shape, e, keys_shape, ← SS_keys]; exact h.sorted

theorem TreeOk.left {l : Node K V} {k v lev r} (h : TreeOk cmp (.node l k v lev r)) : TreeOk cmp l :=
  ⟨h.aa.1, (List.pairwise_append.mp h.sorted).1⟩

theorem TreeOk.right {l : Node K V} {k v lev r} (h : TreeOk cmp (.node l k v lev r)) : TreeOk cmp r :=
  ⟨h.aa.2.1, (List.pairwise_cons.mp (List.pairwise_append.mp h.sorted).2.1).2⟩

theorem skew_split_id {t : Node K V} (h : AA t) (hn : t ≠ .nil) : (BTree.skew t).bind BTree.split = some t := by
  cases t with
  | nil => exact absurd rfl hn
  | node l k v lev r =>
    have h1 := h.2.2.1
    have h2 := h.2.2.2.2
    rw [BTree.skew_stay (by omega), Option.bind_some, BTree.split_stay (by omega)]

theorem fix_same {l l' : Node K V} {k v v' lev} {r r' : Node K V} (h : AA (.node l k v lev r)) (hl : shape l' = shape l)
    (hr : shape r' = shape r) {b : Bool} :
    ((BTree.skew (.node l' k v' lev r')).bind fun t => (BTree.split t).map fun t => (t, b)) =
      some (.node l' k v' lev r', b) := by
  have ha : AA (.node l' k v' lev r') := by
    rw [← AA_shape]; simp only [shape, hl, hr]
    have := (AA_shape (.node l k v lev r)).mpr h
    exact this
  have h1 := ha.2.2.1
  have h2 := ha.2.2.2.2
  rw [BTree.skew_stay (by omega), Option.bind_some, BTree.split_stay (by omega)]
  rfl

/-- An insertion that adds no key leaves the shape of the tree. -/
theorem insert_shape (key : K) (object : V) (p : Policy) : ∀ t : Node K V, AA t →
    (p = .ifFound ∨ BTree.find cmp key t ≠ none) →
    ∃ t', BTree.insertRec cmp key object p t = some (t', false) ∧ shape t' = shape t
  | .nil, _, hp => by
    have : p = .ifFound := hp.resolve_right (fun h => h rfl)
    exact ⟨.nil, by simp [BTree.insertRec, this], rfl⟩
  | .node l k v lev r, h, hp => by
    unfold BTree.insertRec
    unfold BTree.find at hp
    by_cases h1 : cmp k key < 0
    · rw [if_pos h1] at hp ⊢
      obtain ⟨l', e1, e2⟩ := insert_shape key object p l h.1 hp
      rw [e1, Option.bind_some, fix_same h e2 rfl]
      exact ⟨_, rfl, by simp [shape, e2]⟩
    · rw [if_neg h1] at hp ⊢
      by_cases h2 : cmp k key > 0
      · rw [if_pos h2] at hp ⊢
        obtain ⟨r', e1, e2⟩ := insert_shape key object p r h.2.1 hp
        rw [e1, Option.bind_some, fix_same h rfl e2]
        exact ⟨_, rfl, by simp [shape, e2]⟩
      · rw [if_neg h2]
        split
        · exact ⟨_, rfl, rfl⟩
        · exact ⟨_, rfl, rfl⟩

theorem calls_tree (ops : List (TreeInsert K V)) : ∀ t : Node K V, AA t → Only (treeCall cmp) (Replaces cmp) t ops →
    ∃ t', calls (treeCall cmp) t ops = some t' ∧ shape t' = shape t := by
  induction ops with
  | nil => intro t _ _; exact ⟨t, rfl, rfl⟩
  | cons op ops ih =>
    intro t ha ho
    obtain ⟨t1, e1, e2⟩ := insert_shape op.key op.object op.policy t ha ho.1
    have hc : treeCall cmp t op = some t1 := by unfold treeCall; rw [e1]; rfl
    obtain ⟨t2, f1, f2⟩ := ih t1 (by rw [← AA_shape, e2, AA_shape]; exact ha) (ho.2 t1 hc)
    exact ⟨t2, by rw [calls, hc, Option.bind_some, f1], f2.trans e2⟩

/-- `u` is the subtree of `t` reached by the way `w` (true: to the right). -/
def sub : List Bool → Node K V → Node K V
  | [], t => t
  | _ :: _, .nil => .nil
  | false :: w, .node l _ _ _ _ => sub w l
  | true :: w, .node _ _ _ _ r => sub w r

theorem sub_shape : ∀ (w : List Bool) (t : Node K V), shape (sub w t) = sub w (shape t)
  | [], _ => rfl
  | b :: _, .nil => by cases b <;> rfl
  | false :: w, .node l _ _ _ _ => sub_shape w l
  | true :: w, .node _ _ _ _ r => sub_shape w r

theorem sub_snoc : ∀ (w : List Bool) (t : Node K V) {l k v lev r}, sub w t = .node l k v lev r →
    sub (w ++ [false]) t = l ∧ sub (w ++ [true]) t = r
  | [], _, l, k, v, lev, r, h => by
    simp only [sub] at h
    subst h
    exact ⟨rfl, rfl⟩
  | b :: w, .nil, l, k, v, lev, r, h => by cases b <;> simp [sub] at h
  | false :: w, .node l0 _ _ _ _, l, k, v, lev, r, h => sub_snoc w l0 h
  | true :: w, .node _ _ _ _ r0, l, k, v, lev, r, h => sub_snoc w r0 h

variable [DecidableEq K]

theorem nodeOf_mem : ∀ (t : Node K V) {key u}, nodeOf key t = some u → key ∈ (toList t).map (·.1)
  | .nil, key, u, h => by cases h
  | .node l k v lev r, key, u, h => by
    simp only [nodeOf] at h
    simp only [BTree.toList_node, List.map_append, List.map_cons, List.mem_append, List.mem_cons]
    split at h
    · rename_i e; exact .inr (.inl e.symm)
    · rw [Option.or_eq_some_iff] at h
      rcases h with h | ⟨_, h⟩
      · exact .inl (nodeOf_mem l h)
      · exact .inr (.inr (nodeOf_mem r h))

theorem nodeOf_none (t : Node K V) {key : K} (h : key ∉ (toList t).map (·.1)) : nodeOf key t = none := by
  cases hn : nodeOf key t with
  | none => rfl
  | some u => exact absurd (nodeOf_mem t hn) h

omit [DecidableEq K] in
theorem sub_mem : ∀ (w : List Bool) (t : Node K V) {l k v lev r}, sub w t = .node l k v lev r →
    k ∈ (toList t).map (·.1)
  | [], _, l, k, v, lev, r, h => by simp only [sub] at h; subst h; simp
  | b :: w, .nil, l, k, v, lev, r, h => by cases b <;> simp [sub] at h
  | false :: w, .node l0 _ _ _ _, l, k, v, lev, r, h => by
    have := sub_mem w l0 h
    simp only [BTree.toList_node, List.map_append, List.mem_append]; exact .inl this
  | true :: w, .node _ _ _ _ r0, l, k, v, lev, r, h => by
    have := sub_mem w r0 h
    simp only [BTree.toList_node, List.map_append, List.map_cons, List.mem_append, List.mem_cons]; exact .inr (.inr this)

theorem nodeOf_sub (hirr : ∀ k, ¬ 0 < cmp k k) : ∀ (w : List Bool) (t : Node K V), TreeOk cmp t → ∀ {l k v lev r},
    sub w t = .node l k v lev r → nodeOf k t = some (.node l k v lev r)
  | [], _, _, l, k, v, lev, r, h => by simp only [sub] at h; subst h; simp [nodeOf]
  | b :: w, .nil, _, l, k, v, lev, r, h => by cases b <;> simp [sub] at h
  | false :: w, .node l0 k0 v0 lev0 r0, ht, l, k, v, lev, r, h => by
    have ih := nodeOf_sub hirr w l0 ht.left h
    have hm := sub_mem w l0 h
    have hne : k0 ≠ k := by
      rintro rfl
      obtain ⟨e, he, hk⟩ := List.mem_map.mp hm
      have := (List.pairwise_append.mp ht.sorted).2.2 e he (k0, v0) (by simp)
      rw [hk] at this
      exact hirr _ this
    simp only [nodeOf, if_neg hne, ih, Option.some_or]
  | true :: w, .node l0 k0 v0 lev0 r0, ht, l, k, v, lev, r, h => by
    have ih := nodeOf_sub hirr w r0 ht.right h
    have hm := sub_mem w r0 h
    obtain ⟨e, he, hk⟩ := List.mem_map.mp hm
    have hne : k0 ≠ k := by
      rintro rfl
      have := (List.pairwise_cons.mp (List.pairwise_append.mp ht.sorted).2.1).1 e he
      simp only at this
      rw [hk] at this
      exact hirr _ this
    have hl : k ∉ (toList l0).map (·.1) := by
      intro hm2
      obtain ⟨e2, he2, hk2⟩ := List.mem_map.mp hm2
      have := (List.pairwise_append.mp ht.sorted).2.2 e2 he2 e (by simp [he])
      rw [hk, hk2] at this
      exact hirr _ this
    simp only [nodeOf, if_neg hne, nodeOf_none l0 hl, ih, Option.none_or]

omit [DecidableEq K] in
theorem find_sub (hc : Spec.TotalPreorder cmp) : ∀ (w : List Bool) (t : Node K V), TreeOk cmp t → ∀ {l k v lev r},
    sub w t = .node l k v lev r → BTree.find cmp k t = some v
  | [], _, _, l, k, v, lev, r, h => by
    simp only [sub] at h
    subst h
    have h0 : cmp k k = 0 := by
      rcases Int.lt_trichotomy (cmp k k) 0 with h | h | h
      · have := (hc.antisymm k k).mpr h; omega
      · exact h
      · have := (hc.antisymm k k).mp h; omega
    simp [BTree.find, h0]
  | b :: w, .nil, _, l, k, v, lev, r, h => by cases b <;> simp [sub] at h
  | false :: w, .node l0 k0 v0 lev0 r0, ht, l, k, v, lev, r, h => by
    obtain ⟨e, he, hk⟩ := List.mem_map.mp (sub_mem w l0 h)
    have := (List.pairwise_append.mp ht.sorted).2.2 e he (k0, v0) (by simp)
    rw [hk] at this
    have := (hc.antisymm k k0).mp this
    rw [BTree.find, if_pos this]
    exact find_sub hc w l0 ht.left h
  | true :: w, .node l0 k0 v0 lev0 r0, ht, l, k, v, lev, r, h => by
    obtain ⟨e, he, hk⟩ := List.mem_map.mp (sub_mem w r0 h)
    have := (List.pairwise_cons.mp (List.pairwise_append.mp ht.sorted).2.1).1 e he
    simp only at this
    rw [hk] at this
    rw [BTree.find, if_neg (by omega), if_pos this]
    exact find_sub hc w r0 ht.right h

/-- Number of nodes on the longest way down. -/
def depth : Node K V → Nat
  | .nil => 0
  | .node l _ _ _ r => max (depth l) (depth r) + 1

omit [DecidableEq K] in
theorem depth_shape : ∀ t : Node K V, depth (shape t) = depth t
  | .nil => rfl
  | .node l k v lev r => by simp [shape, depth, depth_shape l, depth_shape r]

/-- Enumerating the subtree at `w`. -/
theorem treeLoop_replaces (hirr : ∀ k, ¬ 0 < cmp k k) (cb : Callback S (Node K V) (K × V) (TreeInsert K V))
    (h : ∀ e s t, Only (treeCall cmp) (Replaces cmp) t (cb e s t).1) : ∀ (fuel : Nat) (w : List Bool) (s : S) (t : Node K V),
    TreeOk cmp t → depth (sub w t) ≤ fuel →
    ∃ r s' t' seen, treeLoop cmp cb fuel (ptr (sub w t)) s t = .ret r s' t' seen ∧ shape t' = shape t ∧
      seen.map (·.1) <+: (toList (sub w t)).map (·.1) ∧ (r = 0 → seen.map (·.1) = (toList (sub w t)).map (·.1)) := by
  intro fuel
  induction fuel with
  | zero =>
    intro w s t ht hd
    cases hu : sub w t with
    | nil => exact ⟨0, s, t, [], by simp [ptr, treeLoop], rfl, by simp, by simp⟩
    | node l k v lev r => rw [hu] at hd; simp [depth] at hd
  | succ f ih =>
    intro w s t ht hd
    cases hu : sub w t with
    | nil => exact ⟨0, s, t, [], by simp [ptr, treeLoop], rfl, by simp, by simp⟩
    | node l k v lev r =>
      rw [hu] at hd
      simp only [depth] at hd
      obtain ⟨wl, wr⟩ := sub_snoc w t hu
      have hp : ptr (.node l k v lev r) = some k := rfl
      rw [hp]
      simp only [treeLoop, atNode, nodeOf_sub hirr w t ht hu]
      obtain ⟨ra, s1, t1, seen1, e1, sh1, p1, q1⟩ := ih (w ++ [false]) s t ht (by rw [wl]; omega)
      rw [wl] at e1 p1 q1
      rw [e1, ret_andThen]
      by_cases h1 : ra ≠ 0
      · rw [if_pos h1]
        refine ⟨ra, s1, t1, seen1, rfl, sh1, ?_, fun h0 => absurd h0 h1⟩
        rw [BTree.toList_node, List.map_append]
        exact p1.trans (List.prefix_append _ _)
      · rw [if_neg h1]
        have q1 := q1 (by omega)
        have ht1 := ht.of_shape sh1
        have hu1 : ∃ l1 v1 r1, sub w t1 = .node l1 k v1 lev r1 ∧ shape l1 = shape l ∧ shape r1 = shape r := by
          have : shape (sub w t1) = shape (sub w t) := by rw [sub_shape, sub_shape, sh1]
          rw [hu] at this
          cases hx : sub w t1 with
          | nil => rw [hx] at this; cases this
          | node l1 k1 v1 lev1 r1 =>
            rw [hx] at this
            simp only [shape, Node.node.injEq] at this
            obtain ⟨a, b, -, c, d⟩ := this
            exact ⟨l1, v1, r1, by rw [b, c], a, d⟩
        obtain ⟨l1, v1, r1, hu1, -, -⟩ := hu1
        simp only [nodeOf_sub hirr w t1 ht1 hu1, visit]
        obtain ⟨t2, e2, sh2⟩ := calls_tree _ t1 ht1.aa (h (k, v1) s1 t1)
        rw [e2]
        simp only [ret_andThen]
        by_cases h2 : (cb (k, v1) s1 t1).2.1 ≠ 0
        · rw [if_pos h2]
          refine ⟨_, _, t2, seen1 ++ [(k, v1)], rfl, sh2.trans sh1, ?_, fun h0 => absurd h0 h2⟩
          simp only [List.map_append, q1, BTree.toList_node, List.map_cons, List.map_nil]
          refine (List.prefix_append_right_inj _).mpr ?_
          exact ⟨_, rfl⟩
        · rw [if_neg h2]
          have sh12 := sh2.trans sh1
          have ht2 := ht.of_shape sh12
          have hu2 : ∃ l2 v2 r2, sub w t2 = .node l2 k v2 lev r2 ∧ shape l2 = shape l ∧ shape r2 = shape r := by
            have : shape (sub w t2) = shape (sub w t) := by rw [sub_shape, sub_shape, sh12]
            rw [hu] at this
            cases hx : sub w t2 with
            | nil => rw [hx] at this; cases this
            | node l1 k1 v1 lev1 r1 =>
              rw [hx] at this
              simp only [shape, Node.node.injEq] at this
              obtain ⟨a, b, -, c, d⟩ := this
              exact ⟨l1, v1, r1, by rw [b, c], a, d⟩
          obtain ⟨l2, v2, r2, hu2, -, shr⟩ := hu2
          simp only [nodeOf_sub hirr w t2 ht2 hu2]
          obtain ⟨-, wr2⟩ := sub_snoc w t2 hu2
          obtain ⟨rb, s3, t3, seen3, e3, sh3, p3, q3⟩ := ih (w ++ [true]) (cb (k, v1) s1 t1).2.2 t2 ht2
            (by rw [wr2, ← depth_shape, shr, depth_shape]; omega)
          rw [wr2] at e3 p3 q3
          have hk : (toList r2).map (·.1) = (toList r).map (·.1) := by rw [← keys_shape, shr, keys_shape]
          rw [hk] at p3 q3
          rw [e3]
          refine ⟨rb, s3, t3, seen1 ++ ([(k, v1)] ++ seen3), rfl, sh3.trans sh12, ?_, ?_⟩
          · simp only [List.map_append, q1, BTree.toList_node, List.map_cons, List.singleton_append]
            refine (List.prefix_append_right_inj _).mpr ?_
            rw [List.cons_prefix_cons]
            exact ⟨rfl, p3⟩
          · intro h0
            simp only [List.map_append, q1, BTree.toList_node, List.map_cons, List.singleton_append, q3 h0]

omit [DecidableEq K] in
/-- A node keeps its place when objects are replaced. -/
theorem sub_same {t t0 : Node K V} (sh : shape t = shape t0) {w : List Bool} {l k v lev r} (hu : sub w t0 = .node l k v lev r) :
    ∃ l1 v1 r1, sub w t = .node l1 k v1 lev r1 ∧ shape l1 = shape l ∧ shape r1 = shape r := by
  have : shape (sub w t) = shape (sub w t0) := by rw [sub_shape, sub_shape, sh]
  rw [hu] at this
  cases hx : sub w t with
  | nil => rw [hx] at this; cases this
  | node l1 k1 v1 lev1 r1 =>
    rw [hx] at this
    simp only [shape, Node.node.injEq] at this
    obtain ⟨a, b, -, c, d⟩ := this
    exact ⟨l1, v1, r1, by rw [b, c], a, d⟩

/-- The enumeration, exactly: the keys of the tree in order, each with the object it has when its turn comes. -/
theorem treeLoop_exact (hc : Spec.TotalPreorder cmp) (hirr : ∀ k, ¬ 0 < cmp k k)
    (cb : Callback S (Node K V) (K × V) (TreeInsert K V))
    (h : ∀ e s t, Only (treeCall cmp) (Replaces cmp) t (cb e s t).1) (t0 : Node K V) (ht0 : TreeOk cmp t0) :
    ∀ (fuel : Nat) (w : List Bool) (s : S) (t : Node K V), shape t = shape t0 → depth (sub w t0) ≤ fuel →
    treeLoop cmp cb fuel (ptr (sub w t0)) s t = eachKey (treeCall cmp) cb (fun t k => BTree.find cmp k t)
      ((toList (sub w t0)).map (·.1)) s t := by
  intro fuel
  induction fuel with
  | zero =>
    intro w s t _ hd
    cases hu : sub w t0 with
    | nil => simp [ptr, treeLoop, eachKey]
    | node l k v lev r => rw [hu] at hd; simp [depth] at hd
  | succ f ih =>
    intro w s t sh hd
    cases hu : sub w t0 with
    | nil => simp [ptr, treeLoop, eachKey]
    | node l k v lev r =>
      rw [hu] at hd
      simp only [depth] at hd
      obtain ⟨wl, wr⟩ := sub_snoc w t0 hu
      have hp : ptr (.node l k v lev r) = some k := rfl
      rw [hp]
      have ht := ht0.of_shape sh
      obtain ⟨l1, v1, r1, hu1, shl, shr⟩ := sub_same sh hu
      simp only [treeLoop, atNode, nodeOf_sub hirr w t ht hu1]
      rw [ptr_shape shl, BTree.toList_node, List.map_append, List.map_cons, eachKey_append]
      have el := ih (w ++ [false]) s t sh (by rw [wl]; omega)
      rw [wl] at el
      rw [el]
      -- what the left subtree leaves
      obtain ⟨ra, s2, t2, seen2, e2, sh2, -, -⟩ := treeLoop_replaces hirr cb h f (w ++ [false]) s t ht
        (by obtain ⟨a, -⟩ := sub_snoc w t hu1; rw [a, ← depth_shape, shl, depth_shape]; omega)
      obtain ⟨wl1, -⟩ := sub_snoc w t hu1
      rw [wl1, ptr_shape shl, el] at e2
      rw [e2, ret_andThen, ret_andThen]
      split
      · rfl
      · have sh2 := sh2.trans sh
        have ht2 := ht0.of_shape sh2
        obtain ⟨l2, v2, r2, hu2, -, shr2⟩ := sub_same sh2 hu
        simp only [nodeOf_sub hirr w t2 ht2 hu2, eachKey, find_sub hc w t2 ht2 hu2, visit]
        obtain ⟨t3, e3, sh3⟩ := calls_tree _ t2 ht2.aa (h (k, v2) s2 t2)
        rw [e3]
        simp only [ret_andThen]
        have sh3 := sh3.trans sh2
        obtain ⟨l3, v3, r3, hu3, -, shr3⟩ := sub_same sh3 hu
        simp only [nodeOf_sub hirr w t3 (ht0.of_shape sh3) hu3]
        rw [ptr_shape shr3]
        have er := ih (w ++ [true]) (cb (k, v2) s2 t2).2.2 t3 sh3 (by rw [wr]; omega)
        rw [wr] at er
        rw [er]

end Foreach
end Duck
