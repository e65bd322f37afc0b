import Verif.Lemmas.ForeachList
import Verif.Lemmas.ForeachTree
/-! C112: enumerating a collection, also while the callback changes it. -/
namespace Duck
namespace Foreach
open HTable (Policy)
variable {S : Type}

/-! ### The callback leaves the collection alone -/

/-- **C112 (arrays).** A callback that does not touch the array is called for its members in order until it returns
    something other than 0, which is then returned. -/
theorem C112_array {V : Type} (cb : Callback S (List V) V (Replace V)) (vs : List V) (s : S)
    (h : ∀ v s, (cb v s vs).1 = []) :
    arrayLoop cb vs.length 0 s vs = .ret (visits (plain cb vs) vs s).1 (visits (plain cb vs) vs s).2.1 vs
      (visits (plain cb vs) vs s).2.2 :=
  arrayLoop_plain cb vs h vs.length 0 s (by omega)

/-- The first of three members makes the callback return 0, the second 5. -/
example : arrayLoop (fun v (s : Nat) _ => ([], if v = 20 then 5 else 0, s + v)) 3 0 0 [10, 20, 30] =
    .ret 5 30 [10, 20, 30] [10, 20] := by decide +kernel

/-- **C112 (hash tables).** The same for a table, whose entries are met in the order of the rows; for ApplyFunctionToKeys
    and ApplyFunctionToObjects take a callback that looks at one half of the entry. -/
theorem C112_table {K V : Type} (hash : K → Nat) (eqv : K → K → Bool)
    (cb : Callback S (HTable.Table K V) (K × V) (HTable.Op K V)) (t : HTable.Table K V) (s : S)
    (h : ∀ e s, (cb e s t).1 = []) :
    tableLoop hash eqv cb t.rows.length 0 s t =
      .ret (visits (plain cb t) (HTable.entries t.rows) s).1 (visits (plain cb t) (HTable.entries t.rows) s).2.1 t
        (visits (plain cb t) (HTable.entries t.rows) s).2.2 :=
  tableLoop_plain cb t h t.rows.length 0 s (by omega)

/-- The entries of a list built by any history, and what is left in memory by the nodes given back. -/
theorem list_reach {V P : Type} [DecidableEq V] {zero : P} {pick : Nat → LList.Heap V P → Nat} (hp : LList.Fresh pick)
    {gt : P → P → Bool} {ops : List (LList.Op V P)} (ho : ∀ op ∈ ops, LList.OpOk op) {l : LList.LinkedList V P} {outs}
    (h : LList.run zero pick gt LList.init ops = some (l, outs)) (old : LList.Heap V P) :
    ∃ es, LI ⟨l, old⟩ es ∧ LList.iterate l = some (objs es) ∧ l.first = es.head?.map (·.1) := by
  obtain ⟨l', outs', as, xs, r, _, k, c⟩ := LList.run_spec (zero := zero) hp (gt := gt) ops LList.init_links
    (Or.inl ⟨rfl, rfl, rfl⟩) ho
  rw [h] at r
  cases r
  have hlen := k.seg.length
  have e1 : (as.zip xs).map (·.1) = as := List.map_fst_zip (by omega)
  have e2 : (as.zip xs).map (·.2) = xs := List.map_snd_zip (by omega)
  refine ⟨as.zip xs, ⟨?_, ?_⟩, ?_, ?_⟩
  · rw [e1, e2]; exact k
  · rw [e1]; exact c
  · rw [LList.iterate_spec k]
    unfold objs
    rw [show (fun e : Nat × V × P => e.2.1) = (fun x : V × P => x.1) ∘ (fun e : Nat × V × P => e.2) from rfl,
      ← List.map_map, e2]
  · rw [k.first, ← List.head?_map, e1]

theorem iterate_LI {V P : Type} {m : ListMem V P} {es} (h : LI m es) : LList.iterate m.list = some (objs es) := by
  rw [LList.iterate_spec h.1, List.map_map]; rfl

/-- **C112 (linked lists).** The same for a list, whatever its history. -/
theorem C112_list {V P : Type} [DecidableEq V] {zero : P} {pick : Nat → LList.Heap V P → Nat} (hp : LList.Fresh pick)
    (gt : P → P → Bool) (ops : List (LList.Op V P)) (ho : ∀ op ∈ ops, LList.OpOk op) (l : LList.LinkedList V P) (outs)
    (hr : LList.run zero pick gt LList.init ops = some (l, outs)) (old : LList.Heap V P)
    (cb : Nat → Callback S (ListMem V P) V (ListCall V)) (f : V → S → Int × S)
    (h : ∀ a v s, cb a v s ⟨l, old⟩ = ([], f v s)) (s : S) :
    ∃ vs, LList.iterate l = some vs ∧
      listApply zero pick cb vs.length s ⟨l, old⟩ = .ret (visits f vs s).1 (visits f vs s).2.1 ⟨l, old⟩ (visits f vs s).2.2 := by
  obtain ⟨es, hi, e1, e2⟩ := list_reach hp ho hr old
  refine ⟨objs es, e1, ?_⟩
  unfold listApply
  rw [e2]
  exact listLoop_plain cb f _ h _ [] es s hi (by simp [objs])

/-- **C112 (trees).** A callback that adds no key (it may replace the objects of keys that are in the tree) is called for
    the keys of the tree in order, each once, with the object the key has at that time, until it returns something other
    than 0; the tree keeps its keys.
    Missing: callbacks that add keys, for which the property is false (`C112_tree_fails`), and callbacks that remove. -/
theorem C112_tree_partial {K V : Type} [DecidableEq K] {cmp : K → K → Int} (hc : Spec.TotalPreorder cmp)
    (ops : List (BTree.Op K V)) (t : BTree.Tree K V) (outs) (hr : BTree.run cmp BTree.init ops = some (t, outs))
    (cb : Callback S (BTree.Node K V) (K × V) (TreeInsert K V))
    (h : ∀ e s t, Only (treeCall cmp) (Replaces cmp) t (cb e s t).1) (s : S) (fuel : Nat) (hf : BTree.height t.root ≤ fuel) :
    treeLoop cmp cb fuel (ptr t.root) s t.root =
      eachKey (treeCall cmp) cb (fun t k => BTree.find cmp k t) (treeKeys t.root) s t.root ∧
    ∃ r s' t' seen, treeLoop cmp cb fuel (ptr t.root) s t.root = .ret r s' t' seen ∧ treeKeys t' = treeKeys t.root ∧
      seen.map (·.1) <+: treeKeys t.root ∧ (r = 0 → seen.map (·.1) = treeKeys t.root) := by
  obtain ⟨t0, h1, h2, _⟩ := BTree.run_ok hc ops (BTree.init_good (cmp := cmp)) (m := []) (List.Perm.refl _)
  rw [hr] at h1
  cases h1
  have hirr : ∀ k, ¬ 0 < cmp k k := by
    intro k hk
    have := (hc.antisymm k k).mp hk
    omega
  have hd : ∀ u : BTree.Node K V, depth u = BTree.height u := by
    intro u
    induction u with
    | nil => rfl
    | node l k v lev r ih1 ih2 => simp only [depth, BTree.height, ih1, ih2]; omega
  obtain ⟨r, s', t', seen, e, sh, p, q⟩ := treeLoop_replaces hirr cb h fuel [] s t.root ⟨h2.aa, h2.sorted⟩
    (by simp only [sub]; rw [hd]; exact hf)
  have hk : ∀ u : BTree.Node K V, treeKeys u = (BTree.toList u).map (·.1) := by
    intro u
    unfold treeKeys
    rw [BTree.contents_eq]
  refine ⟨?_, r, s', t', seen, e, ?_, ?_, ?_⟩
  · rw [hk]
    exact treeLoop_exact hc hirr cb h t.root ⟨h2.aa, h2.sorted⟩ fuel [] s t.root rfl (by simp only [sub]; rw [hd]; exact hf)
  · rw [hk, hk, ← keys_shape, sh, keys_shape]
  · rw [hk]; exact p
  · rw [hk]; exact q

/-- Five keys; the callback replaces the object of the next key, which is what it is given next. -/
example : (BTree.run (fun a b : Int => b - a) BTree.init
      [.insert 1 10 .always, .insert 2 20 .always, .insert 3 30 .always, .insert 4 40 .always, .insert 5 50 .always]).map
    (fun t => treeLoop (fun a b : Int => b - a) (fun e (s : Unit) _ => ([⟨e.1 + 1, 7, .ifFound⟩], 0, s)) 3 (ptr t.1.root) ()
      t.1.root |> fun e => match e with | .ret r _ t' seen => (r, seen, treeKeys t') | _ => (-1, [], [])) =
    some (0, [(1, 10), (2, 7), (3, 7), (4, 7), (5, 7)], [1, 2, 3, 4, 5]) := by decide +kernel

/-! ### The callback changes the collection -/

/-- **C112 (arrays, partial).** A callback that only appends to the array: the members it was called for are a beginning
    of the array as it is at the end, and if it always returned 0 they are all of it, the new ones included.
    `more`: it keeps appending, and the enumeration goes on.
    Missing: other changes, for which the property is false (`C112_array_fails`). -/
theorem C112_array_appends_partial {V : Type} (cb : Callback S (List V) V (Replace V)) (vs : List V) (s : S)
    (h : ∀ v s vs, Only arrayCall Appends vs (cb v s vs).1) (fuel : Nat) :
    arrayLoop cb fuel 0 s vs = .more ∨ ∃ r s' vs' seen, arrayLoop cb fuel 0 s vs = .ret r s' vs' seen ∧ vs <+: vs' ∧
      seen <+: vs' ∧ (r = 0 → seen = vs') := by
  simpa using arrayLoop_appends cb h fuel 0 s vs (by omega)

/-- A callback that appends half of each even member. -/
example : arrayLoop (fun v (s : Unit) vs => (if v % 2 = 0 then [⟨(vs.length : Int), 0, [v / 2]⟩] else [], 0, s)) 9 0 () [4, 3, 6] =
    .ret 0 () [4, 3, 6, 2, 3, 1] [4, 3, 6, 2, 3, 1] := by decide +kernel

/-- The callback removes the member it is called for (the first one): its successor moves to its place and is skipped. -/
theorem C112_array_fails :
    arrayLoop (fun v (s : Unit) _ => (if v = 1 then [⟨0, 1, []⟩] else [], 0, s)) 3 0 () [1, 2, 3] =
      .ret 0 () [2, 3] [1, 3] := by decide +kernel

/-- **C112 (linked lists, partial).** A callback that only adds and looks, anywhere in the list: every member the list
    had is visited, in order; every visit is to an entry of its own of the list as it is at the end, in order; and no
    pointer to a node that is not in the list is followed.
    Missing: changes that remove or move other entries, for which the property is false (`C112_list_fails`). -/
theorem C112_list_adds_partial {V P : Type} [DecidableEq V] {zero : P} {pick : Nat → LList.Heap V P → Nat}
    (hp : LList.Fresh pick) (gt : P → P → Bool) (ops : List (LList.Op V P)) (ho : ∀ op ∈ ops, LList.OpOk op)
    (l : LList.LinkedList V P) (outs) (hr : LList.run zero pick gt LList.init ops = some (l, outs)) (old : LList.Heap V P)
    (cb : Nat → Callback S (ListMem V P) V (ListCall V)) (h : ∀ a v s m, ∀ op ∈ (cb a v s m).1, Adds op) (s : S) (fuel : Nat) :
    listApply zero pick cb fuel s ⟨l, old⟩ = .more ∨
    ∃ r s' m' seen vs us, listApply zero pick cb fuel s ⟨l, old⟩ = .ret r s' m' seen ∧ LList.iterate l = some vs ∧
      LList.iterate m'.list = some us ∧ vs.Sublist us ∧ seen.Sublist us ∧ (r = 0 → vs.Sublist seen) := by
  obtain ⟨es, hi, e1, e2⟩ := list_reach hp ho hr old
  unfold listApply
  rw [e2]
  rcases listLoop_adds (zero := zero) hp cb h fuel [] es s ⟨l, old⟩ hi with e | ⟨r, s', m', seen, A', B', e, k, _, sB, q1, q2⟩
  · exact .inl e
  · have hB : (objs B').Sublist (objs (A' ++ B')) := by
      unfold objs; rw [List.map_append]; exact List.sublist_append_right _ _
    exact .inr ⟨r, s', m', seen, objs es, objs (A' ++ B'), e, e1, iterate_LI k,
      (sB.map (fun e : Nat × V × P => e.2.1)).trans hB, q1.trans hB, q2⟩

/-- **C112 (linked lists, partial).** A callback that, each time, only looks or removes just the entry it is called for:
    the enumeration returns, it visits the members the list had, in order, each once, until the callback returns something
    other than 0, and what remains in the list was there before. -/
theorem C112_list_own_entry_partial {V P : Type} [DecidableEq V] {zero : P} {pick : Nat → LList.Heap V P → Nat}
    (hp : LList.Fresh pick) (gt : P → P → Bool) (ops : List (LList.Op V P)) (ho : ∀ op ∈ ops, LList.OpOk op)
    (l : LList.LinkedList V P) (outs) (hr : LList.run zero pick gt LList.init ops = some (l, outs)) (old : LList.Heap V P)
    (cb : Nat → Callback S (ListMem V P) V (ListCall V)) (h : ∀ a v s m, LooksOrRemoves m.list a (cb a v s m).1) (s : S) :
    ∃ r s' m' seen vs us, LList.iterate l = some vs ∧ listApply zero pick cb vs.length s ⟨l, old⟩ = .ret r s' m' seen ∧
      LList.iterate m'.list = some us ∧ us.Sublist vs ∧ seen <+: vs ∧ (r = 0 → seen = vs) := by
  obtain ⟨es, hi, e1, e2⟩ := list_reach hp ho hr old
  unfold listApply
  rw [e2]
  obtain ⟨r, s', m', seen, B', e, k, sB, q1, q2⟩ := listLoop_self (zero := zero) (pick := pick) cb h (objs es).length [] es s ⟨l, old⟩ hi
    (by simp [objs])
  exact ⟨r, s', m', seen, objs es, objs ([] ++ B'), e1, e, iterate_LI k, sB.map (fun e : Nat × V × P => e.2.1), q1, q2⟩

/-- The allocator that takes the free address of the lowest number (the numbers up to that of the allocations made so far
    always contain one if no one else uses the heap). -/
noncomputable def lowest {V P : Type} (n : Nat) (h : LList.Heap V P) : Nat :=
  match (List.range (n + 1)).find? (fun i => (h i).isNone) with
  | some i => i
  | none => open Classical in if hx : ∃ i, h i = none then hx.choose else 0

/-- It is one of the allocators the theorems are about. -/
theorem lowest_fresh {V P : Type} : LList.Fresh (lowest (V := V) (P := P)) := by
  intro n h live hl
  unfold lowest
  split
  · rename_i i hi
    have := List.find?_some hi
    simpa using this
  · have hx : ∃ i, h i = none := by
      obtain ⟨i, hi⟩ : ∃ i, i ∉ live := by
        refine ⟨live.foldr max 0 + 1, fun hm => ?_⟩
        have : ∀ (L : List Nat) (x : Nat), x ∈ L → x ≤ L.foldr max 0 := by
          intro L
          induction L with
          | nil => intro x hx; cases hx
          | cons y L ih =>
            intro x hx
            simp only [List.foldr_cons]
            rcases List.mem_cons.mp hx with rfl | hx
            · omega
            · have := ih x hx; omega
        have := this live _ hm
        omega
      refine ⟨i, Classical.byContradiction fun hn => hi (hl i hn)⟩
    rw [dif_pos hx]
    exact hx.choose_spec

/-- What is seen and what the list holds in the end, for a list of the given members. -/
noncomputable def listCase (vs : List Nat) (cb : Nat → Callback Nat (ListMem Nat Nat) Nat (ListCall Nat)) (fuel : Nat) :
    Option (List Nat × Option (List Nat)) :=
  (LList.run 0 lowest (fun a b => decide (b < a)) LList.init [.replace 0 0 vs]).bind fun r =>
    match listApply 0 lowest cb fuel 0 ⟨r.1, fun _ => none⟩ with
    | .ret _ _ m seen => some (seen, LList.iterate m.list)
    | _ => none

/-- A callback that adds an entry after the second one and one at the beginning. -/
example : listCase [1, 2, 3] (fun _ v s _ => (if v = 2 then [.replace 2 0 [7], .replace 0 0 [8]] else [], 0, s)) 9 =
    some ([1, 2, 7, 3], some [8, 1, 2, 7, 3]) := by decide +kernel

/-- A callback that removes the entries of odd members, each when it is called for it. -/
example : listCase [1, 2, 3, 4, 5]
      (fun a v s m => (if v % 2 = 1 then [.replace (position m.list a) 1 []] else [.get 0], 0, s)) 5 =
    some ([1, 2, 3, 4, 5], some [2, 4]) := by decide +kernel

/-- That callback is one the theorem speaks about. -/
example (a v : Nat) (m : ListMem Nat Nat) : LooksOrRemoves m.list a
    (if v % 2 = 1 then [.replace (position m.list a) 1 []] else [.get 0] : List (ListCall Nat)) := by
  split
  · exact .inr rfl
  · refine .inl fun op hop => ⟨0, ?_⟩
    simpa using hop

/-- A callback that removes the entry it is called for and the next one is then called for the entry it has removed. -/
theorem C112_list_fails :
    listCase [1, 2, 3, 4] (fun _ v s _ => (if v = 1 then [.replace 0 2 []] else [], 0, s)) 9 =
      some ([1, 2, 3, 4], some [3, 4]) := by decide +kernel

/-- A callback that removes the entry it is called for and adds one at the end: the new entry takes the place in memory of
    the removed one, and the rest of the list is skipped. -/
theorem C112_list_reuse_fails :
    listCase [1, 2, 3, 4] (fun _ v s _ => (if v = 1 then [.replace 0 1 [], .replace 3 0 [9]] else [], 0, s)) 9 =
      some ([1], some [2, 3, 4, 9]) := by decide +kernel

/-- **C112 (hash tables, partial).** For every key class and every history of the table: a callback that adds no key (it
    may look, remove any keys, remove everything, and replace objects of keys that are there) is called for keys the table
    had at the beginning, in the order of the rows, each at most once; and, if it always returns 0, for every key that is
    still in the table at the end.  Exactly: it is called for each key the table had that is still there when its turn comes,
    with the object the key has then.  It fails only where the table itself fails (`stuck`, C07).
    Missing: callbacks that add keys, for which the property is false (`C112_table_fails`). -/
theorem C112_table_partial {K V : Type} {hash : K → Nat} {eqv : K → K → Bool} (kc : HTable.KeyClass hash eqv)
    (ops : List (HTable.Op K V)) (t : HTable.Table K V) (outs) (hr : HTable.run hash eqv HTable.init ops = .ok (t, outs))
    (cb : Callback S (HTable.Table K V) (K × V) (HTable.Op K V))
    (h : ∀ e s t, Only (tableCall hash eqv) (NoNewKey eqv) t (cb e s t).1) (s : S) :
    tableLoop hash eqv cb t.rows.length 0 s t = eachKey (tableCall hash eqv) cb
      (fun t k => HTable.specGet eqv (HTable.entries t.rows) k) (tableKeys t) s t ∧
    (tableLoop hash eqv cb t.rows.length 0 s t = .stuck ∨
    ∃ r s' t' seen, tableLoop hash eqv cb t.rows.length 0 s t = .ret r s' t' seen ∧
      (seen.map (·.1)).Sublist (tableKeys t) ∧ (seen.map (·.1)).Pairwise (fun a b => eqv a b = false) ∧
      (tableKeys t').Sublist (tableKeys t) ∧ (r = 0 → ∀ k ∈ tableKeys t', k ∈ seen.map (·.1))) := by
  have hi : HTable.Inv hash eqv t := by
    have := HTable.run_ok kc ops HTable.init [] (Or.inl rfl) (List.Perm.refl _)
    rw [hr] at this
    exact this.1
  by_cases hne : t.rows = []
  · have hl : tableLoop hash eqv cb t.rows.length 0 s t = .ret 0 s t [] := by rw [hne]; simp [tableLoop, hne]
    refine ⟨?_, .inr ?_⟩
    · rw [hl]; simp [tableKeys, hne, HTable.entries, eachKey]
    refine ⟨0, s, t, [], ?_, by simp, by simp, List.Sublist.refl _, ?_⟩
    · exact hl
    · intro _ k hk; simp [tableKeys, hne, HTable.entries] at hk
  · refine ⟨?_, ?_⟩
    · have := tableLoop_exact kc cb h t ⟨hi, hne⟩ t.rows.length 0 s t ⟨hi, hne⟩ (.refl _) (by omega)
      rw [List.drop_zero] at this
      exact this
    rcases tableLoop_keeps kc cb h t.rows.length 0 s t ⟨hi, hne⟩ (by omega) with e | ⟨r, s', t', seen, e, q1, q2, q3, q4⟩
    · exact .inl e
    · rw [List.drop_zero] at q3
      refine .inr ⟨r, s', t', seen, e, q3, ?_, q2.sublist, fun h0 k hk => ?_⟩
      · refine List.Pairwise.sublist q3 ?_
        rw [List.pairwise_map]
        exact hi.pairwise
      · unfold tableKeys at hk
        obtain ⟨e, he, rfl⟩ := List.mem_map.mp hk
        obtain ⟨x, hx⟩ := HTable.mem_entries.mp he
        exact q4 h0 x e.1 e.2 (by omega) hx

/-- What is seen and what the table holds in the end, for a table of the given keys. -/
def tableCase (ks : List Nat) (cb : Callback Nat (HTable.Table Nat Nat) (Nat × Nat) (HTable.Op Nat Nat)) (fuel : Nat) :
    Option (List Nat × List Nat) :=
  match HTable.run (fun a : Nat => a) (fun a b => a == b) HTable.init (ks.map fun k => .insert k (10 * k) .always) with
  | .ok (t, _) =>
    match tableLoop (fun a : Nat => a) (fun a b => a == b) cb fuel 0 0 t with
    | .ret _ _ t' seen => some (seen.map (·.1), tableKeys t')
    | _ => none
  | .error _ => none

/-- A callback that removes the next key and replaces the object of its own. -/
example : tableCase [12, 20, 5, 6] (fun e s _ => ([.remove (e.1 + 1), .insert e.1 3 .ifFound], 0, s)) 11 =
    some ([12, 5, 20], [12, 5, 20]) := by decide +kernel

/-- That callback is one the theorem speaks about. -/
example (e : Nat × Nat) (t : HTable.Table Nat Nat) : Only (tableCall (fun a : Nat => a) (fun a b => a == b))
    (NoNewKey (fun a b => a == b)) t [.remove (e.1 + 1), .insert e.1 3 .ifFound] :=
  ⟨trivial, fun _ _ => ⟨.inl rfl, fun _ _ => trivial⟩⟩

/-- A callback that adds a key when it is called for key 6; the table grows from 11 rows to 17.  Key 20, in the table all
    the time, is not visited; key 12 is visited twice. -/
theorem C112_table_fails :
    tableCase [12, 20, 5, 6] (fun e s _ => (if e.1 = 6 then [.insert 7 70 .always] else [], 0, s)) 30 =
      some ([12, 5, 6, 7, 12], [20, 5, 6, 7, 12]) := by decide +kernel

/-- Two keys; the callback adds a third one when it is called for the first.  The tree is rebalanced, and the second key
    is not visited. -/
theorem C112_tree_fails :
    (BTree.run (fun a b : Int => b - a) BTree.init [.insert 1 10 .always, .insert 2 20 .always]).map
      (fun t => treeLoop (fun a b : Int => b - a) (fun e (s : Unit) _ => (if e.1 = 1 then [⟨3, 30, .always⟩] else [], 0, s)) 9
        (ptr t.1.root) () t.1.root |> fun e => match e with | .ret r _ t' seen => (r, seen, treeKeys t') | _ => (-1, [], [])) =
      some (0, [(1, 10)], [1, 2, 3]) := by decide +kernel

end Foreach
end Duck
