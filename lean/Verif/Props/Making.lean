import Verif.Lemmas.Making
/-! C109: collections made of given objects. -/
namespace Duck
namespace Make
open HTable
variable {O : Type}

/-- Arguments that end with NULL are read up to it; those of a dictionary up to a NULL in the place of a key. -/
theorem C109_arguments (xs : List O) (ps : List (O × Option O)) (rest : List (Option O)) :
    vaObjects (ended xs rest) = some xs ∧ vaPairs (flat ps ++ none :: rest) = some ps :=
  ⟨vaObjects_ended xs rest, vaPairs_flat ps rest⟩

/-- A dictionary's arguments that end with a NULL in the place of an object: the program reads arguments that were not given. -/
theorem C109_arguments_fails (ps : List (O × Option O)) (k : O) : vaPairs (flat ps ++ [some k, none]) = none := by
  induction ps with
  | nil => rfl
  | cons p ps ih => show (vaPairs (flat ps ++ [some k, none])).map _ = _; rw [ih]; rfl

/-- Arrays: the objects in the order given, each retained once for each time it was given.  `h` are the reference counts before. -/
theorem C109_array (h : Arr.Heap) (xs : List Nat) (hx : ∀ x ∈ xs, 0 < h x) (rest : List (Option Nat)) :
    ∃ h' a, arrayVA h (ended xs rest) = some (h', a) ∧ GArray.Observes a (xs.map some) ∧ ∀ o, h' o = h o + xs.count o := by
  obtain ⟨⟨h', a⟩, h1, h2, h3⟩ := appendOne_fold (ext := h) xs (h, GArray.init) [] GArray.Rep_init (by simp) hx
  refine ⟨h', a, ?_, ⟨h2.1, h2.get_eq⟩, fun o => ?_⟩
  · rw [arrayVA, vaObjects_ended]; exact h1
  · have := h3 o
    rw [List.nil_append, count_some] at this
    show h' o = _
    have h4 : h' o = xs.count o + h o := this
    omega

/-- Arrays of a C array or another collection: all objects in their order, NULLs included. -/
theorem C109_array_of (h : Arr.Heap) (xs : List (Option Nat)) (hx : ∀ x, some x ∈ xs → 0 < h x) :
    (∃ h' a, arrayC h xs = some (h', a) ∧ GArray.Observes a xs ∧ ∀ o, h' o = h o + xs.count (some o)) ∧
    (∃ h' a, arrayColl h xs = some (h', a) ∧ GArray.Observes a xs ∧ ∀ o, h' o = h o + xs.count (some o)) := by
  have he : Arr.replaced [] 0 0 xs = xs := by simp [Arr.replaced, Spec.splice]
  obtain ⟨h1, a1, e1, r1, c1⟩ := Arr.replaceCArray_ok (ext := h) (h := h) GArray.Rep_init (by simp) 0 0 (fun _ => by decide) xs (Or.inl hx)
  obtain ⟨h2, a2, e2, r2, c2⟩ := Arr.replaceOther_ok (ext := h) (h := h) GArray.Rep_init (by simp) 0 0 (fun _ => by decide) xs hx
  rw [he] at r1 c1 r2 c2
  exact ⟨⟨h1, a1, e1, ⟨r1.1, r1.get_eq⟩, fun o => by rw [c1]; omega⟩, ⟨h2, a2, e2, ⟨r2.1, r2.get_eq⟩, fun o => by rw [c2]; omega⟩⟩

example : ∃ h a, arrayVA (fun _ => 1) [some 7, some 5, some 7, none, some 9] = some (h, a) ∧ a.length = 3 ∧ a.get 1 = some (some (some 5)) ∧ h 7 = 3 :=
  ⟨_, _, rfl, rfl, rfl, rfl⟩

/-- Sets (hash tables): of equal objects the one given last, no two equal members, and the count of them. -/
theorem C109_set_partial {hash : O → Nat} {eqv : O → O → Bool} (kc : KeyClass hash eqv) {xs : List O} {rest : List (Option O)} {s : Dict.HSet (Option O)}
    (h : hashSetVA hash eqv (ended xs rest) = some (.ok s)) :
    (∀ x, x ∈ Dict.members s ↔ ∃ o, x = some o ∧ LastOf eqv xs o) ∧ (Dict.members s).Pairwise (fun a b => refEq eqv a b = false) ∧
      s.activeCount = (Dict.members s).length ∧ ∀ q b, contains hash eqv s (some q) = .ok b → (b = true ↔ ∃ o ∈ xs, eqv o q = true) := by
  rw [hashSetVA, vaObjects_ended] at h
  have h' : Dict.setInit (refHash hash) (refEq eqv) (xs.map some) = .ok s := Option.some.inj h
  obtain ⟨h1, h2, h3⟩ := setInit_members (refKeys kc) h'
  refine ⟨fun x => ?_, h2, h3, fun q b hb => ?_⟩
  · rw [h1 x]
    constructor
    · rintro ⟨a, b, e, hb⟩
      obtain ⟨a', l, e1, e2, e3⟩ := List.map_eq_append_iff.1 e
      obtain ⟨o, b', e4, e5, e6⟩ := List.map_eq_cons_iff.1 e3
      refine ⟨o, e5.symm, a', b', by rw [e1, e4], fun y hy => ?_⟩
      have := hb (some y) (by rw [← e6]; exact List.mem_map_of_mem hy)
      rw [← e5] at this
      exact this
    · rintro ⟨o, rfl, a, b, rfl, hb⟩
      refine ⟨a.map some, b.map some, by simp, fun y hy => ?_⟩
      obtain ⟨z, hz, rfl⟩ := List.mem_map.1 hy
      exact hb z hz
  · obtain ⟨hs, hin⟩ := Dict.setInit_inv (refKeys kc) Dict.emptySet_inv h'
    obtain ⟨r, e1, e2⟩ := Dict.mapOk hb
    obtain ⟨r', e3, e4⟩ := Dict.mapOk e1
    have e5 := Dict.get_entry (refKeys kc) hs.inv e3
    have e6 : b = true ↔ Dict.In (refEq eqv) s (some q) := by
      rw [Dict.in_iff (refKeys kc) hs, ← e2, ← e4, e5]
      cases h7 : Dict.entry (refEq eqv) s (some q) with
      | none => simp
      | some e =>
          have h8 := (Dict.entry_some (refKeys kc) hs.inv).1 h7
          have h9 : e.2 ∈ Dict.members s := List.mem_map_of_mem h8.1
          rw [h1] at h9
          obtain ⟨a, c, h10, _⟩ := h9
          have h11 : e.2 ∈ xs.map some := by rw [h10]; simp
          obtain ⟨o, _, h12⟩ := List.mem_map.1 h11
          simp [← h12]
    rw [e6, hin]
    constructor
    · rintro (⟨y, hy, _⟩ | ⟨x, hx, hxq⟩)
      · cases hy
      · obtain ⟨o, ho, rfl⟩ := List.mem_map.1 hx
        exact ⟨o, ho, hxq⟩
    · rintro ⟨o, ho, hq⟩
      exact Or.inr ⟨some o, List.mem_map_of_mem ho, hq⟩

/-- Numbers that are equal modulo ten. -/
def lastDigit (a b : Nat) : Bool := a % 10 == b % 10

theorem lastDigit_keys : KeyClass (fun a => a % 10) lastDigit :=
  ⟨by simp [lastDigit], by simp [lastDigit]; omega, by simp [lastDigit]; omega, by simp [lastDigit]⟩

example : ∃ s, hashSetVA (fun a => a % 10) lastDigit (ended [12, 3, 22, 5] []) = some (.ok s) ∧ Dict.members s = [some 22, some 3, some 5] ∧ s.activeCount = 3 :=
  ⟨_, rfl, rfl, rfl⟩

/-- A set made of a C array or collection that contains NULL has a NULL as a member, counts it and yet says that it does not contain it. -/
theorem C109_null_fails : ∃ s, hashSet (fun a => a % 10) lastDigit [none, some 5] = .ok s ∧ Dict.members s = [none, some 5] ∧ s.activeCount = 2 ∧
    contains (fun a => a % 10) lastDigit s none = .ok false := ⟨_, rfl, rfl, rfl, rfl⟩

/-- Dictionaries (hash tables): for each key a copy of the key given first and the object given last; no key twice; the count of them. -/
theorem C109_dictionary_partial {hash : O → Nat} {eqv : O → O → Bool} {cp : O → O} (kc : KeyClass hash eqv) (hcp : ∀ k, eqv (cp k) k = true)
    {ps : List (O × Option O)} {rest : List (Option O)} {d : Dict.Dict O O} (h : hashDictVA hash eqv cp (flat ps ++ none :: rest) = some (.ok d)) :
    (∀ q, Dict.entry eqv d q = wanted eqv cp ps q) ∧ (entries d.rows).Pairwise (fun a b => eqv a.1 b.1 = false) ∧
      (∀ e, e ∈ entries d.rows ↔ wanted eqv cp ps e.1 = some e) ∧ Dict.getCount d = (entries d.rows).length ∧
      ∀ q o, Dict.getObject hash eqv d q = .ok o → o = (wanted eqv cp ps q).bind (·.2) := by
  rw [hashDictVA, vaPairs_flat] at h
  have h' : hashDict hash eqv cp ps = .ok d := Option.some.inj h
  obtain ⟨hi, he⟩ := hash_fold kc hcp ps h'
  refine ⟨he, hi.pairwise, fun e => by rw [Dict.mem_entry kc hi, he], hi.count, fun q o ho => ?_⟩
  obtain ⟨r, h1, h2⟩ := Dict.mapOk ho
  rw [← h2, Dict.get_entry kc hi h1, he]
  cases wanted eqv cp ps q <;> rfl

example : ∃ d, hashDictVA (fun a => a % 10) lastDigit id (flat [(12, some 1), (3, none), (22, some 4)] ++ [none]) = some (.ok d) ∧
    entries d.rows = [(12, some 4), (3, none)] ∧ wanted lastDigit id [(12, some 1), (3, none), (22, some 4)] 2 = some (12, some 4) := ⟨_, rfl, rfl, rfl⟩

/-- Sets (trees): the same, NULLs left out, in the order of the comparison; they can always be made. -/
theorem C109_tree_set {cmp : O → O → Int} (hc : Spec.TotalPreorder cmp) (xs : List (Option O)) :
    ∃ t, treeSet cmp xs = some t ∧ (∀ x, x ∈ (BTree.contents t).map (·.2) ↔ LastOf (BTree.keyEq cmp) (xs.filterMap id) x) ∧
      ((BTree.contents t).map (·.2)).Pairwise (fun a b => 0 < cmp a b) ∧ t.count = (BTree.contents t).length := by
  have kc := treeKeys hc
  obtain ⟨t, h1, h2, h3⟩ := tree_fold (cp := id) hc (fun k => by
    have := kc.refl k
    simpa [BTree.keyEq] using this) ((xs.filterMap id).map fun x => (x, x))
  have hd := sorted_distinct h2.sorted
  have hown : ∀ e ∈ BTree.toList t.root, BTree.keyEq cmp e.2 e.1 = true := by
    intro e he
    have h4 := (Dict.find_some_iff kc hd e.1 e).2 ⟨he, kc.refl _⟩
    rw [h3] at h4
    obtain ⟨a, b, hab, hb⟩ := (wanted_set kc _ e.2).1 ⟨e.1, h4⟩
    unfold wanted at h4
    cases h5 : (((xs.filterMap id).map fun x => (x, x)).find? fun x => BTree.keyEq cmp x.1 e.1) with
    | none => rw [h5] at h4; cases h4
    | some p =>
        cases h6 : (((xs.filterMap id).map fun x => (x, x)).reverse.find? fun x => BTree.keyEq cmp x.1 e.1) with
        | none => rw [h5, h6] at h4; cases h4
        | some r =>
            rw [h5, h6] at h4
            have h7 : r.2 = e.2 := by
              have h10 : some (id p.1, r.2) = some e := h4
              rw [← Option.some.inj h10]
            have h8 : BTree.keyEq cmp r.1 e.1 = true := by simpa using List.find?_some h6
            have h9 : r ∈ ((xs.filterMap id).map fun x => (x, x)).reverse := List.mem_of_find?_eq_some h6
            obtain ⟨z, _, rfl⟩ := List.mem_map.1 (List.mem_reverse.1 h9)
            rw [← h7]
            exact h8
  refine ⟨t, by rw [treeSet, treeAdd_fold]; exact h1, fun x => ?_, ?_, ?_⟩
  · rw [BTree.contents_eq, ← wanted_set kc]
    constructor
    · intro hx
      obtain ⟨e, he, rfl⟩ := List.mem_map.1 hx
      exact ⟨e.1, by rw [← h3]; exact (Dict.find_some_iff kc hd e.1 e).2 ⟨he, kc.refl _⟩⟩
    · rintro ⟨k, hk⟩
      rw [← h3] at hk
      exact List.mem_map.2 ⟨(k, x), List.mem_of_find?_eq_some hk, rfl⟩
  · rw [BTree.contents_eq, List.pairwise_map]
    refine List.Pairwise.imp_of_mem ?_ h2.sorted
    intro a b ha hb hab
    have e1 : cmp a.2 a.1 = 0 := by simpa [BTree.keyEq] using hown a ha
    have e2 : cmp b.2 b.1 = 0 := by simpa [BTree.keyEq] using hown b hb
    have t1 := hc.antisymm a.1 a.2
    have t2 := hc.antisymm a.2 a.1
    have t3 := hc.antisymm b.1 b.2
    have t4 := hc.antisymm b.2 b.1
    have t5 := hc.antisymm a.1 b.1
    have t6 := hc.antisymm a.2 b.2
    have t7 := hc.antisymm b.2 a.2
    apply Classical.byContradiction
    intro hn
    have u1 := hc.trans b.2 a.2 a.1 (by omega) (by omega)
    have u2 := hc.trans b.1 b.2 a.1 (by omega) u1
    omega
  · rw [h2.count, BTree.contents_eq]

/-- The same for arguments that end with NULL. -/
theorem C109_tree_set_arguments {cmp : O → O → Int} (xs : List O) (rest : List (Option O)) : treeSetVA cmp (ended xs rest) = treeSet cmp (xs.map some) := by
  rw [treeSetVA, vaObjects_ended]; rfl

/-- Dictionaries (trees): the same, in the order of the keys; they can always be made. -/
theorem C109_tree_dictionary {cmp : O → O → Int} {cp : O → O} (hc : Spec.TotalPreorder cmp) (hcp : ∀ k, cmp (cp k) k = 0) (ps : List (O × Option O))
    (rest : List (Option O)) :
    ∃ t, treeDictVA cmp cp (flat ps ++ none :: rest) = some t ∧ BTree.StrictlySorted cmp (BTree.contents t) ∧ t.count = (BTree.contents t).length ∧
      (∀ q, (BTree.contents t).find? (fun e => BTree.keyEq cmp e.1 q) = wanted (BTree.keyEq cmp) cp ps q) ∧
      ∀ q, BTree.find cmp q t.root = (wanted (BTree.keyEq cmp) cp ps q).map (·.2) := by
  obtain ⟨t, h1, h2, h3⟩ := tree_fold hc hcp ps
  refine ⟨t, by rw [treeDictVA, vaPairs_flat]; exact h1, ?_, ?_, ?_, fun q => ?_⟩
  · rw [BTree.contents_eq]; exact h2.sorted
  · rw [h2.count, BTree.contents_eq]
  · rw [BTree.contents_eq]; exact h3
  · rw [← h3, BTree.find_eq hc q _ h2.sorted]; rfl

/-- Numbers in order of their last digit. -/
def byDigit (a b : Nat) : Int := (b % 10 : Nat) - (a % 10 : Nat)

theorem byDigit_order : Spec.TotalPreorder byDigit := ⟨fun a b => by unfold byDigit; omega, fun a b c => by unfold byDigit; omega⟩

example : ∃ t, treeSet byDigit [some 12, some 3, none, some 22, some 1] = some t ∧ (BTree.contents t).map (·.2) = [1, 22, 3] := ⟨_, rfl, rfl⟩
example : ∃ t, treeDictVA byDigit id (flat [(12, some 1), (3, none), (22, some 4)] ++ [none]) = some t ∧
    BTree.contents t = [(12, some 4), (3, none)] := ⟨_, rfl, rfl⟩

/-- Lists without equal objects: the members of the set of the objects, each once. -/
theorem C109_list_set_partial {hash : Nat → Nat} {eqv : Nat → Nat → Bool} (kc : KeyClass hash eqv) (h : Arr.Heap) {xs : List Nat} (hx : ∀ x ∈ xs, 0 < h x)
    {r : Option (Arr.Heap × GArray Arr.Ref)} (hr : listSet hash eqv h (xs.map some) = .ok r) :
    ∃ h' a, ∃ ys : List Nat, r = some (h', a) ∧ GArray.Observes a (ys.map some) ∧ (∀ y, y ∈ ys ↔ LastOf eqv xs y) ∧ ys.Pairwise (fun a b => eqv a b = false) ∧
      ∀ o, h' o = h o + ys.count o := by
  obtain ⟨s, h1, h2⟩ := Dict.mapOk hr
  have hva : hashSetVA hash eqv (ended xs []) = some (.ok s) := by rw [hashSetVA, vaObjects_ended]; exact congrArg some h1
  obtain ⟨m1, m2, _, _⟩ := C109_set_partial kc hva
  obtain ⟨ys, hys⟩ : ∃ ys : List Nat, Dict.members s = ys.map some := by
    refine ⟨(Dict.members s).filterMap id, ?_⟩
    have hall : ∀ (l : List (Option Nat)), (∀ x ∈ l, ∃ o, x = some o) → l = (l.filterMap id).map some := by
      intro l
      induction l with
      | nil => intro _; rfl
      | cons a l ih =>
          intro hl
          obtain ⟨o, rfl⟩ := hl a (by simp)
          exact congrArg (some o :: ·) (ih fun x hx => hl x (by simp [hx]))
    exact hall _ fun x hx => by
      obtain ⟨o, ho, _⟩ := (m1 x).1 hx
      exact ⟨o, ho⟩
  have hmem : ∀ y, y ∈ ys ↔ LastOf eqv xs y := by
    intro y
    have := m1 (some y)
    rw [hys] at this
    simpa using this
  have hin : ∀ x, some x ∈ ys.map some → 0 < h x := by
    intro x hxm
    have h3 : x ∈ ys := by simpa using hxm
    obtain ⟨a, b, e, _⟩ := (hmem x).1 h3
    exact hx x (by rw [e]; simp)
  obtain ⟨h', a, e1, e2, e3⟩ := (C109_array_of h (ys.map some) hin).2
  refine ⟨h', a, ys, ?_, e2, hmem, ?_, fun o => ?_⟩
  · rw [← h2, hys]; exact e1
  · rw [hys, List.pairwise_map] at m2
    exact m2
  · rw [e3, count_some]

/-- Their order is that of the set, not that of the objects given. -/
theorem C109_list_set_fails : ∃ h a, listSet (fun a => a % 10) lastDigit (fun _ => 1) [some 2, some 1] = .ok (some (h, a)) ∧
    a.get 0 = some (some (some 1)) ∧ a.get 1 = some (some (some 2)) := ⟨_, _, rfl, rfl, rfl⟩

end Make
end Duck
