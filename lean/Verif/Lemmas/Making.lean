import Verif.Spec.Making
import Mathlib.Data.List.Induction
import Verif.Lemmas.Dictionary
import Verif.Lemmas.BinaryTree
import Verif.Lemmas.Array
/-! Lemmas about collections made of given objects. -/
namespace Duck
namespace Make
open HTable
variable {K V O : Type}

theorem vaObjects_ended (xs : List O) (rest : List (Option O)) : vaObjects (ended xs rest) = some xs := by
  induction xs with
  | nil => rfl
  | cons x xs ih => show (vaObjects (ended xs rest)).map _ = _; rw [ih]; rfl

theorem vaPairs_flat (ps : List (O × Option O)) (rest : List (Option O)) : vaPairs (flat ps ++ none :: rest) = some ps := by
  induction ps with
  | nil => rfl
  | cons p ps ih => show (vaPairs (flat ps ++ none :: rest)).map _ = _; rw [ih]; rfl

theorem refKeys {hash : O → Nat} {eqv : O → O → Bool} (kc : KeyClass hash eqv) : KeyClass (refHash hash) (refEq eqv) where
  refl a := by cases a <;> simp [refEq, kc.refl]
  symm a b := by cases a <;> cases b <;> simp [refEq]; exact kc.symm _ _
  trans a b c := by cases a <;> cases b <;> cases c <;> simp [refEq]; exact kc.trans _ _ _
  hash_eq a b := by cases a <;> cases b <;> simp [refEq, refHash]; exact kc.hash_eq _ _

theorem wanted_append {eqv : K → K → Bool} {cp : K → K} (ps : List (K × V)) (e : K × V) (q : K) :
    wanted eqv cp (ps ++ [e]) q = if eqv e.1 q then Dict.putRow .always (cp e.1) e.2 (wanted eqv cp ps q) else wanted eqv cp ps q := by
  have hn : ps.find? (fun e => eqv e.1 q) = none ↔ ps.reverse.find? (fun e => eqv e.1 q) = none := by simp [List.find?_eq_none]
  unfold wanted
  rw [List.find?_append, List.reverse_append]
  by_cases he : eqv e.1 q = true
  · cases h1 : ps.find? fun e => eqv e.1 q with
    | none => rw [hn.1 h1]; simp [he, Dict.putRow]
    | some a =>
        cases h2 : ps.reverse.find? fun e => eqv e.1 q with
        | none => rw [hn.2 h2] at h1; cases h1
        | some b => simp [he, Dict.putRow]
  · cases h1 : ps.find? fun e => eqv e.1 q with
    | none => rw [hn.1 h1]; simp [he, hn.1 h1]
    | some a =>
        cases h2 : ps.reverse.find? fun e => eqv e.1 q with
        | none => rw [hn.2 h2] at h1; cases h1
        | some b => simp [he, h2]

theorem foldlM_snoc_ok {ε α β : Type} {f : β → α → Except ε β} {l : List α} {a : α} {b r : β} (h : (l ++ [a]).foldlM f b = .ok r) :
    ∃ b', l.foldlM f b = .ok b' ∧ f b' a = .ok r := by
  rw [List.foldlM_append] at h
  obtain ⟨b', h1, h2⟩ := Dict.bindOk h
  refine ⟨b', h1, ?_⟩
  rw [List.foldlM_cons] at h2
  obtain ⟨b2, h3, h4⟩ := Dict.bindOk h2
  cases h4
  exact h3

theorem eq_of_key {hash : K → Nat} {eqv : K → K → Bool} (kc : KeyClass hash eqv) {a b c : K} (h : eqv a b = true) : eqv c a = eqv c b := by
  rw [Dict.kc_comm kc c a, Dict.kc_comm kc c b]
  exact Dict.kc_congr kc h c

/-- A hash table filled by insertions. -/
theorem hash_fold {hash : K → Nat} {eqv : K → K → Bool} {cp : K → K} (kc : KeyClass hash eqv) (hcp : ∀ k, eqv (cp k) k = true) (ps : List (K × V)) :
    ∀ {t : HTable.Table K V}, ps.foldlM (fun t e => (HTable.insert hash eqv t (cp e.1) e.2 .always).map (·.1)) HTable.init = .ok t →
    Inv hash eqv t ∧ ∀ q, Dict.entry eqv t q = wanted eqv cp ps q := by
  induction ps using List.reverseRecOn with
  | nil => intro t h; cases h; exact ⟨Or.inl rfl, fun _ => rfl⟩
  | append_singleton ps e ih =>
      intro t h
      obtain ⟨t1, h1, h2⟩ := foldlM_snoc_ok h
      obtain ⟨hi, he⟩ := ih h1
      obtain ⟨⟨t2, b⟩, h3, h4⟩ := Dict.mapOk h2
      cases h4
      obtain ⟨h5, h6⟩ := Dict.insert_entry kc hi h3
      refine ⟨h5, fun q => ?_⟩
      rw [h6 q, he q, wanted_append, Dict.kc_congr kc (hcp e.1) q]

theorem treeKeys {cmp : K → K → Int} (hc : Spec.TotalPreorder cmp) : KeyClass (fun _ => 0) (BTree.keyEq cmp) := by
  have hz : ∀ a b, BTree.keyEq cmp a b = true ↔ 0 ≤ cmp a b ∧ 0 ≤ cmp b a := by
    intro a b
    have h1 := hc.antisymm a b
    have h2 := hc.antisymm b a
    simp only [BTree.keyEq, beq_iff_eq]
    omega
  refine ⟨fun a => ?_, fun a b h => ?_, fun a b c h1 h2 => ?_, fun _ _ _ => rfl⟩
  · have := hc.antisymm a a
    rw [hz]; omega
  · rw [hz] at h ⊢; exact ⟨h.2, h.1⟩
  · rw [hz] at h1 h2 ⊢; exact ⟨hc.trans _ _ _ h1.1 h2.1, hc.trans _ _ _ h2.2 h1.2⟩

theorem sorted_distinct {cmp : K → K → Int} {m : List (K × V)} (h : BTree.StrictlySorted cmp m) : Dict.Distinct (BTree.keyEq cmp) m := by
  refine List.Pairwise.imp ?_ h
  intro a b hab
  have : cmp a.1 b.1 ≠ 0 := by omega
  simpa [BTree.keyEq] using this

/-- A tree filled by insertions. -/
theorem tree_fold {cmp : K → K → Int} {cp : K → K} (hc : Spec.TotalPreorder cmp) (hcp : ∀ k, cmp (cp k) k = 0) (ps : List (K × V)) :
    ∃ t, ps.foldlM (fun t e => BTree.insert cmp t (cp e.1) e.2 .always) BTree.init = some t ∧ BTree.Good cmp t ∧
      ∀ q, (BTree.toList t.root).find? (fun e => BTree.keyEq cmp e.1 q) = wanted (BTree.keyEq cmp) cp ps q := by
  induction ps using List.reverseRecOn with
  | nil => exact ⟨_, rfl, BTree.init_good, fun _ => rfl⟩
  | append_singleton ps e ih =>
      obtain ⟨t, h1, h2, h3⟩ := ih
      obtain ⟨t', h4, h5, h6⟩ := BTree.step_ok hc h2 (List.Perm.refl _) (.insert (cp e.1) e.2 .always)
      have h7 : BTree.insert cmp t (cp e.1) e.2 .always = some t' := by
        simp only [BTree.step, BTree.specStep] at h4
        cases h8 : BTree.insert cmp t (cp e.1) e.2 .always with
        | none => rw [h8] at h4; cases h4
        | some x => rw [h8] at h4; cases h4; rfl
      refine ⟨t', ?_, h5, fun q => ?_⟩
      · rw [List.foldlM_append, h1]
        show (BTree.insert cmp t (cp e.1) e.2 .always).bind _ = _
        rw [h7]; rfl
      · have kc := treeKeys hc
        rw [Dict.find_perm kc h6 (sorted_distinct h5.sorted), BTree.specStep, Dict.find_insert kc, h3 q, wanted_append,
          Dict.kc_congr kc (show BTree.keyEq cmp (cp e.1) e.1 = true by simp [BTree.keyEq, hcp]) q]

/-- In a set the entry for `q` holds the object given last among those equal to `q`. -/
theorem wanted_set {hash : K → Nat} {eqv : K → K → Bool} (kc : KeyClass hash eqv) (xs : List K) (x : K) :
    (∃ k, wanted eqv id (xs.map fun x => (x, x)) k = some (k, x)) ↔ LastOf eqv xs x := by
  have hw : ∀ k, wanted eqv id (xs.map fun x => (x, x)) k =
      match xs.find? fun e => eqv e k, xs.reverse.find? fun e => eqv e k with
      | some a, some b => some (a, b)
      | _, _ => none := by
    intro k
    have h1 : (xs.map fun x => (x, x)).find? (fun e => eqv e.1 k) = (xs.find? fun e => eqv e k).map fun x => (x, x) := List.find?_map ..
    have h2 : (xs.map fun x => (x, x)).reverse.find? (fun e => eqv e.1 k) = (xs.reverse.find? fun e => eqv e k).map fun x => (x, x) := by
      rw [← List.map_reverse]; exact List.find?_map ..
    unfold wanted
    rw [h1, h2]
    cases xs.find? fun e => eqv e k <;> cases xs.reverse.find? fun e => eqv e k <;> rfl
  constructor
  · rintro ⟨k, h⟩
    rw [hw] at h
    cases h1 : xs.find? fun e => eqv e k with
    | none => rw [h1] at h; cases h
    | some a =>
        cases h2 : xs.reverse.find? fun e => eqv e k with
        | none => rw [h1, h2] at h; cases h
        | some b =>
            rw [h1, h2] at h
            cases h
            obtain ⟨h3, as, bs, h4, h5⟩ := List.find?_eq_some_iff_append.1 h2
            refine ⟨bs.reverse, as.reverse, ?_, fun y hy => ?_⟩
            · have := congrArg List.reverse h4
              simpa using this
            · have h6 := h5 y (by simpa using hy)
              rw [eq_of_key kc h3]
              simpa using h6
  · rintro ⟨a, b, rfl, hb⟩
    have h2 : (a ++ x :: b).reverse.find? (fun e => eqv e x) = some x := by
      rw [List.find?_eq_some_iff_append]
      refine ⟨kc.refl x, b.reverse, a.reverse, by simp, fun y hy => ?_⟩
      simpa using hb y (by simpa using hy)
    have h1 : ∃ k, (a ++ x :: b).find? (fun e => eqv e x) = some k ∧ eqv k x = true := by
      cases h : (a ++ x :: b).find? fun e => eqv e x with
      | none =>
          rw [List.find?_eq_none] at h
          exact absurd (kc.refl x) (h x (by simp))
      | some k => exact ⟨k, rfl, by simpa using List.find?_some h⟩
    obtain ⟨k, h3, h4⟩ := h1
    refine ⟨k, ?_⟩
    have hcong : (fun e => eqv e k) = fun e => eqv e x := by funext e; exact eq_of_key kc h4
    rw [hw, hcong, h3, h2]

theorem setInit_dup {hash : K → Nat} {eqv : K → K → Bool} (xs : List K) (s : Dict.HSet K) :
    xs.foldlM (fun s x => (HTable.insert hash eqv s x x .always).map (·.1)) s =
      (xs.map fun x => (x, x)).foldlM (fun t (e : K × K) => (HTable.insert hash eqv t (id e.1) e.2 .always).map (·.1)) s := by
  rw [List.foldlM_map]
  rfl

/-- A set made of objects. -/
theorem setInit_members {hash : K → Nat} {eqv : K → K → Bool} (kc : KeyClass hash eqv) {xs : List K} {s : Dict.HSet K} (h : Dict.setInit hash eqv xs = .ok s) :
    (∀ x, x ∈ Dict.members s ↔ LastOf eqv xs x) ∧ (Dict.members s).Pairwise (fun a b => eqv a b = false) ∧ s.activeCount = (Dict.members s).length := by
  unfold Dict.setInit at h
  have hs := Dict.setInit_inv kc Dict.emptySet_inv h
  rw [setInit_dup] at h
  obtain ⟨hi, he⟩ := hash_fold (cp := id) kc kc.refl _ h
  refine ⟨fun x => ?_, ?_, ?_⟩
  · rw [← wanted_set kc]
    constructor
    · intro hx
      obtain ⟨e, h1, rfl⟩ := List.mem_map.1 hx
      refine ⟨e.1, ?_⟩
      rw [← he, (Dict.mem_entry kc hi e).1 h1]
    · rintro ⟨k, hk⟩
      rw [← he] at hk
      exact List.mem_map.2 ⟨(k, x), (Dict.mem_entry kc hi _).2 hk, rfl⟩
  · unfold Dict.members
    rw [List.pairwise_map]
    refine List.Pairwise.imp_of_mem ?_ hi.pairwise
    intro a b ha hb hab
    have h1 := hs.1.own a ha
    have h2 := hs.1.own b hb
    rw [← Dict.kc_congr kc h1, ← eq_of_key kc h2]
    exact hab
  · rw [hi.count, Dict.members, List.length_map]

theorem treeAdd_fold (cmp : O → O → Int) : ∀ (xs : List (Option O)) (t : BTree.Tree O O),
    xs.foldlM (treeAdd cmp) t = ((xs.filterMap id).map fun x => (x, x)).foldlM (fun t (e : O × O) => BTree.insert cmp t (id e.1) e.2 .always) t
  | [], _ => rfl
  | none :: xs, t => by
      rw [List.foldlM_cons]
      exact treeAdd_fold cmp xs t
  | some x :: xs, t => by
      rw [List.foldlM_cons]
      show (BTree.insert cmp t x x .always).bind _ = (BTree.insert cmp t x x .always).bind _
      congr 1
      funext t'
      exact treeAdd_fold cmp xs t'

theorem count_some (xs : List Nat) (o : Nat) : (xs.map some).count (some o) = xs.count o := by
  induction xs with
  | nil => rfl
  | cons x xs ih => simp [List.count_cons, ih]

theorem appendOne_fold {ext : Nat → Nat} : ∀ (ys : List Nat) (s : Arr.Heap × GArray Arr.Ref) (xs : List Arr.Ref), GArray.Rep s.2 xs →
    (∀ o, s.1 o = xs.count (some o) + ext o) → (∀ y ∈ ys, 0 < ext y) →
    ∃ s', ys.foldlM appendOne s = some s' ∧ GArray.Rep s'.2 (xs ++ ys.map some) ∧ ∀ o, s'.1 o = (xs ++ ys.map some).count (some o) + ext o
  | [], s, xs, hr, hc, _ => ⟨s, rfl, by simpa using hr, by simpa using hc⟩
  | y :: ys, s, xs, hr, hc, hv => by
      obtain ⟨h', a', h1, h2, h3⟩ := Arr.replaceCArray_ok hr hc s.2.length 0 (fun h => absurd ⟨by omega, by omega, by rw [hr.1]; omega⟩ h) [some y] (Or.inl fun o ho => by
        simp at ho; subst ho; exact hv o (by simp))
      have he : Arr.replaced xs s.2.length 0 [some y] = xs ++ [some y] := by
        unfold Arr.replaced
        rw [hr.1, if_pos (by omega)]
        simp [Spec.splice]
      rw [he] at h2 h3
      obtain ⟨s', h4, h5, h6⟩ := appendOne_fold ys (h', a') _ h2 h3 (fun z hz => hv z (by simp [hz]))
      refine ⟨s', ?_, by simpa using h5, by simpa using h6⟩
      rw [List.foldlM_cons]
      show (Arr.replaceCArray s.1 s.2 s.2.length 0 [some y]).bind _ = _
      rw [h1]
      exact h4

end Make
end Duck
