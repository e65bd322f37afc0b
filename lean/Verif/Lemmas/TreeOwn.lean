import Verif.Spec.TreeOwn
import Verif.Lemmas.BinaryTree
/-! Helper lemmas for C97. -/
namespace Duck
namespace TreeOwn
open BTree
open HTable (Policy)

/-! ### The rotations keep the entries -/

theorem skew_toList {K V : Type} {t t' : Node K V} (h : skew t = some t') : toList t' = toList t := by
  cases t with
  | nil => cases h; rfl
  | node l k v lev r =>
    simp only [skew] at h
    split at h
    · cases l with
      | nil => cases h
      | node => cases h; simp
    · cases h; rfl

theorem split_toList {K V : Type} {t t' : Node K V} (h : split t = some t') : toList t' = toList t := by
  cases t with
  | nil => cases h
  | node l k v lev r =>
    simp only [split] at h
    split at h
    · cases r with
      | nil => cases h
      | node => cases h; simp
    · cases h; rfl

theorem onRight_toList {K V : Type} {f : Node K V → Option (Node K V)} (hf : ∀ {t t'}, f t = some t' → toList t' = toList t) {t t' : Node K V}
    (h : onRight f t = some t') : toList t' = toList t := by
  cases t with
  | nil =>
    simp only [onRight, Option.bind_eq_some_iff] at h
    obtain ⟨u, hu, h⟩ := h
    cases u with
    | nil => cases h; rfl
    | node => cases h
  | node l k v lev r =>
    simp only [onRight, Option.map_eq_some_iff] at h
    obtain ⟨u, hu, rfl⟩ := h
    simp [hf hu]

theorem rebalance_toList {K V : Type} {l : Node K V} {k v lev r t} (h : rebalance l k v lev r = some t) : toList t = toList l ++ (k, v) :: toList r := by
  simp only [rebalance] at h
  split at h
  · simp only [Option.bind_eq_some_iff] at h
    obtain ⟨t1, h1, t2, h2, t3, h3, t4, h4, t5, h5, h6⟩ := h
    rw [onRight_toList split_toList h6, split_toList h5, onRight_toList (onRight_toList skew_toList) h4, onRight_toList skew_toList h3, skew_toList h2]
    simp only [lower] at h1
    split at h1
    · simp only [Option.map_eq_some_iff] at h1
      obtain ⟨u, hu, rfl⟩ := h1
      cases r with
      | nil => cases hu
      | node => cases hu; simp
    · cases h1; simp
  · cases h; simp

/-! ### What the operations do to objects -/

/-- Only comparisons, of the keys of the entries `m` and those in `ks`. -/
def Uses (m : List (Id × Option Id)) (ks : List Id) (us : List Ev) : Prop :=
  ∀ e ∈ us, ∃ x, e = .use x ∧ ((∃ n ∈ m, n.1 = x) ∨ x ∈ ks)

theorem Uses.mono {m m' : List (Id × Option Id)} {ks ks' : List Id} {us : List Ev} (h : Uses m ks us)
    (hm : ∀ n ∈ m, n ∈ m' ∨ n.1 ∈ ks') (hk : ∀ x ∈ ks, (∃ n ∈ m', n.1 = x) ∨ x ∈ ks') : Uses m' ks' us := by
  intro e he
  obtain ⟨x, rfl, hx⟩ := h e he
  refine ⟨x, rfl, ?_⟩
  rcases hx with ⟨n, hn, rfl⟩ | hx
  · rcases hm n hn with h1 | h1
    · exact .inl ⟨n, h1, rfl⟩
    · exact .inr h1
  · exact hk x hx

theorem Uses.cons2 {m : List (Id × Option Id)} {ks : List Id} {us : List Ev} {k key : Id} (h : Uses m ks us) (h1 : ∃ n ∈ m, n.1 = k)
    (h2 : key ∈ ks) : Uses m ks (.use k :: .use key :: us) := by
  intro e he
  rcases List.mem_cons.1 he with rfl | he
  · exact ⟨k, rfl, .inl h1⟩
  · rcases List.mem_cons.1 he with rfl | he
    · exact ⟨key, rfl, .inr h2⟩
    · exact h e he

theorem uses_nil (m : List (Id × Option Id)) (ks : List Id) : Uses m ks [] := fun _ h => nomatch h

/-- The outcome of an insertion. -/
inductive Inserted (key : Id) (object : Option Id) (m : List (Id × Option Id)) : List (Id × Option Id) → List Ev → Bool → Prop
  | same : Inserted key object m m [] false
  | new {m'} : m'.Perm ((key, object) :: m) → Inserted key object m m' (.retain key :: retainO object) true
  | replaced {L k v R} : m = L ++ (k, v) :: R → Inserted key object m (L ++ (k, object) :: R) (retainO object ++ releaseO v) false

theorem Inserted.ctx {key : Id} {object : Option Id} {m m' : List (Id × Option Id)} {l : List Ev} {b : Bool} (h : Inserted key object m m' l b)
    (A B : List (Id × Option Id)) : Inserted key object (A ++ m ++ B) (A ++ m' ++ B) l b := by
  cases h with
  | same => exact .same
  | new hp =>
    refine .new ?_
    refine ((hp.append_left A).append_right B).trans ?_
    simp only [List.append_assoc, List.cons_append]
    exact List.perm_middle
  | @replaced L k v R e =>
    subst e
    have := Inserted.replaced (key := key) (object := object) (m := A ++ (L ++ (k, v) :: R) ++ B) (L := A ++ L) (k := k) (v := v) (R := R ++ B) (by simp)
    simpa using this

theorem insert_log (cmp : Id → Id → Int) (key : Id) (object : Option Id) (p : Policy) : ∀ (t : Node Id (Option Id)) {t' : Node Id (Option Id)} {b : Bool},
    insertRec cmp key object p t = some (t', b) →
    ∃ us tl, insertLog cmp key object p t = us ++ tl ∧ Uses (toList t) [key] us ∧ Inserted key object (toList t) (toList t') tl b := by
  intro t
  induction t with
  | nil =>
    intro t' b h
    simp only [insertRec] at h
    split at h
    · rename_i hp
      cases h
      exact ⟨[], [], by simp [insertLog, hp], uses_nil _ _, .same⟩
    · rename_i hp
      cases h
      exact ⟨[], _, by simp only [insertLog, hp, if_false]; rfl, uses_nil _ _, .new (by simp)⟩
  | node l k v lev r ihl ihr =>
    intro t' b h
    simp only [insertRec] at h
    split at h
    · rename_i hc
      simp only [Option.bind_eq_some_iff, Option.map_eq_some_iff] at h
      obtain ⟨q, hq, t1, h1, t2, h2, h3⟩ := h
      cases h3
      obtain ⟨us, tl, e, hu, hi⟩ := ihl (t' := q.1) (b := q.2) hq
      refine ⟨.use k :: .use key :: us, tl, by simp only [insertLog, hc, if_true, e, List.cons_append], ?_, ?_⟩
      · exact (hu.mono (fun n hn => .inl (by simp [hn])) (fun x hx => .inr hx)).cons2 ⟨(k, v), by simp, rfl⟩ (by simp)
      · rw [split_toList h2, skew_toList h1]
        simpa using hi.ctx [] ((k, v) :: toList r)
    · rename_i hc
      split at h
      · rename_i hc2
        simp only [Option.bind_eq_some_iff, Option.map_eq_some_iff] at h
        obtain ⟨q, hq, t1, h1, t2, h2, h3⟩ := h
        cases h3
        obtain ⟨us, tl, e, hu, hi⟩ := ihr (t' := q.1) (b := q.2) hq
        refine ⟨.use k :: .use key :: us, tl, by simp only [insertLog, hc, hc2, if_false, if_true, e, List.cons_append], ?_, ?_⟩
        · exact (hu.mono (fun n hn => .inl (by simp [hn])) (fun x hx => .inr hx)).cons2 ⟨(k, v), by simp, rfl⟩ (by simp)
        · rw [split_toList h2, skew_toList h1]
          simpa using hi.ctx (toList l ++ [(k, v)]) []
      · rename_i hc2
        split at h
        · rename_i hp
          cases h
          exact ⟨[.use k, .use key], [], by simp [insertLog, hc, hc2, hp],
            (uses_nil _ _).cons2 ⟨(k, v), by simp, rfl⟩ (by simp), .same⟩
        · rename_i hp
          cases h
          exact ⟨[.use k, .use key], _, by simp only [insertLog, hc, hc2, hp, if_false]; rfl,
            (uses_nil _ _).cons2 ⟨(k, v), by simp, rfl⟩ (by simp), .replaced rfl⟩

theorem find_log (cmp : Id → Id → Int) (key : Id) : ∀ t : Node Id (Option Id), Uses (toList t) [key] (findLog cmp key t) := by
  intro t
  induction t with
  | nil => exact uses_nil _ _
  | node l k v lev r ihl ihr =>
    simp only [findLog]
    refine Uses.cons2 ?_ ⟨(k, v), by simp, rfl⟩ (by simp)
    split
    · exact ihl.mono (fun n hn => .inl (by simp [hn])) (fun x hx => .inr hx)
    · split
      · exact ihr.mono (fun n hn => .inl (by simp [hn])) (fun x hx => .inr hx)
      · exact uses_nil _ _

/-- The outcome of a removal. -/
inductive Removed (er : Option (Id × Option Id)) (m : List (Id × Option Id)) : RemoveOut Id (Option Id) → List Ev → Prop
  | same {q} : q.erased = false → q.pending = none → toList q.tree = m → Removed er m q []
  | here {q} (e : Id × Option Id) : q.erased = true → q.pending = none → m.Perm (e :: toList q.tree) → Removed er m q (freeLog e)
  | above {q} (e x : Id × Option Id) : q.erased = true → q.pending = some x → er = some e → m.Perm (x :: toList q.tree) → Removed er m q (freeLog e)

theorem remove_log (cmp : Id → Id → Int) (key : Id) : ∀ (t : Node Id (Option Id)) (er : Option (Id × Option Id)) {q : RemoveOut Id (Option Id)}, AA t →
    removeRec cmp key (er.map (·.1)) t = some q →
    ∃ us tl, removeLog cmp key er t = us ++ tl ∧ Uses (toList t) (key :: (er.map (·.1)).toList) us ∧ Removed er (toList t) q tl := by
  intro t
  induction t with
  | nil =>
    intro er q haa h
    simp only [removeRec] at h
    cases h
    exact ⟨[], [], rfl, uses_nil _ _, .same rfl rfl rfl⟩
  | node l k v lev r ihl ihr =>
    intro er q haa h
    have two : Uses (toList (Node.node l k v lev r)) (key :: (er.map (·.1)).toList) [.use k, .use key] :=
      (uses_nil _ _).cons2 ⟨(k, v), by simp, rfl⟩ (by simp)
    simp only [removeRec] at h
    split at h
    · rename_i hc
      cases l with
      | nil =>
        cases er with
        | none =>
          cases h
          exact ⟨[.use k, .use key], [], by simp [removeLog, hc], two, .same rfl rfl rfl⟩
        | some e =>
          simp only [Option.map_some] at h
          have four : Uses (toList (Node.node .nil k v lev r)) [key, e.1] [.use k, .use key, .use e.1, .use key] := by
            intro z hz
            rcases List.mem_append.1 (show z ∈ [Ev.use k, .use key] ++ [.use e.1, .use key] from hz) with hz | hz
            · exact two z hz
            · simp only [List.mem_cons, List.not_mem_nil, or_false] at hz
              rcases hz with rfl | rfl
              · exact ⟨e.1, rfl, .inr (by simp)⟩
              · exact ⟨key, rfl, .inr (by simp)⟩
          split at h
          · rename_i he
            cases h
            exact ⟨[.use k, .use key, .use e.1, .use key], freeLog e, by simp [removeLog, hc, he], four, .above e (k, v) rfl rfl rfl (by simp)⟩
          · rename_i he
            cases h
            exact ⟨[.use k, .use key, .use e.1, .use key], [], by simp [removeLog, hc, he], four, .same rfl rfl rfl⟩
      | node l1 k1 v1 lev1 r1 =>
        simp only [Option.bind_eq_some_iff, Option.map_eq_some_iff] at h
        obtain ⟨s, hs, t1, h1, rfl⟩ := h
        obtain ⟨us, tl, e', hu, hr⟩ := ihl er haa.1 hs
        refine ⟨.use k :: .use key :: us, tl, by rw [List.cons_append, List.cons_append, ← e']; simp only [removeLog, hc, if_true], ?_, ?_⟩
        · exact (hu.mono (fun n hn => .inl (by rw [toList_node]; exact List.mem_append_left _ hn)) (fun x hx => .inr hx)).cons2 ⟨(k, v), by simp, rfl⟩ (by simp)
        · have ht := rebalance_toList h1
          cases hr with
          | same a1 a2 a3 => exact .same a1 a2 (by rw [ht, a3]; rfl)
          | here e a1 a2 a3 => exact .here e a1 a2 (by rw [ht, toList_node]; exact a3.append_right _)
          | above e x a1 a2 a3 a4 => exact .above e x a1 a2 a3 (by rw [ht, toList_node]; exact a4.append_right _)
    · rename_i hc
      cases r with
      | nil =>
        have four : Uses (toList (Node.node l k v lev .nil)) (key :: (er.map (·.1)).toList) [.use k, .use key, .use k, .use key] :=
          two.cons2 ⟨(k, v), by simp, rfl⟩ (by simp)
        simp only at h
        split at h
        · rename_i he
          cases h
          have hl : l = .nil := by
            obtain ⟨a1, -, a3, a4, a5⟩ := haa
            have := a1.nonneg
            simp only [level_nil, right_nil] at a4 a5
            exact a1.eq_nil (by omega)
          subst hl
          exact ⟨[.use k, .use key, .use k, .use key], freeLog (k, v), by simp [removeLog, he], four, .here (k, v) rfl rfl (by simp)⟩
        · rename_i he
          cases h
          exact ⟨[.use k, .use key, .use k, .use key], [], by simp [removeLog, hc, he], four, .same rfl rfl rfl⟩
      | node l1 k1 v1 lev1 r1 =>
        simp only [Option.bind_eq_some_iff, Option.map_eq_some_iff] at h
        obtain ⟨s, hs, t1, h1, rfl⟩ := h
        obtain ⟨us, tl, e', hu, hr⟩ := ihr (some (k, v)) haa.2.1 hs
        refine ⟨.use k :: .use key :: us, tl, by rw [List.cons_append, List.cons_append, ← e']; simp only [removeLog, hc, if_false], ?_, ?_⟩
        · refine (hu.mono (fun n hn => .inl (by rw [toList_node]; exact List.mem_append_right _ (List.mem_cons_of_mem _ hn))) (fun x hx => ?_)).cons2
            ⟨(k, v), by simp, rfl⟩ (by simp)
          simp only [Option.map_some, Option.toList_some, List.mem_cons, List.not_mem_nil, or_false] at hx
          rcases hx with hx | hx
          · exact .inr (by simp [hx])
          · exact .inl ⟨(k, v), by simp, hx.symm⟩
        · cases hr with
          | same a1 a2 a3 =>
            rw [a2] at h1
            exact .same a1 rfl (by rw [rebalance_toList h1, a3, ← toList_node l k v lev])
          | here e a1 a2 a3 =>
            rw [a2] at h1
            refine .here e a1 rfl ?_
            rw [rebalance_toList h1, toList_node]
            exact ((a3.cons _).append_left _).trans (((List.Perm.swap _ _ _).append_left _).trans List.perm_middle)
          | above e x a1 a2 a3 a4 =>
            rw [a2] at h1
            cases a3
            refine .here (k, v) a1 rfl ?_
            rw [rebalance_toList h1, toList_node]
            exact List.perm_middle.trans (((a4).append_left _).cons _)

end TreeOwn
end Duck
