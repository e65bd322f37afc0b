import Verif.Lemmas.ParseOwn
/-! The JSON parser with its objects. -/
namespace Duck
namespace ParseOwn

/-- The object exists with the contents. -/
def Has (h : Heap) (i : Nat) (o : Obj) : Prop := ∃ n, get h i = some (n, o)

/-- Objects from `lo` on keep their contents while they exist, and the freed ones stay freed. -/
structure Keep (lo : Nat) (h h' : Heap) : Prop where
  len : h.length ≤ h'.length
  cont : ∀ i n' o, lo ≤ i → i < h.length → get h' i = some (n', o) → Has h i o

theorem Kept.keep {h h' : Heap} (k : Kept h h') (lo : Nat) : Keep lo h h' := ⟨by rw [k.len]; exact Nat.le_refl _, fun i n o _ _ e => k.cont i n o e⟩
theorem Keep.refl (lo : Nat) (h : Heap) : Keep lo h h := (Kept.refl h).keep lo
theorem Keep.trans {lo : Nat} {h h' h'' : Heap} (a : Keep lo h h') (b : Keep lo h' h'') : Keep lo h h'' :=
  ⟨Nat.le_trans a.len b.len, fun i n o hi hl e => by
    obtain ⟨n, e⟩ := b.cont i n o hi (Nat.lt_of_lt_of_le hl a.len) e; exact a.cont i n o hi hl e⟩
theorem Keep.mono {lo lo' : Nat} {h h' : Heap} (k : Keep lo h h') (hl : lo ≤ lo') : Keep lo' h h' :=
  ⟨k.len, fun i n o hi => k.cont i n o (Nat.le_trans hl hi)⟩

theorem get_take {h h' : Heap} {k i : Nat} (e : h'.take k = h.take k) (hi : i < k) : get h' i = get h i := by
  have : (h'.take k)[i]? = (h.take k)[i]? := by rw [e]
  rw [List.getElem?_take_of_lt hi, List.getElem?_take_of_lt hi] at this
  unfold get; rw [this]

theorem keep_take {h h' : Heap} (e : h'.take h.length = h) (lo : Nat) : Keep lo h h' := by
  have hl : h.length ≤ h'.length := by
    have := congrArg List.length e; rw [List.length_take] at this; omega
  refine ⟨hl, fun i n o _ hi hg => ⟨n, ?_⟩⟩
  rw [← hg]; exact (get_take (by rw [e, List.take_length]) hi).symm

theorem get_of_take {h h' : Heap} (e : h'.take h.length = h) {i : Nat} (hi : i < h.length) : get h' i = get h i :=
  get_take (by rw [e, List.take_length]) hi

theorem keep_alloc (h : Heap) (o : Obj) (lo : Nat) : Keep lo h (alloc h o) := keep_take (by simp [alloc]) lo

theorem keep_store {h : Heap} {i n : Nat} {o : Obj} (e : get h i = some (n, o)) (c : Nat × Obj) : Keep (i + 1) h (h.set i (some c)) := by
  refine ⟨by simp, fun j m q hj _ hg => ⟨m, ?_⟩⟩
  rw [get_set _ _ _ _ (get_lt e), if_neg (by omega)] at hg; exact hg

/-- Values stay what they are while their objects exist. -/
theorem Val.move {h h' : Heap} {R : List Nat} {lo : Nat} (b : Bal h' R) (k : Keep lo h h') {r : Ref} {v : Json.Json} (w : Val h r v) :
    (∀ i ∈ r.ptrs, lo ≤ i ∧ ∃ n o, get h' i = some (n, o)) → Val h' r v := by
  induction w with
  | fixed v => exact fun _ => .fixed v
  | leaf i n v e hs =>
    intro hr
    obtain ⟨hl, n', o', e'⟩ := hr i (by simp [Ref.ptrs])
    obtain ⟨m, e2⟩ := k.cont i n' o' hl (get_lt e) e'
    rw [e] at e2; cases e2
    exact .leaf i n' v e' hs
  | list i n l vs e hlen hv ih =>
    intro hr
    obtain ⟨hl, n', o', e'⟩ := hr i (by simp [Ref.ptrs])
    obtain ⟨m, e2⟩ := k.cont i n' o' hl (get_lt e) e'
    rw [e] at e2; cases e2
    refine .list i n' l vs e' hlen fun j r v hj hv => ih j r v hj hv fun x hx => ?_
    have hm : x ∈ (Obj.list l).held := List.mem_flatMap.mpr ⟨r, List.mem_of_getElem? hj, hx⟩
    exact ⟨by have := b.up i n' _ e' x hm; omega, b.child e' hm⟩
  | dict i n l vs e hlen hk hv ihk ih =>
    intro hr
    obtain ⟨hl, n', o', e'⟩ := hr i (by simp [Ref.ptrs])
    obtain ⟨m, e2⟩ := k.cont i n' o' hl (get_lt e) e'
    rw [e] at e2; cases e2
    refine .dict i n' l vs e' hlen (fun r hr => ihk r hr fun x hx => ?_) fun j r v hj hv => ih j r v hj hv fun x hx => ?_
    · have hm : x ∈ (Obj.dict l).held := List.mem_flatMap.mpr ⟨r, hr, List.mem_append_left _ hx⟩
      exact ⟨by have := b.up i n' _ e' x hm; omega, b.child e' hm⟩
    · have hm : x ∈ (Obj.dict l).held := List.mem_flatMap.mpr ⟨r, List.mem_of_getElem? hj, List.mem_append_right _ hx⟩
      exact ⟨by have := b.up i n' _ e' x hm; omega, b.child e' hm⟩

/-- The entries show the values. -/
def Vals (h : Heap) : List Ref → List Json.Json → Prop
  | [], [] => True
  | r :: l, v :: vs => Val h r v ∧ Vals h l vs
  | _, _ => False

/-- The rows show the entries. -/
def Rows (h : Heap) : List (Bytes × Ref × Ref) → List (Bytes × Json.Json) → Prop
  | [], [] => True
  | r :: l, v :: vs => (r.1 = v.1 ∧ Val h r.2.1 (.str r.1) ∧ Val h r.2.2 v.2) ∧ Rows h l vs
  | _, _ => False

theorem Vals.val {h : Heap} : ∀ {l : List Ref} {vs : List Json.Json}, Vals h l vs →
    l.length = vs.length ∧ ∀ (j : Nat) r v, l[j]? = some r → vs[j]? = some v → Val h r v
  | [], [], _ => by simp
  | r :: l, v :: vs, w => by
    obtain ⟨h1, h2⟩ := Vals.val w.2
    refine ⟨by simp [h1], fun j => ?_⟩
    cases j with
    | zero => intro a b ha hb; simp at ha hb; subst a; subst b; exact w.1
    | succ j => simpa using h2 j

theorem Rows.val {h : Heap} : ∀ {l : List (Bytes × Ref × Ref)} {vs : List (Bytes × Json.Json)}, Rows h l vs →
    l.map (·.1) = vs.map (·.1) ∧ (∀ r ∈ l, Val h r.2.1 (.str r.1)) ∧
      ∀ (j : Nat) r v, l[j]? = some r → vs[j]? = some v → Val h r.2.2 v.2
  | [], [], _ => by simp
  | r :: l, v :: vs, w => by
    obtain ⟨h1, h2, h3⟩ := Rows.val w.2
    refine ⟨by simp [h1, w.1.1], fun a ha => ?_, fun j => ?_⟩
    · rcases List.mem_cons.mp ha with rfl | ha
      · exact w.1.2.1
      · exact h2 a ha
    · cases j with
      | zero => intro a b ha hb; simp at ha hb; subst a; subst b; exact w.1.2.2
      | succ j => simpa using h3 j

theorem Vals.imp {h h' : Heap} : ∀ {l : List Ref} {vs : List Json.Json}, Vals h l vs → (∀ r ∈ l, ∀ v, Val h r v → Val h' r v) → Vals h' l vs
  | [], [], _, _ => trivial
  | r :: l, v :: vs, w, k => ⟨k r (by simp) v w.1, Vals.imp w.2 fun r hr => k r (by simp [hr])⟩

theorem Rows.imp {h h' : Heap} : ∀ {l : List (Bytes × Ref × Ref)} {vs : List (Bytes × Json.Json)}, Rows h l vs →
    (∀ r ∈ l, ∀ v, (Val h r.2.1 v → Val h' r.2.1 v) ∧ (Val h r.2.2 v → Val h' r.2.2 v)) → Rows h' l vs
  | [], [], _, _ => trivial
  | r :: l, v :: vs, w, k =>
    ⟨⟨w.1.1, (k r (by simp) _).1 w.1.2.1, (k r (by simp) _).2 w.1.2.2⟩, Rows.imp w.2 fun r hr => k r (by simp [hr])⟩

theorem Vals.snoc {h : Heap} {r : Ref} {v : Json.Json} (hv : Val h r v) : ∀ {l : List Ref} {vs : List Json.Json}, Vals h l vs → Vals h (l ++ [r]) (vs ++ [v])
  | [], [], _ => ⟨hv, trivial⟩
  | _ :: _, _ :: _, w => ⟨w.1, Vals.snoc hv w.2⟩

theorem Rows.set {h : Heap} {s : Bytes} {k r : Ref} {v : Json.Json} (hv : Val h r v) (hk : Val h k (.str s)) :
    ∀ {l : List (Bytes × Ref × Ref)} {vs : List (Bytes × Json.Json)}, Rows h l vs →
    (findRow s l = none → Rows h (l ++ [(s, k, r)]) (Json.setEntry s v vs)) ∧ (∀ o, findRow s l = some o → Rows h (setRow s r l) (Json.setEntry s v vs))
  | [], [], _ => ⟨fun _ => ⟨⟨rfl, hk, hv⟩, trivial⟩, fun o e => by simp [findRow] at e⟩
  | a :: l, e :: vs, w => by
    obtain ⟨h1, h2⟩ := Rows.set hv hk w.2
    have ha := w.1.1
    by_cases c : a.1 = s
    · have c' : e.1 = s := by rw [← ha]; exact c
      refine ⟨fun e => by simp [findRow, c] at e, fun o _ => ?_⟩
      simp only [setRow, Json.setEntry, if_pos c, if_pos c']
      exact ⟨⟨ha, w.1.2.1, hv⟩, w.2⟩
    · have c' : ¬ e.1 = s := by rw [← ha]; exact c
      simp only [findRow, setRow, Json.setEntry, if_neg c, if_neg c', List.cons_append]
      exact ⟨fun e => ⟨w.1, h1 e⟩, fun o e => ⟨w.1, h2 o e⟩⟩

theorem listOf_has {h : Heap} {i : Nat} {l : List Ref} (e : Has h i (.list l)) : listOf h i = some l := by
  obtain ⟨n, e⟩ := e; simp [listOf, e]
theorem rowsOf_has {h : Heap} {i : Nat} {l : List (Bytes × Ref × Ref)} (e : Has h i (.dict l)) : rowsOf h i = some l := by
  obtain ⟨n, e⟩ := e; simp [rowsOf, e]

/-- A live object of which the contents are known stays so. -/
theorem Kept.has {h h' : Heap} (k : Kept h h') {i : Nat} {o : Obj} (e : Has h i o) (hl : ∃ n o, get h' i = some (n, o)) : Has h' i o := by
  obtain ⟨n, e⟩ := e; obtain ⟨n', o', e'⟩ := hl
  obtain ⟨m, e2⟩ := k.cont i n' o' e'
  rw [e] at e2; cases e2; exact ⟨n', e'⟩

/-- DKListAppendObject: the reference stays with the caller too. -/
theorem listAppend_ok {h : Heap} {R : List Nat} {x : Nat} {l : List Ref} {v : Ref} (b : Bal h R) (hx : Has h x (.list l))
    (hv : ∀ i ∈ v.ptrs, x < i ∧ ∃ n o, get h i = some (n, o)) : ∃ h', listAppend h x v = some h' ∧ Bal h' R ∧ Has h' x (.list (l ++ [v])) ∧
      h'.take x = h.take x ∧ Keep (x + 1) h h' := by
  obtain ⟨h1, r1, b1, k1, t1⟩ := retain_ok b v fun i hi => (hv i hi).2
  have hx1 : Has h1 x (.list l) := by
    refine k1.has hx ?_
    obtain ⟨n, e⟩ := hx
    have h2 := b1.count x
    have h3 := b.count x
    have h4 := b.pos x n _ e
    rw [rc_get e] at h3
    have h5 : h1.take (x + 1) = h.take (x + 1) := t1 (x + 1) fun i hi => (hv i hi).1
    exact ⟨n, _, by rw [get_take h5 (by omega)]; exact e⟩
  obtain ⟨n, e⟩ := hx1
  have st := store_ok (dr := []) b1 e (.list (l ++ [v])) (by intro k; simp [Obj.held, List.count_append]) (fun k hk => (hv k hk).1)
  refine ⟨_, ?_, st.2, ⟨n, ?_⟩, ?_, ?_⟩
  · rw [listAppend, r1, Option.bind_some, listOf_has ⟨n, e⟩, Option.bind_some, st.1]
  · rw [get_set _ _ _ _ (get_lt e), if_pos rfl]
  · rw [List.take_set_of_le (Nat.le_refl x), t1 x fun i hi => Nat.le_of_lt (hv i hi).1]
  · exact (k1.keep _).trans (keep_store e _)

theorem has_take {h h' : Heap} {x : Nat} {o : Obj} (t : h'.take (x + 1) = h.take (x + 1)) (e : Has h x o) : Has h' x o := by
  obtain ⟨n, e⟩ := e
  exact ⟨n, by rw [get_take t (by omega)]; exact e⟩

theorem take_le {h h' : Heap} {j k : Nat} (t : h'.take k = h.take k) (hj : j ≤ k) : h'.take j = h.take j := by
  have : (h'.take k).take j = (h.take k).take j := by rw [t]
  simpa [List.take_take, Nat.min_eq_left hj] using this

theorem count_setRow (s : Bytes) (v : Ref) (k : Nat) : ∀ (l : List (Bytes × Ref × Ref)) (old : Ref), findRow s l = some old →
    (Obj.dict l).held.count k + v.ptrs.count k = (Obj.dict (setRow s v l)).held.count k + old.ptrs.count k
  | [], old, e => by simp [findRow] at e
  | r :: l, old, e => by
    by_cases c : r.1 = s
    · simp only [findRow, if_pos c, Option.some.injEq] at e
      subst old
      simp only [setRow, if_pos c, Obj.held, List.flatMap_cons, List.count_append]; omega
    · simp only [findRow, if_neg c] at e
      have := count_setRow s v k l old e
      simp only [setRow, if_neg c, Obj.held, List.flatMap_cons, List.count_append] at this ⊢; omega

theorem setRow_same (s : Bytes) (v : Ref) : ∀ (l : List (Bytes × Ref × Ref)), findRow s l = some v → setRow s v l = l
  | [], e => by simp [findRow] at e
  | r :: l, e => by
    by_cases c : r.1 = s
    · simp only [findRow, if_pos c, Option.some.injEq] at e
      subst e; simp [setRow, c]; rw [← c]
    · simp only [findRow, if_neg c] at e
      simp only [setRow, if_neg c, setRow_same s v l e]

theorem findRow_held (s : Bytes) : ∀ (l : List (Bytes × Ref × Ref)) (old : Ref), findRow s l = some old → ∀ i ∈ old.ptrs, i ∈ (Obj.dict l).held
  | [], old, e => by simp [findRow] at e
  | r :: l, old, e => by
    intro i hi
    by_cases c : r.1 = s
    · simp only [findRow, if_pos c, Option.some.injEq] at e
      subst old; simp [Obj.held, hi]
    · simp only [findRow, if_neg c] at e
      have := findRow_held s l old e i hi
      simp only [Obj.held, List.flatMap_cons, List.mem_append] at this ⊢
      exact .inr this

theorem has_bal {h : Heap} {R : List Nat} {x : Nat} {o : Obj} (b : Bal h R) (e : Has h x o) {k : Nat} (hk : k ∈ o.held) : x < k := by
  obtain ⟨n, e⟩ := e; exact b.up x n o e k hk

theorem store_has {h : Heap} {R mv dr : List Nat} (b : Bal h (mv ++ R)) {i : Nat} {o : Obj} (e : Has h i o) (o' : Obj)
    (hp : ∀ k, o.held.count k + mv.count k = o'.held.count k + dr.count k) (hm : ∀ k ∈ mv, i < k) :
    ∃ h', store h i o' = some h' ∧ Bal h' (dr ++ R) ∧ Has h' i o' ∧ h'.take i = h.take i ∧ Keep (i + 1) h h' := by
  obtain ⟨n, e⟩ := e
  have st := store_ok (dr := dr) b e o' hp hm
  exact ⟨_, st.1, st.2, ⟨n, by rw [get_set _ _ _ _ (get_lt e), if_pos rfl]⟩, List.take_set_of_le (Nat.le_refl i), keep_store e _⟩

theorem replaceRow_ok {h : Heap} {R : List Nat} {x : Nat} {l : List (Bytes × Ref × Ref)} {s : Bytes} {old v : Ref} (b : Bal h R)
    (hx : Has h x (.dict l)) (hf : findRow s l = some old) (hv : ∀ i ∈ v.ptrs, x < i ∧ i ∈ R) :
    ∃ h', replaceRow h x l s old v = some h' ∧ Bal h' R ∧ Has h' x (.dict (setRow s v l)) ∧ h'.take x = h.take x ∧ Keep (x + 1) h h' := by
  unfold replaceRow
  by_cases c : old.same v = true
  · have hov : old = v := by
      cases old with
      | fixed a => simp [Ref.same] at c
      | ptr i => cases v with
        | fixed a => simp [Ref.same] at c
        | ptr j => simp [Ref.same] at c; subst c; rfl
    subst hov
    exact ⟨h, by rw [if_pos c], b, by rw [setRow_same s old l hf]; exact hx, rfl, .refl _ h⟩
  · rw [if_neg c]
    have hup : ∀ i ∈ old.ptrs, x < i := fun i hi => has_bal b hx (findRow_held s l old hf i hi)
    obtain ⟨h1, s1, b1, x1, t1, k1⟩ := store_has (mv := []) (dr := old.ptrs) b hx (.dict (setRow s null l))
      (fun k => by have := count_setRow s null k l old hf; simpa [null, Ref.ptrs] using this) (by simp)
    obtain ⟨h2, s2, b2, k2, t2⟩ := release_ok old b1
    have x2 := has_take (t2 (x + 1) hup) x1
    obtain ⟨h3, s3, b3, k3, t3⟩ := retain_ok b2 v fun i hi => b2.live (hv i hi).2
    have x3 := has_take (t3 (x + 1) fun i hi => (hv i hi).1) x2
    obtain ⟨h4, s4, b4, x4, t4, k4⟩ := store_has (dr := []) b3 x3 (.dict (setRow s v l))
      (fun k => by
        have h1 := count_setRow s null k l old hf
        have h2 := count_setRow s v k l old hf
        have h3 : null.ptrs = [] := rfl
        rw [h3] at h1; simp only [List.count_nil] at h1 ⊢; omega) (fun k hk => (hv k hk).1)
    refine ⟨h4, by rw [s1, Option.bind_some, s2, Option.bind_some, s3, Option.bind_some, s4], b4, x4, ?_, ?_⟩
    · rw [t4, t3 x fun i hi => Nat.le_of_lt (hv i hi).1, t2 x fun i hi => Nat.le_of_lt (hup i hi), t1]
    · exact ((k1.trans (k2.keep _)).trans (k3.keep _)).trans k4

theorem newRow_ok {h : Heap} {R : List Nat} {x : Nat} {l : List (Bytes × Ref × Ref)} {s : Bytes} {k v : Ref} (b : Bal h R)
    (hx : Has h x (.dict l)) (hk : ∀ i ∈ k.ptrs, x < i ∧ i ∈ R) (hv : ∀ i ∈ v.ptrs, x < i ∧ i ∈ R) :
    ∃ h', newRow h x l s k v = some h' ∧ Bal h' R ∧ Has h' x (.dict (l ++ [(s, k, v)])) ∧ h'.take x = h.take x ∧ Keep (x + 1) h h' := by
  obtain ⟨h1, s1, b1, k1, t1⟩ := retain_ok b k fun i hi => b.live (hk i hi).2
  have x1 := has_take (t1 (x + 1) fun i hi => (hk i hi).1) hx
  obtain ⟨h2, s2, b2, k2, t2⟩ := retain_ok b1 v fun i hi => b1.live (List.mem_append_right _ (hv i hi).2)
  have x2 := has_take (t2 (x + 1) fun i hi => (hv i hi).1) x1
  rw [← List.append_assoc] at b2
  obtain ⟨h3, s3, b3, x3, t3, k3⟩ := store_has (dr := []) b2 x2 (.dict (l ++ [(s, k, v)]))
    (fun j => by simp [Obj.held, List.count_append]; omega)
    (fun i hi => by rcases List.mem_append.mp hi with hi | hi; exact (hv i hi).1; exact (hk i hi).1)
  refine ⟨h3, by rw [newRow, s1, Option.bind_some, s2, Option.bind_some, s3], b3, x3, ?_, ?_⟩
  · rw [t3, t2 x fun i hi => Nat.le_of_lt (hv i hi).1, t1 x fun i hi => Nat.le_of_lt (hk i hi).1]
  · exact ((k1.keep _).trans (k2.keep _)).trans k3

/-- The rows after an insertion -/
def inserted (s : Bytes) (k v : Ref) (l : List (Bytes × Ref × Ref)) : List (Bytes × Ref × Ref) :=
  match findRow s l with
  | some _ => setRow s v l
  | none => l ++ [(s, k, v)]

theorem insertRow_ok {h : Heap} {R : List Nat} {x : Nat} {l : List (Bytes × Ref × Ref)} {s : Bytes} {k v : Ref} (b : Bal h (k.ptrs ++ R))
    (hx : Has h x (.dict l)) (hk : ∀ i ∈ k.ptrs, x < i) (hv : ∀ i ∈ v.ptrs, x < i ∧ i ∈ R) :
    ∃ h', insertRow h x s k v = some h' ∧ Bal h' R ∧ Has h' x (.dict (inserted s k v l)) ∧ h'.take x = h.take x ∧ Keep (x + 1) h h' := by
  have hv' : ∀ i ∈ v.ptrs, x < i ∧ i ∈ k.ptrs ++ R := fun i hi => ⟨(hv i hi).1, List.mem_append_right _ (hv i hi).2⟩
  have hk' : ∀ i ∈ k.ptrs, x < i ∧ i ∈ k.ptrs ++ R := fun i hi => ⟨hk i hi, List.mem_append_left _ hi⟩
  have : ∃ h', updateRow h x l s k v (findRow s l) = some h' ∧
      Bal h' (k.ptrs ++ R) ∧ Has h' x (.dict (inserted s k v l)) ∧ h'.take x = h.take x ∧ Keep (x + 1) h h' := by
    unfold inserted
    cases hf : findRow s l with
    | some old => exact replaceRow_ok b hx hf hv'
    | none => exact newRow_ok b hx hk' hv'
  obtain ⟨h1, s1, b1, x1, t1, k1⟩ := this
  obtain ⟨h2, s2, b2, k2, t2⟩ := release_ok k b1
  refine ⟨h2, ?_, b2, has_take (t2 (x + 1) hk) x1, by rw [t2 x fun i hi => Nat.le_of_lt (hk i hi), t1], k1.trans (k2.keep _)⟩
  rw [insertRow, rowsOf_has hx, Option.bind_some, s1, Option.bind_some, s2]

/-! ## Tokens are strings or numbers -/

theorem simple_number (w : Bool) (v : Json.Buf) : simple (v.number w) := by
  unfold Json.Buf.number; split <;> rfl

theorem vectorLoop_simple (H : Json.Host) : ∀ (f : Nat) (o : Bool) (m : Unicode.Mem) (v : Json.Buf) (j : Json.Json) (c : Unicode.Mem),
    Json.vectorLoop H f o m v = some (some j, c) → simple j := by
  intro f
  induction f with
  | zero => intro o m v j c e; simp [Json.vectorLoop] at e
  | succ f ih =>
    intro o m v j c e
    rw [Json.vectorLoop] at e
    simp only [Option.bind_eq_some_iff] at e
    obtain ⟨t, _, ch, _, e⟩ := e
    split at e
    · simp only [Option.bind_eq_some_iff] at e
      obtain ⟨n, _, t', _, ch', _, e⟩ := e
      split at e
      · exact ih _ _ _ _ _ e
      · split at e
        · cases o with
          | false => simp at e
          | true => simp at e; rw [← e.1]; exact simple_number _ _
        · simp at e
    · simp at e

theorem vectorAt_simple (H : Json.Host) (f : Nat) (o : Bool) (m₀ str m : Unicode.Mem) (t : Json.Tok) (j : Json.Json)
    (e : Json.vectorAt H f o m₀ str m = some t) (hj : t.obj = some j) : simple j := by
  cases f with
  | zero => simp [Json.vectorAt] at e
  | succ f =>
    rw [Json.vectorAt] at e
    simp only [Option.bind_eq_some_iff] at e
    obtain ⟨r, _, e⟩ := e
    split at e
    · simp only [Option.map_eq_some_iff] at e
      obtain ⟨q, hq, e⟩ := e
      subst e
      simp only at hj
      exact vectorLoop_simple H f o _ _ j q.2 (by rw [hq, ← hj])
    · simp at e; subst e; simp at hj

theorem scanToken_simple (H : Json.Host) (o : Bool) (m : Unicode.Mem) (t : Json.Tok) (j : Json.Json) (e : Json.scanToken H o m = some t)
    (hj : t.obj = some j) : simple j := by
  rw [Json.scanToken, Json.tokenWith] at e
  simp only [Option.bind_eq_some_iff] at e
  obtain ⟨s, _, e⟩ := e
  split at e
  · simp at e; subst e; simp at hj
  · split at e
    · simp only [Option.map_eq_some_iff] at e
      obtain ⟨q, _, e⟩ := e
      subst e
      cases o <;> simp at hj
      subst hj; rfl
    · split at e
      · exact vectorAt_simple H _ _ _ _ _ t j e hj
      · simp only [Option.bind_eq_some_iff] at e
        obtain ⟨c, _, e⟩ := e
        split at e
        · simp at e; subst e; simp at hj
        · simp only [Option.map_eq_some_iff] at e
          obtain ⟨q, _, e⟩ := e
          subst e; simp at hj

end ParseOwn
end Duck
