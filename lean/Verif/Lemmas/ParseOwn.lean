import Verif.Spec.ParseOwn
/-! Objects with owners: what retaining, releasing and storing do to the balance of references and owners. -/
namespace Duck
namespace ParseOwn

/-- All references in objects -/
def allHeld (h : Heap) : List Nat := h.flatMap cellHeld

theorem references_eq (h : Heap) (i : Nat) : references h i = (allHeld h).count i := rfl

/-- The owners of an object, 0 if there is none -/
def rc (h : Heap) (i : Nat) : Nat := owners (get h i)

/-- Owners and references agree; `R` are the references outside the heap.  References lead to later objects. -/
structure Bal (h : Heap) (R : List Nat) : Prop where
  count : ∀ i, rc h i = R.count i + (allHeld h).count i
  pos : ∀ i n o, get h i = some (n, o) → 0 < n
  up : ∀ i n o, get h i = some (n, o) → ∀ k ∈ o.held, i < k

theorem get_eq (h : Heap) (i : Nat) (c : Nat × Obj) : get h i = some c ↔ h[i]? = some (some c) := by
  unfold get; cases h[i]? with
  | none => simp
  | some x => cases x <;> simp

theorem get_lt {h : Heap} {i : Nat} {c : Nat × Obj} (e : get h i = some c) : i < h.length := by
  rw [get_eq] at e
  exact (List.getElem?_eq_some_iff.mp e).1

theorem get_set (h : Heap) (i j : Nat) (c : Option (Nat × Obj)) (hi : i < h.length) :
    get (h.set i c) j = if i = j then c else get h j := by
  unfold get; rw [List.getElem?_set]
  split
  · subst_vars; simp
  · rfl

theorem get_append_left (h g : Heap) (i : Nat) (hi : i < h.length) : get (h ++ g) i = get h i := by
  unfold get; rw [List.getElem?_append_left hi]

theorem get_alloc (h : Heap) (o : Obj) (i : Nat) : get (alloc h o) i = if i = h.length then some (1, o) else get h i := by
  unfold get alloc
  by_cases hi : i < h.length
  · rw [List.getElem?_append_left hi, if_neg (by omega)]
  · by_cases e : i = h.length
    · subst e; simp
    · rw [if_neg e, List.getElem?_eq_none (by simp; omega), List.getElem?_eq_none (by omega)]

@[simp] theorem length_alloc (h : Heap) (o : Obj) : (alloc h o).length = h.length + 1 := by simp [alloc]

theorem allHeld_alloc (h : Heap) (o : Obj) : allHeld (alloc h o) = allHeld h ++ o.held := by simp [allHeld, alloc, cellHeld]

theorem count_set (h : Heap) (i k : Nat) (c : Option (Nat × Obj)) (hi : i < h.length) :
    (allHeld (h.set i c)).count k + (cellHeld (get h i)).count k = (allHeld h).count k + (cellHeld c).count k := by
  induction h generalizing i with
  | nil => simp at hi
  | cons a h ih =>
    cases i with
    | zero => simp [allHeld, get, List.count_append]; omega
    | succ i =>
      have := ih i (by simpa using hi)
      simp only [allHeld, get, List.set_cons_succ, List.flatMap_cons, List.count_append, List.getElem?_cons_succ] at this ⊢
      omega

theorem sum_set (h : Heap) (i : Nat) (c : Option (Nat × Obj)) (hi : i < h.length) :
    ((h.set i c).map owners).sum + rc h i = (h.map owners).sum + owners c := by
  induction h generalizing i with
  | nil => simp at hi
  | cons a h ih =>
    cases i with
    | zero => simp [rc, get]; omega
    | succ i =>
      have := ih i (by simpa using hi)
      simp only [rc, get, List.set_cons_succ, List.map_cons, List.sum_cons, List.getElem?_cons_succ] at this ⊢
      omega

theorem rc_get {h : Heap} {i n : Nat} {o : Obj} (e : get h i = some (n, o)) : rc h i = n := by simp [rc, e, owners]

theorem rc_set (h : Heap) (i j : Nat) (c : Option (Nat × Obj)) (hi : i < h.length) :
    rc (h.set i c) j = if i = j then owners c else rc h j := by
  unfold rc; rw [get_set h i j c hi]; split <;> rfl

theorem Bal.live {h : Heap} {R : List Nat} (b : Bal h R) {i : Nat} (hi : i ∈ R) : ∃ n o, get h i = some (n, o) := by
  have h1 := b.count i
  have : 0 < R.count i := List.count_pos_iff.mpr hi
  cases e : get h i with
  | none => simp [rc, e, owners] at h1; omega
  | some c => exact ⟨c.1, c.2, rfl⟩

theorem mem_allHeld {h : Heap} {k : Nat} : k ∈ allHeld h ↔ ∃ i n o, get h i = some (n, o) ∧ k ∈ o.held := by
  unfold allHeld
  rw [List.mem_flatMap]
  constructor
  · rintro ⟨c, hc, hk⟩
    cases c with
    | none => simp [cellHeld] at hk
    | some c =>
      obtain ⟨i, hi, e⟩ := List.mem_iff_getElem.mp hc
      exact ⟨i, c.1, c.2, by rw [get_eq, List.getElem?_eq_getElem hi, e], hk⟩
  · rintro ⟨i, n, o, e, hk⟩
    rw [get_eq] at e
    exact ⟨some (n, o), List.mem_of_getElem? e, hk⟩

theorem Bal.child {h : Heap} {R : List Nat} (b : Bal h R) {i n : Nat} {o : Obj} (e : get h i = some (n, o)) {k : Nat} (hk : k ∈ o.held) :
    ∃ n o, get h k = some (n, o) := by
  have h1 := b.count k
  have : 0 < (allHeld h).count k := List.count_pos_iff.mpr (mem_allHeld.mpr ⟨i, n, o, e, hk⟩)
  cases e : get h k with
  | none => simp [rc, e, owners] at h1; omega
  | some c => exact ⟨c.1, c.2, rfl⟩

theorem Bal.perm {h : Heap} {R R' : List Nat} (b : Bal h R) (p : ∀ i, R.count i = R'.count i) : Bal h R' :=
  ⟨fun i => by rw [b.count i, p i], b.pos, b.up⟩

theorem bal_nil : Bal [] [] := ⟨fun i => by simp [rc, get, owners, allHeld], fun i n o e => by simp [get] at e, fun i n o e => by simp [get] at e⟩

/-- A new object that refers to nothing -/
theorem Bal.alloc {h : Heap} {R : List Nat} (b : Bal h R) (o : Obj) (ho : o.held = []) : Bal (alloc h o) (h.length :: R) := by
  have hl : rc h h.length = 0 := by simp [rc, get, owners]
  have hc := b.count h.length
  refine ⟨fun i => ?_, fun i n o' e => ?_, fun i n o' e => ?_⟩
  · rw [allHeld_alloc, ho, List.append_nil, rc, get_alloc]
    have := b.count i
    split
    · subst i; simp [owners]; omega
    · rw [List.count_cons_of_ne (by omega)]; exact this
  · rw [get_alloc] at e
    split at e
    · cases e; omega
    · exact b.pos i n o' e
  · rw [get_alloc] at e
    split at e
    · cases e; simp [ho]
    · exact b.up i n o' e

/-- Only contents and owners of cells change -/
structure Kept (h h' : Heap) : Prop where
  len : h'.length = h.length
  cont : ∀ i n' o, get h' i = some (n', o) → ∃ n, get h i = some (n, o)

theorem Kept.refl (h : Heap) : Kept h h := ⟨rfl, fun _ n _ e => ⟨n, e⟩⟩
theorem Kept.trans {h h' h'' : Heap} (a : Kept h h') (b : Kept h' h'') : Kept h h'' :=
  ⟨b.len.trans a.len, fun i n o e => by obtain ⟨n, e⟩ := b.cont i n o e; exact a.cont i n o e⟩

theorem retain_ptr {h : Heap} {R : List Nat} (b : Bal h R) {i n : Nat} {o : Obj} (e : get h i = some (n, o)) :
    retain h (.ptr i) = some (h.set i (some (n + 1, o))) ∧ Bal (h.set i (some (n + 1, o))) (i :: R) := by
  have hi := get_lt e
  refine ⟨by simp [retain, e], fun k => ?_, fun k m q hk => ?_, fun k m q hk => ?_⟩
  · have h1 := count_set h i k (some (n + 1, o)) hi
    rw [e] at h1
    have h2 := b.count k
    rw [rc_set _ _ _ _ hi, List.count_cons]
    have : (allHeld (h.set i (some (n + 1, o)))).count k = (allHeld h).count k := by simp only [cellHeld] at h1; omega
    rw [this]
    by_cases hk : i = k
    · subst hk; rw [rc_get e] at h2; simp [owners]; omega
    · simp [hk, h2]
  · rw [get_set _ _ _ _ hi] at hk
    split at hk
    · cases hk; omega
    · exact b.pos k m q hk
  · rw [get_set _ _ _ _ hi] at hk
    split at hk
    · subst k; cases hk; exact b.up i n o e
    · exact b.up k m q hk

theorem Kept.set {h : Heap} {i n m : Nat} {o : Obj} (e : get h i = some (n, o)) : Kept h (h.set i (some (m, o))) := by
  refine ⟨by simp, fun k n' o' hk => ?_⟩
  rw [get_set _ _ _ _ (get_lt e)] at hk
  split at hk
  · subst k; cases hk; exact ⟨n, e⟩
  · exact ⟨n', hk⟩

theorem Kept.free {h : Heap} {i : Nat} (hi : i < h.length) : Kept h (h.set i none) := by
  refine ⟨by simp, fun k n' o' hk => ?_⟩
  rw [get_set _ _ _ _ hi] at hk
  split at hk
  · cases hk
  · exact ⟨n', hk⟩

theorem retain_ok {h : Heap} {R : List Nat} (b : Bal h R) (r : Ref) (hr : ∀ i ∈ r.ptrs, ∃ n o, get h i = some (n, o)) :
    ∃ h', retain h r = some h' ∧ Bal h' (r.ptrs ++ R) ∧ Kept h h' ∧ ∀ n, (∀ x ∈ r.ptrs, n ≤ x) → h'.take n = h.take n := by
  cases r with
  | fixed v => exact ⟨h, rfl, b, .refl h, fun _ _ => rfl⟩
  | ptr i =>
    obtain ⟨n, o, e⟩ := hr i (by simp [Ref.ptrs])
    have := retain_ptr b e
    exact ⟨_, this.1, this.2, .set e, fun n hn => List.take_set_of_le (hn i (by simp [Ref.ptrs]))⟩

/-- Releasing references held outside the heap -/
theorem releaseAll_ok (f : Nat) : ∀ (h : Heap) (w R : List Nat), Bal h (w ++ R) → (h.map owners).sum ≤ f →
    ∃ h', releaseAll f h w = some h' ∧ Bal h' R ∧ Kept h h' ∧ ∀ n, (∀ x ∈ w, n ≤ x) → h'.take n = h.take n := by
  induction f with
  | zero =>
    intro h w R b hf
    cases w with
    | nil => exact ⟨h, rfl, b, .refl h, fun _ _ => rfl⟩
    | cons i w =>
      obtain ⟨n, o, e⟩ := b.live (i := i) (by simp)
      have := sum_set h i none (get_lt e)
      have h2 := b.pos i n o e
      rw [rc_get e] at this; simp [owners] at this; omega
  | succ f ih =>
    intro h w R b hf
    cases w with
    | nil => exact ⟨h, by simp [releaseAll], b, .refl h, fun _ _ => rfl⟩
    | cons i w =>
      obtain ⟨n, o, e⟩ := b.live (i := i) (by simp)
      have hi := get_lt e
      have hp := b.pos i n o e
      have hup := b.up i n o e
      match n, hp, e with
      | 1, _, e =>
        have hs := sum_set h i none hi
        rw [rc_get e] at hs; simp only [owners] at hs
        have b' : Bal (h.set i none) ((o.held ++ w) ++ R) := by
          refine ⟨fun k => ?_, fun k m q hk => ?_, fun k m q hk => ?_⟩
          · have h1 := count_set h i k none hi
            rw [e] at h1; simp only [cellHeld, List.count_nil] at h1
            have h2 := b.count k
            rw [rc_set _ _ _ _ hi]
            simp only [List.count_append, List.cons_append, List.count_cons] at h2 ⊢
            by_cases hk : i = k
            · subst hk; rw [rc_get e] at h2; simp [owners] at h2 ⊢; omega
            · simp [hk] at h2 ⊢; omega
          · rw [get_set _ _ _ _ hi] at hk
            split at hk
            · cases hk
            · exact b.pos k m q hk
          · rw [get_set _ _ _ _ hi] at hk
            split at hk
            · cases hk
            · exact b.up k m q hk
        obtain ⟨h', h1, h2, h3, h4⟩ := ih _ _ R b' (by omega)
        refine ⟨h', by simp [releaseAll, e, h1], h2, (Kept.free hi).trans h3, fun n hn => ?_⟩
        rw [h4 n, List.take_set_of_le (hn i (by simp))]
        intro x hx
        rcases List.mem_append.mp hx with hx | hx
        · have := hup x hx; have := hn i (by simp); omega
        · exact hn x (by simp [hx])
      | n + 2, _, e =>
        have hs := sum_set h i (some (n + 1, o)) hi
        rw [rc_get e] at hs; simp only [owners] at hs
        have b' : Bal (h.set i (some (n + 1, o))) (w ++ R) := by
          refine ⟨fun k => ?_, fun k m q hk => ?_, fun k m q hk => ?_⟩
          · have h1 := count_set h i k (some (n + 1, o)) hi
            rw [e] at h1; simp only [cellHeld] at h1
            have h2 := b.count k
            rw [rc_set _ _ _ _ hi]
            simp only [List.count_append, List.cons_append, List.count_cons] at h2 ⊢
            by_cases hk : i = k
            · subst hk; rw [rc_get e] at h2; simp [owners] at h2 ⊢; omega
            · simp [hk] at h2 ⊢; omega
          · rw [get_set _ _ _ _ hi] at hk
            split at hk
            · cases hk; omega
            · exact b.pos k m q hk
          · rw [get_set _ _ _ _ hi] at hk
            split at hk
            · subst k; cases hk; exact hup
            · exact b.up k m q hk
        obtain ⟨h', h1, h2, h3, h4⟩ := ih _ _ R b' (by omega)
        refine ⟨h', by simp [releaseAll, e, h1], h2, (Kept.set e).trans h3, fun n hn => ?_⟩
        rw [h4 n (fun x hx => hn x (by simp [hx])), List.take_set_of_le (hn i (by simp))]

theorem release_ok {h : Heap} {R : List Nat} (r : Ref) (b : Bal h (r.ptrs ++ R)) :
    ∃ h', release h r = some h' ∧ Bal h' R ∧ Kept h h' ∧ ∀ n, (∀ x ∈ r.ptrs, n ≤ x) → h'.take n = h.take n :=
  releaseAll_ok _ h r.ptrs R b (Nat.le_refl _)

/-- Changing the contents of an object: `mv` are references moved into it, `dr` those moved out of it. -/
theorem store_ok {h : Heap} {R mv dr : List Nat} (b : Bal h (mv ++ R)) {i n : Nat} {o : Obj} (e : get h i = some (n, o)) (o' : Obj)
    (hp : ∀ k, o.held.count k + mv.count k = o'.held.count k + dr.count k) (hm : ∀ k ∈ mv, i < k) :
    store h i o' = some (h.set i (some (n, o'))) ∧ Bal (h.set i (some (n, o'))) (dr ++ R) := by
  have hi := get_lt e
  refine ⟨by simp [store, e], fun k => ?_, fun k m q hk => ?_, fun k m q hk => ?_⟩
  · have h1 := count_set h i k (some (n, o')) hi
    rw [e] at h1; simp only [cellHeld] at h1
    have h2 := b.count k
    have h3 := hp k
    rw [rc_set _ _ _ _ hi]
    simp only [List.count_append] at h2 ⊢
    by_cases hk : i = k
    · subst hk; rw [rc_get e] at h2; simp [owners]; omega
    · simp [hk]; omega
  · rw [get_set _ _ _ _ hi] at hk
    split at hk
    · cases hk; exact b.pos i n o e
    · exact b.pos k m q hk
  · rw [get_set _ _ _ _ hi] at hk
    split at hk
    · subst k; cases hk
      intro k hk
      have h3 := hp k
      have : 0 < o'.held.count k := List.count_pos_iff.mpr hk
      by_cases h5 : 0 < mv.count k
      · exact hm k (List.count_pos_iff.mp h5)
      · exact b.up i n o e k (List.count_pos_iff.mp (by omega))
    · exact b.up k m q hk

/-- Without references from outside nothing is left. -/
theorem Bal.empty {h : Heap} (b : Bal h []) (i : Nat) : get h i = none := by
  induction i using Nat.strongRecOn with
  | _ i ih =>
    cases e : get h i with
    | none => rfl
    | some c =>
      have h1 := b.count i
      have h2 := b.pos i c.1 c.2 e
      rw [rc_get (n := c.1) (o := c.2) e] at h1
      simp only [List.count_nil] at h1
      obtain ⟨j, n, o, ej, hk⟩ := mem_allHeld.mp (List.count_pos_iff.mp (by omega : 0 < (allHeld h).count i))
      rw [ih j (b.up j n o ej i hk)] at ej
      cases ej

theorem Reach.snoc {h : Heap} {a j i m : Nat} {q : Obj} (r : Reach h a j) (ej : get h j = some (m, q)) (hk : i ∈ q.held) : Reach h a i := by
  induction r with
  | here x => exact .step x i i m q ej hk (.here i)
  | step a c k n' o' ea hc _ ih => exact .step a c i n' o' ea hc (ih ej)

/-- What exists is found from the references outside. -/
theorem Bal.reach {h : Heap} {R : List Nat} (b : Bal h R) (i : Nat) : ∀ n o, get h i = some (n, o) → ∃ j ∈ R, Reach h j i := by
  induction i using Nat.strongRecOn with
  | _ i ih =>
    intro n o e
    have h1 := b.count i
    have h2 := b.pos i n o e
    rw [rc_get e] at h1
    by_cases hR : 0 < R.count i
    · exact ⟨i, List.count_pos_iff.mp hR, .here i⟩
    · obtain ⟨j, m, q, ej, hk⟩ := mem_allHeld.mp (List.count_pos_iff.mp (by omega : 0 < (allHeld h).count i))
      obtain ⟨r, hr, hj⟩ := ih j (b.up j m q ej i hk) m q ej
      exact ⟨r, hr, hj.snoc ej hk⟩

theorem Bal.exact {h : Heap} {r : Ref} (b : Bal h r.ptrs) : Exact h r := by
  refine ⟨fun i n o e => b.reach i n o e, fun i n o e => ?_, fun i hi => ?_⟩
  · have := b.count i; rw [rc_get e] at this; rw [references_eq]; omega
  · have := b.count i
    rw [references_eq] at hi
    cases e : get h i with
    | none => simp [rc, e, owners] at this; omega
    | some c => exact ⟨c.1, c.2, rfl⟩

end ParseOwn
end Duck
