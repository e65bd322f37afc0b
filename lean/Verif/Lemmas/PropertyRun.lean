import Verif.Lemmas.Property
namespace Duck
namespace Property
variable {Γ : Classes}

/-! ### Shapes of fields -/

/-- What a field of a class may hold. -/
def Fits (Γ : Classes) (n cls k : Nat) : Slot → Prop
  | .null => True
  | .strong _ => weakField Γ cls k = false
  | .weak x => weakField Γ cls k = true ∧ x < n

/-- Every object has its fields, of the right kinds. -/
def Shaped (Γ : Classes) (h : Heap) : Prop :=
  ∀ i o, live h i = some o → o.fields.length = Γ.size o.cls ∧ ∀ (k : Nat) v, o.fields[k]? = some v → Fits Γ h.length o.cls k v

theorem Fits.mono {n m cls k : Nat} {v : Slot} (h : Fits Γ n cls k v) (hnm : n ≤ m) : Fits Γ m cls k v := by
  cases v with
  | null => trivial
  | strong x => exact h
  | weak x => exact ⟨h.1, Nat.lt_of_lt_of_le h.2 hnm⟩

theorem Shaped.same {h h' : Heap} (hs : Shaped Γ h) (hh : Same h h') : Shaped Γ h' := by
  intro i o' hl
  obtain ⟨o, h1, h2, _, h4⟩ := hh.2 i o' hl
  obtain ⟨h5, h6⟩ := hs i o h1
  rw [hh.1, ← h2, ← h4]
  exact ⟨h5, h6⟩

theorem Shaped.replaced {h h' : Heap} {i k v} (hs : Shaped Γ h) (hh : Replaced h h' i k v)
    (hv : ∀ o, live h i = some o → Fits Γ h.length o.cls k v) : Shaped Γ h' := by
  intro j o' hl
  obtain ⟨o, h1, h2, _, h4⟩ := hh.obj j o' hl
  obtain ⟨h5, h6⟩ := hs j o h1
  rw [hh.len, ← h2, h4]
  by_cases hij : i = j
  · subst hij
    rw [if_pos rfl]
    refine ⟨by simpa using h5, fun k' v' hk' => ?_⟩
    rw [List.getElem?_set] at hk'
    by_cases hkk : k = k'
    · subst hkk
      rw [if_pos rfl] at hk'
      split at hk'
      · cases hk'; exact hv o h1
      · cases hk'
    · rw [if_neg hkk] at hk'; exact h6 k' v' hk'
  · rw [if_neg hij]; exact ⟨h5, h6⟩

theorem live_append (h : Heap) (o : Obj) (j : Id) :
    live (h ++ [some o]) j = if j = h.length then some o else live h j := by
  unfold live
  by_cases hj : j = h.length
  · subst hj; simp
  · rw [if_neg hj]
    rcases Nat.lt_or_ge j h.length with hlt | hge
    · rw [List.getElem?_append_left hlt]
    · rw [List.getElem?_eq_none hge, List.getElem?_eq_none (by rw [List.length_append, List.length_singleton]; exact Nat.lt_of_le_of_ne hge (Ne.symm hj))]

theorem Shaped.append {h : Heap} {o : Obj} (hs : Shaped Γ h) (hlen : o.fields.length = Γ.size o.cls)
    (hf : ∀ (k : Nat) v, o.fields[k]? = some v → Fits Γ h.length o.cls k v) : Shaped Γ (h ++ [some o]) := by
  intro j o' hl
  rw [live_append] at hl
  by_cases hj : j = h.length
  · rw [if_pos hj] at hl; cases hl
    exact ⟨hlen, fun k v hk => (hf k v hk).mono (by simp)⟩
  · rw [if_neg hj] at hl
    exact ⟨(hs j o' hl).1, fun k v hk => ((hs j o' hl).2 k v hk).mono (by simp)⟩

theorem held_append (h : Heap) (o : Obj) : held (h ++ [some o]) = held h ++ strongs o.fields := by
  simp [held]

theorem Own.append {h : Heap} {ext : List Id} {o : Obj} (ho : Own h (strongs o.fields ++ ext)) (hc : o.count = 1) :
    Own (h ++ [some o]) (h.length :: ext) := by
  have hdead : Property.live h h.length = none := by unfold Property.live; rw [List.getElem?_eq_none (Nat.le_refl _)]; rfl
  intro j
  rw [live_append, held_append]
  have hj := ho j
  by_cases hjl : j = h.length
  · subst hjl
    rw [hdead] at hj
    simp only [List.count_append] at hj
    rw [if_pos rfl]
    simp only [List.count_cons_self, List.count_append]
    omega
  · rw [if_neg hjl]
    simp only [List.count_append] at hj
    simp only [List.count_cons, List.count_append, beq_iff_eq, if_neg (Ne.symm hjl)]
    cases hl : Property.live h j with
    | some o' => rw [hl] at hj; simp only at hj ⊢; omega
    | none => rw [hl] at hj; simp only at hj ⊢; omega

/-! ### Copies -/

/-- Objects may be added; the others keep everything but their counts. -/
def Keep (h h' : Heap) : Prop :=
  h.length ≤ h'.length ∧ ∀ i o', i < h.length → live h' i = some o' → ∃ o, live h i = some o ∧ o.cls = o'.cls ∧ o.value = o'.value ∧ o.fields = o'.fields

theorem Same.keep {h h' : Heap} (hh : Same h h') : Keep h h' := ⟨Nat.le_of_eq hh.1.symm, fun i o' _ hl => hh.2 i o' hl⟩

theorem copyObject_ok {h : Heap} {ext : List Id} {x : Id} {o : Obj} (ho : Own h ext) (hs : Shaped Γ h) (hl : live h x = some o) :
    ∃ h' y oy, copyObject Γ h x = some (h', y) ∧ Own h' (y :: ext) ∧ Shaped Γ h' ∧ Keep h h' ∧ live h' y = some oy ∧ oy.cls = o.cls ∧
      oy.value = o.value ∧ (Γ.immutable o.cls = true → y = x) ∧ (Γ.immutable o.cls = false → y = h.length) ∧
      (∀ i oi, live h i = some oi → ∃ oi', live h' i = some oi' ∧ oi.cls = oi'.cls ∧ oi.fields = oi'.fields) := by
  unfold copyObject
  rw [hl]
  simp only [Option.bind_some]
  by_cases hi : Γ.immutable o.cls = true
  · rw [if_pos hi]
    obtain ⟨h', h1, h2, h3, h4⟩ := retain_ok ho ⟨o, hl⟩
    obtain ⟨oy, b1, b2, b3, _⟩ := h4.2 x o hl
    refine ⟨h', x, oy, by rw [h1]; rfl, h2, hs.same h3, h3.keep, b1, b2, b3, fun _ => rfl, fun hf => absurd hf (by rw [hi]; simp), ?_⟩
    intro i oi hoi
    obtain ⟨oi', c1, c2, _, c4⟩ := h4.2 i oi hoi
    exact ⟨oi', c1, c2.symm, c4.symm⟩
  · rw [if_neg hi]
    have hmem : ∀ i ∈ strongs o.fields, ∃ o, live h i = some o := by
      intro i hm
      refine ho.live ?_
      have := held_set h x none (some o) i (live_get hl)
      simp only [cellOwned, List.count_nil] at this
      have := List.count_pos_iff.mpr hm
      omega
    obtain ⟨h', h1, h2, h3, h4⟩ := retains_ok _ ho hmem
    have hdead : ∀ i oi, live h' i = some oi → i ≠ h'.length := fun i oi hoi => Nat.ne_of_lt (live_lt hoi)
    obtain ⟨ox, d1, d2, d3, d4⟩ := h4.2 x o hl
    refine ⟨h' ++ [some { o with count := 1 }], h'.length, { o with count := 1 }, by rw [h1]; rfl, Own.append (o := { o with count := 1 }) h2 rfl, ?_, ⟨by simp [h3.1], ?_⟩, ?_, rfl, rfl,
      fun hf => absurd hf hi, fun _ => h3.1, ?_⟩
    · refine (hs.same h3).append (hs x o hl).1 (fun k v hk => ?_)
      rw [h3.1]; exact (hs x o hl).2 k v hk
    · intro i o' hlt hl'
      rw [live_append, if_neg (by rw [h3.1]; exact Nat.ne_of_lt hlt)] at hl'
      exact h3.2 i o' hl'
    · rw [live_append, if_pos rfl]
    · intro i oi hoi
      obtain ⟨oi', c1, c2, _, c4⟩ := h4.2 i oi hoi
      refine ⟨oi', ?_, c2.symm, c4.symm⟩
      rw [live_append, if_neg (hdead i oi' c1)]; exact c1

/-! ### Writing a property -/

theorem definition_mem {cls : Nat} {name : Name} {p : Definition} (h : definition Γ cls name = some p) :
    p ∈ Γ.table cls ∧ p.name = name :=
  ⟨List.mem_of_find?_eq_some h, by simpa using List.find?_some h⟩

theorem pairwise_mem {α : Type} {R : α → α → Prop} (hsym : ∀ a b, R a b → R b a) {l : List α} (h : l.Pairwise R) {a b : α} (ha : a ∈ l)
    (hb : b ∈ l) : a = b ∨ R a b := by
  induction l with
  | nil => cases ha
  | cons x l ih =>
      obtain ⟨h1, h2⟩ := List.pairwise_cons.mp h
      rcases List.mem_cons.mp ha with hax | hax
      · rcases List.mem_cons.mp hb with hbx | hbx
        · exact Or.inl (hax.trans hbx.symm)
        · exact Or.inr (hax ▸ h1 b hbx)
      · rcases List.mem_cons.mp hb with hbx | hbx
        · exact Or.inr (hbx ▸ hsym _ _ (h1 a hax))
        · exact ih h2 hax hbx

theorem WellFormed.eq_or (wf : WellFormed Γ) {cls : Nat} {p q : Definition} (hp : p ∈ Γ.table cls) (hq : q ∈ Γ.table cls) :
    p = q ∨ (p.name ≠ q.name ∧ p.offset ≠ q.offset) :=
  pairwise_mem (fun _ _ h => ⟨Ne.symm h.1, Ne.symm h.2⟩) (wf cls).1 hp hq

theorem WellFormed.weakField (wf : WellFormed Γ) {cls : Nat} {p : Definition} (hp : p ∈ Γ.table cls) :
    weakField Γ cls p.offset = p.weak := by
  unfold Property.weakField
  cases hw : p.weak with
  | true => rw [List.any_eq_true]; exact ⟨p, hp, by simp [hw]⟩
  | false =>
      rw [List.any_eq_false]
      intro q hq
      rcases wf.eq_or hp hq with rfl | h
      · simp [hw]
      · simp [Ne.symm h.2]

/-- What a field holds after `x` was stored. -/
def StoredAs (Γ : Classes) (h h' : Heap) (p : Definition) (x : Option Id) (v : Slot) : Prop :=
  match x with
  | none => v = .null
  | some x =>
    if p.copy then ∃ y ox oy, v = .strong y ∧ live h x = some ox ∧ live h' y = some oy ∧ oy.cls = ox.cls ∧ oy.value = ox.value ∧
      (Γ.immutable ox.cls = true → y = x) ∧ (Γ.immutable ox.cls = false → y = h.length)
    else if p.weak then v = .weak x else v = .strong x

/-- The heap after field `k` of `i` was set to `v`; objects may be added. -/
def Changed (h h' : Heap) (i : Id) (k : Nat) (v : Slot) : Prop :=
  h.length ≤ h'.length ∧ ∀ j o', j < h.length → live h' j = some o' → ∃ o, live h j = some o ∧ o.cls = o'.cls ∧ o.value = o'.value ∧
    o'.fields = if i = j then o.fields.set k v else o.fields

theorem changed_of {h h1 h' : Heap} {i k v} (hk : Keep h h1) (hr : Replaced h1 h' i k v) : Changed h h' i k v := by
  refine ⟨by rw [hr.len]; exact hk.1, fun j o' hj hl => ?_⟩
  obtain ⟨o1, a1, a2, a3, a4⟩ := hr.obj j o' hl
  obtain ⟨o, b1, b2, b3, b4⟩ := hk.2 j o1 hj a1
  refine ⟨o, b1, b2.trans a2, b3.trans a3, ?_⟩
  rw [a4, b4]

theorem store_ok (wf : WellFormed Γ) {h : Heap} {ext : List Id} {i : Id} {o : Obj} {p : Definition} {x : Option Id} (ho : Own h ext)
    (hs : Shaped Γ h) (hi : i ∈ ext) (hl : live h i = some o) (hp : p ∈ Γ.table o.cls) (hx : ∀ y, x = some y → y ∈ ext) :
    ∃ h' v, store Γ h i p x = some h' ∧ Own h' ext ∧ Shaped Γ h' ∧ Changed h h' i p.offset v ∧ StoredAs Γ h h' p x v := by
  have hoff : ∀ o' : Obj, o'.cls = o.cls → o'.fields.length = Γ.size o'.cls → p.offset < o'.fields.length := by
    intro o' h1 h2; rw [h2, h1]; exact ((wf o.cls).2 p hp).1
  cases x with
  | none =>
      obtain ⟨h', h1, h2, h3⟩ := replace_ok (v := .null) ho hi hl (hoff o rfl (hs i o hl).1)
      exact ⟨h', .null, h1, h2, hs.replaced h3 (fun _ _ => trivial), changed_of (Same.refl h).keep h3, rfl⟩
  | some x =>
      obtain ⟨ox, hox⟩ := ho.mem (hx x rfl)
      simp only [store]
      by_cases hc : p.copy = true
      · rw [if_pos hc]
        obtain ⟨h1, y, oy, a1, a2, a3, a4, a5, a6, a7, a8, a9, a10⟩ := copyObject_ok ho hs hox
        obtain ⟨oi, b1, b2, b3⟩ := a10 i o hl
        have hoffi := hoff oi b2.symm (a3 i oi b1).1
        obtain ⟨h', c1, c2, c3⟩ := replace_ok (v := .strong y) a2 hi b1 hoffi
        have hwk : weakField Γ oi.cls p.offset = false := by
          rw [← b2, wf.weakField hp]
          cases hw : p.weak with
          | false => rfl
          | true => have := ((wf o.cls).2 p hp).2 hw; rw [this] at hc; cases hc
        have hy : ∃ oy', live h' y = some oy' := by
          refine c2.live ?_
          -- the field owns it
          obtain ⟨oi', d1⟩ := c2.mem hi
          obtain ⟨o2, e1, e2, e3, e4⟩ := c3.obj i oi' d1
          rw [if_pos rfl] at e4
          rw [b1] at e1; cases e1
          have hset := strongs_set oi.fields p.offset (.strong y) _ y (List.getElem?_eq_getElem hoffi)
          have hh := held_set h' i none (some oi') y (live_get d1)
          have hsame := held_set h1 i none (some oi) y (live_get b1)
          simp only [cellOwned, List.count_nil] at hh
          rw [e4] at hh
          have hin : 0 < (strongs (oi.fields.set p.offset (.strong y))).count y := by
            rw [List.count_pos_iff]
            unfold strongs
            rw [List.mem_flatMap]
            exact ⟨.strong y, List.mem_of_getElem? (List.getElem?_set_self hoffi), by simp [owned]⟩
          omega
        obtain ⟨oy', hoy'⟩ := hy
        obtain ⟨oz, f1, f2, f3, _⟩ := c3.obj y oy' hoy'
        rw [a5] at f1; cases f1
        refine ⟨h', .strong y, by rw [a1]; exact c1, c2, a3.replaced c3 (fun o' ho' => by rw [b1] at ho'; cases ho'; exact hwk),
          changed_of a4 c3, ?_⟩
        unfold StoredAs
        simp only [if_pos hc]
        exact ⟨y, ox, oy', rfl, hox, hoy', f2.symm.trans a6, f3.symm.trans a7, a8, a9⟩
      · rw [if_neg hc]
        by_cases hw : p.weak = true
        · rw [if_pos hw, hox]
          obtain ⟨h', h1, h2, h3⟩ := replace_ok (v := .weak x) ho hi hl (hoff o rfl (hs i o hl).1)
          refine ⟨h', .weak x, h1, h2, hs.replaced h3 (fun o' ho' => ?_), changed_of (Same.refl h).keep h3, ?_⟩
          · rw [hl] at ho'; cases ho'
            exact ⟨by rw [wf.weakField hp, hw], live_lt hox⟩
          · unfold StoredAs; simp only [if_neg hc, if_pos hw]
        · rw [if_neg hw]
          obtain ⟨h1, a1, a2, a3, a4⟩ := retain_ok ho ⟨ox, hox⟩
          obtain ⟨oi, b1, b2, b3, b4⟩ := a4.2 i o hl
          have hs1 := hs.same a3
          obtain ⟨h', c1, c2, c3⟩ := replace_ok (v := .strong x) a2 hi b1 (hoff oi b2 (hs1 i oi b1).1)
          refine ⟨h', .strong x, by rw [a1]; exact c1, c2, hs1.replaced c3 (fun o' ho' => ?_), changed_of a3.keep c3, ?_⟩
          · rw [b1] at ho'; cases ho'
            show weakField Γ oi.cls p.offset = false
            rw [b2, wf.weakField hp]; simpa using hw
          · unfold StoredAs; simp only [if_neg hc, if_neg hw]

/-! ### The invariant -/

structure Inv (Γ : Classes) (s : State) : Prop where
  own : Own s.heap (s.client ++ s.pool)
  shaped : Shaped Γ s.heap

theorem Usable.mem {s : State} {i : Id} (h : Usable s i) : i ∈ s.client ++ s.pool := by
  rw [List.mem_append]; exact h

theorem Usable.live {s : State} {i : Id} (hi : Inv Γ s) (h : Usable s i) : ∃ o, live s.heap i = some o := hi.own.mem h.mem

theorem start_inv : Inv Γ start := by
  refine ⟨fun i => ?_, fun i o h => ?_⟩
  · have : Property.live start.heap i = none := by simp [Property.live, start]
    rw [this]; rfl
  · simp [Property.live, start] at h

/-- What a call may change in the fields. -/
def Effect (h h' : Heap) (op : Op) (Γ : Classes) : Prop :=
  Keep h h' ∨ ∃ i k v, Changed h h' i k v ∧ ∀ o, live h i = some o →
    (∃ x, op = .assign i k x) ∨ ∃ name x p, op = .set i name x ∧ definition Γ o.cls name = some p ∧ p.readOnly = false ∧ k = p.offset

theorem retain_eq {h h' : Heap} {i : Id} (hr : retain h i = some h') : ∃ o, live h i = some o := by
  unfold retain at hr
  cases hl : live h i with
  | none => rw [hl] at hr; cases hr
  | some o => exact ⟨o, rfl⟩

theorem autoreleased_ok {s : State} {x : Id} (hi : Inv Γ s) (hl : ∃ o, live s.heap x = some o) :
    ∃ s', autoreleased s x = some (s', some x) ∧ Inv Γ s' ∧ Keep s.heap s'.heap ∧ s'.client = s.client ∧ s'.pool = x :: s.pool := by
  obtain ⟨h', h1, h2, h3, _⟩ := retain_ok hi.own hl
  refine ⟨⟨h', x :: s.pool, s.client⟩, by rw [autoreleased, h1]; rfl, ⟨h2.congr (fun j => ?_), hi.shaped.same h3⟩, h3.keep, rfl, rfl⟩
  simp only [List.count_append, List.count_cons]; omega

theorem readObject_ok (wf : WellFormed Γ) {s : State} {i : Id} {o : Obj} {p : Definition} (hi : Inv Γ s) (hl : live s.heap i = some o)
    (hp : p ∈ Γ.table o.cls) : ∃ s' r v, readObject s i p = some (s', r) ∧ Inv Γ s' ∧ Keep s.heap s'.heap ∧ s'.client = s.client ∧
      (s'.pool = s.pool ∧ r = none ∨ ∃ x, r = some x ∧ s'.pool = x :: s.pool) ∧ o.fields[p.offset]? = some v ∧
      match v with
      | .null => r = none
      | .strong x => p.weak = false ∧ r = some x
      | .weak x => p.weak = true ∧ if (live s.heap x).isSome then r = some x else r = none := by
  obtain ⟨hlen, hfit⟩ := hi.shaped i o hl
  have hoff : p.offset < o.fields.length := by rw [hlen]; exact ((wf o.cls).2 p hp).1
  have hv := List.getElem?_eq_getElem hoff
  generalize o.fields[p.offset] = v at hv
  have hf := hfit _ _ hv
  unfold readObject
  rw [hl]
  simp only [Option.bind_some]
  rw [hv]
  simp only [Option.bind_some]
  cases v with
  | null => exact ⟨s, none, .null, rfl, hi, (Same.refl _).keep, rfl, Or.inl ⟨rfl, rfl⟩, rfl, rfl⟩
  | strong x =>
      have hw : p.weak = false := by have : weakField Γ o.cls p.offset = false := hf; rwa [wf.weakField hp] at this
      rw [hw]
      simp only
      have hx : ∃ ox, live s.heap x = some ox := by
        refine hi.own.live ?_
        have hh := held_set s.heap i none (some o) x (live_get hl)
        simp only [cellOwned, List.count_nil] at hh
        have hin : 0 < (strongs o.fields).count x := by
          rw [List.count_pos_iff]; unfold strongs; rw [List.mem_flatMap]
          exact ⟨.strong x, List.mem_of_getElem? hv, by simp [owned]⟩
        omega
      obtain ⟨s', h1, h2, h3, h4, h5⟩ := autoreleased_ok hi hx
      exact ⟨s', some x, .strong x, h1, h2, h3, h4, Or.inr ⟨x, rfl, h5⟩, rfl, trivial, rfl⟩
  | weak x =>
      have hw : p.weak = true := by have : weakField Γ o.cls p.offset = true ∧ _ := hf; rw [wf.weakField hp] at this; exact this.1
      rw [hw]
      simp only
      by_cases hx : (live s.heap x).isSome = true
      · rw [if_pos hx]
        obtain ⟨s', h1, h2, h3, h4, h5⟩ := autoreleased_ok hi (Option.isSome_iff_exists.mp hx)
        exact ⟨s', some x, .weak x, h1, h2, h3, h4, Or.inr ⟨x, rfl, h5⟩, rfl, trivial, by rw [if_pos hx]⟩
      · rw [if_neg hx]
        exact ⟨s, none, .weak x, rfl, hi, (Same.refl _).keep, rfl, Or.inl ⟨rfl, rfl⟩, rfl, trivial, by rw [if_neg hx]⟩

/-- Reading any property of a usable object. -/
theorem getProperty_ok (wf : WellFormed Γ) {s : State} {i : Id} (name : Name) (hi : Inv Γ s) (hu : Usable s i) :
    ∃ s' r, getProperty Γ s (some i) name = some (s', r) ∧ Inv Γ s' ∧ Keep s.heap s'.heap ∧ s'.client = s.client ∧
      (s'.pool = s.pool ∧ r = none ∨ ∃ x, r = some x ∧ s'.pool = x :: s.pool) := by
  obtain ⟨o, hl⟩ := hu.live hi
  unfold getProperty
  simp only [hl, Option.bind_some]
  cases hd : definition Γ o.cls name with
  | none => exact ⟨s, none, rfl, hi, (Same.refl _).keep, rfl, Or.inl ⟨rfl, rfl⟩⟩
  | some p =>
      obtain ⟨s', r, v, h1, h2, h3, h4, h5, _⟩ := readObject_ok wf hi hl (definition_mem hd).1
      exact ⟨s', r, h1, h2, h3, h4, h5⟩

/-- Writing any property of a usable object. -/
theorem setProperty_ok (wf : WellFormed Γ) {s : State} {i : Id} {name : Name} {x : Option Id} (hi : Inv Γ s) (hu : Usable s i)
    (hx : ∀ y, x = some y → Usable s y) :
    ∃ s', setProperty Γ s (some i) name x = some s' ∧ Inv Γ s' ∧ s'.client = s.client ∧ s'.pool = s.pool ∧
      Effect s.heap s'.heap (.set i name x) Γ ∧
      ∀ o p, live s.heap i = some o → definition Γ o.cls name = some p →
        if p.readOnly = false ∧ p.accepts ((look s.heap x).getD none) = true then
          ∃ v, Changed s.heap s'.heap i p.offset v ∧ StoredAs Γ s.heap s'.heap p x v
        else s' = s := by
  obtain ⟨o, hl⟩ := hu.live hi
  unfold setProperty
  simp only [hl, Option.bind_some]
  cases hd : definition Γ o.cls name with
  | none =>
      refine ⟨s, rfl, hi, rfl, rfl, Or.inl (Same.refl _).keep, fun o' p ho' hp' => ?_⟩
      cases ho'; rw [hd] at hp'; cases hp'
  | some p =>
      simp only
      by_cases hr : p.readOnly = true
      · rw [if_pos hr]
        refine ⟨s, rfl, hi, rfl, rfl, Or.inl (Same.refl _).keep, fun o' p' ho' hp' => ?_⟩
        cases ho'; rw [hd] at hp'; cases hp'
        rw [if_neg (by rw [hr]; simp)]
      · rw [if_neg hr]
        have hlook : ∃ v, look s.heap x = some v := by
          cases x with
          | none => exact ⟨none, rfl⟩
          | some y => obtain ⟨oy, hy⟩ := (hx y rfl).live hi; exact ⟨_, by rw [look, hy]; rfl⟩
        obtain ⟨v, hv⟩ := hlook
        unfold writeObject
        rw [hv]
        simp only [Option.bind_some, Option.getD_some]
        by_cases ha : p.accepts v = true
        · rw [if_pos ha]
          obtain ⟨h', v', a1, a2, a3, a4, a5⟩ := store_ok wf (x := x) hi.own hi.shaped hu.mem hl (definition_mem hd).1 (fun y hy => (hx y hy).mem)
          rw [a1]
          refine ⟨_, rfl, ⟨a2, a3⟩, rfl, rfl, Or.inr ⟨i, p.offset, v', a4, fun o' ho' => ?_⟩, fun o' p' ho' hp' => ?_⟩
          · rw [hl] at ho'; cases ho'
            exact Or.inr ⟨name, x, p, rfl, hd, by simpa using hr, rfl⟩
          · cases ho'; rw [hd] at hp'; cases hp'
            rw [if_pos ⟨by simpa using hr, ha⟩]
            exact ⟨v', a4, a5⟩
        · rw [if_neg ha]
          refine ⟨s, rfl, hi, rfl, rfl, Or.inl (Same.refl _).keep, fun o' p' ho' hp' => ?_⟩
          cases ho'; rw [hd] at hp'; cases hp'
          rw [if_neg (fun h => ha h.2)]

theorem assignField_ok {s : State} {i : Id} {k : Nat} {x : Option Id} (hi : Inv Γ s) (hu : Usable s i)
    (hx : ∀ y, x = some y → Usable s y) (hk : ∀ o, live s.heap i = some o → k < Γ.size o.cls) :
    ∃ h' v, assignField Γ s.heap i k x = some h' ∧ Own h' (s.client ++ s.pool) ∧ Shaped Γ h' ∧ Changed s.heap h' i k v := by
  obtain ⟨o, hl⟩ := hu.live hi
  have hkl : ∀ o' : Obj, o'.cls = o.cls → o'.fields.length = Γ.size o'.cls → k < o'.fields.length := by
    intro o' h1 h2; rw [h2, h1]; exact hk o hl
  cases x with
  | none =>
      obtain ⟨h', h1, h2, h3⟩ := replace_ok (v := .null) hi.own hu.mem hl (hkl o rfl (hi.shaped i o hl).1)
      exact ⟨h', .null, h1, h2, hi.shaped.replaced h3 (fun _ _ => trivial), changed_of (Same.refl _).keep h3⟩
  | some x =>
      obtain ⟨ox, hox⟩ := (hx x rfl).live hi
      unfold assignField
      rw [hl]
      simp only [Option.bind_some]
      by_cases hw : weakField Γ o.cls k = true
      · rw [if_pos hw, hox]
        obtain ⟨h', h1, h2, h3⟩ := replace_ok (v := .weak x) hi.own hu.mem hl (hkl o rfl (hi.shaped i o hl).1)
        refine ⟨h', .weak x, h1, h2, hi.shaped.replaced h3 (fun o' ho' => ?_), changed_of (Same.refl _).keep h3⟩
        rw [hl] at ho'; cases ho'
        exact ⟨hw, live_lt hox⟩
      · rw [if_neg hw]
        obtain ⟨h1, a1, a2, a3, a4⟩ := retain_ok hi.own ⟨ox, hox⟩
        obtain ⟨oi, b1, b2, b3, b4⟩ := a4.2 i o hl
        have hs1 := hi.shaped.same a3
        obtain ⟨h', c1, c2, c3⟩ := replace_ok (v := .strong x) a2 hu.mem b1 (hkl oi b2 (hs1 i oi b1).1)
        refine ⟨h', .strong x, by rw [a1]; exact c1, c2, hs1.replaced c3 (fun o' ho' => ?_), changed_of a3.keep c3⟩
        rw [b1] at ho'; cases ho'
        show weakField Γ oi.cls k = false
        rw [b2]; simpa using hw

theorem strongs_null (n : Nat) : strongs (List.replicate n .null) = [] := by
  induction n with
  | zero => rfl
  | succ n ih => rw [List.replicate_succ, strongs, List.flatMap_cons, ← strongs, ih]; rfl

theorem count_erase {l : List Id} {i : Id} (h : i ∈ l) (j : Id) : (l.erase i).count j + (if i = j then 1 else 0) = l.count j := by
  by_cases hij : i = j
  · subst hij
    rw [if_pos rfl, List.count_erase_self]
    have := List.count_pos_iff.mpr h
    omega
  · rw [if_neg hij, List.count_erase_of_ne (Ne.symm hij)]; omega

/-- Every legal call succeeds and keeps the invariant. -/
theorem step_ok (wf : WellFormed Γ) {s : State} (hi : Inv Γ s) (op : Op) (hop : Legal Γ s op) :
    ∃ s' r, step Γ s op = some (s', r) ∧ Inv Γ s' ∧ Effect s.heap s'.heap op Γ := by
  cases op with
  | alloc cls value =>
      refine ⟨_, _, rfl, ⟨?_, ?_⟩, Or.inl ⟨by simp, fun i o' hlt hl => ?_⟩⟩
      · exact Own.append (o := ⟨cls, value, 1, List.replicate (Γ.size cls) .null⟩) (by simp only [strongs_null]; exact hi.own) rfl
      · refine hi.shaped.append (by simp) (fun k v hk => ?_)
        have := List.mem_of_getElem? hk
        rw [List.mem_replicate] at this
        rw [this.2]; trivial
      · rw [live_append, if_neg (Nat.ne_of_lt hlt)] at hl
        exact ⟨o', hl, rfl, rfl, rfl⟩
  | retain i =>
      obtain ⟨h', h1, h2, h3, _⟩ := retain_ok hi.own (Usable.live hi hop)
      refine ⟨_, _, by rw [step, h1]; rfl, ⟨h2.congr (fun j => ?_), hi.shaped.same h3⟩, Or.inl h3.keep⟩
      simp only [List.count_append, List.count_cons]; omega
  | release i =>
      have hm : i ∈ s.client := hop
      obtain ⟨h', h1, h2, h3⟩ := release_ok (h := s.heap) (l := [i]) (ext := s.client.erase i ++ s.pool) (hi.own.congr (fun j => by
        have := count_erase hm j
        simp only [List.count_append, List.count_cons, List.cons_append, List.nil_append, beq_iff_eq]; omega))
      exact ⟨_, _, by rw [step, h1]; rfl, ⟨h2, hi.shaped.same h3⟩, Or.inl h3.keep⟩
  | autorelease i =>
      have hm : i ∈ s.client := hop
      refine ⟨_, _, rfl, ⟨hi.own.congr (fun j => ?_), hi.shaped⟩, Or.inl (Same.refl _).keep⟩
      have := count_erase hm j
      simp only [List.count_append, List.count_cons, beq_iff_eq]; omega
  | drain =>
      obtain ⟨h', h1, h2, h3⟩ := release_ok (h := s.heap) (l := s.pool) (ext := s.client) (hi.own.congr (fun j => by
        simp only [List.count_append]; omega))
      exact ⟨_, _, by rw [step, h1]; rfl, ⟨by simpa using h2, hi.shaped.same h3⟩, Or.inl h3.keep⟩
  | set i name x =>
      obtain ⟨s', h1, h2, _, _, h5, _⟩ := setProperty_ok (name := name) wf hi hop.1 hop.2
      exact ⟨s', none, by rw [step, h1]; rfl, h2, h5⟩
  | get i name =>
      obtain ⟨s', r, h1, h2, h3, _⟩ := getProperty_ok wf name hi hop
      exact ⟨s', r, h1, h2, Or.inl h3⟩
  | assign i k x =>
      obtain ⟨h', v, h1, h2, h3, h4⟩ := assignField_ok hi hop.1 hop.2.1 hop.2.2
      exact ⟨_, _, by rw [step, h1]; rfl, ⟨h2, h3⟩, Or.inr ⟨i, k, v, h4, fun _ _ => Or.inl ⟨x, rfl⟩⟩⟩

theorem run_inv (wf : WellFormed Γ) {s s' : State} {ops : List Op} (hr : Run Γ s ops s') (hi : Inv Γ s) : Inv Γ s' := by
  induction hr with
  | nil s => exact hi
  | cons hl hs _ ih =>
      obtain ⟨s1, r, h1, h2, _⟩ := step_ok wf hi _ hl
      rw [hs] at h1; cases h1
      exact ih h2

/-- Fields that are not written keep their contents while the object exists. -/
theorem effect_field (wf : WellFormed Γ) {h h' : Heap} {op : Op} (he : Effect h h' op Γ) {i : Id} {o' : Obj} {p : Definition} (hlt : i < h.length)
    (hl' : live h' i = some o') (hp : p ∈ Γ.table o'.cls) (hw : ¬ Writes i p op) :
    ∃ o, live h i = some o ∧ o.cls = o'.cls ∧ o.value = o'.value ∧ o.fields[p.offset]? = o'.fields[p.offset]? := by
  rcases he with hk | ⟨j, k, v, hc, hwhy⟩
  · obtain ⟨o, h1, h2, h3, h4⟩ := hk.2 i o' hlt hl'
    exact ⟨o, h1, h2, h3, by rw [h4]⟩
  · obtain ⟨o, h1, h2, h3, h4⟩ := hc.2 i o' hlt hl'
    refine ⟨o, h1, h2, h3, ?_⟩
    rw [h4]
    by_cases hij : j = i
    · subst hij
      rw [if_pos rfl]
      have hne : k ≠ p.offset := by
        rcases hwhy o h1 with ⟨x, rfl⟩ | ⟨name, x, q, rfl, hq, _, rfl⟩
        · intro e; exact hw ⟨rfl, e⟩
        · intro e
          obtain ⟨hqm, hqn⟩ := definition_mem hq
          rw [← h2] at hp
          rcases wf.eq_or hqm hp with rfl | hne
          · exact hw ⟨rfl, hqn.symm⟩
          · exact hne.2 e
      rw [List.getElem?_set, if_neg hne]
    · rw [if_neg hij]

theorem run_field (wf : WellFormed Γ) {s s' : State} {ops : List Op} (hr : Run Γ s ops s') : Inv Γ s → ∀ {i : Id} {o' : Obj} {p : Definition},
    i < s.heap.length → live s'.heap i = some o' → p ∈ Γ.table o'.cls → (∀ op ∈ ops, ¬ Writes i p op) →
    ∃ o, live s.heap i = some o ∧ o.cls = o'.cls ∧ o.value = o'.value ∧ o.fields[p.offset]? = o'.fields[p.offset]? := by
  induction hr with
  | nil s => intro _ i o' p _ hl _ _; exact ⟨o', hl, rfl, rfl, rfl⟩
  | @cons s s1 s2 op ops r hl hs hr ih =>
      intro hi i o' p hlt hl' hp hw
      obtain ⟨s1', r', h1, h2, h3⟩ := step_ok wf hi _ hl
      rw [hs] at h1; cases h1
      have hlen : s.heap.length ≤ s1.heap.length := by
        rcases h3 with hk | ⟨_, _, _, hc, _⟩
        · exact hk.1
        · exact hc.1
      obtain ⟨o1, a1, a2, a3, a4⟩ := ih h2 (Nat.lt_of_lt_of_le hlt hlen) hl' hp (fun op hop => hw op (by simp [hop]))
      obtain ⟨o, b1, b2, b3, b4⟩ := effect_field wf h3 hlt a1 (by rw [a2]; exact hp) (hw op (by simp))
      exact ⟨o, b1, b2.trans a2, b3.trans a3, b4.trans a4⟩

end Property
end Duck
