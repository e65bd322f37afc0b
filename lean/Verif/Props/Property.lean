import Verif.Lemmas.PropertyRun
import Verif.Props.TextEdit
/-! **C55** — properties. -/
namespace Duck
namespace Property
variable {Γ : Classes}

theorem Reachable.inv (wf : WellFormed Γ) {s : State} (h : Reachable Γ s) : Inv Γ s := by
  obtain ⟨ops, hr⟩ := h
  exact run_inv wf hr start_inv

/-- **C55.** Programs that follow the ownership rules never touch freed memory: every legal call succeeds. -/
theorem C55_safe (wf : WellFormed Γ) {s : State} (h : Reachable Γ s) (op : Op) (hop : Legal Γ s op) :
    ∃ s' r, step Γ s op = some (s', r) ∧ Reachable Γ s' := by
  obtain ⟨ops, hr⟩ := h
  obtain ⟨s', r, h1, hx⟩ := step_ok wf (run_inv wf hr start_inv) op hop
  refine ⟨s', r, h1, ops ++ [op], ?_⟩
  clear wf hx
  generalize start = s0 at hr
  induction hr with
  | nil s => exact .cons hop h1 (.nil _)
  | cons a b _ ih => exact .cons a b (ih hop h1)

/-- **C55.** Reference counts are balanced: the count of an object is the number of references to it held by the caller,
    the autorelease pool and the fields of objects that exist, it is never zero, and freed objects have no references. -/
theorem C55_balanced (wf : WellFormed Γ) {s : State} (h : Reachable Γ s) (i : Id) :
    (∀ o, live s.heap i = some o → o.count = s.client.count i + s.pool.count i + (held s.heap).count i ∧ 0 < o.count) ∧
    (live s.heap i = none → i ∉ s.client ∧ i ∉ s.pool ∧ i ∉ held s.heap) := by
  have := (h.inv wf).own i
  refine ⟨fun o ho => ?_, fun ho => ?_⟩
  · rw [ho] at this
    simp only [List.count_append] at this
    omega
  · rw [ho] at this
    simp only [List.count_append] at this
    refine ⟨?_, ?_, ?_⟩ <;> (rw [← List.count_eq_zero]; omega)

/-- The property was written, the history `ops` did not write it again, and `i` may still be used. -/
theorem read_back (wf : WellFormed Γ) {s s1 s2 : State} {i : Id} {o : Obj} {name : Name} {x : Option Id} {p : Definition} {ops : List Op}
    {r : Option Id} (h : Reachable Γ s) (hop : Legal Γ s (.set i name x)) (ho : live s.heap i = some o) (hd : definition Γ o.cls name = some p)
    (hro : p.readOnly = false) (hacc : ∀ v, look s.heap x = some v → p.accepts v = true)
    (hs : step Γ s (.set i name x) = some (s1, r)) (hrun : Run Γ s1 ops s2) (hops : ∀ op ∈ ops, ¬ Writes i p op) (hu : Usable s2 i) :
    ∃ s3 r v, getProperty Γ s2 (some i) name = some (s3, r) ∧ StoredAs Γ s.heap s1.heap p x v ∧ Inv Γ s1 ∧ Inv Γ s2 ∧
      (∃ o2, live s2.heap i = some o2 ∧ o2.fields[p.offset]? = some v) ∧
      match v with
      | .null => r = none
      | .strong y => p.weak = false ∧ r = some y
      | .weak y => p.weak = true ∧ if (live s2.heap y).isSome then r = some y else r = none := by
  have hi := h.inv wf
  obtain ⟨s1', a1, a2, _, _, a5, a6⟩ := setProperty_ok (name := name) wf hi hop.1 hop.2
  rw [step, a1] at hs; cases hs
  have hacc' : p.accepts ((look s.heap x).getD none) = true := by
    cases x with
    | none => exact hacc none rfl
    | some y => obtain ⟨oy, hy⟩ := (hop.2 y rfl).live hi; exact hacc _ (by simp [look, hy])
  have hw := a6 o p ho hd
  rw [if_pos ⟨hro, hacc'⟩] at hw
  obtain ⟨v, b1, b2⟩ := hw
  have hi2 := run_inv wf hrun a2
  obtain ⟨o2, ho2⟩ := hu.live hi2
  have hpm := (definition_mem hd).1
  have hlt : i < s.heap.length := live_lt ho
  have hlt1 : i < s1.heap.length := Nat.lt_of_lt_of_le hlt b1.1
  -- the class of the object is the same
  have hcls : o2.cls = o.cls := by
    have : ∀ {s s' : State} {ops : List Op}, Run Γ s ops s' → Inv Γ s → ∀ o', i < s.heap.length → live s'.heap i = some o' →
        ∃ o, live s.heap i = some o ∧ o.cls = o'.cls := by
      intro s s' ops hr
      induction hr with
      | nil s => intro _ o' _ hl; exact ⟨o', hl, rfl⟩
      | cons hl hs hr ih =>
          intro hi o' hlt hl'
          obtain ⟨_, _, h1, h2, h3⟩ := step_ok wf hi _ hl
          rw [hs] at h1; cases h1
          rcases h3 with hk | ⟨_, _, _, hc, _⟩
          · obtain ⟨o1, c1, c2⟩ := ih h2 o' (Nat.lt_of_lt_of_le hlt hk.1) hl'
            obtain ⟨o, d1, d2, _⟩ := hk.2 i o1 hlt c1
            exact ⟨o, d1, d2.trans c2⟩
          · obtain ⟨o1, c1, c2⟩ := ih h2 o' (Nat.lt_of_lt_of_le hlt hc.1) hl'
            obtain ⟨o, d1, d2, _⟩ := hc.2 i o1 hlt c1
            exact ⟨o, d1, d2.trans c2⟩
    obtain ⟨o1, c1, c2⟩ := this hrun a2 o2 hlt1 ho2
    obtain ⟨o', d1, d2, _⟩ := b1.2 i o1 hlt c1
    rw [ho] at d1; cases d1
    exact (d2.trans c2).symm
  obtain ⟨o1, c1, c2, _, c4⟩ := run_field wf hrun a2 hlt1 ho2 (by rw [hcls]; exact hpm) hops
  obtain ⟨o', d1, d2, _, d4⟩ := b1.2 i o1 hlt c1
  rw [ho] at d1; cases d1
  rw [if_pos rfl] at d4
  have hoff : p.offset < o.fields.length := by rw [(hi.shaped i o ho).1]; exact ((wf o.cls).2 p hpm).1
  have hv : o2.fields[p.offset]? = some v := by rw [← c4, d4, List.getElem?_set_self hoff]
  obtain ⟨s3, r, v', e1, e2, e3, e4, e5, e6, e7⟩ := readObject_ok wf hi2 ho2 (p := p) (by rw [hcls]; exact hpm)
  rw [hv] at e6; cases e6
  refine ⟨s3, r, v, ?_, b2, a2, hi2, ⟨o2, ho2, hv⟩, e7⟩
  unfold getProperty
  simp only [ho2, Option.bind_some, hcls, hd]
  exact e1

/-- **C55.** An object property: after setting it, and any history that does not write it again, reading it returns the
    object that was set, which still exists. -/
theorem C55_strong (wf : WellFormed Γ) {s s1 s2 : State} {i x : Id} {o : Obj} {name : Name} {p : Definition} {ops : List Op}
    {r : Option Id} (h : Reachable Γ s) (hop : Legal Γ s (.set i name (some x))) (ho : live s.heap i = some o)
    (hd : definition Γ o.cls name = some p) (hro : p.readOnly = false) (hw : p.weak = false) (hc : p.copy = false)
    (hacc : ∀ v, look s.heap (some x) = some v → p.accepts v = true)
    (hs : step Γ s (.set i name (some x)) = some (s1, r)) (hrun : Run Γ s1 ops s2) (hops : ∀ op ∈ ops, ¬ Writes i p op)
    (hu : Usable s2 i) : ∃ s3, getProperty Γ s2 (some i) name = some (s3, some x) ∧ (live s2.heap x).isSome = true := by
  obtain ⟨s3, r, v, h1, h2, _, hi2, ⟨o2, ho2, hv⟩, h3⟩ := read_back wf h hop ho hd hro hacc hs hrun hops hu
  simp only [StoredAs, hc, hw, Bool.false_eq_true, if_false] at h2
  subst h2
  obtain ⟨_, rfl⟩ := h3
  refine ⟨s3, h1, ?_⟩
  have hh := held_set s2.heap i none (some o2) x (live_get ho2)
  simp only [cellOwned, List.count_nil] at hh
  have hin : 0 < (strongs o2.fields).count x := by
    rw [List.count_pos_iff]; unfold strongs; rw [List.mem_flatMap]
    exact ⟨.strong x, List.mem_of_getElem? hv, by simp [owned]⟩
  obtain ⟨ox, hox⟩ := hi2.own.live (i := x) (by omega)
  rw [hox]; rfl

/-- **C55.** A weak property: reading it returns the object that was set as long as it exists, then NULL. -/
theorem C55_weak (wf : WellFormed Γ) {s s1 s2 : State} {i x : Id} {o : Obj} {name : Name} {p : Definition} {ops : List Op}
    {r : Option Id} (h : Reachable Γ s) (hop : Legal Γ s (.set i name (some x))) (ho : live s.heap i = some o)
    (hd : definition Γ o.cls name = some p) (hro : p.readOnly = false) (hw : p.weak = true)
    (hacc : ∀ v, look s.heap (some x) = some v → p.accepts v = true)
    (hs : step Γ s (.set i name (some x)) = some (s1, r)) (hrun : Run Γ s1 ops s2) (hops : ∀ op ∈ ops, ¬ Writes i p op)
    (hu : Usable s2 i) :
    ∃ s3, getProperty Γ s2 (some i) name = some (s3, if (live s2.heap x).isSome then some x else none) := by
  obtain ⟨s3, r, v, h1, h2, _, _, _, h3⟩ := read_back wf h hop ho hd hro hacc hs hrun hops hu
  have hc := ((wf o.cls).2 p (definition_mem hd).1).2 hw
  simp only [StoredAs, hc, hw, Bool.false_eq_true, if_false, if_true] at h2
  subst h2
  refine ⟨s3, ?_⟩
  rw [h1]
  have h4 := h3.2
  split at h4 <;> rename_i hl <;> subst h4
  · rw [if_pos hl]
  · rw [if_neg hl]

/-- **C55.** A copied property: reading it returns an object of the same class with the contents `x` had when it was set;
    it is `x` itself only if objects of that class never change. -/
theorem C55_copied (wf : WellFormed Γ) {s s1 s2 : State} {i x : Id} {o : Obj} {name : Name} {p : Definition} {ops : List Op}
    {r : Option Id} (h : Reachable Γ s) (hop : Legal Γ s (.set i name (some x))) (ho : live s.heap i = some o)
    (hd : definition Γ o.cls name = some p) (hro : p.readOnly = false) (hc : p.copy = true)
    (hacc : ∀ v, look s.heap (some x) = some v → p.accepts v = true)
    (hs : step Γ s (.set i name (some x)) = some (s1, r)) (hrun : Run Γ s1 ops s2) (hops : ∀ op ∈ ops, ¬ Writes i p op)
    (hu : Usable s2 i) :
    ∃ s3 y ox oy, getProperty Γ s2 (some i) name = some (s3, some y) ∧ live s.heap x = some ox ∧ live s2.heap y = some oy ∧
      oy.cls = ox.cls ∧ oy.value = ox.value ∧ (y = x ↔ Γ.immutable ox.cls = true) := by
  obtain ⟨s3, r, v, h1, h2, hi1, hi2, ⟨o2, ho2, hv⟩, h3⟩ := read_back wf h hop ho hd hro hacc hs hrun hops hu
  simp only [StoredAs, hc, if_true] at h2
  obtain ⟨y, ox, oy, rfl, a1, a2, a3, a4, a5, a6⟩ := h2
  obtain ⟨_, rfl⟩ := h3
  have hh := held_set s2.heap i none (some o2) y (live_get ho2)
  simp only [cellOwned, List.count_nil] at hh
  have hin : 0 < (strongs o2.fields).count y := by
    rw [List.count_pos_iff]; unfold strongs; rw [List.mem_flatMap]
    exact ⟨.strong y, List.mem_of_getElem? hv, by simp [owned]⟩
  obtain ⟨oy2, hoy2⟩ := hi2.own.live (i := y) (by omega)
  have hsame : ∀ {s s' : State} {ops : List Op}, Run Γ s ops s' → Inv Γ s → ∀ o', y < s.heap.length → live s'.heap y = some o' →
      ∃ o, live s.heap y = some o ∧ o.cls = o'.cls ∧ o.value = o'.value := by
    intro s s' ops hr
    induction hr with
    | nil s => intro _ o' _ hl; exact ⟨o', hl, rfl, rfl⟩
    | cons hl hs hr ih =>
        intro hi o' hlt hl'
        obtain ⟨_, _, h1, h2, h3⟩ := step_ok wf hi _ hl
        rw [hs] at h1; cases h1
        rcases h3 with hk | ⟨_, _, _, hc, _⟩
        · obtain ⟨o1, c1, c2, c3⟩ := ih h2 o' (Nat.lt_of_lt_of_le hlt hk.1) hl'
          obtain ⟨o, d1, d2, d3, _⟩ := hk.2 y o1 hlt c1
          exact ⟨o, d1, d2.trans c2, d3.trans c3⟩
        · obtain ⟨o1, c1, c2, c3⟩ := ih h2 o' (Nat.lt_of_lt_of_le hlt hc.1) hl'
          obtain ⟨o, d1, d2, d3, _⟩ := hc.2 y o1 hlt c1
          exact ⟨o, d1, d2.trans c2, d3.trans c3⟩
  obtain ⟨oy1, b1, b2, b3⟩ := hsame hrun hi1 oy2 (live_lt a2) hoy2
  rw [a2] at b1; cases b1
  refine ⟨s3, y, ox, oy2, h1, a1, hoy2, b2.symm.trans a3, b3.symm.trans a4, fun hyx => ?_, a5⟩
  cases hm : Γ.immutable ox.cls with
  | true => rfl
  | false =>
      have := a6 hm
      have hlx := live_lt a1
      rw [← hyx, this] at hlx
      exact absurd hlx (Nat.lt_irrefl _)

/-- **C55.** Setting NULL: reading it returns NULL. -/
theorem C55_null (wf : WellFormed Γ) {s s1 s2 : State} {i : Id} {o : Obj} {name : Name} {p : Definition} {ops : List Op}
    {r : Option Id} (h : Reachable Γ s) (hop : Legal Γ s (.set i name none)) (ho : live s.heap i = some o)
    (hd : definition Γ o.cls name = some p) (hro : p.readOnly = false) (hacc : p.accepts none = true)
    (hs : step Γ s (.set i name none) = some (s1, r)) (hrun : Run Γ s1 ops s2) (hops : ∀ op ∈ ops, ¬ Writes i p op)
    (hu : Usable s2 i) : ∃ s3, getProperty Γ s2 (some i) name = some (s3, none) := by
  obtain ⟨s3, r, v, h1, h2, _, _, _, h3⟩ := read_back wf h hop ho hd hro (fun v hv => by cases hv; exact hacc) hs hrun hops hu
  simp only [StoredAs] at h2
  subst h2
  exact ⟨s3, by rw [h1, h3]⟩

/-- **C55.** Setting a property that is read-only, or to an object its predicate rejects, changes nothing at all. -/
theorem C55_rejected (wf : WellFormed Γ) {s s1 : State} {i : Id} {o : Obj} {name : Name} {x : Option Id} {p : Definition} {r : Option Id}
    (h : Reachable Γ s) (hop : Legal Γ s (.set i name x)) (ho : live s.heap i = some o) (hd : definition Γ o.cls name = some p)
    (hrej : p.readOnly = true ∨ ∀ v, look s.heap x = some v → p.accepts v = false) (hs : step Γ s (.set i name x) = some (s1, r)) :
    s1 = s := by
  have hi := h.inv wf
  obtain ⟨s1', a1, _, _, _, _, a6⟩ := setProperty_ok (name := name) wf hi hop.1 hop.2
  rw [step, a1] at hs; cases hs
  have := a6 o p ho hd
  rw [if_neg] at this
  · exact this
  · rintro ⟨h1, h2⟩
    rcases hrej with h3 | h3
    · rw [h3] at h1; cases h1
    · have : ∃ v, look s.heap x = some v := by
        cases x with
        | none => exact ⟨none, rfl⟩
        | some y => obtain ⟨oy, hy⟩ := (hop.2 y rfl).live hi; exact ⟨_, by rw [look, hy]; rfl⟩
      obtain ⟨v, hv⟩ := this
      rw [hv, Option.getD_some, h3 v hv] at h2; cases h2

/-- **C55.** A read-only property changes only when its class assigns the field: whatever properties a history sets, the
    field holds what it held. -/
theorem C55_readonly (wf : WellFormed Γ) {s s' : State} {ops : List Op} (h : Reachable Γ s) (hrun : Run Γ s ops s') {i : Id} {o' : Obj}
    {p : Definition} (hlt : i < s.heap.length) (hl : live s'.heap i = some o') (hp : p ∈ Γ.table o'.cls) (hro : p.readOnly = true)
    (hno : ∀ x, .assign i p.offset x ∉ ops) : ∃ o, live s.heap i = some o ∧ o.cls = o'.cls ∧ o.fields[p.offset]? = o'.fields[p.offset]? := by
  have hi := h.inv wf
  clear h
  induction hrun with
  | nil s => exact ⟨o', hl, rfl, rfl⟩
  | @cons s s1 s2 op ops r hleg hs hrun ih =>
      obtain ⟨_, _, h1, h2, h3⟩ := step_ok wf hi _ hleg
      rw [hs] at h1; cases h1
      have hlen : s.heap.length ≤ s1.heap.length := by
        rcases h3 with hk | ⟨_, _, _, hc, _⟩
        · exact hk.1
        · exact hc.1
      obtain ⟨o1, a1, a2, a3⟩ := ih (Nat.lt_of_lt_of_le hlt hlen) hl (fun x hx => hno x (List.mem_cons_of_mem _ hx)) h2
      rcases h3 with hk | ⟨j, k, v, hc, hwhy⟩
      · obtain ⟨o, b1, b2, _, b4⟩ := hk.2 i o1 hlt a1
        exact ⟨o, b1, b2.trans a2, by rw [b4, a3]⟩
      · obtain ⟨o, b1, b2, _, b4⟩ := hc.2 i o1 hlt a1
        refine ⟨o, b1, b2.trans a2, ?_⟩
        rw [← a3, b4]
        by_cases hij : j = i
        · subst hij
          rw [if_pos rfl]
          have hne : k ≠ p.offset := by
            rcases hwhy o b1 with ⟨x, rfl⟩ | ⟨name, x, q, rfl, hq, hqr, rfl⟩
            · rintro rfl; exact hno x (by simp)
            · intro e
              rw [← a2, ← b2] at hp
              rcases wf.eq_or (definition_mem hq).1 hp with rfl | hne
              · rw [hro] at hqr; cases hqr
              · exact hne.2 e
          rw [List.getElem?_set, if_neg hne]
        · rw [if_neg hij]

/-! ### Key paths -/

theorem utf8_dot : Unicode.utf8 ['.'] = [46] := by decide

theorem component_dot {p : List Char} (hp : p ≠ []) (hd : '.' ∉ p) : Text.Component ['.'] p := by
  refine ⟨hp, ?_⟩
  rw [(Text.firstAt_spec ['.'] (by simp) _).1]
  refine ⟨by simp, fun j hj hpre => ?_⟩
  rw [List.drop_append_of_le_length (by omega)] at hpre
  have : p.drop j ≠ [] := by simp; omega
  obtain ⟨c, t, hct⟩ := List.exists_cons_of_ne_nil this
  rw [hct] at hpre
  simp only [List.cons_append, List.cons_prefix_cons] at hpre
  refine hd (List.mem_of_mem_drop (i := j) ?_)
  rw [hct, ← hpre.1]; simp

theorem Follow.append {s s1 s2 : State} {t t1 t2 : Option Id} {ks ls : List Name} (h : Follow Γ s t ks s1 t1) (h' : Follow Γ s1 t1 ls s2 t2) :
    Follow Γ s t (ks ++ ls) s2 t2 := by
  induction h with
  | done => exact h'
  | next a _ ih => exact .next a (ih h')

theorem getProperty_any (wf : WellFormed Γ) {s : State} {t : Option Id} (k : Name) (hi : Inv Γ s) (hu : ∀ i, t = some i → Usable s i) :
    ∃ s' r, getProperty Γ s t k = some (s', r) ∧ Inv Γ s' ∧ (∀ i, r = some i → Usable s' i) ∧ ∀ i, Usable s i → Usable s' i := by
  cases t with
  | none => exact ⟨s, none, rfl, hi, nofun, fun _ h => h⟩
  | some i =>
      obtain ⟨s', r, h1, h2, _, h4, h5⟩ := getProperty_ok wf k hi (hu i rfl)
      refine ⟨s', r, h1, h2, ?_, ?_⟩
      · rcases h5 with ⟨_, rfl⟩ | ⟨x, rfl, hp⟩
        · nofun
        · intro j hj; cases hj; exact Or.inr (by rw [hp]; simp)
      · intro j hj
        unfold Usable at hj ⊢
        rw [h4]
        rcases h5 with ⟨hp, _⟩ | ⟨x, _, hp⟩
        · rw [hp]; exact hj
        · rw [hp]
          exact hj.imp id (fun h => List.mem_cons_of_mem _ h)

theorem resolveLoop_ok (wf : WellFormed Γ) : ∀ (keys : List Name) (k : Name) {s : State} {t : Option Id}, Inv Γ s → (∀ i, t = some i → Usable s i) →
    ∃ s' t', resolveLoop Γ s t k keys = some (s', t', (k :: keys).getLast (by simp)) ∧ Follow Γ s t ((k :: keys).dropLast) s' t' ∧
      Inv Γ s' ∧ (∀ i, t' = some i → Usable s' i) ∧ ∀ i, Usable s i → Usable s' i := by
  intro keys
  induction keys with
  | nil => intro k s t hi hu; exact ⟨s, t, rfl, .done s t, hi, hu, fun _ h => h⟩
  | cons k' keys ih =>
      intro k s t hi hu
      obtain ⟨s1, r, h1, h2, h3, h4⟩ := getProperty_any wf k hi hu
      obtain ⟨s', t', a1, a2, a3, a4, a5⟩ := ih k' h2 h3
      refine ⟨s', t', ?_, .next h1 a2, a3, a4, fun i h => a5 i (h4 i h)⟩
      rw [resolveLoop, h1]
      simp only [Option.bind_some, a1, List.getLast_cons_cons]

theorem resolve_ok (wf : WellFormed Γ) {s : State} {i : Id} (keys : List (List Char)) (last : List Char) (hi : Inv Γ s) (hu : Usable s i)
    (hk : ∀ k ∈ keys ++ [last], k ≠ [] ∧ '.' ∉ k ∧ '\x00' ∉ k) :
    ∃ s' t', resolve Γ s (some i) (Text.combine ((keys ++ [last]).map Unicode.utf8) (some (Unicode.utf8 ['.']))) =
        some (some (s', t', Unicode.utf8 last)) ∧ Follow Γ s (some i) (keys.map Unicode.utf8) s' t' ∧ Inv Γ s' ∧ (∀ i, t' = some i → Usable s' i) ∧
        ∀ i, Usable s i → Usable s' i := by
  have hsplit := Text.C37_split_partial ['.'] (keys ++ [last]) (by decide) (by simp) (fun p hp => (hk p hp).2.2)
    (fun p hp => component_dot (hk p hp).1 (hk p hp).2.1)
  have hne : (keys ++ [last]).map Unicode.utf8 ≠ [] := by simp
  obtain ⟨k, ks, hks⟩ := List.exists_cons_of_ne_nil hne
  obtain ⟨s', t', h1, h2, h3, h4, h5⟩ := resolveLoop_ok wf ks k (t := some i) hi (fun j hj => by cases hj; exact hu)
  have hlast : (k :: ks).getLast (by simp) = Unicode.utf8 last := by
    have : (k :: ks).getLast? = some (Unicode.utf8 last) := by rw [← hks]; simp
    rw [List.getLast?_eq_some_getLast (by simp)] at this
    exact Option.some.inj this
  have hdrop : (k :: ks).dropLast = keys.map Unicode.utf8 := by rw [← hks]; simp
  rw [hlast] at h1; rw [hdrop] at h2
  refine ⟨s', t', ?_, h2, h3, h4, h5⟩
  unfold resolve
  rw [← utf8_dot, hsplit, hks]
  simp only [Option.bind_some, h1, Option.map_some]

/-- **C55.** Reading a key path follows it one property at a time, for every number of (nonempty) names. -/
theorem C55_path_get (wf : WellFormed Γ) {s : State} {i : Id} (keys : List (List Char)) (h : Reachable Γ s) (hu : Usable s i) (hne : keys ≠ [])
    (hk : ∀ k ∈ keys, k ≠ [] ∧ '.' ∉ k ∧ '\x00' ∉ k) :
    ∃ s' r, getPath Γ s (some i) (Text.combine (keys.map Unicode.utf8) (some (Unicode.utf8 ['.']))) = some (s', r) ∧
      Follow Γ s (some i) (keys.map Unicode.utf8) s' r := by
  rcases List.eq_nil_or_concat keys with rfl | ⟨ks, last, rfl⟩
  · exact absurd rfl hne
  · simp only [List.concat_eq_append] at *
    obtain ⟨s1, t, h1, h2, h3, h4, _⟩ := resolve_ok wf ks last (h.inv wf) hu hk
    obtain ⟨s', r, h5, _⟩ := getProperty_any wf (Unicode.utf8 last) h3 h4
    refine ⟨s', r, ?_, ?_⟩
    · unfold getPath; rw [h1]; exact h5
    · rw [List.map_append]; exact h2.append (.next h5 (.done _ _))

/-- **C55.** Writing a key path follows all names but the last, then sets that property of the object found. -/
theorem C55_path_set (wf : WellFormed Γ) {s : State} {i : Id} (keys : List (List Char)) (last : List Char) (x : Option Id) (h : Reachable Γ s)
    (hu : Usable s i) (hx : ∀ y, x = some y → Usable s y) (hk : ∀ k ∈ keys ++ [last], k ≠ [] ∧ '.' ∉ k ∧ '\x00' ∉ k) :
    ∃ s1 t s', Follow Γ s (some i) (keys.map Unicode.utf8) s1 t ∧ setProperty Γ s1 t (Unicode.utf8 last) x = some s' ∧
      setPath Γ s (some i) (Text.combine ((keys ++ [last]).map Unicode.utf8) (some (Unicode.utf8 ['.']))) x = some s' := by
  obtain ⟨s1, t, h1, h2, h3, h4, h5⟩ := resolve_ok wf keys last (h.inv wf) hu hk
  have : ∃ s', setProperty Γ s1 t (Unicode.utf8 last) x = some s' := by
    cases t with
    | none => exact ⟨s1, rfl⟩
    | some j =>
        obtain ⟨s', a1, _⟩ := setProperty_ok (name := Unicode.utf8 last) wf h3 (h4 j rfl) (fun y hy => h5 y (hx y hy))
        exact ⟨s', a1⟩
  obtain ⟨s', a1⟩ := this
  exact ⟨s1, t, s', h2, a1, by unfold setPath; rw [h1]; exact a1⟩

/-! ### Examples -/

/-- Class 0 is a string-like immutable class, class 1 a mutable one, class 2 has the properties `a` (object), `b` (weak),
    `c` (copied), `d` (read-only) and `e` (objects of class 0 only). -/
def sample : Classes where
  table n := if n = 2 then [⟨[97], false, false, false, 0, fun _ => true⟩, ⟨[98], false, true, false, 1, fun _ => true⟩,
    ⟨[99], false, false, true, 2, fun _ => true⟩, ⟨[100], true, false, false, 3, fun _ => true⟩,
    ⟨[101], false, false, false, 4, fun v => v.any (fun v => v.1 == 0)⟩] else []
  size n := if n = 2 then 5 else 0
  immutable n := n == 0

theorem sample_wf : WellFormed sample := by
  intro cls
  by_cases h : cls = 2
  · subst h; simp only [sample, if_true]; exact ⟨by simp, by simp⟩
  · simp [sample, h]

/-- Run calls one after the other, checking the rules. -/
def runs (Γ : Classes) (s : State) : List Op → Option State
  | [] => some s
  | op :: ops => (step Γ s op).bind fun r => runs Γ r.1 ops

instance (s : State) (i : Id) : Decidable (Usable s i) := inferInstanceAs (Decidable (_ ∨ _))
instance (i : Id) (p : Definition) (op : Op) : Decidable (Writes i p op) := by
  cases op <;> simp only [Writes] <;> infer_instance

def legalB (Γ : Classes) (s : State) : Op → Bool
  | .alloc _ _ => true
  | .retain i => s.client.contains i || s.pool.contains i
  | .release i => s.client.contains i
  | .autorelease i => s.client.contains i
  | .drain => true
  | .set i _ x => (s.client.contains i || s.pool.contains i) && x.all (fun y => s.client.contains y || s.pool.contains y)
  | .get i _ => s.client.contains i || s.pool.contains i
  | .assign i k x => (s.client.contains i || s.pool.contains i) && x.all (fun y => s.client.contains y || s.pool.contains y) &&
      (live s.heap i).all (fun o => k < Γ.size o.cls)

theorem legalB_legal {Γ : Classes} {s : State} {op : Op} (h : legalB Γ s op = true) : Legal Γ s op := by
  cases op <;> simp_all [legalB, Legal, Usable]
  case set i n x => cases x <;> simp_all
  case assign i k x =>
    refine ⟨?_, ?_⟩
    · cases x <;> simp_all
    · intro o ho; simp_all

def legals (Γ : Classes) (s : State) : List Op → Bool
  | [] => true
  | op :: ops => legalB Γ s op && (match step Γ s op with | some r => legals Γ r.1 ops | none => false)

theorem runs_run {Γ : Classes} : ∀ (ops : List Op) {s s' : State}, legals Γ s ops = true → runs Γ s ops = some s' → Run Γ s ops s'
  | [], s, s', _, h => by cases h; exact .nil s
  | op :: ops, s, s', hl, h => by
      rw [legals, Bool.and_eq_true] at hl
      rw [runs] at h
      cases hs : step Γ s op with
      | none => rw [hs] at h; cases h
      | some r =>
          rw [hs] at h hl
          exact .cons (legalB_legal hl.1) hs (runs_run ops hl.2 h)

/-- An object with properties, and three others. -/
def setup : List Op := [.alloc 2 0, .alloc 0 7, .alloc 1 8, .alloc 2 9]

/-- The state after some calls. -/
def after (ops : List Op) : State := (runs sample start ops).getD start

theorem after_reach {ops : List Op} (hl : legals sample start ops = true) (hr : runs sample start ops = some (after ops)) :
    Reachable sample (after ops) := ⟨ops, runs_run ops hl hr⟩

def propA : Definition := ⟨[97], false, false, false, 0, fun _ => true⟩
def propB : Definition := ⟨[98], false, true, false, 1, fun _ => true⟩
def propC : Definition := ⟨[99], false, false, true, 2, fun _ => true⟩
def propD : Definition := ⟨[100], true, false, false, 3, fun _ => true⟩

/-- Calls that release object 2 and write other properties. -/
def later : List Op := [.release 2, .set 0 [98] (some 1), .set 3 [97] (some 1), .get 0 [97], .drain]

-- the object property keeps its object alive after the caller released it
example : ∃ s3, getProperty sample (after (setup ++ [.set 0 [97] (some 2)] ++ later)) (some 0) [97] = some (s3, some 2) ∧
    (live (after (setup ++ [.set 0 [97] (some 2)] ++ later)).heap 2).isSome = true :=
  C55_strong (s := after setup) (s1 := after (setup ++ [.set 0 [97] (some 2)])) (ops := later) (o := ⟨2, 0, 1, List.replicate 5 .null⟩) (p := propA)
    (r := none) sample_wf (after_reach (by decide +kernel) (by decide +kernel)) (legalB_legal (by decide +kernel)) (by decide +kernel) rfl rfl rfl rfl
    (fun _ _ => rfl) (by decide +kernel) (runs_run _ (by decide +kernel) (by decide +kernel)) (by decide +kernel) (by decide +kernel)

/-- Calls that write other properties; the second one releases the target of the weak property. -/
def other : List Op := [.set 0 [97] (some 1), .get 0 [98], .drain]
def gone : List Op := [.set 0 [97] (some 1), .get 0 [98], .release 2, .drain]

-- the weak property while its object exists, and afterwards
example : ∃ s3, getProperty sample (after (setup ++ [.set 0 [98] (some 2)] ++ other)) (some 0) [98] = some (s3, some 2) :=
  C55_weak (s := after setup) (s1 := after (setup ++ [.set 0 [98] (some 2)])) (ops := other) (x := 2) (o := ⟨2, 0, 1, List.replicate 5 .null⟩)
    (p := propB) (r := none) sample_wf (after_reach (by decide +kernel) (by decide +kernel)) (legalB_legal (by decide +kernel)) (by decide +kernel)
    rfl rfl rfl (fun _ _ => rfl) (by decide +kernel) (runs_run _ (by decide +kernel) (by decide +kernel)) (by decide +kernel) (by decide +kernel)

example : ∃ s3, getProperty sample (after (setup ++ [.set 0 [98] (some 2)] ++ gone)) (some 0) [98] = some (s3, none) :=
  C55_weak (s := after setup) (s1 := after (setup ++ [.set 0 [98] (some 2)])) (ops := gone) (x := 2) (o := ⟨2, 0, 1, List.replicate 5 .null⟩)
    (p := propB) (r := none) sample_wf (after_reach (by decide +kernel) (by decide +kernel)) (legalB_legal (by decide +kernel)) (by decide +kernel)
    rfl rfl rfl (fun _ _ => rfl) (by decide +kernel) (runs_run _ (by decide +kernel) (by decide +kernel)) (by decide +kernel) (by decide +kernel)

-- the copied property: a new object for a mutable class, the object itself for an immutable one
example : ∃ s3 y ox oy, getProperty sample (after (setup ++ [.set 0 [99] (some 2)] ++ gone)) (some 0) [99] = some (s3, some y) ∧
    live (after setup).heap 2 = some ox ∧ live (after (setup ++ [.set 0 [99] (some 2)] ++ gone)).heap y = some oy ∧ oy.cls = ox.cls ∧
    oy.value = ox.value ∧ (y = 2 ↔ sample.immutable ox.cls = true) :=
  C55_copied (s := after setup) (s1 := after (setup ++ [.set 0 [99] (some 2)])) (ops := gone) (o := ⟨2, 0, 1, List.replicate 5 .null⟩) (p := propC)
    (r := none) sample_wf (after_reach (by decide +kernel) (by decide +kernel)) (legalB_legal (by decide +kernel)) (by decide +kernel) rfl rfl rfl
    (fun _ _ => rfl) (by decide +kernel) (runs_run _ (by decide +kernel) (by decide +kernel)) (by decide +kernel) (by decide +kernel)
example : (getProperty sample (after (setup ++ [.set 0 [99] (some 2)] ++ gone)) (some 0) [99]).map (·.2) = some (some 4) := by decide +kernel
example : (getProperty sample (after (setup ++ [.set 0 [99] (some 1)] ++ gone)) (some 0) [99]).map (·.2) = some (some 1) := by decide +kernel

-- setting NULL
example : ∃ s3, getProperty sample (after (setup ++ [.set 0 [97] (some 2), .set 0 [97] none] ++ later)) (some 0) [97] = some (s3, none) :=
  C55_null (s := after (setup ++ [.set 0 [97] (some 2)])) (s1 := after (setup ++ [.set 0 [97] (some 2), .set 0 [97] none])) (ops := later)
    (o := ⟨2, 0, 1, [.strong 2, .null, .null, .null, .null]⟩) (p := propA) (r := none) sample_wf
    (after_reach (by decide +kernel) (by decide +kernel)) (legalB_legal (by decide +kernel)) (by decide +kernel) rfl rfl rfl
    (by decide +kernel) (runs_run _ (by decide +kernel) (by decide +kernel)) (by decide +kernel) (by decide +kernel)

-- a read-only property, and an object the predicate rejects
example : step sample (after setup) (.set 0 [100] (some 2)) = some (after setup, none) ∧
    step sample (after setup) (.set 0 [101] (some 2)) = some (after setup, none) ∧
    (step sample (after setup) (.set 0 [101] (some 1))).map (fun r => r.1 = after setup) ≠ some True := by
  refine ⟨?_, ?_, ?_⟩
  · obtain ⟨s', r, h, _⟩ := C55_safe sample_wf (after_reach (ops := setup) (by decide +kernel) (by decide +kernel)) (.set 0 [100] (some 2))
      (legalB_legal (by decide +kernel))
    have := C55_rejected (o := ⟨2, 0, 1, List.replicate 5 .null⟩) sample_wf (after_reach (ops := setup) (by decide +kernel) (by decide +kernel))
      (legalB_legal (by decide +kernel)) (by decide +kernel) rfl (Or.inl rfl) h
    subst this
    decide +kernel
  · decide +kernel
  · intro h
    have : ((step sample (after setup) (.set 0 [101] (some 1))).map fun r => decide (r.1 = after setup)) = some false := by decide +kernel
    cases hs : step sample (after setup) (.set 0 [101] (some 1)) with
    | none => rw [hs] at this; cases this
    | some r =>
        rw [hs] at h this
        simp only [Option.map_some, Option.some.injEq, decide_eq_false_iff_not] at h this
        exact this (by rw [h]; trivial)

/-- The class assigns the read-only property once, then the program tries to set it. -/
def once : List Op := [.assign 0 3 (some 2)]
example : ∃ o, live (after (setup ++ once)).heap 0 = some o ∧ o.cls = 2 ∧
    o.fields[3]? = ([.strong 1, .null, .null, .strong 2, .null] : List Slot)[3]? :=
  C55_readonly (s := after (setup ++ once)) (s' := after (setup ++ once ++ [.set 0 [100] (some 1), .set 0 [97] (some 1), .release 2])) (i := 0)
    (o' := ⟨2, 0, 1, [.strong 1, .null, .null, .strong 2, .null]⟩) (p := propD) (ops := [.set 0 [100] (some 1), .set 0 [97] (some 1), .release 2])
    sample_wf (after_reach (by decide +kernel) (by decide +kernel)) (runs_run _ (by decide +kernel) (by decide +kernel)) (by decide +kernel)
    (by decide +kernel) (by simp [sample, propD]) rfl (by simp)

-- a path of two names: object 0 refers to object 3, which refers to object 2
def linked : List Op := setup ++ [.set 0 [97] (some 3), .set 3 [97] (some 2)]
example : ∃ s' r, getPath sample (after linked) (some 0) (Text.combine ([['a'], ['a']].map Unicode.utf8) (some (Unicode.utf8 ['.']))) = some (s', r) ∧
    Follow sample (after linked) (some 0) ([['a'], ['a']].map Unicode.utf8) s' r :=
  C55_path_get (i := 0) sample_wf [['a'], ['a']] (after_reach (ops := linked) (by decide +kernel) (by decide +kernel)) (by decide +kernel) (by simp) (by decide)
example : (getPath sample (after linked) (some 0) [97, 46, 97]).map (·.2) = some (some 2) := by decide +kernel
example : ((setPath sample (after linked) (some 0) [97, 46, 98] (some 1)).bind fun s => getProperty sample s (some 3) [98]).map (·.2) =
    some (some 1) := by decide +kernel

-- counts: object 2 is held by the caller and by object 3
example : (live (after linked).heap 2).map (·.count) = some 2 ∧ (after linked).client.count 2 = 1 ∧ (held (after linked).heap).count 2 = 1 := by
  decide +kernel

/-! ### What goes wrong -/

/-- A property that is both copied and weak. -/
def confused : Classes where
  table _ := [⟨[97], false, true, true, 0, fun _ => true⟩]
  size _ := 1
  immutable _ := true

/-- **C55 fails** for properties that are both copied and weak: the copy is stored as an object and read as a weak
    reference. -/
theorem C55_weak_copy_fails : ∃ s, Run confused start [.alloc 0 0, .alloc 0 1, .set 0 [97] (some 1)] s ∧
    Usable s 0 ∧ getProperty confused s (some 0) [97] = none := by
  refine ⟨(runs confused start [.alloc 0 0, .alloc 0 1, .set 0 [97] (some 1)]).getD start, runs_run _ (by decide +kernel) (by decide +kernel),
    by decide +kernel, by decide +kernel⟩

end Property
end Duck
