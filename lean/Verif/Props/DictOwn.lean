import Verif.Lemmas.DictOwnRun
/-! **C72** — dictionaries and sets own what they hold. -/
namespace Duck
namespace DictOwn
open HTable Property
variable {hash : Nat × Nat → Nat} {eqv : Nat × Nat → Nat × Nat → Bool} {Γ : Classes}

/-- **C72.** Programs that follow the ownership rules never make a dictionary or set touch freed memory, whatever equality and
    hash functions their keys have; keys and objects may be owned by the caller or borrowed from a table. -/
theorem C72_safe {s : State} (h : Reachable hash eqv Γ s) (op : Op) (hop : Legal s op) : step hash eqv Γ s op ≠ .error .freed := by
  have := step_ok (hash := hash) (eqv := eqv) (Γ := Γ) (reach_inv h) hop
  intro hf
  rw [hf] at this
  exact this

/-- **C72.** A table holds one reference for each key and each object in it, and gives it back when the entry is replaced or
    removed or the table is cleared or deallocated: the count of an object that exists is the number of references the caller,
    the tables and the fields of other objects hold, and is not zero; nothing refers to an object that was deallocated. -/
theorem C72_owned {s : State} (h : Reachable hash eqv Γ s) (i : Id) :
    (∀ o, live s.heap i = some o → o.count = s.client.count i + (inTables s).count i + (held s.heap).count i ∧ 0 < o.count) ∧
    (live s.heap i = none → i ∉ s.client ∧ i ∉ inTables s ∧ i ∉ held s.heap) := by
  have := (reach_inv h).own i
  refine ⟨fun o ho => ?_, fun ho => ?_⟩
  · rw [ho] at this
    simp only [List.count_append] at this
    omega
  · rw [ho] at this
    simp only [List.count_append] at this
    refine ⟨?_, ?_, ?_⟩ <;> (rw [← List.count_eq_zero]; omega)

theorem valueOf_eq {s : State} {i : Id} {o : Obj} (h : live s.heap i = some o) : valueOf s i = (o.cls, o.value) := by
  unfold valueOf; rw [h]

/-- **C72.** Whatever is in a table exists: the key of each entry with the contents it was inserted with, and its object. -/
theorem C72_alive {s : State} (h : Reachable hash eqv Γ s) (d : Nat) (t : Tab) (ht : s.tables[d]? = some (some t)) (e : Key × Option Id)
    (he : e ∈ entries t.rows) :
    (∃ o, live s.heap e.1.1 = some o ∧ e.1.2 = (o.cls, o.value)) ∧ ∀ x, e.2 = some x → ∃ o, live s.heap x = some o := by
  have hi := reach_inv h
  obtain ⟨_, o, h1, h2⟩ := keyOf_some (hi.known d t ht e he)
  refine ⟨⟨o, h1, by rw [h2]⟩, fun x hx => hi.own.mem (List.mem_append_left _ (mem_inTables ht ?_))⟩
  exact List.mem_flatMap.mpr ⟨e, he, by simp [hx]⟩

theorem contents_some {s : State} {d : Nat} {t : Tab} (h : s.tables[d]? = some (some t)) :
    contents s d = (entries t.rows).map fun e => (e.1.2, e.2) := by unfold contents; rw [h]

theorem contents_congr {s s' : State} {d d' : Nat} (h : s.tables[d]? = s'.tables[d']?) : contents s d = contents s' d' := by
  unfold contents; rw [h]

theorem has_map (l : List (Key × Option Id)) (key : Key) :
    has eqv (l.map fun e => (e.1.2, e.2)) key.2 = has (keqv eqv) l key := by
  unfold has; rw [List.any_map]; rfl

theorem specInsert_map (l : List (Key × Option Id)) (key : Key) (obj : Option Id) (p : Policy) :
    ((specInsert (keqv eqv) l key obj p).1.map fun e => (e.1.2, e.2)) = (specInsert eqv (l.map fun e => (e.1.2, e.2)) key.2 obj p).1 := by
  unfold specInsert
  rw [has_map]
  by_cases h1 : has (keqv eqv) l key = true
  · rw [if_pos h1, if_pos h1]
    by_cases h2 : p = .ifNotFound
    · rw [if_pos h2, if_pos h2]
    · rw [if_neg h2, if_neg h2]
      simp only [List.map_map]
      apply List.map_congr_left
      intro e _
      simp only [Function.comp]
      by_cases h3 : eqv e.1.2 key.2 = true
      · rw [if_pos h3, if_pos h3]
      · rw [if_neg h3, if_neg h3]
  · rw [if_neg h1, if_neg h1]
    by_cases h2 : p = .ifFound
    · rw [if_pos h2, if_pos h2]
    · rw [if_neg h2, if_neg h2]; rfl

theorem specRemove_map (l : List (Key × Option Id)) (key : Key) :
    ((specRemove (keqv eqv) l key).map fun e => (e.1.2, e.2)) = specRemove eqv (l.map fun e => (e.1.2, e.2)) key.2 := by
  unfold specRemove
  rw [List.filter_map]; rfl

theorem specGet_map (l : List (Key × Option Id)) (key : Key) :
    specGet (keqv eqv) l key = specGet eqv (l.map fun e => (e.1.2, e.2)) key.2 := by
  unfold specGet
  rw [List.find?_map, Option.map_map]; rfl

theorem set_self {ts : List (Option Tab)} {d : Nat} {c c' : Option Tab} (h : ts[d]? = some c) : (ts.set d c')[d]? = some c' := by
  rw [List.getElem?_set, if_pos rfl, if_pos]
  exact (List.getElem?_eq_some_iff.mp h).1

/-- **C72.** Ownership does not change what the tables mean: each call changes the map of the table it works on as a finite map
    from key contents to objects would change, and leaves all other tables alone. -/
theorem C72_map (kc : KeyClass hash eqv) {s s' : State} {r : Option Id} (h : Reachable hash eqv Γ s) (op : Op) (hop : Legal s op)
    (hs : step hash eqv Γ s op = .ok (s', r)) (d : Nat) (hd : d < s.tables.length) :
    (contents s' d).Perm (specCall eqv s d (contents s d) op) := by
  have hg := step_ok (hash := hash) (eqv := eqv) (Γ := Γ) (reach_inv h) hop
  have hm := reach_maps kc h
  rw [hs] at hg
  have hdo := hg.2.2
  have other : ∀ d' c, d' ≠ d → s'.tables = s.tables.set d' c → contents s' d = contents s d := fun d' c hne he =>
    contents_congr (by rw [he, List.getElem?_set, if_neg hne])
  have same : s'.tables = s.tables → contents s' d = contents s d := fun he => contents_congr (by rw [he])
  have more : ∀ c, s'.tables = s.tables ++ [c] → contents s' d = contents s d := fun c he => contents_congr (by rw [he, List.getElem?_append_left hd])
  cases op with
  | insert d' k obj p =>
      obtain ⟨t, o, key, t', b, h1, h2, h3, h4, h5⟩ := hdo
      simp only [specCall]
      by_cases hdd : d' = d
      · subst hdd
        rw [if_pos rfl, contents_some (t := t') (by rw [h5]; exact set_self h1), contents_some h1, valueOf_eq h2, ← h3, ← specInsert_map]
        exact (insert_map kc (hm _ _ h1) h4).2.map _
      · rw [if_neg hdd, other d' _ hdd h5]
  | add d' x p =>
      obtain ⟨t, o, t', b, h1, h2, h4, h5⟩ := hdo
      simp only [specCall]
      by_cases hdd : d' = d
      · subst hdd
        rw [if_pos rfl, contents_some (t := t') (by rw [h5]; exact set_self h1), contents_some h1, valueOf_eq h2,
          show (o.cls, o.value) = ((x, o.cls, o.value) : Key).2 from rfl, ← specInsert_map]
        exact (insert_map kc (hm _ _ h1) h4).2.map _
      · rw [if_neg hdd, other d' _ hdd h5]
  | remove d' k =>
      obtain ⟨t, o, t', h1, h2, h4, h5⟩ := hdo
      simp only [specCall]
      by_cases hdd : d' = d
      · subst hdd
        have := HTable.remove_ok (keyClass kc) (hm _ t h1) (k, o.cls, o.value)
        rw [h4] at this
        rw [if_pos rfl, contents_some (t := t') (by rw [h5]; exact set_self h1), contents_some h1, valueOf_eq h2,
          show (o.cls, o.value) = ((k, o.cls, o.value) : Key).2 from rfl, ← specRemove_map, this.2]
      · rw [if_neg hdd, other d' _ hdd h5]
  | get d' k => obtain ⟨_, _, _, _, _, _, _, h5⟩ := hdo; rw [same h5]; exact List.Perm.refl _
  | removeAll d' =>
      obtain ⟨t, h1, h5⟩ := hdo
      simp only [specCall]
      by_cases hdd : d' = d
      · subst hdd
        rw [if_pos rfl, contents_some (t := HTable.removeAll t) (by rw [h5]; exact set_self h1), (removeAll_ok (hm _ t h1)).2]
        exact List.Perm.refl _
      · rw [if_neg hdd, other d' _ hdd h5]
  | copy d' => obtain ⟨_, _, _, _, _, _, h5⟩ := hdo; rw [more _ h5]; exact List.Perm.refl _
  | dispose d' =>
      simp only [specCall]
      by_cases hdd : d' = d
      · subst hdd
        obtain ⟨t, h1⟩ := hop
        rw [if_pos rfl]
        have : contents s' d' = [] := by unfold contents; rw [show s'.tables = _ from hdo, set_self h1]
        rw [this]
      · rw [if_neg hdd, other d' _ hdd hdo]
  | new => rw [more _ hdo]; exact List.Perm.refl _
  | alloc _ _ _ => rw [same hdo]; exact List.Perm.refl _
  | retain _ => rw [same hdo]; exact List.Perm.refl _
  | release _ => rw [same hdo]; exact List.Perm.refl _

/-- **C72.** A lookup returns the object of the map, which exists, and changes nothing. -/
theorem C72_get (kc : KeyClass hash eqv) {s s' : State} {r : Option Id} (h : Reachable hash eqv Γ s) (d : Nat) (k : Id) (hop : Legal s (.get d k))
    (hs : step hash eqv Γ s (.get d k) = .ok (s', r)) :
    s' = s ∧ r = (specGet eqv (contents s d) (valueOf s k)).join ∧ ∀ x, r = some x → ∃ o, live s.heap x = some o := by
  have hi := reach_inv h
  have hg := step_ok (hash := hash) (eqv := eqv) (Γ := Γ) hi hop
  rw [hs] at hg
  obtain ⟨t, o, v, h1, h2, h3, h4, _⟩ := hg.2.2
  simp only at h4
  have hget := HTable.get_ok (keyClass kc) (reach_maps kc h d t h1) (k, o.cls, o.value)
  rw [h3] at hget
  simp only at hget
  have hr : r = (specGet eqv (contents s d) (valueOf s k)).join := by
    rw [h4, hget, specGet_map, contents_some h1, valueOf_eq h2]
  refine ⟨?_, hr, fun x hx => ?_⟩
  · simp only [step, table_ok h1, Except.bind] at hs
    cases hg' : getObject hash eqv s.heap t k with
    | error f => rw [hg'] at hs; cases hs
    | ok w => rw [hg'] at hs; cases hs; rfl
  · refine hi.own.mem (List.mem_append_left _ (mem_inTables h1 ?_))
    rw [hx, hget] at h4
    unfold specGet at h4
    cases hf : (entries t.rows).find? (fun e => keqv eqv e.1 (k, o.cls, o.value)) with
    | none => rw [hf] at h4; cases h4
    | some e =>
        rw [hf] at h4
        refine List.mem_flatMap.mpr ⟨e, List.mem_of_find?_eq_some hf, ?_⟩
        have : e.2 = some x := by simpa using h4.symm
        simp [this]

theorem inserts_perm (kc : KeyClass hash eqv) : ∀ (l : List (Key × Option Id)) {t t' : Tab}, HTable.Inv (khash hash) (keqv eqv) t →
    (l.Pairwise fun a b => eqv a.1.2 b.1.2 = false) → (∀ e ∈ entries t.rows, ∀ e' ∈ l, eqv e.1.2 e'.1.2 = false) →
    inserts hash eqv t l = .ok t' → (entries t'.rows).Perm (l ++ entries t.rows)
  | [], t, t', _, _, _, h => by cases h; exact List.Perm.refl _
  | e :: l, t, t', hi, hp, hd, h => by
      obtain ⟨hp1, hp2⟩ := List.pairwise_cons.mp hp
      unfold inserts at h
      rw [List.foldlM_cons] at h
      cases hins : HTable.insert (khash hash) (keqv eqv) t e.1 e.2 .always with
      | error f => rw [hins] at h; cases h
      | ok q =>
          rw [hins] at h
          obtain ⟨a1, a2⟩ := insert_map kc hi hins
          have hno : has (keqv eqv) (entries t.rows) e.1 = false := by
            unfold has
            rw [List.any_eq_false]
            intro e' he'
            exact Bool.eq_false_iff.mp (hd e' he' e (by simp))
          unfold specInsert at a2
          rw [if_neg (by rw [hno]; simp), if_neg (by decide)] at a2
          have ih := inserts_perm kc l a1 hp2 (fun e1 he1 e2 he2 => by
            rcases List.mem_cons.mp (a2.mem_iff.mp he1) with rfl | hm
            · exact hp1 e2 he2
            · exact hd e1 hm e2 (by simp [he2])) h
          refine ih.trans ((a2.append_left l).trans ?_)
          exact List.perm_middle

/-- **C72.** A copy is a new table with the same map; it holds references of its own (`C72_owned`) to the same objects. -/
theorem C72_copy (kc : KeyClass hash eqv) {s s' : State} {r : Option Id} (h : Reachable hash eqv Γ s) (d : Nat) (hop : Legal s (.copy d))
    (hs : step hash eqv Γ s (.copy d) = .ok (s', r)) :
    s'.tables.length = s.tables.length + 1 ∧ (contents s' s.tables.length).Perm (contents s d) := by
  have hg := step_ok (hash := hash) (eqv := eqv) (Γ := Γ) (reach_inv h) hop
  rw [hs] at hg
  obtain ⟨t, l', t', h1, h2, h3, h4⟩ := hg.2.2
  refine ⟨by rw [h4]; simp, ?_⟩
  rw [contents_some (t := t') (by rw [h4]; simp), contents_some h1, ← h2]
  have hp0 := (reach_maps kc h d t h1).pairwise
  have hp : l'.Pairwise fun a b => eqv a.1.2 b.1.2 = false := by
    have : ((entries t.rows).map fun e => (e.1.2, e.2)).Pairwise fun a b => eqv a.1 b.1 = false := List.pairwise_map.mpr hp0
    rw [← h2] at this
    exact List.pairwise_map.mp this
  have := inserts_perm kc l' (Or.inl rfl) hp (fun e he => by cases he) h3
  rw [show entries (HTable.init : Tab).rows = [] from rfl, List.append_nil] at this
  exact this.map _

/-- **C72.** A call on a table can only fail where the table itself does (C06, C07): with exactly 25 rows of which 11 are
    occupied, or when there is no larger size. -/
theorem C72_fails_only (kc : KeyClass hash eqv) {s : State} (h : Reachable hash eqv Γ s) (op : Op) (hop : Legal s op) (d : Nat)
    (hd : target op = some d) (e : Bad) (hs : step hash eqv Γ s op = .error e) :
    ∃ t, s.tables[d]? = some (some t) ∧
      ((e = .table .outOfTable ∧ t.rows.length = 25 ∧ occupied t = 11) ∨ (e = .table .tooBig ∧ 1675364863 ≤ t.rows.length)) := by
  have hg := step_ok (hash := hash) (eqv := eqv) (Γ := Γ) (reach_inv h) hop
  have hm := reach_maps kc h
  rw [hs] at hg
  have fin : ∀ {t : Tab} {f : Fail}, BadState t f → ((Bad.table f = .table .outOfTable ∧ t.rows.length = 25 ∧ occupied t = 11) ∨
      (Bad.table f = .table .tooBig ∧ 1675364863 ≤ t.rows.length)) := by
    rintro t f (⟨rfl, h⟩ | ⟨rfl, h⟩)
    · exact Or.inl ⟨rfl, h⟩
    · exact Or.inr ⟨rfl, h⟩
  match e, hg with
  | .freed, hg => exact hg.elim
  | .table f, hg =>
    cases op with
    | insert d' k obj p =>
        cases hd
        obtain ⟨t, o, key, h1, _, _, h4⟩ := hg
        have := HTable.insert_ok (keyClass kc) (hm _ t h1) key obj p
        rw [h4] at this
        exact ⟨t, h1, fin this⟩
    | add d' x p =>
        cases hd
        obtain ⟨t, o, h1, _, h4⟩ := hg
        have := HTable.insert_ok (keyClass kc) (hm _ t h1) (x, o.cls, o.value) (some x) p
        rw [h4] at this
        exact ⟨t, h1, fin this⟩
    | remove d' k =>
        cases hd
        obtain ⟨t, o, h1, _, h4⟩ := hg
        have := HTable.remove_ok (keyClass kc) (hm _ t h1) (k, o.cls, o.value)
        rw [h4] at this
        exact ⟨t, h1, fin this⟩
    | get d' k =>
        cases hd
        obtain ⟨t, o, h1, _, h4⟩ := hg
        have := HTable.get_ok (keyClass kc) (hm _ t h1) (k, o.cls, o.value)
        rw [h4] at this
        exact ⟨t, h1, fin this⟩
    | alloc _ _ _ => cases hd
    | retain _ => cases hd
    | release _ => cases hd
    | new => cases hd
    | removeAll _ => cases hd
    | copy _ => cases hd
    | dispose _ => cases hd

/-! ### Examples -/

/-- Legality, decided. -/
def legalB (s : State) : Op → Bool
  | .alloc _ _ fs => fs.all fun i => s.client.contains i || (inTables s).contains i
  | .retain i => s.client.contains i || (inTables s).contains i
  | .release i => s.client.contains i
  | .new => true
  | .insert d k obj _ => ((s.tables[d]?).join).isSome && (s.client.contains k || (inTables s).contains k) &&
      obj.toList.all fun i => s.client.contains i || (inTables s).contains i
  | .add d k _ | .remove d k | .get d k => ((s.tables[d]?).join).isSome && (s.client.contains k || (inTables s).contains k)
  | .removeAll d | .copy d | .dispose d => ((s.tables[d]?).join).isSome

theorem legalB_usable {s : State} {i : Id} (h : (s.client.contains i || (inTables s).contains i) = true) : Usable s i := by
  rw [Bool.or_eq_true, List.contains_iff_mem, List.contains_iff_mem] at h
  exact h

theorem legalB_exists {s : State} {d : Nat} (h : ((s.tables[d]?).join).isSome = true) : Exists s d := by
  unfold Exists
  cases hx : s.tables[d]? with
  | none => rw [hx] at h; cases h
  | some c => cases c with
    | none => rw [hx] at h; cases h
    | some t => exact ⟨t, rfl⟩

theorem legalB_legal {s : State} {op : Op} (h : legalB s op = true) : Legal s op := by
  cases op with
  | alloc _ _ fs => exact fun i hi => legalB_usable (List.all_eq_true.mp h i hi)
  | retain i => exact legalB_usable h
  | release i => exact List.contains_iff_mem.mp h
  | new => trivial
  | insert d k obj p =>
      simp only [legalB, Bool.and_eq_true] at h
      refine ⟨legalB_exists h.1.1, legalB_usable h.1.2, fun x hx => legalB_usable (List.all_eq_true.mp h.2 x (by simp [hx]))⟩
  | add d k p => simp only [legalB, Bool.and_eq_true] at h; exact ⟨legalB_exists h.1, legalB_usable h.2⟩
  | remove d k => simp only [legalB, Bool.and_eq_true] at h; exact ⟨legalB_exists h.1, legalB_usable h.2⟩
  | get d k => simp only [legalB, Bool.and_eq_true] at h; exact ⟨legalB_exists h.1, legalB_usable h.2⟩
  | removeAll d => exact legalB_exists h
  | copy d => exact legalB_exists h
  | dispose d => exact legalB_exists h

/-- Run legal calls. -/
def runs (hash : Nat × Nat → Nat) (eqv : Nat × Nat → Nat × Nat → Bool) (Γ : Classes) (s : State) : List Op → Option State
  | [] => some s
  | op :: ops => if legalB s op then (match step hash eqv Γ s op with | .ok q => runs hash eqv Γ q.1 ops | .error _ => none) else none

theorem runs_run : ∀ (ops : List Op) {s s' : State}, runs hash eqv Γ s ops = some s' → Run hash eqv Γ s ops s'
  | [], s, s', h => by cases h; exact .nil _
  | op :: ops, s, s', h => by
      unfold runs at h
      split at h
      · next hl =>
          cases hs : step hash eqv Γ s op with
          | ok q => rw [hs] at h; exact .cons (legalB_legal hl) hs (runs_run ops h)
          | error e => rw [hs] at h; cases h
      · cases h

/-- Numbers as keys; odd classes are mutable. -/
def demoΓ : Classes := ⟨fun _ => [], fun _ => 0, fun c => c % 2 == 0⟩
def demoHash (k : Nat × Nat) : Nat := k.2 % 3
def demoEqv (a b : Nat × Nat) : Bool := a == b

theorem demo_keys : KeyClass demoHash demoEqv :=
  ⟨by simp [demoEqv], by simp [demoEqv], by simp [demoEqv], by simp [demoEqv, demoHash]⟩

/-- Make a key and an object, put them in table 0, and let go of both. -/
def demoPut (n k v : Nat) : List Op :=
  [.alloc 0 k [], .alloc 1 v [], .insert 0 n (some (n + 1)) .always, .release n, .release (n + 1)]

/-- A table of six entries, which was resized; one entry replaced, one removed, and a copy made. -/
def demoOps : List Op :=
  [.new] ++ demoPut 0 10 0 ++ demoPut 2 11 1 ++ demoPut 4 12 2 ++ demoPut 6 13 3 ++ demoPut 8 14 4 ++ demoPut 10 15 5 ++ demoPut 12 10 6 ++
  [.remove 0 2, .copy 0, .get 1 8]

def demoState : State := (runs demoHash demoEqv demoΓ start demoOps).getD start

theorem demo_reach : Reachable demoHash demoEqv demoΓ demoState := by
  refine ⟨demoOps, runs_run _ ?_⟩
  unfold demoState
  have h : (runs demoHash demoEqv demoΓ start demoOps).isSome = true := by decide +kernel
  obtain ⟨s, hs⟩ := Option.isSome_iff_exists.mp h
  rw [hs]; rfl

/-- The first key is still there although another, equal key was used later; the object it had is not; nor are the key and object
    of the entry that was removed. Each remaining key and object is held by both tables. -/
example : (live demoState.heap 0).isSome ∧ live demoState.heap 1 = none ∧ live demoState.heap 2 = none ∧ live demoState.heap 3 = none ∧
    live demoState.heap 12 = none ∧ (live demoState.heap 13).map (·.count) = some 2 ∧ (live demoState.heap 8).map (·.count) = some 2 ∧
    demoState.client = [] ∧ (inTables demoState).length = 20 ∧ Legal demoState (.insert 1 8 (some 13) .always) ∧
    (match step demoHash demoEqv demoΓ demoState (.get 1 8) with | .ok q => q.2 == some 9 | _ => false) = true ∧
    (demoState.tables.map fun t => t.map (·.rows.length)) = [some 17, some 17] := by
  refine ⟨by decide +kernel, by decide +kernel, by decide +kernel, by decide +kernel, by decide +kernel, by decide +kernel, by decide +kernel, by decide +kernel,
    by decide +kernel, legalB_legal (by decide +kernel), by decide +kernel, by decide +kernel⟩

/-- Deallocating both tables deallocates everything. -/
example : (runs demoHash demoEqv demoΓ demoState [.dispose 0, .dispose 1]).map (fun s => s.heap.all (·.isNone)) = some true := by decide +kernel

/-- **C72, where the rules matter.** `DKDictionarySetObject( dict, key, DKGetField( DKDictionaryGetObject( dict, key ) ) )`:
    the new object exists, but only because the object it replaces holds it. The old object is released before the new one is
    retained, so the new one is deallocated and then used. -/
theorem C72_borrowed_fails : ∃ s : State, Reachable demoHash demoEqv demoΓ s ∧ (∃ o, live s.heap 1 = some o) ∧ 0 ∈ s.client ∧ Exists s 0 ∧
    held s.heap = [1] ∧ step demoHash demoEqv demoΓ s (.insert 0 0 (some 1) .always) = .error .freed := by
  have h : (runs demoHash demoEqv demoΓ start
      [.alloc 0 7 [], .alloc 0 1 [], .alloc 0 2 [1], .release 1, .new, .insert 0 0 (some 2) .always, .release 2]).isSome = true := by decide +kernel
  obtain ⟨s, hs⟩ := Option.isSome_iff_exists.mp h
  refine ⟨s, ⟨_, runs_run _ hs⟩, ?_⟩
  have hs' : s = (runs demoHash demoEqv demoΓ start
      [.alloc 0 7 [], .alloc 0 1 [], .alloc 0 2 [1], .release 1, .new, .insert 0 0 (some 2) .always, .release 2]).getD start := by rw [hs]; rfl
  have e1 : (live s.heap 1).isSome = true := by rw [hs']; decide +kernel
  have e2 : ((s.tables[0]?).join).isSome = true := by rw [hs']; decide +kernel
  have e3 : (match step demoHash demoEqv demoΓ s (.insert 0 0 (some 1) .always) with | .error .freed => true | _ => false) = true := by
    rw [hs']; decide +kernel
  refine ⟨Option.isSome_iff_exists.mp e1, by rw [hs']; decide +kernel, legalB_exists e2, by rw [hs']; decide +kernel, ?_⟩
  split at e3
  · assumption
  · cases e3

end DictOwn
end Duck
