import Verif.Lemmas.DictOwn
namespace Duck
namespace DictOwn
open HTable Property

variable {hash : Nat × Nat → Nat} {eqv : Nat × Nat → Nat × Nat → Bool} {Γ : Classes}

/-- Hash and equality of keys look at their contents. -/
abbrev khash (hash : Nat × Nat → Nat) : Key → Nat := fun k => hash k.2
abbrev keqv (eqv : Nat × Nat → Nat × Nat → Bool) : Key → Key → Bool := fun a b => eqv a.2 b.2

/-! ### Calls on one table -/

theorem insertRow_ok {h : Heap} {t : Tab} {ext : List Id} {key : Key} {obj : Option Id} (p : Policy) (ho : Own h (refs t.rows ++ ext))
    (hkn : Known h t.rows) (hk : keyOf h key.1 = some key) (hmem : key.1 ∈ refs t.rows ++ ext) (hobj : ∀ y, obj = some y → y ∈ refs t.rows ++ ext) :
    Sim h ext (insertRow hash eqv h t key obj p) ((HTable.insert (khash hash) (keqv eqv) t key obj p).map (·.1)) := by
  have hh := insertWith_ok (hash := hash) (eqv := eqv) (resize_ok (hash := hash) (eqv := eqv) 2) p ho hkn hk hmem hobj
  unfold insertRow HTable.insert
  generalize insertWith hash eqv (resize hash eqv 2) h t key obj p = R at hh ⊢
  match R, hh with
  | .ok q, hh => rw [hh.1]; exact ⟨rfl, hh.2.1, hh.2.2.1, hh.2.2.2⟩
  | .error (.table f), hh => rw [show HTable.insertWith _ _ _ _ _ _ _ = _ from hh]; exact rfl
  | .error .freed, hh => exact hh.elim

theorem insertObject_ok {h : Heap} {t : Tab} {ext : List Id} {k : Id} {obj : Option Id} (p : Policy) (ho : Own h (refs t.rows ++ ext))
    (hkn : Known h t.rows) (hmem : k ∈ refs t.rows ++ ext) (hobj : ∀ y, obj = some y → y ∈ refs t.rows ++ ext) :
    ∃ (o : Obj) (key : Key), live h k = some o ∧ key.2 = (o.cls, o.value) ∧
      Sim h ext (insertObject hash eqv Γ h t k obj p) ((HTable.insert (khash hash) (keqv eqv) t key obj p).map (·.1)) := by
  obtain ⟨o, hl⟩ := ho.mem hmem
  obtain ⟨h1, y, a1, a2, a3, a4⟩ := copy_ok (Γ := Γ) ho hl
  have a2' : Own h1 (refs t.rows ++ (y :: ext)) := a2.congr (fun i => by simp only [List.count_append, List.count_cons]; omega)
  have hh := insertRow_ok (hash := hash) (eqv := eqv) (key := (y, o.cls, o.value)) (obj := obj) p a2' (hkn.keep a3 a2') a4 (by simp)
    (fun z hz => by
      have := hobj z hz
      simp only [List.mem_append, List.mem_cons] at this ⊢
      rcases this with h | h <;> simp [h])
  refine ⟨o, (y, o.cls, o.value), hl, rfl, ?_⟩
  unfold insertObject
  rw [a1]
  show Sim h ext ((alive (keyOf h1 y)).bind fun key => (insertRow hash eqv h1 t key obj p).bind fun r => (alive (release r.1 [y])).map fun h => (h, r.2)) _
  rw [a4]
  show Sim h ext ((insertRow hash eqv h1 t (y, o.cls, o.value) obj p).bind fun r => (alive (release r.1 [y])).map fun h => (h, r.2)) _
  generalize insertRow hash eqv h1 t (y, o.cls, o.value) obj p = R at hh ⊢
  match R, hh with
  | .ok q, hh =>
      obtain ⟨b1, b2, b3, b4⟩ := hh
      rw [b1]
      obtain ⟨h2, c1, c2, c3⟩ := release_ok (h := q.1) (l := [y]) (ext := refs q.2.rows ++ ext)
        (b2.congr (fun i => by simp only [List.count_append, List.count_cons, List.count_nil]; omega))
      show Sim h ext ((alive (release q.1 [y])).map fun h => (h, q.2)) _
      rw [c1]
      exact ⟨rfl, c2, keep_trans a3 (keep_trans b3 c3.keep), b4.keep c3.keep c2⟩
  | .error (.table f), hh => exact hh
  | .error .freed, hh => exact hh.elim

theorem addObject_ok {h : Heap} {t : Tab} {ext : List Id} {x : Id} (p : Policy) (ho : Own h (refs t.rows ++ ext)) (hkn : Known h t.rows)
    (hmem : x ∈ refs t.rows ++ ext) : ∃ (o : Obj), live h x = some o ∧
      Sim h ext (addObject hash eqv h t x p) ((HTable.insert (khash hash) (keqv eqv) t (x, o.cls, o.value) (some x) p).map (·.1)) := by
  obtain ⟨o, hl⟩ := ho.mem hmem
  have hk : keyOf h x = some (x, o.cls, o.value) := by unfold keyOf; rw [hl]; rfl
  refine ⟨o, hl, ?_⟩
  unfold addObject
  rw [hk]
  exact insertRow_ok (key := (x, o.cls, o.value)) p ho hkn hk hmem (fun y hy => by cases hy; exact hmem)

theorem removeObject_ok {h : Heap} {t : Tab} {ext : List Id} {k : Id} (ho : Own h (refs t.rows ++ ext)) (hkn : Known h t.rows)
    (hmem : k ∈ refs t.rows ++ ext) : ∃ (o : Obj), live h k = some o ∧
      Sim h ext (removeObject hash eqv h t k) (HTable.remove (khash hash) (keqv eqv) t (k, o.cls, o.value)) := by
  obtain ⟨o, hl⟩ := ho.mem hmem
  have hk : keyOf h k = some (k, o.cls, o.value) := by unfold keyOf; rw [hl]; rfl
  refine ⟨o, hl, ?_⟩
  unfold removeObject HTable.remove
  rw [hk]
  show Sim h ext (if t.activeCount > 0 then _ else _) _
  by_cases ha : t.activeCount > 0
  · rw [if_pos ha, if_pos ha, findRow_ok ho hk]
    cases hf : find (khash hash) (keqv eqv) t.rows (k, o.cls, o.value) with
    | error f => exact rfl
    | ok xs =>
        obtain ⟨x, s⟩ := xs
        obtain ⟨r, hx, hact, hfree⟩ := find_row t.rows _ x s hf
        cases s with
        | active =>
            obtain ⟨k', v, rfl, _⟩ := hact rfl
            have hc := count_set hx .deleted
            obtain ⟨h1, a1, a2, a3⟩ := rowDelete_ok (h := h) (e := (k', v)) (ext := refs (t.rows.set x .deleted) ++ ext) (ho.congr (fun i => by
              have := hc i
              simp only [cellRefs, List.count_append, List.count_cons, List.count_nil] at this ⊢
              omega))
            simp only [tableOp, Except.bind, hx, a1, alive, Except.map, if_true]
            refine ⟨rfl, a2, a3.keep, fun e he => ?_⟩
            have hlive := a2.mem (List.mem_append_left _ (mem_refs_key he))
            rcases mem_entries_set he with hm | hm
            · exact keyOf_keep a3.keep (hkn e hm) hlive
            · cases hm
        | empty => exact ⟨rfl, ho, keep_refl h, hkn⟩
        | deleted => exact ⟨rfl, ho, keep_refl h, hkn⟩
  · rw [if_neg ha, if_neg ha]
    exact ⟨rfl, ho, keep_refl h, hkn⟩

theorem deleteAll_ok : ∀ (l : List (Key × Option Id)) {h : Heap} {ext : List Id}, Own h ((l.flatMap fun e => e.1.1 :: e.2.toList) ++ ext) →
    ∃ h', deleteAll h l = .ok h' ∧ Own h' ext ∧ Same h h'
  | [], h, ext, ho => ⟨h, rfl, ho, Same.refl h⟩
  | e :: l, h, ext, ho => by
      obtain ⟨h1, a1, a2, a3⟩ := rowDelete_ok (e := e) (ext := (l.flatMap fun e => e.1.1 :: e.2.toList) ++ ext) (by
        rw [List.flatMap_cons, List.append_assoc] at ho; exact ho)
      obtain ⟨h2, b1, b2, b3⟩ := deleteAll_ok l a2
      refine ⟨h2, ?_, b2, a3.trans b3⟩
      unfold deleteAll
      rw [List.foldlM_cons, a1]
      exact b1

theorem getObject_ok {h : Heap} {t : Tab} {ext : List Id} {k : Id} (ho : Own h (refs t.rows ++ ext)) (hmem : k ∈ refs t.rows ++ ext) :
    ∃ (o : Obj), live h k = some o ∧ getObject hash eqv h t k =
      tableOp ((HTable.get (khash hash) (keqv eqv) t (k, o.cls, o.value)).map (·.join)) := by
  obtain ⟨o, hl⟩ := ho.mem hmem
  have hk : keyOf h k = some (k, o.cls, o.value) := by unfold keyOf; rw [hl]; rfl
  refine ⟨o, hl, ?_⟩
  unfold getObject HTable.get
  rw [hk]
  show (if t.activeCount > 0 then _ else _) = _
  by_cases ha : t.activeCount > 0
  · rw [if_pos ha, if_pos ha, findRow_ok ho hk]
    cases find (khash hash) (keqv eqv) t.rows (k, o.cls, o.value) with
    | error f => rfl
    | ok xs =>
        simp only [tableOp, Except.map]
        by_cases hs : xs.2 = .active
        · rw [if_pos hs, if_pos hs]
        · rw [if_neg hs, if_neg hs]; rfl
  · rw [if_neg ha, if_neg ha]; rfl

/-- Inserting a list of entries in the table model. -/
def inserts (hash : Nat × Nat → Nat) (eqv : Nat × Nat → Nat × Nat → Bool) (t : Tab) (l : List (Key × Option Id)) : Except Fail Tab :=
  l.foldlM (fun t e => (HTable.insert (khash hash) (keqv eqv) t e.1 e.2 .always).map (·.1)) t

theorem copyLoop_ok : ∀ (l : List (Key × Option Id)) (h : Heap) (t : Tab) (ext : List Id), Own h (refs t.rows ++ ext) → Known h t.rows →
    (∀ e ∈ l, keyOf h e.1.1 = some e.1 ∧ e.1.1 ∈ ext ∧ ∀ y, e.2 = some y → y ∈ ext) →
    ∃ l' : List (Key × Option Id), l'.map (fun e => (e.1.2, e.2)) = l.map (fun e => (e.1.2, e.2)) ∧
      Sim h ext (l.foldlM (fun q e => insertObject hash eqv Γ q.1 q.2 e.1.1 e.2 .always) (h, t)) (inserts hash eqv t l')
  | [], h, t, ext, ho, hkn, _ => ⟨[], rfl, rfl, ho, keep_refl h, hkn⟩
  | e :: l, h, t, ext, ho, hkn, hl => by
      obtain ⟨he1, he2, he3⟩ := hl e (by simp)
      obtain ⟨o, key, b1, b2, b3⟩ := insertObject_ok (hash := hash) (eqv := eqv) (Γ := Γ) (obj := e.2) .always ho hkn
        (List.mem_append_right _ he2) (fun y hy => List.mem_append_right _ (he3 y hy))
      have hkc : key.2 = e.1.2 := by
        obtain ⟨_, o', c1, c2⟩ := keyOf_some he1
        rw [b1] at c1; cases c1
        rw [b2, c2]
      rw [List.foldlM_cons]
      generalize insertObject hash eqv Γ h t e.1.1 e.2 .always = R at b3 ⊢
      match R, b3 with
      | .ok q, b3 =>
          obtain ⟨c1, c2, c3, c4⟩ := b3
          obtain ⟨l', d1, d2⟩ := copyLoop_ok l q.1 q.2 ext c2 c4 (fun e' he' => by
            obtain ⟨f1, f2, f3⟩ := hl e' (by simp [he'])
            exact ⟨keyOf_keep c3 f1 (c2.mem (List.mem_append_right _ f2)), f2, f3⟩)
          refine ⟨(key, e.2) :: l', by simp [d1, hkc], ?_⟩
          unfold inserts
          rw [List.foldlM_cons, c1]
          exact d2.trans c3
      | .error (.table f), b3 =>
          refine ⟨(key, e.2) :: l, by simp [hkc], ?_⟩
          unfold inserts
          rw [List.foldlM_cons, show Except.map _ _ = _ from b3]
          exact rfl
      | .error .freed, b3 => exact b3.elim

/-! ### Programs -/

/-- What an entry of the list of tables holds. -/
def tabRefs : Option Tab → List Id
  | some t => refs t.rows
  | none => []

theorem inTables_eq (s : State) : inTables s = s.tables.flatMap tabRefs := by
  unfold inTables
  congr 1

theorem tables_set (ts : List (Option Tab)) (d : Nat) (c c' : Option Tab) (hd : ts[d]? = some c) (i : Id) :
    ((ts.set d c').flatMap tabRefs).count i + (tabRefs c).count i = (ts.flatMap tabRefs).count i + (tabRefs c').count i := by
  induction ts generalizing d with
  | nil => simp at hd
  | cons a ts ih =>
      cases d with
      | zero =>
          simp only [List.getElem?_cons_zero, Option.some.injEq] at hd
          subst hd
          simp only [List.set_cons_zero, List.flatMap_cons, List.count_append]
          omega
      | succ d =>
          simp only [List.getElem?_cons_succ] at hd
          have := ih d hd
          simp only [List.set_cons_succ, List.flatMap_cons, List.count_append]
          omega

/-- Counts are exact and tables know their keys. -/
structure Inv (s : State) : Prop where
  own : Own s.heap (inTables s ++ s.client)
  known : ∀ (d : Nat) (t : Tab), s.tables[d]? = some (some t) → Known s.heap t.rows

theorem inv_start : Inv start := ⟨fun i => by simp [start, live, inTables, held], fun d t h => by simp [start] at h⟩

/-- The references held elsewhere. -/
def others (s : State) (d : Nat) : List Id := (s.tables.set d none).flatMap tabRefs ++ s.client

theorem own_split {s : State} {d : Nat} {t : Tab} (hd : s.tables[d]? = some (some t)) (i : Id) :
    (refs t.rows ++ others s d).count i = (inTables s ++ s.client).count i := by
  have := tables_set s.tables d (some t) none hd i
  simp only [tabRefs, List.count_nil] at this
  rw [inTables_eq]
  simp only [others, List.count_append]
  omega

theorem usable_mem {s : State} {d : Nat} {t : Tab} (hd : s.tables[d]? = some (some t)) {i : Id} (hu : Usable s i) : i ∈ refs t.rows ++ others s d := by
  rw [← List.count_pos_iff, own_split hd]
  rw [List.count_pos_iff]
  rcases hu with h | h <;> simp [h]

theorem mem_inTables {s : State} {d : Nat} {t : Tab} (hd : s.tables[d]? = some (some t)) {i : Id} (hi : i ∈ refs t.rows) : i ∈ inTables s := by
  unfold inTables
  exact List.mem_flatMap.mpr ⟨some t, List.mem_of_getElem? hd, hi⟩

/-- After a call that replaced table `d`. -/
theorem Inv.put {s : State} {d : Nat} {t : Tab} (hi : Inv s) (hd : s.tables[d]? = some (some t)) {h' : Heap} {c : Option Tab}
    (ho : Own h' (tabRefs c ++ others s d)) (hk : Keep s.heap h') (hkn : ∀ t', c = some t' → Known h' t'.rows) :
    Inv { s with heap := h', tables := s.tables.set d c } := by
  have hown : Own h' (inTables { s with heap := h', tables := s.tables.set d c } ++ s.client) := ho.congr (fun i => by
    have h1 := tables_set s.tables d (some t) c hd i
    have h2 := tables_set s.tables d (some t) none hd i
    rw [show tabRefs none = [] from rfl, List.count_nil] at h2
    rw [inTables_eq]
    simp only [others, List.count_append]
    omega)
  refine ⟨hown, fun d' t' hd' => ?_⟩
  rw [show ({ s with heap := h', tables := s.tables.set d c } : State).tables = s.tables.set d c from rfl] at hd'
  have hd0 := hd'
  rw [List.getElem?_set] at hd'
  by_cases hdd : d = d'
  · rw [if_pos hdd] at hd'
    split at hd'
    · exact hkn t' (Option.some.inj hd')
    · cases hd'
  · rw [if_neg hdd] at hd'
    intro e he
    refine keyOf_keep hk (hi.known d' t' hd' e he) (hown.mem (List.mem_append_left _ ?_))
    exact mem_inTables (s := { s with heap := h', tables := s.tables.set d c }) hd0 (mem_refs_key he)

/-- After a call that left the tables alone or added one. -/
theorem Inv.add {s : State} (hi : Inv s) {h' : Heap} {ts : List (Option Tab)} {cl : List Id}
    (ho : Own h' ((s.tables ++ ts).flatMap tabRefs ++ cl)) (hk : Keep s.heap h') (hkn : ∀ t', some t' ∈ ts → Known h' t'.rows) :
    Inv ⟨h', s.tables ++ ts, cl⟩ := by
  have hown : Own h' (inTables ⟨h', s.tables ++ ts, cl⟩ ++ cl) := by rw [inTables_eq]; exact ho
  refine ⟨hown, fun d' t' hd' => ?_⟩
  have hd0 := hd'
  rw [show (⟨h', s.tables ++ ts, cl⟩ : State).tables = s.tables ++ ts from rfl, List.getElem?_append] at hd'
  split at hd'
  · intro e he
    refine keyOf_keep hk (hi.known d' t' hd' e he) (hown.mem (List.mem_append_left _ ?_))
    exact mem_inTables hd0 (mem_refs_key he)
  · exact hkn t' (List.mem_of_getElem? hd')

/-- What a call does to the tables, in terms of the table model. -/
def Does (hash : Nat × Nat → Nat) (eqv : Nat × Nat → Nat × Nat → Bool) (s : State) (ts : List (Option Tab)) (r : Option Id) : Op → Prop
  | .insert d k obj p => ∃ t o key t' b, s.tables[d]? = some (some t) ∧ live s.heap k = some o ∧ key.2 = (o.cls, o.value) ∧
      HTable.insert (khash hash) (keqv eqv) t key obj p = .ok (t', b) ∧ ts = s.tables.set d (some t')
  | .add d x p => ∃ t o t' b, s.tables[d]? = some (some t) ∧ live s.heap x = some o ∧
      HTable.insert (khash hash) (keqv eqv) t (x, o.cls, o.value) (some x) p = .ok (t', b) ∧ ts = s.tables.set d (some t')
  | .remove d k => ∃ t o t', s.tables[d]? = some (some t) ∧ live s.heap k = some o ∧
      HTable.remove (khash hash) (keqv eqv) t (k, o.cls, o.value) = .ok t' ∧ ts = s.tables.set d (some t')
  | .get d k => ∃ t o v, s.tables[d]? = some (some t) ∧ live s.heap k = some o ∧
      HTable.get (khash hash) (keqv eqv) t (k, o.cls, o.value) = .ok v ∧ r = v.join ∧ ts = s.tables
  | .removeAll d => ∃ t, s.tables[d]? = some (some t) ∧ ts = s.tables.set d (some (HTable.removeAll t))
  | .copy d => ∃ t l' t', s.tables[d]? = some (some t) ∧ List.map (fun e : Key × Option Id => (e.1.2, e.2)) l' = (entries t.rows).map (fun e => (e.1.2, e.2)) ∧
      inserts hash eqv HTable.init l' = .ok t' ∧ ts = s.tables ++ [some t']
  | .dispose d => ts = s.tables.set d none
  | .new => ts = s.tables ++ [some HTable.init]
  | _ => ts = s.tables

/-- How the table model fails when a call fails. -/
def Fails (hash : Nat × Nat → Nat) (eqv : Nat × Nat → Nat × Nat → Bool) (s : State) (f : Fail) : Op → Prop
  | .insert d k obj p => ∃ t o key, s.tables[d]? = some (some t) ∧ live s.heap k = some o ∧ key.2 = (o.cls, o.value) ∧
      HTable.insert (khash hash) (keqv eqv) t key obj p = .error f
  | .add d x p => ∃ t o, s.tables[d]? = some (some t) ∧ live s.heap x = some o ∧
      HTable.insert (khash hash) (keqv eqv) t (x, o.cls, o.value) (some x) p = .error f
  | .remove d k => ∃ t o, s.tables[d]? = some (some t) ∧ live s.heap k = some o ∧
      HTable.remove (khash hash) (keqv eqv) t (k, o.cls, o.value) = .error f
  | .get d k => ∃ t o, s.tables[d]? = some (some t) ∧ live s.heap k = some o ∧
      HTable.get (khash hash) (keqv eqv) t (k, o.cls, o.value) = .error f
  | .copy d => ∃ t l', s.tables[d]? = some (some t) ∧ List.map (fun e : Key × Option Id => (e.1.2, e.2)) l' = (entries t.rows).map (fun e => (e.1.2, e.2)) ∧
      inserts hash eqv HTable.init l' = .error f
  | _ => False

/-- The outcome of a call that follows the rules. -/
def Good (hash : Nat × Nat → Nat) (eqv : Nat × Nat → Nat × Nat → Bool) (s : State) (op : Op) (res : Except Bad (State × Option Id)) : Prop :=
  match res with
  | .ok q => Inv q.1 ∧ Keep s.heap q.1.heap ∧ Does hash eqv s q.1.tables q.2 op
  | .error (.table f) => Fails hash eqv s f op
  | .error .freed => False

theorem map_ok_inv {α β : Type} {x : Except Fail α} {f : α → β} {b : β} (h : x.map f = .ok b) : ∃ a, x = .ok a ∧ f a = b := by
  cases x with
  | error e => cases h
  | ok a => cases h; exact ⟨a, rfl, rfl⟩

theorem map_error_inv {α β : Type} {x : Except Fail α} {f : α → β} {e : Fail} (h : x.map f = .error e) : x = .error e := by
  cases x with
  | error e => cases h; rfl
  | ok a => cases h

theorem inTables_refs_init : refs (HTable.init : Tab).rows = [] := rfl

theorem count_erase' {l : List Id} {i : Id} (hi : i ∈ l) (j : Id) : (i :: l.erase i).count j = l.count j := by
  rw [List.count_cons, List.count_erase]
  by_cases h : i = j
  · subst h
    have := List.count_pos_iff.mpr hi
    simp; omega
  · simp [h]

theorem table_ok {s : State} {d : Nat} {t : Tab} (hd : s.tables[d]? = some (some t)) : table s d = .ok t := by
  unfold table; rw [hd]; rfl

theorem step_ok {s : State} {op : Op} (hi : Inv s) (hleg : Legal s op) : Good hash eqv s op (step hash eqv Γ s op) := by
  have usable_live : ∀ i, Usable s i → ∃ o, live s.heap i = some o := fun i hu => hi.own.mem (by rcases hu with h | h <;> simp [h])
  cases op with
  | alloc cls value fs =>
      obtain ⟨h1, a1, a2, a3, _⟩ := retains_ok fs hi.own (fun i hm => usable_live i (hleg i hm))
      simp only [step]
      rw [a1]
      have hs : strongs (fs.map Slot.strong) = fs := by
        clear a1 a2 a3 hleg
        induction fs with
        | nil => rfl
        | cons a l ih => simp only [strongs, List.map_cons, List.flatMap_cons] at ih ⊢; rw [ih]; rfl
      have hown := Own.append (h := h1) (o := ⟨cls, value, 1, fs.map .strong⟩) (ext := inTables s ++ s.client) (by rw [hs]; exact a2) rfl
      have hkeep : Keep s.heap (h1 ++ [some ⟨cls, value, 1, fs.map .strong⟩]) := by
        refine ⟨by simp [a3.1], fun i o' hlt hl' => ?_⟩
        rw [live_append, if_neg (by rw [a3.1]; exact Nat.ne_of_lt hlt)] at hl'
        exact a3.2 i o' hl'
      refine ⟨?_, hkeep, rfl⟩
      have := Inv.add hi (h' := h1 ++ [some ⟨cls, value, 1, fs.map .strong⟩]) (ts := []) (cl := h1.length :: s.client) (hown.congr (fun i => by
        rw [inTables_eq, List.append_nil]
        simp only [List.count_append, List.count_cons]; omega)) hkeep (fun t' h => by cases h)
      rw [List.append_nil] at this
      exact this
  | retain i =>
      obtain ⟨h1, a1, a2, a3, _⟩ := retain_ok hi.own (usable_live i hleg)
      simp only [step]
      rw [a1]
      refine ⟨?_, a3.keep, rfl⟩
      have := Inv.add hi (h' := h1) (ts := []) (cl := i :: s.client) (a2.congr (fun j => by
        rw [inTables_eq, List.append_nil]
        simp only [List.count_append, List.count_cons]; omega)) a3.keep (fun t' h => by cases h)
      rw [List.append_nil] at this
      exact this
  | release i =>
      obtain ⟨h1, a1, a2, a3⟩ := release_ok (h := s.heap) (l := [i]) (ext := inTables s ++ s.client.erase i) (hi.own.congr (fun j => by
        have := count_erase' hleg j
        simp only [List.count_append, List.count_cons, List.count_nil] at this ⊢; omega))
      simp only [step]
      rw [a1]
      refine ⟨?_, a3.keep, rfl⟩
      have := Inv.add hi (h' := h1) (ts := []) (cl := s.client.erase i) (by rw [List.append_nil, ← inTables_eq]; exact a2) a3.keep (fun t' h => by cases h)
      rw [List.append_nil] at this
      exact this
  | new =>
      refine ⟨Inv.add hi (ts := [some HTable.init]) (cl := s.client) ?_ (keep_refl _) (fun t' h => ?_), keep_refl _, rfl⟩
      · rw [List.flatMap_append, ← inTables_eq]
        simp only [List.flatMap_cons, List.flatMap_nil, tabRefs, inTables_refs_init, List.append_nil]
        exact hi.own
      · simp only [List.mem_cons, Option.some.injEq, List.not_mem_nil, or_false] at h
        subst h
        intro e he; cases he
  | insert d k obj p =>
      obtain ⟨⟨t, hd⟩, hk, hobj⟩ := hleg
      obtain ⟨o, key, a1, a2, a3⟩ := insertObject_ok (hash := hash) (eqv := eqv) (Γ := Γ) (obj := obj) p (hi.own.congr (fun i => (own_split hd i).symm))
        (hi.known d t hd) (usable_mem hd hk) (fun y hy => usable_mem hd (hobj y hy))
      simp only [step]
      rw [table_ok hd]
      simp only [Except.bind]
      generalize insertObject hash eqv Γ s.heap t k obj p = R at a3 ⊢
      match R, a3 with
      | .ok q, a3 =>
          obtain ⟨b1, b2, b3, b4⟩ := a3
          obtain ⟨⟨t', b⟩, c1, c2⟩ := map_ok_inv b1
          simp only at c2; subst c2
          exact ⟨hi.put hd (c := some q.2) b2 b3 (fun t' h => by cases h; exact b4), b3, t, o, key, q.2, b, hd, a1, a2, c1, rfl⟩
      | .error (.table f), a3 => exact ⟨t, o, key, hd, a1, a2, map_error_inv a3⟩
      | .error .freed, a3 => exact a3.elim
  | add d x p =>
      obtain ⟨⟨t, hd⟩, hk⟩ := hleg
      obtain ⟨o, a1, a3⟩ := addObject_ok (hash := hash) (eqv := eqv) p (hi.own.congr (fun i => (own_split hd i).symm))
        (hi.known d t hd) (usable_mem hd hk)
      simp only [step]
      rw [table_ok hd]
      simp only [Except.bind]
      generalize addObject hash eqv s.heap t x p = R at a3 ⊢
      match R, a3 with
      | .ok q, a3 =>
          obtain ⟨b1, b2, b3, b4⟩ := a3
          obtain ⟨⟨t', b⟩, c1, c2⟩ := map_ok_inv b1
          simp only at c2; subst c2
          exact ⟨hi.put hd (c := some q.2) b2 b3 (fun t' h => by cases h; exact b4), b3, t, o, q.2, b, hd, a1, c1, rfl⟩
      | .error (.table f), a3 => exact ⟨t, o, hd, a1, map_error_inv a3⟩
      | .error .freed, a3 => exact a3.elim
  | remove d k =>
      obtain ⟨⟨t, hd⟩, hk⟩ := hleg
      obtain ⟨o, a1, a3⟩ := removeObject_ok (hash := hash) (eqv := eqv) (hi.own.congr (fun i => (own_split hd i).symm))
        (hi.known d t hd) (usable_mem hd hk)
      simp only [step]
      rw [table_ok hd]
      simp only [Except.bind]
      generalize removeObject hash eqv s.heap t k = R at a3 ⊢
      match R, a3 with
      | .ok q, a3 =>
          obtain ⟨b1, b2, b3, b4⟩ := a3
          exact ⟨hi.put hd (c := some q.2) b2 b3 (fun t' h => by cases h; exact b4), b3, t, o, q.2, hd, a1, b1, rfl⟩
      | .error (.table f), a3 => exact ⟨t, o, hd, a1, a3⟩
      | .error .freed, a3 => exact a3.elim
  | get d k =>
      obtain ⟨⟨t, hd⟩, hk⟩ := hleg
      obtain ⟨o, a1, a3⟩ := getObject_ok (hash := hash) (eqv := eqv) (hi.own.congr (fun i => (own_split hd i).symm)) (usable_mem hd hk)
      simp only [step]
      rw [table_ok hd]
      simp only [Except.bind]
      rw [a3]
      cases hg : HTable.get (khash hash) (keqv eqv) t (k, o.cls, o.value) with
      | error f => exact ⟨t, o, hd, a1, hg⟩
      | ok v => exact ⟨hi, keep_refl _, t, o, v, hd, a1, hg, rfl, rfl⟩
  | removeAll d =>
      obtain ⟨t, hd⟩ := hleg
      obtain ⟨h1, a1, a2, a3⟩ := deleteAll_ok (entries t.rows) (ext := others s d) (hi.own.congr (fun i => (own_split hd i).symm))
      simp only [step]
      rw [table_ok hd]
      simp only [Except.bind]
      rw [a1]
      have he : entries (HTable.removeAll t).rows = [] := by
        unfold HTable.removeAll
        simp only
        rw [List.map_const', entries_fresh]
      refine ⟨hi.put hd (c := some (HTable.removeAll t)) ?_ a3.keep (fun t' h => ?_), a3.keep, t, hd, rfl⟩
      · rw [show tabRefs (some (HTable.removeAll t)) = [] by show refs _ = []; unfold refs; rw [he]; rfl]
        exact a2
      · cases h
        intro e hm; rw [he] at hm; cases hm
  | copy d =>
      obtain ⟨t, hd⟩ := hleg
      obtain ⟨l', a1, a2⟩ := copyLoop_ok (hash := hash) (eqv := eqv) (Γ := Γ) (entries t.rows) s.heap HTable.init (inTables s ++ s.client)
        (by rw [inTables_refs_init]; exact hi.own) (fun e he => by cases he) (fun e he => by
          have hm : ∀ i, i ∈ refs t.rows → i ∈ inTables s ++ s.client := fun i h => List.mem_append_left _ (mem_inTables hd h)
          refine ⟨hi.known d t hd e he, hm _ (mem_refs_key he), fun y hy => hm _ ?_⟩
          exact List.mem_flatMap.mpr ⟨e, he, by simp [hy]⟩)
      simp only [step]
      rw [table_ok hd]
      simp only [Except.bind]
      rw [show copyTable hash eqv Γ s.heap t = (entries t.rows).foldlM (fun q e => insertObject hash eqv Γ q.1 q.2 e.1.1 e.2 .always) (s.heap, HTable.init) from rfl]
      generalize (entries t.rows).foldlM (m := Except Bad) (fun q e => insertObject hash eqv Γ q.1 q.2 e.1.1 e.2 .always) (s.heap, HTable.init) = R at a2 ⊢
      match R, a2 with
      | .ok q, a2 =>
          obtain ⟨b1, b2, b3, b4⟩ := a2
          refine ⟨Inv.add hi (h' := q.1) (ts := [some q.2]) (cl := s.client) (b2.congr (fun i => ?_)) b3 (fun t' h => ?_), b3, t, l', q.2, hd, a1, b1, rfl⟩
          · rw [List.flatMap_append, ← inTables_eq]
            simp only [List.flatMap_cons, List.flatMap_nil, tabRefs, List.append_nil, List.count_append]
            omega
          · simp only [List.mem_cons, Option.some.injEq, List.not_mem_nil, or_false] at h
            subst h; exact b4
      | .error (.table f), a2 => exact ⟨t, l', hd, a1, a2⟩
      | .error .freed, a2 => exact a2.elim
  | dispose d =>
      obtain ⟨t, hd⟩ := hleg
      obtain ⟨h1, a1, a2, a3⟩ := deleteAll_ok (entries t.rows) (ext := others s d) (hi.own.congr (fun i => (own_split hd i).symm))
      simp only [step]
      rw [table_ok hd]
      simp only [Except.bind]
      rw [a1]
      exact ⟨hi.put hd (c := none) a2 a3.keep (fun t' h => by cases h), a3.keep, rfl⟩

theorem run_inv {s s' : State} {ops : List Op} (hr : Run hash eqv Γ s ops s') (hi : Inv s) : Inv s' := by
  induction hr with
  | nil => exact hi
  | cons h1 h2 _ ih =>
      have := step_ok (hash := hash) (eqv := eqv) (Γ := Γ) hi h1
      rw [h2] at this
      exact ih this.1

theorem reach_inv {s : State} (hr : Reachable hash eqv Γ s) : Inv s := by
  obtain ⟨ops, h⟩ := hr
  exact run_inv h inv_start

/-! ### The tables are maps -/

/-- Every table satisfies the invariant of C06. -/
def Maps (hash : Nat × Nat → Nat) (eqv : Nat × Nat → Nat × Nat → Bool) (ts : List (Option Tab)) : Prop :=
  ∀ (d : Nat) (t : Tab), ts[d]? = some (some t) → HTable.Inv (khash hash) (keqv eqv) t

theorem keyClass (kc : KeyClass hash eqv) : KeyClass (khash hash) (keqv eqv) :=
  ⟨fun a => kc.refl a.2, fun a b => kc.symm a.2 b.2, fun a b c => kc.trans a.2 b.2 c.2, fun a b => kc.hash_eq a.2 b.2⟩

theorem Maps.set {ts : List (Option Tab)} (hm : Maps hash eqv ts) (d : Nat) {c : Option Tab}
    (hc : ∀ t, c = some t → HTable.Inv (khash hash) (keqv eqv) t) : Maps hash eqv (ts.set d c) := by
  intro d' t' hd'
  rw [List.getElem?_set] at hd'
  by_cases hdd : d = d'
  · rw [if_pos hdd] at hd'
    split at hd'
    · exact hc t' (Option.some.inj hd')
    · cases hd'
  · rw [if_neg hdd] at hd'
    exact hm d' t' hd'

theorem Maps.append {ts : List (Option Tab)} (hm : Maps hash eqv ts) {t : Tab} (hc : HTable.Inv (khash hash) (keqv eqv) t) :
    Maps hash eqv (ts ++ [some t]) := by
  intro d' t' hd'
  rw [List.getElem?_append] at hd'
  split at hd'
  · exact hm d' t' hd'
  · have := List.mem_of_getElem? hd'
    simp only [List.mem_cons, Option.some.injEq, List.not_mem_nil, or_false] at this
    subst this; exact hc

theorem insert_map (kc : KeyClass hash eqv) {t t' : Tab} {key : Key} {obj : Option Id} {p : Policy} {b : Bool}
    (hi : HTable.Inv (khash hash) (keqv eqv) t) (h : HTable.insert (khash hash) (keqv eqv) t key obj p = .ok (t', b)) :
    HTable.Inv (khash hash) (keqv eqv) t' ∧ (entries t'.rows).Perm (specInsert (keqv eqv) (entries t.rows) key obj p).1 := by
  have := HTable.insert_ok (keyClass kc) hi key obj p
  rw [h] at this
  exact ⟨this.1, this.2.1⟩

theorem inserts_inv (kc : KeyClass hash eqv) : ∀ (l : List (Key × Option Id)) {t t' : Tab}, HTable.Inv (khash hash) (keqv eqv) t →
    inserts hash eqv t l = .ok t' → HTable.Inv (khash hash) (keqv eqv) t'
  | [], t, t', hi, h => by cases h; exact hi
  | e :: l, t, t', hi, h => by
      unfold inserts at h
      rw [List.foldlM_cons] at h
      cases hins : HTable.insert (khash hash) (keqv eqv) t e.1 e.2 .always with
      | error f => rw [hins] at h; cases h
      | ok q => rw [hins] at h; exact inserts_inv kc l (insert_map kc hi hins).1 h

theorem does_maps (kc : KeyClass hash eqv) {s : State} {ts : List (Option Tab)} {r : Option Id} {op : Op} (hm : Maps hash eqv s.tables)
    (hdo : Does hash eqv s ts r op) : Maps hash eqv ts := by
  cases op with
  | insert d k obj p =>
      obtain ⟨t, o, key, t', b, h1, _, _, h2, rfl⟩ := hdo
      exact hm.set d (fun t hc => by cases hc; exact (insert_map kc (hm d _ h1) h2).1)
  | add d x p =>
      obtain ⟨t, o, t', b, h1, _, h2, rfl⟩ := hdo
      exact hm.set d (fun t hc => by cases hc; exact (insert_map kc (hm d _ h1) h2).1)
  | remove d k =>
      obtain ⟨t, o, t', h1, _, h2, rfl⟩ := hdo
      have := HTable.remove_ok (keyClass kc) (hm d t h1) (k, o.cls, o.value)
      rw [h2] at this
      exact hm.set d (fun t hc => by cases hc; exact this.1)
  | get d k => obtain ⟨_, _, _, _, _, _, _, rfl⟩ := hdo; exact hm
  | removeAll d =>
      obtain ⟨t, h1, rfl⟩ := hdo
      exact hm.set d (fun t' hc => by cases hc; exact (removeAll_ok (hm d t h1)).1)
  | copy d =>
      obtain ⟨t, l', t', _, _, h2, rfl⟩ := hdo
      exact hm.append (inserts_inv kc l' (Or.inl rfl) h2)
  | dispose d => rw [show ts = _ from hdo]; exact hm.set d (fun t hc => by cases hc)
  | new => rw [show ts = _ from hdo]; exact hm.append (Or.inl rfl)
  | alloc _ _ _ => rw [show ts = _ from hdo]; exact hm
  | retain _ => rw [show ts = _ from hdo]; exact hm
  | release _ => rw [show ts = _ from hdo]; exact hm

theorem run_maps (kc : KeyClass hash eqv) {s s' : State} {ops : List Op} (hr : Run hash eqv Γ s ops s') (hi : Inv s) (hm : Maps hash eqv s.tables) :
    Maps hash eqv s'.tables := by
  induction hr with
  | nil => exact hm
  | cons h1 h2 _ ih =>
      have := step_ok (hash := hash) (eqv := eqv) (Γ := Γ) hi h1
      rw [h2] at this
      exact ih this.1 (does_maps kc hm this.2.2)

theorem reach_maps (kc : KeyClass hash eqv) {s : State} (hr : Reachable hash eqv Γ s) : Maps hash eqv s.tables := by
  obtain ⟨ops, h⟩ := hr
  exact run_maps kc h inv_start (fun d t hd => by simp [start] at hd)

end DictOwn
end Duck
