import Verif.Spec.DictOwn
import Verif.Lemmas.PropertyRun
import Verif.Lemmas.HashTableRefine
namespace Duck
namespace DictOwn
open HTable Property

/-! ### Heap -/

theorem keyOf_some {h : Heap} {x : Id} {k : Key} (hk : keyOf h x = some k) : k.1 = x ∧ ∃ o, live h x = some o ∧ k = (x, o.cls, o.value) := by
  unfold keyOf at hk
  cases hl : live h x with
  | none => rw [hl] at hk; cases hk
  | some o => rw [hl] at hk; cases hk; exact ⟨rfl, o, rfl, rfl⟩

theorem keyOf_keep {h h' : Heap} (hs : Keep h h') {x : Id} {k : Key} (hk : keyOf h x = some k) (hl : ∃ o, live h' x = some o) :
    keyOf h' x = some k := by
  obtain ⟨_, o, h1, rfl⟩ := keyOf_some hk
  obtain ⟨o', hl⟩ := hl
  obtain ⟨o2, a1, a2, a3, _⟩ := hs.2 x o' (live_lt h1) hl
  rw [h1] at a1; cases a1
  unfold keyOf
  rw [hl, a2, a3]; rfl

theorem keep_trans {a b c : Heap} (h1 : Keep a b) (h2 : Keep b c) : Keep a c := by
  refine ⟨Nat.le_trans h1.1 h2.1, fun i o' hi hl => ?_⟩
  obtain ⟨o1, a1, a2, a3, a4⟩ := h2.2 i o' (Nat.lt_of_lt_of_le hi h1.1) hl
  obtain ⟨o2, b1, b2, b3, b4⟩ := h1.2 i o1 hi a1
  exact ⟨o2, b1, b2.trans a2, b3.trans a3, b4.trans a4⟩

theorem keep_refl (h : Heap) : Keep h h := (Same.refl h).keep

theorem copy_ok {Γ : Classes} {h : Heap} {ext : List Id} {x : Id} {o : Obj} (ho : Own h ext) (hl : live h x = some o) :
    ∃ h' y, copyObject Γ h x = some (h', y) ∧ Own h' (y :: ext) ∧ Keep h h' ∧ keyOf h' y = some (y, o.cls, o.value) := by
  unfold copyObject
  rw [hl]
  simp only [Option.bind_some]
  by_cases hi : Γ.immutable o.cls = true
  · rw [if_pos hi]
    obtain ⟨h', h1, h2, h3, h4⟩ := retain_ok ho ⟨o, hl⟩
    obtain ⟨oy, b1, b2, b3, _⟩ := h4.2 x o hl
    exact ⟨h', x, by rw [h1]; rfl, h2, h3.keep, by unfold keyOf; rw [b1, ← b2, ← b3]; rfl⟩
  · rw [if_neg hi]
    have hmem : ∀ i ∈ strongs o.fields, ∃ o, live h i = some o := by
      intro i hm
      refine ho.live ?_
      have := held_set h x none (some o) i (live_get hl)
      simp only [cellOwned, List.count_nil] at this
      have := List.count_pos_iff.mpr hm
      omega
    obtain ⟨h', h1, h2, h3, h4⟩ := retains_ok _ ho hmem
    refine ⟨h' ++ [some { o with count := 1 }], h'.length, by rw [h1]; rfl, Own.append (o := { o with count := 1 }) h2 rfl, ⟨by simp [h3.1], ?_⟩, ?_⟩
    · intro i o' hlt hl'
      rw [live_append, if_neg (by rw [h3.1]; exact Nat.ne_of_lt hlt)] at hl'
      exact h3.2 i o' hl'
    · unfold keyOf
      rw [live_append, if_pos rfl]; rfl

theorem exchange_ok {h : Heap} {old new : Option Id} {e : List Id} (ho : Own h (old.toList ++ e))
    (hn : ∀ y, new = some y → y ∈ old.toList ++ e) : ∃ h', exchange h old new = some h' ∧ Own h' (new.toList ++ e) ∧ Same h h' := by
  unfold exchange
  by_cases heq : old = new
  · subst heq; rw [if_pos rfl]; exact ⟨h, rfl, ho, Same.refl h⟩
  · rw [if_neg heq]
    obtain ⟨h1, a1, a2, a3⟩ := release_ok ho
    rw [a1]
    cases new with
    | none => exact ⟨h1, rfl, a2, a3⟩
    | some y =>
        have hy : y ∈ e := by
          rcases List.mem_append.mp (hn y rfl) with hm | hm
          · cases old with
            | none => cases hm
            | some z => simp at hm; subst hm; exact absurd rfl heq
          · exact hm
        obtain ⟨h2, b1, b2, b3, _⟩ := retain_ok a2 (a2.mem hy)
        exact ⟨h2, b1, b2, a3.trans b3⟩

theorem rowDelete_ok {h : Heap} {e : Key × Option Id} {ext : List Id} (ho : Own h (e.1.1 :: e.2.toList ++ ext)) :
    ∃ h', rowDelete h e = some h' ∧ Own h' ext ∧ Same h h' := by
  unfold rowDelete
  obtain ⟨h1, a1, a2, a3⟩ := release_ok (l := [e.1.1]) (ext := e.2.toList ++ ext) ho
  obtain ⟨h2, b1, b2, b3⟩ := release_ok a2
  exact ⟨h2, by rw [a1]; exact b1, b2, a3.trans b3⟩

/-! ### Rows -/

/-- What a row holds. -/
def cellRefs : Row Key (Option Id) → List Id
  | .active k v => k.1 :: v.toList
  | _ => []

theorem refs_split (A B : List (Row Key (Option Id))) (r : Row Key (Option Id)) : refs (A ++ r :: B) = refs A ++ (cellRefs r ++ refs B) := by
  unfold refs
  rw [entries_append, List.flatMap_append]
  cases r <;> simp [entries_cons_active, entries_cons_deleted, entries_cons_empty, cellRefs]

theorem count_set {rows : List (Row Key (Option Id))} {x : Nat} {r : Row Key (Option Id)} (hx : rows[x]? = some r) (r' : Row Key (Option Id)) (i : Id) :
    (refs (rows.set x r')).count i + (cellRefs r).count i = (refs rows).count i + (cellRefs r').count i := by
  obtain ⟨A, B, rfl, rfl⟩ := split_at hx
  rw [set_at, refs_split, refs_split]
  simp only [List.count_append]
  omega

theorem mem_refs_row {rows : List (Row Key (Option Id))} {x : Nat} {r : Row Key (Option Id)} (hx : rows[x]? = some r) {i : Id} (hi : i ∈ cellRefs r) :
    i ∈ refs rows := by
  obtain ⟨A, B, rfl, rfl⟩ := split_at hx
  rw [refs_split]
  simp [hi]

theorem mem_refs_key {rows : List (Row Key (Option Id))} {e : Key × Option Id} (he : e ∈ entries rows) : e.1.1 ∈ refs rows := by
  unfold refs
  exact List.mem_flatMap.mpr ⟨e, he, by simp⟩

/-- The key in every row has the contents recorded in the model. -/
def Known (h : Heap) (rows : List (Row Key (Option Id))) : Prop := ∀ e ∈ entries rows, keyOf h e.1.1 = some e.1

theorem Known.keep {h h' : Heap} {rows : List (Row Key (Option Id))} {ext : List Id} (hk : Known h rows) (hs : Keep h h')
    (ho : Own h' (refs rows ++ ext)) : Known h' rows := fun e he =>
  keyOf_keep hs (hk e he) (ho.mem (List.mem_append_left _ (mem_refs_key he)))

theorem mem_entries_set {rows : List (Row Key (Option Id))} {x : Nat} {r' : Row Key (Option Id)} {e : Key × Option Id}
    (he : e ∈ entries (rows.set x r')) : e ∈ entries rows ∨ r' = .active e.1 e.2 := by
  obtain ⟨y, hy⟩ := mem_entries.mp he
  rw [List.getElem?_set] at hy
  by_cases hxy : x = y
  · rw [if_pos hxy] at hy
    split at hy
    · right; exact (Option.some.inj hy)
    · cases hy
  · rw [if_neg hxy] at hy
    exact Or.inl (mem_entries.mpr ⟨y, hy⟩)

theorem rowUpdate_ok {h : Heap} {rows : List (Row Key (Option Id))} {ext : List Id} {x : Nat} {r : Row Key (Option Id)} {key : Key} {obj : Option Id}
    (ho : Own h (refs rows ++ ext)) (hx : rows[x]? = some r) (hkn : Known h rows) (hk : keyOf h key.1 = some key)
    (hobj : ∀ y, obj = some y → y ∈ refs rows ++ ext) :
    ∃ h', rowUpdate h rows[x]? key obj = some (h', HTable.rowUpdate rows[x]? key obj) ∧
      Own h' (refs (rows.set x (HTable.rowUpdate rows[x]? key obj)) ++ ext) ∧ Same h h' ∧
      Known h' (rows.set x (HTable.rowUpdate rows[x]? key obj)) := by
  suffices hh : ∃ h', rowUpdate h rows[x]? key obj = some (h', HTable.rowUpdate rows[x]? key obj) ∧
      Own h' (refs (rows.set x (HTable.rowUpdate rows[x]? key obj)) ++ ext) ∧ Same h h' by
    obtain ⟨h', a1, a2, a3⟩ := hh
    refine ⟨h', a1, a2, a3, fun e he => ?_⟩
    have hlive := a2.mem (List.mem_append_left _ (mem_refs_key he))
    rcases mem_entries_set he with hm | hm
    · exact keyOf_keep a3.keep (hkn e hm) hlive
    · rw [hx] at hm
      cases r with
      | active k v =>
          simp only [HTable.rowUpdate, Row.active.injEq] at hm
          rw [← hm.1] at hlive ⊢
          exact keyOf_keep a3.keep (hkn (k, v) (mem_entries.mpr ⟨x, hx⟩)) hlive
      | empty =>
          simp only [HTable.rowUpdate, Row.active.injEq] at hm
          rw [← hm.1] at hlive ⊢
          exact keyOf_keep a3.keep hk hlive
      | deleted =>
          simp only [HTable.rowUpdate, Row.active.injEq] at hm
          rw [← hm.1] at hlive ⊢
          exact keyOf_keep a3.keep hk hlive
  obtain ⟨A, B, rfl, rfl⟩ := split_at hx
  rw [hx, set_at]
  have free : cellRefs r = [] → ∃ h', ((retain h key.1).bind fun h => (exchange h none obj).map fun h => (h, Row.active key obj)) =
      some (h', Row.active key obj) ∧ Own h' (refs (A ++ .active key obj :: B) ++ ext) ∧ Same h h' := by
    intro hr
    obtain ⟨_, o, hl, _⟩ := keyOf_some hk
    obtain ⟨h1, a1, a2, a3, _⟩ := retain_ok ho ⟨o, hl⟩
    obtain ⟨h2, b1, b2, b3⟩ := exchange_ok (old := none) (new := obj) (e := key.1 :: (refs (A ++ r :: B) ++ ext)) a2
      (fun y hy => List.mem_append_right _ (List.mem_cons_of_mem _ (hobj y hy)))
    refine ⟨h2, by rw [a1]; simp [b1], b2.congr (fun i => ?_), a3.trans b3⟩
    rw [refs_split, refs_split, hr]
    simp only [cellRefs, List.count_append, List.count_cons, List.count_nil]
    omega
  cases r with
  | empty => exact free rfl
  | deleted => exact free rfl
  | active k v =>
      simp only [rowUpdate, HTable.rowUpdate]
      have ho' : Own h (v.toList ++ (k.1 :: (refs A ++ refs B ++ ext))) := ho.congr (fun i => by
        rw [refs_split]
        simp only [cellRefs, List.count_append, List.count_cons]
        omega)
      obtain ⟨h1, a1, a2, a3⟩ := exchange_ok (new := obj) ho' (fun y hy => by
        have := hobj y hy
        rw [refs_split] at this
        simp only [cellRefs, List.mem_append, List.mem_cons] at this ⊢
        rcases this with (h | (h | h) | h) | h <;> simp [h])
      refine ⟨h1, by rw [a1]; rfl, a2.congr (fun i => ?_), a3⟩
      rw [refs_split]
      simp only [cellRefs, List.count_append, List.count_cons]
      omega

/-! ### Operations on one table -/

variable {hash : Nat × Nat → Nat} {eqv : Nat × Nat → Nat × Nat → Bool}

theorem find_row (rows : List (Row Key (Option Id))) (key : Key) (x : Nat) (s : Status)
    (hf : find (fun k : Key => hash k.2) (fun a b : Key => eqv a.2 b.2) rows key = .ok (x, s)) :
    ∃ r, rows[x]? = some r ∧ (s = .active → ∃ k v, r = .active k v ∧ eqv k.2 key.2 = true) ∧ (s ≠ .active → cellRefs r = []) := by
  have h0 := findLoop_spec (eqv := fun a b : Key => eqv a.2 b.2) rows key (hash key.2) (rows.length + 2) 0 none
  have hp : probe rows.length (hash key.2) 0 = hash key.2 % rows.length := rfl
  rw [hp] at h0
  unfold find at hf
  rw [hf] at h0
  simp only at h0
  by_cases hs : s = .active
  · subst hs
    obtain ⟨k, v, h1, h2⟩ := h0.active
    exact ⟨_, h1, fun _ => ⟨k, v, rfl, h2⟩, fun h => absurd rfl h⟩
  · rcases (h0.free hs).2 with ⟨_, h1⟩ | ⟨_, h1⟩
    · exact ⟨_, h1, fun h => absurd h hs, fun _ => rfl⟩
    · exact ⟨_, h1, fun h => absurd h hs, fun _ => rfl⟩

theorem findRow_ok {h : Heap} {t : Tab} {ext : List Id} {key : Key} (ho : Own h (refs t.rows ++ ext)) (hk : keyOf h key.1 = some key) :
    findRow hash eqv h t key = tableOp (find (fun k : Key => hash k.2) (fun a b : Key => eqv a.2 b.2) t.rows key) := by
  unfold findRow
  rw [if_pos]
  obtain ⟨_, o, hl, _⟩ := keyOf_some hk
  rw [Bool.and_eq_true, List.all_eq_true, hl]
  refine ⟨rfl, fun e he => ?_⟩
  obtain ⟨o, hl⟩ := ho.mem (List.mem_append_left _ (mem_refs_key he))
  rw [hl]; rfl

/-- A call that does to the table what the table model does, and keeps the counts exact. -/
def Sim (h : Heap) (ext : List Id) (r : Except Bad (Heap × Tab)) (m : Except Fail Tab) : Prop :=
  match r with
  | .ok q => m = .ok q.2 ∧ Own q.1 (refs q.2.rows ++ ext) ∧ Keep h q.1 ∧ Known q.1 q.2.rows
  | .error (.table f) => m = .error f
  | .error .freed => False

/-- The same for calls that also report whether they changed the table. -/
def Sim' (h : Heap) (ext : List Id) (r : Except Bad (Heap × Tab × Bool)) (m : Except Fail (Tab × Bool)) : Prop :=
  match r with
  | .ok q => m = .ok q.2 ∧ Own q.1 (refs q.2.1.rows ++ ext) ∧ Keep h q.1 ∧ Known q.1 q.2.1.rows
  | .error (.table f) => m = .error f
  | .error .freed => False

theorem Sim.trans {h h1 : Heap} {ext : List Id} {r : Except Bad (Heap × Tab)} {m : Except Fail Tab} (hs : Sim h1 ext r m) (hk : Keep h h1) :
    Sim h ext r m :=
  match r, hs with
  | .ok _, hs => ⟨hs.1, hs.2.1, keep_trans hk hs.2.2.1, hs.2.2.2⟩
  | .error (.table _), hs => hs
  | .error .freed, hs => hs.elim

/-- What is needed of ResizeAndRehash. -/
def RzOk (rz : Heap → Tab → Except Bad (Heap × Tab)) (rz0 : Tab → Except Fail Tab) : Prop :=
  ∀ h t ext, Own h (refs t.rows ++ ext) → Known h t.rows → Sim h ext (rz h t) (rz0 t)

theorem insertAt_ok {rz : Heap → Tab → Except Bad (Heap × Tab)} {rz0 : Tab → Except Fail Tab} (hrz : RzOk rz rz0) {h : Heap} {t : Tab}
    {ext : List Id} {key : Key} {obj : Option Id} (p : Policy) (ho : Own h (refs t.rows ++ ext)) (hkn : Known h t.rows)
    (hk : keyOf h key.1 = some key) (hobj : ∀ y, obj = some y → y ∈ refs t.rows ++ ext) :
    Sim' h ext (insertAt hash eqv rz h t key obj p)
      (HTable.insertAt (fun k : Key => hash k.2) (fun a b : Key => eqv a.2 b.2) rz0 t key obj p) := by
  unfold insertAt HTable.insertAt
  rw [findRow_ok ho hk]
  cases hf : find (fun k : Key => hash k.2) (fun a b : Key => eqv a.2 b.2) t.rows key with
  | error f => exact rfl
  | ok xs =>
      obtain ⟨x, s⟩ := xs
      obtain ⟨r, hx, hact, hfree⟩ := find_row t.rows key x s hf
      obtain ⟨h1, a1, a2, a3, a4⟩ := rowUpdate_ok ho hx hkn hk hobj
      have free : ∀ n, Sim' h ext
          (if p = .ifFound then .ok (h, t, false)
            else (alive (rowUpdate h t.rows[x]? key obj)).bind fun u =>
              (rz u.1 { t with rows := t.rows.set x u.2, activeCount := t.activeCount + 1, deletedCount := n }).map fun q => (q.1, q.2, true))
          (if p = .ifFound then .ok (t, false)
            else (rz0 { t with rows := t.rows.set x (HTable.rowUpdate t.rows[x]? key obj), activeCount := t.activeCount + 1,
                               deletedCount := n }).map (fun t => (t, true))) := by
        intro n
        by_cases hp : p = .ifFound
        · rw [if_pos hp, if_pos hp]; exact ⟨rfl, ho, keep_refl h, hkn⟩
        · rw [if_neg hp, if_neg hp, a1]
          have hh := hrz h1 { t with rows := t.rows.set x (HTable.rowUpdate t.rows[x]? key obj), activeCount := t.activeCount + 1, deletedCount := n }
            ext a2 a4
          show Sim' h ext ((rz h1 { t with rows := t.rows.set x (HTable.rowUpdate t.rows[x]? key obj), activeCount := t.activeCount + 1, deletedCount := n }).map
            fun q => (q.1, q.2, true)) _
          generalize rz h1 { t with rows := t.rows.set x (HTable.rowUpdate t.rows[x]? key obj), activeCount := t.activeCount + 1, deletedCount := n } = R at hh ⊢
          match R, hh with
          | .ok q, hh =>
              obtain ⟨b1, b2, b3, b4⟩ := hh
              rw [b1]
              exact ⟨rfl, b2, keep_trans a3.keep b3, b4⟩
          | .error (.table f), hh => rw [show rz0 _ = _ from hh]; exact rfl
          | .error .freed, hh => exact hh.elim
      cases s with
      | empty => exact free _
      | deleted => exact free _
      | active =>
          show Sim' h ext (if p = .ifNotFound then .ok (h, t, false)
            else (alive (rowUpdate h t.rows[x]? key obj)).map fun u => (u.1, { t with rows := t.rows.set x u.2 }, true))
            (if p = .ifNotFound then .ok (t, false) else .ok ({ t with rows := t.rows.set x (HTable.rowUpdate t.rows[x]? key obj) }, true))
          by_cases hp : p = .ifNotFound
          · rw [if_pos hp, if_pos hp]; exact ⟨rfl, ho, keep_refl h, hkn⟩
          · rw [if_neg hp, if_neg hp, a1]; exact ⟨rfl, a2, a3.keep, a4⟩

theorem insertWith_ok {rz : Heap → Tab → Except Bad (Heap × Tab)} {rz0 : Tab → Except Fail Tab} (hrz : RzOk rz rz0) {h : Heap} {t : Tab}
    {ext : List Id} {key : Key} {obj : Option Id} (p : Policy) (ho : Own h (refs t.rows ++ ext)) (hkn : Known h t.rows)
    (hk : keyOf h key.1 = some key) (hmem : key.1 ∈ refs t.rows ++ ext) (hobj : ∀ y, obj = some y → y ∈ refs t.rows ++ ext) :
    Sim' h ext (insertWith hash eqv rz h t key obj p)
      (HTable.insertWith (fun k : Key => hash k.2) (fun a b : Key => eqv a.2 b.2) rz0 t key obj p) := by
  unfold insertWith HTable.insertWith
  by_cases he : t.rows.isEmpty = true
  · rw [if_pos he, if_pos he]
    have hh := hrz h t ext ho hkn
    rw [List.isEmpty_iff] at he
    have hr : refs t.rows = [] := by rw [he]; rfl
    rw [hr] at hmem hobj
    generalize rz h t = R at hh ⊢
    match R, hh with
    | .ok q, hh =>
        obtain ⟨b1, b2, b3, b4⟩ := hh
        rw [b1]
        have hk' := keyOf_keep b3 hk (b2.mem (List.mem_append_right _ hmem))
        have := insertAt_ok (hash := hash) (eqv := eqv) hrz p b2 b4 hk' (fun y hy => List.mem_append_right _ (hobj y hy))
        show Sim' h ext (insertAt hash eqv rz q.1 q.2 key obj p)
          (HTable.insertAt (fun k : Key => hash k.2) (fun a b : Key => eqv a.2 b.2) rz0 q.2 key obj p)
        generalize insertAt hash eqv rz q.1 q.2 key obj p = R at this ⊢
        match R, this with
        | .ok q', hh => exact ⟨hh.1, hh.2.1, keep_trans b3 hh.2.2.1, hh.2.2.2⟩
        | .error (.table f), hh => exact hh
        | .error .freed, hh => exact hh.elim
    | .error (.table f), hh => rw [show rz0 t = _ from hh]; exact rfl
    | .error .freed, hh => exact hh.elim
  · rw [if_neg he, if_neg he]
    exact insertAt_ok hrz p ho hkn hk hobj

theorem rehash_ok {rz : Heap → Tab → Except Bad (Heap × Tab)} {rz0 : Tab → Except Fail Tab} (hrz : RzOk rz rz0) :
    ∀ (l : List (Key × Option Id)) (h : Heap) (t : Tab) (ext : List Id),
      Own h (refs t.rows ++ ((l.flatMap fun e => e.1.1 :: e.2.toList) ++ ext)) → Known h t.rows → (∀ e ∈ l, keyOf h e.1.1 = some e.1) →
      Sim h ext
        (l.foldlM (fun q e => (insertWith hash eqv rz q.1 q.2 e.1 e.2 .always).bind fun r => (alive (rowDelete r.1 e)).map fun h => (h, r.2.1)) (h, t))
        (l.foldlM (fun t e => (HTable.insertWith (fun k : Key => hash k.2) (fun a b : Key => eqv a.2 b.2) rz0 t e.1 e.2 .always).map (·.1)) t)
  | [], h, t, ext, ho, hkn, hl => ⟨rfl, ho, keep_refl h, hkn⟩
  | e :: l, h, t, ext, ho, hkn, hl => by
      have hkey := hl e (by simp)
      have hins := insertWith_ok (hash := hash) (eqv := eqv) hrz (key := e.1) (obj := e.2) .always ho hkn hkey (by simp) (fun y hy => by simp [hy])
      rw [List.foldlM_cons, List.foldlM_cons]
      dsimp only
      generalize insertWith hash eqv rz h t e.1 e.2 .always = R at hins ⊢
      match R, hins with
      | .ok q, hh =>
          obtain ⟨b1, b2, b3, b4⟩ := hh
          rw [b1]
          have b2' : Own q.1 (e.1.1 :: e.2.toList ++ (refs q.2.1.rows ++ ((l.flatMap fun e => e.1.1 :: e.2.toList) ++ ext))) := b2.congr (fun i => by
            simp only [List.flatMap_cons, List.count_append, List.count_cons]
            omega)
          obtain ⟨h2, c1, c2, c3⟩ := rowDelete_ok b2'
          have hk2 : Keep h h2 := keep_trans b3 c3.keep
          have ih := rehash_ok hrz l h2 q.2.1 ext c2 (b4.keep c3.keep c2) (fun e' he' => keyOf_keep hk2 (hl e' (by simp [he']))
            (c2.mem (by
              simp only [List.mem_append, List.mem_flatMap]
              exact Or.inr (Or.inl ⟨e', he', by simp⟩))))
          show Sim h ext (Except.bind ((alive (rowDelete q.1 e)).map fun h => (h, q.2.1)) fun q => List.foldlM _ q l) _
          rw [c1]
          exact ih.trans hk2
      | .error (.table f), hh => rw [show HTable.insertWith _ _ _ _ _ _ _ = _ from hh]; exact rfl
      | .error .freed, hh => exact hh.elim

theorem resize_ok : ∀ d, RzOk (resize hash eqv d) (HTable.resize (fun k : Key => hash k.2) (fun a b : Key => eqv a.2 b.2) d)
  | 0, h, t, ext, ho, hkn => by
      unfold resize HTable.resize
      by_cases hf : fits t = true
      · rw [if_pos hf, if_pos hf]; exact ⟨rfl, ho, keep_refl h, hkn⟩
      · rw [if_neg hf, if_neg hf]; exact rfl
  | d + 1, h, t, ext, ho, hkn => by
      unfold resize HTable.resize
      by_cases hf : fits t = true
      · rw [if_pos hf, if_pos hf]; exact ⟨rfl, ho, keep_refl h, hkn⟩
      · rw [if_neg hf, if_neg hf]
        cases newSize t with
        | none => exact rfl
        | some s =>
            have he : refs (List.replicate s.1 (Row.empty : Row Key (Option Id))) = [] := by unfold refs; rw [entries_fresh]; rfl
            refine rehash_ok (resize_ok d) (entries t.rows) h _ ext ?_ ?_ hkn
            · show Own h (refs (List.replicate s.1 (Row.empty : Row Key (Option Id))) ++ (refs t.rows ++ ext))
              rw [he]; exact ho
            · intro e hm
              rw [show entries _ = [] from entries_fresh s.1] at hm
              cases hm

end DictOwn
end Duck
