import Verif.Lemmas.HashTableRefine
import Verif.Spec.Dictionary
namespace Duck
namespace Dict
open HTable
variable {K V W : Type} {hash : K → Nat} {eqv : K → K → Bool} {cp : K → K}

theorem bindOk {ε α β : Type} {x : Except ε α} {f : α → Except ε β} {b : β} (h : x.bind f = .ok b) : ∃ a, x = .ok a ∧ f a = .ok b := by
  cases x with
  | error e => cases h
  | ok a => exact ⟨a, rfl, h⟩

theorem mapOk {ε α β : Type} {x : Except ε α} {f : α → β} {b : β} (h : x.map f = .ok b) : ∃ a, x = .ok a ∧ f a = b := by
  cases x with
  | error e => cases h
  | ok a => exact ⟨a, rfl, by cases h; rfl⟩

theorem foldlOk {ε α β : Type} {f : β → α → Except ε β} {a : α} {l : List α} {b r : β} (h : (a :: l).foldlM f b = .ok r) :
    ∃ b', f b a = .ok b' ∧ l.foldlM f b' = .ok r := by
  rw [List.foldlM_cons] at h
  exact bindOk h

/-- Distinct keys. -/
def Distinct (eqv : K → K → Bool) (m : List (K × W)) : Prop := m.Pairwise fun a b => eqv a.1 b.1 = false

theorem kc_congr (kc : KeyClass hash eqv) {a b : K} (h : eqv a b = true) (c : K) : eqv a c = eqv b c := by
  cases hb : eqv b c with
  | true => exact kc.trans _ _ _ h hb
  | false =>
      cases ha : eqv a c with
      | false => rfl
      | true => rw [kc.trans _ _ _ (kc.symm _ _ h) ha] at hb; cases hb

theorem kc_comm (kc : KeyClass hash eqv) (a b : K) : eqv a b = eqv b a := by
  cases h : eqv b a with
  | true => exact kc.symm _ _ h
  | false =>
      cases h' : eqv a b with
      | false => rfl
      | true => rw [kc.symm _ _ h'] at h; cases h

theorem Distinct.eq_of (kc : KeyClass hash eqv) {m : List (K × W)} (hd : Distinct eqv m) {a b : K × W} (ha : a ∈ m) (hb : b ∈ m)
    (h : eqv a.1 b.1 = true) : a = b := by
  by_contra hne
  have : Std.Symm (fun a b : K × W => eqv a.1 b.1 = false) := ⟨fun x y h => by rw [kc_comm kc]; exact h⟩
  have := List.Pairwise.forall hd ha hb hne
  rw [h] at this; cases this

theorem find_some_iff (kc : KeyClass hash eqv) {m : List (K × W)} (hd : Distinct eqv m) (q : K) (e : K × W) :
    m.find? (fun e => eqv e.1 q) = some e ↔ e ∈ m ∧ eqv e.1 q = true := by
  constructor
  · intro h; exact ⟨List.mem_of_find?_eq_some h, by simpa using List.find?_some h⟩
  · rintro ⟨h1, h2⟩
    cases h : m.find? (fun e => eqv e.1 q) with
    | none => rw [List.find?_eq_none] at h; exact absurd h2 (by simpa using h e h1)
    | some e' =>
        have h3 := List.mem_of_find?_eq_some h
        have h4 : eqv e'.1 q = true := by simpa using List.find?_some h
        rw [Distinct.eq_of kc hd h3 h1 (kc.trans _ _ _ h4 (kc.symm _ _ h2))]

theorem find_perm (kc : KeyClass hash eqv) {m m' : List (K × W)} (hp : m.Perm m') (hd : Distinct eqv m) (q : K) :
    m.find? (fun e => eqv e.1 q) = m'.find? (fun e => eqv e.1 q) := by
  have hd' : Distinct eqv m' := hp.pairwise hd (fun {x y} h => by rw [kc_comm kc]; exact h)
  cases h : m.find? (fun e => eqv e.1 q) with
  | some e =>
      rw [find_some_iff kc hd] at h
      exact ((find_some_iff kc hd' q e).mpr ⟨hp.mem_iff.mp h.1, h.2⟩).symm
  | none =>
      rw [List.find?_eq_none] at h
      symm
      rw [List.find?_eq_none]
      exact fun e he => h e (hp.mem_iff.mpr he)

/-- What an insertion makes of an entry. -/
def putRow (p : Policy) (k : K) (v : W) (old : Option (K × W)) : Option (K × W) :=
  match p, old with
  | .always, some e => some (e.1, v)
  | .always, none => some (k, v)
  | .ifFound, some e => some (e.1, v)
  | .ifFound, none => none
  | .ifNotFound, some e => some e
  | .ifNotFound, none => some (k, v)

/-- The entry for `q` after an insertion. -/
theorem find_insert (kc : KeyClass hash eqv) (m : List (K × W)) (k : K) (v : W) (p : Policy) (q : K) :
    (specInsert eqv m k v p).1.find? (fun e => eqv e.1 q) =
      if eqv k q then
        putRow p k v (m.find? (fun e => eqv e.1 q))
      else m.find? (fun e => eqv e.1 q) := by
  have hmap : ∀ m : List (K × W), (m.map fun e => if eqv e.1 k then (e.1, v) else e).find? (fun e => eqv e.1 q) =
      (m.find? (fun e => eqv e.1 q)).map fun e => if eqv e.1 k then (e.1, v) else e := by
    intro m
    rw [List.find?_map]
    congr 1
    congr 1
    funext e
    simp only [Function.comp]
    split <;> rfl
  unfold specInsert
  by_cases hkq : eqv k q = true
  · rw [if_pos hkq]
    have heq : (fun e : K × W => eqv e.1 q) = fun e => eqv e.1 k := by
      funext e; rw [kc_comm kc e.1 q, ← kc_congr kc hkq, kc_comm kc]
    cases hf : m.find? (fun e => eqv e.1 q) with
    | none =>
        have hno : has eqv m k = false := by
          rw [heq, List.find?_eq_none] at hf
          rw [has, List.any_eq_false]; exact hf
        rw [hno]
        cases p <;> simp [hkq, hf, putRow]
    | some e =>
        have he : eqv e.1 k = true := by rw [heq] at hf; simpa using List.find?_some hf
        have hyes : has eqv m k = true := by
          rw [has, List.any_eq_true]; exact ⟨e, List.mem_of_find?_eq_some hf, he⟩
        rw [hyes]
        cases p <;> simp [hf, hmap, he, putRow]
  · rw [if_neg hkq]
    have hkq' : eqv k q = false := by simpa using hkq
    split
    · split
      · rfl
      · rw [hmap]
        cases hf : m.find? (fun e => eqv e.1 q) with
        | none => rfl
        | some e =>
            have he : eqv e.1 q = true := by simpa using List.find?_some hf
            have : eqv e.1 k = false := by
              cases h : eqv e.1 k with
              | false => rfl
              | true => rw [kc_congr kc h] at he; rw [he] at hkq'; cases hkq'
            simp [this]
    · split
      · rfl
      · simp [List.find?_cons, hkq']

theorem find_remove (kc : KeyClass hash eqv) (m : List (K × W)) (k q : K) :
    (specRemove eqv m k).find? (fun e => eqv e.1 q) = if eqv k q then none else m.find? (fun e => eqv e.1 q) := by
  unfold specRemove
  rw [List.find?_filter]
  by_cases hkq : eqv k q = true
  · rw [if_pos hkq, List.find?_eq_none]
    intro e _
    rw [kc_comm kc e.1 q, ← kc_congr kc hkq, kc_comm kc k e.1]
    cases eqv e.1 k <;> simp
  · rw [if_neg hkq]
    congr 1
    funext e
    cases he : eqv e.1 q with
    | false => simp
    | true =>
        have : eqv e.1 k = false := by
          cases h : eqv e.1 k with
          | false => rfl
          | true => rw [kc_congr kc h] at he; exact absurd he hkq
        simp [this]

/-! ### Entries of the table after each call -/

theorem insert_entry (kc : KeyClass hash eqv) {t t' : HTable.Table K W} {k : K} {v : W} {p : Policy} {b : Bool} (hi : Inv hash eqv t)
    (h : HTable.insert hash eqv t k v p = .ok (t', b)) : Inv hash eqv t' ∧ ∀ q, entry eqv t' q =
      if eqv k q then
        putRow p k v (entry eqv t q)
      else entry eqv t q := by
  have hk := HTable.insert_ok kc hi k v p
  rw [h] at hk
  refine ⟨hk.1, fun q => ?_⟩
  unfold entry
  rw [find_perm kc hk.2.1 hk.1.pairwise, find_insert kc]

theorem remove_entry (kc : KeyClass hash eqv) {t t' : HTable.Table K W} {k : K} (hi : Inv hash eqv t)
    (h : HTable.remove hash eqv t k = .ok t') : Inv hash eqv t' ∧ ∀ q, entry eqv t' q = if eqv k q then none else entry eqv t q := by
  have hk := HTable.remove_ok kc hi k
  rw [h] at hk
  refine ⟨hk.1, fun q => ?_⟩
  unfold entry
  rw [hk.2, find_remove kc]

theorem get_entry (kc : KeyClass hash eqv) {t : HTable.Table K W} {k : K} {r : Option W} (hi : Inv hash eqv t)
    (h : HTable.get hash eqv t k = .ok r) : r = (entry eqv t k).map (·.2) := by
  have hk := HTable.get_ok kc hi k
  rw [h] at hk
  exact hk

theorem insertObject_entry (kc : KeyClass hash eqv) (hcp : ∀ k, eqv (cp k) k = true) {d d' : Dict K V} {k : K} {o : Option V} {p : Policy}
    (hi : Inv hash eqv d) (h : insertObject hash eqv cp d k o p = .ok d') :
    Inv hash eqv d' ∧ ∀ q, entry eqv d' q = if eqv k q then put cp p k o (entry eqv d q) else entry eqv d q := by
  obtain ⟨⟨t, b⟩, h1, h2⟩ := mapOk h
  cases h2
  obtain ⟨h3, h4⟩ := insert_entry kc hi h1
  refine ⟨h3, fun q => ?_⟩
  rw [h4, kc_congr kc (hcp k)]
  split
  · unfold put putRow; cases p <;> cases entry eqv d q <;> rfl
  · rfl

theorem run_entry (kc : KeyClass hash eqv) (hcp : ∀ k, eqv (cp k) k = true) : ∀ {h : List (Op K V)} {d : Dict K V},
    run hash eqv cp h = .ok d → Inv hash eqv d ∧ ∀ q, entry eqv d q = held eqv cp h q
  | [], d, hr => by cases hr; exact ⟨Or.inl rfl, fun _ => rfl⟩
  | op :: h, d', hr => by
      obtain ⟨d, h1, h2⟩ := bindOk hr
      obtain ⟨hi, he⟩ := run_entry kc hcp h1
      cases op with
      | set k o =>
          obtain ⟨h3, h4⟩ := insertObject_entry kc hcp hi h2
          exact ⟨h3, fun q => by rw [h4, he]; rfl⟩
      | add k o =>
          obtain ⟨h3, h4⟩ := insertObject_entry kc hcp hi h2
          exact ⟨h3, fun q => by rw [h4, he]; rfl⟩
      | replace k o =>
          obtain ⟨h3, h4⟩ := insertObject_entry kc hcp hi h2
          exact ⟨h3, fun q => by rw [h4, he]; rfl⟩
      | remove k =>
          obtain ⟨h3, h4⟩ := remove_entry kc hi h2
          exact ⟨h3, fun q => by rw [h4, he]; rfl⟩
      | removeAll =>
          cases h2
          obtain ⟨h3, h4⟩ := HTable.removeAll_ok hi
          exact ⟨h3, fun q => by unfold entry; rw [h4]; rfl⟩

theorem merge_entry (kc : KeyClass hash eqv) (hcp : ∀ k, eqv (cp k) k = true) (p : Policy) : ∀ (m : List (K × Option V)) {d r : Dict K V},
    Distinct eqv m → Inv hash eqv d → m.foldlM (fun d e => insertObject hash eqv cp d e.1 e.2 p) d = .ok r →
    Inv hash eqv r ∧ ∀ q, entry eqv r q = match m.find? (fun e => eqv e.1 q) with
      | none => entry eqv d q
      | some e => put cp p e.1 e.2 (entry eqv d q)
  | [], d, r, _, hi, h => by cases h; exact ⟨hi, fun _ => rfl⟩
  | e :: m, d, r, hd, hi, h => by
      obtain ⟨d', h1, h2⟩ := foldlOk h
      obtain ⟨h3, h4⟩ := insertObject_entry kc hcp hi h1
      have hd' := List.pairwise_cons.mp hd
      obtain ⟨h5, h6⟩ := merge_entry kc hcp p m hd'.2 h3 h2
      refine ⟨h5, fun q => ?_⟩
      rw [h6, List.find?_cons]
      cases heq : eqv e.1 q with
      | false =>
          simp only
          cases hf : m.find? (fun e => eqv e.1 q) with
          | none => simp only; rw [h4, heq]; rfl
          | some e' => simp only; rw [h4, heq]; rfl
      | true =>
          have hnone : m.find? (fun e => eqv e.1 q) = none := by
            rw [List.find?_eq_none]
            intro e' he'
            have h7 := hd'.1 e' he'
            rw [kc_congr kc heq, kc_comm kc] at h7
            rw [h7]; simp
          rw [hnone]
          simp only
          rw [h4, heq]; rfl

/-! ### Iteration -/

theorem foreach_ok {E : Type} {f : E → Except Fail Bool} : ∀ {l : List E} {b : Bool}, foreach f l = .ok b →
    (b = true → ∃ e ∈ l, f e = .ok true) ∧ (b = false → ∀ e ∈ l, f e = .ok false)
  | [], b, h => by cases h; exact ⟨fun h => (nomatch h), fun _ e he => (nomatch he)⟩
  | e :: es, b, h => by
      obtain ⟨r, h1, h2⟩ := bindOk h
      cases r with
      | true => cases h2; exact ⟨fun _ => ⟨e, by simp, h1⟩, fun h => (nomatch h)⟩
      | false =>
          obtain ⟨h3, h4⟩ := foreach_ok h2
          refine ⟨fun hb => ?_, fun hb e' he' => ?_⟩
          · obtain ⟨x, hx, hf⟩ := h3 hb; exact ⟨x, by simp [hx], hf⟩
          · rcases List.mem_cons.mp he' with rfl | he'
            · exact h1
            · exact h4 hb e' he'

theorem inj_perm (kc : KeyClass hash eqv) {A B : Type} {m : List (K × A)} {m' : List (K × B)} (hd : Distinct eqv m)
    (hinj : ∀ e ∈ m, ∃ e' ∈ m', eqv e.1 e'.1 = true) (e₀ : K × B) :
    ∃ f : K × A → K × B, (∀ e ∈ m, eqv e.1 (f e).1 = true) ∧ (m.map f).Subperm m' := by
  classical
  have hpart : ∃ f : K × A → K × B, ∀ e ∈ m, f e ∈ m' ∧ eqv e.1 (f e).1 = true := by
    refine ⟨fun e => if h : ∃ e' ∈ m', eqv e.1 e'.1 = true then h.choose else e₀, fun e he => ?_⟩
    have h := hinj e he
    simp only [dif_pos h]
    exact ⟨h.choose_spec.1, h.choose_spec.2⟩
  obtain ⟨f, hf⟩ := hpart
  have hnd : (m.map f).Nodup := by
    rw [List.nodup_iff_pairwise_ne, List.pairwise_map]
    refine List.Pairwise.imp_of_mem ?_ hd
    intro a b ha hb hab heq
    have h1 := (hf a ha).2
    have h2 := (hf b hb).2
    rw [← heq] at h2
    have := kc.trans _ _ _ h1 (kc.symm _ _ h2)
    rw [this] at hab; cases hab
  exact ⟨f, fun e he => (hf e he).2, hnd.subperm (fun x hx => by
    obtain ⟨e, he, rfl⟩ := List.mem_map.mp hx; exact (hf e he).1)⟩

theorem length_le_of_inj (kc : KeyClass hash eqv) {A B : Type} {m : List (K × A)} {m' : List (K × B)} (hd : Distinct eqv m)
    (hinj : ∀ e ∈ m, ∃ e' ∈ m', eqv e.1 e'.1 = true) : m.length ≤ m'.length := by
  cases m with
  | nil => simp
  | cons e m =>
      obtain ⟨e₀, _, _⟩ := hinj e (by simp)
      obtain ⟨f, _, h⟩ := inj_perm kc hd hinj e₀
      simpa using h.length_le

/-- A list of distinct keys, each matched in another list that is not longer: every key of the other is matched. -/
theorem surj_of_inj (kc : KeyClass hash eqv) {A B : Type} {m : List (K × A)} {m' : List (K × B)} (hd : Distinct eqv m)
    (hlen : m'.length ≤ m.length) (hinj : ∀ e ∈ m, ∃ e' ∈ m', eqv e.1 e'.1 = true) : ∀ e' ∈ m', ∃ e ∈ m, eqv e'.1 e.1 = true := by
  intro e₀ he₀
  obtain ⟨f, hf, hsub⟩ := inj_perm kc hd hinj e₀
  have hperm := hsub.perm_of_length_le (by rw [List.length_map]; exact hlen)
  have := hperm.mem_iff.mpr he₀
  obtain ⟨e, he, rfl⟩ := List.mem_map.mp this
  exact ⟨e, he, kc.symm _ _ (hf e he)⟩

/-! ### Sets -/

/-- The invariant of sets. -/
structure SetInv (hash : K → Nat) (eqv : K → K → Bool) (s : HSet K) : Prop where
  inv : Inv hash eqv s
  own : ∀ e ∈ entries s.rows, eqv e.1 e.2 = true

theorem mem_entry (kc : KeyClass hash eqv) {t : HTable.Table K W} (hi : Inv hash eqv t) (e : K × W) :
    e ∈ entries t.rows ↔ entry eqv t e.1 = some e := by
  unfold entry
  rw [find_some_iff kc hi.pairwise]
  exact ⟨fun h => ⟨h, kc.refl _⟩, fun h => h.1⟩

theorem entry_some (kc : KeyClass hash eqv) {t : HTable.Table K W} (hi : Inv hash eqv t) {q : K} {e : K × W} :
    entry eqv t q = some e ↔ e ∈ entries t.rows ∧ eqv e.1 q = true := find_some_iff kc hi.pairwise q e

theorem in_iff (kc : KeyClass hash eqv) {s : HSet K} (hs : SetInv hash eqv s) (x : K) : In eqv s x ↔ entry eqv s x ≠ none := by
  unfold In members
  constructor
  · rintro ⟨y, hy, hyx⟩ hn
    obtain ⟨e, he, rfl⟩ := List.mem_map.mp hy
    have := (entry_some kc hs.inv (q := x) (e := e)).mpr ⟨he, kc.trans _ _ _ (hs.own e he) hyx⟩
    rw [hn] at this; cases this
  · intro h
    cases he : entry eqv s x with
    | none => exact absurd he h
    | some e =>
        obtain ⟨h1, h2⟩ := (entry_some kc hs.inv).mp he
        exact ⟨e.2, List.mem_map.mpr ⟨e, h1, rfl⟩, kc.trans _ _ _ (kc.symm _ _ (hs.own e h1)) h2⟩

theorem setInsert_inv (kc : KeyClass hash eqv) {s t : HSet K} {x : K} {p : Policy} (hp : p ≠ .ifFound) (hs : SetInv hash eqv s)
    (h : (HTable.insert hash eqv s x x p).map (·.1) = .ok t) : SetInv hash eqv t ∧ ∀ q, In eqv t q ↔ In eqv s q ∨ eqv x q = true := by
  obtain ⟨⟨t', b⟩, h1, h2⟩ := mapOk h
  cases h2
  obtain ⟨h3, h4⟩ := insert_entry kc hs.inv h1
  have hs' : SetInv hash eqv t' := by
    refine ⟨h3, fun e he => ?_⟩
    rw [mem_entry kc h3, h4] at he
    split at he
    · next hx =>
      unfold putRow at he
      cases hold : entry eqv s e.1 with
      | none => rw [hold] at he; cases p <;> simp at he <;> (first | (rw [← he]; exact kc.refl _) | exact absurd rfl hp)
      | some e0 =>
          rw [hold] at he
          obtain ⟨h5, h6⟩ := (entry_some kc hs.inv).mp hold
          cases p
          · simp at he; rw [← he] at hx ⊢; exact kc.symm _ _ hx
          · exact absurd rfl hp
          · simp at he; rw [← he]; exact hs.own e0 h5
    · exact hs.own e (((entry_some kc hs.inv).mp he).1)
  refine ⟨hs', fun q => ?_⟩
  rw [in_iff kc hs', in_iff kc hs, h4]
  by_cases hx : eqv x q = true
  · rw [if_pos hx]
    simp only [hx, or_true, iff_true]
    unfold putRow
    cases entry eqv s q <;> cases p <;> simp at hp ⊢
  · rw [if_neg hx]; simp [hx]

theorem setRemove_inv (kc : KeyClass hash eqv) {s t : HSet K} {x : K} (hs : SetInv hash eqv s)
    (h : setRemove hash eqv s x = .ok t) : SetInv hash eqv t ∧ ∀ q, In eqv t q ↔ In eqv s q ∧ eqv x q = false := by
  obtain ⟨h3, h4⟩ := remove_entry kc hs.inv h
  have hs' : SetInv hash eqv t := by
    refine ⟨h3, fun e he => ?_⟩
    rw [mem_entry kc h3, h4] at he
    split at he
    · cases he
    · exact hs.own e (((entry_some kc hs.inv).mp he).1)
  refine ⟨hs', fun q => ?_⟩
  rw [in_iff kc hs', in_iff kc hs, h4]
  cases hx : eqv x q <;> simp

theorem setInit_inv (kc : KeyClass hash eqv) : ∀ {xs : List K} {s t : HSet K}, SetInv hash eqv s →
    xs.foldlM (fun s x => (HTable.insert hash eqv s x x .always).map (·.1)) s = .ok t →
    SetInv hash eqv t ∧ ∀ q, In eqv t q ↔ In eqv s q ∨ ∃ x ∈ xs, eqv x q = true
  | [], s, t, hs, h => by cases h; exact ⟨hs, fun q => by simp⟩
  | x :: xs, s, t, hs, h => by
      obtain ⟨s', h1, h2⟩ := foldlOk h
      obtain ⟨h3, h4⟩ := setInsert_inv kc (by simp) hs h1
      obtain ⟨h5, h6⟩ := setInit_inv kc h3 h2
      refine ⟨h5, fun q => ?_⟩
      rw [h6, h4]; simp [or_assoc]

theorem emptySet_inv : SetInv hash eqv (HTable.init : HSet K) := ⟨Or.inl rfl, fun e he => (nomatch he)⟩

theorem removeAll_inv {s : HSet K} (hs : SetInv hash eqv s) : SetInv hash eqv (HTable.removeAll s) := by
  obtain ⟨h1, h2⟩ := HTable.removeAll_ok hs.inv
  exact ⟨h1, fun e he => by rw [h2] at he; cases he⟩

theorem isSet_inv (kc : KeyClass hash eqv) {s : HSet K} (h : IsSet eqv hash s) : SetInv hash eqv s := by
  induction h with
  | init h => exact (setInit_inv kc emptySet_inv h).1
  | add _ h ih => exact (setInsert_inv kc (by simp) ih h).1
  | remove _ h ih => exact (setRemove_inv kc ih h).1
  | removeAll _ ih => exact removeAll_inv ih

theorem union_inv (kc : KeyClass hash eqv) : ∀ {xs : List K} {s t : HSet K}, IsSet eqv hash s →
    xs.foldlM (fun s x => setAdd hash eqv s x) s = .ok t → IsSet eqv hash t ∧ ∀ q, In eqv t q ↔ In eqv s q ∨ ∃ x ∈ xs, eqv x q = true
  | [], s, t, hs, h => by cases h; exact ⟨hs, fun q => by simp⟩
  | x :: xs, s, t, hs, h => by
      obtain ⟨s', h1, h2⟩ := foldlOk h
      obtain ⟨h3, h4⟩ := setInsert_inv kc (by simp) (isSet_inv kc hs) h1
      obtain ⟨h5, h6⟩ := union_inv kc (.add hs h1) h2
      refine ⟨h5, fun q => ?_⟩
      rw [h6, h4]; simp [or_assoc]

theorem minus_inv (kc : KeyClass hash eqv) : ∀ {xs : List K} {s t : HSet K}, IsSet eqv hash s →
    xs.foldlM (fun s x => setRemove hash eqv s x) s = .ok t → IsSet eqv hash t ∧ ∀ q, In eqv t q ↔ In eqv s q ∧ ¬ ∃ x ∈ xs, eqv x q = true
  | [], s, t, hs, h => by cases h; exact ⟨hs, fun q => by simp⟩
  | x :: xs, s, t, hs, h => by
      obtain ⟨s', h1, h2⟩ := foldlOk h
      obtain ⟨h3, h4⟩ := setRemove_inv kc (isSet_inv kc hs) h1
      obtain ⟨h5, h6⟩ := minus_inv kc (.remove hs h1) h2
      refine ⟨h5, fun q => ?_⟩
      rw [h6, h4]; simp [and_assoc]

theorem contains_ok (kc : KeyClass hash eqv) {s : HSet K} (hs : SetInv hash eqv s) {x : K} {b : Bool} (h : setContains hash eqv s x = .ok b) :
    b = true ↔ In eqv s x := by
  obtain ⟨r, h1, h2⟩ := mapOk h
  have := get_entry kc hs.inv h1
  rw [in_iff kc hs, ← h2, this]
  cases entry eqv s x <;> simp

theorem insert_false {t t' : HTable.Table K W} {k : K} {v : W} {p : Policy} (hne : t.rows ≠ [])
    (h : HTable.insert hash eqv t k v p = .ok (t', false)) : t' = t := by
  unfold HTable.insert insertWith at h
  rw [if_neg (by simpa using hne)] at h
  unfold insertAt at h
  obtain ⟨⟨x, st⟩, h1, h2⟩ := bindOk h
  cases st <;> simp only at h2
  · split at h2
    · cases h2; rfl
    · obtain ⟨r, _, h3⟩ := mapOk h2; cases h3
  · split at h2
    · cases h2; rfl
    · obtain ⟨r, _, h3⟩ := mapOk h2; cases h3
  · split at h2
    · cases h2; rfl
    · cases h2

/-- Adding what is there changes nothing. -/
theorem setAdd_same (kc : KeyClass hash eqv) {s t : HSet K} (hs : SetInv hash eqv s) {x : K} (hx : x ∈ members s) (h : setAdd hash eqv s x = .ok t) :
    t = s := by
  obtain ⟨⟨t', b⟩, h1, h2⟩ := mapOk h
  cases h2
  obtain ⟨e, he, rfl⟩ := List.mem_map.mp hx
  have hk := HTable.insert_ok kc hs.inv e.2 e.2 .ifNotFound
  rw [h1] at hk
  have hhas : has eqv (entries s.rows) e.2 = true := by
    rw [has, List.any_eq_true]; exact ⟨e, he, hs.own e he⟩
  have hb : b = false := by
    rw [hk.2.2]; simp [specInsert, hhas]
  subst hb
  refine insert_false ?_ h1
  intro hnil; rw [hnil] at he; cases he

theorem intersect_same (kc : KeyClass hash eqv) (t : HSet K) {s : HSet K} (hs : SetInv hash eqv s) : ∀ {xs : List K} {r : HSet K}, (∀ x ∈ xs, x ∈ members s) →
    xs.foldlM (intersectStep hash eqv t) s = .ok r → r = s
  | [], r, _, h => by cases h; rfl
  | x :: xs, r, hx, h => by
      obtain ⟨s', h1, h2⟩ := foldlOk h
      have : s' = s := by
        obtain ⟨m, _, h3⟩ := bindOk h1
        split at h3
        · exact setAdd_same kc hs (hx x (by simp)) h3
        · cases h3; rfl
      subst this
      exact intersect_same kc t hs (fun y hy => hx y (by simp [hy])) h2

theorem mem_of_row {rows : List (Row K W)} {i : Nat} {k : K} {o : W} (h : rows[i]? = some (.active k o)) : (k, o) ∈ entries rows := by
  rw [HTable.mem_entries]
  exact ⟨i, h⟩

theorem unionSelf_same (kc : KeyClass hash eqv) : ∀ (n i : Nat) {s r : HSet K}, SetInv hash eqv s →
    foreachSelf (setAdd hash eqv) n i s = .ok r → r = s
  | 0, i, s, r, _, h => by cases h; rfl
  | n + 1, i, s, r, hs, h => by
      unfold foreachSelf at h
      split at h
      · next k o hrow =>
        obtain ⟨s', h1, h2⟩ := bindOk h
        have : s' = s := setAdd_same kc hs (List.mem_map.mpr ⟨(k, o), mem_of_row hrow, rfl⟩) h1
        subst this
        exact unionSelf_same kc n (i + 1) hs h2
      · exact unionSelf_same kc n (i + 1) hs h

theorem remove_shape {t t' : HTable.Table K W} {k : K} (h : HTable.remove hash eqv t k = .ok t') :
    t'.rows = t.rows ∨ ∃ x, t'.rows = t.rows.set x .deleted := by
  unfold HTable.remove at h
  split at h
  · obtain ⟨⟨x, st⟩, _, h2⟩ := mapOk h
    split at h2
    · exact Or.inr ⟨x, by rw [← h2]⟩
    · exact Or.inl (by rw [← h2])
  · cases h; exact Or.inl rfl

/-- No live row before `i`. -/
def Cleared (s : HSet K) (i : Nat) : Prop := ∀ j < i, ∀ k o, s.rows[j]? ≠ some (.active k o)

theorem minusSelf_clear (kc : KeyClass hash eqv) : ∀ (n i : Nat) {s r : HSet K}, SetInv hash eqv s → Cleared s i →
    foreachSelf (setRemove hash eqv) n i s = .ok r → SetInv hash eqv r ∧ Cleared r (i + n) ∧ r.rows.length = s.rows.length
  | 0, i, s, r, hs, hc, h => by cases h; exact ⟨hs, hc, rfl⟩
  | n + 1, i, s, r, hs, hc, h => by
      unfold foreachSelf at h
      split at h
      · next k o hrow =>
        obtain ⟨s', h1, h2⟩ := bindOk h
        obtain ⟨h3, h4⟩ := setRemove_inv kc hs h1
        have hshape := remove_shape h1
        have hlen : s'.rows.length = s.rows.length := by
          rcases hshape with h | ⟨x, h⟩ <;> rw [h]; simp
        have hkeep : ∀ (j : Nat) (k' o' : K), s'.rows[j]? = some (.active k' o') → s.rows[j]? = some (.active k' o') := by
          intro j k' o' hj
          rcases hshape with h | ⟨x, h⟩
          · rw [← h]; exact hj
          · rw [h, List.getElem?_set] at hj
            split at hj
            · split at hj <;> simp at hj
            · exact hj
        have hc' : Cleared s' (i + 1) := by
          intro j hj k' o' hrow'
          have hold := hkeep j k' o' hrow'
          by_cases hji : j < i
          · exact hc j hji k' o' hold
          · have : j = i := by omega
            subst this
            rw [hold] at hrow
            cases hrow
            have hin : In eqv s' o := ⟨o, List.mem_map.mpr ⟨(k, o), mem_of_row hrow', rfl⟩, kc.refl _⟩
            have := ((h4 o).mp hin).2
            rw [kc.refl] at this; cases this
        obtain ⟨h5, h6, h7⟩ := minusSelf_clear kc n (i + 1) h3 hc' h2
        exact ⟨h5, by rw [show i + (n + 1) = i + 1 + n by omega]; exact h6, by rw [h7, hlen]⟩
      · next hrow =>
        have hc' : Cleared s (i + 1) := by
          intro j hj k' o' hr
          by_cases hji : j < i
          · exact hc j hji k' o' hr
          · have : j = i := by omega
            subst this
            exact hrow k' o' hr
        obtain ⟨h5, h6, h7⟩ := minusSelf_clear kc n (i + 1) hs hc' h
        exact ⟨h5, by rw [show i + (n + 1) = i + 1 + n by omega]; exact h6, h7⟩

end Dict
end Duck
