import Verif.Lemmas.Dictionary
/-! Properties C23, C24, C25. -/
namespace Duck
namespace Dict
open HTable
variable {K V : Type} {hash : K → Nat} {eqv : K → K → Bool} {cp : K → K}

/-- **C23**: after every history of set, add, replace, remove and remove-all, the dictionary has for each key the entry the
    policies give it (and no entry twice), every lookup returns that entry's object, and the count is the number of entries.
    A lookup fails only on the tables of C07. -/
theorem C23_policies_partial (kc : KeyClass hash eqv) (hcp : ∀ k, eqv (cp k) k = true) {h : List (Op K V)} {d : Dict K V}
    (hr : run hash eqv cp h = .ok d) :
    (∀ q, entry eqv d q = held eqv cp h q) ∧
    (∀ e, e ∈ entries d.rows ↔ held eqv cp h e.1 = some e) ∧
    (entries d.rows).Pairwise (fun a b => eqv a.1 b.1 = false) ∧
    getCount d = (entries d.rows).length ∧
    (∀ q, getObject hash eqv d q = .ok ((held eqv cp h q).bind (·.2)) ∨ (d.rows.length = 25 ∧ occupied d = 11) ∨ 1675364863 ≤ d.rows.length) := by
  obtain ⟨hi, he⟩ := run_entry kc hcp hr
  refine ⟨he, fun e => by rw [mem_entry kc hi, he], hi.pairwise, hi.count, fun q => ?_⟩
  have hg := HTable.get_ok kc hi q
  cases hget : HTable.get hash eqv d q with
  | error e =>
      rw [hget] at hg
      rcases hg with ⟨_, h1, h2⟩ | ⟨_, h1⟩
      · exact Or.inr (Or.inl ⟨h1, h2⟩)
      · exact Or.inr (Or.inr h1)
  | ok r =>
      left
      unfold getObject
      rw [hget, get_entry kc hi hget, he]
      cases held eqv cp h q <;> rfl

/-- **C23**: a key is reported contained exactly when it has an entry with an object that is not NULL. -/
theorem C23_contains_key (kc : KeyClass hash eqv) (hcp : ∀ k, eqv (cp k) k = true) {h : List (Op K V)} {d : Dict K V}
    (hr : run hash eqv cp h = .ok d) {q : K} {b : Bool} (hb : containsKey hash eqv d q = .ok b) :
    b = true ↔ ∃ k v, held eqv cp h q = some (k, some v) := by
  obtain ⟨hi, he⟩ := run_entry kc hcp hr
  obtain ⟨o, h1, h2⟩ := mapOk hb
  obtain ⟨r, h3, h4⟩ := mapOk h1
  rw [get_entry kc hi h3, he] at h4
  rw [← h2, ← h4]
  cases held eqv cp h q with
  | none => simp
  | some e =>
      obtain ⟨k, v⟩ := e
      cases v <;> simp

/-- **C24**: the subset test, on a dictionary without NULL objects: every entry of the first has an equal one in the second. -/
theorem C24_subset_partial (kc : KeyClass hash eqv) (hcp : ∀ k, eqv (cp k) k = true) (veq : V → V → Bool) {ha hb : List (Op K V)} {a b : Dict K V}
    (hra : run hash eqv cp ha = .ok a) (hrb : run hash eqv cp hb = .ok b) (hn : NoNull a) {r : Bool} (hr : isSubset hash eqv veq a b = .ok r) :
    r = true ↔ ∀ q e, held eqv cp ha q = some e → agree veq (some e) (held eqv cp hb q) := by
  obtain ⟨hia, hea⟩ := run_entry kc hcp hra
  obtain ⟨hib, heb⟩ := run_entry kc hcp hrb
  obtain ⟨f, h1, h2⟩ := mapOk hr
  obtain ⟨h3, h4⟩ := foreach_ok h1
  subst h2
  have hcong : ∀ {x y : K}, eqv x y = true → entry eqv b x = entry eqv b y := by
    intro x y hxy
    unfold entry
    congr 1
    funext e
    rw [kc_comm kc e.1 x, kc_congr kc hxy, kc_comm kc]
  cases f with
  | false =>
      simp only [Bool.not_false, true_iff]
      intro q e hq
      rw [← hea] at hq
      obtain ⟨h5, h6⟩ := (entry_some kc hia).mp hq
      obtain ⟨o, h7, h8⟩ := mapOk (h4 rfl e h5)
      obtain ⟨o', h9, h10⟩ := mapOk h7
      rw [get_entry kc hib h9, hcong h6, heb] at h10
      cases hh : held eqv cp hb q with
      | none =>
          rw [hh] at h10
          cases h10
          cases hv : e.2 with
          | none => exact absurd hv (hn e h5)
          | some v => rw [hv] at h8; cases h8
      | some e' =>
          rw [hh] at h10
          cases h10
          show eqObj veq e.2 e'.2 = true
          simpa using h8
  | true =>
      simp only [Bool.not_true, Bool.false_eq_true, false_iff]
      intro hag
      obtain ⟨e, he, h5⟩ := h3 rfl
      obtain ⟨o, h6, h7⟩ := mapOk h5
      obtain ⟨o', h8, h9⟩ := mapOk h6
      have h11 := hag e.1 e (by rw [← hea]; exact (mem_entry kc hia e).mp he)
      rw [get_entry kc hib h8, heb] at h9
      cases hh : held eqv cp hb e.1 with
      | none => rw [hh] at h11; exact h11
      | some e' =>
          rw [hh] at h9 h11
          cases h9
          have h12 : eqObj veq e.2 e'.2 = true := h11
          simp [h12] at h7

/-- **C23**: merging another dictionary applies the policy to each of its entries, once. -/
theorem C23_merge (kc : KeyClass hash eqv) (hcp : ∀ k, eqv (cp k) k = true) {h h' : List (Op K V)} {d src r : Dict K V}
    (hd : run hash eqv cp h = .ok d) (hs : run hash eqv cp h' = .ok src) (p : Policy) (hr : insertEntries hash eqv cp d src p = .ok r) (q : K) :
    entry eqv r q = match held eqv cp h' q with
      | none => held eqv cp h q
      | some e => put cp p e.1 e.2 (held eqv cp h q) := by
  obtain ⟨hi, he⟩ := run_entry kc hcp hd
  obtain ⟨hi', he'⟩ := run_entry kc hcp hs
  obtain ⟨_, h2⟩ := merge_entry kc hcp p _ hi'.pairwise hi hr
  rw [h2, ← he', ← he]
  rfl

/-- **C23**: a copy has the same entries, under copies of the keys. -/
theorem C23_copy (kc : KeyClass hash eqv) (hcp : ∀ k, eqv (cp k) k = true) {h : List (Op K V)} {src r : Dict K V}
    (hs : run hash eqv cp h = .ok src) (hr : copy hash eqv cp src = .ok r) (q : K) :
    entry eqv r q = (held eqv cp h q).map fun e => (cp e.1, e.2) := by
  have := C23_merge kc hcp (h := []) rfl hs .always hr q
  rw [this]
  cases held eqv cp h q <;> rfl

/-- Keys: numbers, hashed by themselves. -/
theorem nat_keys : KeyClass (id : Nat → Nat) (fun a b => a == b) := ⟨by simp, by simp, by simp, by simp⟩

example : ∃ d, run id (fun a b => a == b) id [.replace 3 (some 9), .replace 1 (some 8), .add 1 (some 7), .add 2 none, .set 1 (some 5)] = .ok d ∧
    entry (fun a b => a == b) d 1 = some (1, some 8) ∧ entry (fun a b => a == b) d 3 = none ∧ getCount d = 2 := ⟨_, rfl, rfl, rfl, rfl⟩

/-! ### Equality -/

theorem equal_iff (kc : KeyClass hash eqv) (veq : V → V → Bool) {a b : Dict K V} (ha : Inv hash eqv a) (hb : Inv hash eqv b)
    (hn : NoNull a) {r : Bool} (hr : equal hash eqv veq a b = .ok r) : r = true ↔ ∀ q, agree veq (entry eqv a q) (entry eqv b q) := by
  have hca := ha.count
  have hcb := hb.count
  have hcong : ∀ {t : Dict K V}, Inv hash eqv t → ∀ {x y : K}, eqv x y = true → entry eqv t x = entry eqv t y := by
    intro t _ x y hxy
    unfold entry
    congr 1
    funext e
    rw [kc_comm kc e.1 x, kc_congr kc hxy, kc_comm kc]
  unfold equal getCount at hr
  by_cases hc : a.activeCount = b.activeCount
  · rw [if_pos hc] at hr
    obtain ⟨f, h1, h2⟩ := mapOk hr
    obtain ⟨h3, h4⟩ := foreach_ok h1
    have hlen : (entries b.rows).length ≤ (entries a.rows).length := by omega
    subst h2
    cases f with
    | false =>
        simp only [Bool.not_false, true_iff]
        have hall : ∀ e ∈ entries a.rows, ∃ e', entry eqv b e.1 = some e' ∧ eqObj veq e.2 e'.2 = true := by
          intro e he
          obtain ⟨o, h5, h6⟩ := mapOk (h4 rfl e he)
          obtain ⟨o', h7, h8⟩ := mapOk h5
          have := get_entry kc hb h7
          have hne := hn e he
          cases hent : entry eqv b e.1 with
          | none =>
              rw [hent] at this
              rw [this] at h8
              cases h8
              cases hv : e.2 with
              | none => exact absurd hv hne
              | some v => rw [hv] at h6; cases h6
          | some e' =>
              rw [hent] at this
              rw [this] at h8
              refine ⟨e', rfl, ?_⟩
              cases h8
              simpa using h6
        have hsurj := surj_of_inj kc ha.pairwise hlen (m' := entries b.rows) (fun e he => by
          obtain ⟨e', h5, _⟩ := hall e he
          obtain ⟨h6, h7⟩ := (entry_some kc hb).mp h5
          exact ⟨e', h6, kc.symm _ _ h7⟩)
        intro q
        cases hqa : entry eqv a q with
        | some e =>
            obtain ⟨h5, h6⟩ := (entry_some kc ha).mp hqa
            obtain ⟨e', h7, h8⟩ := hall e h5
            rw [hcong hb h6] at h7
            rw [h7]
            exact h8
        | none =>
            cases hqb : entry eqv b q with
            | none => trivial
            | some e' =>
                obtain ⟨h5, h6⟩ := (entry_some kc hb).mp hqb
                obtain ⟨e, h7, h8⟩ := hsurj e' h5
                have := (entry_some kc ha (q := q)).mpr ⟨h7, kc.trans _ _ _ (kc.symm _ _ h8) h6⟩
                rw [hqa] at this; cases this
    | true =>
        simp only [Bool.not_true, Bool.false_eq_true, false_iff]
        intro hag
        obtain ⟨e, he, h5⟩ := h3 rfl
        obtain ⟨o, h6, h7⟩ := mapOk h5
        obtain ⟨o', h8, h9⟩ := mapOk h6
        have h10 := get_entry kc hb h8
        have h11 := hag e.1
        rw [(mem_entry kc ha e).mp he] at h11
        cases hent : entry eqv b e.1 with
        | none => rw [hent] at h11; exact h11
        | some e' =>
            rw [hent] at h10 h11
            rw [h10] at h9
            cases h9
            have h12 : eqObj veq e.2 e'.2 = true := h11
            simp [h12] at h7
  · rw [if_neg hc] at hr
    cases hr
    simp only [Bool.false_eq_true, false_iff]
    intro hag
    apply hc
    have hle : ∀ {x y : Dict K V}, Inv hash eqv x → Inv hash eqv y → (∀ q, entry eqv x q ≠ none → entry eqv y q ≠ none) →
        (entries x.rows).length ≤ (entries y.rows).length := by
      intro x y hx hy hxy
      refine length_le_of_inj kc hx.pairwise fun e he => ?_
      have := hxy e.1 (by rw [(mem_entry kc hx e).mp he]; simp)
      cases hent : entry eqv y e.1 with
      | none => exact absurd hent this
      | some e' =>
          obtain ⟨h6, h7⟩ := (entry_some kc hy).mp hent
          exact ⟨e', h6, kc.symm _ _ h7⟩
    have h1 := hle ha hb (fun q hq hq' => by
      have := hag q
      rw [hq'] at this
      cases hx : entry eqv a q with
      | none => exact hq hx
      | some e => rw [hx] at this; exact this)
    have h2 := hle hb ha (fun q hq hq' => by
      have := hag q
      rw [hq'] at this
      cases hx : entry eqv b q with
      | none => exact hq hx
      | some e => rw [hx] at this; exact this)
    omega

/-- **C24 (partial)**: for a dictionary without NULL objects, comparing it with any dictionary answers whether they have the same
    keys with equal objects.  Missing: dictionaries with NULL objects, where it is false (`C24_null_fails`). -/
theorem C24_equal_partial (kc : KeyClass hash eqv) (hcp : ∀ k, eqv (cp k) k = true) (veq : V → V → Bool) {ha hb : List (Op K V)} {a b : Dict K V}
    (hra : run hash eqv cp ha = .ok a) (hrb : run hash eqv cp hb = .ok b) (hn : NoNull a) {r : Bool} (hr : equal hash eqv veq a b = .ok r) :
    r = true ↔ ∀ q, agree veq (held eqv cp ha q) (held eqv cp hb q) := by
  obtain ⟨hia, hea⟩ := run_entry kc hcp hra
  obtain ⟨hib, heb⟩ := run_entry kc hcp hrb
  rw [equal_iff kc veq hia hib hn hr]
  exact forall_congr' fun q => by rw [hea, heb]

/-- **C24 (partial)**: on dictionaries without NULL objects, equality is an equivalence relation. -/
theorem C24_equivalence_partial (kc : KeyClass hash eqv) (hcp : ∀ k, eqv (cp k) k = true) {veq : V → V → Bool} (hv : Equivalence veq)
    {ha hb hc : List (Op K V)} {a b c : Dict K V} (hra : run hash eqv cp ha = .ok a) (hrb : run hash eqv cp hb = .ok b)
    (hrc : run hash eqv cp hc = .ok c) (hna : NoNull a) (hnb : NoNull b) :
    (∀ r, equal hash eqv veq a a = .ok r → r = true) ∧
    (∀ r, equal hash eqv veq a b = .ok true → equal hash eqv veq b a = .ok r → r = true) ∧
    (∀ r, equal hash eqv veq a b = .ok true → equal hash eqv veq b c = .ok true → equal hash eqv veq a c = .ok r → r = true) := by
  have hrefl : ∀ o : Option V, eqObj veq o o = true := fun o => by cases o <;> simp [eqObj, hv.refl]
  have hsymm : ∀ o o' : Option V, eqObj veq o o' = true → eqObj veq o' o = true := fun o o' h => by
    cases o <;> cases o' <;> simp_all [eqObj]
    exact hv.symm _ _ h
  have htrans : ∀ o o' o'' : Option V, eqObj veq o o' = true → eqObj veq o' o'' = true → eqObj veq o o'' = true := fun o o' o'' h h' => by
    cases o <;> cases o' <;> cases o'' <;> simp_all [eqObj]
    exact hv.trans _ _ _ h h'
  refine ⟨fun r hr => ?_, fun r h1 hr => ?_, fun r h1 h2 hr => ?_⟩
  · rw [C24_equal_partial kc hcp veq hra hra hna hr]
    intro q
    cases held eqv cp ha q with
    | none => trivial
    | some e => exact hrefl _
  · rw [C24_equal_partial kc hcp veq hrb hra hnb hr]
    intro q
    have := (C24_equal_partial kc hcp veq hra hrb hna h1).mp rfl q
    cases hx : held eqv cp ha q <;> cases hy : held eqv cp hb q <;> rw [hx, hy] at this
    · trivial
    · exact this
    · exact this
    · exact hsymm _ _ this
  · rw [C24_equal_partial kc hcp veq hra hrc hna hr]
    intro q
    have t1 := (C24_equal_partial kc hcp veq hra hrb hna h1).mp rfl q
    have t2 := (C24_equal_partial kc hcp veq hrb hrc hnb h2).mp rfl q
    cases hx : held eqv cp ha q <;> cases hy : held eqv cp hb q <;> cases hz : held eqv cp hc q <;> rw [hx, hy] at t1 <;> rw [hy, hz] at t2
    · trivial
    · exact t2
    · exact t1.elim
    · exact t1.elim
    · exact t1.elim
    · exact t1.elim
    · exact t2
    · exact htrans _ _ _ t1 t2

/-- **C24 (violated)**: with NULL objects, dictionaries with different keys compare equal, and the comparison is not symmetric. -/
theorem C24_null_fails :
    (∃ a b : Dict Nat Nat, run id (fun a b => a == b) id [.set 1 none] = .ok a ∧ run id (fun a b => a == b) id [.set 2 none] = .ok b ∧
      equal id (fun a b => a == b) (fun a b => a == b) a b = .ok true ∧ entry (fun a b => a == b) a 1 ≠ none ∧ entry (fun a b => a == b) b 1 = none) ∧
    (∃ a b : Dict Nat Nat, run id (fun a b => a == b) id [.set 1 none, .set 2 (some 7)] = .ok a ∧
      run id (fun a b => a == b) id [.set 2 (some 7), .set 3 (some 8)] = .ok b ∧
      equal id (fun a b => a == b) (fun a b => a == b) a b = .ok true ∧ equal id (fun a b => a == b) (fun a b => a == b) b a = .ok false) :=
  ⟨⟨_, _, rfl, rfl, rfl, by decide, rfl⟩, ⟨_, _, rfl, rfl, rfl, rfl⟩⟩

/-- **C24**: and `containsKey` denies a key whose object is NULL. -/
theorem C24_contains_key_fails : ∃ a : Dict Nat Nat, run id (fun a b => a == b) id [.set 1 none] = .ok a ∧
    entry (fun a b => a == b) a 1 = some (1, none) ∧ getCount a = 1 ∧ containsKey id (fun a b => a == b) a 1 = .ok false :=
  ⟨_, rfl, rfl, rfl, rfl⟩

example : ∃ a b : Dict Nat Nat, run id (fun a b => a == b) id [.set 1 (some 5), .set 2 (some 7)] = .ok a ∧
    run id (fun a b => a == b) id [.set 2 (some 7), .set 1 (some 4), .set 1 (some 5), .remove 1, .set 1 (some 6)] = .ok b ∧ NoNull a ∧
    equal id (fun a b => a == b) (fun a b => a == b) a b = .ok false := ⟨_, _, rfl, rfl, by unfold NoNull; decide, rfl⟩

/-! ### Sets -/

/-- **C25**: membership in the sets a program can build: initial members, and the effect of add, remove and remove-all. -/
theorem C25_membership (kc : KeyClass hash eqv) {s t : HSet K} (hs : IsSet eqv hash s) :
    (∀ x b, setContains hash eqv s x = .ok b → (b = true ↔ In eqv s x)) ∧
    (∀ x r, setMember hash eqv s x = .ok (some r) → r ∈ members s ∧ eqv r x = true) ∧
    (∀ xs, setInit hash eqv xs = .ok t → ∀ q, In eqv t q ↔ ∃ x ∈ xs, eqv x q = true) ∧
    (∀ x, setAdd hash eqv s x = .ok t → ∀ q, In eqv t q ↔ In eqv s q ∨ eqv x q = true) ∧
    (∀ x, setRemove hash eqv s x = .ok t → ∀ q, In eqv t q ↔ In eqv s q ∧ ¬ eqv x q = true) ∧
    (∀ q, ¬ In eqv (HTable.removeAll s) q) := by
  have inv := isSet_inv kc hs
  refine ⟨fun x b h => contains_ok kc inv h, fun x r h => ?_, fun xs h q => ?_, fun x h q => (setInsert_inv kc (by simp) inv h).2 q,
    fun x h q => by rw [(setRemove_inv kc inv h).2 q]; simp, fun q => ?_⟩
  · have := get_entry kc inv.inv h
    cases he : entry eqv s x with
    | none => rw [he] at this; cases this
    | some e =>
        rw [he] at this
        cases this
        obtain ⟨h1, h2⟩ := (entry_some kc inv.inv).mp he
        exact ⟨List.mem_map.mpr ⟨e, h1, rfl⟩, kc.trans _ _ _ (kc.symm _ _ (inv.own e h1)) h2⟩
  · rw [(setInit_inv kc emptySet_inv h).2 q]
    constructor
    · rintro (⟨y, hy, _⟩ | h)
      · cases hy
      · exact h
    · exact Or.inr
  · rintro ⟨y, hy, _⟩
    unfold members at hy
    rw [(HTable.removeAll_ok inv.inv).2] at hy
    cases hy

/-- **C25**: union. -/
theorem C25_union (kc : KeyClass hash eqv) {s t r : HSet K} (hs : IsSet eqv hash s) (h : setUnion hash eqv s t = .ok r) :
    IsSet eqv hash r ∧ ∀ q, In eqv r q ↔ In eqv s q ∨ In eqv t q := union_inv kc hs h

/-- **C25**: difference. -/
theorem C25_minus (kc : KeyClass hash eqv) {s t r : HSet K} (hs : IsSet eqv hash s) (h : setMinus hash eqv s t = .ok r) :
    IsSet eqv hash r ∧ ∀ q, In eqv r q ↔ In eqv s q ∧ ¬ In eqv t q := minus_inv kc hs h

/-- **C25**: union and difference of a set with itself, made while the set is being iterated. -/
theorem C25_self (kc : KeyClass hash eqv) {s r : HSet K} (hs : IsSet eqv hash s) :
    (setUnionSelf hash eqv s = .ok r → r = s) ∧ (setMinusSelf hash eqv s = .ok r → members r = []) := by
  have inv := isSet_inv kc hs
  refine ⟨fun h => unionSelf_same kc _ _ inv h, fun h => ?_⟩
  obtain ⟨h1, h2, h3⟩ := minusSelf_clear kc _ _ inv (fun j hj => absurd hj (by omega)) h
  unfold members
  rw [List.map_eq_nil_iff, List.eq_nil_iff_forall_not_mem]
  intro e he
  obtain ⟨x, hx⟩ := HTable.mem_entries.mp he
  have hlt : x < r.rows.length := (List.getElem?_eq_some_iff.mp hx).1
  exact h2 x (by omega) e.1 e.2 hx

/-- **C25**: subset. -/
theorem C25_subset (kc : KeyClass hash eqv) {s t : HSet K} (hs : IsSet eqv hash s) (ht : IsSet eqv hash t) {b : Bool}
    (h : setIsSubset hash eqv s t = .ok b) : b = true ↔ ∀ q, In eqv s q → In eqv t q := by
  have invt := isSet_inv kc ht
  obtain ⟨f, h1, h2⟩ := mapOk h
  obtain ⟨h3, h4⟩ := foreach_ok h1
  subst h2
  cases f with
  | false =>
      simp only [Bool.not_false, true_iff]
      rintro q ⟨y, hy, hyq⟩
      obtain ⟨c, h5, h6⟩ := mapOk (h4 rfl y hy)
      have h7 := contains_ok kc invt h5
      have : c = true := by cases c; cases h6; rfl
      obtain ⟨z, hz, hzy⟩ := h7.mp this
      exact ⟨z, hz, kc.trans _ _ _ hzy hyq⟩
  | true =>
      simp only [Bool.not_true, Bool.false_eq_true, false_iff]
      intro hsub
      obtain ⟨y, hy, h5⟩ := h3 rfl
      obtain ⟨c, h6, h7⟩ := mapOk h5
      have h8 := contains_ok kc invt h6
      have : c = true := h8.mpr (hsub y ⟨y, hy, kc.refl y⟩)
      rw [this] at h7; cases h7

/-- **C25**: equality. -/
theorem C25_equal (kc : KeyClass hash eqv) {s t : HSet K} (hs : IsSet eqv hash s) (ht : IsSet eqv hash t) {b : Bool}
    (h : setEqual hash eqv s t = .ok b) : b = true ↔ ∀ q, In eqv s q ↔ In eqv t q := by
  have invs := isSet_inv kc hs
  have invt := isSet_inv kc ht
  have hcs := invs.inv.count
  have hct := invt.inv.count
  have match_of : ∀ {x y : HSet K}, SetInv hash eqv x → SetInv hash eqv y → (∀ q, In eqv x q → In eqv y q) →
      ∀ e ∈ entries x.rows, ∃ e' ∈ entries y.rows, eqv e.1 e'.1 = true := by
    intro x y hx hy hxy e he
    have := (in_iff kc hy e.1).mp (hxy e.1 ((in_iff kc hx e.1).mpr (by rw [(mem_entry kc hx.inv e).mp he]; simp)))
    cases hent : entry eqv y e.1 with
    | none => exact absurd hent this
    | some e' =>
        obtain ⟨h1, h2⟩ := (entry_some kc hy.inv).mp hent
        exact ⟨e', h1, kc.symm _ _ h2⟩
  unfold setEqual at h
  split at h
  · next hc =>
    rw [C25_subset kc hs ht h]
    refine ⟨fun hsub q => ⟨hsub q, fun hq => ?_⟩, fun hall q => (hall q).mp⟩
    have hsurj := surj_of_inj kc invs.inv.pairwise (by omega) (match_of invs invt hsub)
    rw [in_iff kc invt] at hq
    rw [in_iff kc invs]
    cases hent : entry eqv t q with
    | none => exact absurd hent hq
    | some e' =>
        obtain ⟨h1, h2⟩ := (entry_some kc invt.inv).mp hent
        obtain ⟨e, h3, h4⟩ := hsurj e' h1
        rw [(entry_some kc invs.inv (q := q)).mpr ⟨h3, kc.trans _ _ _ (kc.symm _ _ h4) h2⟩]
        simp
  · next hc =>
    cases h
    simp only [Bool.false_eq_true, false_iff]
    intro hall
    apply hc
    have h1 := length_le_of_inj kc invs.inv.pairwise (match_of invs invt fun q => (hall q).mp)
    have h2 := length_le_of_inj kc invt.inv.pairwise (match_of invt invs fun q => (hall q).mpr)
    omega

/-- **C25 (violated)**: intersection never changes the set. -/
theorem C25_intersect_is_noop (kc : KeyClass hash eqv) {s t r : HSet K} (hs : IsSet eqv hash s) (h : setIntersect hash eqv s t = .ok r) : r = s :=
  intersect_same kc t (isSet_inv kc hs) (fun _ h => h) h

/-- **C25 (violated)**: so `{1, 2}` intersected with `{2, 3}` still contains 1. -/
theorem C25_intersect_fails : ∃ s t r : HSet Nat, setInit id (fun a b => a == b) [1, 2] = .ok s ∧ setInit id (fun a b => a == b) [2, 3] = .ok t ∧
    setIntersect id (fun a b => a == b) s t = .ok r ∧ setContains id (fun a b => a == b) r 1 = .ok true ∧ setContains id (fun a b => a == b) t 1 = .ok false :=
  ⟨_, _, _, rfl, rfl, rfl, rfl, rfl⟩

/-- **C25 (violated)**: the intersects test answers exactly the opposite: true when the sets have nothing in common. -/
theorem C25_intersects_is_negated (kc : KeyClass hash eqv) {s t : HSet K} (ht : IsSet eqv hash t) {b : Bool}
    (h : setIntersects hash eqv s t = .ok b) : b = true ↔ ¬ ∃ q, In eqv s q ∧ In eqv t q := by
  have invt := isSet_inv kc ht
  obtain ⟨f, h1, h2⟩ := mapOk h
  obtain ⟨h3, h4⟩ := foreach_ok h1
  subst h2
  cases f with
  | false =>
      simp only [Bool.not_false, true_iff]
      rintro ⟨q, ⟨y, hy, hyq⟩, hq⟩
      have h5 := contains_ok kc invt (h4 rfl y hy)
      obtain ⟨z, hz, hzq⟩ := hq
      have := h5.mpr ⟨z, hz, kc.trans _ _ _ hzq (kc.symm _ _ hyq)⟩
      cases this
  | true =>
      simp only [Bool.not_true, Bool.false_eq_true, false_iff, not_not]
      obtain ⟨y, hy, h5⟩ := h3 rfl
      exact ⟨y, ⟨y, hy, kc.refl y⟩, (contains_ok kc invt h5).mp rfl⟩

example : ∃ s t r m : HSet Nat, setInit id (fun a b => a == b) [1, 2, 3, 2] = .ok s ∧ setInit id (fun a b => a == b) [2, 4, 13] = .ok t ∧
    setUnion id (fun a b => a == b) s t = .ok r ∧ r.activeCount = 5 ∧ setMinus id (fun a b => a == b) s t = .ok m ∧
    members m = [1, 3] ∧ setIsSubset id (fun a b => a == b) m s = .ok true ∧ setIsSubset id (fun a b => a == b) s m = .ok false ∧
    setEqual id (fun a b => a == b) s t = .ok false ∧ setIntersects id (fun a b => a == b) s t = .ok false :=
  ⟨_, _, _, _, rfl, rfl, rfl, rfl, rfl, rfl, rfl, rfl, rfl, rfl⟩

end Dict
end Duck
