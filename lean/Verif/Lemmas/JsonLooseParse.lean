import Verif.Lemmas.JsonLooseStr
/-! Lemmas for the converse half of C63: tokens and the parser, both ways. -/
namespace Duck
namespace Json
open Unicode Num

/-! ## Tokens -/

/-- What is known of a token of the text `t`. -/
inductive LTok (obj : Bool) (t : List UInt8) : Tok → Prop
  | none (c o) : LTok obj t ⟨[0], c, true, o⟩
  | str (w t' tok) : t = w ++ 0x22 :: t' → Blanks w → tok.str = 0x22 :: t' ++ [0] →
      (obj = true → ∃ s r, LStr t' s r ∧ r <:+ t' ∧ tok = ⟨0x22 :: t' ++ [0], r ++ [0], false, some (.str s)⟩) → LTok obj t tok
  | punct (w b t') : t = w ++ b :: t' → Blanks w → Punct b → LTok obj t ⟨b :: t' ++ [0], t' ++ [0], false, .none⟩
  | word (w b u r) : t = w ++ b :: (u ++ r) → Blanks w → b ≠ 0x22 → ¬ Punct b → Word (b :: u) → Stop r →
      LTok obj t ⟨b :: (u ++ r) ++ [0], r ++ [0], false, .none⟩

theorem token_sound (obj : Bool) {t : List UInt8} {tok : Tok} (hs : NulFree t) (h : scanToken H0 obj (t ++ [0]) = some tok) : LTok obj t tok := by
  rw [scanToken, tokenWith] at h
  obtain ⟨⟨o, m⟩, h1, h⟩ := Option.bind_eq_some_iff.mp h
  rcases skipSpace_sound _ hs h1 with ⟨rfl, rfl⟩ | ⟨w, b, t', r, e1, e2, e3, rfl, rfl, e6, hc⟩
  · cases h; exact .none _ _
  · obtain ⟨ch, n⟩ := r
    have h0 : b ≠ 0 := fun e => hs (by simp [e1, e])
    have hs' : NulFree t' := fun e => hs (by simp [e1, e])
    obtain ⟨c, u, s', e7, f2, f3, f4, f5⟩ := chunk h0 t'
    rw [f3] at e6
    simp only [Option.some.injEq, Prod.mk.injEq] at e6
    obtain ⟨rfl, rfl⟩ := e6
    simp only at h
    have ed : (b :: t' ++ [0]).drop (u.length + 1) = s' ++ [0] := by simp [e7]
    have hs2 : NulFree s' := fun e => hs' (by simp [e7, e])
    rw [ed] at h
    by_cases h34 : c = 34
    · rw [if_pos h34] at h
      have hbu : b = 0x22 ∧ u = [] := by
        by_cases hb : b.toNat < 128
        · obtain ⟨g1, g2⟩ := f4 hb
          refine ⟨UInt8.toNat_inj.mp ?_, g2⟩
          show b.toNat = 34; omega
        · rcases f5 (by omega) with h | h <;> omega
      obtain ⟨rfl, rfl⟩ := hbu
      rw [List.nil_append] at e7
      subst e7
      obtain ⟨⟨a, m⟩, h2, rfl⟩ := Option.map_eq_some_iff.mp h
      refine .str w t' _ e1 e2 rfl ?_
      rintro rfl
      obtain ⟨s, r, g1, rfl, g3, g4⟩ := scanString_sound _ hs' h2
      exact ⟨s, r, g3, g4, by simp [g1]⟩
    · rw [if_neg h34, if_neg (by simp [strict])] at h
      rw [List.cons_append, List.head?_cons, Option.bind_some] at h
      by_cases ht : isToken b = true
      · rw [if_pos ht] at h
        have hp := (isToken_iff h0).mp ht
        obtain ⟨-, rfl⟩ := f4 (punct_ascii hp).1
        rw [List.nil_append] at e7
        subst e7
        cases h
        exact .punct w b t' e1 e2 hp
      · rw [if_neg ht] at h
        have hp : ¬ Punct b := fun e => ht ((isToken_iff h0).mpr e)
        obtain ⟨m, h2, rfl⟩ := Option.map_eq_some_iff.mp h
        obtain ⟨u', r, g1, rfl, g3, g4⟩ := scanWord_sound _ hs2 h2
        subst g1
        have hw : Word (b :: u ++ u') := word_chunk ⟨e3, hp⟩ f2 h0 (s := r) (by rw [e7] at f3; simpa using f3) hc g3
        have e8 : b :: t' ++ [0] = b :: (u ++ u' ++ r) ++ [0] := by rw [e7]; simp
        have hb22 : b ≠ 0x22 := by
          rintro rfl; exact h34 (f4 (by decide)).1
        show LTok obj t ⟨b :: t' ++ [0], r ++ [0], false, .none⟩
        rw [e8]
        exact .word w b (u ++ u') r (by rw [e1, e7]; simp) e2 hb22 hp (by simpa using hw) g4

/-! ## The parser accepts only such texts -/

/-- What ParseObject's result says about the text. -/
def Says (t : List UInt8) (m : Mem) : Res → Prop
  | .ok v => ∃ rest, m = rest ++ [0] ∧ LVal t v rest ∧ rest <:+ t
  | .closeList => ∃ w rest, t = w ++ 0x5d :: rest ∧ Blanks w ∧ m = rest ++ [0]
  | .closeDict => ∃ w rest, t = w ++ 0x7d :: rest ∧ Blanks w ∧ m = rest ++ [0]
  | .error => True

theorem tok_punct {t : List UInt8} {tok : Tok} {obj : Bool} (h : LTok obj t tok) {c : UInt8} (hc : Punct c) (hh : tok.str.head? = some c) :
    ∃ w t', t = w ++ c :: t' ∧ Blanks w ∧ tok.cur = t' ++ [0] := by
  cases h with
  | none c o => cases hh; exact absurd (punct_ascii hc).2.1 (by simp)
  | str w t' tok e1 e2 e3 =>
    rw [e3] at hh; cases hh
    exact absurd (punct_ascii hc).2.2.2.1 (by decide)
  | punct w b t' e1 e2 e3 => cases hh; exact ⟨w, t', e1, e2, rfl⟩
  | word w b u r e1 e2 e3 e4 => cases hh; exact absurd hc e4

theorem suffix_of {t w t' : List UInt8} {c : UInt8} (h : t = w ++ c :: t') : t' <:+ t := ⟨w ++ [c], by rw [h]; simp⟩

theorem nulfree_suffix {s t : List UInt8} (h : NulFree s) (ht : t <:+ s) : NulFree t := fun e => h (ht.subset e)

theorem object_sound {fuel : Nat} (hL : ∀ {t acc v m}, NulFree t → parseList H0 fuel (t ++ [0]) acc = some (.ok v, m) →
      ∃ l rest, v = .list (acc ++ l) ∧ m = rest ++ [0] ∧ LElems t l rest ∧ rest <:+ t)
    (hL2 : ∀ {t acc r m}, parseList H0 fuel t acc = some (r, m) → (∃ v, r = .ok v) ∨ r = .error)
    (hD : ∀ {t acc v m}, NulFree t → (acc.map (·.1)).Nodup → parseDict H0 fuel (t ++ [0]) acc = some (.ok v, m) →
      ∃ l rest, v = .dict (l.foldl assign acc) ∧ m = rest ++ [0] ∧ LMembers t l rest ∧ rest <:+ t)
    (hD2 : ∀ {t acc r m}, parseDict H0 fuel t acc = some (r, m) → (∃ v, r = .ok v) ∨ r = .error)
    {t : List UInt8} {r m} (hs : NulFree t) (h : parseObject H0 (fuel + 1) (t ++ [0]) = some (r, m)) : Says t m r := by
  rw [parseObject] at h
  obtain ⟨tok, h1, h⟩ := Option.bind_eq_some_iff.mp h
  cases token_sound true hs h1 with
  | none c o => simp at h; rw [← h.1]; trivial
  | str w t' tok e1 e2 e3 e4 =>
    obtain ⟨s, r, g1, g2, rfl⟩ := e4 rfl
    simp at h
    rw [← h.1, ← h.2]
    exact ⟨r, rfl, by rw [e1]; exact .str w t' s r e2 g1, g2.trans (suffix_of e1)⟩
  | punct w b t' e1 e2 e3 =>
    simp only [Bool.false_eq_true, if_false, List.cons_append, List.head?_cons, Option.bind_some] at h
    have hs' : NulFree t' := nulfree_suffix hs (suffix_of e1)
    split at h
    · next hb =>
      subst hb
      rcases hL2 h with ⟨v, rfl⟩ | rfl
      · obtain ⟨l, rest, rfl, g2, g3, g4⟩ := hL hs' h
        exact ⟨rest, g2, by rw [e1]; exact .list w t' l rest e2 g3, g4.trans (suffix_of e1)⟩
      · trivial
    · split at h
      · next hb =>
        subst hb; cases h
        exact ⟨w, t', e1, e2, rfl⟩
      · split at h
        · next hb =>
          subst hb
          rcases hD2 h with ⟨v, rfl⟩ | rfl
          · obtain ⟨l, rest, rfl, g2, g3, g4⟩ := hD hs' (by simp) h
            exact ⟨rest, g2, by rw [e1]; exact .dict w t' l rest e2 g3, g4.trans (suffix_of e1)⟩
          · trivial
        · split at h
          · next hb =>
            subst hb; cases h
            exact ⟨w, t', e1, e2, rfl⟩
          · next n1 n2 n3 n4 =>
            have hb : b = 0x2c ∨ b = 0x3a := by
              unfold Punct at e3
              simp only [List.mem_cons, List.not_mem_nil, or_false] at e3
              rcases e3 with h | h | h | h | h | h
              · exact Or.inl h
              · exact Or.inr h
              · exact absurd h n1
              · exact absurd h n2
              · exact absurd h n3
              · exact absurd h n4
            rcases hb with rfl | rfl
            · rw [if_neg (by decide)] at h
              have : parseWord (0x2c :: (t' ++ [0])) = some .error := rfl
              rw [this] at h; cases h; trivial
            · rw [if_neg (by decide)] at h
              have : parseWord (0x3a :: (t' ++ [0])) = some .error := rfl
              rw [this] at h; cases h; trivial
  | word w b u r' e1 e2 e3 e4 e5 e6 =>
    simp only [Bool.false_eq_true, if_false, List.cons_append, List.head?_cons, Option.bind_some] at h
    have np : ∀ {c}, Punct c → b ≠ c := fun hc e => e4 (e ▸ hc)
    have hsuf : r' <:+ t := ⟨w ++ b :: u, by rw [e1]; simp⟩
    have et : w ++ b :: (u ++ r') = w ++ (b :: u) ++ r' := by simp
    rw [if_neg (np (by simp [Punct])), if_neg (np (by simp [Punct])), if_neg (np (by simp [Punct])), if_neg (np (by simp [Punct]))] at h
    split at h
    · next hb =>
      obtain ⟨neg, ds, frac, exp, z, g1, g2, g3, g4, g5, g6⟩ := numeral_span (t := u ++ r') hb
      have hb' : ∀ x ∈ numeral neg false ds frac exp, ¬ Blank x ∧ ¬ Punct x := fun x hx =>
        wordByte_plain (numeral_word g3 g4 g5 x hx)
      obtain ⟨u', i1, rfl⟩ := prefix_word (u := b :: u) (r := r') g1 hb' e6
      have hst := strtonum_loose g2 g3 g4 g5 g6
      rw [← g1, List.cons_append] at hst
      rw [hst] at h
      cases h
      refine ⟨r', rfl, ?_, hsuf⟩
      rw [e1, et]
      refine .word w _ _ r' e2 ?_ e5 e6
      rw [i1]
      refine .num neg ds frac exp u' g2 g3 g4 g5 ?_
      intro x hx
      exact g6 x (by cases u' with | nil => cases hx | cons y u' => exact hx)
    · obtain ⟨res, h2, h3⟩ := Option.map_eq_some_iff.mp h
      cases h3
      cases r with
      | error => trivial
      | closeList =>
        exfalso
        rw [parseWord] at h2
        obtain ⟨a1, -, h2⟩ := Option.bind_eq_some_iff.mp h2
        split at h2
        · cases h2
        · obtain ⟨a2, -, h2⟩ := Option.bind_eq_some_iff.mp h2
          split at h2
          · cases h2
          · obtain ⟨a3, -, h2⟩ := Option.bind_eq_some_iff.mp h2
            split at h2 <;> cases h2
      | closeDict =>
        exfalso
        rw [parseWord] at h2
        obtain ⟨a1, -, h2⟩ := Option.bind_eq_some_iff.mp h2
        split at h2
        · cases h2
        · obtain ⟨a2, -, h2⟩ := Option.bind_eq_some_iff.mp h2
          split at h2
          · cases h2
          · obtain ⟨a3, -, h2⟩ := Option.bind_eq_some_iff.mp h2
            split at h2 <;> cases h2
      | ok v =>
        refine ⟨r', rfl, ?_, hsuf⟩
        rw [e1, et]
        refine .word w _ _ r' e2 ?_ e5 e6
        have hp : ∀ p : List UInt8, (∀ x ∈ p, ¬ Blank x ∧ ¬ Punct x) → p <+: b :: (u ++ r') → ∃ u', b :: u = p ++ u' := by
          rintro p hp ⟨z, hz⟩
          obtain ⟨u', i1, -⟩ := prefix_word (u := b :: u) (r := r') hz.symm hp e6
          exact ⟨u', i1⟩
        rcases parseWord_sound (t := b :: (u ++ r')) h2 with ⟨rfl, i⟩ | ⟨rfl, i⟩ | ⟨rfl, i⟩
        · obtain ⟨u', i⟩ := hp _ (by unfold Blank Punct; decide) i
          rw [i]; exact .true u'
        · obtain ⟨u', i⟩ := hp _ (by unfold Blank Punct; decide) i
          rw [i]; exact .false u'
        · obtain ⟨u', i⟩ := hp _ (by unfold Blank Punct; decide) i
          rw [i]; exact .null u'

theorem list_results : ∀ (fuel : Nat) {t acc r m}, parseList H0 fuel t acc = some (r, m) → (∃ v, r = .ok v) ∨ r = .error := by
  intro fuel
  induction fuel with
  | zero => intro t acc r m h; rw [parseList] at h; cases h
  | succ fuel ih =>
    intro t acc r m h
    rw [parseList] at h
    obtain ⟨⟨r1, m1⟩, -, h⟩ := Option.bind_eq_some_iff.mp h
    cases r1 with
    | closeList => cases h; exact Or.inl ⟨_, rfl⟩
    | closeDict => cases h; exact Or.inr rfl
    | error => cases h; exact Or.inr rfl
    | ok v =>
      obtain ⟨tok, -, h⟩ := Option.bind_eq_some_iff.mp h
      obtain ⟨c, -, h⟩ := Option.bind_eq_some_iff.mp h
      split at h
      · cases h; exact Or.inl ⟨_, rfl⟩
      · split at h
        · exact ih h
        · cases h; exact Or.inr rfl

theorem dict_results : ∀ (fuel : Nat) {t acc r m}, parseDict H0 fuel t acc = some (r, m) → (∃ v, r = .ok v) ∨ r = .error := by
  intro fuel
  induction fuel with
  | zero => intro t acc r m h; rw [parseDict] at h; cases h
  | succ fuel ih =>
    intro t acc r m h
    rw [parseDict] at h
    obtain ⟨⟨r1, m1⟩, -, h⟩ := Option.bind_eq_some_iff.mp h
    cases r1 with
    | closeList => cases h; exact Or.inr rfl
    | closeDict => cases h; exact Or.inl ⟨_, rfl⟩
    | error => cases h; exact Or.inr rfl
    | ok v =>
      cases v with
      | str k =>
        obtain ⟨tok, -, h⟩ := Option.bind_eq_some_iff.mp h
        obtain ⟨c, -, h⟩ := Option.bind_eq_some_iff.mp h
        split at h
        · obtain ⟨⟨r2, m2⟩, -, h⟩ := Option.bind_eq_some_iff.mp h
          cases r2 with
          | ok v =>
            obtain ⟨tok, -, h⟩ := Option.bind_eq_some_iff.mp h
            obtain ⟨c, -, h⟩ := Option.bind_eq_some_iff.mp h
            split at h
            · cases h; exact Or.inl ⟨_, rfl⟩
            · split at h
              · exact ih h
              · cases h; exact Or.inr rfl
          | _ => cases h; exact Or.inr rfl
        · cases h; exact Or.inr rfl
      | _ => cases h; exact Or.inr rfl

theorem parse_sound : ∀ (fuel : Nat),
    (∀ {t r m}, NulFree t → parseObject H0 fuel (t ++ [0]) = some (r, m) → Says t m r) ∧
    (∀ {t acc v m}, NulFree t → parseList H0 fuel (t ++ [0]) acc = some (.ok v, m) →
      ∃ l rest, v = .list (acc ++ l) ∧ m = rest ++ [0] ∧ LElems t l rest ∧ rest <:+ t) ∧
    (∀ {t acc v m}, NulFree t → (acc.map (·.1)).Nodup → parseDict H0 fuel (t ++ [0]) acc = some (.ok v, m) →
      ∃ l rest, v = .dict (l.foldl assign acc) ∧ m = rest ++ [0] ∧ LMembers t l rest ∧ rest <:+ t) := by
  intro fuel
  induction fuel with
  | zero =>
    refine ⟨?_, ?_, ?_⟩
    · intro t r m _ h; rw [parseObject] at h; cases h
    · intro t acc v m _ h; rw [parseList] at h; cases h
    · intro t acc v m _ _ h; rw [parseDict] at h; cases h
  | succ fuel ih =>
    obtain ⟨iO, iL, iD⟩ := ih
    refine ⟨fun hs h => object_sound iL (list_results fuel) iD (dict_results fuel) hs h, ?_, ?_⟩
    · intro t acc v m hs h
      rw [parseList] at h
      obtain ⟨⟨r1, m1⟩, h1, h⟩ := Option.bind_eq_some_iff.mp h
      have hO := iO hs h1
      cases r1 with
      | closeList =>
        cases h
        obtain ⟨w, rest, e1, e2, e3⟩ := hO
        exact ⟨[], rest, by simp, e3, by rw [e1]; exact .nil w rest e2, suffix_of e1⟩
      | closeDict => cases h
      | error => cases h
      | ok x =>
        obtain ⟨rest, rfl, e2, e3⟩ := hO
        obtain ⟨tok, h2, h⟩ := Option.bind_eq_some_iff.mp h
        obtain ⟨c, hc, h⟩ := Option.bind_eq_some_iff.mp h
        have hr := nulfree_suffix hs e3
        have htok := token_sound false hr h2
        split at h
        · next hcc =>
          subst hcc
          obtain ⟨w, t', f1, f2, f3⟩ := tok_punct htok (by simp [Punct]) hc
          cases h
          exact ⟨[x], t', rfl, f3, .last t x w t' (f1 ▸ e2) f2, (suffix_of f1).trans e3⟩
        · split at h
          · next hcc =>
            subst hcc
            obtain ⟨w, t', f1, f2, f3⟩ := tok_punct htok (by simp [Punct]) hc
            rw [f3] at h
            obtain ⟨l, rest', g1, g2, g3, g4⟩ := iL (nulfree_suffix hr (suffix_of f1)) h
            exact ⟨x :: l, rest', by rw [g1]; simp, g2, .cons t x w t' l rest' (f1 ▸ e2) f2 g3, g4.trans ((suffix_of f1).trans e3)⟩
          · cases h
    · intro t acc v m hs hn h
      rw [parseDict] at h
      obtain ⟨⟨r1, m1⟩, h1, h⟩ := Option.bind_eq_some_iff.mp h
      have hO := iO hs h1
      cases r1 with
      | closeDict =>
        cases h
        obtain ⟨w, rest, e1, e2, e3⟩ := hO
        exact ⟨[], rest, by simp, e3, by rw [e1]; exact .nil w rest e2, suffix_of e1⟩
      | closeList => cases h
      | error => cases h
      | ok x =>
        cases x with
        | str k =>
          obtain ⟨rest, rfl, e2, e3⟩ := hO
          obtain ⟨tok, h2, h⟩ := Option.bind_eq_some_iff.mp h
          obtain ⟨c, hc, h⟩ := Option.bind_eq_some_iff.mp h
          have hr := nulfree_suffix hs e3
          have htok := token_sound false hr h2
          split at h
          · next hcc =>
            subst hcc
            obtain ⟨w, t', f1, f2, f3⟩ := tok_punct htok (by simp [Punct]) hc
            obtain ⟨⟨r2, m2⟩, h3, h⟩ := Option.bind_eq_some_iff.mp h
            rw [f3] at h3
            have hs1 := (suffix_of f1).trans e3
            have hr' := nulfree_suffix hs hs1
            have hO2 := iO hr' h3
            cases r2 with
            | ok x =>
              obtain ⟨rest2, rfl, k2, k3⟩ := hO2
              obtain ⟨tok2, h4, h⟩ := Option.bind_eq_some_iff.mp h
              obtain ⟨c2, hc2, h⟩ := Option.bind_eq_some_iff.mp h
              have hs2 := k3.trans hs1
              have htok2 := token_sound false (nulfree_suffix hs hs2) h4
              split at h
              · next hcc =>
                subst hcc
                obtain ⟨w2, t2, l1, l2, l3⟩ := tok_punct htok2 (by simp [Punct]) hc2
                cases h
                refine ⟨[(k, x)], t2, ?_, l3, .last t k w t' x w2 t2 (f1 ▸ e2) f2 (l1 ▸ k2) l2, (suffix_of l1).trans hs2⟩
                rw [setEntry_eq k x hn]; rfl
              · split at h
                · next hcc =>
                  subst hcc
                  obtain ⟨w2, t2, l1, l2, l3⟩ := tok_punct htok2 (by simp [Punct]) hc2
                  rw [l3, setEntry_eq k x hn] at h
                  have hs3 := (suffix_of l1).trans hs2
                  obtain ⟨l, rest', g1, g2, g3, g4⟩ := iD (nulfree_suffix hs hs3) (assign_nodup hn (k, x)) h
                  exact ⟨(k, x) :: l, rest', g1, g2, .cons t k w t' x w2 t2 l rest' (f1 ▸ e2) f2 (l1 ▸ k2) l2 g3, g4.trans hs3⟩
                · cases h
            | _ => cases h
          · cases h
        | _ => cases h

/-! ## The parser accepts all such texts -/

mutual
theorem lval_suffix {t v rest} (h : LVal t v rest) : rest <:+ t := by
  match h with
  | .word w p v rest _ _ _ _ => exact ⟨w ++ p, rfl⟩
  | .str w t s rest _ hs => exact (lstr_suffix hs).trans (suffix_of rfl)
  | .list w t l rest _ hl => exact (lelems_suffix hl).trans (suffix_of rfl)
  | .dict w t l rest _ hl => exact (lmembers_suffix hl).trans (suffix_of rfl)
theorem lelems_suffix {t l rest} (h : LElems t l rest) : rest <:+ t := by
  match h with
  | .nil w rest _ => exact suffix_of rfl
  | .last t v w rest hv _ => exact (suffix_of rfl).trans (lval_suffix hv)
  | .cons t v w t' l rest hv _ hl => exact (lelems_suffix hl).trans ((suffix_of rfl).trans (lval_suffix hv))
theorem lmembers_suffix {t l rest} (h : LMembers t l rest) : rest <:+ t := by
  match h with
  | .nil w rest _ => exact suffix_of rfl
  | .last t k w t' v w' rest hk _ hv _ => exact ((suffix_of rfl).trans (lval_suffix hv)).trans ((suffix_of rfl).trans (lval_suffix hk))
  | .cons t k w t' v w' t'' l rest hk _ hv _ hl =>
    exact (lmembers_suffix hl).trans (((suffix_of rfl).trans (lval_suffix hv)).trans ((suffix_of rfl).trans (lval_suffix hk)))
theorem lstr_suffix {t s rest} (h : LStr t s rest) : rest <:+ t := by
  match h with
  | .close rest => exact List.suffix_cons _ _
  | .ends => exact List.suffix_rfl
  | .slash => simp
  | .raw b t s rest _ _ h => exact (lstr_suffix h).trans (List.suffix_cons _ _)
  | .esc c b t s rest _ h => exact (lstr_suffix h).trans ⟨[_, _], rfl⟩
  | .drop c t s rest _ _ _ h => exact (lstr_suffix h).trans ⟨[_, _], rfl⟩
  | .dropWide b u t s rest c _ _ h => exact (lstr_suffix h).trans ⟨0x5c :: b :: u, by simp⟩
  | .uni h3 h2 h1 h0 ch t s rest _ h => exact (lstr_suffix h).trans ⟨[_, _, _, _, _, _], rfl⟩
end

theorem token_punct (obj : Bool) {w : List UInt8} (hw : Blanks w) {c : UInt8} (hc : Punct c) (t' : List UInt8) :
    scanToken H0 obj (w ++ c :: t' ++ [0]) = some ⟨c :: t' ++ [0], t' ++ [0], false, none⟩ := by
  obtain ⟨a1, a2, a3, a4, a5⟩ := punct_ascii hc
  rw [scanToken, tokenWith, show w ++ c :: t' ++ [0] = w ++ c :: (t' ++ [0]) by simp,
    skipSpace_blanks H0 hw a2 a1 a3 _ _ (by simp), Option.bind_some]
  simp only
  rw [if_neg (by omega), if_neg (by simp [strict]), List.head?_cons, Option.bind_some, if_pos a5]
  rfl

theorem token_str {w : List UInt8} (hw : Blanks w) {t' s r : List UInt8} (h : LStr t' s r) (hs : NulFree t') :
    scanToken H0 true (w ++ 0x22 :: t' ++ [0]) = some ⟨0x22 :: t' ++ [0], r ++ [0], false, some (.str s)⟩ := by
  rw [scanToken, tokenWith, show w ++ 0x22 :: t' ++ [0] = w ++ 0x22 :: (t' ++ [0]) by simp,
    skipSpace_blanks H0 hw (by decide) (by decide) (by unfold Blank; decide) _ _ (by simp), Option.bind_some]
  simp only
  rw [if_pos (by rfl), List.drop_succ_cons, List.drop_zero, scanString_loose H0 t'.length (Nat.le_refl _) hs h _ _ (by simp; omega)]
  rfl

theorem token_word {w : List UInt8} (hw : Blanks w) {x : UInt8} {u r : List UInt8} (hp : Word (x :: u)) (h1 : x.toNat < 128) (hx : x ≠ 0x22)
    (hr : Stop r) (hs : NulFree (x :: (u ++ r))) :
    scanToken H0 true (w ++ x :: u ++ r ++ [0]) = some ⟨x :: (u ++ r) ++ [0], r ++ [0], false, none⟩ := by
  have h0 : x ≠ 0 := fun e => hs (by simp [e])
  obtain ⟨b1, b2⟩ := hp.1 x (by simp)
  have hs' : NulFree (u ++ r) := fun e => hs (List.mem_cons_of_mem _ e)
  rw [scanToken, tokenWith, show w ++ x :: u ++ r ++ [0] = w ++ x :: (u ++ r ++ [0]) by simp,
    skipSpace_blanks H0 hw h0 h1 b1 _ _ (by simp), Option.bind_some]
  simp only
  have hne : ¬ ((x.toNat : Int) = 34) := fun e => hx (UInt8.toNat_inj.mp (by show x.toNat = 34; omega))
  have ht : ¬ (isToken x = true) := fun e => b2 ((isToken_iff h0).mp e)
  rw [if_neg hne, if_neg (by simp [strict]), List.head?_cons, Option.bind_some, if_neg ht, List.drop_succ_cons, List.drop_zero,
    scanWord_word u.length (Nat.le_refl _) hs' (word_tail (p := [x]) hp) hr _ (by simp; omega)]
  rfl

/-- The first byte of a word that is read. -/
theorem lword_head {v : Json} {p : List UInt8} (h : LWord v p) : ∃ x u, p = x :: u ∧ x.toNat < 128 ∧ x ≠ 0x22 ∧ ¬ Punct x := by
  cases h with
  | null u => exact ⟨_, _, rfl, by decide, by decide, by unfold Punct; decide⟩
  | true u => exact ⟨_, _, rfl, by decide, by decide, by unfold Punct; decide⟩
  | false u => exact ⟨_, _, rfl, by decide, by decide, by unfold Punct; decide⟩
  | num neg ds frac exp u h1 h2 h3 h4 h5 =>
    have hw := numeral_word (neg := neg) h2 h3 h4
    have hne : numeral neg false ds frac exp ≠ [] := by
      rcases h1 with rfl | h1
      · simp [numeral, signText]
      · simp [numeral, h1]
    obtain ⟨x, l, hl⟩ := List.exists_cons_of_ne_nil hne
    have hx := hw x (by rw [hl]; simp)
    exact ⟨x, l ++ u, by rw [hl]; rfl, hx.2.1, hx.2.2.2.2.1, (wordByte_plain hx).2⟩

theorem lword_read {v : Json} {p rest : List UInt8} (h : LWord v p) (hr : Stop rest) :
    (∃ n m, v = .num n ∧ strtonum (p ++ rest ++ [0]) = some (n, m) ∧ ∀ x, p.head? = some x → x = 0x2d ∨ isDigit x = true) ∨
    (parseWord (p ++ rest ++ [0]) = some (.ok v) ∧ ∀ x, p.head? = some x → ¬ (x = 0x2d ∨ isDigit x = true)) := by
  cases h with
  | null u => right; exact ⟨by simp [parseWord, startsWith], by rintro x ⟨⟩; decide⟩
  | true u => right; exact ⟨by simp [parseWord, startsWith], by rintro x ⟨⟩; decide⟩
  | false u => right; exact ⟨by simp [parseWord, startsWith], by rintro x ⟨⟩; decide⟩
  | num neg ds frac exp u h1 h2 h3 h4 h5 =>
    left
    have hE : Ends frac exp (u ++ rest) := by
      intro b hb
      match u, h5, hb with
      | c :: u, h5, hb => exact h5 b hb
      | [], h5, hb =>
        have hlow : ∀ b : UInt8, Blank b ∨ Punct b → ¬ (48 ≤ b.toNat ∧ b.toNat ≤ 57) ∧ b ≠ 0x65 ∧ b ≠ 0x45 ∧ b ≠ 0x2e := by
          intro b hb
          have key : ∀ n : Nat, n < 256 → (Blank (UInt8.ofNat n) ∨ Punct (UInt8.ofNat n)) → ¬ (48 ≤ n ∧ n ≤ 57) ∧ UInt8.ofNat n ≠ 0x65 ∧
              UInt8.ofNat n ≠ 0x45 ∧ UInt8.ofNat n ≠ 0x2e := by
            unfold Blank Punct; decide +kernel
          have := key b.toNat b.toNat_lt
          rw [UInt8.ofNat_toNat] at this
          exact this hb
        obtain ⟨g1, g2, g3, g4⟩ := hlow b (hr b hb)
        exact ⟨g1, fun _ => ⟨g2, g3, fun _ => g4⟩⟩
    have := strtonum_loose h1 h2 h3 h4 hE
    refine ⟨_, _, rfl, by rw [← this]; congr 1; simp, ?_⟩
    intro x hx
    cases neg with
    | true => left; simpa [numeral, signText] using hx.symm
    | false =>
      right
      match ds, h1.resolve_left (by simp), h2, hx with
      | d :: ds, _, h2, hx =>
        simp [numeral, signText] at hx
        subst hx
        exact (isDigit_iff _).mpr (h2 _ (by simp))

mutual
theorem lval_parse {t v rest} (h : LVal t v rest) : NulFree t → ∀ fuel, 2 * t.length + 1 ≤ fuel →
    parseObject H0 fuel (t ++ [0]) = some (.ok v, rest ++ [0]) := by
  intro hs fuel hf
  obtain ⟨fuel, rfl⟩ : ∃ f, fuel = f + 1 := ⟨fuel - 1, by omega⟩
  match h with
  | .word w p v rest hw hp hword hr =>
    obtain ⟨x, u, rfl, g1, g2, g3⟩ := lword_head hp
    have hs' : NulFree (x :: (u ++ rest)) := fun e => hs (by simp at e ⊢; exact Or.inr e)
    rw [parseObject, token_word hw hword g1 g2 hr hs', Option.bind_some]
    have np : ∀ {c}, Punct c → x ≠ c := fun hc e => g3 (e ▸ hc)
    simp only [Bool.false_eq_true, if_false, List.cons_append, List.head?_cons, Option.bind_some]
    rw [if_neg (np (by simp [Punct])), if_neg (np (by simp [Punct])), if_neg (np (by simp [Punct])), if_neg (np (by simp [Punct]))]
    rcases lword_read hp hr with ⟨n, m, rfl, k2, k3⟩ | ⟨k1, k2⟩
    · rw [if_pos (k3 x rfl)]
      simp only [List.cons_append] at k2
      rw [k2]; rfl
    · rw [if_neg (k2 x rfl)]
      simp only [List.cons_append] at k1
      rw [k1]; rfl
  | .str w t s rest hw hl =>
    rw [parseObject, token_str hw hl (fun e => hs (by simp [e])), Option.bind_some]
    simp
  | .list w t l rest hw hl =>
    simp only [List.length_append, List.length_cons] at hf
    have := lelems_parse hl (fun e => hs (by simp [e])) fuel [] (by omega)
    rw [parseObject, token_punct true hw (by simp [Punct]) t, Option.bind_some]
    simpa using this
  | .dict w t l rest hw hl =>
    simp only [List.length_append, List.length_cons] at hf
    have := lmembers_parse hl (fun e => hs (by simp [e])) fuel [] (by simp) (by omega)
    rw [parseObject, token_punct true hw (by simp [Punct]) t, Option.bind_some]
    simpa using this
theorem lelems_parse {t l rest} (h : LElems t l rest) : NulFree t → ∀ fuel acc, 2 * t.length + 2 ≤ fuel →
    parseList H0 fuel (t ++ [0]) acc = some (.ok (.list (acc ++ l)), rest ++ [0]) := by
  intro hs fuel acc hf
  obtain ⟨fuel, rfl⟩ : ∃ f, fuel = f + 1 := ⟨fuel - 1, by omega⟩
  match h with
  | .nil w rest hw =>
    obtain ⟨fuel, rfl⟩ : ∃ f, fuel = f + 1 := ⟨fuel - 1, by omega⟩
    rw [parseList, parseObject, token_punct true hw (by simp [Punct]) rest, Option.bind_some]
    simp
  | .last t v w rest hv hw =>
    have h1 := lval_parse hv hs fuel (by omega)
    rw [parseList, h1, Option.bind_some]
    simp only
    rw [token_punct false hw (by simp [Punct]) rest, Option.bind_some]
    simp
  | .cons t v w t' l rest hv hw hl =>
    have h1 := lval_parse hv hs fuel (by omega)
    have hsuf := (suffix_of (t := w ++ 0x2c :: t') rfl).trans (lval_suffix hv)
    have hlen := (lval_suffix hv).length_le
    simp only [List.length_append, List.length_cons] at hlen
    have h2 := lelems_parse hl (nulfree_suffix hs hsuf) fuel (acc ++ [v]) (by omega)
    rw [parseList, h1, Option.bind_some]
    simp only
    rw [token_punct false hw (by simp [Punct]) t', Option.bind_some]
    simpa using h2
theorem lmembers_parse {t l rest} (h : LMembers t l rest) : NulFree t → ∀ fuel acc, (acc.map (·.1)).Nodup → 2 * t.length + 2 ≤ fuel →
    parseDict H0 fuel (t ++ [0]) acc = some (.ok (.dict (l.foldl assign acc)), rest ++ [0]) := by
  intro hs fuel acc hn hf
  obtain ⟨fuel, rfl⟩ : ∃ f, fuel = f + 1 := ⟨fuel - 1, by omega⟩
  match h with
  | .nil w rest hw =>
    obtain ⟨fuel, rfl⟩ : ∃ f, fuel = f + 1 := ⟨fuel - 1, by omega⟩
    rw [parseDict, parseObject, token_punct true hw (by simp [Punct]) rest, Option.bind_some]
    simp
  | .last t k w t' v w' rest hk hw hv hw' =>
    have hsuf := (suffix_of (t := w ++ 0x3a :: t') rfl).trans (lval_suffix hk)
    have hlen := (lval_suffix hk).length_le
    simp only [List.length_append, List.length_cons] at hlen
    have h1 := lval_parse hk hs fuel (by omega)
    have h2 := lval_parse hv (nulfree_suffix hs hsuf) fuel (by omega)
    rw [parseDict, h1, Option.bind_some]
    simp only
    rw [token_punct false hw (by simp [Punct]) t', Option.bind_some]
    simp only [List.cons_append, List.head?_cons, Option.bind_some, if_true]
    rw [h2, Option.bind_some]
    simp only
    rw [token_punct false hw' (by simp [Punct]) rest, Option.bind_some, setEntry_eq k v hn]
    simp
  | .cons t k w t' v w' t'' l rest hk hw hv hw' hl =>
    have hsuf := (suffix_of (t := w ++ 0x3a :: t') rfl).trans (lval_suffix hk)
    have hlen := (lval_suffix hk).length_le
    simp only [List.length_append, List.length_cons] at hlen
    have hsuf2 := ((suffix_of (t := w' ++ 0x2c :: t'') rfl).trans (lval_suffix hv)).trans hsuf
    have hlen2 := (lval_suffix hv).length_le
    simp only [List.length_append, List.length_cons] at hlen2
    have h1 := lval_parse hk hs fuel (by omega)
    have h2 := lval_parse hv (nulfree_suffix hs hsuf) fuel (by omega)
    have h3 := lmembers_parse hl (nulfree_suffix hs hsuf2) fuel (assign acc (k, v)) (assign_nodup hn (k, v)) (by omega)
    rw [parseDict, h1, Option.bind_some]
    simp only
    rw [token_punct false hw (by simp [Punct]) t', Option.bind_some]
    simp only [List.cons_append, List.head?_cons, Option.bind_some, if_true]
    rw [h2, Option.bind_some]
    simp only
    rw [token_punct false hw' (by simp [Punct]) t'', Option.bind_some, setEntry_eq k v hn]
    simpa using h3
end

end Json
end Duck
