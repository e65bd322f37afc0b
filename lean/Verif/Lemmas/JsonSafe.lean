import Verif.Lemmas.JsonParse
/-! Lemmas for C42: parsing any text. -/
namespace Duck
namespace Json
open Unicode Num

/-- What keeps the parser of a text `s` within defined behaviour. -/
structure Fine (H : Host) (s : List UInt8) : Prop where
  nul : NulFree s
  space : ∀ t, t <:+ s → ∀ c k, ustrscan (t ++ [0]) = some (c, k) → ∃ b, isspace H c = some b
  uni : ∀ t, (0x5c :: 0x75 :: t) <:+ s → 4 ≤ t.length ∧ ∃ u, unicodePoint H (t ++ [0]) = some u

theorem Fine.suffix {H : Host} {s t : List UInt8} (h : Fine H s) (ht : t <:+ s) : Fine H t :=
  ⟨fun e => h.nul (ht.subset e), fun u hu => h.space u (hu.trans ht), fun u hu => h.uni u (hu.trans ht)⟩

theorem drop_nul {t : List UInt8} {k : Nat} (h : k ≤ t.length) : (t ++ [0]).drop k = t.drop k ++ [0] := List.drop_append_of_le_length h

/-- The first character of a nonempty text. -/
theorem scan_text {b : UInt8} {t : List UInt8} (hs : NulFree (b :: t)) : ∃ c k, ustrscan (b :: t ++ [0]) = some (c, k + 1) ∧ k ≤ t.length ∧
    (∀ n : Nat, n < 128 → c = n → b.toNat = n ∧ k = 0) := by
  have hb : b ≠ 0 := fun e => hs (by simp [e])
  obtain ⟨c, u, s', rfl, e2, e3, e4, e5⟩ := scan_chunk hb t []
  refine ⟨c, u.length, e3, by simp, ?_⟩
  intro n hn hc
  rcases Nat.lt_or_ge b.toNat 128 with h | h
  · obtain ⟨h1, rfl⟩ := e4 h
    exact ⟨by omega, rfl⟩
  · have := e5 h; omega

theorem scanString_some {H : Host} (obj : Bool) : ∀ (n : Nat) {t : List UInt8}, t.length ≤ n → Fine H t → ∀ fuel acc, t.length ≤ fuel →
    ∃ acc' t', scanString H obj fuel (t ++ [0]) acc = some (acc', t' ++ [0]) ∧ t' <:+ t := by
  intro n
  induction n with
  | zero =>
    intro t hn _ fuel acc _
    have : t = [] := List.length_eq_zero_iff.mp (by omega)
    subst this
    refine ⟨acc, [], ?_, List.suffix_rfl⟩
    rw [scanString.eq_def]; simp [ustrscan_zero]
  | succ n ih =>
    intro t hn hs fuel acc hf
    match t, hn, hs, hf with
    | [], _, hs, hf => exact ih (by simp) hs fuel acc hf
    | b :: t, hn, hs, hf =>
      obtain ⟨fuel, rfl⟩ : ∃ f, fuel = f + 1 := ⟨fuel - 1, by simp at hf; omega⟩
      simp only [List.length_cons] at hn hf
      obtain ⟨c, k, e1, e2, e3⟩ := scan_text hs.nul
      rw [scanString.eq_def, e1, Option.bind_some]
      simp only
      rw [if_neg (by omega)]
      have ed : (b :: t ++ [0]).drop (k + 1) = t.drop k ++ [0] := by rw [List.cons_append, List.drop_succ_cons, drop_nul e2]
      have hsuf : t.drop k <:+ b :: t := (List.drop_suffix _ _).trans (List.suffix_cons _ _)
      have hlen : (t.drop k).length ≤ n := by rw [List.length_drop]; omega
      split
      · next hc =>
        obtain ⟨hb, rfl⟩ := e3 92 (by omega) hc
        have hb : b = 0x5c := UInt8.toNat_inj.mp hb
        subst hb
        rw [ed, List.drop_zero]
        match t, hs, hn, hf, hsuf with
        | [], hs, hn, hf, hsuf =>
          rw [List.nil_append, ustrscan_zero, Option.bind_some]
          simp only
          rw [if_neg (by decide)]
          obtain ⟨a', t', h1, h2⟩ := ih (t := []) (by simp) (hs.suffix hsuf) fuel (acc ++ escapeChar 0) (by simp)
          exact ⟨a', t', h1, h2.trans (by simp)⟩
        | b2 :: t, hs, hn, hf, hsuf =>
          have hs2 : Fine H (b2 :: t) := hs.suffix (List.suffix_cons _ _)
          obtain ⟨c', k', f1, f2, f3⟩ := scan_text hs2.nul
          simp only [List.length_cons] at hn hf
          rw [f1, Option.bind_some]
          simp only
          split
          · next hc' =>
            obtain ⟨hb2, rfl⟩ := f3 117 (by omega) hc'
            have hb2 : b2 = 0x75 := UInt8.toNat_inj.mp hb2
            subst hb2
            obtain ⟨h4, u, hu⟩ := hs.uni t List.suffix_rfl
            have e4 : (0x5c :: 0x75 :: t ++ [0]).drop (0 + 1 + (0 + 1)) = t ++ [0] := by simp
            have e5 : (0x5c :: 0x75 :: t ++ [0]).drop (0 + 1 + (0 + 1) + 4) = t.drop 4 ++ [0] := by
              rw [← List.drop_drop, e4, drop_nul h4]
            rw [e4, e5]
            have hX : ∃ x, (if obj then unicodePoint H (t ++ [0]) else if 4 ≤ (t ++ [0]).length then some [] else none) = some x := by
              cases obj with
              | true => exact ⟨u, hu⟩
              | false => exact ⟨[], by simp; omega⟩
            obtain ⟨x, hx⟩ := hX
            rw [hx, Option.bind_some]
            have hsuf4 : t.drop 4 <:+ 0x5c :: 0x75 :: t :=
              (List.drop_suffix _ _).trans ((List.suffix_cons _ _).trans (List.suffix_cons _ _))
            obtain ⟨a', t', h1, h2⟩ := ih (by rw [List.length_drop]; omega) (hs.suffix hsuf4) fuel (acc ++ x) (by rw [List.length_drop]; omega)
            exact ⟨a', t', h1, h2.trans hsuf4⟩
          · have e4 : (0x5c :: b2 :: t ++ [0]).drop (0 + 1 + (k' + 1)) = t.drop k' ++ [0] := by
              rw [← List.drop_drop]
              show (b2 :: t ++ [0]).drop (k' + 1) = _
              rw [List.cons_append, List.drop_succ_cons, drop_nul f2]
            rw [e4]
            have hsufk : t.drop k' <:+ 0x5c :: b2 :: t :=
              (List.drop_suffix _ _).trans ((List.suffix_cons _ _).trans (List.suffix_cons _ _))
            obtain ⟨a', t', h1, h2⟩ := ih (by rw [List.length_drop]; omega) (hs.suffix hsufk) fuel (acc ++ escapeChar c') (by rw [List.length_drop]; omega)
            exact ⟨a', t', h1, h2.trans hsufk⟩
      · rw [ed]
        split
        · exact ⟨acc, _, rfl, hsuf⟩
        · obtain ⟨a', t', h1, h2⟩ := ih hlen (hs.suffix hsuf) fuel (acc ++ (b :: t ++ [0]).take (k + 1)) (by rw [List.length_drop]; omega)
          exact ⟨a', t', h1, h2.trans hsuf⟩

theorem skipSpace_some {H : Host} : ∀ (n : Nat) {t : List UInt8}, t.length ≤ n → Fine H t → ∀ fuel, t.length ≤ fuel →
    ∃ t', t' <:+ t ∧ ((t' = [] ∧ skipSpace H fuel (t ++ [0]) = some (none, [0])) ∨
      ∃ c k, k < t'.length ∧ skipSpace H fuel (t ++ [0]) = some (some (c, k + 1), t' ++ [0]) ∧
        ustrscan (t' ++ [0]) = some (c, k + 1)) := by
  intro n
  induction n with
  | zero =>
    intro t hn _ fuel _
    have : t = [] := List.length_eq_zero_iff.mp (by omega)
    subst this
    refine ⟨[], List.suffix_rfl, Or.inl ⟨rfl, ?_⟩⟩
    rw [skipSpace.eq_def]; simp [ustrscan_zero]
  | succ n ih =>
    intro t hn hs fuel hf
    match t, hn, hs, hf with
    | [], _, hs, hf => exact ih (by simp) hs fuel hf
    | b :: t, hn, hs, hf =>
      obtain ⟨fuel, rfl⟩ : ∃ f, fuel = f + 1 := ⟨fuel - 1, by simp at hf; omega⟩
      simp only [List.length_cons] at hn hf
      obtain ⟨c, k, e1, e2, e3⟩ := scan_text hs.nul
      obtain ⟨sp, hsp⟩ := hs.space _ List.suffix_rfl _ _ e1
      rw [skipSpace.eq_def, e1, Option.bind_some]
      simp only
      rw [if_neg (by omega), hsp, Option.bind_some]
      have ed : (b :: t ++ [0]).drop (k + 1) = t.drop k ++ [0] := by rw [List.cons_append, List.drop_succ_cons, drop_nul e2]
      have hsuf : t.drop k <:+ b :: t := (List.drop_suffix _ _).trans (List.suffix_cons _ _)
      cases sp with
      | true =>
        simp only [if_true]
        rw [ed]
        obtain ⟨t', h1, h2⟩ := ih (by rw [List.length_drop]; omega) (hs.suffix hsuf) fuel (by rw [List.length_drop]; omega)
        exact ⟨t', h1.trans hsuf, h2⟩
      | false => exact ⟨b :: t, List.suffix_rfl, Or.inr ⟨c, k, by simp; omega, rfl, e1⟩⟩

theorem scanWord_some {H : Host} : ∀ (n : Nat) {t : List UInt8}, t.length ≤ n → Fine H t → ∀ fuel, t.length ≤ fuel →
    ∃ t', t' <:+ t ∧ scanWord H fuel (t ++ [0]) = some (t' ++ [0]) := by
  intro n
  induction n with
  | zero =>
    intro t hn _ fuel _
    have : t = [] := List.length_eq_zero_iff.mp (by omega)
    subst this
    refine ⟨[], List.suffix_rfl, ?_⟩
    rw [scanWord.eq_def]; simp [ustrscan_zero]
  | succ n ih =>
    intro t hn hs fuel hf
    match t, hn, hs, hf with
    | [], _, hs, hf => exact ih (by simp) hs fuel hf
    | b :: t, hn, hs, hf =>
      obtain ⟨fuel, rfl⟩ : ∃ f, fuel = f + 1 := ⟨fuel - 1, by simp at hf; omega⟩
      simp only [List.length_cons] at hn hf
      obtain ⟨c, k, e1, e2, e3⟩ := scan_text hs.nul
      obtain ⟨sp, hsp⟩ := hs.space _ List.suffix_rfl _ _ e1
      rw [scanWord.eq_def, e1, Option.bind_some]
      simp only
      rw [if_neg (by omega), hsp, Option.bind_some]
      have ed : (b :: t ++ [0]).drop (k + 1) = t.drop k ++ [0] := by rw [List.cons_append, List.drop_succ_cons, drop_nul e2]
      have hsuf : t.drop k <:+ b :: t := (List.drop_suffix _ _).trans (List.suffix_cons _ _)
      split
      · exact ⟨b :: t, List.suffix_rfl, rfl⟩
      · rw [ed]
        obtain ⟨t', h1, h2⟩ := ih (by rw [List.length_drop]; omega) (hs.suffix hsuf) fuel (by rw [List.length_drop]; omega)
        exact ⟨t', h1.trans hsuf, h2⟩

theorem head_nul (t : List UInt8) : ∃ c, (t ++ [0]).head? = some c ∧ (c ≠ 0 → t ≠ []) ∧ (t ≠ [] → t.head? = some c) := by
  match t with
  | [] => exact ⟨0, rfl, fun h => absurd rfl h, fun h => absurd rfl h⟩
  | b :: t => exact ⟨b, rfl, fun _ => by simp, fun _ => rfl⟩

/-- What is known of a token of the text `t`. -/
def Token (t : List UInt8) (tok : Tok) : Prop :=
  ∃ t1 t2, tok.str = t1 ++ [0] ∧ tok.cur = t2 ++ [0] ∧ t1 <:+ t ∧ t2 <:+ t ∧ (tok.empty = true ∨ t1 ≠ []) ∧
    (t1 ≠ [] → t2.length < t.length ∨ (tok.obj = none ∧ t1.head? = some 0x23))

theorem tokenWith_some {H : Host} {vec : Bool → Mem → Mem → Mem → Option Tok} (obj : Bool) {t : List UInt8} (hs : Fine H t)
    (hv : ∀ u, (0x23 :: u) <:+ t → ∃ tok, vec obj (t ++ [0]) (0x23 :: u ++ [0]) (u ++ [0]) = some tok ∧ Token t tok) :
    ∃ tok, tokenWith H vec obj (t ++ [0]) = some tok ∧ Token t tok := by
  obtain ⟨t1, h1, h2⟩ := skipSpace_some t.length (Nat.le_refl _) hs (t ++ [0]).length (by simp)
  rw [tokenWith]
  rcases h2 with ⟨rfl, h2⟩ | ⟨c, k, hk, h2, h7⟩
  · rw [h2]
    exact ⟨⟨[0], [0], true, none⟩, rfl, [], [], rfl, rfl, h1, h1, Or.inl rfl, fun h => absurd rfl h⟩
  · rw [h2, Option.bind_some]
    simp only
    have hne : t1 ≠ [] := by rintro rfl; simp at hk
    have hl := h1.length_le
    have hd : t1.drop (k + 1) <:+ t := (List.drop_suffix _ _).trans h1
    have hdl : (t1.drop (k + 1)).length < t.length := by rw [List.length_drop]; omega
    rw [drop_nul (by omega)]
    split
    · obtain ⟨a, t2, h3, h4⟩ := scanString_some obj (t1.drop (k + 1)).length (Nat.le_refl _) (hs.suffix hd) (t1 ++ [0]).length []
        (by simp; omega)
      have := h4.length_le
      rw [h3]
      exact ⟨_, rfl, t1, t2, rfl, rfl, h1, h4.trans hd, Or.inr hne, fun _ => Or.inl (by omega)⟩
    · split
      · next hc =>
        match t1, hne with
        | b :: t1, _ =>
          obtain ⟨c', k', e1, e2, e3⟩ := scan_text (hs.suffix h1).nul
          rw [h7] at e1
          cases e1
          obtain ⟨hb, rfl⟩ := e3 35 (by omega) hc.1
          have hb : b = 0x23 := UInt8.toNat_inj.mp hb
          subst hb
          exact hv t1 h1
      · match t1, hne with
        | b :: t1, _ =>
          rw [List.cons_append, List.head?_cons, Option.bind_some]
          split
          · exact ⟨_, rfl, b :: t1, _, rfl, rfl, h1, hd, Or.inr (by simp), fun _ => Or.inl hdl⟩
          · obtain ⟨t2, h3, h4⟩ := scanWord_some ((b :: t1).drop (k + 1)).length (Nat.le_refl _) (hs.suffix hd) (b :: t1 ++ [0]).length
              (by simp; omega)
            have := h3.length_le
            rw [← List.cons_append, h4]
            exact ⟨_, rfl, b :: t1, t2, rfl, rfl, h1, h3.trans hd, Or.inr (by simp), fun _ => Or.inl (by omega)⟩

/-- Tokens and vectors of any text. -/
theorem vector_some {H : Host} : ∀ n : Nat,
    (∀ {t : List UInt8}, t.length ≤ n → Fine H t → ∀ fuel obj, t.length + 1 ≤ fuel →
      ∃ tok, tokenWith H (vectorAt H fuel) obj (t ++ [0]) = some tok ∧ Token t tok) ∧
    (∀ {t : List UInt8}, t.length ≤ n → Fine H t → ∀ fuel obj v, t.length + 2 ≤ fuel →
      ∃ o t', vectorLoop H fuel obj (t ++ [0]) v = some (o, t' ++ [0]) ∧ t' <:+ t) := by
  intro n
  induction n using Nat.strongRecOn with
  | ind n ih =>
  have T : ∀ {t : List UInt8}, t.length ≤ n → Fine H t → ∀ fuel obj, t.length + 1 ≤ fuel →
      ∃ tok, tokenWith H (vectorAt H fuel) obj (t ++ [0]) = some tok ∧ Token t tok := by
    intro t hn hs fuel obj hf
    refine tokenWith_some obj hs fun u hu => ?_
    obtain ⟨fuel, rfl⟩ : ∃ f, fuel = f + 1 := ⟨fuel - 1, by omega⟩
    have hlen := hu.length_le
    simp only [List.length_cons] at hlen
    have hsu : u <:+ t := (List.suffix_cons _ _).trans hu
    have other : ∀ r, ustrscan (u ++ [0]) = some r → r.1 ≠ 91 → ∃ tok, vectorAt H (fuel + 1) obj (t ++ [0]) (0x23 :: u ++ [0]) (u ++ [0]) = some tok ∧
        Token t tok := by
      intro r hr h91
      rw [vectorAt, hr, Option.bind_some, if_neg h91]
      exact ⟨_, rfl, 0x23 :: u, t, rfl, rfl, hu, List.suffix_rfl, Or.inr (by simp), fun _ => Or.inr ⟨rfl, rfl⟩⟩
    match u, hu, hlen, hsu, other with
    | [], _, _, _, other => exact other (0, 0) (by simp [ustrscan_zero]) (by decide)
    | b :: u, hu, hlen, hsu, other =>
      obtain ⟨c, k, e1, e2, e3⟩ := scan_text (hs.suffix hsu).nul
      by_cases h91 : c = 91
      · obtain ⟨-, rfl⟩ := e3 91 (by omega) h91
        simp only [List.length_cons] at hlen
        have hsu' : u <:+ t := (List.suffix_cons _ _).trans hsu
        obtain ⟨o, t', f1, f2⟩ := (ih (n - 2) (by omega)).2 (t := u) (by omega) (hs.suffix hsu') fuel obj ⟨false, []⟩ (by omega)
        have := f2.length_le
        rw [vectorAt, e1, Option.bind_some, if_pos h91]
        simp only [List.cons_append, Nat.zero_add, List.drop_succ_cons, List.drop_zero]
        rw [f1]
        exact ⟨_, rfl, 0x23 :: b :: u, t', rfl, rfl, hu, f2.trans hsu', Or.inr (by simp), fun _ => Or.inl (by omega)⟩
      · exact other _ e1 h91
  refine ⟨T, ?_⟩
  intro t hn hs fuel obj v hf
  obtain ⟨fuel, rfl⟩ : ∃ f, fuel = f + 1 := ⟨fuel - 1, by omega⟩
  obtain ⟨tok, h1, t1, t2, h2, h3, h4, h5, h6, h7⟩ := T hn hs fuel false (by omega)
  obtain ⟨c, hc, hc0, hch⟩ := head_nul t1
  rw [vectorLoop, h1, Option.bind_some, h2, h3, hc, Option.bind_some]
  split
  · next hd =>
    have hne : t1 ≠ [] := hc0 (by rintro rfl; revert hd; decide)
    have hlt : t2.length < t.length := by
      refine (h7 hne).resolve_right fun h => ?_
      rw [hch hne] at h
      cases h.2
      revert hd; decide
    obtain ⟨x, e1, -⟩ := strtonum_some (m := t1 ++ [0]) (by simp)
    rw [e1, Option.bind_some]
    obtain ⟨tok', g1, u1, u2, g2, g3, g4, g5, g6, g7⟩ := T (t := t2) (by omega) (hs.suffix h5) fuel false (by omega)
    obtain ⟨c', hc', hc0', hch'⟩ := head_nul u1
    rw [g1, Option.bind_some, g2, g3, hc', Option.bind_some]
    have hsuf := g5.trans h5
    have hl2 := g5.length_le
    split
    · obtain ⟨o, t', i1, i2⟩ := (ih u2.length (by omega)).2 (Nat.le_refl _) (hs.suffix hsuf) fuel obj (v.push (H.vec == some true) x.1) (by omega)
      exact ⟨o, t', i1, i2.trans hsuf⟩
    · split
      · exact ⟨_, u2, rfl, hsuf⟩
      · exact ⟨_, u2, rfl, hsuf⟩
  · exact ⟨_, t2, rfl, h5⟩

theorem scanToken_some {H : Host} (obj : Bool) {t : List UInt8} (hs : Fine H t) : ∃ tok, scanToken H obj (t ++ [0]) = some tok ∧ Token t tok :=
  (vector_some t.length).1 (Nat.le_refl _) hs _ obj (by simp)

theorem startsWith_some : ∀ (p : List UInt8) (t : List UInt8), (0 : UInt8) ∉ p → ∃ b, startsWith (t ++ [0]) p = some b := by
  intro p
  induction p with
  | nil => intro t _; exact ⟨true, by cases t <;> rfl⟩
  | cons x p ih =>
    intro t h0
    simp only [List.mem_cons, not_or] at h0
    match t with
    | [] => exact ⟨false, by rw [List.nil_append, startsWith, if_neg h0.1]⟩
    | b :: t =>
      rw [List.cons_append, startsWith]
      split
      · exact ih t h0.2
      · exact ⟨false, rfl⟩

theorem parseWord_some (t : List UInt8) : ∃ r, parseWord (t ++ [0]) = some r := by
  obtain ⟨b1, h1⟩ := startsWith_some [0x74, 0x72, 0x75, 0x65] t (by decide)
  obtain ⟨b2, h2⟩ := startsWith_some [0x66, 0x61, 0x6c, 0x73, 0x65] t (by decide)
  obtain ⟨b3, h3⟩ := startsWith_some [0x6e, 0x75, 0x6c, 0x6c] t (by decide)
  rw [parseWord, h1, h2, h3]
  cases b1 <;> cases b2 <;> cases b3 <;> exact ⟨_, rfl⟩

theorem parseWord_hash (t : List UInt8) : parseWord (0x23 :: t) = some .error := rfl

theorem parse_some {H : Host} : ∀ (n : Nat),
    (∀ {t : List UInt8}, t.length ≤ n → Fine H t → ∀ fuel, 2 * t.length + 1 ≤ fuel →
      ∃ r t', parseObject H fuel (t ++ [0]) = some (r, t' ++ [0]) ∧ t' <:+ t ∧ ((∃ v, r = .ok v) → t'.length < t.length)) ∧
    (∀ {t : List UInt8}, t.length ≤ n → Fine H t → ∀ fuel acc, 2 * t.length + 2 ≤ fuel →
      ∃ r t', parseList H fuel (t ++ [0]) acc = some (r, t' ++ [0]) ∧ t' <:+ t) ∧
    (∀ {t : List UInt8}, t.length ≤ n → Fine H t → ∀ fuel acc, 2 * t.length + 2 ≤ fuel →
      ∃ r t', parseDict H fuel (t ++ [0]) acc = some (r, t' ++ [0]) ∧ t' <:+ t) := by
  intro n
  induction n using Nat.strongRecOn with
  | ind n ih =>
  have P : ∀ {t : List UInt8}, t.length ≤ n → Fine H t → ∀ fuel, 2 * t.length + 1 ≤ fuel →
      ∃ r t', parseObject H fuel (t ++ [0]) = some (r, t' ++ [0]) ∧ t' <:+ t ∧ ((∃ v, r = .ok v) → t'.length < t.length) := by
    intro t hn hs fuel hf
    obtain ⟨fuel, rfl⟩ : ∃ f, fuel = f + 1 := ⟨fuel - 1, by omega⟩
    obtain ⟨tok, h1, t1, t2, h2, h3, h4, h5, h6, h7⟩ := scanToken_some true hs
    rw [parseObject, h1, Option.bind_some, h2, h3]
    split
    · exact ⟨_, t2, rfl, h5, fun ⟨v, hv⟩ => by cases hv⟩
    · next hemp =>
      have hne := h6.resolve_left hemp
      have h7 := h7 hne
      cases hobj : tok.obj with
      | some s => exact ⟨_, t2, rfl, h5, fun _ => h7.resolve_right fun h => by rw [hobj] at h; cases h.1⟩
      | none =>
        simp only
        obtain ⟨c, hc, -, hch⟩ := head_nul t1
        have hch := hch hne
        rw [hc, Option.bind_some]
        have hlt : c ≠ 0x23 → t2.length < t.length := fun h => h7.resolve_right fun h' => by rw [hch] at h'; cases h'.2; exact h rfl
        split
        · next hb =>
          have hlt := hlt (by rw [hb]; decide)
          obtain ⟨r, t', e1, e2⟩ := (ih t2.length (by omega)).2.1 (Nat.le_refl _) (hs.suffix h5) fuel [] (by omega)
          exact ⟨r, t', e1, e2.trans h5, fun _ => by have := e2.length_le; omega⟩
        · split
          · exact ⟨_, t2, rfl, h5, fun ⟨v, hv⟩ => by cases hv⟩
          · split
            · next hb =>
              have hlt := hlt (by rw [hb]; decide)
              obtain ⟨r, t', e1, e2⟩ := (ih t2.length (by omega)).2.2 (Nat.le_refl _) (hs.suffix h5) fuel [] (by omega)
              exact ⟨r, t', e1, e2.trans h5, fun _ => by have := e2.length_le; omega⟩
            · split
              · exact ⟨_, t2, rfl, h5, fun ⟨v, hv⟩ => by cases hv⟩
              · split
                · next hb =>
                  obtain ⟨x, e1, -⟩ := strtonum_some (m := t1 ++ [0]) (by simp)
                  rw [e1]
                  exact ⟨_, t2, rfl, h5, fun _ => hlt (by rintro rfl; revert hb; decide)⟩
                · obtain ⟨x, e1⟩ := parseWord_some t1
                  rw [e1]
                  refine ⟨_, t2, rfl, h5, fun ⟨v, hv⟩ => hlt ?_⟩
                  rintro rfl
                  match t1, hch with
                  | _ :: t1, rfl =>
                    rw [List.cons_append, parseWord_hash] at e1
                    cases e1; cases hv
  refine ⟨P, ?_, ?_⟩
  · intro t hn hs fuel acc hf
    obtain ⟨fuel, rfl⟩ : ∃ f, fuel = f + 1 := ⟨fuel - 1, by omega⟩
    obtain ⟨r, t', h1, h2, h3⟩ := P hn hs fuel (by omega)
    rw [parseList, h1, Option.bind_some]
    cases r with
    | closeList => exact ⟨_, t', rfl, h2⟩
    | closeDict => exact ⟨_, t', rfl, h2⟩
    | error => exact ⟨_, t', rfl, h2⟩
    | ok v =>
      simp only
      have h3 := h3 ⟨v, rfl⟩
      obtain ⟨tok, e1, t1, t2, e2, e3, e4, e5, -, e7⟩ := scanToken_some false (hs.suffix h2)
      rw [e1, Option.bind_some, e2, e3]
      obtain ⟨c, hc, hc0, hch⟩ := head_nul t1
      rw [hc, Option.bind_some]
      split
      · exact ⟨_, t2, rfl, e5.trans h2⟩
      · split
        · next hcc =>
          have hne := hc0 (by rw [hcc]; decide)
          have hlt := (e7 hne).resolve_right fun h => by rw [hch hne, hcc] at h; exact absurd h.2 (by decide)
          obtain ⟨r, t3, f1, f2⟩ := (ih t2.length (by omega)).2.1 (Nat.le_refl _) (hs.suffix (e5.trans h2)) fuel (acc ++ [v]) (by omega)
          exact ⟨r, t3, f1, f2.trans (e5.trans h2)⟩
        · exact ⟨_, t2, rfl, e5.trans h2⟩
  · intro t hn hs fuel acc hf
    obtain ⟨fuel, rfl⟩ : ∃ f, fuel = f + 1 := ⟨fuel - 1, by omega⟩
    obtain ⟨r, t', h1, h2, h3⟩ := P hn hs fuel (by omega)
    rw [parseDict, h1, Option.bind_some]
    cases r with
    | closeList => exact ⟨_, t', rfl, h2⟩
    | closeDict => exact ⟨_, t', rfl, h2⟩
    | error => exact ⟨_, t', rfl, h2⟩
    | ok v =>
      have h3 := h3 ⟨v, rfl⟩
      cases v with
      | str k =>
        simp only
        obtain ⟨tok, e1, t1, t2, e2, e3, e4, e5, -, e7⟩ := scanToken_some false (hs.suffix h2)
        rw [e1, Option.bind_some, e2, e3]
        obtain ⟨c, hc, hc0, hch⟩ := head_nul t1
        rw [hc, Option.bind_some]
        split
        · next hcc =>
          have hne := hc0 (by rw [hcc]; decide)
          have hlt := (e7 hne).resolve_right fun h => by rw [hch hne, hcc] at h; exact absurd h.2 (by decide)
          have hs2 := hs.suffix (e5.trans h2)
          obtain ⟨r, t3, f1, f2, f3⟩ := P (t := t2) (by omega) hs2 fuel (by omega)
          rw [f1, Option.bind_some]
          have hsuf3 := f2.trans (e5.trans h2)
          cases r with
          | closeList => exact ⟨_, t3, rfl, hsuf3⟩
          | closeDict => exact ⟨_, t3, rfl, hsuf3⟩
          | error => exact ⟨_, t3, rfl, hsuf3⟩
          | ok v =>
            simp only
            have f3 := f3 ⟨v, rfl⟩
            obtain ⟨tok, g1, u1, u2, g2, g3, g4, g5, -, g7⟩ := scanToken_some false (hs.suffix hsuf3)
            rw [g1, Option.bind_some, g2, g3]
            obtain ⟨c, hc, hc0, hch⟩ := head_nul u1
            rw [hc, Option.bind_some]
            have hsuf4 := g5.trans hsuf3
            split
            · exact ⟨_, u2, rfl, hsuf4⟩
            · split
              · have := g5.length_le
                obtain ⟨r, t4, i1, i2⟩ := (ih u2.length (by omega)).2.2 (Nat.le_refl _) (hs.suffix hsuf4) fuel (setEntry k v acc) (by omega)
                exact ⟨r, t4, i1, i2.trans hsuf4⟩
              · exact ⟨_, u2, rfl, hsuf4⟩
        · exact ⟨_, t2, rfl, e5.trans h2⟩
      | _ => exact ⟨_, t', rfl, h2⟩

theorem fine_parse {H : Host} {s : List UInt8} (h : Fine H s) : ∃ v, parse H (s ++ [0]) = some v := by
  obtain ⟨r, t', h1, -⟩ := (parse_some s.length).1 (Nat.le_refl _) h (2 * (s ++ [0]).length) (by simp; omega)
  exact ⟨_, by rw [parse, h1]; rfl⟩

/-! ## When a text is fine -/

theorem appendBytes_length {c u : Nat} {bs : List UInt8} (h : appendBytes c u = some bs) : bs.length ≤ 4 ∧ bs.length ≠ 0 := by
  unfold appendBytes appendSlow at h
  repeat' split at h
  all_goals first | (cases h; done) | (cases h; simp [enc2, enc3, enc4])

theorem ustrwrite_eight (ch : Int) : ∃ r, ustrwrite ch (List.replicate 8 0) = some r := by
  unfold ustrwrite
  simp only
  split
  · exact ⟨_, rfl⟩
  · next bs hbs =>
    have := appendBytes_length hbs
    rw [store, if_pos (by rw [List.length_replicate]; omega), Option.bind_some]
    split <;> exact ⟨_, rfl⟩

end Json
end Duck
