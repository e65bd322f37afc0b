import Verif.Lemmas.JsonLoose
/-! Lemmas for the converse half of C63: numerals and words. -/
namespace Duck
namespace Json
open Unicode Num

theorem digits_span (t : List UInt8) : ∃ ds r, t = ds ++ r ∧ Digits ds ∧ ∀ b, r.head? = some b → ¬ (48 ≤ b.toNat ∧ b.toNat ≤ 57) := by
  induction t with
  | nil => exact ⟨[], [], rfl, by simp [Digits], by simp⟩
  | cons b t ih =>
    by_cases hb : 48 ≤ b.toNat ∧ b.toNat ≤ 57
    · obtain ⟨ds, r, h1, h2, h3⟩ := ih
      refine ⟨b :: ds, r, by rw [h1]; rfl, ?_, h3⟩
      intro x hx
      rcases List.mem_cons.mp hx with rfl | hx
      · exact hb
      · exact h2 x hx
    · exact ⟨[], b :: t, rfl, by simp [Digits], by rintro x ⟨⟩; exact hb⟩

theorem exp_span (frac : Option (List UInt8)) {t : List UInt8} (ht : ∀ b, t.head? = some b → ¬ (48 ≤ b.toNat ∧ b.toNat ≤ 57) ∧ (frac = none → b ≠ 0x2e)) :
    ∃ exp r, t = (exp.elim [] fun e : Bool × List UInt8 => (if e.1 then 0x45 else 0x65) :: e.2) ++ r ∧ (∀ e, exp = some e → Digits e.2) ∧
      Ends frac exp r := by
  match t, ht with
  | [], _ => exact ⟨none, [], rfl, nofun, by simp [Ends]⟩
  | b :: t, ht =>
    by_cases h1 : b = 0x65 ∨ b = 0x45
    · obtain ⟨ds, r, e1, e2, e3⟩ := digits_span t
      refine ⟨some (b == 0x45, ds), r, ?_, by rintro e ⟨⟩; exact e2, fun x hx => ⟨e3 x hx, nofun⟩⟩
      rcases h1 with rfl | rfl <;> simp [e1]
    · refine ⟨none, b :: t, rfl, nofun, ?_⟩
      rintro x ⟨⟩
      exact ⟨(ht b rfl).1, fun _ => ⟨(not_or.mp h1).1, (not_or.mp h1).2, (ht b rfl).2⟩⟩

/-- Every text that starts like a number starts with a numeral. -/
theorem numeral_span {x : UInt8} {t : List UInt8} (h : x = 0x2d ∨ isDigit x = true) : ∃ neg ds frac exp r,
    x :: t = numeral neg false ds frac exp ++ r ∧ (neg = true ∨ ds ≠ []) ∧ Digits ds ∧ (∀ fs, frac = some fs → Digits fs) ∧
    (∀ e, exp = some e → Digits e.2) ∧ Ends frac exp r := by
  obtain ⟨neg, t0, h1, h2⟩ : ∃ neg t0, x :: t = signText neg false ++ t0 ∧ (neg = true ∨ ∃ b, t0.head? = some b ∧ isDigit b = true) := by
    by_cases hx : x = 0x2d
    · exact ⟨true, t, by rw [hx]; rfl, Or.inl rfl⟩
    · exact ⟨false, x :: t, rfl, Or.inr ⟨x, rfl, h.resolve_left hx⟩⟩
  obtain ⟨ds, t1, e1, e2, e3⟩ := digits_span t0
  have hne : neg = true ∨ ds ≠ [] := by
    refine h2.imp_right ?_
    rintro ⟨b, hb, hd⟩ rfl
    rw [List.nil_append] at e1
    rw [e1] at hb
    exact e3 b hb ((isDigit_iff b).mp hd)
  have key : ∃ frac t2, t1 = (frac.elim [] fun fs : List UInt8 => 0x2e :: fs) ++ t2 ∧ (∀ fs, frac = some fs → Digits fs) ∧
      ∀ b, t2.head? = some b → ¬ (48 ≤ b.toNat ∧ b.toNat ≤ 57) ∧ (frac = none → b ≠ 0x2e) := by
    match t1, e3 with
    | [], _ => exact ⟨none, [], rfl, nofun, by simp⟩
    | b :: t1, e3 =>
      by_cases hb : b = 0x2e
      · obtain ⟨fs, t2, f1, f2, f3⟩ := digits_span t1
        exact ⟨some fs, t2, by simp [hb, f1], by rintro e ⟨⟩; exact f2, fun x hx => ⟨f3 x hx, nofun⟩⟩
      · exact ⟨none, b :: t1, rfl, nofun, by rintro x ⟨⟩; exact ⟨e3 b rfl, fun _ => hb⟩⟩
  obtain ⟨frac, t2, f1, f2, f3⟩ := key
  obtain ⟨exp, r, g1, g2, g3⟩ := exp_span frac f3
  refine ⟨neg, ds, frac, exp, r, ?_, hne, e2, f2, g2, g3⟩
  rw [h1, e1, f1, g1, numeral]
  simp

theorem sign_loose {neg : Bool} {ds : List UInt8} (h : neg = true ∨ ds ≠ []) (hd : Digits ds) (m : Mem) :
    sign (signText neg false ++ ds ++ m) = some (neg, ds ++ m) ∧ ∃ c t, signText neg false ++ ds ++ m = c :: t ∧ isSpace c = false := by
  cases neg with
  | true => exact ⟨rfl, 0x2d, ds ++ m, rfl, by decide⟩
  | false =>
    match ds, h.resolve_left (by simp), hd with
    | d :: ds, _, hd =>
      have := hd d (by simp)
      refine ⟨?_, d, ds ++ m, rfl, digit_not_space this⟩
      have := sign_eq false false this (ds ++ m)
      simpa using this

theorem digits_all {ds : List UInt8} (hd : Digits ds) {b : UInt8} (hb : ¬ (48 ≤ b.toNat ∧ b.toNat ≤ 57)) (m : Mem) :
    digits (some 0) (ds ++ b :: m) = some (if value ds < 2 ^ 63 then some (value ds) else none, b :: m) := by
  rw [digits_eq hd (isDigit_false hb) m (some 0) (by intro a ha; cases ha; omega)]
  rfl

theorem expPart_all {exp : Option (Bool × List UInt8)} (hx : ∀ e, exp = some e → Digits e.2)
    {b : UInt8} (hb : ¬ (48 ≤ b.toNat ∧ b.toNat ≤ 57)) (he : exp = none → b ≠ 0x65 ∧ b ≠ 0x45) (m : Mem) :
    expPart ((exp.elim [] fun e => (if e.1 then 0x45 else 0x65) :: e.2) ++ b :: m) =
      some (exp.map fun e => if value e.2 < 2 ^ 63 then some (value e.2) else none, b :: m) := by
  cases exp with
  | none =>
    have := he rfl
    simp [expPart, this.1, this.2]
  | some e =>
    have : ((if e.1 then 0x45 else 0x65 : UInt8) == 101 || (if e.1 then 0x45 else 0x65 : UInt8) == 69) = true := by cases e.1 <;> rfl
    simp only [Option.elim_some, List.cons_append, expPart, List.head?_cons, Option.bind_some, this, if_true, List.tail_cons]
    rw [digits_all (hx e rfl) hb]; rfl

theorem fracPart_all {frac : Option (List UInt8)} (hf : ∀ fs, frac = some fs → Digits fs)
    {b : UInt8} (hb : ¬ (48 ≤ b.toNat ∧ b.toNat ≤ 57)) (he : frac = none → b ≠ 0x2e) (m : Mem) :
    ∃ r, fracPart ((frac.elim [] fun fs => 0x2e :: fs) ++ b :: m) = some (r, b :: m) ∧
      (frac = none → r = none) ∧ (∀ fs, frac = some fs → if fs.length ≤ 17 then ∃ d, r = some (fs.map (fun b => b.toNat - 48), some d)
        else ∃ l, r = some (l, none)) := by
  cases frac with
  | none =>
    exact ⟨none, by simp [fracPart, he rfl], fun _ => rfl, fun fs h => by cases h⟩
  | some fs =>
    have hd := fraction_eq (hf fs rfl) (isDigit_false hb) m [] 1 (by omega) (by omega)
    by_cases h17 : fs.length ≤ 17
    · have hp : 10 ^ (1 + fs.length) ≤ 10 ^ 18 := Nat.pow_le_pow_right (by omega) (by omega)
      rw [if_pos (by omega)] at hd
      refine ⟨some (fs.map (fun b => b.toNat - 48), some (10 ^ (1 + fs.length))), ?_, nofun, fun gs h => by cases h; rw [if_pos h17]; exact ⟨_, rfl⟩⟩
      simp only [Option.elim_some, List.cons_append, fracPart, List.head?_cons, Option.bind_some, List.tail_cons]
      rw [if_pos (by rfl), show some 10 = some (10 ^ 1) from rfl, hd]; rfl
    · have hp : 10 ^ 19 ≤ 10 ^ (1 + fs.length) := Nat.pow_le_pow_right (by omega) (by omega)
      rw [if_neg (by omega)] at hd
      refine ⟨some (fs.map (fun b => b.toNat - 48), none), ?_, nofun, fun gs h => by cases h; rw [if_neg h17]; exact ⟨_, rfl⟩⟩
      simp only [Option.elim_some, List.cons_append, fracPart, List.head?_cons, Option.bind_some, List.tail_cons]
      rw [if_pos (by rfl), show some 10 = some (10 ^ 1) from rfl, hd]; rfl

theorem reading_in {neg : Bool} {ds : List UInt8} {frac : Option (List UInt8)} {exp : Option (Bool × List UInt8)}
    (h1 : value ds < 2 ^ 63) (h2 : (frac.getD []).length ≤ 17) (h3 : value (exp.elim [] (·.2)) < 2 ^ 63) :
    reading neg ds frac exp = meaning neg ds frac exp := if_pos ⟨h1, h2, h3⟩

theorem reading_out {neg : Bool} {ds : List UInt8} {frac : Option (List UInt8)} {exp : Option (Bool × List UInt8)}
    (h : ¬ (value ds < 2 ^ 63 ∧ (frac.getD []).length ≤ 17 ∧ value (exp.elim [] (·.2)) < 2 ^ 63)) :
    reading neg ds frac exp = .overflow := if_neg h

/-- What a numeral is read as, in range or not. -/
theorem strtonum_loose {neg : Bool} {ds : List UInt8} {frac : Option (List UInt8)} {exp : Option (Bool × List UInt8)}
    (h : neg = true ∨ ds ≠ []) (hd : Digits ds) (hf : ∀ fs, frac = some fs → Digits fs) (hx : ∀ e, exp = some e → Digits e.2)
    {rest : List UInt8} (hr : Ends frac exp rest) :
    strtonum (numeral neg false ds frac exp ++ rest ++ [0]) = some (reading neg ds frac exp, rest ++ [0]) := by
  obtain ⟨b, m, hbm, hb1, hb2⟩ : ∃ b m, rest ++ [0] = b :: m ∧ ¬ (48 ≤ b.toNat ∧ b.toNat ≤ 57) ∧
      (exp = none → b ≠ 0x65 ∧ b ≠ 0x45 ∧ (frac = none → b ≠ 0x2e)) := by
    match rest, hr with
    | [], _ => exact ⟨0, [], rfl, by decide, fun _ => ⟨by decide, by decide, fun _ => by decide⟩⟩
    | b :: rest, hr => exact ⟨b, rest ++ [0], rfl, (hr b rfl).1, (hr b rfl).2⟩
  obtain ⟨b2, m2, hm2, h2, h2n, h2s⟩ := exp_head exp hb1 m
  have hexp := expPart_all hx hb1 (fun h => ⟨(hb2 h).1, (hb2 h).2.1⟩) m
  rw [hm2] at hexp
  obtain ⟨fr, hfrac, hfn, hfs⟩ := fracPart_all hf (b := b2) h2 (by
    intro hn
    by_cases he : exp = none
    · rw [h2n he]; exact (hb2 he).2.2 hn
    · rcases h2s he with h | h <;> rw [h] <;> decide) m2
  obtain ⟨b3, m3, hm3, h3⟩ := frac_head frac m2 h2
  rw [hm3] at hfrac
  have hdig := digits_all hd h3 m3
  obtain ⟨hs1, c, t, ect, hc⟩ := sign_loose h hd (b3 :: m3)
  have etext : numeral neg false ds frac exp ++ rest ++ [0] = signText neg false ++ ds ++ b3 :: m3 := by
    rw [List.append_assoc, hbm, numeral, ← hm3, ← hm2]
    simp
  rw [strtonum, etext, ect, show c :: t = [] ++ c :: t from rfl, skipWs_eq (by simp) hc, ← ect, Option.bind_some, hs1, Option.bind_some]
  simp only
  rw [hdig, Option.bind_some]
  simp only
  rw [hfrac, Option.bind_some]
  simp only
  rw [hexp, Option.map_some]
  simp only
  rw [hbm]
  congr 2
  by_cases h63 : value ds < 2 ^ 63
  · rw [if_pos h63]
    cases frac with
    | none =>
      rw [hfn rfl]
      cases exp with
      | none => rw [reading_in (frac := none) (exp := none) h63 (by simp) (by simp [value])]; rfl
      | some e =>
        by_cases h64 : value e.2 < 2 ^ 63
        · rw [reading_in (frac := none) (exp := some e) h63 (by simp) h64, Option.map_some, if_pos h64]; rfl
        · rw [reading_out (frac := none) (exp := some e) (fun h => h64 h.2.2), Option.map_some, if_neg h64]; rfl
    | some fs =>
      have := hfs fs rfl
      by_cases h17 : fs.length ≤ 17
      · rw [if_pos h17] at this
        obtain ⟨d, rfl⟩ := this
        cases exp with
        | none => rw [reading_in (frac := some fs) (exp := none) h63 h17 (by simp [value])]; rfl
        | some e =>
          by_cases h64 : value e.2 < 2 ^ 63
          · rw [reading_in (frac := some fs) (exp := some e) h63 h17 h64, Option.map_some, if_pos h64]; rfl
          · rw [reading_out (frac := some fs) (exp := some e) (fun h => h64 h.2.2), Option.map_some, if_neg h64]; rfl
      · rw [if_neg h17] at this
        obtain ⟨l, rfl⟩ := this
        rw [reading_out (frac := some fs) (fun h => h17 h.2.1)]
        cases exp with
        | none => rfl
        | some e => rw [Option.map_some]; split <;> rfl
  · rw [if_neg h63, reading_out (fun h => h63 h.1)]; rfl

/-! ## Words -/

/-- A prefix made of word bytes lies within the word. -/
theorem prefix_word {p u r z : List UInt8} (h : u ++ r = p ++ z) (hp : ∀ b ∈ p, ¬ Blank b ∧ ¬ Punct b) (hr : Stop r) :
    ∃ u', u = p ++ u' ∧ z = u' ++ r := by
  induction p generalizing u with
  | nil => exact ⟨u, rfl, by simpa using h.symm⟩
  | cons x p ih =>
    rcases u with _ | ⟨y, u⟩
    · rw [List.nil_append] at h
      have h1 := hr x (by rw [h]; rfl)
      have h2 := hp x (by simp)
      exact absurd h1 (not_or.mpr h2)
    · simp only [List.cons_append, List.cons.injEq] at h
      obtain ⟨u', e1, e2⟩ := ih h.2 fun x hx => hp x (by simp [hx])
      exact ⟨u', by rw [h.1, e1]; rfl, e2⟩

theorem wordByte_plain {b : UInt8} (h : WordByte b) : ¬ Blank b ∧ ¬ Punct b := by
  obtain ⟨h1, h2, h3, h4, -⟩ := h
  rw [← Bool.not_eq_true] at h3 h4
  exact ⟨fun e => h3 ((isSpace_iff b).mpr e), fun e => h4 ((isToken_iff h1).mpr e)⟩

theorem startsWith_iff : ∀ (p t : List UInt8), (0 : UInt8) ∉ p → ∃ c, startsWith (t ++ [0]) p = some c ∧ (c = true ↔ p <+: t) := by
  intro p
  induction p with
  | nil => intro t _; exact ⟨true, by cases t <;> rfl, by simp⟩
  | cons x p ih =>
    intro t hp
    match t with
    | [] =>
      refine ⟨false, ?_, by simp⟩
      have : (0 : UInt8) ≠ x := fun e => hp (by simp [e])
      simp [startsWith, this]
    | b :: t =>
      by_cases hb : b = x
      · obtain ⟨c, h1, h2⟩ := ih t (fun e => hp (by simp [e]))
        refine ⟨c, by rw [List.cons_append, startsWith, if_pos hb, h1], ?_⟩
        rw [h2, hb, List.cons_prefix_cons]; simp
      · refine ⟨false, by rw [List.cons_append, startsWith, if_neg hb], ?_⟩
        rw [List.cons_prefix_cons]
        simp [Ne.symm hb]

theorem parseWord_sound {t : List UInt8} {v : Json} (h : parseWord (t ++ [0]) = some (.ok v)) :
    (v = .bool true ∧ [0x74, 0x72, 0x75, 0x65] <+: t) ∨ (v = .bool false ∧ [0x66, 0x61, 0x6c, 0x73, 0x65] <+: t) ∨
    (v = .null ∧ [0x6e, 0x75, 0x6c, 0x6c] <+: t) := by
  obtain ⟨c1, h1, i1⟩ := startsWith_iff [0x74, 0x72, 0x75, 0x65] t (by decide)
  obtain ⟨c2, h2, i2⟩ := startsWith_iff [0x66, 0x61, 0x6c, 0x73, 0x65] t (by decide)
  obtain ⟨c3, h3, i3⟩ := startsWith_iff [0x6e, 0x75, 0x6c, 0x6c] t (by decide)
  rw [parseWord, h1, Option.bind_some] at h
  cases c1 with
  | true => cases h; exact Or.inl ⟨rfl, i1.mp rfl⟩
  | false =>
    simp only [Bool.false_eq_true, if_false] at h
    rw [h2, Option.bind_some] at h
    cases c2 with
    | true => cases h; exact Or.inr (Or.inl ⟨rfl, i2.mp rfl⟩)
    | false =>
      simp only [Bool.false_eq_true, if_false] at h
      rw [h3, Option.bind_some] at h
      cases c3 with
      | true => cases h; exact Or.inr (Or.inr ⟨rfl, i3.mp rfl⟩)
      | false => cases h

end Json
end Duck
