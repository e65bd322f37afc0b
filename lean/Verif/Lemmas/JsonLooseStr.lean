import Verif.Lemmas.JsonLooseNum
/-! Lemmas for the converse half of C63: string literals and tokens. -/
namespace Duck
namespace Json
open Unicode Num

/-! ## `\u` -/

theorem hexDigit_lt {b : UInt8} {d : Nat} (h : hexDigit b = some d) : d < 16 := by
  unfold hexDigit at h
  split at h
  · cases h; omega
  · split at h
    · cases h; omega
    · split at h
      · cases h; omega
      · cases h

theorem hexGo_lt : ∀ (bs : List UInt8) (acc : Nat), hexGo acc bs < (acc + 1) * 16 ^ bs.length := by
  intro bs
  induction bs with
  | nil => intro acc; simp [hexGo]
  | cons b bs ih =>
    intro acc
    have hp : 0 < 16 ^ bs.length := Nat.pow_pos (by omega)
    rw [hexGo]
    cases h : hexDigit b with
    | none =>
      simp only [List.length_cons, Nat.pow_succ]
      have : (acc + 1) * 1 ≤ (acc + 1) * (16 ^ bs.length * 16) := Nat.mul_le_mul_left _ (by omega)
      omega
    | some d =>
      simp only [List.length_cons, Nat.pow_succ]
      have h1 := ih (acc * 16 + d)
      have h2 := hexDigit_lt h
      have : (acc * 16 + d + 1) * 16 ^ bs.length ≤ ((acc + 1) * 16) * 16 ^ bs.length := Nat.mul_le_mul_right _ (by omega)
      have e : ((acc + 1) * 16) * 16 ^ bs.length = (acc + 1) * (16 ^ bs.length * 16) := by rw [Nat.mul_assoc, Nat.mul_comm 16]
      omega

theorem hexSkip_length (bs : List UInt8) : (hexSkip bs).length ≤ bs.length := by
  induction bs with
  | nil => simp [hexSkip]
  | cons b bs ih => rw [hexSkip]; split <;> simp <;> omega

theorem hexBody_lt {bs : List UInt8} (h : bs.length ≤ 4) : hexBody bs < 65536 := by
  have key : ∀ l : List UInt8, l.length ≤ 4 → hexGo 0 l < 65536 := by
    intro l hl
    have h1 := hexGo_lt l 0
    have : 16 ^ l.length ≤ 16 ^ 4 := Nat.pow_le_pow_right (by omega) hl
    omega
  unfold hexBody
  split
  · split
    · exact key _ (by simp at h ⊢; omega)
    · exact key _ h
  · exact key _ h

theorem strtol16_range {bs : List UInt8} (h : bs.length ≤ 4) : -65536 < strtol16 bs ∧ strtol16 bs < 65536 := by
  have hl := hexSkip_length bs
  unfold strtol16
  split
  · next bs' e =>
    rw [e] at hl
    have := hexBody_lt (bs := bs') (by simp at hl; omega)
    omega
  · next bs' e =>
    rw [e] at hl
    have := hexBody_lt (bs := bs') (by simp at hl; omega)
    omega
  · have := hexBody_lt (bs := hexSkip bs) (by omega)
    omega

theorem enc_zero {ch : Char} (h : ch.toNat = 0) : String.utf8EncodeChar ch = [0] := by
  rw [enc_eq, h]; rfl

theorem unicodePoint_char (H : Host) {q : List UInt8} (hq : q.length = 4) (m : Mem) {ch : Char} (h : strtol16 q = (ch.toNat : Int)) :
    unicodePoint H (q ++ m) = some (if ch.toNat = 0 then [] else String.utf8EncodeChar ch) := by
  have hl := enc_length_le ch
  have hw := C33_write ch (List.replicate 8 0) (by simp) (by rw [List.length_replicate]; omega)
  rw [unicodePoint, if_pos (by simp; omega), show (q ++ m).take 4 = q by rw [← hq, List.take_left], h, hw, Option.bind_some]
  have hp : (String.utf8EncodeChar ch).length ≠ 0 := by
    have := encNat_length_pos ch.toNat
    rw [enc_eq]; omega
  simp only
  rw [if_neg hp]
  by_cases h0 : ch.toNat = 0
  · rw [if_pos h0, enc_zero h0]; rfl
  · rw [if_neg h0, takeWhile_ne (enc_nulfree h0)]

theorem unicodePoint_sound {q : List UInt8} (hq : q.length = 4) {m : Mem} {x} (h : unicodePoint H0 (q ++ m) = some x) :
    ∃ ch : Char, strtol16 q = (ch.toNat : Int) ∧ x = if ch.toNat = 0 then [] else String.utf8EncodeChar ch := by
  by_cases hc : ∃ ch : Char, strtol16 q = (ch.toNat : Int)
  · obtain ⟨ch, hc⟩ := hc
    refine ⟨ch, hc, ?_⟩
    rw [unicodePoint_char H0 hq m hc] at h
    exact (Option.some.inj h).symm
  · have hr := strtol16_range (bs := q) (by omega)
    have := C33_write_refused (strtol16 q) (List.replicate 8 0) (by simp) (by simp) (by omega)
      (Or.inl fun ch e => hc ⟨ch, e.symm⟩)
    rw [unicodePoint, if_pos (by simp; omega), show (q ++ m).take 4 = q by rw [← hq, List.take_left], this, Option.bind_some] at h
    simp [strict] at h

/-! ## Escapes -/

theorem escapeChar_none {c : UInt8} (h : c ∉ escapes.map (·.1)) : escapeChar (c.toNat : Int) = [] := by
  have key : ∀ n : Nat, n < 256 → UInt8.ofNat n ∉ escapes.map (·.1) → escapeChar ((n : Nat) : Int) = [] := by decide +kernel
  have := key c.toNat c.toNat_lt
  rw [UInt8.ofNat_toNat] at this
  exact this h

theorem escapeChar_wide {c : Int} (h : c = -1 ∨ 128 ≤ c) : escapeChar c = [] := by
  unfold escapeChar
  repeat rw [if_neg (by omega)]

theorem lstr_trail {u : List UInt8} (hu : ∀ x ∈ u, IsTrailByte x) {t s r : List UInt8} (h : LStr t s r) : LStr (u ++ t) (u ++ s) r := by
  induction u with
  | nil => exact h
  | cons x u ih =>
    have hx := hu x (by simp)
    unfold IsTrailByte at hx
    refine .raw x _ _ _ ?_ ?_ (ih fun y hy => hu y (by simp [hy]))
    · rintro rfl; revert hx; decide
    · rintro rfl; revert hx; decide

theorem lstr_split {u : List UInt8} (hu : ∀ x ∈ u, IsTrailByte x) : ∀ {t s r : List UInt8}, LStr (u ++ t) s r → ∃ s', s = u ++ s' ∧ LStr t s' r := by
  induction u with
  | nil => intro t s r h; exact ⟨s, rfl, h⟩
  | cons x u ih =>
    intro t s r h
    have hx := hu x (by simp)
    unfold IsTrailByte at hx
    have n1 : x ≠ 0x22 := by rintro rfl; revert hx; decide
    have n2 : x ≠ 0x5c := by rintro rfl; revert hx; decide
    rw [List.cons_append] at h
    generalize hz : x :: (u ++ t) = z at h
    cases h with
    | raw b t' s' _ _ _ h =>
      cases hz
      obtain ⟨s'', rfl, h'⟩ := ih (fun y hy => hu y (by simp [hy])) h
      exact ⟨s'', rfl, h'⟩
    | ends => cases hz
    | _ => injection hz with hz; first | exact absurd hz n1 | exact absurd hz n2

/-! ## String literals -/

theorem scanString_sound : ∀ (fuel : Nat) {t : List UInt8} {acc a m}, NulFree t → scanString H0 true fuel (t ++ [0]) acc = some (a, m) →
    ∃ s r, a = acc ++ s ∧ m = r ++ [0] ∧ LStr t s r ∧ r <:+ t := by
  intro fuel
  induction fuel with
  | zero =>
    intro t acc a m hs h
    match t, hs with
    | [], _ =>
      rw [scanString.eq_def] at h
      simp [ustrscan_zero] at h
      exact ⟨[], [], by simp [h.1], by simp [h.2], .ends, List.suffix_rfl⟩
    | b :: t, hs =>
      have h0 : b ≠ 0 := fun e => hs (by simp [e])
      obtain ⟨c, u, s', rfl, h2, h3, h4, h5⟩ := chunk h0 t
      rw [scanString.eq_def, h3, Option.bind_some] at h
      simp only at h
      rw [if_neg (by omega)] at h
      cases h
  | succ fuel ih =>
    intro t acc a m hs h
    match t, hs with
    | [], _ =>
      rw [scanString.eq_def] at h
      simp [ustrscan_zero] at h
      exact ⟨[], [], by simp [h.1], by simp [h.2], .ends, List.suffix_rfl⟩
    | b :: t, hs =>
      have h0 : b ≠ 0 := fun e => hs (by simp [e])
      obtain ⟨c, u, s', rfl, h2, h3, h4, h5⟩ := chunk h0 t
      have hs' : NulFree s' := fun e => hs (by simp [e])
      rw [scanString.eq_def, h3, Option.bind_some] at h
      simp only at h
      rw [if_neg (by omega)] at h
      have ed : (b :: (u ++ s') ++ [0]).drop (u.length + 1) = s' ++ [0] := by simp
      have byte : ∀ n : Nat, n < 128 → c = n → b = UInt8.ofNat n ∧ u = [] := by
        intro n hn hc
        by_cases hb : b.toNat < 128
        · obtain ⟨e1, e2⟩ := h4 hb
          refine ⟨?_, e2⟩
          rw [← UInt8.ofNat_toNat (x := b)]; congr 1; omega
        · rcases h5 (by omega) with h | h <;> omega
      by_cases h92 : c = 92
      · rw [if_pos h92] at h
        obtain ⟨rfl, rfl⟩ := byte 92 (by omega) h92
        rw [ed] at h
        simp only [List.nil_append, List.length_nil, Nat.zero_add] at h
        match s', hs', hs, h with
        | [], _, _, h =>
          rw [List.nil_append, ustrscan_zero, Option.bind_some] at h
          simp only at h
          rw [if_neg (by omega)] at h
          have h : scanString H0 true fuel ([] ++ [0]) (acc ++ escapeChar 0) = some (a, m) := h
          obtain ⟨s, r, e1, e2, e3, e4⟩ := ih (by simp [NulFree]) h
          cases e3
          exact ⟨[], [], by rw [e1]; simp [escapeChar], e2, .slash, by simp⟩
        | b2 :: t2, hs', hs, h =>
          have h20 : b2 ≠ 0 := fun e => hs' (by simp [e])
          obtain ⟨c2, u2, s2, rfl, f2, f3, f4, f5⟩ := chunk h20 t2
          have hs2 : NulFree s2 := fun e => hs' (by simp [e])
          rw [f3, Option.bind_some] at h
          simp only at h
          have ed2 : (UInt8.ofNat 92 :: b2 :: (u2 ++ s2) ++ [0]).drop (1 + (u2.length + 1)) = s2 ++ [0] := by
            rw [Nat.add_comm 1]; simp
          by_cases h117 : c2 = 117
          · rw [if_pos h117] at h
            have : b2 = 0x75 ∧ u2 = [] := by
              by_cases hb : b2.toNat < 128
              · obtain ⟨e1, e2⟩ := f4 hb
                refine ⟨?_, e2⟩
                apply UInt8.toNat_inj.mp
                show b2.toNat = 117
                omega
              · rcases f5 (by omega) with h | h <;> omega
            obtain ⟨rfl, rfl⟩ := this
            have ed3 : (UInt8.ofNat 92 :: 0x75 :: ([] ++ s2) ++ [0]).drop (1 + (([] : List UInt8).length + 1) + 4) = (s2 ++ [0]).drop 4 := by
              rw [← List.drop_drop, ed2]
            rw [ed2, ed3] at h
            simp only [if_true] at h
            match s2, hs2, h with
            | [], _, h => simp [unicodePoint] at h
            | [_], _, h => simp [unicodePoint] at h
            | [_, _], _, h => simp [unicodePoint] at h
            | [_, _, _], _, h =>
              exfalso
              obtain ⟨x, -, h⟩ := Option.bind_eq_some_iff.mp h
              rw [scanString.eq_def] at h
              simp [ustrscan, rd] at h
            | q3 :: q2 :: q1 :: q0 :: s3, hs2, h =>
              obtain ⟨x, hx, h⟩ := Option.bind_eq_some_iff.mp h
              obtain ⟨ch, g1, rfl⟩ := unicodePoint_sound (q := [q3, q2, q1, q0]) rfl (m := s3 ++ [0]) hx
              have hs3 : NulFree s3 := fun e => hs2 (by simp [e])
              obtain ⟨s, r, e1, e2, e3, e4⟩ := ih hs3 h
              refine ⟨_, r, ?_, e2, .uni q3 q2 q1 q0 ch s3 s r g1 e3, ?_⟩
              · rw [e1, List.append_assoc]
              · exact e4.trans ⟨[0x5c, 0x75, q3, q2, q1, q0], rfl⟩
          · rw [if_neg h117, ed2] at h
            obtain ⟨s, r, e1, e2, e3, e4⟩ := ih hs2 h
            have hsuf : r <:+ UInt8.ofNat 92 :: b2 :: (u2 ++ s2) := e4.trans ⟨UInt8.ofNat 92 :: b2 :: u2, by simp⟩
            by_cases hb : b2.toNat < 128
            · obtain ⟨rfl, rfl⟩ := f4 hb
              by_cases he : b2 ∈ escapes.map (·.1)
              · obtain ⟨⟨c', b'⟩, he', rfl⟩ := List.mem_map.mp he
                refine ⟨b' :: s, r, ?_, e2, .esc c' b' _ _ _ he' e3, hsuf⟩
                rw [e1, (escapeChar_eq he').1]; simp
              · refine ⟨s, r, ?_, e2, .drop b2 _ _ _ hb he ?_ e3, hsuf⟩
                · rw [e1, escapeChar_none he]; simp
                · rintro rfl; exact h117 rfl
            · have hb : 128 ≤ b2.toNat := by omega
              refine ⟨s, r, ?_, e2, .dropWide b2 u2 s2 s r c2 hb ?_ e3, hsuf⟩
              · rw [e1, escapeChar_wide ((f5 hb).imp_right (·.1))]; simp
              · simpa using f3
      · rw [if_neg h92] at h
        by_cases h34 : c = 34
        · rw [if_pos h34, ed] at h
          obtain ⟨rfl, rfl⟩ := byte 34 (by omega) h34
          cases h
          exact ⟨[], s', by simp, rfl, .close s', List.suffix_cons _ _⟩
        · rw [if_neg h34, ed] at h
          have et : (b :: (u ++ s') ++ [0]).take (u.length + 1) = b :: u := by simp
          rw [et] at h
          obtain ⟨s, r, e1, e2, e3, e4⟩ := ih hs' h
          refine ⟨b :: (u ++ s), r, by rw [e1]; simp, e2, .raw b _ _ _ ?_ ?_ (lstr_trail h2 e3), e4.trans ⟨b :: u, by simp⟩⟩
          · rintro rfl; exact h34 (h4 (by decide)).1
          · rintro rfl; exact h92 (h4 (by decide)).1

theorem scanString_loose (H : Host) : ∀ (n : Nat) {t s r : List UInt8}, t.length ≤ n → NulFree t → LStr t s r → ∀ fuel acc, t.length ≤ fuel →
    scanString H true fuel (t ++ [0]) acc = some (acc ++ s, r ++ [0]) := by
  intro n
  induction n with
  | zero =>
    intro t s r hn _ h fuel acc _
    have : t = [] := List.length_eq_zero_iff.mp (by omega)
    subst this
    cases h
    rw [scanString.eq_def]; simp [ustrscan_zero]
  | succ n ih =>
    intro t s r hn hs h fuel acc hf
    cases h with
    | ends => rw [scanString.eq_def]; simp [ustrscan_zero]
    | close r =>
      obtain ⟨fuel, rfl⟩ : ∃ f, fuel = f + 1 := ⟨fuel - 1, by simp at hf; omega⟩
      rw [scanString.eq_def, List.cons_append, scan_ascii (by decide) (by decide), Option.bind_some]
      simp
    | slash =>
      obtain ⟨fuel, rfl⟩ : ∃ f, fuel = f + 1 := ⟨fuel - 1, by simp at hf; omega⟩
      rw [scanString.eq_def, List.cons_append, scan_ascii (by decide) (by decide), Option.bind_some]
      simp only [List.nil_append, List.drop_succ_cons, List.drop_zero, ustrscan_zero, Option.bind_some]
      have := ih (t := []) (by simp) (by simp [NulFree]) .ends fuel (acc ++ escapeChar 0) (by simp)
      simpa [escapeChar] using this
    | raw b t' s' _ n1 n2 h =>
      obtain ⟨fuel, rfl⟩ : ∃ f, fuel = f + 1 := ⟨fuel - 1, by simp at hf; omega⟩
      have h0 : b ≠ 0 := fun e => hs (by simp [e])
      obtain ⟨c, u, s2, rfl, h2, h3, h4, h5⟩ := chunk h0 t'
      obtain ⟨s3, rfl, h'⟩ := lstr_split h2 h
      simp only [List.length_cons, List.length_append] at hn hf
      rw [scanString.eq_def, h3, Option.bind_some]
      simp only
      have hc : c ≠ 92 ∧ c ≠ 34 := by
        by_cases hb : b.toNat < 128
        · have e := (h4 hb).1
          refine ⟨fun e2 => n2 (UInt8.toNat_inj.mp ?_), fun e2 => n1 (UInt8.toNat_inj.mp ?_)⟩
          · show b.toNat = 92; omega
          · show b.toNat = 34; omega
        · rcases h5 (by omega) with h | h <;> constructor <;> omega
      have ed : (b :: (u ++ s2) ++ [0]).drop (u.length + 1) = s2 ++ [0] := by simp
      have et : (b :: (u ++ s2) ++ [0]).take (u.length + 1) = b :: u := by simp
      rw [if_neg (by omega), if_neg hc.1, if_neg hc.2, ed, et, ih (by omega) (fun e => hs (by simp [e])) h' fuel _ (by omega)]
      simp
    | esc c b t' s' _ he h =>
      obtain ⟨fuel, rfl⟩ : ∃ f, fuel = f + 1 := ⟨fuel - 1, by simp at hf; omega⟩
      obtain ⟨g1, g2, g3, g4⟩ := escapeChar_eq he
      simp only [List.length_cons] at hn hf
      rw [scanString.eq_def, List.cons_append, scan_ascii (by decide) (by decide), Option.bind_some]
      simp only [List.cons_append, List.drop_succ_cons, List.drop_zero]
      rw [scan_ascii g3 g2, Option.bind_some]
      simp only
      have e117 : ¬ ((c.toNat : Int) = 117) := by omega
      rw [if_neg (by omega), if_pos (by rfl), if_neg e117, g1]
      have := ih (by omega) (fun e => hs (by simp [e])) h fuel (acc ++ [b]) (by omega)
      simpa using this
    | drop c t' s' _ g2 he g4 h =>
      obtain ⟨fuel, rfl⟩ : ∃ f, fuel = f + 1 := ⟨fuel - 1, by simp at hf; omega⟩
      have g3 : c ≠ 0 := fun e => hs (by simp [e])
      simp only [List.length_cons] at hn hf
      rw [scanString.eq_def, List.cons_append, scan_ascii (by decide) (by decide), Option.bind_some]
      simp only [List.cons_append, List.drop_succ_cons, List.drop_zero]
      rw [scan_ascii g3 g2, Option.bind_some]
      simp only
      have e117 : ¬ ((c.toNat : Int) = 117) := by
        intro e
        exact g4 (UInt8.toNat_inj.mp (by show c.toNat = 117; omega))
      rw [if_neg (by omega), if_pos (by rfl), if_neg e117, escapeChar_none he]
      have := ih (by omega) (fun e => hs (by simp [e])) h fuel (acc ++ []) (by omega)
      simpa using this
    | dropWide b u t' s' _ c hb hsc h =>
      obtain ⟨fuel, rfl⟩ : ∃ f, fuel = f + 1 := ⟨fuel - 1, by simp at hf; omega⟩
      have h0 : b ≠ 0 := fun e => hs (by simp [e])
      obtain ⟨c2, u2, s2, -, -, h3, -, h5⟩ := chunk h0 (u ++ t')
      simp only [List.length_cons, List.length_append, List.cons_append] at hn hf
      rw [List.cons_append] at h3
      rw [List.cons_append, List.cons_append] at hsc
      rw [hsc] at h3
      have hcc : c = c2 := by injection h3 with h3; exact (Prod.mk.inj h3).1
      subst hcc
      rw [scanString.eq_def, List.cons_append, scan_ascii (by decide) (by decide), Option.bind_some]
      simp only [List.cons_append, List.drop_succ_cons, List.drop_zero]
      rw [hsc, Option.bind_some]
      simp only
      have hw := (h5 hb).imp_right (·.1)
      have e117 : ¬ (c = 117) := by omega
      rw [if_neg (by omega), if_pos (by rfl), if_neg e117, escapeChar_wide hw]
      have := ih (by omega) (fun e => hs (by simp [e])) h fuel (acc ++ []) (by omega)
      have ed : (0x5c :: b :: (u ++ t' ++ [0])).drop (1 + (u.length + 1)) = t' ++ [0] := by rw [Nat.add_comm 1]; simp
      rw [ed, this]; simp
    | uni q3 q2 q1 q0 ch t' s' _ hq h =>
      obtain ⟨fuel, rfl⟩ : ∃ f, fuel = f + 1 := ⟨fuel - 1, by simp at hf; omega⟩
      simp only [List.length_cons] at hn hf
      rw [scanString.eq_def, List.cons_append, scan_ascii (by decide) (by decide), Option.bind_some]
      simp only [List.cons_append, List.drop_succ_cons, List.drop_zero]
      rw [scan_ascii (by decide) (by decide), Option.bind_some]
      simp only
      rw [if_neg (by omega), if_pos (by rfl), if_pos (by rfl)]
      have hu := unicodePoint_char H (q := [q3, q2, q1, q0]) rfl (t' ++ [0]) hq
      have := ih (by omega) (fun e => hs (by simp [e])) h fuel (acc ++ (if ch.toNat = 0 then [] else String.utf8EncodeChar ch)) (by omega)
      simp only [if_true]
      rw [show List.drop (1 + 1) (0x5c :: 0x75 :: q3 :: q2 :: q1 :: q0 :: (t' ++ [0])) = [q3, q2, q1, q0] ++ (t' ++ [0]) from rfl, hu, Option.bind_some]
      show scanString H true fuel (t' ++ [0]) _ = _
      rw [this, List.append_assoc]

end Json
end Duck
