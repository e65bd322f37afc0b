import Verif.Spec.Json
import Verif.Lemmas.UnicodeScan
import Verif.Props.StrToNum
import Verif.Props.Unicode
/-! Lemmas for C40-C42 and C63: scanning. -/
namespace Duck
namespace Json
open Unicode Num

theorem toNat_ne {a b : UInt8} (h : a ≠ b) : a.toNat ≠ b.toNat := fun e => h (UInt8.toNat_inj.mp e)

theorem scan_ascii {b : UInt8} (h0 : b ≠ 0) (hb : b.toNat < 128) (m : Mem) : ustrscan (b :: m) = some ((b.toNat : Int), 1) := by
  rw [ustrscan_eq_next h0, next, rd_cons_zero, Option.bind_some, if_neg (by omega)]

/-- A scan at a nonzero byte takes that byte and some of the bytes from 128 up that follow it. -/
theorem scan_chunk {b : UInt8} (h0 : b ≠ 0) (s r : List UInt8) : ∃ (c : Int) (t s' : List UInt8), s = t ++ s' ∧
    (∀ x ∈ t, 128 ≤ x.toNat) ∧ ustrscan (b :: s ++ 0 :: r) = some (c, t.length + 1) ∧
    (b.toNat < 128 → c = b.toNat ∧ t = []) ∧ (128 ≤ b.toNat → c = -1 ∨ 128 ≤ c) := by
  by_cases hb : b.toNat < 128
  · exact ⟨b.toNat, [], s, rfl, fun x hx => by simp at hx, scan_ascii h0 hb _, fun _ => ⟨rfl, rfl⟩, fun h => by omega⟩
  · obtain ⟨⟨c, k⟩, hr⟩ := next_some (closed_append_zero (b :: s)) (by simp)
    obtain ⟨k1, k2⟩ := next_nul (by simp) hr
    obtain ⟨-, ht⟩ := next_trail hr
    have hm := next_mono r hr
    rw [List.append_assoc, List.singleton_append] at hm
    refine ⟨c, s.take (k - 1), s.drop (k - 1), (List.take_append_drop _ _).symm, ?_, ?_, fun h => absurd h hb, fun _ => ?_⟩
    · intro x hx
      obtain ⟨j, hj, rfl⟩ := List.mem_iff_getElem.mp hx
      rw [List.length_take] at hj
      obtain ⟨b', e1, e2, -⟩ := ht (j + 1) (by omega) (by omega)
      obtain ⟨u, hu, rfl⟩ := rd_eq e1
      have hjs : j < s.length := by omega
      have : u = s[j] := by
        rw [List.cons_append, List.getElem?_cons_succ, List.getElem?_append_left hjs, List.getElem?_eq_getElem hjs] at hu
        exact (Option.some.inj hu).symm
      rw [List.getElem_take, ← this]; exact e2
    · have : (s.take (k - 1)).length + 1 = k := by
        rw [List.length_take]; simp at k2; omega
      rw [this, List.cons_append, ustrscan_eq_next h0]; exact hm
    · rcases next_spec hm with ⟨v, rfl, -, h2, h3⟩ | ⟨rfl, -⟩
      · right
        have h4 : ¬ v ≤ 127 := by
          intro hv
          rw [encNat, if_pos hv] at h2 h3
          simp at h3; subst h3
          simp at h2
          have := congrArg UInt8.toNat h2
          rw [UInt8.toNat_ofNat'] at this
          omega
        omega
      · left; rfl

/-! ## String literals -/

theorem strBody_raw {k : List UInt8} (h0 : (0 : UInt8) ∉ k) (h1 : (0x22 : UInt8) ∉ k) (h2 : (0x5c : UInt8) ∉ k) : StrBody k k := by
  induction k with
  | nil => exact .nil
  | cons b k ih =>
    simp only [List.mem_cons, not_or] at h0 h1 h2
    exact .raw b k k (Ne.symm h1.1) (Ne.symm h2.1) (Ne.symm h0.1) (ih h0.2 h1.2 h2.2)

/-- The bytes from 128 up at the start of a literal stand for themselves. -/
theorem strBody_split {t : List UInt8} (ht : ∀ x ∈ t, 128 ≤ x.toNat) {rest r' : List UInt8} : ∀ {lit s : List UInt8},
    lit ++ 0x22 :: rest = t ++ r' → StrBody lit s → ∃ lit' s', lit = t ++ lit' ∧ s = t ++ s' ∧ StrBody lit' s' := by
  induction t with
  | nil => intro lit s _ h; exact ⟨lit, s, rfl, rfl, h⟩
  | cons x t ih =>
    intro lit s e h
    have hx := ht x (by simp)
    have ht' : ∀ y ∈ t, 128 ≤ y.toNat := fun y hy => ht y (by simp [hy])
    cases h with
    | nil =>
      simp at e; rw [← e.1] at hx; exact absurd hx (by decide)
    | raw b lit s h1 h2 h3 hb =>
      simp only [List.cons_append, List.cons.injEq] at e
      obtain ⟨rfl, e⟩ := e
      obtain ⟨l', s', rfl, rfl, h'⟩ := ih ht' e hb
      exact ⟨l', s', rfl, rfl, h'⟩
    | esc c b lit s hm hb =>
      simp only [List.cons_append, List.cons.injEq] at e
      rw [← e.1] at hx; exact absurd hx (by decide)
    | uni =>
      simp only [List.cons_append, List.cons.injEq] at e
      rw [← e.1] at hx; exact absurd hx (by decide)

theorem hexDigit_eq {b : UInt8} {d : Nat} (h : Hex b d) : hexDigit b = some d ∧ d < 16 ∧ isSpace b = false ∧ b ≠ 45 ∧ b ≠ 43 ∧ b ≠ 120 ∧ b ≠ 88 := by
  have key : ∀ b : UInt8, ((48 ≤ b.toNat ∧ b.toNat ≤ 57) ∨ (97 ≤ b.toNat ∧ b.toNat ≤ 102) ∨ (65 ≤ b.toNat ∧ b.toNat ≤ 70)) →
      isSpace b = false ∧ b ≠ 45 ∧ b ≠ 43 ∧ b ≠ 120 ∧ b ≠ 88 := by
    intro b hb
    refine ⟨?_, ?_, ?_, ?_, ?_⟩
    · unfold isSpace
      have h1 : b ≠ 32 := by rintro rfl; exact absurd hb (by decide)
      have h2 : ¬ b ≤ 13 := by
        rw [UInt8.le_iff_toNat_le]
        have : (13 : UInt8).toNat = 13 := rfl
        omega
      simp [h1, h2]
    all_goals (rintro rfl; exact absurd hb (by decide))
  refine ⟨?_, ?_, ?_⟩
  · unfold hexDigit
    rcases h with ⟨h1, h2, rfl⟩ | ⟨h1, h2, rfl⟩ | ⟨h1, h2, rfl⟩
    · rw [if_pos ⟨h1, h2⟩]
    · rw [if_neg (by omega), if_pos ⟨h1, h2⟩]
    · rw [if_neg (by omega), if_neg (by omega), if_pos ⟨h1, h2⟩]
  · rcases h with ⟨h1, h2, rfl⟩ | ⟨h1, h2, rfl⟩ | ⟨h1, h2, rfl⟩ <;> omega
  · apply key
    rcases h with ⟨h1, h2, -⟩ | ⟨h1, h2, -⟩ | ⟨h1, h2, -⟩ <;> simp [h1, h2]

theorem strtol16_eq {h3 h2 h1 h0 : UInt8} {d3 d2 d1 d0 : Nat} (e3 : Hex h3 d3) (e2 : Hex h2 d2) (e1 : Hex h1 d1) (e0 : Hex h0 d0) :
    strtol16 [h3, h2, h1, h0] = ((d3 * 4096 + d2 * 256 + d1 * 16 + d0 : Nat) : Int) := by
  obtain ⟨a3, -, b3, c3, c3', -, -⟩ := hexDigit_eq e3
  obtain ⟨a2, -, -, -, -, d2', d2''⟩ := hexDigit_eq e2
  obtain ⟨a1, -, -⟩ := hexDigit_eq e1
  obtain ⟨a0, -, -⟩ := hexDigit_eq e0
  have hgo : hexGo 0 [h3, h2, h1, h0] = d3 * 4096 + d2 * 256 + d1 * 16 + d0 := by
    simp only [hexGo, a3, a2, a1, a0]; omega
  have hb : hexBody [h3, h2, h1, h0] = d3 * 4096 + d2 * 256 + d1 * 16 + d0 := by
    rw [← hgo]
    unfold hexBody
    split
    · next heq =>
      cases heq
      rw [if_neg (by simp [d2', d2''])]
    · rfl
  have hs : hexSkip [h3, h2, h1, h0] = [h3, h2, h1, h0] := by simp [hexSkip, b3]
  unfold strtol16
  rw [hs]
  split
  · next heq => cases heq; exact absurd rfl c3
  · next heq => cases heq; exact absurd rfl c3'
  · rw [hb]

theorem enc_nulfree {ch : Char} (h : ch.toNat ≠ 0) : ∀ x ∈ String.utf8EncodeChar ch, x ≠ 0 := by
  intro x hx e
  subst e
  have hc : ch ≠ '\x00' := by rintro rfl; exact h rfl
  have := utf8_nulfree (cs := [ch]) (by simpa using hc.symm)
  exact this (by simpa [utf8] using hx)

theorem enc_length_le (ch : Char) : (String.utf8EncodeChar ch).length ≤ 4 := by
  rw [enc_eq]; unfold encNat; repeat' split
  all_goals simp

theorem takeWhile_ne {l r : List UInt8} (h : ∀ x ∈ l, x ≠ 0) : (l ++ 0 :: r).takeWhile (· ≠ 0) = l := by
  induction l with
  | nil => simp
  | cons a l ih =>
    have h1 := h a (by simp)
    simp only [List.cons_append, List.takeWhile_cons, decide_eq_true_eq]
    rw [if_pos (by simpa using h1), ih (fun x hx => h x (by simp [hx]))]

theorem unicodePoint_eq {H : Host} {h3 h2 h1 h0 : UInt8} {d3 d2 d1 d0 : Nat} (e3 : Hex h3 d3) (e2 : Hex h2 d2) (e1 : Hex h1 d1)
    (e0 : Hex h0 d0) {ch : Char} (hch : ch.toNat = d3 * 4096 + d2 * 256 + d1 * 16 + d0) (hne : ch.toNat ≠ 0) (m : Mem) :
    unicodePoint H (h3 :: h2 :: h1 :: h0 :: m) = some (String.utf8EncodeChar ch) := by
  have hl := enc_length_le ch
  have hw := C33_write ch (List.replicate 8 0) (by simp) (by rw [List.length_replicate]; omega)
  rw [unicodePoint, if_pos (by simp), show (h3 :: h2 :: h1 :: h0 :: m).take 4 = [h3, h2, h1, h0] from rfl,
    strtol16_eq e3 e2 e1 e0, ← hch, hw, Option.bind_some]
  have hp : (String.utf8EncodeChar ch).length ≠ 0 := by
    have := encNat_length_pos ch.toNat
    rw [enc_eq]; omega
  simp only [if_neg hp]
  rw [takeWhile_ne (enc_nulfree hne)]

theorem escapeChar_eq {c b : UInt8} (h : (c, b) ∈ escapes) : escapeChar c.toNat = [b] ∧ c.toNat < 128 ∧ c ≠ 0 ∧ c.toNat ≠ 117 := by
  simp only [escapes, List.mem_cons, Prod.mk.injEq, List.not_mem_nil, or_false] at h
  rcases h with ⟨rfl, rfl⟩ | ⟨rfl, rfl⟩ | ⟨rfl, rfl⟩ | ⟨rfl, rfl⟩ | ⟨rfl, rfl⟩ | ⟨rfl, rfl⟩ | ⟨rfl, rfl⟩ | ⟨rfl, rfl⟩ <;> decide

/-- A literal is scanned to its closing quotation mark. -/
theorem scanString_eq (H : Host) (rest r : List UInt8) : ∀ (n : Nat) {lit s : List UInt8}, lit.length ≤ n → StrBody lit s →
    ∀ fuel acc, lit.length < fuel → scanString H true fuel (lit ++ 0x22 :: rest ++ 0 :: r) acc = some (acc ++ s, rest ++ 0 :: r) := by
  intro n
  induction n with
  | zero =>
    intro lit s hn h fuel acc hf
    obtain ⟨fuel, rfl⟩ : ∃ f, fuel = f + 1 := ⟨fuel - 1, by omega⟩
    have : lit = [] := List.length_eq_zero_iff.mp (by omega)
    subst this
    generalize hl : ([] : List UInt8) = l at h
    cases h with
    | nil =>
      rw [scanString.eq_def]
      simp only [List.nil_append, List.cons_append]
      rw [scan_ascii (by decide) (by decide), Option.bind_some]
      rw [if_neg (by decide)]
      simp only
      rw [if_neg (by decide), if_pos (by rfl)]
      simp
    | _ => cases hl
  | succ n ih =>
    intro lit s hn h fuel acc hf
    obtain ⟨fuel, rfl⟩ : ∃ f, fuel = f + 1 := ⟨fuel - 1, by omega⟩
    generalize hl : lit = l at h
    cases h with
    | nil => subst hl; exact ih (by simp) .nil _ _ (by simp)
    | raw b t s h1 h2 h3 hb =>
      subst hl
      obtain ⟨c, u, s', e1, e2, e3, e4, e5⟩ := scan_chunk h3 (t ++ 0x22 :: rest) r
      obtain ⟨t', s'', rfl, rfl, hb'⟩ := strBody_split e2 e1 hb
      have hc : c ≠ 92 ∧ c ≠ 34 := by
        have q1 := toNat_ne h1
        have q2 := toNat_ne h2
        have q3 : (0x22 : UInt8).toNat = 34 := rfl
        have q4 : (0x5c : UInt8).toNat = 92 := rfl
        rcases Nat.lt_or_ge b.toNat 128 with hlt | hge
        · have := (e4 hlt).1; omega
        · have := e5 hge; omega
      rw [scanString.eq_def]
      have e6 : b :: (u ++ t') ++ 0x22 :: rest ++ 0 :: r = b :: (u ++ t' ++ 0x22 :: rest) ++ 0 :: r := by simp
      rw [e6, e3, Option.bind_some]
      simp only
      rw [if_neg (by omega), if_neg hc.1, if_neg hc.2]
      have e7 : (b :: (u ++ t' ++ 0x22 :: rest) ++ 0 :: r).drop (u.length + 1) = t' ++ 0x22 :: rest ++ 0 :: r := by
        simp
      have e8 : (b :: (u ++ t' ++ 0x22 :: rest) ++ 0 :: r).take (u.length + 1) = b :: u := by simp
      rw [e7, e8, ih (by simp at hn; omega) hb' _ _ (by simp at hf; omega)]
      simp
    | esc c b t s hm hb =>
      subst hl
      obtain ⟨q1, q2, q3, q4⟩ := escapeChar_eq hm
      rw [scanString.eq_def]
      simp only [List.cons_append]
      rw [scan_ascii (by decide) (by decide), Option.bind_some]
      simp only
      rw [if_neg (by decide), if_pos (by rfl), List.drop_succ_cons, List.drop_zero, scan_ascii q3 q2, Option.bind_some]
      simp only
      rw [if_neg (by omega), q1]
      have := ih (by simp at hn; omega) hb fuel (acc ++ [b]) (by simp at hf; omega)
      simp only [List.append_assoc, List.cons_append, List.drop_succ_cons, List.drop_zero, Nat.reduceAdd, List.nil_append] at this ⊢
      exact this
    | uni h3 h2 h1 h0 d3 d2 d1 d0 ch t s e3 e2 e1 e0 hch hne hb =>
      subst hl
      rw [scanString.eq_def]
      simp only [List.cons_append]
      rw [scan_ascii (by decide) (by decide), Option.bind_some]
      simp only
      rw [if_neg (by decide), if_pos (by rfl), List.drop_succ_cons, List.drop_zero, scan_ascii (by decide) (by decide), Option.bind_some]
      simp only
      rw [if_pos (by rfl)]
      simp only [if_true, List.drop_succ_cons, List.drop_zero, Nat.reduceAdd]
      rw [unicodePoint_eq e3 e2 e1 e0 hch hne, Option.bind_some]
      have := ih (by simp at hn; omega) hb fuel (acc ++ String.utf8EncodeChar ch) (by simp at hf; omega)
      simp only [List.append_assoc, List.cons_append] at this ⊢
      exact this

/-! ## Writing string literals -/

theorem escapeOf_mem {ch : Int} {rep : List UInt8} : ∀ {es : List (Int × List UInt8)}, escapeOf ch es = some rep → (ch, rep) ∈ es := by
  intro es
  induction es with
  | nil => intro h; cases h
  | cons e es ih =>
    intro h
    rw [escapeOf] at h
    split at h
    · cases h
    · split at h
      · next _ he => cases h; rw [← he]; simp
      · exact List.mem_cons_of_mem _ (ih h)

theorem escapeOf_special (ch : Int) (h : escapeOf ch escapedChars = none) : ch ≠ 92 ∧ ch ≠ 34 := by
  constructor
  · rintro rfl; exact absurd h (by decide)
  · rintro rfl; exact absurd h (by decide)

theorem strBody_high {u : List UInt8} (hu : ∀ x ∈ u, 128 ≤ x.toNat) {t s : List UInt8} (h : StrBody t s) : StrBody (u ++ t) (u ++ s) := by
  induction u with
  | nil => exact h
  | cons x u ih =>
    have hx := hu x (by simp)
    refine .raw x _ _ ?_ ?_ ?_ (ih fun y hy => hu y (by simp [hy]))
    all_goals (rintro rfl; exact absurd hx (by decide))

theorem escapeLoop_eq : ∀ (n : Nat) {s : List UInt8}, s.length ≤ n → NulFree s → ∀ fuel start len, s.length < fuel →
    start.drop len = s ++ [0] → ∃ out, escapeLoop fuel (s ++ [0]) start len = some (start.take len ++ out) ∧ StrBody out s := by
  intro n
  induction n with
  | zero =>
    intro s hn _ fuel start len _ _
    have : s = [] := List.length_eq_zero_iff.mp (by omega)
    subst this
    refine ⟨[], ?_, .nil⟩
    rw [escapeLoop.eq_def]
    simp [ustrscan_zero]
  | succ n ih =>
    intro s hn hs fuel start len hf hst
    match s, hn, hs, hf, hst with
    | [], _, hs, hf, hst => exact ih (by simp) hs fuel start len hf hst
    | b :: s, hn, hs, hf, hst =>
      obtain ⟨fuel, rfl⟩ : ∃ f, fuel = f + 1 := ⟨fuel - 1, by omega⟩
      have hb0 : b ≠ 0 := fun e => hs (by simp [e])
      obtain ⟨c, u, s', rfl, e2, e3, e4, e5⟩ := scan_chunk hb0 s []
      have hs' : NulFree s' := fun h => hs (by simp [h])
      rw [escapeLoop.eq_def, e3, Option.bind_some]
      simp only
      rw [if_neg (by omega)]
      have ed : (b :: (u ++ s') ++ [0]).drop (u.length + 1) = s' ++ [0] := by simp
      cases he : escapeOf c escapedChars with
      | none =>
        simp only
        rw [ed]
        have hst' : start.drop (len + (u.length + 1)) = s' ++ [0] := by
          rw [← List.drop_drop, hst, ed]
        obtain ⟨out, ho, hbod⟩ := ih (by simp at hn; omega) hs' fuel start (len + (u.length + 1)) (by simp at hf; omega) hst'
        refine ⟨b :: u ++ out, ?_, ?_⟩
        · rw [ho, List.take_add, hst]
          simp
        · obtain ⟨q1, q2⟩ := escapeOf_special c he
          refine .raw b _ _ ?_ ?_ hb0 (strBody_high e2 hbod)
          · rintro rfl; exact q2 ((e4 (by decide)).1)
          · rintro rfl; exact q1 ((e4 (by decide)).1)
      | some rep =>
        simp only
        have hm := escapeOf_mem he
        have hc : 0 ≤ c ∧ c < 128 := by
          simp only [escapedChars, List.mem_cons, Prod.mk.injEq, List.not_mem_nil, or_false] at hm
          omega
        have hlt : b.toNat < 128 := by
          rcases Nat.lt_or_ge b.toNat 128 with h | h
          · exact h
          · have := e5 h; omega
        obtain ⟨rfl, rfl⟩ := e4 hlt
        rw [ed]
        obtain ⟨out, ho, hbod⟩ := ih (by simp at hn; omega) hs' fuel (s' ++ [0]) 0 (by simp at hf; omega) rfl
        rw [ho]
        refine ⟨rep ++ out, by simp, ?_⟩
        have : ∃ x, rep = [0x5c, x] ∧ (x, b) ∈ escapes := by
          have hbb : ∀ n : Nat, n < 256 → b.toNat = n → b = UInt8.ofNat n := by
            intro n _ h; rw [← h, UInt8.ofNat_toNat]
          simp only [escapedChars, List.mem_cons, Prod.mk.injEq, List.not_mem_nil, or_false] at hm
          rcases hm with ⟨h, rfl⟩ | ⟨h, rfl⟩ | ⟨h, rfl⟩ | ⟨h, rfl⟩ | ⟨h, rfl⟩ | ⟨h, rfl⟩ | ⟨h, rfl⟩
          · exact ⟨_, rfl, by rw [hbb 92 (by omega) (by omega)]; decide⟩
          · exact ⟨_, rfl, by rw [hbb 34 (by omega) (by omega)]; decide⟩
          · exact ⟨_, rfl, by rw [hbb 13 (by omega) (by omega)]; decide⟩
          · exact ⟨_, rfl, by rw [hbb 12 (by omega) (by omega)]; decide⟩
          · exact ⟨_, rfl, by rw [hbb 10 (by omega) (by omega)]; decide⟩
          · exact ⟨_, rfl, by rw [hbb 9 (by omega) (by omega)]; decide⟩
          · exact ⟨_, rfl, by rw [hbb 8 (by omega) (by omega)]; decide⟩
        obtain ⟨x, rfl, hx⟩ := this
        exact .esc x b _ _ hx hbod

theorem writeString_eq {s : List UInt8} (hs : NulFree s) : ∃ out, writeString s = some (0x22 :: out ++ [0x22]) ∧ StrBody out s := by
  obtain ⟨out, h1, h2⟩ := escapeLoop_eq s.length (Nat.le_refl _) hs (s.length + 1) (s ++ [0]) 0 (by omega) rfl
  exact ⟨out, by rw [writeString, h1]; simp, h2⟩

/-! ## Tokens -/

theorem isspace_ascii (H : Host) {b : UInt8} : isspace H (b.toNat : Int) = some (isSpace b) := by
  have hb : b.toNat < 256 := b.toNat_lt
  rw [isspace, if_pos (by omega)]
  congr 1
  unfold isSpace
  rw [Bool.eq_iff_iff]
  simp only [Bool.or_eq_true, Bool.and_eq_true, beq_iff_eq, decide_eq_true_eq, UInt8.le_iff_toNat_le]
  have : (9 : UInt8).toNat = 9 := rfl
  have : (13 : UInt8).toNat = 13 := rfl
  constructor
  · rintro (h | h)
    · left; exact UInt8.toNat_inj.mp (by show b.toNat = 32; omega)
    · right; omega
  · rintro (rfl | h)
    · left; rfl
    · right; omega

theorem ws_isSpace {w : List UInt8} (h : Ws w) : ∀ b ∈ w, isSpace b = true ∧ b ≠ 0 ∧ b.toNat < 128 := by
  intro b hb
  rcases h b hb with rfl | rfl | rfl | rfl <;> decide

theorem skipSpace_eq (H : Host) {w : List UInt8} (hw : Ws w) {b : UInt8} (h0 : b ≠ 0) (h1 : b.toNat < 128) (h2 : isSpace b = false)
    (m : Mem) : ∀ fuel, w.length ≤ fuel → skipSpace H fuel (w ++ b :: m) = some (some ((b.toNat : Int), 1), b :: m) := by
  induction w with
  | nil =>
    intro fuel _
    rw [skipSpace.eq_def, List.nil_append, scan_ascii h0 h1, Option.bind_some]
    simp only
    rw [if_neg (by decide), isspace_ascii, h2, Option.bind_some]
    simp
  | cons x w ih =>
    intro fuel hf
    obtain ⟨fuel, rfl⟩ : ∃ f, fuel = f + 1 := ⟨fuel - 1, by simp at hf; omega⟩
    obtain ⟨a1, a2, a3⟩ := ws_isSpace hw x (by simp)
    rw [skipSpace.eq_def, List.cons_append, scan_ascii a2 a3, Option.bind_some]
    simp only
    rw [if_neg (by decide), isspace_ascii, a1, Option.bind_some, if_pos rfl]
    exact ih (fun y hy => hw y (by simp [hy])) fuel (by simp at hf; omega)

/-- What may follow a word or a number. -/
def Delim (rest : List UInt8) : Prop :=
  ∀ b, rest.head? = some b → b ∈ ([0x20, 0x09, 0x0a, 0x0d, 0x2c, 0x3a, 0x5b, 0x5d, 0x7b, 0x7d] : List UInt8)

/-- The bytes of words and numbers. -/
def WordByte (b : UInt8) : Prop := b ≠ 0 ∧ b.toNat < 128 ∧ isSpace b = false ∧ isToken b = false ∧ b ≠ 0x22 ∧ b ≠ 0x23

theorem ofNat_byte (b : UInt8) : UInt8.ofNat (((b.toNat : Int) % 256).toNat) = b := by
  have hb : b.toNat < 256 := b.toNat_lt
  rw [show ((b.toNat : Int) % 256).toNat = b.toNat by omega, UInt8.ofNat_toNat]

theorem scanWord_eq (H : Host) {u : List UInt8} (hu : ∀ b ∈ u, WordByte b) {rest : List UInt8} (hd : Delim rest) (r : Mem) :
    ∀ fuel, u.length ≤ fuel → scanWord H fuel (u ++ rest ++ 0 :: r) = some (rest ++ 0 :: r) := by
  induction u with
  | nil =>
    intro fuel _
    rw [scanWord.eq_def, List.nil_append]
    match rest, hd with
    | [], _ => simp [ustrscan_zero]
    | b :: rest, hd =>
      have hb := hd b rfl
      have key : b ≠ 0 ∧ b.toNat < 128 ∧ (isSpace b || isToken b) = true := by
        simp only [List.mem_cons, List.not_mem_nil, or_false] at hb
        rcases hb with rfl | rfl | rfl | rfl | rfl | rfl | rfl | rfl | rfl | rfl <;> decide
      rw [List.cons_append, scan_ascii key.1 key.2.1, Option.bind_some]
      simp only
      rw [if_neg (by decide), isspace_ascii, Option.bind_some, ofNat_byte, if_pos key.2.2]
  | cons x u ih =>
    intro fuel hf
    obtain ⟨fuel, rfl⟩ : ∃ f, fuel = f + 1 := ⟨fuel - 1, by simp at hf; omega⟩
    obtain ⟨a1, a2, a3, a4, -⟩ := hu x (by simp)
    rw [scanWord.eq_def, List.cons_append, List.cons_append, scan_ascii a1 a2, Option.bind_some]
    simp only
    rw [if_neg (by decide), isspace_ascii, Option.bind_some, ofNat_byte, a3, a4, if_neg (by decide)]
    exact ih (fun y hy => hu y (by simp [hy])) fuel (by simp at hf; omega)

theorem tokenWith_char (H : Host) (vec) (obj : Bool) {w : List UInt8} (hw : Ws w) {c : UInt8} (hc : isToken c = true) (h0 : c ≠ 0) (m : Mem) :
    tokenWith H vec obj (w ++ c :: m) = some ⟨c :: m, m, false, none⟩ := by
  have key : c.toNat < 128 ∧ isSpace c = false ∧ c.toNat ≠ 34 ∧ c.toNat ≠ 35 := by
    simp only [isToken, decide_eq_true_eq, List.mem_cons, List.not_mem_nil, or_false] at hc
    rcases hc with rfl | rfl | rfl | rfl | rfl | rfl | rfl <;> decide
  rw [tokenWith, skipSpace_eq H hw h0 key.1 key.2.1 m _ (by simp), Option.bind_some]
  simp only
  rw [if_neg (by omega), if_neg (by omega), List.head?_cons, Option.bind_some, if_pos hc]
  simp

theorem scanToken_char (H : Host) (obj : Bool) {w : List UInt8} (hw : Ws w) {c : UInt8} (hc : isToken c = true) (h0 : c ≠ 0) (m : Mem) :
    scanToken H obj (w ++ c :: m) = some ⟨c :: m, m, false, none⟩ := tokenWith_char H _ obj hw hc h0 m

theorem scanToken_string (H : Host) {w : List UInt8} (hw : Ws w) {lit s : List UInt8} (h : StrBody lit s) (rest r : Mem) :
    scanToken H true (w ++ 0x22 :: (lit ++ 0x22 :: rest ++ 0 :: r)) =
      some ⟨0x22 :: (lit ++ 0x22 :: rest ++ 0 :: r), rest ++ 0 :: r, false, some (.str s)⟩ := by
  rw [scanToken, tokenWith, skipSpace_eq H hw (by decide) (by decide) (by decide) _ _ (by simp), Option.bind_some]
  simp only
  rw [if_pos (by rfl), List.drop_succ_cons, List.drop_zero, scanString_eq H rest r lit.length (Nat.le_refl _) h _ _ (by simp; omega)]
  simp

theorem tokenWith_word (H : Host) (vec) (obj : Bool) {w : List UInt8} (hw : Ws w) {x : UInt8} {u : List UInt8} (hx : WordByte x)
    (hu : ∀ b ∈ u, WordByte b) {rest : List UInt8} (hd : Delim rest) (r : Mem) :
    tokenWith H vec obj (w ++ x :: (u ++ rest ++ 0 :: r)) = some ⟨x :: (u ++ rest ++ 0 :: r), rest ++ 0 :: r, false, none⟩ := by
  obtain ⟨a1, a2, a3, a4, a5, a7⟩ := hx
  have a6 : x.toNat ≠ 34 := toNat_ne a5
  have a8 : x.toNat ≠ 35 := toNat_ne a7
  rw [tokenWith, skipSpace_eq H hw a1 a2 a3 _ _ (by simp), Option.bind_some]
  simp only
  rw [if_neg (by omega), if_neg (by omega), List.head?_cons, Option.bind_some, a4, if_neg (by decide), List.drop_succ_cons, List.drop_zero,
    scanWord_eq H hu hd r _ (by simp; omega)]
  simp

theorem scanToken_word (H : Host) {w : List UInt8} (hw : Ws w) {x : UInt8} {u : List UInt8} (hx : WordByte x) (hu : ∀ b ∈ u, WordByte b)
    {rest : List UInt8} (hd : Delim rest) (r : Mem) :
    scanToken H true (w ++ x :: (u ++ rest ++ 0 :: r)) = some ⟨x :: (u ++ rest ++ 0 :: r), rest ++ 0 :: r, false, none⟩ :=
  tokenWith_word H _ true hw hx hu hd r

end Json
end Duck
