import Verif.Spec.Unicode
/-! Helper lemmas for C33: arithmetic of the UTF-8 macros. -/
namespace Duck
namespace Unicode

theorem rd_cons_zero (b : UInt8) (s : Mem) : rd (b :: s) 0 = some b.toNat := rfl
theorem rd_cons_succ (b : UInt8) (s : Mem) (k : Nat) : rd (b :: s) (k + 1) = rd s k := rfl

theorem rd_eq {s : Mem} {k b : Nat} (h : rd s k = some b) : ∃ u : UInt8, s[k]? = some u ∧ u.toNat = b := by
  unfold rd at h; cases hk : s[k]? with
  | none => rw [hk] at h; cases h
  | some u => rw [hk] at h; exact ⟨u, rfl, by simpa using h⟩

theorem rd_lt {s : Mem} {k b : Nat} (h : rd s k = some b) : b < 256 := by
  obtain ⟨u, _, h2⟩ := rd_eq h
  have := u.toNat_lt; omega

theorem rd_some {s : Mem} {k : Nat} (h : k < s.length) : rd s k = some (s[k]).toNat := by
  simp [rd, List.getElem?_eq_getElem h]

theorem shl6_or {a t : Nat} (h : t < 64) : a <<< 6 ||| t = a * 64 + t := by
  rw [← Nat.shiftLeft_add_eq_or_of_lt (show t < 2 ^ 6 from h), Nat.shiftLeft_eq]

theorem and_mask (a n : Nat) : a &&& (2 ^ n - 1) = a % 2 ^ n := Nat.and_two_pow_sub_one_eq_mod a n

theorem and63 (a : Nat) : a &&& 0x3f = a % 64 := and_mask a 6
theorem and31 (a : Nat) : a &&& 0x1f = a % 32 := and_mask a 5

theorem maskLead1 (c : Nat) : maskLead c 1 = c % 32 := and_mask c 5
theorem maskLead2 (c : Nat) : maskLead c 2 = c % 16 := and_mask c 4
theorem maskLead3 (c : Nat) : maskLead c 3 = c % 8 := and_mask c 3

theorem isTrail_iff {b : Nat} (h : b < 256) : isTrail b = true ↔ 128 ≤ b ∧ b < 192 := by
  have : ∀ b, b < 256 → (isTrail b = true ↔ 128 ≤ b ∧ b < 192) := by decide +kernel
  exact this b h

theorem trail_le {b : Nat} (h : b < 256) : trail b ≤ 0x3f ↔ 128 ≤ b ∧ b < 192 := by
  unfold trail; omega

theorem trail_eq {b : Nat} (h : 128 ≤ b ∧ b < 192) : trail b = b - 128 := by
  unfold trail; omega

theorem surr_iff {c : Nat} (h : c < 0x10000) : c &&& 0xffe0 = 0x360 ↔ c / 32 = 0x1b := by
  have h1 : (c &&& 0xffe0) / 2 ^ 5 = c / 2 ^ 5 % 2 ^ 11 := by
    rw [Nat.and_div_two_pow]; exact and_mask _ 11
  have h2 : (c &&& 0xffe0) % 2 ^ 5 = 0 := by
    rw [Nat.and_mod_two_pow]; simp
  omega

theorem or_add {a t n : Nat} (h : t < 2 ^ n) : a * 2 ^ n ||| t = a * 2 ^ n + t := by
  rw [← Nat.shiftLeft_eq, Nat.shiftLeft_add_eq_or_of_lt h]

theorem inline3 {c t1 t2 : Nat} (h1 : t1 < 64) (h2 : t2 < 64) :
    (c <<< 12 ||| t1 <<< 6 ||| t2) % 65536 = c % 16 * 4096 + t1 * 64 + t2 := by
  have e1 : t1 <<< 6 = t1 * 64 := Nat.shiftLeft_eq _ _
  have e2 : c <<< 12 ||| t1 <<< 6 = c * 4096 + t1 * 64 := by
    rw [e1, Nat.shiftLeft_eq]; exact or_add (n := 12) (by omega)
  have e3 : c * 4096 + t1 * 64 ||| t2 = c * 4096 + t1 * 64 + t2 := by
    have : c * 4096 + t1 * 64 = (c * 64 + t1) * 2 ^ 6 := by omega
    rw [this]; exact or_add (n := 6) h2
  rw [e2, e3]; omega

/-- `case 1` on a trail byte. -/
theorem body1_trail {s : Mem} {count i c b : Nat} (hb : rd s i = some b) (ht : 128 ≤ b ∧ b < 192) :
    body1 s count i c = some (if c * 64 + (b - 128) ≥ minLegal count then some (c * 64 + (b - 128), i + 1) else none) := by
  have h63 : ¬ b - 128 > 0x3f := by omega
  simp only [body1, hb, Option.map_some, trail_eq ht, shl6_or (show b - 128 < 64 by omega), if_neg h63]

theorem body1_other {s : Mem} {count i c b : Nat} (hb : rd s i = some b) (ht : ¬ (128 ≤ b ∧ b < 192)) :
    body1 s count i c = some none := by
  have := mt (trail_le (rd_lt hb)).mp ht
  simp only [body1, hb, Option.map_some, if_pos (show trail b > 0x3f by omega)]

theorem body2_trail {s : Mem} {count i c b : Nat} (hb : rd s i = some b) (ht : 128 ≤ b ∧ b < 192) (hc : c < 1023) :
    body2 s count i c = if (c * 64 + (b - 128)) / 32 = 0x1b then some none else body1 s count (i + 1) (c * 64 + (b - 128)) := by
  have h63 : ¬ b - 128 > 0x3f := by omega
  simp only [body2, hb, Option.bind_some, trail_eq ht, shl6_or (show b - 128 < 64 by omega), h63, or_false,
    surr_iff (show c * 64 + (b - 128) < 0x10000 by omega)]

theorem body2_other {s : Mem} {count i c b : Nat} (hb : rd s i = some b) (ht : ¬ (128 ≤ b ∧ b < 192)) :
    body2 s count i c = some none := by
  have := mt (trail_le (rd_lt hb)).mp ht
  simp only [body2, hb, Option.bind_some]
  rw [if_pos (Or.inr (by omega))]

theorem body3_trail {s : Mem} {count i c b : Nat} (hb : rd s i = some b) (ht : 128 ≤ b ∧ b < 192) :
    body3 s count i c = if c * 64 + (b - 128) ≥ 0x110 then some none else body2 s count (i + 1) (c * 64 + (b - 128)) := by
  have h63 : ¬ b - 128 > 0x3f := by omega
  simp only [body3, hb, Option.bind_some, trail_eq ht, shl6_or (show b - 128 < 64 by omega), h63, or_false]

theorem body3_other {s : Mem} {count i c b : Nat} (hb : rd s i = some b) (ht : ¬ (128 ≤ b ∧ b < 192)) :
    body3 s count i c = some none := by
  have := mt (trail_le (rd_lt hb)).mp ht
  simp only [body3, hb, Option.bind_some]
  rw [if_pos (Or.inr (by omega))]

/-- What skipping does. -/
theorem skip_spec {s : Mem} : ∀ {count i n : Nat}, skip s count i = some n →
    i ≤ n ∧ n ≤ i + count ∧ ∀ j, i ≤ j → j < n → ∃ b, rd s j = some b ∧ 128 ≤ b ∧ b < 192 := by
  intro count
  induction count with
  | zero => intro i n h; simp [skip] at h; subst h; exact ⟨Nat.le_refl _, Nat.le_refl _, fun j h1 h2 => by omega⟩
  | succ count ih =>
    intro i n h
    rw [skip] at h
    cases hb : rd s i with
    | none => rw [hb] at h; cases h
    | some b =>
      rw [hb] at h
      simp only [Option.bind_some] at h
      split at h
      · next ht =>
        obtain ⟨h1, h2, h3⟩ := ih h
        refine ⟨by omega, by omega, fun j hj1 hj2 => ?_⟩
        rcases Nat.lt_or_ge i j with hlt | hge
        · exact h3 j hlt hj2
        · have : j = i := by omega
          subst this; exact ⟨b, hb, (isTrail_iff (rd_lt hb)).mp ht⟩
      · cases h; exact ⟨Nat.le_refl _, by omega, fun j h1 h2 => by omega⟩

theorem countTrail_eq (c : Nat) : countTrail c =
    if c < 0xc0 then 0 else if c < 0xe0 then 1 else if c < 0xf0 then 2 else if c < 0xf8 then 3
    else if c < 0xfc then 4 else if c < 0xfe then 5 else 0 := by
  unfold countTrail
  repeat' split
  all_goals omega

/-- A byte as an element of a list. -/
theorem take_two {m : Mem} {a b : Nat} (h0 : rd m 0 = some a) (h1 : rd m 1 = some b) :
    m.take 2 = [UInt8.ofNat a, UInt8.ofNat b] := by
  match m with
  | [] => cases h0
  | [x] => cases h1
  | x :: y :: r =>
    simp only [rd_cons_zero, rd_cons_succ, Option.some.injEq] at h0 h1
    subst h0; subst h1; simp

theorem take_three {m : Mem} {a b c : Nat} (h0 : rd m 0 = some a) (h1 : rd m 1 = some b) (h2 : rd m 2 = some c) :
    m.take 3 = [UInt8.ofNat a, UInt8.ofNat b, UInt8.ofNat c] := by
  match m with
  | [] => cases h0
  | [x] => cases h1
  | [x, y] => cases h2
  | x :: y :: z :: r =>
    simp only [rd_cons_zero, rd_cons_succ, Option.some.injEq] at h0 h1 h2
    subst h0; subst h1; subst h2; simp

theorem take_four {m : Mem} {a b c d : Nat} (h0 : rd m 0 = some a) (h1 : rd m 1 = some b) (h2 : rd m 2 = some c)
    (h3 : rd m 3 = some d) : m.take 4 = [UInt8.ofNat a, UInt8.ofNat b, UInt8.ofNat c, UInt8.ofNat d] := by
  match m with
  | [] => cases h0
  | [x] => cases h1
  | [x, y] => cases h2
  | [x, y, z] => cases h3
  | x :: y :: z :: w :: r =>
    simp only [rd_cons_zero, rd_cons_succ, Option.some.injEq] at h0 h1 h2 h3
    subst h0; subst h1; subst h2; subst h3; simp

theorem take_one {m : Mem} {a : Nat} (h0 : rd m 0 = some a) : m.take 1 = [UInt8.ofNat a] := by
  match m with
  | [] => cases h0
  | x :: r => simp only [rd_cons_zero, Option.some.injEq] at h0; subst h0; simp

/-- Encoding by number, the arithmetic of `String.utf8EncodeChar`. -/
def encNat (v : Nat) : List UInt8 :=
  if v ≤ 127 then [UInt8.ofNat v]
  else if v ≤ 2047 then [UInt8.ofNat (v / 64 % 32 + 192), UInt8.ofNat (v % 64 + 128)]
  else if v ≤ 65535 then [UInt8.ofNat (v / 4096 % 16 + 224), UInt8.ofNat (v / 64 % 64 + 128), UInt8.ofNat (v % 64 + 128)]
  else [UInt8.ofNat (v / 262144 % 8 + 240), UInt8.ofNat (v / 4096 % 64 + 128), UInt8.ofNat (v / 64 % 64 + 128),
        UInt8.ofNat (v % 64 + 128)]

theorem enc_eq (c : Char) : String.utf8EncodeChar c = encNat c.toNat := rfl

/-- Unicode scalar values. -/
def Scalar (v : Nat) : Prop := v < 0xd800 ∨ (0xdfff < v ∧ v < 0x110000)

theorem scalar_char {v : Nat} (h : Scalar v) : ∃ c : Char, c.toNat = v := by
  refine ⟨Char.ofNatAux v h, ?_⟩
  rfl

theorem char_scalar (c : Char) : Scalar c.toNat := c.valid

/-- A successful multi-byte scan. -/
def Good (m : Mem) (v k : Nat) : Prop := Scalar v ∧ m.take k = encNat v ∧ k = (encNat v).length

theorem good2 {m : Mem} {a b : Nat} (h0 : rd m 0 = some a) (h1 : rd m 1 = some b) (ha : 0xc2 ≤ a ∧ a < 0xe0)
    (hb : 128 ≤ b ∧ b < 192) : Good m (a % 32 * 64 + (b - 128)) 2 := by
  have e1 : ¬ a % 32 * 64 + (b - 128) ≤ 127 := by omega
  have e2 : a % 32 * 64 + (b - 128) ≤ 2047 := by omega
  have f1 : (a % 32 * 64 + (b - 128)) / 64 % 32 + 192 = a := by omega
  have f2 : (a % 32 * 64 + (b - 128)) % 64 + 128 = b := by omega
  refine ⟨Or.inl (by omega), ?_, ?_⟩
  · rw [take_two h0 h1, encNat, if_neg e1, if_pos e2, f1, f2]
  · rw [encNat, if_neg e1, if_pos e2]; rfl

theorem good3 {m : Mem} {a b c : Nat} (h0 : rd m 0 = some a) (h1 : rd m 1 = some b) (h2 : rd m 2 = some c)
    (ha : 0xe0 ≤ a ∧ a < 0xf0) (hb : 128 ≤ b ∧ b < 192) (hc : 128 ≤ c ∧ c < 192)
    (hmin : a % 16 * 4096 + (b - 128) * 64 + (c - 128) ≥ 0x800)
    (hs : (a % 16 * 64 + (b - 128)) / 32 ≠ 0x1b) : Good m (a % 16 * 4096 + (b - 128) * 64 + (c - 128)) 3 := by
  generalize hv : a % 16 * 4096 + (b - 128) * 64 + (c - 128) = v at *
  have e1 : ¬ v ≤ 127 := by omega
  have e2 : ¬ v ≤ 2047 := by omega
  have e3 : v ≤ 65535 := by omega
  have f1 : v / 4096 % 16 + 224 = a := by omega
  have f2 : v / 64 % 64 + 128 = b := by omega
  have f3 : v % 64 + 128 = c := by omega
  refine ⟨?_, ?_, ?_⟩
  · unfold Scalar; omega
  · rw [take_three h0 h1 h2, encNat, if_neg e1, if_neg e2, if_pos e3, f1, f2, f3]
  · rw [encNat, if_neg e1, if_neg e2, if_pos e3]; rfl

theorem good4 {m : Mem} {a b c d : Nat} (h0 : rd m 0 = some a) (h1 : rd m 1 = some b) (h2 : rd m 2 = some c)
    (h3 : rd m 3 = some d) (ha : 0xf0 ≤ a ∧ a < 0xf8) (hb : 128 ≤ b ∧ b < 192) (hc : 128 ≤ c ∧ c < 192)
    (hd : 128 ≤ d ∧ d < 192) (hmin : a % 8 * 262144 + (b - 128) * 4096 + (c - 128) * 64 + (d - 128) ≥ 0x10000)
    (hmax : a % 8 * 64 + (b - 128) < 0x110) :
    Good m (a % 8 * 262144 + (b - 128) * 4096 + (c - 128) * 64 + (d - 128)) 4 := by
  generalize hv : a % 8 * 262144 + (b - 128) * 4096 + (c - 128) * 64 + (d - 128) = v at *
  have e1 : ¬ v ≤ 127 := by omega
  have e2 : ¬ v ≤ 2047 := by omega
  have e3 : ¬ v ≤ 65535 := by omega
  have f1 : v / 262144 % 8 + 240 = a := by omega
  have f2 : v / 4096 % 64 + 128 = b := by omega
  have f3 : v / 64 % 64 + 128 = c := by omega
  have f4 : v % 64 + 128 = d := by omega
  refine ⟨?_, ?_, ?_⟩
  · unfold Scalar; omega
  · rw [take_four h0 h1 h2 h3, encNat, if_neg e1, if_neg e2, if_neg e3, f1, f2, f3, f4]
  · rw [encNat, if_neg e1, if_neg e2, if_neg e3]; rfl

/-- What a body returns when it succeeds. -/
theorem body1_ok {s : Mem} {count i c v n : Nat} (h : body1 s count i c = some (some (v, n))) :
    ∃ b, rd s i = some b ∧ (128 ≤ b ∧ b < 192) ∧ v = c * 64 + (b - 128) ∧ v ≥ minLegal count ∧ n = i + 1 := by
  cases hb : rd s i with
  | none => simp [body1, hb] at h
  | some b =>
    by_cases ht : 128 ≤ b ∧ b < 192
    · rw [body1_trail hb ht] at h
      split at h
      · next hm => simp only [Option.some.injEq, Prod.mk.injEq] at h; exact ⟨b, rfl, ht, h.1.symm, h.1 ▸ hm, h.2.symm⟩
      · cases h
    · rw [body1_other hb ht] at h; cases h

theorem body2_ok {s : Mem} {count i c v n : Nat} (hc : c < 1023) (h : body2 s count i c = some (some (v, n))) :
    ∃ b, rd s i = some b ∧ (128 ≤ b ∧ b < 192) ∧ (c * 64 + (b - 128)) / 32 ≠ 0x1b ∧
      body1 s count (i + 1) (c * 64 + (b - 128)) = some (some (v, n)) := by
  cases hb : rd s i with
  | none => simp [body2, hb] at h
  | some b =>
    by_cases ht : 128 ≤ b ∧ b < 192
    · rw [body2_trail hb ht hc] at h
      split at h
      · cases h
      · next hs => exact ⟨b, rfl, ht, hs, h⟩
    · rw [body2_other hb ht] at h; cases h

theorem body3_ok {s : Mem} {count i c v n : Nat} (h : body3 s count i c = some (some (v, n))) :
    ∃ b, rd s i = some b ∧ (128 ≤ b ∧ b < 192) ∧ c * 64 + (b - 128) < 0x110 ∧
      body2 s count (i + 1) (c * 64 + (b - 128)) = some (some (v, n)) := by
  cases hb : rd s i with
  | none => simp [body3, hb] at h
  | some b =>
    by_cases ht : 128 ≤ b ∧ b < 192
    · rw [body3_trail hb ht] at h
      split at h
      · cases h
      · next hs => exact ⟨b, rfl, ht, by omega, h⟩
    · rw [body3_other hb ht] at h; cases h

/-- An unsuccessful scan. -/
def Bad (m : Mem) (k : Nat) : Prop := 1 ≤ k ∧ ∀ j, 1 ≤ j → j < k → ∃ b, rd m j = some b ∧ 128 ≤ b ∧ b < 192

theorem nextSlow_spec {m : Mem} {a k : Nat} {c : Int} (h0 : rd m 0 = some a) (_ : 128 ≤ a)
    (h : nextSlow m a = some (c, k)) : (∃ v : Nat, c = v ∧ Good m v k) ∨ (c = -1 ∧ Bad m k) := by
  unfold nextSlow at h
  cases hb : body m (countTrail a) (maskLead a (countTrail a)) with
  | none => rw [hb] at h; cases h
  | some r =>
    rw [hb] at h
    simp only [Option.bind_some] at h
    cases r with
    | none =>
      simp only at h
      cases hs : skip m (countTrail a) 1 with
      | none => rw [hs] at h; cases h
      | some n =>
        rw [hs] at h
        simp only [Option.map_some, Option.some.injEq, Prod.mk.injEq] at h
        obtain ⟨e1, -, e3⟩ := skip_spec hs
        exact Or.inr ⟨h.1.symm, h.2 ▸ e1, fun j j1 j2 => e3 j j1 (h.2 ▸ j2)⟩
    | some p =>
      obtain ⟨v, n⟩ := p
      simp only [Option.some.injEq, Prod.mk.injEq] at h
      obtain ⟨h1, h2⟩ := h
      subst h2
      refine Or.inl ⟨v, h1.symm, ?_⟩
      rw [countTrail_eq] at hb
      by_cases c1 : a < 0xc0
      · rw [if_pos c1] at hb; simp [body] at hb
      · rw [if_neg c1] at hb
        by_cases c2 : a < 0xe0
        · rw [if_pos c2, maskLead1] at hb
          simp only [body] at hb
          obtain ⟨b, hb1, ht, hv, hm, hn⟩ := body1_ok hb
          have : 0xc2 ≤ a := by simp only [minLegal] at hm; omega
          rw [hv, hn]
          exact good2 h0 hb1 ⟨this, c2⟩ ht
        · rw [if_neg c2] at hb
          by_cases c3 : a < 0xf0
          · rw [if_pos c3, maskLead2] at hb
            simp only [body] at hb
            obtain ⟨b, hb1, ht, hs, hr⟩ := body2_ok (by omega) hb
            obtain ⟨b', hb1', ht', hv, hm, hn⟩ := body1_ok hr
            subst hn
            have e : v = a % 16 * 4096 + (b - 128) * 64 + (b' - 128) := by omega
            simp only [minLegal] at hm
            rw [e]
            exact good3 h0 hb1 hb1' ⟨by omega, c3⟩ ht ht' (by omega) hs
          · rw [if_neg c3] at hb
            by_cases c4 : a < 0xf8
            · rw [if_pos c4, maskLead3] at hb
              simp only [body] at hb
              obtain ⟨b, hb1, ht, hs, hr⟩ := body3_ok hb
              obtain ⟨b', hb1', ht', hs', hr'⟩ := body2_ok (by omega) hr
              obtain ⟨b'', hb1'', ht'', hv, hm, hn⟩ := body1_ok hr'
              subst hn
              have e : v = a % 8 * 262144 + (b - 128) * 4096 + (b' - 128) * 64 + (b'' - 128) := by omega
              simp only [minLegal] at hm
              rw [e]
              exact good4 h0 hb1 hb1' hb1'' ⟨by omega, c4⟩ ht ht' ht'' (by omega) hs
            · rw [if_neg c4] at hb
              by_cases c5 : a < 0xfc
              · rw [if_pos c5] at hb; simp [body] at hb
              · rw [if_neg c5] at hb
                by_cases c6 : a < 0xfe
                · rw [if_pos c6] at hb; simp [body] at hb
                · rw [if_neg c6] at hb; simp [body] at hb

/-- Every result of the scanner: a scalar value with exactly its UTF-8 bytes, or -1 after some trail bytes. -/
theorem next_spec {m : Mem} {k : Nat} {c : Int} (h : next m = some (c, k)) :
    (∃ v : Nat, c = v ∧ Good m v k) ∨ (c = -1 ∧ Bad m k) := by
  unfold next at h
  cases h0 : rd m 0 with
  | none => rw [h0] at h; cases h
  | some a =>
    rw [h0] at h
    simp only [Option.bind_some] at h
    by_cases ha : a ≥ 0x80
    · rw [if_pos ha] at h
      by_cases c1 : 0xe0 < a ∧ a ≤ 0xec
      · rw [if_pos c1] at h
        unfold next3 at h
        cases h1 : rd m 1 with
        | none => rw [h1] at h; cases h
        | some b1 =>
          rw [h1] at h; simp only [Option.bind_some] at h
          split at h
          · next t1 =>
            have t1 := (trail_le (rd_lt h1)).mp t1
            cases h2 : rd m 2 with
            | none => rw [h2] at h; cases h
            | some b2 =>
              rw [h2] at h; simp only [Option.bind_some] at h
              split at h
              · next t2 =>
                have t2 := (trail_le (rd_lt h2)).mp t2
                rw [trail_eq t1, trail_eq t2, inline3 (by omega) (by omega)] at h
                simp only [Option.some.injEq, Prod.mk.injEq] at h
                refine Or.inl ⟨_, h.1.symm, h.2 ▸ good3 h0 h1 h2 (by omega) t1 t2 (by omega) (by omega)⟩
              · exact nextSlow_spec h0 ha h
          · exact nextSlow_spec h0 ha h
      · rw [if_neg c1] at h
        by_cases c2 : a < 0xe0 ∧ a ≥ 0xc2
        · rw [if_pos c2] at h
          unfold next2 at h
          cases h1 : rd m 1 with
          | none => rw [h1] at h; cases h
          | some b1 =>
            rw [h1] at h; simp only [Option.bind_some] at h
            split at h
            · next t1 =>
              have t1 := (trail_le (rd_lt h1)).mp t1
              rw [trail_eq t1, and31, shl6_or (by omega)] at h
              simp only [Option.some.injEq, Prod.mk.injEq] at h
              exact Or.inl ⟨_, h.1.symm, h.2 ▸ good2 h0 h1 (by omega) t1⟩
            · exact nextSlow_spec h0 ha h
        · rw [if_neg c2] at h
          exact nextSlow_spec h0 ha h
    · rw [if_neg ha] at h
      simp only [Option.some.injEq, Prod.mk.injEq] at h
      refine Or.inl ⟨a, h.1.symm, Or.inl (by omega), ?_, ?_⟩
      · rw [← h.2, take_one h0, encNat, if_pos (by omega)]
      · rw [← h.2, encNat, if_pos (by omega)]; rfl

theorem encNat_trail {v : Nat} {j : Nat} (h1 : 1 ≤ j) (h2 : j < (encNat v).length) :
    ∃ b, rd (encNat v) j = some b ∧ 128 ≤ b ∧ b < 192 := by
  unfold encNat at h2 ⊢
  split at h2
  · simp at h2; omega
  · next c1 =>
    rw [if_neg c1]
    split at h2
    · next c2 =>
      rw [if_pos c2]
      rcases (by simp at h2; omega : j = 1) with rfl
      exact ⟨_, rfl, by simp only [UInt8.toNat_ofNat']; omega⟩
    · next c2 =>
      rw [if_neg c2]
      split at h2
      · next c3 =>
        rw [if_pos c3]
        rcases (by simp at h2; omega : j = 1 ∨ j = 2) with rfl | rfl <;>
        exact ⟨_, rfl, by simp only [UInt8.toNat_ofNat']; omega⟩
      · next c3 =>
        rw [if_neg c3]
        rcases (by simp at h2; omega : j = 1 ∨ j = 2 ∨ j = 3) with rfl | rfl | rfl <;>
        exact ⟨_, rfl, by simp only [UInt8.toNat_ofNat']; omega⟩

theorem rd_append_left {s t : Mem} {k : Nat} (h : k < s.length) : rd (s ++ t) k = rd s k := by
  simp [rd, List.getElem?_append_left h]

theorem encNat_length_pos (v : Nat) : 1 ≤ (encNat v).length := by
  unfold encNat; repeat' split
  all_goals simp

theorem rd_take {m : Mem} {j k : Nat} (h : j < k) : rd (m.take k) j = rd m j := by
  simp [rd, h]

/-- The bytes consumed after the first are all trail bytes, however the scan ends. -/
theorem next_trail {m : Mem} {k : Nat} {c : Int} (h : next m = some (c, k)) :
    1 ≤ k ∧ ∀ j, 1 ≤ j → j < k → ∃ b, rd m j = some b ∧ 128 ≤ b ∧ b < 192 := by
  rcases next_spec h with ⟨v, -, -, h2, h3⟩ | ⟨-, h⟩
  · have := encNat_length_pos v
    refine ⟨by omega, fun j j1 j2 => ?_⟩
    obtain ⟨b, e, hb⟩ := encNat_trail (v := v) j1 (by omega)
    exact ⟨b, by rw [← rd_take j2, h2]; exact e, hb⟩
  · exact h

theorem body1_some {s : Mem} {count i c : Nat} (h : i < s.length) : ∃ r, body1 s count i c = some r := by
  rw [body1, rd_some h]; exact ⟨_, rfl⟩

/-- Bytes read up to position `i` are there, and the next one is too if they are trail bytes. -/
theorem body2_some {s : Mem} {count i c : Nat} (h : i < s.length)
    (hz : ∀ b, rd s i = some b → 128 ≤ b → i + 1 < s.length) : ∃ r, body2 s count i c = some r := by
  rw [body2, rd_some h]
  simp only [Option.bind_some]
  split
  · exact ⟨_, rfl⟩
  · next hc =>
    have ht : 128 ≤ (s[i]).toNat := by
      have := (trail_le (rd_lt (rd_some h))).mp (by omega); omega
    exact body1_some (hz _ (rd_some h) ht)

theorem body3_some {s : Mem} {count i c : Nat} (h : i < s.length)
    (hz : ∀ j b, i ≤ j → j ≤ i + 1 → rd s j = some b → 128 ≤ b → j + 1 < s.length) : ∃ r, body3 s count i c = some r := by
  rw [body3, rd_some h]
  simp only [Option.bind_some]
  split
  · exact ⟨_, rfl⟩
  · next hc =>
    have ht : 128 ≤ (s[i]).toNat := by
      have := (trail_le (rd_lt (rd_some h))).mp (by omega); omega
    exact body2_some (hz i _ (Nat.le_refl _) (by omega) (rd_some h) ht) fun b hb h128 => hz _ b (by omega) (by omega) hb h128

theorem skip_some {s : Mem} (hz : ∀ j b, rd s j = some b → 128 ≤ b → j + 1 < s.length) :
    ∀ {count i : Nat}, i < s.length → ∃ r, skip s count i = some r := by
  intro count
  induction count with
  | zero => intro i _; exact ⟨_, rfl⟩
  | succ count ih =>
    intro i h
    rw [skip, rd_some h]
    simp only [Option.bind_some]
    split
    · next ht => exact ih (hz i _ (rd_some h) ((isTrail_iff (rd_lt (rd_some h))).mp ht).1)
    · exact ⟨_, rfl⟩

/-- Memory in which every byte from 0x80 up is followed by another byte: a terminated string. -/
def Closed (m : Mem) : Prop := ∀ j b, rd m j = some b → 128 ≤ b → j + 1 < m.length

theorem nextSlow_some {m : Mem} {a : Nat} (hz : Closed m) (h0 : rd m 0 = some a) (ha : 128 ≤ a) :
    ∃ r, nextSlow m a = some r := by
  have hlen := hz 0 a h0 ha
  have : ∃ r, body m (countTrail a) (maskLead a (countTrail a)) = some r := by
    unfold body
    split
    · exact body3_some hlen fun j b _ _ => hz j b
    · exact body2_some hlen fun b => hz 1 b
    · exact body1_some hlen
    · exact ⟨_, rfl⟩
  obtain ⟨r, hr⟩ := this
  obtain ⟨n, hn⟩ := skip_some hz (count := countTrail a) hlen
  unfold nextSlow
  rw [hr]
  cases r with
  | none => simp only [Option.bind_some, hn]; exact ⟨_, rfl⟩
  | some p => exact ⟨_, rfl⟩

theorem next_some {m : Mem} (hz : Closed m) (h : m ≠ []) : ∃ r, next m = some r := by
  have hl : 0 < m.length := List.length_pos_iff.mpr h
  have h0 := rd_some hl
  generalize (m[0]).toNat = a at h0
  unfold next
  rw [h0]
  simp only [Option.bind_some]
  split
  · next ha =>
    have l1 := hz 0 a h0 ha
    split
    · unfold next3
      rw [rd_some l1]
      simp only [Option.bind_some]
      split
      · next t1 =>
        have l2 := hz 1 _ (rd_some l1) ((trail_le (rd_lt (rd_some l1))).mp t1).1
        rw [rd_some l2]
        simp only [Option.bind_some]
        split
        · exact ⟨_, rfl⟩
        · exact nextSlow_some hz h0 ha
      · exact nextSlow_some hz h0 ha
    · split
      · unfold next2
        rw [rd_some l1]
        simp only [Option.bind_some]
        split
        · exact ⟨_, rfl⟩
        · exact nextSlow_some hz h0 ha
      · exact nextSlow_some hz h0 ha
  · exact ⟨_, rfl⟩

theorem closed_append_zero (s : List UInt8) : Closed (s ++ [0]) := by
  intro j b hj hb
  obtain ⟨u, hu, rfl⟩ := rd_eq hj
  have hl : j < (s ++ [0]).length := by
    rcases Nat.lt_or_ge j (s ++ [0]).length with h | h
    · exact h
    · rw [List.getElem?_eq_none h] at hu; cases hu
  simp only [List.length_append, List.length_singleton] at hl ⊢
  rcases Nat.lt_or_ge j s.length with h | h
  · omega
  · have : j = s.length := by omega
    subst this
    simp at hu
    subst hu
    simp at hb

theorem next_two {m : Mem} {a b : Nat} (h0 : rd m 0 = some a) (h1 : rd m 1 = some b) (ha : 0xc2 ≤ a ∧ a < 0xe0)
    (hb : 128 ≤ b ∧ b < 192) : next m = some (((a % 32 * 64 + (b - 128) : Nat) : Int), 2) := by
  rw [next, h0]
  simp only [Option.bind_some]
  rw [if_pos (by omega), if_neg (by omega), if_pos (by omega), next2, h1]
  simp only [Option.bind_some]
  rw [if_pos ((trail_le (rd_lt h1)).mpr hb), trail_eq hb, and31, shl6_or (by omega)]

theorem nextSlow_three {m : Mem} {a b c : Nat} (h1 : rd m 1 = some b) (h2 : rd m 2 = some c)
    (ha : 0xe0 ≤ a ∧ a < 0xf0) (hb : 128 ≤ b ∧ b < 192) (hc : 128 ≤ c ∧ c < 192)
    (hmin : a % 16 * 4096 + (b - 128) * 64 + (c - 128) ≥ 0x800) (hs : (a % 16 * 64 + (b - 128)) / 32 ≠ 0x1b) :
    nextSlow m a = some (((a % 16 * 4096 + (b - 128) * 64 + (c - 128) : Nat) : Int), 3) := by
  have hct : countTrail a = 2 := by
    rw [countTrail_eq, if_neg (by omega), if_neg (by omega), if_pos (by omega)]
  rw [nextSlow, hct, maskLead2]
  simp only [body]
  rw [body2_trail h1 hb (by omega), if_neg hs, body1_trail h2 hc, if_pos (by simp only [minLegal]; omega)]
  simp only [Option.bind_some]
  have : (a % 16 * 64 + (b - 128)) * 64 + (c - 128) = a % 16 * 4096 + (b - 128) * 64 + (c - 128) := by omega
  rw [this]

theorem next_three {m : Mem} {a b c : Nat} (h0 : rd m 0 = some a) (h1 : rd m 1 = some b) (h2 : rd m 2 = some c)
    (ha : 0xe0 ≤ a ∧ a < 0xf0) (hb : 128 ≤ b ∧ b < 192) (hc : 128 ≤ c ∧ c < 192)
    (hmin : a % 16 * 4096 + (b - 128) * 64 + (c - 128) ≥ 0x800) (hs : (a % 16 * 64 + (b - 128)) / 32 ≠ 0x1b) :
    next m = some (((a % 16 * 4096 + (b - 128) * 64 + (c - 128) : Nat) : Int), 3) := by
  rw [next, h0]
  simp only [Option.bind_some]
  rw [if_pos (by omega)]
  by_cases c1 : 0xe0 < a ∧ a ≤ 0xec
  · rw [if_pos c1, next3, h1]
    simp only [Option.bind_some]
    rw [if_pos ((trail_le (rd_lt h1)).mpr hb), h2]
    simp only [Option.bind_some]
    rw [if_pos ((trail_le (rd_lt h2)).mpr hc), trail_eq hb, trail_eq hc, inline3 (by omega) (by omega)]
  · rw [if_neg c1, if_neg (by omega)]
    exact nextSlow_three h1 h2 ha hb hc hmin hs

theorem next_four {m : Mem} {a b c d : Nat} (h0 : rd m 0 = some a) (h1 : rd m 1 = some b) (h2 : rd m 2 = some c)
    (h3 : rd m 3 = some d) (ha : 0xf0 ≤ a ∧ a < 0xf8) (hb : 128 ≤ b ∧ b < 192) (hc : 128 ≤ c ∧ c < 192)
    (hd : 128 ≤ d ∧ d < 192) (hmin : a % 8 * 262144 + (b - 128) * 4096 + (c - 128) * 64 + (d - 128) ≥ 0x10000)
    (hmax : a % 8 * 64 + (b - 128) < 0x110) :
    next m = some (((a % 8 * 262144 + (b - 128) * 4096 + (c - 128) * 64 + (d - 128) : Nat) : Int), 4) := by
  rw [next, h0]
  simp only [Option.bind_some]
  have hct : countTrail a = 3 := by
    rw [countTrail_eq, if_neg (by omega), if_neg (by omega), if_neg (by omega), if_pos (by omega)]
  rw [if_pos (by omega), if_neg (by omega), if_neg (by omega), nextSlow, hct, maskLead3]
  simp only [body]
  rw [body3_trail h1 hb, if_neg (by omega), body2_trail h2 hc (by omega), if_neg (by omega), body1_trail h3 hd,
    if_pos (by simp only [minLegal]; omega)]
  simp only [Option.bind_some]
  have : ((a % 8 * 64 + (b - 128)) * 64 + (c - 128)) * 64 + (d - 128)
      = a % 8 * 262144 + (b - 128) * 4096 + (c - 128) * 64 + (d - 128) := by omega
  rw [this]

theorem rd0 (b : Nat) (r : Mem) (h : b < 256) : rd (UInt8.ofNat b :: r) 0 = some b := by
  rw [rd_cons_zero, UInt8.toNat_ofNat', Nat.mod_eq_of_lt (by simpa using h)]

/-- Scanning the UTF-8 bytes of a scalar value returns it, whatever follows. -/
theorem next_enc {v : Nat} (hv : Scalar v) (r : Mem) : next (encNat v ++ r) = some ((v : Int), (encNat v).length) := by
  unfold Scalar at hv
  unfold encNat
  split
  · next c1 =>
    simp only [List.cons_append, List.nil_append]
    rw [next, rd0 _ _ (by omega)]
    simp only [Option.bind_some]
    rw [if_neg (by omega)]; rfl
  · next c1 =>
    split
    · next c2 =>
      simp only [List.cons_append, List.nil_append]
      rw [next_two (a := v / 64 % 32 + 192) (b := v % 64 + 128) (rd0 _ _ (by omega))
        (by rw [rd_cons_succ]; exact rd0 _ _ (by omega)) (by omega) (by omega)]
      simp only [List.length_cons, List.length_nil, Option.some.injEq, Prod.mk.injEq, and_true]
      omega
    · next c2 =>
      split
      · next c3 =>
        simp only [List.cons_append, List.nil_append]
        rw [next_three (a := v / 4096 % 16 + 224) (b := v / 64 % 64 + 128) (c := v % 64 + 128) (rd0 _ _ (by omega))
          (by rw [rd_cons_succ]; exact rd0 _ _ (by omega)) (by rw [rd_cons_succ, rd_cons_succ]; exact rd0 _ _ (by omega))
          (by omega) (by omega) (by omega) (by omega) (by omega)]
        simp only [List.length_cons, List.length_nil, Option.some.injEq, Prod.mk.injEq, and_true]
        omega
      · next c3 =>
        simp only [List.cons_append, List.nil_append]
        rw [next_four (a := v / 262144 % 8 + 240) (b := v / 4096 % 64 + 128) (c := v / 64 % 64 + 128) (d := v % 64 + 128)
          (rd0 _ _ (by omega))
          (by rw [rd_cons_succ]; exact rd0 _ _ (by omega)) (by rw [rd_cons_succ, rd_cons_succ]; exact rd0 _ _ (by omega))
          (by rw [rd_cons_succ, rd_cons_succ, rd_cons_succ]; exact rd0 _ _ (by omega))
          (by omega) (by omega) (by omega) (by omega) (by omega) (by omega)]
        simp only [List.length_cons, List.length_nil, Option.some.injEq, Prod.mk.injEq, and_true]
        omega

/-! Writing -/

theorem or_top {a n k : Nat} (h : a < 2 ^ n) : a ||| k * 2 ^ n = a + k * 2 ^ n := by
  rw [Nat.or_comm, or_add h, Nat.add_comm]

theorem enc2_eq {u : Nat} (h : u ≤ 0x7ff) : enc2 u = [UInt8.ofNat (u / 64 % 32 + 192), UInt8.ofNat (u % 64 + 128)] := by
  have e1 : u >>> 6 ||| 0xc0 = u / 64 % 32 + 192 := by
    rw [Nat.shiftRight_eq_div_pow, show (0xc0 : Nat) = 6 * 2 ^ 5 from rfl, or_top (by omega)]; omega
  have e2 : u &&& 0x3f ||| 0x80 = u % 64 + 128 := by
    rw [and63, show (0x80 : Nat) = 2 * 2 ^ 6 from rfl, or_top (by omega)]
  rw [enc2, e1, e2]

theorem enc3_eq {u : Nat} (h : u ≤ 0xffff) :
    enc3 u = [UInt8.ofNat (u / 4096 % 16 + 224), UInt8.ofNat (u / 64 % 64 + 128), UInt8.ofNat (u % 64 + 128)] := by
  have e1 : u >>> 12 ||| 0xe0 = u / 4096 % 16 + 224 := by
    rw [Nat.shiftRight_eq_div_pow, show (0xe0 : Nat) = 14 * 2 ^ 4 from rfl, or_top (by omega)]; omega
  have e2 : u >>> 6 &&& 0x3f ||| 0x80 = u / 64 % 64 + 128 := by
    rw [and63, show (0x80 : Nat) = 2 * 2 ^ 6 from rfl, or_top (by omega), Nat.shiftRight_eq_div_pow]
  have e3 : u &&& 0x3f ||| 0x80 = u % 64 + 128 := by
    rw [and63, show (0x80 : Nat) = 2 * 2 ^ 6 from rfl, or_top (by omega)]
  rw [enc3, e1, e2, e3]

theorem enc4_eq {u : Nat} (h : u ≤ 0x10ffff) :
    enc4 u = [UInt8.ofNat (u / 262144 % 8 + 240), UInt8.ofNat (u / 4096 % 64 + 128), UInt8.ofNat (u / 64 % 64 + 128),
      UInt8.ofNat (u % 64 + 128)] := by
  have e0 : u >>> 18 ||| 0xf0 = u / 262144 % 8 + 240 := by
    rw [Nat.shiftRight_eq_div_pow, show (0xf0 : Nat) = 30 * 2 ^ 3 from rfl, or_top (by omega)]; omega
  have e1 : u >>> 12 &&& 0x3f ||| 0x80 = u / 4096 % 64 + 128 := by
    rw [and63, show (0x80 : Nat) = 2 * 2 ^ 6 from rfl, or_top (by omega), Nat.shiftRight_eq_div_pow]
  have e2 : u >>> 6 &&& 0x3f ||| 0x80 = u / 64 % 64 + 128 := by
    rw [and63, show (0x80 : Nat) = 2 * 2 ^ 6 from rfl, or_top (by omega), Nat.shiftRight_eq_div_pow]
  have e3 : u &&& 0x3f ||| 0x80 = u % 64 + 128 := by
    rw [and63, show (0x80 : Nat) = 2 * 2 ^ 6 from rfl, or_top (by omega)]
  rw [enc4, e0, e1, e2, e3]

theorem appendBytes_scalar {cap v : Nat} (hcap : cap < 2 ^ 31) (hv : Scalar v) (hfit : (encNat v).length ≤ max 1 cap) :
    appendBytes cap v = some (encNat v) := by
  have hi : asInt32 cap = cap := by unfold asInt32; rw [if_pos hcap]
  unfold Scalar at hv
  unfold appendBytes appendSlow
  rw [hi]
  unfold encNat at hfit ⊢
  by_cases c1 : v ≤ 127
  · simp only [if_pos c1]
  · simp only [if_neg c1] at hfit ⊢
    by_cases c2 : v ≤ 2047
    · simp only [if_pos c2] at hfit ⊢
      have : 1 < cap := by simp at hfit; omega
      rw [if_pos ⟨c2, this⟩, enc2_eq c2]
    · simp only [if_neg c2] at hfit ⊢
      rw [if_neg (by omega)]
      by_cases c3 : v ≤ 65535
      · simp only [if_pos c3] at hfit ⊢
        have hc : 2 < cap := by simp at hfit; omega
        rw [if_pos (show 2 < (cap : Int) ∧ ¬ (0xd800 ≤ v ∧ v ≤ 0xdfff) by omega), enc3_eq c3]
        split <;> rfl
      · simp only [if_neg c3] at hfit ⊢
        have hc : 3 < cap := by simp at hfit; omega
        rw [if_neg (by omega), if_pos (by omega), if_pos (by omega), enc4_eq (by omega)]

theorem appendBytes_refused {cap v : Nat} (hcap : cap < 2 ^ 31) (h : ¬ Scalar v ∨ max 1 cap < (encNat v).length) :
    appendBytes cap v = none := by
  have hi : asInt32 cap = cap := by unfold asInt32; rw [if_pos hcap]
  unfold Scalar at h
  unfold appendBytes appendSlow
  rw [hi]
  unfold encNat at h
  by_cases c1 : v ≤ 127
  · simp only [if_pos c1] at h; simp at h; omega
  · simp only [if_neg c1] at h ⊢
    by_cases c2 : v ≤ 2047
    · simp only [if_pos c2] at h ⊢
      have : ¬ 1 < cap := by simp at h; omega
      rw [if_neg (by omega), if_neg (by omega), if_neg (by omega)]
    · simp only [if_neg c2] at h ⊢
      rw [if_neg (by omega)]
      by_cases c3 : v ≤ 65535
      · simp only [if_pos c3] at h ⊢
        have hc : ¬ (2 < cap) ∨ (0xd800 ≤ v ∧ v ≤ 0xdfff) := by simp at h; omega
        rw [if_neg (by omega), if_neg (by omega)]
      · simp only [if_neg c3] at h ⊢
        rw [if_neg (by omega)]
        split
        · have hc : ¬ (3 < cap) := by simp at h; omega
          rw [if_neg (by omega)]
        · rfl

end Unicode
end Duck
