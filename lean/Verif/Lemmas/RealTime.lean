import Verif.Model.RealTime
import Verif.Lemmas.Decimal
import Verif.Props.RwLock
import Mathlib.Tactic.Ring
/-! Lemmas for C85 and C91 with floating point. -/
namespace Duck
namespace RealTime
set_option exponentiation.threshold 2000
open Number (scale val roundEven Fmt floatVal withSign signBit)
open Decimal (f64 nearest)
open RwLock (Time endTime)

theorem roundEven_mono {a b q : Nat} (h : a ≤ b) : roundEven a q ≤ roundEven b q := by
  have hd : a / q ≤ b / q := Nat.div_le_div_right h
  rcases Nat.lt_or_eq_of_le hd with hlt | heq
  · unfold roundEven; split <;> split <;> omega
  · have hm : a % q ≤ b % q := by
      have h1 := Nat.div_add_mod a q
      have h2 := Nat.div_add_mod b q
      rw [heq] at h1
      omega
    unfold roundEven
    rw [heq]
    split <;> split <;> omega

theorem scale_eq : scale = 2 ^ 1074 := rfl
theorem scale_pos : 0 < scale := Nat.pow_pos (by decide)

/-- A finite double is fewer than 2^53 units of a power of two. -/
theorem decode_parts {mag : Nat} (h : mag / 2 ^ 52 < 2047) : ∃ m w, f64.decode mag = m * 2 ^ w ∧ m < 2 ^ 53 ∧ w ≤ 2045 := by
  unfold Fmt.decode
  have hm : mag % 2 ^ (f64.p - 1) < 2 ^ 52 := Nat.mod_lt _ (by decide)
  have hp : f64.p - 1 = 52 := rfl
  have hu : f64.unit = 1 := rfl
  rw [hp, hu] at *
  split
  · exact ⟨mag % 2 ^ 52, 0, by simp, by omega, by omega⟩
  · exact ⟨2 ^ 52 + mag % 2 ^ 52, mag / 2 ^ 52 - 1, by simp, by omega, by omega⟩

/-- The fraction of a finite double is a double. -/
theorem fraction_parts {n m w : Nat} (h : n = m * 2 ^ w) (hm : m < 2 ^ 53) :
    ∃ m' w', n % scale = m' * 2 ^ w' ∧ m' < 2 ^ 53 ∧ w' < 1074 := by
  by_cases hw : w < 1074
  · refine ⟨m % 2 ^ (1074 - w), w, ?_, Nat.lt_of_le_of_lt (Nat.mod_le _ _) hm, hw⟩
    have : scale = 2 ^ (1074 - w) * 2 ^ w := by rw [← Nat.pow_add, scale_eq]; congr 1; omega
    rw [h, this, Nat.mul_mod_mul_right]
  · refine ⟨0, 0, ?_, by decide, by decide⟩
    have : m * 2 ^ w = m * 2 ^ (w - 1074) * scale := by
      rw [scale_eq, Nat.mul_assoc, ← Nat.pow_add]; congr 2; omega
    rw [h, this, Nat.mul_mod_left, Nat.zero_mul]

theorem exact53 {m w : Nat} (hm : m < 2 ^ 53) (hw : w + 2 < 2047) : f64.decode (f64.encode (m * 2 ^ w)) = m * 2 ^ w := by
  have := Decimal.decode_exact f64 Decimal.f64_p Decimal.f64_unit m w hm hw
  simpa only [show f64.unit = 1 from rfl, Nat.one_mul] using this

theorem exactInt {m : Nat} (hm : m < 2 ^ 53) : f64.decode (f64.encode (m * scale)) = m * scale := exact53 hm (by decide)

/-- The nanoseconds of a timeout, before truncation. -/
theorem product_eq {n m w : Nat} (h : n = m * 2 ^ w) (hm : m < 2 ^ 53) :
    Decimal.mul (f64.encode (n % scale)) (f64.encode (1000000000 * scale)) = f64.encode (n % scale * 1000000000) := by
  obtain ⟨m', w', e, hm', hw'⟩ := fraction_parts h hm
  unfold Decimal.mul
  rw [exactInt (by decide : 1000000000 < 2 ^ 53)]
  rw [show f64.decode (f64.encode (n % scale)) = n % scale by rw [e]; exact exact53 hm' (by omega)]
  rw [← Nat.mul_assoc]
  have := Decimal.nearest_scale f64 (n % scale * 1000000000) 1 scale_pos
  rw [Nat.one_mul] at this
  rw [this, Decimal.encode_eq]

theorem below {m w k : Nat} (hm : m < 2 ^ 53) (hw : w ≤ k) : m * 2 ^ w < 2 ^ 53 * 2 ^ k :=
  Nat.lt_of_lt_of_le (Nat.mul_lt_mul_of_pos_right hm (Nat.pow_pos (by decide))) (Nat.mul_le_mul_left _ (Nat.pow_le_pow_right (by decide) hw))

theorem fraction_top {n m w : Nat} (h : n = m * 2 ^ w) (hm : m < 2 ^ 53) : n % scale + 2 ^ 1021 ≤ scale := by
  have hlt : n % scale < scale := Nat.mod_lt _ scale_pos
  obtain ⟨m', w', e, hm', hw'⟩ := fraction_parts h hm
  by_cases hw : 1021 ≤ w'
  · -- a multiple of 2^1021
    have he : n % scale = m' * 2 ^ (w' - 1021) * 2 ^ 1021 := by rw [e, Nat.mul_assoc, ← Nat.pow_add]; congr 2; omega
    have hs : scale = 2 ^ 53 * 2 ^ 1021 := by rw [scale_eq, ← Nat.pow_add]
    rw [he, hs] at hlt
    have := Nat.lt_of_mul_lt_mul_right hlt
    rw [he, hs, ← Nat.succ_mul]
    exact Nat.mul_le_mul_right _ this
  · have h1 : n % scale < 2 ^ 53 * 2 ^ 1020 := by
      rw [e]
      exact below hm' (by omega)
    have h2 : 2 ^ 53 * 2 ^ 1020 + 2 ^ 1021 ≤ scale := by decide +kernel
    omega

/-- The nanoseconds of a timeout: below one second, and the truncation of the exact number up to 2^-24. -/
theorem fractionNsec_spec {n m w : Nat} (h : n = m * 2 ^ w) (hm : m < 2 ^ 53) :
    fractionNsec n < 1000000000 ∧ fractionNsec n * scale ≤ n % scale * 1000000000 + 2 ^ 1050 ∧
      n % scale * 1000000000 < (fractionNsec n + 1) * scale + 2 ^ 1050 := by
  have htop := fraction_top h hm
  have hlt : n % scale * 1000000000 < 2 ^ (53 + 1051) := by
    calc n % scale * 1000000000 < scale * 2 ^ 30 := by
            refine Nat.mul_lt_mul_of_lt_of_le (Nat.mod_lt _ scale_pos) (by decide) (by decide)
      _ = 2 ^ (53 + 1051) := by rw [scale_eq, ← Nat.pow_add]
  obtain ⟨_, e1, e2⟩ := Decimal.encode_err _ 1051 hlt (by decide)
  unfold fractionNsec
  rw [product_eq h hm]
  generalize f64.decode (f64.encode (n % scale * 1000000000)) = r at *
  generalize n % scale = F at *
  have h1051 : 2 ^ 1051 = 2 * 2 ^ 1050 := by decide +kernel
  have hk : 10 ^ 9 * 2 ^ 1021 > 2 ^ 1050 := by decide +kernel
  rw [h1051] at e1 e2
  have hr : r < 1000000000 * scale := by
    generalize scale = S at *
    generalize 2 ^ 1021 = u at *
    generalize 2 ^ 1050 = v at *
    omega
  have hd1 : r / scale * scale ≤ r := Nat.div_mul_le_self r scale
  have hd2 : r < (r / scale + 1) * scale := Nat.lt_succ_mul_div_succ' r
  refine ⟨(Nat.div_lt_iff_lt_mul scale_pos).2 hr, ?_, ?_⟩
  · generalize 2 ^ 1050 = v at *; generalize r / scale * scale = x at *; omega
  · generalize 2 ^ 1050 = v at *; generalize (r / scale + 1) * scale = x at *; omega
where
  Nat.lt_succ_mul_div_succ' (r : Nat) : r < (r / scale + 1) * scale := by
    have := Nat.div_add_mod r scale
    have h2 := Nat.mod_lt r scale_pos
    rw [Nat.add_mul, Nat.one_mul, Nat.mul_comm (r / scale)]
    omega

theorem encode_mono {a b : Nat} (h : a ≤ b) : f64.encode a ≤ f64.encode b := by
  unfold Fmt.encode
  have hu : f64.unit = 1 := rfl
  have hp : f64.p - 1 = 52 := rfl
  refine Nat.le_min.2 ⟨?_, Nat.min_le_right _ _⟩
  refine Nat.le_trans (Nat.min_le_left _ _) ?_
  have hl : ∀ n, f64.lastPlace n = Nat.log2 n - 52 := by intro n; unfold Fmt.lastPlace; rw [hu, hp, Nat.div_one]
  rw [hu, hp, Nat.one_mul, Nat.one_mul, hl, hl]
  by_cases ha : a = 0
  · subst ha
    have : roundEven 0 (2 ^ (Nat.log2 0 - 52)) = 0 := by decide
    rw [this]
    have : Nat.log2 0 - 52 = 0 := by decide
    rw [this]; omega
  have hb : b ≠ 0 := by omega
  have hmono : Nat.log2 a ≤ Nat.log2 b := (Nat.le_log2 hb).2 (Nat.le_trans (Nat.log2_self_le ha) h)
  rcases Nat.lt_or_eq_of_le (show Nat.log2 a - 52 ≤ Nat.log2 b - 52 by omega) with hlt | heq
  · have h1 : roundEven a (2 ^ (Nat.log2 a - 52)) ≤ 2 ^ 53 := by
      refine Decimal.roundEven_le (Nat.pow_pos (by decide)) ?_
      rw [← Nat.pow_add]
      refine Nat.le_of_lt (Nat.lt_of_lt_of_le Nat.lt_log2_self (Nat.pow_le_pow_right (by decide) (by omega)))
    have h2 : 2 ^ 52 ≤ roundEven b (2 ^ (Nat.log2 b - 52)) := by
      refine Decimal.roundEven_ge (Nat.pow_pos (by decide)) ?_
      rw [← Nat.pow_add]
      exact Nat.le_trans (Nat.pow_le_pow_right (by decide) (by omega)) (Nat.log2_self_le hb)
    generalize Nat.log2 a - 52 = x at *
    generalize Nat.log2 b - 52 = y at *
    generalize roundEven a (2 ^ x) = r at *
    generalize roundEven b (2 ^ y) = t at *
    have : (x + 1) * 2 ^ 52 ≤ y * 2 ^ 52 := Nat.mul_le_mul_right _ hlt
    rw [Nat.add_mul] at this
    omega
  · rw [heq]
    have := roundEven_mono (q := 2 ^ (Nat.log2 b - 52)) h
    omega

/-- The constant 1.0e-6. -/
theorem micro_eq : micro = nearest f64 scale 1000000 := by
  unfold micro
  exact congrArg (nearest f64 scale) (by decide)

theorem micro_err_of (w : Nat) (h : scale < 1000000 * 2 ^ (53 + w)) (hw : w + 2 < 2047) :
    2 * (f64.decode micro * 1000000) ≤ 2 * scale + 1000000 * 2 ^ w ∧ 2 * scale ≤ 2 * (f64.decode micro * 1000000) + 1000000 * 2 ^ w := by
  have := Decimal.quotient_err 1 1000000 w (by decide) (by rw [Nat.one_mul]; exact h) hw
  unfold Decimal.quotient at this
  rw [Nat.one_mul] at this
  rw [micro_eq]
  exact this

theorem micro_err : 2 * (f64.decode micro * 1000000) ≤ 2 * scale + 1000000 * 2 ^ 1002 ∧ 2 * scale ≤ 2 * (f64.decode micro * 1000000) + 1000000 * 2 ^ 1002 :=
  micro_err_of 1002 (by decide +kernel) (by decide)

theorem mul_double {n c : Nat} (hn : n < 2 ^ 53) : Decimal.mul (double n) c = f64.encode (n * f64.decode c) := by
  unfold Decimal.mul double
  rw [exactInt hn, show n * scale * f64.decode c = n * f64.decode c * scale by ac_rfl]
  have := Decimal.nearest_scale f64 (n * f64.decode c) 1 scale_pos
  rw [Nat.one_mul] at this
  rw [this, Decimal.encode_eq]

theorem sub_double {m n : Nat} (hm : m < 2 ^ 53) (h : n ≤ m) : f64.decode (sub (double m) (double n)) = (m - n) * scale := by
  unfold sub double
  rw [exactInt hm, exactInt (by omega), ← Nat.sub_mul, exactInt (by omega)]

theorem date_arith {X C U S u F R A : Nat} (hS : S = 2 ^ 73 * u) (hX : X = U * C) (hU : U < 1000000) (hu : 0 < u)
    (c1 : 2 * (C * 1000000) ≤ 2 * S + 1000000 * (2 * u)) (c2 : 2 * S ≤ 2 * (C * 1000000) + 1000000 * (2 * u)) :
    X < S ∧ (2 * F ≤ 2 * X + 2 ^ 20 * u → 2 * X ≤ 2 * F + 2 ^ 20 * u → F < S ∧
      (2 * R ≤ 2 * (A * S + F) + 2 ^ 53 * u → 2 * (A * S + F) ≤ 2 * R + 2 ^ 53 * u →
        2 * ((A * 1000000 + U) * S) < 2 * (R * 1000000) + S ∧ 2 * (R * 1000000) < 2 * ((A * 1000000 + U) * S) + S)) := by
  have d1 : X * 2000000 ≤ U * S * 2 + U * u * 2000000 := by
    have := Nat.mul_le_mul_left U c1
    rw [hX]
    calc U * C * 2000000 = U * (2 * (C * 1000000)) := by ring
      _ ≤ U * (2 * S + 1000000 * (2 * u)) := this
      _ = _ := by ring
  have d2 : U * S * 2 ≤ X * 2000000 + U * u * 2000000 := by
    have := Nat.mul_le_mul_left U c2
    rw [hX]
    calc U * S * 2 = U * (2 * S) := by ring
      _ ≤ U * (2 * (C * 1000000) + 1000000 * (2 * u)) := this
      _ = _ := by ring
  have hUS : U * S = 2 ^ 73 * (U * u) := by rw [hS]; ring
  have hUu : U * u ≤ 999999 * u := Nat.mul_le_mul_right _ (by omega)
  have hA : (A * 1000000 + U) * S = 1000000 * (A * S) + U * S := by ring
  rw [hA]
  generalize A * S = AS at *
  generalize U * u = Uu at *
  generalize U * S = US at *
  subst hS hUS
  refine ⟨by omega, fun e1 e2 => ⟨by omega, fun e3 e4 => ⟨by omega, by omega⟩⟩⟩

theorem millionths_date {sec usec : Nat} (h1 : 978307200 ≤ sec) (h2 : sec - 978307200 + 1 ≤ 2 ^ 33) (hu : usec < 1000000) :
    Decimal.millionths (f64.decode (date sec usec)) = (sec - 978307200) * 1000000 + usec := by
  have hs : sec < 2 ^ 53 := by have : (2 : Nat) ^ 33 + 978307200 < 2 ^ 53 := by decide
                               omega
  have hus : usec < 2 ^ 53 := by have : (10 : Nat) ^ 6 < 2 ^ 53 := by decide
                                 omega
  obtain ⟨c1, c2⟩ := micro_err
  have hS : scale = 2 ^ 73 * 2 ^ 1001 := by decide +kernel
  have h1002 : 2 ^ 1002 = 2 * 2 ^ 1001 := by decide +kernel
  have h1021 : 2 ^ 1021 = 2 ^ 20 * 2 ^ 1001 := by decide +kernel
  have h1054 : 2 ^ 1054 = 2 ^ 53 * 2 ^ 1001 := by decide +kernel
  rw [h1002] at c1 c2
  unfold date Decimal.millionths
  rw [mul_double hus]
  generalize hX : usec * f64.decode micro = X
  generalize hF : f64.decode (f64.encode X) = F
  generalize hA : sec - 978307200 = A at *
  have hsub := sub_double hs h1
  rw [hA] at hsub
  generalize hR : f64.decode (Decimal.add (sub (double sec) (double 978307200)) (f64.encode X)) = R
  obtain ⟨hXS, hrest⟩ := date_arith (X := X) (F := F) (R := R) (A := A) hS hX.symm hu (Nat.pow_pos (by decide)) c1 c2
  obtain ⟨_, e1, e2⟩ := Decimal.encode_err X 1021 (by rw [show 53 + 1021 = 1074 from rfl]; exact hXS) (by decide)
  rw [hF, h1021] at e1 e2
  obtain ⟨hFS, hrest⟩ := hrest e1 e2
  have hlt : f64.decode (sub (double sec) (double 978307200)) + f64.decode (f64.encode X) < 2 ^ (53 + 1054) := by
    rw [hsub, hF]
    have h3 : (A + 1) * scale ≤ 2 ^ 33 * scale := Nat.mul_le_mul_right _ h2
    have h4 : 2 ^ 33 * scale = 2 ^ (53 + 1054) := by decide +kernel
    rw [Nat.add_mul, Nat.one_mul, h4] at h3
    omega
  obtain ⟨_, e3, e4⟩ := Decimal.add_err _ _ 1054 hlt (by decide)
  rw [hR, hsub, hF, h1054] at e3 e4
  obtain ⟨e5, e6⟩ := hrest e3 e4
  exact Decimal.roundEven_unique e5 e6

theorem millionths_mono {a b : Nat} (h : a ≤ b) : Decimal.millionths a ≤ Decimal.millionths b := roundEven_mono (Nat.mul_le_mul_right _ h)

theorem decode_mono {a b : Nat} (h : a ≤ b) : f64.decode a ≤ f64.decode b := by
  unfold Fmt.decode
  have hp : f64.p - 1 = 52 := rfl
  have hu : f64.unit = 1 := rfl
  rw [hp, hu]
  simp only [Nat.mul_one]
  have hma : a % 2 ^ 52 < 2 ^ 52 := Nat.mod_lt _ (by decide)
  have hd : a / 2 ^ 52 ≤ b / 2 ^ 52 := Nat.div_le_div_right h
  have ea := Nat.div_add_mod a (2 ^ 52)
  have eb := Nat.div_add_mod b (2 ^ 52)
  generalize a / 2 ^ 52 = x at *
  generalize b / 2 ^ 52 = y at *
  generalize a % 2 ^ 52 = m at *
  generalize b % 2 ^ 52 = k at *
  rcases Nat.lt_or_eq_of_le hd with hlt | heq
  · rw [if_neg (show y ≠ 0 by omega)]
    have hy : 2 ^ 52 * 2 ^ (y - 1) ≤ (2 ^ 52 + k) * 2 ^ (y - 1) := Nat.mul_le_mul_right _ (by omega)
    refine Nat.le_trans ?_ hy
    have hp2 : 2 ^ 52 * 2 ^ x ≤ 2 ^ 52 * 2 ^ (y - 1) := Nat.mul_le_mul_left _ (Nat.pow_le_pow_right (by decide) (by omega))
    refine Nat.le_trans ?_ hp2
    split
    · rename_i h0; subst h0; omega
    · have hx : 2 ^ x = 2 * 2 ^ (x - 1) := by rw [← Nat.pow_succ']; congr 1; omega
      rw [hx, ← Nat.mul_assoc]
      exact Nat.mul_le_mul_right _ (by omega)
  · subst heq
    have : m ≤ k := by omega
    split
    · exact this
    · exact Nat.mul_le_mul_right _ (by omega)

theorem fractionNsec_mono {n n' m w m' w' : Nat} (h : n = m * 2 ^ w) (hm : m < 2 ^ 53) (h' : n' = m' * 2 ^ w') (hm' : m' < 2 ^ 53)
    (hle : n % scale ≤ n' % scale) : fractionNsec n ≤ fractionNsec n' := by
  unfold fractionNsec
  rw [product_eq h hm, product_eq h' hm']
  exact Nat.div_le_div_right (decode_mono (encode_mono (Nat.mul_le_mul_right _ hle)))

/-- The magnitude of a finite double. -/
theorem finite_parts {b : Nat} {n : Int} (h : val .f64 b = .fin n) : ∃ m w, n.natAbs = m * 2 ^ w ∧ m < 2 ^ 53 := by
  have hv := Decimal.val_f64 h
  unfold floatVal at hv
  simp only at hv
  by_cases hc : b % 2 ^ (Number.Ty.bits .f64 - 1) / 2 ^ (f64.p - 1) = f64.top
  · rw [if_pos hc] at hv
    split at hv <;> cases hv
  · rw [if_neg hc] at hv
    have hbits : Number.Ty.bits .f64 - 1 = 63 := rfl
    have hp : f64.p - 1 = 52 := rfl
    have ht : f64.top = 2047 := rfl
    rw [hbits, hp, ht] at hc
    have hlt : b % 2 ^ 63 / 2 ^ 52 < 2047 := by
      have : b % 2 ^ 63 < 2 ^ 63 := Nat.mod_lt _ (by decide)
      omega
    obtain ⟨m, w, e, hm, _⟩ := decode_parts hlt
    refine ⟨m, w, ?_, hm⟩
    have hn : n = withSign (signBit .f64 b) (f64.decode (b % 2 ^ 63)) := by injection hv with hv; exact hv.symm
    rw [← e, hn]
    unfold withSign
    split <;> simp

/-- The end of a wait, in nanoseconds. -/
theorem endOf_spec {now : Time} {b : Nat} {n : Int} (hb : val .f64 b = .fin n) (hn : 0 ≤ n) (h0 : 0 ≤ now.nsec) (hs : 0 ≤ now.sec)
    (hr : now.sec + n / scale < 2 ^ 63) :
    ∃ t, endOf now b = some t ∧ RwLock.accepted t = true ∧ t.total = now.total + (n.natAbs / scale : Nat) * 1000000000 + fractionNsec n.natAbs := by
  have hsp : (0 : Int) < scale := Int.natCast_pos.mpr scale_pos
  have hnn : n = (n.natAbs : Int) := (Int.natAbs_of_nonneg hn).symm
  have hdiv : n.tdiv scale = ((n.natAbs / scale : Nat) : Int) := by
    rw [Int.tdiv_eq_ediv_of_nonneg hn, Int.natCast_ediv, ← hnn]
  have hdiv' : n / scale = ((n.natAbs / scale : Nat) : Int) := by rw [Int.natCast_ediv, ← hnn]
  have hneg : ¬ n < 0 := by omega
  obtain ⟨r, g1, g2, g3, g4⟩ := RwLock.normalize_spec (now.nsec + (fractionNsec n.natAbs : Int)).toNat.succ
    ⟨now.sec + ((n.natAbs / scale : Nat) : Int), now.nsec + (fractionNsec n.natAbs : Int)⟩
    (by show now.nsec + (fractionNsec n.natAbs : Int) < _; omega) (by show 0 ≤ now.nsec + (fractionNsec n.natAbs : Int); omega)
  refine ⟨r, ?_, by simp [RwLock.accepted, g3, g4], ?_⟩
  · unfold endOf
    rw [hb]
    simp only [hdiv, if_neg hneg]
    rw [if_pos]
    · exact g1
    · rw [hdiv'] at hr
      have hq : (0 : Int) ≤ ((n.natAbs / scale : Nat) : Int) := Int.natCast_nonneg _
      generalize ((n.natAbs / scale : Nat) : Int) = q at *
      unfold inRange
      omega
  · rw [g2]
    simp only [RwLock.Time.total]
    omega

end RealTime
end Duck
