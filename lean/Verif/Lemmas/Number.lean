import Verif.Spec.Number
import Mathlib.Tactic.NormNum
/-! Lemmas about Model/Number.lean. -/
namespace Duck
namespace Number

/-! ### Bytes -/

theorem leBytes_length (n v : Nat) : (leBytes n v).length = n := by
  induction n generalizing v with
  | zero => rfl
  | succ n ih => simp [leBytes, ih]

theorem leNat_leBytes (n v : Nat) : leNat (leBytes n v) = v % 256 ^ n := by
  induction n generalizing v with
  | zero => simp [leBytes, leNat, Nat.mod_one]
  | succ n ih =>
    simp only [leBytes, leNat, ih, BitVec.toNat_ofNat]
    rw [Nat.pow_succ' (m := 256), Nat.mod_mul (x := v)]

theorem leNat_lt (bs : List (BitVec 8)) : leNat bs < 256 ^ bs.length := by
  induction bs with
  | nil => simp [leNat]
  | cons b bs ih =>
    have := b.isLt
    simp only [leNat, List.length_cons, Nat.pow_succ']
    omega

theorem leNat_inj : ∀ {a b : List (BitVec 8)}, a.length = b.length → leNat a = leNat b → a = b := by
  intro a
  induction a with
  | nil => intro b hl _; cases b with
    | nil => rfl
    | cons => simp at hl
  | cons x a ih =>
    intro b hl h
    cases b with
    | nil => simp at hl
    | cons y b =>
      have hx := x.isLt
      have hy := y.isLt
      simp only [leNat] at h
      have h1 : x.toNat = y.toNat := by omega
      have h2 : leNat a = leNat b := by omega
      rw [BitVec.eq_of_toNat_eq h1, ih (by simpa using hl) h2]

theorem pow_bits (t : Ty) : 256 ^ t.size = 2 ^ t.bits := by
  cases t <;> rfl

theorem read_isSome {m : Mem} {off n : Nat} : (∃ v, read m off n = some v) ↔ off + n ≤ m.length := by
  unfold read
  split <;> simp_all

theorem read_lt {m : Mem} {off n v : Nat} (h : read m off n = some v) : v < 256 ^ n := by
  unfold read at h
  split at h
  · rename_i hl
    cases h
    refine Nat.lt_of_lt_of_le (leNat_lt _) (Nat.pow_le_pow_right (by decide) ?_)
    simp
  · cases h

theorem read_eq_of_agree {m m' : Mem} {off n : Nat} (hl : m'.length = m.length)
    (h : ∀ j, off ≤ j → j < off + n → m'[j]? = m[j]?) : read m' off n = read m off n := by
  unfold read
  rw [hl]
  split
  · congr 2
    apply List.ext_getElem?
    intro i
    simp only [List.getElem?_take, List.getElem?_drop]
    split
    · exact h _ (by omega) (by omega)
    · rfl
  · rfl

theorem write_spec {m m' : Mem} {off n v : Nat} (h : write m off n v = some m') :
    m'.length = m.length ∧ off + n ≤ m.length ∧ read m' off n = some (v % 256 ^ n) ∧
    ∀ j, j < off ∨ off + n ≤ j → m'[j]? = m[j]? := by
  unfold write at h
  split at h
  case isFalse => cases h
  rename_i hl
  cases h
  have h0 : (m.take off).length = off := by simp; omega
  have hlen : (m.take off ++ leBytes n v ++ m.drop (off + n)).length = m.length := by
    simp [leBytes_length]; omega
  refine ⟨hlen, hl, ?_, ?_⟩
  · unfold read
    rw [hlen, if_pos hl]
    congr 1
    rw [List.append_assoc, List.drop_append_of_le_length (by omega), List.drop_of_length_le (by omega), List.nil_append,
      List.take_append_of_le_length (by rw [leBytes_length]),
      List.take_of_length_le (by rw [leBytes_length]), leNat_leBytes]
  · intro j hj
    rcases hj with hj | hj
    · rw [List.append_assoc, List.getElem?_append_left (by omega), List.getElem?_take, if_pos hj]
    · rw [List.getElem?_append_right (by simp [leBytes_length]; omega), List.getElem?_drop]
      congr 1
      simp [leBytes_length]; omega

theorem write_ok {m : Mem} {off n v : Nat} (h : off + n ≤ m.length) : ∃ m', write m off n v = some m' := by
  unfold write; rw [if_pos h]; exact ⟨_, rfl⟩

/-! ### Patterns -/

theorem scale_pos : 0 < scale := Nat.pow_pos (by decide)

attribute [local irreducible] scale

theorem intVal_emod (t : Ty) {b : Nat} (h : b < 2 ^ t.bits) : (intVal t b % 2 ^ t.bits).toNat = b := by
  have hc : ((2 : Int) ^ t.bits) = ((2 ^ t.bits : Nat) : Int) := by simp
  have hb : ((b : Int) % ((2 ^ t.bits : Nat) : Int)).toNat = b := by
    rw [Int.emod_eq_of_lt (by omega) (by omega)]; simp
  unfold intVal
  rw [hc]
  split
  · rw [Int.sub_emod_right]; exact hb
  · exact hb

theorem wrap_intVal (t : Ty) {b : Nat} (h : b < 2 ^ t.bits) : wrap t (intVal t b) = b := intVal_emod t h

theorem wrap_lt (t : Ty) (v : Int) : wrap t v < 2 ^ t.bits := by
  have hc : ((2 : Int) ^ t.bits) = ((2 ^ t.bits : Nat) : Int) := by simp
  have hp : 0 < 2 ^ t.bits := Nat.pow_pos (by decide)
  unfold wrap
  rw [hc]
  have h1 := Int.emod_nonneg v (b := ((2 ^ t.bits : Nat) : Int)) (by omega)
  have h2 := Int.emod_lt_of_pos v (b := ((2 ^ t.bits : Nat) : Int)) (by omega)
  omega

theorem intVal_range (t : Ty) {b : Nat} (h : b < 2 ^ t.bits) : t.lo ≤ intVal t b ∧ intVal t b ≤ t.hi := by
  have e7 : (2 : Nat) ^ 7 = 128 := by decide
  cases t <;> simp only [Ty.lo, Ty.hi, intVal, Ty.signed, Ty.bits, Ty.size, Bool.true_and, Bool.false_and] at * <;>
    norm_num at * <;> (try split) <;> omega

theorem intVal_inj (t : Ty) {a b : Nat} (ha : a < 2 ^ t.bits) (hb : b < 2 ^ t.bits) (h : intVal t a = intVal t b) : a = b := by
  rw [← wrap_intVal t ha, ← wrap_intVal t hb, h]

/-- What the formats have in common. -/
structure Fmt.Ok (t : Ty) (f : Fmt) : Prop where
  unit : 0 < f.unit
  p : 2 ≤ f.p
  size : (f.top + 1) * 2 ^ (f.p - 1) = 2 ^ (t.bits - 1)
  top : 0 < f.top
  bits : 2 ^ t.bits = 2 * 2 ^ (t.bits - 1)

theorem fmtOk {t : Ty} {f : Fmt} (h : t.fmt = some f) : f.Ok t := by
  cases t <;> simp only [Ty.fmt, Option.some.injEq, reduceCtorEq] at h <;> subst h
  · exact ⟨Nat.pow_pos (by decide), by decide, by decide, by decide, by decide⟩
  · exact ⟨Nat.one_pos, by decide, by decide, by decide, by decide⟩

theorem roundEven_exact (m q : Nat) (hq : 0 < q) : roundEven (m * q) q = m := by
  unfold roundEven
  rw [Nat.mul_mod_left, Nat.mul_div_cancel _ hq, if_neg]
  omega

theorem log2_lt_pow {m p : Nat} (h : m < 2 ^ p) (hp : 0 < p) : Nat.log2 m < p := by
  by_cases hm : m = 0
  · subst hm; simpa using hp
  · exact (Nat.log2_lt hm).2 h

theorem encode_decode {t : Ty} {f : Fmt} (ok : f.Ok t) {mag : Nat} (h : mag < f.top * 2 ^ (f.p - 1)) :
    f.encode (f.decode mag) = mag := by
  have hp := ok.p
  have hP : 0 < 2 ^ (f.p - 1) := Nat.pow_pos (by decide)
  have hdm := Nat.div_add_mod mag (2 ^ (f.p - 1))
  have hm := Nat.mod_lt mag hP
  unfold Fmt.encode Fmt.lastPlace
  by_cases he : mag / 2 ^ (f.p - 1) = 0
  · have hd : f.decode mag = (mag % 2 ^ (f.p - 1)) * f.unit := by unfold Fmt.decode; rw [if_pos he]
    rw [hd, Nat.mul_div_cancel _ ok.unit]
    have h1 : Nat.log2 (mag % 2 ^ (f.p - 1)) - (f.p - 1) = 0 := by
      have := log2_lt_pow hm (by omega); omega
    rw [h1]
    simp only [Nat.pow_zero, Nat.mul_one, Nat.zero_mul, Nat.zero_add]
    rw [roundEven_exact _ _ ok.unit]
    rw [he] at hdm
    omega
  · have hd : f.decode mag = (2 ^ (f.p - 1) + mag % 2 ^ (f.p - 1)) * 2 ^ (mag / 2 ^ (f.p - 1) - 1) * f.unit := by
      unfold Fmt.decode; rw [if_neg he]
    generalize hE : mag / 2 ^ (f.p - 1) = e at *
    generalize hM : mag % 2 ^ (f.p - 1) = m at *
    obtain ⟨e, rfl⟩ : ∃ e', e = e' + 1 := ⟨e - 1, by omega⟩
    simp only [Nat.add_sub_cancel] at *
    rw [hd, Nat.mul_div_cancel _ ok.unit]
    have h1 : Nat.log2 ((2 ^ (f.p - 1) + m) * 2 ^ e) = f.p - 1 + e := by
      have h2e : 0 < 2 ^ e := Nat.pow_pos (by decide)
      have hne : (2 ^ (f.p - 1) + m) * 2 ^ e ≠ 0 := Nat.mul_ne_zero (by omega) (by omega)
      refine (Nat.log2_eq_iff hne).2 ⟨?_, ?_⟩
      · rw [Nat.pow_add]; exact Nat.mul_le_mul_right _ (by omega)
      · rw [show f.p - 1 + e + 1 = (f.p - 1 + 1) + e by omega, Nat.pow_add, Nat.pow_succ]
        exact Nat.mul_lt_mul_of_pos_right (by omega) h2e
    rw [h1, Nat.add_sub_cancel_left, Nat.mul_assoc, Nat.mul_comm (2 ^ e), roundEven_exact _ _ (Nat.mul_pos ok.unit (Nat.pow_pos (by decide)))]
    have h2 : e * 2 ^ (f.p - 1) + (2 ^ (f.p - 1) + m) = mag := by
      rw [← hdm, Nat.mul_comm (2 ^ (f.p - 1)) (e + 1), Nat.add_mul]; omega
    rw [h2]
    omega

/-! ### Values of floating-point patterns -/

theorem addSign_facts {t : Ty} {f : Fmt} (ok : f.Ok t) (neg : Bool) {mag : Nat} (h : mag < 2 ^ (t.bits - 1)) :
    addSign t neg mag < 2 ^ t.bits ∧ addSign t neg mag % 2 ^ (t.bits - 1) = mag ∧ signBit t (addSign t neg mag) = neg := by
  have hb := ok.bits
  cases neg
  · simp only [addSign, signBit]
    refine ⟨by simp; omega, by simpa using Nat.mod_eq_of_lt h, ?_⟩
    simp; omega
  · simp only [addSign, signBit, if_true]
    refine ⟨by omega, by simpa using Nat.mod_eq_of_lt h, ?_⟩
    simp

theorem floatVal_fin {t : Ty} {f : Fmt} (ok : f.Ok t) {b : Nat} {n : Int} (h : floatVal t f b = .fin n) :
    ∃ mag, mag < f.top * 2 ^ (f.p - 1) ∧ b % 2 ^ (t.bits - 1) = mag ∧ n = withSign (signBit t b) (f.decode mag) := by
  have hP : 0 < 2 ^ (f.p - 1) := Nat.pow_pos (by decide)
  have hlt : b % 2 ^ (t.bits - 1) < 2 ^ (t.bits - 1) := Nat.mod_lt _ (Nat.pow_pos (by decide))
  simp only [floatVal] at h
  split at h
  · split at h <;> cases h
  · rename_i hne
    refine ⟨_, ?_, rfl, by cases h; rfl⟩
    have hlt := Nat.lt_of_lt_of_eq hlt ok.size.symm
    have h1 : b % 2 ^ (t.bits - 1) / 2 ^ (f.p - 1) < f.top + 1 := (Nat.div_lt_iff_lt_mul hP).2 hlt
    exact (Nat.div_lt_iff_lt_mul hP).1 (by omega)

theorem floatVal_addSign {t : Ty} {f : Fmt} (ok : f.Ok t) (neg : Bool) {mag : Nat} (h : mag < f.top * 2 ^ (f.p - 1)) :
    addSign t neg mag < 2 ^ t.bits ∧ floatVal t f (addSign t neg mag) = .fin (withSign neg (f.decode mag)) := by
  have hP : 0 < 2 ^ (f.p - 1) := Nat.pow_pos (by decide)
  have hs := ok.size
  rw [Nat.add_mul] at hs
  obtain ⟨h1, h2, h3⟩ := addSign_facts ok neg (mag := mag) (by omega)
  refine ⟨h1, ?_⟩
  simp only [floatVal, h2, h3]
  rw [if_neg]
  have := (Nat.div_lt_iff_lt_mul hP).2 h
  omega

theorem floatVal_inf {t : Ty} {f : Fmt} (ok : f.Ok t) (neg : Bool) :
    addSign t neg (f.top * 2 ^ (f.p - 1)) < 2 ^ t.bits ∧ floatVal t f (addSign t neg (f.top * 2 ^ (f.p - 1))) = .inf neg := by
  have hP : 0 < 2 ^ (f.p - 1) := Nat.pow_pos (by decide)
  have hs := ok.size
  rw [Nat.add_mul] at hs
  obtain ⟨h1, h2, h3⟩ := addSign_facts ok neg (mag := f.top * 2 ^ (f.p - 1)) (by omega)
  refine ⟨h1, ?_⟩
  simp only [floatVal, h2, h3, Nat.mul_div_cancel _ hP, Nat.mul_mod_left, if_true]

theorem natAbs_withSign (neg : Bool) (n : Nat) : (withSign neg n).natAbs = n := by
  cases neg <;> simp [withSign]

theorem withSign_natAbs {neg neg' : Bool} {n : Nat} (h : neg' = decide (withSign neg n < 0) ∨ neg' = neg) :
    withSign neg' n = withSign neg n := by
  rcases h with h | h
  · cases neg
    · have h1 : ¬ withSign false n < 0 := by simp [withSign]
      rw [h, decide_eq_false h1]
    · by_cases h0 : n = 0
      · subst h0; subst h; simp [withSign]
      · have h1 : withSign true n < 0 := by simp [withSign]; omega
        rw [h, decide_eq_true h1]
  · rw [h]

theorem floatVal_infSign {t : Ty} {f : Fmt} {b : Nat} {neg : Bool} (h : floatVal t f b = .inf neg) : neg = signBit t b := by
  simp only [floatVal] at h
  split at h
  · split at h
    · cases h; rfl
    · cases h
  · cases h

/-! ### Conversions preserve what the target can represent -/

/-- `neg` is the sign of `v`. -/
def SignOf (neg : Bool) : Num → Prop
  | .fin n => neg = decide (n < 0) ∨ ∃ k, n = withSign neg k
  | .inf s => neg = s
  | .nan => True

theorem roundTo_preserves {t : Ty} {g : Fmt} (hg : t.fmt = some g) {neg : Bool} {v : Num} {c : Nat}
    (hc : val t c = v) (hv : v ≠ .nan)
    (hneg : SignOf neg v) :
    roundTo t g neg v < 2 ^ t.bits ∧ val t (roundTo t g neg v) = v := by
  have ok := fmtOk hg
  have hval : ∀ x, val t x = floatVal t g x := by intro x; simp only [val, hg]
  rw [hval] at hc ⊢
  cases v with
  | nan => exact absurd rfl hv
  | inf s => simp only [SignOf] at hneg; subst hneg; exact floatVal_inf ok _
  | fin n =>
    obtain ⟨mag, hm, _, hn⟩ := floatVal_fin ok hc
    have h1 : g.encode n.natAbs = mag := by rw [hn, natAbs_withSign, encode_decode ok hm]
    simp only [roundTo, h1]
    obtain ⟨h2, h3⟩ := floatVal_addSign ok neg hm
    refine ⟨h2, ?_⟩
    rw [h3]
    congr 1
    simp only [SignOf] at hneg
    rcases hneg with hneg | ⟨k, hk⟩
    · rw [hn] at hneg ⊢
      exact withSign_natAbs (.inl hneg)
    · have h5 : k = g.decode mag := by
        have h6 := congrArg Int.natAbs (hk.symm.trans hn)
        rwa [natAbs_withSign, natAbs_withSign] at h6
      rw [hk, h5]

theorem mul_scale_inj {a b : Int} (h : a * (scale : Int) = b * scale) : a = b :=
  Int.eq_of_mul_eq_mul_right (by have := scale_pos; omega) h

theorem cast_preserves (xt yt : Ty) {b c : Nat} (hb : b < 2 ^ xt.bits) (hc : c < 2 ^ yt.bits)
    (h : val yt c = val xt b) (hn : val xt b ≠ .nan) :
    ∃ c', cast xt yt b = some c' ∧ c' < 2 ^ yt.bits ∧ val yt c' = val xt b := by
  have sp := scale_pos
  cases hx : xt.fmt with
  | none =>
    have hvx : val xt b = .fin (intVal xt b * scale) := by simp only [val, hx]
    cases hy : yt.fmt with
    | none =>
      have hvy : val yt c = .fin (intVal yt c * scale) := by simp only [val, hy]
      have h1 : intVal yt c = intVal xt b := by
        rw [hvx, hvy] at h; injection h with h; exact mul_scale_inj h
      refine ⟨c, ?_, hc, h⟩
      simp only [cast, hx, hy]
      rw [← h1, wrap_intVal yt hc]
    | some g =>
      refine ⟨roundTo yt g (decide (intVal xt b < 0)) (val xt b), by simp only [cast, hx, hy], roundTo_preserves hy h hn ?_⟩
      rw [hvx]
      left
      apply decide_eq_decide.2
      constructor
      · intro h0; exact Int.mul_neg_of_neg_of_pos h0 (by omega)
      · intro h0
        have : ¬ 0 ≤ intVal xt b := fun h2 => by
          have := Int.mul_nonneg h2 (show (0 : Int) ≤ scale by omega); omega
        omega
  | some f =>
    have ok := fmtOk hx
    have hvx : val xt b = floatVal xt f b := by simp only [val, hx]
    cases hy : yt.fmt with
    | none =>
      have hvy : val yt c = .fin (intVal yt c * scale) := by simp only [val, hy]
      refine ⟨c, ?_, hc, h⟩
      simp only [cast, hx, hy]
      rw [← h, hvy]
      simp only [truncTo]
      rw [Int.mul_tdiv_cancel _ (by omega), if_pos (intVal_range yt hc), wrap_intVal yt hc]
    | some g =>
      refine ⟨roundTo yt g (signBit xt b) (val xt b), by simp only [cast, hx, hy], roundTo_preserves hy h hn ?_⟩
      rw [hvx] at hn ⊢
      cases hf : floatVal xt f b with
      | nan => trivial
      | inf s => exact (floatVal_infSign hf).symm
      | fin n =>
        obtain ⟨mag, _, _, h4⟩ := floatVal_fin ok hf
        exact .inr ⟨_, h4⟩

/-- Conversion to the same type keeps the value, zeros included. -/
theorem cast_self (t : Ty) {b : Nat} (hb : b < 2 ^ t.bits) (hn : val t b ≠ .nan) :
    ∃ c, cast t t b = some c ∧ c < 2 ^ t.bits ∧ val t c = val t b := cast_preserves t t hb hb rfl hn

/-! ### The conversion loop -/

theorem castLoop_spec (xt yt : Ty) (x : Mem) (xo yo : Nat) : ∀ (n i : Nat) (y : Mem),
    xo + (i + n) * xt.size ≤ x.length → yo + (i + n) * yt.size ≤ y.length →
    (∀ j, i ≤ j → j < i + n → ∀ b, read x (xo + j * xt.size) xt.size = some b → ∃ c, cast xt yt b = some c) →
    ∃ y', castLoop xt yt x xo yo n i y = some y' ∧ y'.length = y.length ∧
      (∀ j, i ≤ j → j < i + n → ∃ b c, read x (xo + j * xt.size) xt.size = some b ∧ cast xt yt b = some c ∧
        read y' (yo + j * yt.size) yt.size = some (c % 2 ^ yt.bits)) ∧
      (∀ k, k < yo + i * yt.size ∨ yo + (i + n) * yt.size ≤ k → y'[k]? = y[k]?) := by
  intro n
  induction n with
  | zero => intro i y _ _ _; exact ⟨y, rfl, rfl, fun j h1 h2 => by omega, fun _ _ => rfl⟩
  | succ n ih =>
    intro i y hx hy hc
    have e1 : (i + (n + 1)) * xt.size = (i * xt.size + xt.size) + n * xt.size := by rw [Nat.add_mul, Nat.add_mul]; omega
    have e2 : (i + (n + 1)) * yt.size = (i * yt.size + yt.size) + n * yt.size := by rw [Nat.add_mul, Nat.add_mul]; omega
    have e3 : (i + 1 + n) * xt.size = (i + (n + 1)) * xt.size := by congr 1; omega
    have e4 : (i + 1 + n) * yt.size = (i + (n + 1)) * yt.size := by congr 1; omega
    have e5 : (i + 1) * yt.size = i * yt.size + yt.size := by rw [Nat.add_mul]; omega
    obtain ⟨b, hb⟩ := read_isSome.2 (show (xo + i * xt.size) + xt.size ≤ x.length by omega)
    obtain ⟨c, hcc⟩ := hc i (by omega) (by omega) b hb
    obtain ⟨y1, hy1⟩ := write_ok (v := c) (show (yo + i * yt.size) + yt.size ≤ y.length by omega)
    obtain ⟨hl, _, hr, hk⟩ := write_spec hy1
    obtain ⟨y', h1, h2, h3, h4⟩ := ih (i + 1) y1 (by omega) (by omega) (fun j a b' => hc j (by omega) (by omega))
    refine ⟨y', by simp only [castLoop, hb, hcc, hy1, Option.bind_some]; exact h1, by omega, ?_, ?_⟩
    · intro j hj1 hj2
      by_cases hji : j = i
      · subst hji
        refine ⟨b, c, hb, hcc, ?_⟩
        rw [← pow_bits, ← hr]
        refine read_eq_of_agree h2 ?_
        intro k k1 k2
        exact h4 k (by omega)
      · exact h3 j (by omega) (by omega)
    · intro k hk'
      rw [h4 k (by omega)]
      exact hk k (by omega)

/-! ### Sizes of results -/

theorem encode_le (f : Fmt) (n : Nat) : f.encode n ≤ f.top * 2 ^ (f.p - 1) := Nat.min_le_right _ _

theorem roundTo_lt {t : Ty} {g : Fmt} (hg : t.fmt = some g) (neg : Bool) (v : Num) : roundTo t g neg v < 2 ^ t.bits := by
  have ok := fmtOk hg
  have hs := ok.size
  rw [Nat.add_mul] at hs
  have hP : 0 < 2 ^ (g.p - 1) := Nat.pow_pos (by decide)
  cases v with
  | fin n => exact (addSign_facts ok neg (by have := encode_le g n.natAbs; omega)).1
  | inf s => exact (addSign_facts ok neg (by omega)).1
  | nan =>
    refine (addSign_facts ok neg ?_).1
    have h2 : 2 ^ (g.p - 2) < 2 ^ (g.p - 1) := Nat.pow_lt_pow_right (by decide) (by have := ok.p; omega)
    unfold Fmt.nan
    omega

theorem cast_lt {xt yt : Ty} {b c : Nat} (h : cast xt yt b = some c) : c < 2 ^ yt.bits := by
  cases hx : xt.fmt <;> cases hy : yt.fmt <;> simp only [cast, hx, hy] at h
  · cases h; exact wrap_lt _ _
  · cases h; exact roundTo_lt hy _ _
  · unfold truncTo at h
    split at h
    · split at h
      · cases h; exact wrap_lt _ _
      · cases h
    · cases h
  · cases h; exact roundTo_lt hy _ _

theorem size_pos (t : Ty) : 0 < t.size := by cases t <;> decide

theorem read_elem {t : Ty} {m : Mem} {i : Nat} (h : (i + 1) * t.size ≤ m.length) :
    read m (i * t.size) t.size = some (elem t m i) := by
  unfold read elem
  rw [if_pos (by rw [Nat.add_mul] at h; omega)]

theorem elem_lt {t : Ty} {m : Mem} {i : Nat} (h : (i + 1) * t.size ≤ m.length) : elem t m i < 2 ^ t.bits := by
  rw [← pow_bits]; exact read_lt (read_elem h)

theorem idx_le {i n s l : Nat} (hi : i < n) (h : n * s ≤ l) : (i + 1) * s ≤ l :=
  Nat.le_trans (Nat.mul_le_mul_right _ hi) h

/-! ### Comparison -/

theorem lt_iff (a b : Num) : a.lt b = true ↔ Less a b := by
  constructor
  · intro h
    cases a <;> cases b <;> simp only [Num.lt, decide_eq_true_eq, Bool.and_eq_true, Bool.not_eq_true', Bool.false_eq_true] at h
    · exact .fin h
    · subst h; exact .above _
    · subst h; exact .below _
    · obtain ⟨rfl, rfl⟩ := h; exact .infs
  · intro h
    cases h <;> simp_all [Num.lt]

theorem Less.irrefl (a : Num) : ¬ Less a a := by
  intro h
  cases h
  omega

theorem Less.asymm {a b : Num} (h : Less a b) : ¬ Less b a := by
  cases h <;> intro h2 <;> cases h2
  omega

theorem Less.trans {a b c : Num} (h : Less a b) (h2 : Less b c) : Less a c := by
  cases h <;> cases h2
  · exact .fin (by omega)
  · exact .above _
  · exact .below _
  · exact .infs

theorem Less.total {a b : Num} (ha : a ≠ .nan) (hb : b ≠ .nan) : Less a b ∨ a = b ∨ Less b a := by
  cases a with
  | nan => exact absurd rfl ha
  | fin x => cases b with
    | nan => exact absurd rfl hb
    | fin y =>
      rcases Int.lt_trichotomy x y with h | h | h
      · exact .inl (.fin h)
      · subst h; exact .inr (.inl rfl)
      · exact .inr (.inr (.fin h))
    | inf s => cases s
               · exact .inl (.above _)
               · exact .inr (.inr (.below _))
  | inf r => cases b with
    | nan => exact absurd rfl hb
    | fin y => cases r
               · exact .inr (.inr (.above _))
               · exact .inl (.below _)
    | inf s => cases r <;> cases s
               · exact .inr (.inl rfl)
               · exact .inr (.inr .infs)
               · exact .inl .infs
               · exact .inr (.inl rfl)

/-- Lexicographic comparison of the elements from `i`, `n` of them. -/
def lexCmp (a b : Nat → Num) : Nat → Nat → Int
  | 0, _ => 0
  | n + 1, i => if (a i).lt (b i) then 1 else if (b i).lt (a i) then -1 else lexCmp a b n (i + 1)

theorem cmpLoop_eq (xt yt : Ty) (x y : Mem) : ∀ n i, (i + n) * xt.size ≤ x.length → (i + n) * yt.size ≤ y.length →
    (∀ j, i ≤ j → j < i + n → Fits xt (val yt (elem yt y j)) ∧ val yt (elem yt y j) ≠ .nan) →
    cmpLoop xt yt x y n i = some (lexCmp (fun j => val xt (elem xt x j)) (fun j => val yt (elem yt y j)) n i) := by
  intro n
  induction n with
  | zero => intros; rfl
  | succ n ih =>
    intro i hx hy hf
    have h1 := read_elem (idx_le (i := i) (by omega) hx)
    have h2 := read_elem (idx_le (i := i) (by omega) hy)
    obtain ⟨⟨c, hc, hcv⟩, hn⟩ := hf i (by omega) (by omega)
    obtain ⟨c', h3, _, h4⟩ := cast_preserves yt xt (elem_lt (idx_le (i := i) (by omega) hy)) hc hcv hn
    simp only [cmpLoop, h1, h2, Option.bind_some, cmpElem, h3, Option.map_some, h4, lexCmp]
    split
    · simp
    · split
      · simp
      · simp only [ne_eq, not_true_eq_false, if_false]
        exact ih (i + 1) (by rw [show i + 1 + n = i + (n + 1) by omega]; exact hx)
          (by rw [show i + 1 + n = i + (n + 1) by omega]; exact hy) (fun j h1 h2 => hf j (by omega) (by omega))

theorem lexCmp_cases (a b : Nat → Num) : ∀ n i, (∀ j, i ≤ j → j < i + n → a j ≠ .nan ∧ b j ≠ .nan) →
    (lexCmp a b n i = 1 ∧ ∃ k, i ≤ k ∧ k < i + n ∧ (∀ j, i ≤ j → j < k → a j = b j) ∧ Less (a k) (b k)) ∨
    (lexCmp a b n i = -1 ∧ ∃ k, i ≤ k ∧ k < i + n ∧ (∀ j, i ≤ j → j < k → a j = b j) ∧ Less (b k) (a k)) ∨
    (lexCmp a b n i = 0 ∧ ∀ j, i ≤ j → j < i + n → a j = b j) := by
  intro n
  induction n with
  | zero => intro i _; exact .inr (.inr ⟨rfl, fun j h1 h2 => by omega⟩)
  | succ n ih =>
    intro i h
    obtain ⟨ha, hb⟩ := h i (by omega) (by omega)
    simp only [lexCmp]
    by_cases h1 : (a i).lt (b i) = true
    · rw [if_pos h1]
      exact .inl ⟨rfl, i, by omega, by omega, fun j _ _ => by omega, (lt_iff _ _).1 h1⟩
    · rw [if_neg h1]
      by_cases h2 : (b i).lt (a i) = true
      · rw [if_pos h2]
        exact .inr (.inl ⟨rfl, i, by omega, by omega, fun j _ _ => by omega, (lt_iff _ _).1 h2⟩)
      · rw [if_neg h2]
        have he : a i = b i := by
          rcases Less.total ha hb with h3 | h3 | h3
          · exact absurd ((lt_iff _ _).2 h3) h1
          · exact h3
          · exact absurd ((lt_iff _ _).2 h3) h2
        have hj : ∀ {P : Nat → Prop} {k}, P i → (∀ j, i + 1 ≤ j → j < k → P j) → ∀ j, i ≤ j → j < k → P j := by
          intro P k h0 h5 j h6 h7
          by_cases h8 : j = i
          · subst h8; exact h0
          · exact h5 j (by omega) h7
        rcases ih (i + 1) (fun j h3 h4 => h j (by omega) (by omega)) with ⟨h3, k, k1, k2, k3, k4⟩ | ⟨h3, k, k1, k2, k3, k4⟩ | ⟨h3, h4⟩
        · exact .inl ⟨h3, k, by omega, by omega, hj he k3, k4⟩
        · exact .inr (.inl ⟨h3, k, by omega, by omega, hj he k3, k4⟩)
        · refine .inr (.inr ⟨h3, ?_⟩)
          rw [show i + (n + 1) = i + 1 + n by omega]
          exact hj he h4

theorem lexCmp_swap (a b : Nat → Num) : ∀ n i, lexCmp b a n i = - lexCmp a b n i := by
  intro n
  induction n with
  | zero => intro i; rfl
  | succ n ih =>
    intro i
    simp only [lexCmp]
    by_cases h1 : (a i).lt (b i) = true
    · have h2 : ¬ (b i).lt (a i) = true := fun h => ((lt_iff _ _).1 h1).asymm ((lt_iff _ _).1 h)
      rw [if_pos h1, if_neg h2, if_pos h1]
    · rw [if_neg h1, if_neg h1]
      split
      · rfl
      · exact ih _

theorem lexCmp_trans (a b c : Nat → Num) : ∀ n i,
    (∀ j, i ≤ j → j < i + n → a j ≠ .nan ∧ b j ≠ .nan ∧ c j ≠ .nan) →
    0 ≤ lexCmp a b n i → 0 ≤ lexCmp b c n i → 0 ≤ lexCmp a c n i ∧ (lexCmp a c n i = 0 → lexCmp a b n i = 0 ∧ lexCmp b c n i = 0) := by
  intro n
  induction n with
  | zero => intro i _ _ _; exact ⟨Int.le_refl _, fun _ => ⟨rfl, rfl⟩⟩
  | succ n ih =>
    intro i h h1 h2
    obtain ⟨ha, hb, hc⟩ := h i (by omega) (by omega)
    have key : ∀ {x y : Num} {r : Int}, x ≠ .nan → y ≠ .nan →
        (0 ≤ if x.lt y then (1 : Int) else if y.lt x then -1 else r) →
        Less x y ∨ (x = y ∧ 0 ≤ r) := by
      intro x y r hx hy h3
      rcases Less.total hx hy with h4 | h4 | h4
      · exact .inl h4
      · subst h4
        have h5 : ¬ x.lt x = true := fun h => Less.irrefl _ ((lt_iff _ _).1 h)
        rw [if_neg h5, if_neg h5] at h3
        exact .inr ⟨rfl, h3⟩
      · have h5 : ¬ x.lt y = true := fun h => h4.asymm ((lt_iff _ _).1 h)
        rw [if_neg h5, if_pos ((lt_iff _ _).2 h4)] at h3
        omega
    simp only [lexCmp] at h1 h2 ⊢
    rcases key ha hb h1 with h3 | ⟨h3, h3'⟩
    · have h4 : Less (a i) (c i) := by
        rcases key hb hc h2 with h4 | ⟨h4, _⟩
        · exact h3.trans h4
        · rw [← h4]; exact h3
      rw [if_pos ((lt_iff _ _).2 h4)]
      exact ⟨by decide, fun h => by omega⟩
    · rcases key hb hc h2 with h4 | ⟨h4, h4'⟩
      · rw [← h3] at h4
        rw [if_pos ((lt_iff _ _).2 h4)]
        exact ⟨by decide, fun h => by omega⟩
      · rw [h3, h4]
        have h5 : ¬ (c i).lt (c i) = true := fun h => Less.irrefl _ ((lt_iff _ _).1 h)
        simp only [if_neg h5]
        exact ih (i + 1) (fun j h6 h7 => h j (by omega) (by omega)) h3' h4'

/-! ### Equal values, equal patterns -/

theorem val_inj {t : Ty} {a b : Nat} (ha : a < 2 ^ t.bits) (hb : b < 2 ^ t.bits) (h : val t a = val t b)
    (hn : val t a ≠ .nan) (hz : t.fmt = none ∨ val t a ≠ .fin 0) : a = b := by
  cases ht : t.fmt with
  | none =>
    simp only [val, ht] at h
    injection h with h
    exact intVal_inj t ha hb (mul_scale_inj h)
  | some f =>
    have ok := fmtOk ht
    have hbits := ok.bits
    rw [ht] at hz
    have hz : val t a ≠ .fin 0 := hz.resolve_left (by simp)
    have hval : ∀ x, val t x = floatVal t f x := by intro x; simp only [val, ht]
    rw [hval] at h hn hz
    rw [hval b] at h
    have key : signBit t a = signBit t b → a % 2 ^ (t.bits - 1) = b % 2 ^ (t.bits - 1) → a = b := by
      intro h1 h2
      have h3 : (2 ^ (t.bits - 1) ≤ a) ↔ (2 ^ (t.bits - 1) ≤ b) := decide_eq_decide.1 h1
      have d1 := Nat.div_add_mod a (2 ^ (t.bits - 1))
      have d2 := Nat.div_add_mod b (2 ^ (t.bits - 1))
      have hB : 0 < 2 ^ (t.bits - 1) := Nat.pow_pos (by decide)
      generalize 2 ^ (t.bits - 1) = B at *
      by_cases hc : B ≤ a
      · have hc' := h3.1 hc
        rw [Nat.div_eq_of_lt_le (k := 1) (by omega) (by omega)] at d1
        rw [Nat.div_eq_of_lt_le (k := 1) (by omega) (by omega)] at d2
        omega
      · have hc' : ¬ B ≤ b := fun x => hc (h3.2 x)
        rw [Nat.mod_eq_of_lt (by omega), Nat.mod_eq_of_lt (by omega)] at h2
        exact h2
    cases hv : floatVal t f a with
    | nan => exact absurd hv hn
    | inf s =>
      have h1 := floatVal_infSign hv
      have h2 := floatVal_infSign (h ▸ hv)
      refine key (by rw [← h1, ← h2]) ?_
      have hm : ∀ x, floatVal t f x = .inf s → x % 2 ^ (t.bits - 1) = f.top * 2 ^ (f.p - 1) := by
        intro x hx
        simp only [floatVal] at hx
        split at hx
        · rename_i h3
          split at hx
          · rename_i h4
            have := Nat.div_add_mod (x % 2 ^ (t.bits - 1)) (2 ^ (f.p - 1))
            rw [h3, h4, Nat.mul_comm] at this
            omega
          · cases hx
        · cases hx
      rw [hm a hv, hm b (h ▸ hv)]
    | fin n =>
      obtain ⟨m1, g1, g2, g3⟩ := floatVal_fin ok hv
      obtain ⟨m2, k1, k2, k3⟩ := floatVal_fin ok (h ▸ hv : floatVal t f b = .fin n)
      have e := congrArg Int.natAbs (g3.symm.trans k3)
      rw [natAbs_withSign, natAbs_withSign] at e
      have e2 : m1 = m2 := by rw [← encode_decode ok g1, ← encode_decode ok k1, e]
      refine key ?_ (by rw [g2, k2, e2])
      have hn0 : n ≠ 0 := by intro h0; rw [hv, h0] at hz; exact hz rfl
      rw [g3, e] at k3
      have hd : f.decode m2 ≠ 0 := by
        intro h0
        rw [e, h0] at g3
        apply hn0; rw [g3]; cases signBit t a <;> rfl
      cases h1 : signBit t a <;> cases h2 : signBit t b <;> rw [h1, h2] at k3 <;> simp [withSign] at k3 ⊢ <;> omega

/-! ### Rows of matrices -/

theorem rowLoop_spec (st dt : Ty) (src : Mem) (cols sS dS : Nat) (hcd : cols * dt.size ≤ dS) (hcs : cols * st.size ≤ sS) :
    ∀ (n r : Nat) (dst : Mem), (r + n) * sS ≤ src.length → (r + n) * dS ≤ dst.length →
    (∀ i, r ≤ i → i < r + n → ∀ j, j < cols → ∀ b, read src (i * sS + j * st.size) st.size = some b → ∃ c, cast st dt b = some c) →
    ∃ dst', rowLoop st dt src cols sS dS n (r * sS) (r * dS) dst = some dst' ∧ dst'.length = dst.length ∧
      (∀ i, r ≤ i → i < r + n → ∀ j, j < cols → ∃ b c, read src (i * sS + j * st.size) st.size = some b ∧ cast st dt b = some c ∧
        read dst' (i * dS + j * dt.size) dt.size = some (c % 2 ^ dt.bits)) ∧
      (∀ k, (∀ i, r ≤ i → i < r + n → k < i * dS ∨ i * dS + cols * dt.size ≤ k) → dst'[k]? = dst[k]?) := by
  intro n
  induction n with
  | zero => intro r dst _ _ _; exact ⟨dst, rfl, rfl, fun i h1 h2 => by omega, fun _ _ => rfl⟩
  | succ n ih =>
    intro r dst hs hd hc
    have e1 : (r + (n + 1)) * sS = (r * sS + sS) + n * sS := by rw [Nat.add_mul, Nat.add_mul]; omega
    have e2 : (r + (n + 1)) * dS = (r * dS + dS) + n * dS := by rw [Nat.add_mul, Nat.add_mul]; omega
    obtain ⟨d1, g1, g2, g3, g4⟩ := castLoop_spec st dt src (r * sS) (r * dS) cols 0 dst
      (by rw [Nat.zero_add]; omega) (by rw [Nat.zero_add]; omega)
      (fun j _ h2 b hb => hc r (by omega) (by omega) j (by omega) b hb)
    rw [Nat.zero_add] at g3 g4
    obtain ⟨d2, k1, k2, k3, k4⟩ := ih (r + 1) d1 (by rw [show r + 1 + n = r + (n + 1) by omega]; exact hs)
      (by rw [show r + 1 + n = r + (n + 1) by omega, g2]; exact hd)
      (fun i h1 h2 => hc i (by omega) (by omega))
    refine ⟨d2, ?_, by omega, ?_, ?_⟩
    · simp only [rowLoop, g1, Option.bind_some]
      rw [Nat.add_mul, Nat.one_mul, Nat.add_mul, Nat.one_mul] at k1
      exact k1
    · intro i h1 h2 j hj
      by_cases hi : i = r
      · subst hi
        obtain ⟨b, c, q1, q2, q3⟩ := g3 j (by omega) hj
        refine ⟨b, c, q1, q2, ?_⟩
        rw [← q3]
        refine read_eq_of_agree k2 ?_
        intro k p1 p2
        refine k4 k ?_
        intro i' r1 r2
        left
        have h3 : (j + 1) * dt.size ≤ cols * dt.size := Nat.mul_le_mul_right _ hj
        have h4 : (i + 1) * dS ≤ i' * dS := Nat.mul_le_mul_right _ r1
        rw [Nat.add_mul] at h3 h4
        omega
      · exact k3 i (by omega) (by omega) j hj
    · intro k hk
      rw [k4 k (fun i h1 h2 => hk i (by omega) (by omega))]
      refine g4 k ?_
      have := hk r (by omega) (by omega)
      omega

end Number
end Duck
