import Mathlib.Data.List.Induction
import Mathlib.Tactic.Linarith
import Mathlib.Tactic.Ring
import Verif.Spec.Decimal
import Verif.Lemmas.Convert
import Verif.Lemmas.Printf
import Verif.Props.StrToNum
/-! Lemmas for C101. -/
namespace Duck
namespace Decimal
open Num (Digits value signText)
open Number (Fmt Ty roundEven scale addSign signBit floatVal)
open Duck.Convert (digitRun digitValue memory)

/-! ### Rounding -/

theorem roundEven_err (n : Nat) {q : Nat} (hq : 0 < q) : 2 * (roundEven n q * q) ≤ 2 * n + q ∧ 2 * n ≤ 2 * (roundEven n q * q) + q := by
  have h := Nat.div_add_mod n q
  have hm := Nat.mod_lt n hq
  have hc : n / q * q = q * (n / q) := Nat.mul_comm _ _
  unfold roundEven
  split
  · rw [Nat.add_mul, Nat.one_mul]; omega
  · omega

theorem roundEven_unique {n q m : Nat} (h1 : 2 * (m * q) < 2 * n + q) (h2 : 2 * n < 2 * (m * q) + q) : roundEven n q = m := by
  have hq : 0 < q := by omega
  obtain ⟨e1, e2⟩ := roundEven_err n hq
  generalize roundEven n q = r at *
  rcases Nat.lt_trichotomy r m with h | h | h
  · have : (r + 1) * q ≤ m * q := Nat.mul_le_mul_right _ h
    rw [Nat.add_mul, Nat.one_mul] at this
    omega
  · exact h
  · have : (m + 1) * q ≤ r * q := Nat.mul_le_mul_right _ h
    rw [Nat.add_mul, Nat.one_mul] at this
    omega

theorem roundEven_le {n q m : Nat} (hq : 0 < q) (h : n ≤ m * q) : roundEven n q ≤ m := by
  obtain ⟨e1, e2⟩ := roundEven_err n hq
  generalize hr : roundEven n q = r at *
  by_contra hlt
  have h1 : (m + 1) * q ≤ r * q := Nat.mul_le_mul_right _ (by omega)
  rw [Nat.add_mul, Nat.one_mul] at h1
  have h2 : n = m * q := by omega
  rw [h2, Number.roundEven_exact _ _ hq] at hr
  omega

theorem roundEven_ge {n q m : Nat} (hq : 0 < q) (h : m * q ≤ n) : m ≤ roundEven n q := by
  obtain ⟨e1, e2⟩ := roundEven_err n hq
  generalize hr : roundEven n q = r at *
  by_contra hlt
  have h1 : (r + 1) * q ≤ m * q := Nat.mul_le_mul_right _ (by omega)
  rw [Nat.add_mul, Nat.one_mul] at h1
  have h2 : n = m * q := by omega
  rw [h2, Number.roundEven_exact _ _ hq] at hr
  omega

theorem roundEven_scale (n q : Nat) {c : Nat} (hc : 0 < c) : roundEven (n * c) (q * c) = roundEven n q := by
  unfold roundEven
  rw [Nat.mul_div_mul_right _ _ hc, Nat.mul_mod_mul_right]
  have e1 : q * c < 2 * (n % q * c) ↔ q < 2 * (n % q) := by
    rw [← Nat.mul_assoc]; exact Nat.mul_lt_mul_right hc
  have e2 : q * c = 2 * (n % q * c) ↔ q = 2 * (n % q) := by
    rw [← Nat.mul_assoc]; exact ⟨fun h => Nat.eq_of_mul_eq_mul_right hc h, fun h => congrArg (· * c) h⟩
  simp only [e1, e2]

theorem nearest_scale (f : Fmt) (p q : Nat) {c : Nat} (hc : 0 < c) : nearest f (p * c) (q * c) = nearest f p q := by
  have hp : place f (p * c) (q * c) = place f p q := by
    unfold place; rw [Nat.mul_div_mul_right _ _ hc]
  unfold nearest
  rw [hp]
  have : q * c * (f.unit * 2 ^ place f p q) = q * (f.unit * 2 ^ place f p q) * c := by ac_rfl
  rw [this, roundEven_scale _ _ hc]

theorem encode_eq (f : Fmt) (n : Nat) : f.encode n = nearest f n 1 := by
  unfold Fmt.encode nearest Fmt.lastPlace place
  rw [Nat.div_one, Nat.one_mul]

/-- The number of a rounded magnitude. -/
theorem decode_nearest (f : Fmt) (hp : 2 ≤ f.p) (hu : 0 < f.unit) (p q : Nat) (hq : 0 < q)
    (h : nearest f p q < f.top * 2 ^ (f.p - 1)) :
    f.decode (nearest f p q) = roundEven p (q * (f.unit * 2 ^ place f p q)) * (f.unit * 2 ^ place f p q) := by
  have hn : nearest f p q = place f p q * 2 ^ (f.p - 1) + roundEven p (q * (f.unit * 2 ^ place f p q)) := by
    unfold nearest at h ⊢; omega
  rw [hn]
  generalize he : place f p q = e
  have hP : 0 < 2 ^ (f.p - 1) := Nat.pow_pos (by decide)
  have hq' : 0 < q * (f.unit * 2 ^ e) := Nat.mul_pos hq (Nat.mul_pos hu (Nat.pow_pos (by decide)))
  -- bounds of the quotient
  have hup : roundEven p (q * (f.unit * 2 ^ e)) ≤ 2 ^ (f.p - 1) * 2 := by
    refine roundEven_le hq' ?_
    have hlt : p / q / f.unit < 2 ^ (f.p - 1 + 1 + e) := by
      by_cases h0 : p / q / f.unit = 0
      · rw [h0]; exact Nat.pow_pos (by decide)
      · refine (Nat.log2_lt h0).1 ?_
        unfold place at he; omega
    rw [Nat.div_div_eq_div_mul] at hlt
    have := (Nat.div_lt_iff_lt_mul (Nat.mul_pos hq hu)).1 hlt
    refine Nat.le_of_lt (Nat.lt_of_lt_of_eq this ?_)
    rw [Nat.pow_add, Nat.pow_succ]; ac_rfl
  have hlo : e = 0 ∨ 2 ^ (f.p - 1) ≤ roundEven p (q * (f.unit * 2 ^ e)) := by
    by_cases h0 : e = 0
    · exact .inl h0
    · refine .inr (roundEven_ge hq' ?_)
      have hne : p / q / f.unit ≠ 0 := by
        intro hz; unfold place at he; rw [hz] at he; simp at he; omega
      have hl : 2 ^ (f.p - 1 + e) ≤ p / q / f.unit := by
        refine (Nat.le_log2 hne).1 ?_
        unfold place at he; omega
      rw [Nat.div_div_eq_div_mul] at hl
      have := (Nat.le_div_iff_mul_le (Nat.mul_pos hq hu)).1 hl
      refine Nat.le_trans (Nat.le_of_eq ?_) this
      rw [Nat.pow_add]; ac_rfl
  generalize roundEven p (q * (f.unit * 2 ^ e)) = r at *
  generalize hQ : 2 ^ (f.p - 1) = Q at *
  unfold Fmt.decode
  rw [hQ]
  by_cases h1 : r < Q
  · have h0 : e = 0 := by rcases hlo with h | h; exact h; omega
    subst h0
    simp only [Nat.zero_mul, Nat.zero_add]
    rw [if_pos (Nat.div_eq_of_lt h1), Nat.mod_eq_of_lt h1]; simp
  · by_cases h2 : r < Q * 2
    · have hd : (e * Q + r) / Q = e + 1 := by
        rw [show e * Q + r = (r - Q) + (e + 1) * Q by rw [Nat.add_mul]; omega, Nat.add_mul_div_right _ _ hP, Nat.div_eq_of_lt (by omega)]; omega
      have hm : (e * Q + r) % Q = r - Q := by
        rw [show e * Q + r = (r - Q) + (e + 1) * Q by rw [Nat.add_mul]; omega, Nat.add_mul_mod_self_right, Nat.mod_eq_of_lt (by omega)]
      rw [hd, hm, if_neg (by omega), Nat.add_sub_cancel, show Q + (r - Q) = r by omega]
      ac_rfl
    · have hr : r = Q * 2 := by omega
      have hd : (e * Q + r) / Q = e + 2 := by
        rw [show e * Q + r = (e + 2) * Q by rw [hr, Nat.add_mul]; omega, Nat.mul_div_cancel _ hP]
      have hm : (e * Q + r) % Q = 0 := by
        rw [show e * Q + r = (e + 2) * Q by rw [hr, Nat.add_mul]; omega, Nat.mul_mod_left]
      rw [hd, hm, if_neg (by omega), hr, show e + 2 - 1 = e + 1 by omega, Nat.pow_succ]
      simp only [Nat.add_zero]; ac_rfl

/-- A rounded magnitude is within half a unit of the last place, for magnitudes below `2^(f.p + w)` units. -/
theorem nearest_err (f : Fmt) (hp : 2 ≤ f.p) (hu : 0 < f.unit) (p q w : Nat) (hq : 0 < q) (hlt : p < q * f.unit * 2 ^ (f.p + w)) (hw : w + 2 < f.top) :
    nearest f p q < f.top * 2 ^ (f.p - 1) ∧
    2 * (f.decode (nearest f p q) * q) ≤ 2 * p + q * (f.unit * 2 ^ w) ∧ 2 * p ≤ 2 * (f.decode (nearest f p q) * q) + q * (f.unit * 2 ^ w) := by
  have hl : p / q / f.unit < 2 ^ (f.p + w) := by
    rw [Nat.div_div_eq_div_mul]
    exact (Nat.div_lt_iff_lt_mul (Nat.mul_pos hq hu)).2 (by rw [Nat.mul_comm]; exact hlt)
  have he : place f p q ≤ w := by
    unfold place
    have := Number.log2_lt_pow hl (by omega); omega
  have hq' : 0 < q * (f.unit * 2 ^ place f p q) := Nat.mul_pos hq (Nat.mul_pos hu (Nat.pow_pos (by decide)))
  have hup : roundEven p (q * (f.unit * 2 ^ place f p q)) ≤ 2 ^ (f.p - 1) * 2 := by
    refine roundEven_le hq' ?_
    have hlt : p / q / f.unit < 2 ^ (f.p - 1 + 1 + place f p q) := by
      by_cases h0 : p / q / f.unit = 0
      · rw [h0]; exact Nat.pow_pos (by decide)
      · refine (Nat.log2_lt h0).1 ?_
        unfold place; omega
    rw [Nat.div_div_eq_div_mul] at hlt
    have := (Nat.div_lt_iff_lt_mul (Nat.mul_pos hq hu)).1 hlt
    refine Nat.le_of_lt (Nat.lt_of_lt_of_eq this ?_)
    rw [Nat.pow_add, Nat.pow_succ]; ac_rfl
  have hn : nearest f p q < f.top * 2 ^ (f.p - 1) := by
    refine Nat.lt_of_le_of_lt (Nat.min_le_left _ _) ?_
    have h1 : place f p q * 2 ^ (f.p - 1) ≤ w * 2 ^ (f.p - 1) := Nat.mul_le_mul_right _ he
    have h2 : (w + 3) * 2 ^ (f.p - 1) ≤ f.top * 2 ^ (f.p - 1) := Nat.mul_le_mul_right _ hw
    have hP : 0 < 2 ^ (f.p - 1) := Nat.pow_pos (by decide)
    rw [Nat.add_mul] at h2
    omega
  refine ⟨hn, ?_⟩
  rw [decode_nearest f hp hu p q hq hn]
  obtain ⟨e1, e2⟩ := roundEven_err p hq'
  generalize roundEven p (q * (f.unit * 2 ^ place f p q)) = r at *
  have hpw : q * (f.unit * 2 ^ place f p q) ≤ q * (f.unit * 2 ^ w) :=
    Nat.mul_le_mul_left _ (Nat.mul_le_mul_left _ (Nat.pow_le_pow_right (by decide) he))
  have hr : r * (f.unit * 2 ^ place f p q) * q = r * (q * (f.unit * 2 ^ place f p q)) := by ac_rfl
  rw [hr]
  omega

/-- Magnitudes that a format represents are not rounded. -/
theorem decode_exact (f : Fmt) (hp : 2 ≤ f.p) (hu : 0 < f.unit) (m w : Nat) (hm : m < 2 ^ f.p) (hw : w + 2 < f.top) :
    f.decode (f.encode (m * (f.unit * 2 ^ w))) = m * (f.unit * 2 ^ w) := by
  rw [encode_eq]
  have hlt : m * (f.unit * 2 ^ w) < 1 * f.unit * 2 ^ (f.p + w) := by
    rw [Nat.pow_add, show 1 * f.unit * (2 ^ f.p * 2 ^ w) = 2 ^ f.p * (f.unit * 2 ^ w) by rw [Nat.one_mul]; ac_rfl]
    exact Nat.mul_lt_mul_of_pos_right hm (Nat.mul_pos hu (Nat.pow_pos (by decide)))
  have hn := (nearest_err f hp hu _ 1 w (by decide) hlt hw).1
  rw [decode_nearest f hp hu _ 1 (by decide) hn]
  have he : place f (m * (f.unit * 2 ^ w)) 1 ≤ w := by
    unfold place
    have : m * (f.unit * 2 ^ w) / 1 / f.unit < 2 ^ (f.p + w) := by
      rw [Nat.div_one]
      exact (Nat.div_lt_iff_lt_mul hu).2 (by rw [Nat.mul_comm (2 ^ _)]; simpa using hlt)
    have := Number.log2_lt_pow this (by omega); omega
  generalize place f (m * (f.unit * 2 ^ w)) 1 = e at *
  obtain ⟨d, rfl⟩ : ∃ d, w = d + e := ⟨w - e, by omega⟩
  have hx : m * (f.unit * 2 ^ (d + e)) = m * 2 ^ d * (f.unit * 2 ^ e) := by rw [Nat.pow_add]; ac_rfl
  rw [hx, Nat.one_mul, Number.roundEven_exact _ _ (Nat.mul_pos hu (Nat.pow_pos (by decide)))]

/-! ### Digits -/

theorem value_append (a : List UInt8) : ∀ b, value (a ++ b) = value a * 10 ^ b.length + value b := by
  intro b
  have key : ∀ (b : List UInt8) (x : Nat), b.foldl (fun a b => a * 10 + (b.toNat - 48)) x = x * 10 ^ b.length + b.foldl (fun a b => a * 10 + (b.toNat - 48)) 0 := by
    intro b
    induction b with
    | nil => intro x; simp
    | cons c b ih =>
      intro x
      simp only [List.foldl_cons, List.length_cons]
      rw [ih, ih (0 * 10 + _), Nat.pow_succ]
      rw [Nat.add_mul, Nat.zero_mul, Nat.zero_add, Nat.mul_assoc, Nat.mul_comm 10, Nat.add_assoc]
  unfold value
  rw [List.foldl_append, key]

theorem value_lt : ∀ {ds : List UInt8}, Digits ds → value ds < 10 ^ ds.length := by
  intro ds
  induction ds using List.reverseRecOn with
  | nil => intro _; simp [value]
  | append_singleton ds d ih =>
    intro h
    have h1 := ih (fun b hb => h b (by simp [hb]))
    have h2 := h d (by simp)
    rw [value_append, List.length_append, Nat.pow_add]
    have : value [d] = d.toNat - 48 := by simp [value]
    rw [this]
    simp only [List.length_singleton, Nat.pow_one]
    omega

theorem value_inj : ∀ {a b : List UInt8}, Digits a → Digits b → a.length = b.length → value a = value b → a = b := by
  intro a
  induction a using List.reverseRecOn with
  | nil => intro b _ _ hl _; exact (List.length_eq_zero_iff.mp hl.symm).symm
  | append_singleton a x ih =>
    intro b ha hb hl hv
    obtain ⟨b, y, rfl⟩ : ∃ b' y, b = b' ++ [y] := by
      rcases List.eq_nil_or_concat b with h | ⟨b', y, h⟩
      · subst h; simp at hl
      · exact ⟨b', y, by simpa using h⟩
    have hx := ha x (by simp)
    have hy := hb y (by simp)
    rw [value_append, value_append] at hv
    have e : ∀ z : UInt8, value [z] = z.toNat - 48 := fun z => by simp [value]
    rw [e, e] at hv
    simp only [List.length_singleton, Nat.pow_one] at hv
    have h1 : a = b := ih (fun c hc => ha c (by simp [hc])) (fun c hc => hb c (by simp [hc])) (by simpa using hl) (by omega)
    have h2 : x = y := UInt8.toNat_inj.mp (by omega)
    rw [h1, h2]

theorem padded_eq : ∀ (n k : Nat), k < 10 ^ n → Digits (padded n k) ∧ (padded n k).length = n ∧ value (padded n k) = k := by
  intro n
  induction n with
  | zero => intro k h; simp at h; subst h; simp [padded, value, Digits]
  | succ n ih =>
    intro k h
    rw [Nat.pow_succ] at h
    obtain ⟨h1, h2, h3⟩ := ih (k / 10) (by omega)
    have hc : (UInt8.ofNat (48 + k % 10)).toNat = 48 + k % 10 := by rw [UInt8.toNat_ofNat']; omega
    refine ⟨fun b hb => ?_, by simp [padded, h2], ?_⟩
    · rw [padded, List.mem_append] at hb
      rcases hb with hb | hb
      · exact h1 b hb
      · rw [List.mem_singleton.mp hb, hc]; omega
    · rw [padded, value_append, h3]
      have : value [UInt8.ofNat (48 + k % 10)] = k % 10 := by simp only [value, List.foldl_cons, List.foldl_nil, hc]; omega
      rw [this]
      simp only [List.length_singleton, Nat.pow_one]; omega

theorem lead_le {ds : List UInt8} (hd : Digits ds) (hne : ds ≠ []) (hl : ds.head? = some 0x30 → ds = [0x30]) :
    ds = [0x30] ∨ 10 ^ (ds.length - 1) ≤ value ds := by
  obtain ⟨d, t, rfl⟩ : ∃ d t, ds = d :: t := by
    match ds, hne with
    | d :: t, _ => exact ⟨d, t, rfl⟩
  by_cases h : d = 0x30
  · exact .inl (hl (by simp [h]))
  · refine .inr ?_
    have h1 := hd d (by simp)
    have h2 : d.toNat ≠ 48 := fun e => h (UInt8.toNat_inj.mp e)
    have : value (d :: t) = value [d] * 10 ^ t.length + value t := value_append [d] t
    have e : value [d] = d.toNat - 48 := by simp [value]
    rw [this, e]
    simp only [List.length_cons, Nat.add_sub_cancel]
    have : 1 * 10 ^ t.length ≤ (d.toNat - 48) * 10 ^ t.length := Nat.mul_le_mul_right _ (by omega)
    omega

theorem lead_inj {a b : List UInt8} (ha : Digits a) (hb : Digits b) (na : a ≠ []) (nb : b ≠ []) (la : a.head? = some 0x30 → a = [0x30])
    (lb : b.head? = some 0x30 → b = [0x30]) (h : value a = value b) : a = b := by
  have va := value_lt ha
  have vb := value_lt hb
  have pa := List.length_pos_iff.mpr na
  have pb := List.length_pos_iff.mpr nb
  refine value_inj ha hb ?_ h
  have z : value [0x30] = 0 := rfl
  rcases lead_le ha na la with h1 | h1 <;> rcases lead_le hb nb lb with h2 | h2
  · rw [h1, h2]
  · rw [← h, h1, z] at h2
    have : 0 < 10 ^ (b.length - 1) := Nat.pow_pos (by decide)
    omega
  · rw [h, h2, z] at h1
    have : 0 < 10 ^ (a.length - 1) := Nat.pow_pos (by decide)
    omega
  · by_contra hne
    rcases Nat.lt_or_gt_of_ne hne with hlt | hlt
    · have : 10 ^ a.length ≤ 10 ^ (b.length - 1) := Nat.pow_le_pow_right (by decide) (by omega)
      omega
    · have : 10 ^ b.length ≤ 10 ^ (a.length - 1) := Nat.pow_le_pow_right (by decide) (by omega)
      omega

theorem decimal_unique {fuel : Nat} {ds : List UInt8} (hd : Digits ds) (hne : ds ≠ []) (hl : ds.head? = some 0x30 → ds = [0x30])
    (h : value ds < 10 ^ (fuel + 1)) : Json.decimal fuel (value ds) = ds := by
  obtain ⟨h1, h2, h3⟩ := Json.decimal_eq fuel _ h
  exact lead_inj h1 hd h2 hne (Duck.Convert.decimal_head fuel _ h) hl h3

theorem value_zeros (n : Nat) : value (List.replicate n 0x30) = 0 := by
  induction n with
  | zero => rfl
  | succ n ih =>
    rw [List.replicate_succ', value_append, ih]
    rfl

theorem digits_dot {ds : List UInt8} (h : Digits ds) : (0x2e : UInt8) ∉ ds := by
  intro hm
  have := h _ hm
  simp at this

theorem sign_dot (neg : Bool) : (0x2e : UInt8) ∉ (if neg then [0x2d] else [] : List UInt8) := by cases neg <;> decide

/-! ### The text of a number -/

theorem fixed_short {ds fs : List UInt8} (h : Short ds fs) (hv : value ds < 10 ^ (400 + 1)) :
    fixed (micros ds fs) = ds ++ 0x2e :: (fs ++ List.replicate (6 - fs.length) 0x30) := by
  have hf := value_lt h.decimals
  have h6 := h.six
  have hlt : value fs * 10 ^ (6 - fs.length) < 10 ^ 6 := by
    have : 10 ^ 6 = 10 ^ fs.length * 10 ^ (6 - fs.length) := by rw [← Nat.pow_add]; congr 1; omega
    rw [this]
    exact Nat.mul_lt_mul_of_pos_right hf (Nat.pow_pos (by decide))
  have hdiv : micros ds fs / 10 ^ 6 = value ds := by unfold micros; omega
  have hmod : micros ds fs % 10 ^ 6 = value fs * 10 ^ (6 - fs.length) := by unfold micros; omega
  unfold fixed
  rw [hdiv, hmod, decimal_unique h.digits h.nonempty h.lead hv]
  congr 2
  obtain ⟨p1, p2, p3⟩ := padded_eq 6 _ hlt
  refine value_inj p1 ?_ ?_ ?_
  · intro b hb
    rw [List.mem_append] at hb
    rcases hb with hb | hb
    · exact h.decimals b hb
    · rw [List.eq_of_mem_replicate hb]; decide
  · rw [p2]; simp; omega
  · rw [p3, value_append, value_zeros, List.length_replicate]; rfl

theorem trim_short {ds fs : List UInt8} (h : Short ds fs) (neg : Bool) (n : Nat) :
    Printf.trimZeroes ((if neg then [0x2d] else []) ++ (ds ++ 0x2e :: (fs ++ List.replicate n 0x30))) = text neg ds fs := by
  have ht : text neg ds fs = ((if neg then [0x2d] else []) ++ ds) ++ 0x2e :: fs := by unfold text signText; cases neg <;> simp
  refine Printf.pretty_unique (Printf.pretty_trim _) ?_
  unfold Printf.Pretty
  rw [if_pos (by simp), ht]
  refine ⟨n, by simp, _, fs, rfl, ?_, .inr ?_, ?_⟩
  · rw [List.mem_append]
    rintro (hm | hm)
    · exact sign_dot neg hm
    · exact digits_dot h.digits hm
  · have := h.one
    intro he; rw [he] at this; simp at this
  · rcases h.last with h1 | h1
    · exact .inl (by omega)
    · exact .inr h1

/-- Every number of millionths has a text. -/
theorem exists_short (k : Nat) (hk : k / 10 ^ 6 < 10 ^ (400 + 1)) : ∃ ds fs, Short ds fs ∧ micros ds fs = k ∧ value ds = k / 10 ^ 6 := by
  obtain ⟨d1, d2, d3⟩ := Json.decimal_eq 400 _ hk
  obtain ⟨p1, p2, p3⟩ := padded_eq 6 (k % 10 ^ 6) (Nat.mod_lt _ (by decide))
  -- the zeros at the end
  have key : ∀ n (l : List UInt8), l.length = n + 1 → Digits l → ∃ fs, Digits fs ∧ 1 ≤ fs.length ∧ fs.length ≤ n + 1 ∧
      (fs.length = 1 ∨ fs.getLast? ≠ some 0x30) ∧ value l = value fs * 10 ^ (n + 1 - fs.length) := by
    intro n
    induction n with
    | zero => intro l hl hd; exact ⟨l, hd, by omega, by omega, .inl (by omega), by rw [hl]; simp⟩
    | succ n ih =>
      intro l hl hd
      by_cases hz : l.getLast? = some 0x30
      · obtain ⟨l', y, rfl⟩ : ∃ l' y, l = l' ++ [y] := by
          rcases List.eq_nil_or_concat l with h | ⟨b', y, h⟩
          · subst h; simp at hl
          · exact ⟨b', y, by simpa using h⟩
        simp only [List.getLast?_append, List.getLast?_singleton, Option.some_or, Option.some.injEq] at hz
        subst hz
        obtain ⟨fs, f1, f2, f3, f4, f5⟩ := ih l' (by simpa using hl) (fun b hb => hd b (by simp [hb]))
        refine ⟨fs, f1, f2, by omega, f4, ?_⟩
        have z : value [0x30] = 0 := rfl
        rw [value_append, z, f5, show n + 1 + 1 - fs.length = (n + 1 - fs.length) + 1 by omega, Nat.pow_succ]
        simp only [List.length_singleton, Nat.pow_one, Nat.add_zero]
        rw [Nat.mul_assoc]
      · exact ⟨l, hd, by omega, by omega, .inr hz, by rw [hl]; simp⟩
  obtain ⟨fs, f1, f2, f3, f4, f5⟩ := key 5 _ p2 p1
  refine ⟨_, fs, ⟨d1, d2, Duck.Convert.decimal_head 400 _ hk, f1, f2, f3, f4⟩, ?_, d3⟩
  unfold micros
  rw [d3, ← f5, p3]
  omega

/-! ### Reading a text -/

theorem micros_value {ds fs : List UInt8} (h6 : fs.length ≤ 6) : value (ds ++ fs) * 10 ^ (6 - fs.length) = micros ds fs := by
  rw [value_append, Nat.add_mul, Nat.mul_assoc, ← Nat.pow_add]
  unfold micros
  congr 3; omega

theorem strtod_text (other : Bool → Unicode.Mem → Option Nat) (t : Ty) (f : Fmt) (neg : Bool) {ds fs : List UInt8} (hd : Digits ds) (hne : ds ≠ []) (hf : Digits fs)
    (h6 : fs.length ≤ 6) : strtod other t f (memory (text neg ds fs)) = some (addSign t neg (nearest f (micros ds fs * scale) (10 ^ 6))) := by
  obtain ⟨d, ds', rfl⟩ : ∃ d ds', ds = d :: ds' := by
    match ds, hne with
    | d :: ds, _ => exact ⟨d, ds, rfl⟩
  have hd0 := hd d (by simp)
  have etext : memory (text neg (d :: ds') fs) = signText neg false ++ d :: (ds' ++ 0x2e :: (fs ++ [0])) := by
    simp [memory, text]
  have hws : Num.skipWs (signText neg false ++ d :: (ds' ++ 0x2e :: (fs ++ [0]))) = some (signText neg false ++ d :: (ds' ++ 0x2e :: (fs ++ [0]))) := by
    cases neg
    · have := Num.skipWs_eq (ws := []) (by simp) (Num.digit_not_space hd0) (ds' ++ 0x2e :: (fs ++ [0]))
      simpa [signText] using this
    · rfl
  have hdig := Duck.Convert.digitRun_eq hd (b := 0x2e) (by decide) (fs ++ [0])
  have hfd := Duck.Convert.digitRun_eq hf (b := 0) (by decide) []
  unfold strtod
  rw [etext, hws, Option.bind_some, Num.sign_eq neg false hd0, Option.bind_some]
  rw [List.cons_append] at hdig
  simp only [hdig, Option.bind_some, fractionRun, List.head?_cons, beq_self_eq_true, if_true, List.tail_cons, hfd]
  have hx : isHex (d :: ds') (0x2e :: (fs ++ [0])) = false := by
    unfold isHex; simp
  rw [hx]
  simp only [List.cons_append, List.isEmpty_cons, Bool.or_self, Bool.false_eq_true, if_false, exponentRun, List.head?_cons, Option.bind_some]
  rw [if_neg (by decide), Option.map_some]
  have e1 : (0 - (fs.length : Int)).toNat = 0 := by omega
  have e2 : (-(0 - (fs.length : Int))).toNat = fs.length := by omega
  have hv : digitValue (d :: ds' ++ fs) = value (d :: ds' ++ fs) := rfl
  have key : decimalValue f (digitValue (d :: (ds' ++ fs))) (0 - (fs.length : Int)) = nearest f (micros (d :: ds') fs * scale) (10 ^ 6) := by
    unfold decimalValue
    rw [e1, e2, ← List.cons_append, hv, ← nearest_scale f _ (10 ^ fs.length) (c := 10 ^ (6 - fs.length)) (Nat.pow_pos (by decide)),
      ← Nat.pow_add, show fs.length + (6 - fs.length) = 6 by omega, ← micros_value h6, Nat.pow_zero, Nat.mul_one]
    rw [Nat.mul_right_comm]
  rw [key]

/-! ### There and back -/

/-- A constant of the types: `f.unit * 2^w` is 2^-20. -/
theorem fine_width {t : Ty} {f : Fmt} (hf : t.fmt = some f) : ∃ w, f.unit * 2 ^ w = 2 ^ 1054 ∧ w + 2 < f.top ∧
    f.unit * 2 ^ (f.p + w) = fine t * scale := by
  cases t <;> simp only [Ty.fmt, Option.some.injEq, reduceCtorEq] at hf <;> subst hf
  · exact ⟨129, by decide +kernel, by decide, by decide +kernel⟩
  · exact ⟨1054, by decide +kernel, by decide, by decide +kernel⟩

theorem million_lt : 10 ^ 6 * 2 ^ 1054 < scale := by decide +kernel

theorem round_of_err {x y k S : Nat} (h2 : 2 * x ≤ 2 * (k * S) + y) (h3 : 2 * (k * S) ≤ 2 * x + y) (hy : y < S) : roundEven x S = k :=
  roundEven_unique (by omega) (by omega)

/-- Millionths survive rounding where numbers are less than a millionth apart. -/
theorem millionths_nearest {t : Ty} {f : Fmt} (hf : t.fmt = some f) {k : Nat} (hk : k < fine t * 10 ^ 6) :
    nearest f (k * scale) (10 ^ 6) < f.top * 2 ^ (f.p - 1) ∧ millionths (f.decode (nearest f (k * scale) (10 ^ 6))) = k := by
  have ok := Number.fmtOk hf
  obtain ⟨w, w1, w2, w3⟩ := fine_width hf
  have hs := million_lt
  have hpos : 0 < scale := Number.scale_pos
  have hlt : k * scale < 10 ^ 6 * f.unit * 2 ^ (f.p + w) := by
    rw [Nat.mul_assoc, w3, ← Nat.mul_assoc, Nat.mul_comm (10 ^ 6)]
    exact Nat.mul_lt_mul_of_pos_right hk hpos
  obtain ⟨h1, h2, h3⟩ := nearest_err f ok.p ok.unit _ (10 ^ 6) w (by decide) hlt w2
  rw [w1] at h2 h3
  refine ⟨h1, ?_⟩
  unfold millionths
  exact round_of_err h2 h3 hs

/-! ### The sum of dk_strtonum -/

/-- The number of digits, most significant first. -/
def digitsNat (v : Nat) (ds : List Nat) : Nat := ds.foldl (fun a d => a * 10 + d) v

theorem f64_p : 2 ≤ f64.p := by decide
theorem f64_unit : 0 < f64.unit := by decide

theorem encode_err (n w : Nat) (h : n < 2 ^ (53 + w)) (hw : w + 2 < 2047) :
    f64.encode n < f64.top * 2 ^ (f64.p - 1) ∧ 2 * f64.decode (f64.encode n) ≤ 2 * n + 2 ^ w ∧ 2 * n ≤ 2 * f64.decode (f64.encode n) + 2 ^ w := by
  have := nearest_err f64 f64_p f64_unit n 1 w (by decide) (by simpa [f64] using h) hw
  rw [encode_eq]
  simpa only [Nat.mul_one, Nat.one_mul, show f64.unit = 1 from rfl] using this

theorem quotient_err (d P w : Nat) (hP : 0 < P) (h : d * scale < P * 2 ^ (53 + w)) (hw : w + 2 < 2047) :
    2 * (f64.decode (quotient d P) * P) ≤ 2 * (d * scale) + P * 2 ^ w ∧ 2 * (d * scale) ≤ 2 * (f64.decode (quotient d P) * P) + P * 2 ^ w := by
  have := nearest_err f64 f64_p f64_unit (d * scale) P w hP (by simpa only [Nat.mul_one, show f64.unit = 1 from rfl, show f64.p = 53 from rfl] using h) hw
  unfold quotient
  simpa only [Nat.one_mul, show f64.unit = 1 from rfl] using this.2

theorem add_err (x y w : Nat) (h : f64.decode x + f64.decode y < 2 ^ (53 + w)) (hw : w + 2 < 2047) :
    add x y < f64.top * 2 ^ (f64.p - 1) ∧ 2 * f64.decode (add x y) ≤ 2 * (f64.decode x + f64.decode y) + 2 ^ w ∧
      2 * (f64.decode x + f64.decode y) ≤ 2 * f64.decode (add x y) + 2 ^ w := encode_err _ w h hw

/-- One step of the sum, in integers: `x`, `y`, `z` the old sum, the quotient and the new sum, `u` a quarter of the error allowed for a step. -/
theorem step_arith {x y z V d Q P S u j : Nat} (hP : P = Q * 10) (hx1 : x * Q ≤ V * S + j * (4 * u) * Q) (hx2 : V * S ≤ x * Q + j * (4 * u) * Q)
    (hy1 : 2 * (y * (Q * 10)) ≤ 2 * (d * S) + Q * 10 * (2 * u)) (hy2 : 2 * (d * S) ≤ 2 * (y * (Q * 10)) + Q * 10 * (2 * u))
    (hz1 : 2 * z ≤ 2 * (x + y) + 4 * u) (hz2 : 2 * (x + y) ≤ 2 * z + 4 * u) :
    z * P ≤ (V * 10 + d) * S + (j + 1) * (4 * u) * P ∧ (V * 10 + d) * S ≤ z * P + (j + 1) * (4 * u) * P := by
  subst hP
  constructor <;> nlinarith [Nat.zero_le (u * Q), Nat.mul_le_mul_right (Q * 10) hz1, Nat.mul_le_mul_right (Q * 10) hz2]

/-- The operands of a sum are not large. -/
theorem step_bound {x y V d Q S u j : Nat} (hQ : 0 < Q) (hV : V < Q) (hd : d ≤ 9) (hj : j ≤ 6) (hu : 1000 * u ≤ S) (hS : 0 < S)
    (hx1 : x * Q ≤ V * S + j * (4 * u) * Q) (hy1 : 2 * (y * (Q * 10)) ≤ 2 * (d * S) + Q * 10 * (2 * u)) : x + y < 2 * S ∧ x ≤ S + 24 * u := by
  have h1 : x ≤ S + 24 * u := by
    refine Nat.le_of_mul_le_mul_right (c := Q) ?_ hQ
    have a : V * S ≤ Q * S := Nat.mul_le_mul_right _ (by omega)
    have b : j * (4 * u) * Q ≤ 6 * (4 * u) * Q := Nat.mul_le_mul_right _ (Nat.mul_le_mul_right _ hj)
    nlinarith
  have h2 : 20 * y ≤ 18 * S + 20 * u := by
    refine Nat.le_of_mul_le_mul_right (c := Q) ?_ hQ
    have a : d * S ≤ 9 * S := Nat.mul_le_mul_right _ hd
    have b : S * 1 ≤ S * Q := Nat.mul_le_mul_left _ hQ
    nlinarith
  omega

theorem pow_u1 (m : Nat) : 2 ^ (m + 1) = 2 * 2 ^ m := by rw [Nat.pow_succ, Nat.mul_comm]
theorem pow_u2 (m : Nat) : 2 ^ (m + 2) = 4 * 2 ^ m := by rw [Nat.pow_add, Nat.mul_comm]
theorem pow_u34 (m : Nat) : 2 ^ (34 + m) = 2 ^ 34 * 2 ^ m := Nat.pow_add ..

theorem scale_u : scale = 2 ^ 54 * 2 ^ 1020 := by decide +kernel

theorem digitsNat_cons (V d : Nat) (ds : List Nat) : digitsNat V (d :: ds) = digitsNat (V * 10 + d) ds := rfl
theorem sumFraction_cons (d : Nat) (ds : List Nat) (x y : Nat) : sumFraction (d :: ds) x y = sumFraction ds (x * 10) (add y (quotient d x)) := by
  delta sumFraction
  dsimp only

/-- The sum of the fraction digits, with its error. -/
theorem sumFraction_err (S u : Nat) (hS : S = scale) (hu : u = 2 ^ 1020) (ds : List Nat) : ∀ (j V fp : Nat), (∀ d ∈ ds, d ≤ 9) → ds.length + j ≤ 6 → V < 10 ^ j →
    f64.decode fp * 10 ^ j ≤ V * S + j * (4 * u) * 10 ^ j → V * S ≤ f64.decode fp * 10 ^ j + j * (4 * u) * 10 ^ j →
    ∃ n, n = j + ds.length ∧ digitsNat V ds < 10 ^ n ∧
    f64.decode (sumFraction ds (10 ^ j * 10) fp) * 10 ^ n ≤ digitsNat V ds * S + n * (4 * u) * 10 ^ n ∧
    digitsNat V ds * S ≤ f64.decode (sumFraction ds (10 ^ j * 10) fp) * 10 ^ n + n * (4 * u) * 10 ^ n := by
  induction ds with
  | nil => intro j V fp _ _ hV h1 h2; exact ⟨j, rfl, hV, h1, h2⟩
  | cons d ds ih =>
    intro j V fp hd hl hV h1 h2
    have hQ : 0 < 10 ^ j := Nat.pow_pos (by decide)
    have hd9 := hd d (by simp)
    simp only [List.length_cons] at hl
    have hSu : S = 2 ^ 54 * u := by rw [hS, hu]; exact scale_u
    obtain ⟨q1, q2⟩ := quotient_err d (10 ^ j * 10) 1021 (by omega) (by
      rw [show 53 + 1021 = 1074 from rfl, show (2 : Nat) ^ 1074 = scale from rfl]
      refine Nat.mul_lt_mul_of_pos_right ?_ Number.scale_pos
      omega) (by decide)
    rw [← hS, show (2 : Nat) ^ 1021 = 2 * 2 ^ 1020 from pow_u1 1020, ← hu] at q1 q2
    obtain ⟨b1, b2⟩ := step_bound hQ hV hd9 (by omega) (by omega) (hS ▸ Number.scale_pos) h1 q1
    obtain ⟨_, a1, a2⟩ := add_err fp (quotient d (10 ^ j * 10)) 1022 (by
      rw [show 53 + 1022 = 1074 + 1 from rfl, Nat.pow_succ, show (2 : Nat) ^ 1074 = scale from rfl, ← hS]
      omega) (by decide)
    rw [show (2 : Nat) ^ 1022 = 4 * 2 ^ 1020 from pow_u2 1020, ← hu] at a1 a2
    obtain ⟨s1, s2⟩ := step_arith (Nat.pow_succ 10 j) h1 h2 q1 q2 a1 a2
    obtain ⟨n, n1, n2, n3, n4⟩ := ih (j + 1) (V * 10 + d) (add fp (quotient d (10 ^ j * 10))) (fun c hc => hd c (by simp [hc])) (by omega)
      (by rw [Nat.pow_succ]; omega) s1 s2
    rw [Nat.pow_succ] at n3 n4
    rw [digitsNat_cons, sumFraction_cons]
    exact ⟨n, by rw [n1, List.length_cons]; omega, n2, n3, n4⟩

theorem decode_zero : f64.decode 0 = 0 := by decide +kernel

/-- The last sum and its error, in integers. -/
theorem last_arith {R fp i F S u P n : Nat} (hn : n ≤ 6)
    (hr1 : 2 * R ≤ 2 * (i * S + fp) + 2 ^ 34 * u) (hr2 : 2 * (i * S + fp) ≤ 2 * R + 2 ^ 34 * u)
    (hf1 : fp * P ≤ F * S + n * (4 * u) * P) (hf2 : F * S ≤ fp * P + n * (4 * u) * P) :
    2 * (R * P) ≤ 2 * ((i * P + F) * S) + (2 ^ 34 * u + 48 * u) * P ∧ 2 * ((i * P + F) * S) ≤ 2 * (R * P) + (2 ^ 34 * u + 48 * u) * P := by
  have h6 : n * (4 * u) * P ≤ 6 * (4 * u) * P := Nat.mul_le_mul_right _ (Nat.mul_le_mul_right _ hn)
  have e1 := Nat.mul_le_mul_right P hr1
  have e2 := Nat.mul_le_mul_right P hr2
  constructor <;> nlinarith

/-- The number that dk_strtonum makes of a decimal fraction has the same millionths. -/
theorem millionths_sum (i : Nat) (ds : List Nat) (hi : i + 1 < 2 ^ 33) (hd : ∀ d ∈ ds, d ≤ 9) (hl : ds.length ≤ 6) :
    sumParts i ds < f64.top * 2 ^ (f64.p - 1) ∧ millionths (f64.decode (sumParts i ds)) = i * 10 ^ 6 + digitsNat 0 ds * 10 ^ (6 - ds.length) := by
  obtain ⟨S, hS⟩ : ∃ S, S = scale := ⟨_, rfl⟩
  obtain ⟨u, hu⟩ : ∃ u, u = 2 ^ 1020 := ⟨_, rfl⟩
  have hSu : S = 2 ^ 54 * u := by rw [hS, hu]; exact scale_u
  have hu0 : 0 < u := by rw [hu]; exact Nat.pow_pos (by decide)
  obtain ⟨n, n1, n2, n3, n4⟩ := sumFraction_err S u hS hu ds 0 0 0 hd (by omega) (by decide) (by rw [decode_zero]; simp) (by simp)
  rw [Nat.zero_add] at n1
  rw [Nat.pow_zero, Nat.one_mul] at n3 n4
  have hP : 0 < 10 ^ n := Nat.pow_pos (by decide)
  have hi' : f64.decode (f64.encode (i * S)) = i * S := by
    have := decode_exact f64 f64_p f64_unit i 1074 (Nat.lt_of_lt_of_le (by omega) (Nat.pow_le_pow_right (by decide) (by decide : 33 ≤ f64.p))) (by decide)
    rw [show f64.unit = 1 from rfl, Nat.one_mul] at this
    rw [hS]; exact this
  have hfp : f64.decode (sumFraction ds 10 0) ≤ S + 24 * u := by
    refine Nat.le_of_mul_le_mul_right (c := 10 ^ n) ?_ hP
    have a : digitsNat 0 ds * S ≤ 10 ^ n * S := Nat.mul_le_mul_right _ (by omega)
    have b : n * (4 * u) * 10 ^ n ≤ 6 * (4 * u) * 10 ^ n := Nat.mul_le_mul_right _ (Nat.mul_le_mul_right _ (by omega))
    nlinarith
  have hsum : sumParts i ds = f64.encode (i * S + f64.decode (sumFraction ds 10 0)) := by
    unfold sumParts add
    rw [← hS, hi']
  have hiS : i * S + 2 * S ≤ 2 ^ 33 * S := by
    rw [← Nat.add_mul]; exact Nat.mul_le_mul_right _ (by omega)
  obtain ⟨e0, e1, e2⟩ := encode_err (i * S + f64.decode (sumFraction ds 10 0)) 1054 (by
    rw [show 53 + 1054 = 33 + 1074 from rfl, Nat.pow_add, show (2 : Nat) ^ 1074 = scale from rfl, ← hS]
    omega) (by decide)
  rw [← hsum, show (2 : Nat) ^ 1054 = 2 ^ 34 * 2 ^ 1020 from pow_u34 1020, ← hu] at e1 e2
  rw [← hsum] at e0
  refine ⟨e0, ?_⟩
  obtain ⟨l1, l2⟩ := last_arith (by omega) e1 e2 n3 n4
  have hx : ∀ a : Nat, a * 10 ^ n * 10 ^ (6 - n) = a * 10 ^ 6 := fun a => by rw [Nat.mul_assoc, ← Nat.pow_add]; congr 2; omega
  have m1 := Nat.mul_le_mul_right (10 ^ (6 - n)) l1
  have m2 := Nat.mul_le_mul_right (10 ^ (6 - n)) l2
  unfold millionths
  rw [← n1, ← hS]
  have k1 : 2 * (f64.decode (sumParts i ds) * 10 ^ n) * 10 ^ (6 - n) = 2 * (f64.decode (sumParts i ds) * 10 ^ 6) := by rw [Nat.mul_assoc, hx]
  have k2 : 2 * ((i * 10 ^ n + digitsNat 0 ds) * S) * 10 ^ (6 - n) = 2 * ((i * 10 ^ 6 + digitsNat 0 ds * 10 ^ (6 - n)) * S) := by
    rw [← hx i]
    generalize 10 ^ (6 - n) = c
    ring
  rw [Nat.add_mul (2 * ((i * 10 ^ n + digitsNat 0 ds) * S)), k1, k2, hx] at m1
  rw [Nat.add_mul (2 * (f64.decode (sumParts i ds) * 10 ^ n)), k1, k2, hx] at m2
  refine round_of_err m1 m2 ?_
  omega

/-! ### Numbers of one element -/

theorem element_scalar {t : Ty} {b : Nat} (hb : b < 2 ^ t.bits) : Duck.Convert.element (newNumber t b) 0 = some b := by
  have hl : (Number.leBytes t.size b).length = t.size := Number.leBytes_length _ _
  unfold Duck.Convert.element newNumber
  simp only [Number.vec]
  unfold Number.read
  rw [Nat.zero_mul, Nat.zero_add, if_pos (by omega), List.drop_zero, List.take_of_length_le (by omega), Number.leNat_leBytes, Number.pow_bits, Nat.mod_eq_of_lt hb]

theorem getString_scalar {t : Ty} {f : Fmt} (hf : t.fmt = some f) {b : Nat} (hb : b < 2 ^ t.bits) : getString (newNumber t b) = realText t f b := by
  unfold getString
  rw [show (newNumber t b).enc.ty = t from rfl, hf, Option.bind_some, element_scalar hb, Option.bind_some]

theorem printfF_fin {t : Ty} {f : Fmt} {b : Nat} {n : Int} (h : floatVal t f b = .fin n) :
    printfF t f b = (if signBit t b then [0x2d] else []) ++ fixed (millionths n.natAbs) := by
  unfold printfF; rw [h]

/-- The text of a number whose millionths are those of a decimal fraction. -/
theorem realText_short {t : Ty} {f : Fmt} {b : Nat} {n : Int} (h : floatVal t f b = .fin n) {ds fs : List UInt8} (hs : Short ds fs)
    (hm : millionths n.natAbs = micros ds fs) (hl : ds.length < 112) : realText t f b = some (text (signBit t b) ds fs) := by
  have hv : value ds < 10 ^ (400 + 1) :=
    Nat.lt_of_lt_of_le (value_lt hs.digits) (Nat.pow_le_pow_right (by decide) (by omega))
  have hp : printfF t f b = (if signBit t b then [0x2d] else []) ++ (ds ++ 0x2e :: (fs ++ List.replicate (6 - fs.length) 0x30)) := by
    rw [printfF_fin h, hm, fixed_short hs hv]
  have h6 := hs.six
  have hlen : (printfF t f b).length < 120 := by
    rw [hp]
    have : (if signBit t b then [0x2d] else [] : List UInt8).length ≤ 1 := by split <;> simp
    simp only [List.length_append, List.length_cons, List.length_replicate]
    omega
  unfold realText
  rw [if_pos hlen, hp, trim_short hs]

theorem length_of_value {ds fs : List UInt8} (hs : Short ds fs) {n : Nat} (h : value ds < 10 ^ n) (hn : 1 ≤ n) : ds.length ≤ n := by
  rcases lead_le hs.digits hs.nonempty hs.lead with h1 | h1
  · rw [h1]; simpa using hn
  · by_contra hlt
    have : 10 ^ n ≤ 10 ^ (ds.length - 1) := Nat.pow_le_pow_right (by decide) (by omega)
    omega

/-- The number of a text, as a pattern. -/
theorem stringReal_text (other : Bool → Unicode.Mem → Option Nat) {t : Ty} {f : Fmt} (hf : t.fmt = some f) (neg : Bool) {ds fs : List UInt8} (h : Short ds fs) :
    stringReal other t (text neg ds fs) = some (addSign t neg (nearest f (micros ds fs * scale) (10 ^ 6))) := by
  unfold stringReal
  rw [hf, Option.bind_some, if_pos (by unfold text; simp), strtod_text other t f neg h.digits h.nonempty h.decimals h.six]

theorem decode_le {t : Ty} {f : Fmt} (hf : t.fmt = some f) {mag : Nat} (h : mag < f.top * 2 ^ (f.p - 1)) : f.decode mag ≤ 2 ^ 1024 * scale := by
  have ok := Number.fmtOk hf
  have hP : 0 < 2 ^ (f.p - 1) := Nat.pow_pos (by decide)
  have hm := Nat.mod_lt mag hP
  have he : mag / 2 ^ (f.p - 1) < f.top := (Nat.div_lt_iff_lt_mul hP).2 h
  have hle : f.decode mag ≤ (2 ^ (f.p - 1) * 2) * 2 ^ (f.top - 2) * f.unit := by
    unfold Fmt.decode
    split
    · refine Nat.mul_le_mul_right _ ?_
      have : 1 ≤ 2 ^ (f.top - 2) := Nat.pow_pos (by decide)
      calc mag % 2 ^ (f.p - 1) ≤ 2 ^ (f.p - 1) * 2 := by omega
        _ = 2 ^ (f.p - 1) * 2 * 1 := by omega
        _ ≤ _ := Nat.mul_le_mul_left _ this
    · refine Nat.mul_le_mul_right _ (Nat.mul_le_mul (by omega) (Nat.pow_le_pow_right (by decide) (by omega)))
  refine Nat.le_trans hle ?_
  cases t <;> simp only [Ty.fmt, Option.some.injEq, reduceCtorEq] at hf <;> subst hf
  · decide +kernel
  · decide +kernel

theorem millionths_le {n c : Nat} (h : n ≤ c * scale) : millionths n / 10 ^ 6 ≤ c := by
  have : millionths n ≤ c * 10 ^ 6 := by
    unfold millionths
    refine roundEven_le Number.scale_pos ?_
    rw [Nat.mul_right_comm]
    exact Nat.mul_le_mul_right _ h
  exact Nat.div_le_of_le_mul (by rw [Nat.mul_comm]; exact this)

theorem big_lt : 2 ^ 1024 < 10 ^ (400 + 1) := by decide +kernel

theorem addSign_signBit {t : Ty} {f : Fmt} (ok : f.Ok t) {b : Nat} (hb : b < 2 ^ t.bits) : addSign t (signBit t b) (b % 2 ^ (t.bits - 1)) = b := by
  have h2 := ok.bits
  unfold addSign signBit
  rw [h2] at hb
  generalize 2 ^ (t.bits - 1) = c at *
  by_cases h : c ≤ b
  · simp only [h, decide_true, if_true]
    rw [Nat.mod_eq_sub_mod h, Nat.mod_eq_of_lt (by omega)]; omega
  · simp only [h, decide_false, Bool.false_eq_true, if_false]
    exact Nat.mod_eq_of_lt (by omega)

theorem int_of_err {m J S : Nat} (hS : 0 < S) (h1 : 2 * (m * S) ≤ 2 * (J * S) + S) (h2 : 2 * (J * S) ≤ 2 * (m * S) + S) : m = J := by
  rcases Nat.lt_trichotomy m J with h | h | h
  · have : (m + 1) * S ≤ J * S := Nat.mul_le_mul_right _ h
    rw [Nat.add_mul] at this; omega
  · exact h
  · have : (J + 1) * S ≤ m * S := Nat.mul_le_mul_right _ h
    rw [Nat.add_mul] at this; omega

theorem scale_64 (a : Nat) : a * 2 ^ 1068 * 10 ^ 6 = a * 15625 * scale := by
  have : 2 ^ 1068 * 10 ^ 6 = 15625 * scale := by decide +kernel
  rw [Nat.mul_assoc, this, Nat.mul_assoc]

theorem natAbs_64 (j : Int) : (j * 2 ^ 1068).natAbs = j.natAbs * 2 ^ 1068 := by
  rw [Int.natAbs_mul, Int.natAbs_pow]; rfl

theorem natAbs_scale (j : Int) : (j * (scale : Int)).natAbs = j.natAbs * scale := by
  rw [Int.natAbs_mul, Int.natAbs_natCast]

deriving instance DecidableEq for Number.Enc
deriving instance DecidableEq for Number.Obj

theorem readNumber_text (pow : Nat → Nat) (neg : Bool) {ds fs : List UInt8} (h : Short ds fs) (hv : value ds < 2 ^ 63) :
    readNumber pow (text neg ds fs) = some (newNumber .f64 (addSign .f64 neg (sumParts (value ds) (fs.map fun b => b.toNat - 48)))) := by
  have hr := Num.C43_numeral_partial [] (by simp) neg false ds h.digits h.nonempty hv (some fs)
    (by rintro fs' ⟨⟩; exact ⟨h.decimals, by have := h.six; omega⟩) none (by simp) [] (by intro b hb; simp at hb) []
  have he : ([] ++ Num.numeral neg false ds (some fs) none ++ [] ++ 0 :: [] : List UInt8) = memory (text neg ds fs) := by
    simp [Num.numeral, memory, text]
  rw [he] at hr
  unfold readNumber
  rw [hr, Option.bind_some]
  simp only [Num.meaning, Option.getD_some, Option.map_none, toNumber]

theorem digitsNat_value (fs : List UInt8) : digitsNat 0 (fs.map fun b => b.toNat - 48) = value fs := by
  unfold digitsNat value
  rw [List.foldl_map]

theorem sum_zero : sumFraction [0] 10 0 = 0 := by decide +kernel

/-- The text of an integer ends with ".0". -/
theorem zero_fraction {ds fs : List UInt8} (h : Short ds fs) {J : Nat} (hm : micros ds fs = J * 10 ^ 6) : value ds = J ∧ fs = [0x30] := by
  have h6 := h.six
  have hlt : value fs * 10 ^ (6 - fs.length) < 10 ^ 6 := by
    have : 10 ^ 6 = 10 ^ fs.length * 10 ^ (6 - fs.length) := by rw [← Nat.pow_add]; congr 1; omega
    rw [this]
    exact Nat.mul_lt_mul_of_pos_right (value_lt h.decimals) (Nat.pow_pos (by decide))
  unfold micros at hm
  have hds : value ds = J := by omega
  have hz : value fs * 10 ^ (6 - fs.length) = 0 := by omega
  have hfs : value fs = 0 := by
    rcases Nat.mul_eq_zero.mp hz with h0 | h0
    · exact h0
    · exact absurd h0 (Nat.pos_iff_ne_zero.mp (Nat.pow_pos (by decide)))
  have hfs1 : fs = [0x30] := by
    have hrep : fs = List.replicate fs.length 0x30 := value_inj h.decimals (fun b hb => by rw [List.eq_of_mem_replicate hb]; decide) (by simp) (by rw [hfs, value_zeros])
    have h11 := h.one
    rcases h.last with hl | hl
    · rw [hrep, hl]; rfl
    · exfalso
      apply hl
      rw [hrep, show fs.length = (fs.length - 1) + 1 by omega, List.replicate_succ']
      simp
  exact ⟨hds, hfs1⟩

theorem val_f64 {b : Nat} {n : Int} (h : Number.val .f64 b = .fin n) : floatVal .f64 f64 b = .fin n := by
  unfold Number.val at h
  rw [show Ty.fmt .f64 = some f64 from rfl] at h
  exact h

end Decimal
end Duck
