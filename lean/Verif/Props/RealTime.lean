import Verif.Lemmas.RealTime
import Verif.Spec.Clock
import Mathlib.Tactic.Linarith
import Mathlib.Tactic.NormNum
/-! C85, C91: times in floating point. -/
namespace Duck
namespace RealTime
set_option exponentiation.threshold 2000
open Number (scale val)
open Decimal (f64)
open RwLock (Time)

/-- **C85, with rounding.**  The end of a wait, for every double that is not negative and leads to a time in the range of time_t: it is well-formed, and it is the
    present time plus the timeout truncated to nanoseconds, up to 2^-24 ns (the exact end, in units of 2^-1074 ns, is `now.total * scale + n * 10^9`). -/
theorem C85_real_partial {now : Time} {b : Nat} {n : Int} (hb : val .f64 b = .fin n) (hn : 0 ≤ n) (h0 : 0 ≤ now.nsec) (hs : 0 ≤ now.sec)
    (hr : now.sec + n / scale < 2 ^ 63) :
    ∃ t, endOf now b = some t ∧ (0 ≤ t.nsec ∧ t.nsec ≤ 999999999) ∧
      t.total * scale ≤ (now.total * scale + n * 1000000000) + 2 ^ 1050 ∧ now.total * scale + n * 1000000000 < (t.total + 1) * scale + 2 ^ 1050 := by
  obtain ⟨t, h1, h2, h3⟩ := endOf_spec hb hn h0 hs hr
  obtain ⟨m, w, e, hm⟩ := finite_parts hb
  obtain ⟨_, f2, f3⟩ := fractionNsec_spec e hm
  refine ⟨t, h1, by simpa [RwLock.accepted] using h2, ?_⟩
  have hd := Nat.div_add_mod n.natAbs scale
  have hnn : n = (n.natAbs : Int) := (Int.natAbs_of_nonneg hn).symm
  rw [h3, hnn]
  simp only [Int.natAbs_natCast]
  generalize n.natAbs = N at *
  generalize hq : N / scale = q at *
  generalize hr' : N % scale = r at *
  generalize fractionNsec N = k at *
  have f2' : (k : Int) * scale ≤ r * 1000000000 + 2 ^ 1050 := by exact_mod_cast f2
  have f3' : (r : Int) * 1000000000 < (k + 1) * scale + 2 ^ 1050 := by exact_mod_cast f3
  have hd' : (N : Int) = scale * q + r := by exact_mod_cast hd.symm
  rw [hd']
  generalize (2 : Int) ^ 1050 = v at *
  generalize (scale : Int) = S at *
  constructor <;> nlinarith

/-- 2.5 seconds: 0x4004000000000000. -/
example : val .f64 0x4004000000000000 = .fin (5 * 2 ^ 1073) ∧ endOf ⟨1700000000, 750000000⟩ 0x4004000000000000 = some ⟨1700000003, 250000000⟩ := by decide +kernel

/-- The fraction just below one second is not rounded up to a second: 0x3fefffffffffffff. -/
example : endOf ⟨0, 0⟩ 0x3fefffffffffffff = some ⟨0, 999999999⟩ := by decide +kernel

/-- **C85, with rounding.**  A longer timeout never ends earlier. -/
theorem C85_order_partial {now : Time} {b b' : Nat} {n n' : Int} (hb : val .f64 b = .fin n) (hb' : val .f64 b' = .fin n') (hn : 0 ≤ n) (hle : n ≤ n')
    (h0 : 0 ≤ now.nsec) (hs : 0 ≤ now.sec) (hr : now.sec + n' / scale < 2 ^ 63) :
    ∃ t t', endOf now b = some t ∧ endOf now b' = some t' ∧ t.total ≤ t'.total := by
  have hsp : (0 : Int) < scale := Int.natCast_pos.mpr scale_pos
  have hr1 : now.sec + n / scale < 2 ^ 63 := by
    have := Int.ediv_le_ediv hsp hle
    omega
  obtain ⟨t, h1, _, h3⟩ := endOf_spec hb hn h0 hs hr1
  obtain ⟨t', h1', _, h3'⟩ := endOf_spec hb' (by omega) h0 hs hr
  refine ⟨t, t', h1, h1', ?_⟩
  rw [h3, h3']
  obtain ⟨m, w, e, hm⟩ := finite_parts hb
  obtain ⟨m', w', e', hm'⟩ := finite_parts hb'
  have hN : n.natAbs ≤ n'.natAbs := by omega
  rcases Nat.lt_or_eq_of_le (Nat.div_le_div_right (c := scale) hN) with hlt | heq
  · have := (fractionNsec_spec e hm).1
    generalize n.natAbs / scale = x at *
    generalize n'.natAbs / scale = y at *
    omega
  · have hmod : n.natAbs % scale ≤ n'.natAbs % scale := by
      have d1 := Nat.div_add_mod n.natAbs scale
      have d2 := Nat.div_add_mod n'.natAbs scale
      rw [heq] at d1
      omega
    have := fractionNsec_mono e hm e' hm' hmod
    rw [heq]
    omega

example : val .f64 0x3ff0000000000000 = .fin (2 ^ 1074) ∧ val .f64 0x4004000000000000 = .fin (5 * 2 ^ 1073) := by decide +kernel

/-- **C85 (violated), with rounding.**  A timeout of -0.5 seconds (0xbfe0000000000000) at 100 ns past the second makes a malformed time; infinity and times beyond
    the range of time_t are undefined behaviour. -/
theorem C85_real_fails : endOf ⟨1700000000, 100⟩ 0xbfe0000000000000 = some ⟨1700000000, -499999900⟩ ∧ endOf ⟨1700000000, 100⟩ 0x7ff0000000000000 = none ∧
    endOf ⟨1700000000, 100⟩ 0x43e0000000000000 = none := by decide +kernel

/-- **C91 on POSIX, with rounding.**  From 2001 until 2^33 seconds later, the date, rounded to microseconds, is the exact reading of the clock: the time since the
    start of 2001 in microseconds. -/
theorem C91_real_partial {sec usec : Nat} (h1 : 978307200 ≤ sec) (h2 : sec - 978307200 + 1 ≤ 2 ^ 33) (hu : usec < 10 ^ 6) :
    (Number.roundEven (f64.decode (date sec usec) * 10 ^ 6) scale : Int) * 10 = (sec : Int) * 10000000 + usec * 10 - Clock.ticksBetween 1970 2001 := by
  have := millionths_date h1 h2 hu
  unfold Decimal.millionths at this
  rw [this, show Clock.ticksBetween 1970 2001 = 9783072000000000 by decide]
  push_cast
  omega

/-- 2023-11-14 22:13:20.123456: the date is not a whole number of microseconds, but the nearest double to it. -/
example : f64.decode (date 1700000000 123456) * 10 ^ 6 ≠ 721692800123456 * scale ∧ Number.roundEven (f64.decode (date 1700000000 123456) * 10 ^ 6) scale = 721692800123456 := by
  decide +kernel

/-- **C91 on POSIX, with rounding.**  A later reading of the clock is a greater date. -/
theorem C91_real_order_partial {sec usec sec' usec' : Nat} (h1 : 978307200 ≤ sec) (h2 : sec - 978307200 + 1 ≤ 2 ^ 33) (hu : usec < 10 ^ 6)
    (h1' : 978307200 ≤ sec') (h2' : sec' - 978307200 + 1 ≤ 2 ^ 33) (hu' : usec' < 10 ^ 6) :
    f64.decode (date sec usec) < f64.decode (date sec' usec') ↔ sec < sec' ∨ (sec = sec' ∧ usec < usec') := by
  have e := millionths_date h1 h2 hu
  have e' := millionths_date h1' h2' hu'
  constructor
  · intro h
    have hm := millionths_mono (Nat.le_of_lt h)
    rw [e, e'] at hm
    by_cases hs : sec = sec'
    · subst hs
      refine Or.inr ⟨rfl, Nat.lt_of_le_of_ne (by omega) ?_⟩
      rintro rfl
      exact absurd h (Nat.lt_irrefl _)
    · left; omega
  · intro h
    apply Classical.byContradiction
    intro hc
    have hm := millionths_mono (Nat.le_of_not_lt hc)
    rw [e, e'] at hm
    omega

example : f64.decode (date 1700000000 999999) < f64.decode (date 1700000001 0) := by decide +kernel

end RealTime
end Duck
