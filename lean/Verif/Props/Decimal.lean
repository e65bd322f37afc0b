import Verif.Lemmas.Decimal
/-! # C101 floating point numbers as text -/
namespace Duck
namespace Decimal
open Num (Digits value signText)
open Number (Fmt Ty scale signBit)

/-- **C101.** The text of a finite number is a sign, digits, a point and one to six decimals, without zeros that say nothing, and differs
from the number by at most half a millionth.  (`n` is the number times 2^1074.) -/
theorem C101_text (t : Ty) (ht : t.fmt ≠ none) (b : Nat) (hb : b < 2 ^ t.bits) (n : Int) (hn : Number.val t b = .fin n) (s : List UInt8)
    (hs : getString (Number.scalar t b) = some s) :
    ∃ ds fs, Short ds fs ∧ s = text (signBit t b) ds fs ∧
      2 * (micros ds fs * scale) ≤ 2 * (n.natAbs * 10 ^ 6) + scale ∧ 2 * (n.natAbs * 10 ^ 6) ≤ 2 * (micros ds fs * scale) + scale := by
  obtain ⟨f, hf⟩ := Option.ne_none_iff_exists'.mp ht
  have hn' : Number.floatVal t f b = .fin n := by unfold Number.val at hn; rw [hf] at hn; exact hn
  have ok := Number.fmtOk hf
  obtain ⟨mag, m1, m2, m3⟩ := Number.floatVal_fin ok hn'
  have hna : n.natAbs = f.decode mag := by rw [m3, Number.natAbs_withSign]
  have hle : millionths n.natAbs / 10 ^ 6 < 10 ^ (400 + 1) := by
    rw [hna]
    exact Nat.lt_of_le_of_lt (millionths_le (decode_le hf m1)) big_lt
  obtain ⟨ds, fs, h1, h2, h3⟩ := exists_short _ hle
  have hv : value ds < 10 ^ (400 + 1) := by rw [h3]; exact hle
  have hp : printfF t f b = (if signBit t b then [0x2d] else []) ++ (ds ++ 0x2e :: (fs ++ List.replicate (6 - fs.length) 0x30)) := by
    rw [printfF_fin hn', ← h2, fixed_short h1 hv]
  change getString (newNumber t b) = some s at hs
  rw [getString_scalar hf hb] at hs
  unfold realText at hs
  split at hs
  · rw [hp, trim_short h1] at hs
    refine ⟨ds, fs, h1, (Option.some.inj hs).symm, ?_⟩
    rw [h2]
    exact roundEven_err _ Number.scale_pos
  · cases hs

/-- -2.5 in 32 bits; a third in 64 bits. -/
example : getString (Number.scalar .f32 0xc0200000) = some [0x2d, 0x32, 0x2e, 0x35] ∧ Number.val .f32 0xc0200000 = .fin (-5 * 2 ^ 1073) ∧
    getString (Number.scalar .f64 0x3fd5555555555555) = some [0x30, 0x2e, 0x33, 0x33, 0x33, 0x33, 0x33, 0x33] := by decide +kernel

/-- **C101, partial.** Numbers below 10^110 have a text.  Missing: larger ones (`C101_large_fails`). -/
theorem C101_defined_partial (t : Ty) (ht : t.fmt ≠ none) (b : Nat) (hb : b < 2 ^ t.bits) (n : Int) (hn : Number.val t b = .fin n)
    (hl : n.natAbs < 10 ^ 110 * scale) : ∃ s, getString (Number.scalar t b) = some s := by
  obtain ⟨f, hf⟩ := Option.ne_none_iff_exists'.mp ht
  have hn' : Number.floatVal t f b = .fin n := by unfold Number.val at hn; rw [hf] at hn; exact hn
  have hle : millionths n.natAbs / 10 ^ 6 < 10 ^ 111 := Nat.lt_of_le_of_lt (millionths_le (Nat.le_of_lt hl)) (by decide +kernel)
  obtain ⟨ds, fs, h1, h2, h3⟩ := exists_short _ (Nat.lt_trans hle (by decide +kernel))
  have := length_of_value h1 (n := 111) (by rw [h3]; exact hle) (by decide)
  refine ⟨text (signBit t b) ds fs, ?_⟩
  change getString (newNumber t b) = _
  rw [getString_scalar hf hb, realText_short hn' h1 h2.symm (by omega)]

/-- C101 is false of large numbers: the text of 2^400 does not fit the 120 bytes it is written to; infinities are "inf". -/
theorem C101_large_fails : getString (Number.scalar .f64 0x58f0000000000000) = none ∧ Number.val .f64 0x58f0000000000000 = .fin (2 ^ 400 * 2 ^ 1074) ∧
    getString (Number.scalar .f64 0x7ff0000000000000) = some [0x69, 0x6e, 0x66] ∧
    readNumber (fun _ => 0) [0x69, 0x6e, 0x66] = some (Number.scalar .i64 0) := by decide +kernel

/-- **C101, partial.** A decimal fraction of up to six decimals, read from a string and written again, is the same text, as long as the
numbers of the type are less than a millionth apart: below 2^33 for `double`, below 16 for `float`.  Missing: numbers that are not
the nearest to such a fraction (`C101_small_fails`). -/
theorem C101_back_partial (other : Bool → Unicode.Mem → Option Nat) (t : Ty) (ht : t.fmt ≠ none) (neg : Bool) (ds fs : List UInt8) (h : Short ds fs)
    (hv : value ds < fine t) :
    ∃ b, stringReal other t (text neg ds fs) = some b ∧ b < 2 ^ t.bits ∧ getString (Number.scalar t b) = some (text neg ds fs) := by
  obtain ⟨f, hf⟩ := Option.ne_none_iff_exists'.mp ht
  have ok := Number.fmtOk hf
  have hf6 := value_lt h.decimals
  have hlt : value fs * 10 ^ (6 - fs.length) < 10 ^ 6 := by
    have h6 := h.six
    have : 10 ^ 6 = 10 ^ fs.length * 10 ^ (6 - fs.length) := by rw [← Nat.pow_add]; congr 1; omega
    rw [this]
    exact Nat.mul_lt_mul_of_pos_right hf6 (Nat.pow_pos (by decide))
  have hk : micros ds fs < fine t * 10 ^ 6 := by
    have : (value ds + 1) * 10 ^ 6 ≤ fine t * 10 ^ 6 := Nat.mul_le_mul_right _ hv
    unfold micros; omega
  obtain ⟨h1, h2⟩ := millionths_nearest hf hk
  obtain ⟨g1, g2⟩ := Number.floatVal_addSign ok neg h1
  have g3 := (Number.addSign_facts ok neg (mag := nearest f (micros ds fs * scale) (10 ^ 6)) (by
    have := ok.size; rw [Nat.add_mul] at this; omega)).2.2
  refine ⟨_, stringReal_text other hf neg h, g1, ?_⟩
  change getString (newNumber t _) = _
  have hlen := length_of_value h (n := 10) (Nat.lt_of_lt_of_le hv (by cases t <;> decide)) (by decide)
  rw [getString_scalar hf g1, realText_short g2 h (by rw [Number.natAbs_withSign]; exact h2) (by omega), g3]

/-- "3.1" in 64 bits, "-0.000001" in 32 bits. -/
example : Short [0x33] [0x31] ∧ Short [0x30] [0x30, 0x30, 0x30, 0x30, 0x30, 0x31] ∧ value [0x33] < fine .f32 ∧
    stringReal (fun _ _ => none) .f64 (text false [0x33] [0x31]) = some 0x4008cccccccccccd ∧
    stringReal (fun _ _ => none) .f32 (text true [0x30] [0x30, 0x30, 0x30, 0x30, 0x30, 0x31]) = some 0xb58637bd :=
  ⟨⟨by unfold Digits; decide, by decide, by decide, by unfold Digits; decide, by decide, by decide, by decide⟩,
    ⟨by unfold Digits; decide, by decide, by decide, by unfold Digits; decide, by decide, by decide, by decide⟩, by decide, by decide +kernel, by decide +kernel⟩

/-- **C101, partial.** Numbers that are a multiple of 1/64, integers among them, are the number their text is read as. -/
theorem C101_exact_partial (other : Bool → Unicode.Mem → Option Nat) (t : Ty) (ht : t.fmt ≠ none) (b : Nat) (hb : b < 2 ^ t.bits) (j : Int)
    (hn : Number.val t b = .fin (j * 2 ^ 1068)) (s : List UInt8) (hs : getString (Number.scalar t b) = some s) : stringReal other t s = some b := by
  obtain ⟨ds, fs, h1, rfl, h3, h4⟩ := C101_text t ht b hb _ hn s hs
  obtain ⟨f, hf⟩ := Option.ne_none_iff_exists'.mp ht
  have ok := Number.fmtOk hf
  have hn' : Number.floatVal t f b = .fin (j * 2 ^ 1068) := by unfold Number.val at hn; rw [hf] at hn; exact hn
  obtain ⟨mag, m1, m2, m3⟩ := Number.floatVal_fin ok hn'
  rw [natAbs_64, scale_64] at h3 h4
  have hm : micros ds fs = j.natAbs * 15625 := int_of_err Number.scale_pos h3 h4
  have hd : f.decode mag = j.natAbs * 2 ^ 1068 := by rw [← natAbs_64, m3, Number.natAbs_withSign]
  rw [stringReal_text other hf _ h1, hm, ← scale_64, ← hd]
  have := nearest_scale f (f.decode mag) 1 (c := 10 ^ 6) (by decide)
  rw [Nat.one_mul] at this
  rw [this, ← encode_eq, Number.encode_decode ok m1, ← m2, addSign_signBit ok hb]

/-- 1024.015625 is a multiple of 1/64. -/
example : Number.val .f64 0x4090001000000000 = .fin (65537 * 2 ^ 1068) ∧
    getString (Number.scalar .f64 0x4090001000000000) = some [0x31, 0x30, 0x32, 0x34, 0x2e, 0x30, 0x31, 0x35, 0x36, 0x32, 0x35] := by decide +kernel

/-- C101 is false of other numbers: the text of a ten-millionth is "0.0", and that of 0.1 + 0.2 is "0.3", which is a different number. -/
theorem C101_small_fails : getString (Number.scalar .f64 0x3e7ad7f29abcaf48) = some [0x30, 0x2e, 0x30] ∧
    stringReal (fun _ _ => none) .f64 [0x30, 0x2e, 0x30] = some 0 ∧
    add 0x3fb999999999999a 0x3fc999999999999a = 0x3fd3333333333334 ∧
    getString (Number.scalar .f64 0x3fd3333333333334) = some [0x30, 0x2e, 0x33] ∧
    stringReal (fun _ _ => none) .f64 [0x30, 0x2e, 0x33] = some 0x3fd3333333333333 := by decide +kernel

/-- **C101, partial.** A decimal fraction of up to six decimals and below 2^33 - 1, read from a JSON text and written again, is the same
text.  Missing: the number need not be the nearest one (`C101_json_fails`). -/
theorem C101_json_partial (pow : Nat → Nat) (neg : Bool) (ds fs : List UInt8) (h : Short ds fs) (hv : value ds + 1 < 2 ^ 33) :
    ∃ b, readNumber pow (text neg ds fs) = some (Number.scalar .f64 b) ∧ b < 2 ^ 64 ∧ getString (Number.scalar .f64 b) = some (text neg ds fs) := by
  have hf : Ty.fmt .f64 = some f64 := rfl
  have ok := Number.fmtOk hf
  obtain ⟨h1, h2⟩ := millionths_sum (value ds) (fs.map fun b => b.toNat - 48) hv (by
    intro d hd
    obtain ⟨b, hb, rfl⟩ := List.mem_map.mp hd
    have := h.decimals b hb
    omega) (by rw [List.length_map]; exact h.six)
  rw [digitsNat_value, List.length_map] at h2
  obtain ⟨g1, g2⟩ := Number.floatVal_addSign ok neg h1
  have g3 := (Number.addSign_facts ok neg (mag := sumParts (value ds) (fs.map fun b => b.toNat - 48)) (by
    have := ok.size; rw [Nat.add_mul] at this; omega)).2.2
  refine ⟨_, readNumber_text pow neg h (by omega), g1, ?_⟩
  change getString (newNumber .f64 _) = _
  have hlen := length_of_value h (n := 10) (by omega) (by decide)
  rw [getString_scalar hf g1, realText_short g2 h (by rw [Number.natAbs_withSign]; exact h2) (by omega), g3]

/-- "-12.15" -/
example : Short [0x31, 0x32] [0x31, 0x35] ∧ readNumber (fun _ => 0) (text true [0x31, 0x32] [0x31, 0x35]) = some (Number.scalar .f64 0xc0284ccccccccccd) :=
  ⟨⟨by unfold Digits; decide, by decide, by decide, by unfold Digits; decide, by decide, by decide, by decide⟩, by decide +kernel⟩

/-- **C101, partial.** An integer below 2^63 in a `double`, written to JSON, is the number that is read from it. -/
theorem C101_json_integer_partial (pow : Nat → Nat) (b : Nat) (hb : b < 2 ^ 64) (j : Int) (hj : j.natAbs < 2 ^ 63) (hn : Number.val .f64 b = .fin (j * scale)) :
    ∃ s, getString (Number.scalar .f64 b) = some s ∧ readNumber pow s = some (Number.scalar .f64 b) := by
  have hf : Ty.fmt .f64 = some f64 := rfl
  have ok := Number.fmtOk hf
  obtain ⟨s, hs⟩ := C101_defined_partial .f64 (by decide) b hb _ hn (by
    rw [natAbs_scale]
    exact Nat.mul_lt_mul_of_pos_right (Nat.lt_trans hj (by decide)) Number.scale_pos)
  refine ⟨s, hs, ?_⟩
  obtain ⟨ds, fs, h1, rfl, h3, h4⟩ := C101_text .f64 (by decide) b hb _ hn s hs
  obtain ⟨mag, m1, m2, m3⟩ := Number.floatVal_fin ok (val_f64 hn)
  rw [natAbs_scale, Nat.mul_right_comm] at h3 h4
  have hm : micros ds fs = j.natAbs * 10 ^ 6 := int_of_err Number.scale_pos h3 h4
  have hd : f64.decode mag = j.natAbs * scale := by rw [← natAbs_scale, m3, Number.natAbs_withSign]
  obtain ⟨hds, hfs1⟩ := zero_fraction h1 hm
  rw [readNumber_text pow _ h1 (by rw [hds]; exact hj), hds, hfs1]
  simp only [List.map_cons, List.map_nil]
  rw [show (0x30 : UInt8).toNat - 48 = 0 from rfl]
  unfold sumParts
  rw [sum_zero, ← hd, Number.encode_decode ok m1]
  unfold add
  rw [decode_zero, Nat.add_zero, Number.encode_decode ok m1, ← m2, addSign_signBit ok hb]
  rfl

/-- -7 -/
example : Number.val .f64 0xc01c000000000000 = .fin (-7 * scale) ∧ getString (Number.scalar .f64 0xc01c000000000000) = some [0x2d, 0x37, 0x2e, 0x30] := by
  decide +kernel

/-- C101 is false of numbers in JSON texts: "0.15" is read as another number than a string "0.15" is, and the text of that number is
"0.15" too; so a number written to JSON is not the number read from it. -/
theorem C101_json_fails : stringReal (fun _ _ => none) .f64 [0x30, 0x2e, 0x31, 0x35] = some 0x3fc3333333333333 ∧
    getString (Number.scalar .f64 0x3fc3333333333333) = some [0x30, 0x2e, 0x31, 0x35] ∧
    readNumber (fun _ => 0) [0x30, 0x2e, 0x31, 0x35] = some (Number.scalar .f64 0x3fc3333333333334) ∧
    getString (Number.scalar .f64 0x3fc3333333333334) = some [0x30, 0x2e, 0x31, 0x35] := by decide +kernel

end Decimal
end Duck
