import Verif.Lemmas.StrToNum
/-! # C43 parsing numbers -/
namespace Duck
namespace Num
open Unicode

/-- **C43, partial.** After white space, a numeral is consumed exactly, up to the first byte that does not continue it,
    and yields the number it denotes: the exact integer, or the sign, integer part, fraction digits and exponent of which
    the floating point result is computed.  Missing: exponents with a sign, integer parts and exponents from 2^63 up and
    fractions of 18 digits and more (false, below), and the rounding of the floating point computation. -/
theorem C43_numeral_partial (ws : List UInt8) (hws : ∀ b ∈ ws, b = 0x20 ∨ (9 ≤ b.toNat ∧ b.toNat ≤ 13)) (neg plus : Bool)
    (ds : List UInt8) (hd : Digits ds) (hne : ds ≠ []) (h63 : value ds < 2 ^ 63)
    (frac : Option (List UInt8)) (hf : ∀ fs, frac = some fs → Digits fs ∧ fs.length ≤ 17)
    (exp : Option (Bool × List UInt8)) (hx : ∀ e, exp = some e → Digits e.2 ∧ value e.2 < 2 ^ 63)
    (rest : List UInt8) (hr : Ends frac exp rest) (r : List UInt8) :
    strtonum (ws ++ numeral neg plus ds frac exp ++ rest ++ 0 :: r) = some (meaning neg ds frac exp, rest ++ 0 :: r) := by
  obtain ⟨b, m, hbm, hb1, hb2⟩ : ∃ b m, rest ++ 0 :: r = b :: m ∧ ¬ (48 ≤ b.toNat ∧ b.toNat ≤ 57) ∧
      (exp = none → b ≠ 0x65 ∧ b ≠ 0x45 ∧ (frac = none → b ≠ 0x2e)) := by
    match rest, hr with
    | [], _ => exact ⟨0, r, rfl, by decide, fun _ => ⟨by decide, by decide, fun _ => by decide⟩⟩
    | b :: rest, hr => exact ⟨b, rest ++ 0 :: r, rfl, (hr b rfl).1, (hr b rfl).2⟩
  obtain ⟨b2, m2, hm2, h2, h2n, h2s⟩ := exp_head exp hb1 m
  have hexp := expPart_eq hx hb1 (fun h => ⟨(hb2 h).1, (hb2 h).2.1⟩) m
  rw [hm2] at hexp
  obtain ⟨fr, hfrac, hfn, hfs⟩ := fracPart_eq hf (b := b2) h2 (by
    intro hn
    by_cases he : exp = none
    · rw [h2n he]; exact (hb2 he).2.2 hn
    · rcases h2s he with h | h <;> rw [h] <;> decide) m2
  obtain ⟨b3, m3, hm3, h3⟩ := frac_head frac m2 h2
  rw [hm3] at hfrac
  have hdig := digits_eq hd (isDigit_false h3) m3 (some 0) (by intro a ha; cases ha; omega)
  rw [Option.bind_some] at hdig
  have h63' := h63
  unfold value at h63'
  rw [if_pos h63'] at hdig
  obtain ⟨d, ds', rfl⟩ : ∃ d ds', ds = d :: ds' := by
    match ds, hne with
    | d :: ds, _ => exact ⟨d, ds, rfl⟩
  have hd0 := hd d (by simp)
  have etext : ws ++ numeral neg plus (d :: ds') frac exp ++ rest ++ 0 :: r = ws ++ (signText neg plus ++ d :: (ds' ++ b3 :: m3)) := by
    rw [List.append_assoc (ws ++ _), hbm, numeral, ← hm3, ← hm2]
    simp
  have hsp : ∃ c t, signText neg plus ++ d :: (ds' ++ b3 :: m3) = c :: t ∧ isSpace c = false := by
    cases neg <;> cases plus
    · exact ⟨d, _, rfl, digit_not_space hd0⟩
    · exact ⟨0x2b, _, rfl, by decide⟩
    · exact ⟨0x2d, _, rfl, by decide⟩
    · exact ⟨0x2d, _, rfl, by decide⟩
  obtain ⟨c, t, ect, hc⟩ := hsp
  have hwsb : ∀ b ∈ ws, isSpace b = true := by
    intro b hb
    unfold isSpace
    rcases hws b hb with rfl | h
    · rfl
    · have h9 : (9 : UInt8) ≤ b := UInt8.le_iff_toNat_le.mpr h.1
      have h13 : b ≤ (13 : UInt8) := UInt8.le_iff_toNat_le.mpr h.2
      simp [h9, h13]
  rw [strtonum, etext, ect, skipWs_eq hwsb hc, ← ect, Option.bind_some, sign_eq neg plus hd0, Option.bind_some]
  simp only
  rw [← List.cons_append, hdig, Option.bind_some]
  simp only
  rw [hfrac, Option.bind_some]
  simp only
  rw [hexp, hbm]
  simp only [Option.map_some, Option.some.injEq, Prod.mk.injEq, and_true]
  change result neg (some (value (d :: ds'))) fr (exp.map fun e => some (value e.2)) = _
  cases frac with
  | none =>
    rw [hfn rfl]
    cases exp with
    | none => rfl
    | some e => rfl
  | some fs =>
    obtain ⟨dn, rfl⟩ := hfs fs rfl
    cases exp with
    | none => rfl
    | some e => rfl

/-- **C43.** On every C string the scan ends, at or before the terminator. -/
theorem C43_safe (s : List UInt8) :
    ∃ v k, k ≤ s.length ∧ strtonum (s ++ [0]) = some (v, s.drop k ++ [0]) := by
  obtain ⟨⟨v, m⟩, h1, h2, ⟨pre, h3⟩⟩ := strtonum_some (m := s ++ [0]) (by simp)
  have hl := congrArg List.length h3
  have hm : m ≠ [] := by rintro rfl; simp at h2
  have hml : 0 < m.length := List.length_pos_iff.mpr hm
  simp at hl
  refine ⟨v, pre.length, by omega, ?_⟩
  rw [h1]
  congr 2
  have : (s ++ [0]).drop pre.length = m := by rw [← h3]; exact List.drop_left
  rw [← this, List.drop_append_of_le_length (by omega)]

/-- "-12.5E3]": sign, 12, digits [5], exponent 3; and "  +007," -/
example : strtonum [0x2d, 0x31, 0x32, 0x2e, 0x35, 0x45, 0x33, 0x5d, 0] = some (.dbl true 12 [5] (some 3), [0x5d, 0]) ∧
    strtonum [0x20, 0x20, 0x2b, 0x30, 0x30, 0x37, 0x2c, 0] = some (.int 7, [0x2c, 0]) ∧
    Ends (some [0x35]) (some (true, [0x33])) [0x5d] ∧ Ends none none [0x2c] := by
  refine ⟨by decide +kernel, by decide +kernel, ?_, ?_⟩ <;> intro b hb <;> simp at hb <;> subst hb <;> decide

/-- **C43 (violated).** The sign of an exponent is not understood: in "1e-5" only "1e" is consumed and the value is 1. -/
theorem C43_exponent_fails : strtonum [0x31, 0x65, 0x2d, 0x35, 0] = some (.dbl false 1 [] (some 0), [0x2d, 0x35, 0]) := by
  decide +kernel

/-- **C43 (violated).** Integers from 2^63 up overflow, also "-9223372036854775808", the text of a valid `int64_t`. -/
theorem C43_overflow_fails (ds : List UInt8) (hd : Digits ds) (hne : ds ≠ []) (h63 : 2 ^ 63 ≤ value ds) (neg : Bool) (r : List UInt8) :
    strtonum (signText neg false ++ ds ++ 0 :: r) = some (.overflow, 0 :: r) := by
  have hdig := digits_eq hd (b := 0) (by decide) r (some 0) (by intro a ha; cases ha; omega)
  rw [Option.bind_some] at hdig
  have h63' : ¬ value ds < 2 ^ 63 := by omega
  unfold value at h63'
  rw [if_neg h63'] at hdig
  obtain ⟨d, ds', rfl⟩ : ∃ d ds', ds = d :: ds' := by
    match ds, hne with
    | d :: ds, _ => exact ⟨d, ds, rfl⟩
  have hd0 := hd d (by simp)
  have hsk : skipWs (signText neg false ++ d :: ds' ++ 0 :: r) = some (signText neg false ++ d :: ds' ++ 0 :: r) := by
    cases neg
    · simp [signText, skipWs, digit_not_space hd0]
    · rfl
  rw [strtonum, hsk, Option.bind_some, List.append_assoc, List.cons_append, sign_eq neg false hd0, Option.bind_some]
  simp only
  rw [← List.cons_append, hdig]
  simp [fracPart, expPart, result]

/-- "9223372036854775808" is such a numeral. -/
example : Digits [57, 50, 50, 51, 51, 55, 50, 48, 51, 54, 56, 53, 52, 55, 55, 53, 56, 48, 56] ∧
    value [57, 50, 50, 51, 51, 55, 50, 48, 51, 54, 56, 53, 52, 55, 55, 53, 56, 48, 56] = 2 ^ 63 := by
  constructor
  · unfold Digits; decide
  · decide

/-- **C43 (violated).** A fraction of 18 digits overflows. -/
theorem C43_fraction_fails : strtonum (0x30 :: 0x2e :: List.replicate 18 0x31 ++ [0]) = some (.overflow, [0]) := by decide +kernel

/-- **C43 (violated).** Text that is no number at all yields the integer zero, having consumed nothing. -/
theorem C43_no_number_fails : strtonum [0x61, 0x62, 0] = some (.int 0, [0x61, 0x62, 0]) ∧ strtonum [0] = some (.int 0, [0]) := by
  decide +kernel

end Num
end Duck
