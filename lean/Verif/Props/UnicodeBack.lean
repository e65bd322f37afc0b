import Verif.Lemmas.UnicodeBack
/-! C33, stepping back: the converse of `C33_step_back`. -/
namespace Duck
namespace Unicode

/-- **C33.** Stepping back from any position in any bytes gives -1, or a character whose encoding is exactly the bytes stepped
    over: overlong forms, surrogates, values above 0x10ffff and stray bytes are never taken for characters. -/
theorem C33_step_back_sound (s : List UInt8) (i j : Nat) (r : Int) (hi : 0 < i) (h : prev s i = some (r, j)) :
    r = -1 ∨ ∃ c : Char, r = (c.toNat : Int) ∧ j + (String.utf8EncodeChar c).length = i ∧
      (s.drop j).take (i - j) = String.utf8EncodeChar c := by
  by_cases hr : r = -1
  · exact .inl hr
  · obtain ⟨v, h1, h2, h3, h4⟩ := prev_sound hi h hr
    obtain ⟨c, hc⟩ := scalar_char h2
    refine .inr ⟨c, by rw [hc, h1], by rw [enc_eq, hc, h3], ?_⟩
    rw [enc_eq, hc, ← h4]
    congr 1
    omega

/-- A euro sign is stepped over; an overlong slash and a surrogate are not characters -/
example : prev [0x41, 0xe2, 0x82, 0xac] 4 = some (0x20ac, 1) ∧ (∃ j, prev [0x41, 0xc0, 0xaf] 3 = some (-1, j)) ∧
    ∃ j, prev [0x41, 0xed, 0xa0, 0x80] 4 = some (-1, j) := ⟨by decide, ⟨_, rfl⟩, ⟨_, rfl⟩⟩

end Unicode
end Duck
