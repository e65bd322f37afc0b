import Verif.Lemmas.UnicodePrev
/-! Lemmas for C33_step_back_sound: what a step back over well-formed bytes says about the bytes. -/
namespace Duck
namespace Unicode

/-- One round of the loop that does not end in an error -/
theorem prevGo_round {s : Mem} {pos i count shift c : Nat} {r : Int} {j : Nat}
    (h : prevGo s pos i count shift c = some (r, j)) (hr : r ≠ -1) :
    ∃ k b, i = k + 1 ∧ rd s k = some b ∧
      ((192 ≤ b ∧ countTrail b = count ∧ r = prevValue b count shift c ∧ j = k) ∨
       (128 ≤ b ∧ b < 192 ∧ prevGo s pos k (count + 1) (shift + 6) (c ||| (b % 64) <<< shift) = some (r, j))) := by
  cases i with
  | zero => simp [prevGo] at h; exact absurd h.1.symm hr
  | succ k =>
    rw [prevGo] at h
    cases hb : rd s k with
    | none => rw [hb] at h; cases h
    | some b =>
      rw [hb] at h
      simp only [Option.bind_some] at h
      refine ⟨k, b, rfl, hb, ?_⟩
      split at h
      · rename_i h80
        split at h
        · rename_i h40
          have h192 := (and40 (rd_lt hb) h80.1).1 h40
          split at h
          · rename_i hc
            simp only [Option.some.injEq, Prod.mk.injEq] at h
            exact .inl ⟨h192, hc.symm, h.1.symm, h.2.symm⟩
          · split at h <;> simp only [Option.some.injEq, Prod.mk.injEq] at h <;> exact absurd h.1.symm hr
        · rename_i h40
          have h192 : ¬ 192 ≤ b := mt (and40 (rd_lt hb) h80.1).2 h40
          split at h
          · rw [and63] at h; exact .inr ⟨h80.1, by omega, h⟩
          · simp only [Option.some.injEq, Prod.mk.injEq] at h; exact absurd h.1.symm hr
      · simp only [Option.some.injEq, Prod.mk.injEq] at h; exact absurd h.1.symm hr

/-- Four trail bytes or more are an error -/
theorem prevGo_long {s : Mem} {pos : Nat} {r : Int} {j : Nat} : ∀ {i count shift c : Nat}, 4 ≤ count →
    prevGo s pos i count shift c = some (r, j) → r = -1 := by
  intro i
  induction i with
  | zero => intro count shift c _ h; simp [prevGo] at h; exact h.1.symm
  | succ i ih =>
    intro count shift c h4 h
    by_cases hr : r = -1
    · exact hr
    · obtain ⟨k, b, hk, hb, ⟨-, -, h1, -⟩ | ⟨-, -, h1⟩⟩ := prevGo_round h hr
      · rw [h1]; unfold prevValue; simp only; rw [if_pos (.inl h4)]
      · cases hk; exact ih (by omega) h1

theorem prevValue_good {b count shift c : Nat} (h : prevValue b count shift c ≠ -1) :
    let v := c ||| maskLead b count <<< shift
    prevValue b count shift c = v ∧ Scalar v ∧ minLegal count ≤ v := by
  unfold prevValue at h ⊢
  simp only at h ⊢
  split at h
  · exact absurd rfl h
  · rename_i hc
    rw [if_neg hc]
    unfold Scalar
    exact ⟨rfl, by omega, by omega⟩

theorem take_bytes {s : Mem} : ∀ (l : List UInt8) (j : Nat), (∀ k (h : k < l.length), rd s (j + k) = some l[k].toNat) →
    (s.drop j).take l.length = l := by
  intro l j h
  apply List.ext_getElem?
  intro k
  by_cases hk : k < l.length
  · obtain ⟨u, hu, he⟩ := rd_eq (h k hk)
    rw [List.getElem?_take_of_lt hk, List.getElem?_drop, hu, List.getElem?_eq_getElem hk, UInt8.toNat_inj.mp he]
  · rw [List.getElem?_eq_none (by simp; omega), List.getElem?_eq_none (by omega)]

theorem ofNat_toNat {n : Nat} (h : n < 256) : (UInt8.ofNat n).toNat = n := by
  simp [UInt8.toNat_ofNat']; omega

/-- The bytes that were stepped over are the encoding of the result -/
theorem prev_sound {s : Mem} {i j : Nat} {r : Int} (hi : 0 < i) (h : prev s i = some (r, j)) (hr : r ≠ -1) :
    ∃ v : Nat, r = (v : Int) ∧ Scalar v ∧ j + (encNat v).length = i ∧ (s.drop j).take (encNat v).length = encNat v := by
  obtain ⟨i, rfl⟩ : ∃ n, i = n + 1 := ⟨i - 1, by omega⟩
  unfold prev at h
  rw [Nat.add_sub_cancel] at h
  cases hb : rd s i with
  | none => rw [hb] at h; cases h
  | some t =>
    rw [hb] at h
    have ht := rd_lt hb
    simp only [Option.bind_some] at h
    split at h
    · split at h
      · rename_i _ htr
        have htr := (isTrail_iff ht).1 htr
        rw [and63] at h
        obtain ⟨k, b, rfl, hk, ⟨hb1, hb2, hb3, hb4⟩ | ⟨hb1, hb2, h⟩⟩ := prevGo_round h hr
        · subst hb4
          have hlt := rd_lt hk
          obtain ⟨e1, e2, e3⟩ := prevValue_good (hb3 ▸ hr)
          rw [maskLead1, or_shl (k := 6) (by omega)] at e1 e2 e3
          rw [countTrail_eq] at hb2
          have hm : 0x80 ≤ t % 64 + b % 32 * 2 ^ 6 := e3
          have hl : b < 224 := by repeat' split at hb2
                                  all_goals omega
          generalize hv : t % 64 + b % 32 * 2 ^ 6 = v at *
          have he : encNat v = [UInt8.ofNat b, UInt8.ofNat t] := by
            unfold encNat; rw [if_neg (by omega), if_pos (by omega)]
            rw [show v / 64 % 32 + 192 = b by omega, show v % 64 + 128 = t by omega]
          refine ⟨v, by rw [hb3, e1], e2, by rw [he]; rfl, ?_⟩
          rw [he]
          refine take_bytes _ _ fun k h => ?_
          match k, h with
          | 0, _ => simpa [ofNat_toNat hlt] using hk
          | 1, _ => simpa [ofNat_toNat ht] using hb
        · obtain ⟨k, d, rfl, hd, ⟨hd1, hd2, hd3, hd4⟩ | ⟨hd1, hd2, h⟩⟩ := prevGo_round h hr
          · subst hd4
            have hlt := rd_lt hd
            have hlb := rd_lt hk
            rw [or_shl (k := 6) (by omega)] at hd3
            obtain ⟨e1, e2, e3⟩ := prevValue_good (hd3 ▸ hr)
            rw [maskLead2, or_shl (k := 12) (by omega)] at e1 e2 e3
            rw [countTrail_eq] at hd2
            have hm : 0x800 ≤ t % 64 + b % 64 * 2 ^ 6 + d % 16 * 2 ^ 12 := e3
            have hl : 224 ≤ d ∧ d < 240 := by repeat' split at hd2
                                              all_goals omega
            generalize hv : t % 64 + b % 64 * 2 ^ 6 + d % 16 * 2 ^ 12 = v at *
            have he : encNat v = [UInt8.ofNat d, UInt8.ofNat b, UInt8.ofNat t] := by
              unfold encNat; rw [if_neg (by omega), if_neg (by omega), if_pos (by omega)]
              rw [show v / 4096 % 16 + 224 = d by omega, show v / 64 % 64 + 128 = b by omega, show v % 64 + 128 = t by omega]
            refine ⟨v, by rw [hd3, e1], e2, by rw [he]; rfl, ?_⟩
            rw [he]
            refine take_bytes _ _ fun k h => ?_
            match k, h with
            | 0, _ => simpa [ofNat_toNat hlt] using hd
            | 1, _ => simpa [ofNat_toNat hlb] using hk
            | 2, _ => simpa [ofNat_toNat ht] using hb
          · obtain ⟨k, f, rfl, hf, ⟨hf1, hf2, hf3, hf4⟩ | ⟨hf1, hf2, h⟩⟩ := prevGo_round h hr
            · subst hf4
              have hlt := rd_lt hf
              have hlb := rd_lt hk
              have hld := rd_lt hd
              rw [or_shl (k := 6) (by omega), or_shl (k := 12) (by omega)] at hf3
              obtain ⟨e1, e2, e3⟩ := prevValue_good (hf3 ▸ hr)
              rw [maskLead3, or_shl (k := 18) (by omega)] at e1 e2 e3
              rw [countTrail_eq] at hf2
              have hm : 0x10000 ≤ t % 64 + b % 64 * 2 ^ 6 + d % 64 * 2 ^ 12 + f % 8 * 2 ^ 18 := e3
              have hl : 240 ≤ f ∧ f < 248 := by repeat' split at hf2
                                                all_goals omega
              generalize hv : t % 64 + b % 64 * 2 ^ 6 + d % 64 * 2 ^ 12 + f % 8 * 2 ^ 18 = v at *
              have he : encNat v = [UInt8.ofNat f, UInt8.ofNat d, UInt8.ofNat b, UInt8.ofNat t] := by
                unfold encNat; rw [if_neg (by omega), if_neg (by omega), if_neg (by omega)]
                rw [show v / 262144 % 8 + 240 = f by omega, show v / 4096 % 64 + 128 = d by omega,
                  show v / 64 % 64 + 128 = b by omega, show v % 64 + 128 = t by omega]
              refine ⟨v, by rw [hf3, e1], e2, by rw [he]; rfl, ?_⟩
              rw [he]
              refine take_bytes _ _ fun k h => ?_
              match k, h with
              | 0, _ => simpa [ofNat_toNat hlt] using hf
              | 1, _ => simpa [ofNat_toNat hld] using hd
              | 2, _ => simpa [ofNat_toNat hlb] using hk
              | 3, _ => simpa [ofNat_toNat ht] using hb
            · exact absurd (prevGo_long (by omega) h) hr
      · simp only [Option.some.injEq, Prod.mk.injEq] at h; exact absurd h.1.symm hr
    · simp only [Option.some.injEq, Prod.mk.injEq] at h
      obtain ⟨h1, rfl⟩ := h
      have he : encNat t = [UInt8.ofNat t] := by unfold encNat; rw [if_pos (by omega)]
      refine ⟨t, h1.symm, .inl (by omega), by rw [he]; rfl, ?_⟩
      rw [he]
      refine take_bytes _ _ fun k h => ?_
      match k, h with
      | 0, _ => simpa [ofNat_toNat ht] using hb

end Unicode
end Duck
