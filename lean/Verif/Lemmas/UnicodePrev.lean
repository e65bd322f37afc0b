import Verif.Lemmas.UnicodeScan
/-! Helper lemmas for C33 and C35: stepping backwards and searching for characters. -/
namespace Duck
namespace Unicode

theorem and40 {b : Nat} (h : b < 256) (h1 : 128 ≤ b) : (b &&& 0x40 ≠ 0) ↔ 192 ≤ b := by
  have : ∀ b, b < 256 → 128 ≤ b → ((b &&& 0x40 ≠ 0) ↔ 192 ≤ b) := by decide +kernel
  exact this b h h1

theorem prevGo_spec {s : Mem} {pos : Nat} : ∀ {i count shift c : Nat} {r : Int} {j : Nat}, 1 ≤ count →
    prevGo s pos i count shift c = some (r, j) →
    (j = pos ∧ r = -1) ∨ (j < i ∧ (r = -1 ∨ 128 ≤ r) ∧ ∀ k, j ≤ k → k < i → ∃ b, rd s k = some b ∧ 128 ≤ b) := by
  intro i
  induction i with
  | zero => intro count shift c r j _ h; simp [prevGo] at h; exact Or.inl ⟨h.2.symm, h.1.symm⟩
  | succ i ih =>
    intro count shift c r j hc h
    rw [prevGo] at h
    cases hb : rd s i with
    | none => rw [hb] at h; cases h
    | some b =>
      rw [hb] at h
      simp only [Option.bind_some] at h
      split at h
      · next h80 =>
        have here : ∀ k, i ≤ k → k < i + 1 → ∃ b, rd s k = some b ∧ 128 ≤ b := by
          intro k k1 k2
          have : k = i := by omega
          subst this; exact ⟨b, hb, h80.1⟩
        split at h
        · split at h
          · simp only [Option.some.injEq, Prod.mk.injEq] at h
            refine Or.inr ⟨by omega, ?_, h.2 ▸ here⟩
            rw [← h.1]
            unfold prevValue
            simp only
            split
            · exact Or.inl rfl
            · next hv =>
              have : minLegal count ≥ 128 := by
                match count, hc with
                | 1, _ => decide
                | 2, _ => decide
                | n + 3, _ => show 0x10000 ≥ 128; decide
              omega
          · split at h
            · simp only [Option.some.injEq, Prod.mk.injEq] at h
              exact Or.inr ⟨by omega, Or.inl h.1.symm, h.2 ▸ here⟩
            · simp only [Option.some.injEq, Prod.mk.injEq] at h; exact Or.inl ⟨h.2.symm, h.1.symm⟩
        · split at h
          · rcases ih (by omega) h with h | ⟨h1, h2, h3⟩
            · exact Or.inl h
            · refine Or.inr ⟨by omega, h2, fun k k1 k2 => ?_⟩
              rcases Nat.lt_or_ge k i with hk | hk
              · exact h3 k k1 hk
              · exact here k hk k2
          · simp only [Option.some.injEq, Prod.mk.injEq] at h; exact Or.inl ⟨h.2.symm, h.1.symm⟩
      · simp only [Option.some.injEq, Prod.mk.injEq] at h; exact Or.inl ⟨h.2.symm, h.1.symm⟩

/-- A backward step is over one ASCII byte, or over bytes that are all 0x80 or more. -/
theorem prev_spec {s : Mem} {i j : Nat} {r : Int} (hi : 0 < i) (h : prev s i = some (r, j)) :
    j < i ∧ ((j = i - 1 ∧ ∃ b, rd s j = some b ∧ b < 128 ∧ r = b) ∨
      ((r = -1 ∨ 128 ≤ r) ∧ ∀ k, j ≤ k → k < i → ∃ b, rd s k = some b ∧ 128 ≤ b)) := by
  unfold prev at h
  cases hb : rd s (i - 1) with
  | none => rw [hb] at h; cases h
  | some b =>
    rw [hb] at h
    simp only [Option.bind_some] at h
    split at h
    · next h80 =>
      have here : ∀ k, i - 1 ≤ k → k < i → ∃ b, rd s k = some b ∧ 128 ≤ b := by
        intro k k1 k2
        have : k = i - 1 := by omega
        subst this; exact ⟨b, hb, h80⟩
      split at h
      · rcases prevGo_spec (by omega) h with ⟨h1, h2⟩ | ⟨h1, h2, h3⟩
        · exact ⟨by omega, Or.inr ⟨Or.inl h2, h1 ▸ here⟩⟩
        · refine ⟨by omega, Or.inr ⟨h2, fun k k1 k2 => ?_⟩⟩
          rcases Nat.lt_or_ge k (i - 1) with hk | hk
          · exact h3 k k1 hk
          · exact here k hk k2
      · simp only [Option.some.injEq, Prod.mk.injEq] at h
        exact ⟨by omega, Or.inr ⟨Or.inl h.1.symm, h.2 ▸ here⟩⟩
    · next h80 =>
      simp only [Option.some.injEq, Prod.mk.injEq] at h
      exact ⟨by omega, Or.inl ⟨h.2.symm, b, h.2 ▸ hb, by omega, h.1.symm⟩⟩

theorem prevGo_some {s : Mem} {pos : Nat} : ∀ {i count shift c : Nat}, i ≤ s.length →
    ∃ r, prevGo s pos i count shift c = some r := by
  intro i
  induction i with
  | zero => intro count shift c _; exact ⟨_, rfl⟩
  | succ i ih =>
    intro count shift c h
    rw [prevGo, rd_some (show i < s.length by omega)]
    simp only [Option.bind_some]
    repeat' split
    all_goals first | exact ⟨_, rfl⟩ | exact ih (by omega)

theorem prev_some {s : Mem} {i : Nat} (h0 : 0 < i) (h : i ≤ s.length) : ∃ r, prev s i = some r := by
  rw [prev, rd_some (show i - 1 < s.length by omega)]
  simp only [Option.bind_some]
  repeat' split
  · exact prevGo_some (by omega)
  · exact ⟨_, rfl⟩
  · exact ⟨_, rfl⟩

/-- Searching backwards for an ASCII character finds the last byte with that value. -/
theorem ustrrchrGo_ascii {s : Mem} {ch : Nat} (hch : ch < 128) : ∀ {fuel i : Nat}, i ≤ s.length → i ≤ fuel →
    ∃ r, ustrrchrGo s (ch : Int) fuel i = some r ∧
      (∀ k, r = some k → k < i ∧ rd s k = some ch ∧ ∀ j, k < j → j < i → rd s j ≠ some ch) ∧
      (r = none → ∀ j, j < i → rd s j ≠ some ch) := by
  intro fuel
  induction fuel with
  | zero =>
    intro i _ hf
    refine ⟨none, ?_, by simp, fun _ j hj => by omega⟩
    rw [ustrrchrGo.eq_def, if_neg (by omega)]
  | succ fuel ih =>
    intro i hi hf
    by_cases h0 : i > 0
    · obtain ⟨⟨r, j⟩, hp⟩ := prev_some h0 hi
      obtain ⟨hj, hcase⟩ := prev_spec h0 hp
      rw [ustrrchrGo.eq_def, if_pos h0]
      simp only [hp, Option.bind_some]
      by_cases he : r = ch
      · rw [if_pos he]
        refine ⟨_, rfl, fun k hk => ?_, by simp⟩
        simp only [Option.some.injEq] at hk
        subst hk
        rcases hcase with ⟨h1, b, hb, -, hr⟩ | ⟨h1, -⟩
        · refine ⟨hj, by rw [hb]; congr 1; omega, fun j' a1 a2 => by omega⟩
        · omega
      · rw [if_neg he]
        obtain ⟨r', h1, h2, h3⟩ := ih (show j ≤ s.length by omega) (by omega)
        have skip : ∀ k, j ≤ k → k < i → rd s k ≠ some ch := by
          intro k k1 k2 hk
          rcases hcase with ⟨h1, b, hb, -, hr⟩ | ⟨-, h2⟩
          · have : k = j := by omega
            subst this; rw [hb] at hk; simp only [Option.some.injEq] at hk; exact he (by omega)
          · obtain ⟨b, hb, h128⟩ := h2 k k1 k2
            rw [hb] at hk; simp only [Option.some.injEq] at hk; omega
        refine ⟨r', h1, fun k hk => ?_, fun hr k hk => ?_⟩
        · obtain ⟨a1, a2, a3⟩ := h2 k hk
          refine ⟨by omega, a2, fun j' b1 b2 => ?_⟩
          rcases Nat.lt_or_ge j' j with c | c
          · exact a3 j' b1 c
          · exact skip j' c b2
        · rcases Nat.lt_or_ge k j with c | c
          · exact h3 hr k c
          · exact skip k c hk
    · have : i = 0 := by omega
      subst this
      exact ⟨none, by rw [ustrrchrGo.eq_def, if_neg (by omega)], by simp, fun _ j hj => by omega⟩

theorem strlen_eq {s : List UInt8} (h : NulFree s) (r : Mem) : strlen (s ++ 0 :: r) = some s.length := by
  rw [strlen, if_pos (by simp)]
  have : (s ++ 0 :: r).takeWhile (· != 0) = s := by
    induction s with
    | nil => simp
    | cons b s ih =>
      have hb : b ≠ 0 := fun e => h (by simp [e])
      simp only [List.cons_append]
      rw [List.takeWhile_cons_of_pos (by simpa using hb), ih (fun e => h (by simp [e]))]
  rw [this]

/-! Stepping back over a well-formed character -/

theorem or_shl {c x k : Nat} (h : c < 2 ^ k) : c ||| x <<< k = c + x * 2 ^ k := by
  rw [Nat.shiftLeft_eq, or_top h]

theorem rd_app {p m : Mem} (k : Nat) : rd (p ++ m) (p.length + k) = rd m k := by
  simp [rd, List.getElem?_append_right]

theorem rd_app0 {p m : Mem} : rd (p ++ m) p.length = rd m 0 := by
  simpa using rd_app (p := p) (m := m) 0

theorem prevValue_ok {b count shift c v : Nat} (hv : Scalar v) (h4 : count < 4) (hm : minLegal count ≤ v)
    (e : c ||| maskLead b count <<< shift = v) : prevValue b count shift c = v := by
  unfold prevValue
  unfold Scalar at hv
  simp only [e]
  rw [if_neg (by omega)]

theorem prevGo_lead {s : Mem} {pos i count shift c b v : Nat} (hb : rd s i = some b) (h1 : 192 ≤ b) (h2 : b < 0xfe)
    (hct : countTrail b = count) (hv : Scalar v) (h4 : count < 4) (hm : minLegal count ≤ v)
    (e : c ||| maskLead b count <<< shift = v) : prevGo s pos (i + 1) count shift c = some ((v : Int), i) := by
  rw [prevGo, hb]
  simp only [Option.bind_some]
  rw [if_pos (by omega), if_pos ((and40 (rd_lt hb) (by omega)).mpr h1), if_pos hct.symm, prevValue_ok hv h4 hm e]

theorem prevGo_trail {s : Mem} {pos i count shift c b : Nat} (hb : rd s i = some b) (h1 : 128 ≤ b) (h2 : b < 192)
    (h5 : count < 5) : prevGo s pos (i + 1) count shift c =
      prevGo s pos i (count + 1) (shift + 6) (c ||| (b % 64) <<< shift) := by
  rw [prevGo, hb]
  simp only [Option.bind_some]
  rw [if_pos (by omega), if_neg (mt (and40 (rd_lt hb) h1).mp (by omega)), if_pos h5, and63]

theorem prev_trail {s : Mem} {i b : Nat} (hb : rd s i = some b) (h1 : 128 ≤ b) (h2 : b < 192) :
    prev s (i + 1) = prevGo s i i 1 6 (b % 64) := by
  rw [prev, Nat.add_sub_cancel, hb]
  simp only [Option.bind_some]
  rw [if_pos (by omega), if_pos ((isTrail_iff (rd_lt hb)).mpr ⟨h1, h2⟩), and63]

theorem prev_enc {v : Nat} (hv : Scalar v) (p r : Mem) :
    prev (p ++ (encNat v ++ r)) (p.length + (encNat v).length) = some ((v : Int), p.length) := by
  have hs := hv
  unfold Scalar at hv
  unfold encNat
  split
  · next c1 =>
    have e0 : rd (p ++ ([UInt8.ofNat v] ++ r)) p.length = some v := by
      rw [rd_app0]; exact rd0 _ _ (by omega)
    rw [List.length_singleton, prev, Nat.add_sub_cancel, e0]
    simp only [Option.bind_some]
    rw [if_neg (by omega)]
  · next c1 =>
    split
    · next c2 =>
      generalize hm : p ++ ([UInt8.ofNat (v / 64 % 32 + 192), UInt8.ofNat (v % 64 + 128)] ++ r) = m
      have e0 : rd m p.length = some (v / 64 % 32 + 192) := by
        rw [← hm, rd_app0]; exact rd0 _ _ (by omega)
      have e1 : rd m (p.length + 1) = some (v % 64 + 128) := by
        rw [← hm, rd_app]; simp only [List.cons_append, rd_cons_succ]; exact rd0 _ _ (by omega)
      show prev m (p.length + 1 + 1) = _
      rw [prev_trail e1 (by omega) (by omega), prevGo_lead e0 (by omega) (by omega) ?_ hs (by omega) ?_ ?_]
      · rw [countTrail_eq, if_neg (by omega), if_pos (by omega)]
      · show 0x80 ≤ v; omega
      · rw [maskLead1, or_shl (by omega)]; omega
    · next c2 =>
      split
      · next c3 =>
        generalize hm : p ++ ([UInt8.ofNat (v / 4096 % 16 + 224), UInt8.ofNat (v / 64 % 64 + 128), UInt8.ofNat (v % 64 + 128)] ++ r) = m
        have e0 : rd m p.length = some (v / 4096 % 16 + 224) := by
          rw [← hm, rd_app0]; exact rd0 _ _ (by omega)
        have e1 : rd m (p.length + 1) = some (v / 64 % 64 + 128) := by
          rw [← hm, rd_app]; simp only [List.cons_append, rd_cons_succ]; exact rd0 _ _ (by omega)
        have e2 : rd m (p.length + 2) = some (v % 64 + 128) := by
          rw [← hm, rd_app]; simp only [List.cons_append, rd_cons_succ]; exact rd0 _ _ (by omega)
        show prev m (p.length + 2 + 1) = _
        rw [prev_trail e2 (by omega) (by omega), prevGo_trail e1 (by omega) (by omega) (by omega),
          prevGo_lead e0 (by omega) (by omega) ?_ hs (by omega) ?_ ?_]
        · rw [countTrail_eq, if_neg (by omega), if_neg (by omega), if_pos (by omega)]
        · show 0x800 ≤ v; omega
        · rw [maskLead2, or_shl (k := 6) (by omega), or_shl (k := 12) (by omega)]; omega
      · next c3 =>
        generalize hm : p ++ ([UInt8.ofNat (v / 262144 % 8 + 240), UInt8.ofNat (v / 4096 % 64 + 128), UInt8.ofNat (v / 64 % 64 + 128), UInt8.ofNat (v % 64 + 128)] ++ r) = m
        have e0 : rd m p.length = some (v / 262144 % 8 + 240) := by
          rw [← hm, rd_app0]; exact rd0 _ _ (by omega)
        have e1 : rd m (p.length + 1) = some (v / 4096 % 64 + 128) := by
          rw [← hm, rd_app]; simp only [List.cons_append, rd_cons_succ]; exact rd0 _ _ (by omega)
        have e2 : rd m (p.length + 2) = some (v / 64 % 64 + 128) := by
          rw [← hm, rd_app]; simp only [List.cons_append, rd_cons_succ]; exact rd0 _ _ (by omega)
        have e3 : rd m (p.length + 3) = some (v % 64 + 128) := by
          rw [← hm, rd_app]; simp only [List.cons_append, rd_cons_succ]; exact rd0 _ _ (by omega)
        show prev m (p.length + 3 + 1) = _
        rw [prev_trail e3 (by omega) (by omega), prevGo_trail e2 (by omega) (by omega) (by omega),
          prevGo_trail e1 (by omega) (by omega) (by omega),
          prevGo_lead e0 (by omega) (by omega) ?_ hs (by omega) ?_ ?_]
        · rw [countTrail_eq, if_neg (by omega), if_neg (by omega), if_neg (by omega), if_pos (by omega)]
        · show 0x10000 ≤ v; omega
        · rw [maskLead3, or_shl (k := 6) (by omega), or_shl (k := 12) (by omega), or_shl (k := 18) (by omega)]; omega

theorem prev_char (c : Char) (p r : Mem) :
    prev (p ++ (String.utf8EncodeChar c ++ r)) (p.length + (String.utf8EncodeChar c).length)
      = some ((c.toNat : Int), p.length) := prev_enc (char_scalar c) p r

/-- Searching backwards in a text. -/
theorem ustrrchrGo_text (ch : Char) : ∀ (n : Nat) (cs : List Char) (fuel : Nat), cs.length = n → n ≤ fuel →
    ∀ (t : Mem), ustrrchrGo (utf8 cs ++ t) (ch.toNat : Int) fuel (utf8 cs).length =
      some ((firstAt [ch] cs.reverse).map fun k => (utf8 (cs.take (cs.length - 1 - k))).length) := by
  intro n
  induction n with
  | zero =>
    intro cs fuel hn _ t
    have : cs = [] := List.length_eq_zero_iff.mp hn
    subst this
    rw [ustrrchrGo.eq_def]
    simp [utf8, firstAt]
  | succ n ih =>
    intro cs fuel hn hf t
    obtain ⟨ds, c, rfl⟩ : ∃ ds c, cs = ds ++ [c] :=
      ⟨cs.dropLast, cs.getLast (by intro e; subst e; simp at hn), (List.dropLast_concat_getLast _).symm⟩
    have hl : ds.length = n := by simpa using hn
    have hu : utf8 (ds ++ [c]) = utf8 ds ++ String.utf8EncodeChar c := by simp [utf8]
    have hpos : 0 < (String.utf8EncodeChar c).length := List.length_pos_iff.mpr (enc_ne_nil c)
    match fuel, hf with
    | fuel + 1, hf =>
      rw [ustrrchrGo.eq_def, if_pos (by rw [hu, List.length_append]; omega)]
      simp only
      rw [hu, List.append_assoc, List.length_append, prev_char]
      simp only [Option.bind_some]
      rw [List.reverse_append, List.reverse_singleton, List.singleton_append, firstAt]
      have hpre : ([ch] <+: c :: ds.reverse) ↔ c = ch := by
        rw [List.cons_prefix_cons]; simp [eq_comm]
      by_cases he : c = ch
      · subst he
        simp [hpre, hl]
      · have hne : (c.toNat : Int) ≠ (ch.toNat : Int) := by
          intro e; exact he (Char.toNat_inj.mp (by omega))
        rw [if_neg hne, if_neg (mt hpre.mp he), ih ds fuel hl (by omega)]
        cases hfa : firstAt [ch] ds.reverse with
        | none => rfl
        | some k =>
          simp only [Option.map_some, List.length_append, List.length_singleton, Option.some.injEq]
          have e : ds.length + 1 - 1 - (k + 1) = ds.length - 1 - k := by omega
          rw [e, List.take_append_of_le_length (by omega)]

/-- Searching forwards: the position *after* the character. -/
theorem ustrchrGo_scans {s : List UInt8} {cs} (h : Scans s cs) (ch : Int) : ∀ (m r : Mem) (fuel i : Nat),
    m.drop i = s ++ 0 :: r → cs.length ≤ fuel →
    ustrchrGo m ch fuel i = some ((firstAt [ch] (codes cs)).map fun k => i + ((cs.take (k + 1)).flatMap (·.2)).length) := by
  induction h with
  | nil =>
    intro m r fuel i hm hf
    rw [ustrchrGo.eq_def, show rd m i = some 0 by rw [← Nat.add_zero i, ← rd_drop, hm]; rfl]
    simp [codes, firstAt]
  | cons c bytes rest cs hne hsc hr ih =>
    intro m r fuel i hm hf
    have hst := step_of_scan hne hsc
    obtain ⟨b, hb, h0⟩ := hst.rd r
    match fuel, hf with
    | fuel + 1, hf =>
      rw [ustrchrGo.eq_def, show rd m i = some b by rw [← Nat.add_zero i, ← rd_drop, hm]; exact hb]
      simp only [Option.bind_some, if_neg h0]
      rw [hm, hst.next r]
      simp only [Option.bind_some]
      have hcod : codes ((c, bytes) :: cs) = c :: codes cs := rfl
      have hpre : ([ch] <+: c :: codes cs) ↔ c = ch := by rw [List.cons_prefix_cons]; simp [eq_comm]
      rw [hcod, firstAt]
      by_cases he : c = ch
      · subst he; simp [hpre]
      · rw [if_neg he, if_neg (mt hpre.mp he),
          ih m r fuel (i + bytes.length) (by rw [← List.drop_drop, hm, List.append_assoc, List.drop_left]) (by simpa using hf)]
        cases firstAt [ch] (codes cs) with
        | none => rfl
        | some k => simp; omega

end Unicode
end Duck
