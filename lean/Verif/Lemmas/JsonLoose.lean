import Verif.Lemmas.JsonSafe
import Verif.Spec.JsonLoose
/-! Lemmas for the converse half of C63: scanning, both ways. -/
namespace Duck
namespace Json
open Unicode Num

abbrev H0 : Host := strict none

theorem isSpace_iff (b : UInt8) : isSpace b = true ↔ Blank b := by
  have h : ∀ n : Nat, n < 256 → (isSpace (UInt8.ofNat n) = true ↔ (n = 32 ∨ (9 ≤ n ∧ n ≤ 13))) := by decide +kernel
  have := h b.toNat b.toNat_lt
  rw [UInt8.ofNat_toNat] at this
  exact this

theorem isToken_iff {b : UInt8} (h0 : b ≠ 0) : isToken b = true ↔ Punct b := by
  unfold isToken Punct
  simp [h0]

theorem punct_ascii {b : UInt8} (h : Punct b) : b.toNat < 128 ∧ b ≠ 0 ∧ ¬ Blank b ∧ b.toNat ≠ 34 ∧ isToken b = true := by
  unfold Punct at h
  simp only [List.mem_cons, List.not_mem_nil, or_false] at h
  rcases h with rfl | rfl | rfl | rfl | rfl | rfl <;> refine ⟨by decide, by decide, ?_, by decide, by decide⟩ <;> unfold Blank <;> decide

theorem blank_ascii {b : UInt8} (h : Blank b) : b.toNat < 128 ∧ b ≠ 0 := by
  unfold Blank at h
  refine ⟨by omega, ?_⟩
  rintro rfl
  revert h; decide

/-- A scan at a nonzero byte. -/
theorem chunk {b : UInt8} (h0 : b ≠ 0) (s : List UInt8) : ∃ (c : Int) (t s' : List UInt8), s = t ++ s' ∧
    (∀ x ∈ t, IsTrailByte x) ∧ ustrscan (b :: s ++ [0]) = some (c, t.length + 1) ∧
    (b.toNat < 128 → c = b.toNat ∧ t = []) ∧
    (128 ≤ b.toNat → c = -1 ∨ (128 ≤ c ∧ ∃ ch : Char, c = ch.toNat ∧ String.utf8EncodeChar ch = b :: t)) := by
  obtain ⟨c, t, s', rfl, h2, h3, h4, h5⟩ := scan_chunk h0 s []
  refine ⟨c, t, s', rfl, fun x hx => ?_, h3, h4, fun hb => ?_⟩
  · obtain ⟨j, hj, rfl⟩ := List.mem_iff_getElem.mp hx
    refine C33_scan_keeps_ascii _ _ _ h3 (j + 1) _ (by omega) (by omega) ?_
    rw [List.cons_append, List.getElem?_cons_succ, List.append_assoc, List.getElem?_append_left hj, List.getElem?_eq_getElem hj]
  · rcases h5 hb with h | h
    · exact Or.inl h
    · refine Or.inr ⟨h, ?_⟩
      rcases C33_scan_wellformed _ _ _ h3 (by omega) with e | ⟨ch, e1, e2⟩
      · omega
      · refine ⟨ch, e1, ?_⟩
        rw [← e2, List.cons_append, List.take_succ_cons, List.append_assoc, List.take_left]

theorem isspace_byte {b : UInt8} {c : Int} {P : Prop} (hb : 128 ≤ b.toNat) (h : 128 ≤ b.toNat → c = -1 ∨ (128 ≤ c ∧ P)) :
    isspace H0 c = if c < 256 then some false else none := by
  have h := h hb
  unfold isspace
  split
  · next hc =>
    rw [if_pos hc.2]
    have h1 : (c == 32) = false := by rw [beq_eq_false_iff_ne]; omega
    have h2 : ¬ (9 ≤ c ∧ c ≤ 13) := by omega
    have h3 : (decide (9 ≤ c) && decide (c ≤ 13)) = false := by
      rw [← Bool.not_eq_true, Bool.and_eq_true, decide_eq_true_eq, decide_eq_true_eq]; exact h2
    rw [h1, h3]; rfl
  · next hc =>
    have : ¬ c < 256 := by omega
    rw [if_neg this]; rfl

theorem wide_lead {ch : Char} (h : 0x100 ≤ ch.toNat) : ∃ b t, String.utf8EncodeChar ch = b :: t ∧ 0xc0 ≤ b.toNat ∧
    ∀ x ∈ t, 128 ≤ x.toNat := by
  have hs := char_scalar ch
  rw [enc_eq]
  unfold Scalar at hs
  generalize ch.toNat = v at h hs
  unfold encNat
  repeat' split
  · omega
  all_goals
    refine ⟨_, _, rfl, ?_, ?_⟩
    · rw [UInt8.toNat_ofNat']; omega
    · intro x hx
      simp only [List.mem_cons, List.not_mem_nil, or_false] at hx
      rcases hx with rfl | rfl | rfl <;> (rw [UInt8.toNat_ofNat']; omega)

/-- An infix that starts with a lead byte starts at the first byte or beyond the trail bytes. -/
theorem infix_chunk {e0 : UInt8} {e : List UInt8} (he : 0xc0 ≤ e0.toNat) {b : UInt8} {t u : List UInt8} (ht : ∀ x ∈ t, IsTrailByte x)
    (h : e0 :: e <:+: b :: t ++ u) : e0 :: e <+: b :: t ++ u ∨ e0 :: e <:+: u := by
  obtain ⟨a, z, h⟩ := h
  rcases a with _ | ⟨x, a⟩
  · left; exact ⟨z, by simpa using h⟩
  · right
    simp only [List.cons_append, List.cons.injEq] at h
    obtain ⟨-, h⟩ := h
    induction t generalizing a with
    | nil => exact ⟨a, z, by simpa using h⟩
    | cons y t ih =>
      rcases a with _ | ⟨x, a⟩
      · simp only [List.nil_append, List.cons_append, List.cons.injEq] at h
        have := ht y (by simp)
        rw [← h.1] at this
        unfold IsTrailByte at this
        omega
      · simp only [List.cons_append, List.cons.injEq] at h
        exact ih (fun x hx => ht x (by simp [hx])) a h.2

theorem wide_ne_nul {ch : Char} (h : 0x100 ≤ ch.toNat) : ch ≠ '\x00' := by
  rintro rfl
  revert h; decide

/-- A word with one more character in front. -/
theorem word_chunk {b : UInt8} {t u s : List UInt8} {c : Int} (hb : ¬ Blank b ∧ ¬ Punct b) (ht : ∀ x ∈ t, IsTrailByte x)
    (h0 : b ≠ 0) (hscan : ustrscan (b :: (t ++ u ++ s) ++ [0]) = some (c, t.length + 1)) (hc : c < 256) (hu : Word u) : Word (b :: t ++ u) := by
  refine ⟨fun x hx => ?_, fun ch hch hin => ?_⟩
  · simp only [List.cons_append, List.mem_cons, List.mem_append] at hx
    rcases hx with rfl | hx | hx
    · exact hb
    · have h1 := ht x hx
      unfold IsTrailByte at h1
      refine ⟨fun h => ?_, fun h => ?_⟩
      · have := (blank_ascii h).1; omega
      · have := (punct_ascii h).1; omega
    · exact hu.1 x hx
  · obtain ⟨e0, e, h1, h2, -⟩ := wide_lead hch
    rw [h1] at hin
    rcases infix_chunk h2 ht hin with ⟨z, hz⟩ | hin
    · have := ustrscan_char (wide_ne_nul hch) (z ++ s ++ [0])
      rw [h1, ← List.append_assoc, ← List.append_assoc, hz] at this
      have e2 : b :: (t ++ u ++ s) ++ [0] = b :: t ++ u ++ s ++ [0] := by simp
      rw [e2, this] at hscan
      simp only [Option.some.injEq, Prod.mk.injEq] at hscan
      omega
    · exact hu.2 ch hch (h1 ▸ hin)

theorem word_nil : Word [] := by
  refine ⟨by simp, fun ch hch hin => ?_⟩
  obtain ⟨e0, e, h1, -, -⟩ := wide_lead hch
  rw [h1] at hin
  have := hin.length_le
  simp at this

theorem word_ascii {b : UInt8} {u : List UInt8} (h1 : b.toNat < 128) (hb : ¬ Blank b ∧ ¬ Punct b) (hu : Word u) : Word (b :: u) := by
  refine ⟨fun x hx => ?_, fun ch hch hin => ?_⟩
  · rcases List.mem_cons.mp hx with rfl | hx
    · exact hb
    · exact hu.1 x hx
  · obtain ⟨e0, e, h2, h3, -⟩ := wide_lead hch
    rw [h2] at hin
    rcases infix_chunk (t := []) h3 (by simp) (by simpa using hin) with ⟨z, hz⟩ | hin
    · simp only [List.cons_append, List.cons.injEq] at hz
      rw [hz.1] at h3; omega
    · exact hu.2 ch hch (h2 ▸ hin)

/-! ## White space -/

theorem skipSpace_sound : ∀ (fuel : Nat) {t : List UInt8} {o m}, NulFree t → skipSpace H0 fuel (t ++ [0]) = some (o, m) →
    (o = none ∧ m = [0]) ∨ ∃ w b t' r, t = w ++ b :: t' ∧ Blanks w ∧ ¬ Blank b ∧ m = b :: t' ++ [0] ∧ o = some r ∧
      ustrscan (b :: t' ++ [0]) = some r ∧ r.1 < 256 := by
  intro fuel
  induction fuel with
  | zero =>
    intro t o m hs h
    match t, hs with
    | [], _ =>
      rw [skipSpace.eq_def] at h
      simp [ustrscan_zero] at h
      exact Or.inl ⟨h.1.symm, h.2.symm⟩
    | b :: t, hs =>
      have h0 : b ≠ 0 := fun e => hs (by simp [e])
      obtain ⟨c, u, s', rfl, h2, h3, h4, h5⟩ := chunk h0 t
      rw [skipSpace.eq_def, h3, Option.bind_some] at h
      simp only at h
      rw [if_neg (by omega)] at h
      by_cases hb : b.toNat < 128
      · rw [(h4 hb).1, isspace_ascii, Option.bind_some] at h
        by_cases hsp : isSpace b = true
        · rw [if_pos hsp] at h; cases h
        · rw [if_neg hsp] at h
          cases h
          exact Or.inr ⟨[], b, u ++ s', _, rfl, by simp [Blanks], fun e => hsp ((isSpace_iff b).mpr e), rfl, rfl, by rw [h3, (h4 hb).1], by show ((b.toNat : Nat) : Int) < 256; omega⟩
      · have hb : 128 ≤ b.toNat := by omega
        rw [isspace_byte hb h5] at h
        by_cases hc : c < 256
        · rw [if_pos hc] at h
          cases h
          exact Or.inr ⟨[], b, u ++ s', _, rfl, by simp [Blanks], fun e => by have := (blank_ascii e).1; omega, rfl, rfl, h3, hc⟩
        · rw [if_neg hc] at h; cases h
  | succ fuel ih =>
    intro t o m hs h
    match t, hs with
    | [], _ =>
      rw [skipSpace.eq_def] at h
      simp [ustrscan_zero] at h
      exact Or.inl ⟨h.1.symm, h.2.symm⟩
    | b :: t, hs =>
      have h0 : b ≠ 0 := fun e => hs (by simp [e])
      obtain ⟨c, u, s', rfl, h2, h3, h4, h5⟩ := chunk h0 t
      rw [skipSpace.eq_def, h3, Option.bind_some] at h
      simp only at h
      rw [if_neg (by omega)] at h
      by_cases hb : b.toNat < 128
      · obtain ⟨rfl, rfl⟩ := h4 hb
        rw [isspace_ascii, Option.bind_some] at h
        by_cases hsp : isSpace b = true
        · rw [if_pos hsp] at h
          simp only [List.nil_append, List.length_nil, Nat.zero_add, List.cons_append, List.drop_succ_cons, List.drop_zero] at h
          rcases ih (fun e => hs (by simp [e])) h with h | ⟨w, b', t', r, e1, e2, e3, e4, e5, e6⟩
          · exact Or.inl h
          · refine Or.inr ⟨b :: w, b', t', r, by simp [e1], ?_, e3, e4, e5, e6⟩
            intro x hx
            rcases List.mem_cons.mp hx with rfl | hx
            · exact (isSpace_iff x).mp hsp
            · exact e2 x hx
        · rw [if_neg hsp] at h
          cases h
          exact Or.inr ⟨[], b, [] ++ s', _, rfl, by simp [Blanks], fun e => hsp ((isSpace_iff b).mpr e), rfl, rfl, h3, by show ((b.toNat : Nat) : Int) < 256; omega⟩
      · have hb : 128 ≤ b.toNat := by omega
        rw [isspace_byte hb h5] at h
        by_cases hc : c < 256
        · rw [if_pos hc] at h
          cases h
          exact Or.inr ⟨[], b, u ++ s', _, rfl, by simp [Blanks], fun e => by have := (blank_ascii e).1; omega, rfl, rfl, h3, hc⟩
        · rw [if_neg hc] at h; cases h

theorem skipSpace_blanks (H : Host) {w : List UInt8} (hw : Blanks w) {b : UInt8} (h0 : b ≠ 0) (h1 : b.toNat < 128) (h2 : ¬ Blank b)
    (m : Mem) : ∀ fuel, w.length ≤ fuel → skipSpace H fuel (w ++ b :: m) = some (some ((b.toNat : Int), 1), b :: m) := by
  have hb : isSpace b = false := by rw [← Bool.not_eq_true, isSpace_iff]; exact h2
  induction w with
  | nil =>
    intro fuel _
    rw [List.nil_append, skipSpace.eq_def, scan_ascii h0 h1, Option.bind_some]
    simp only
    rw [if_neg (by omega), isspace_ascii, Option.bind_some, hb]
    rfl
  | cons x w ih =>
    intro fuel hf
    obtain ⟨fuel, rfl⟩ : ∃ f, fuel = f + 1 := ⟨fuel - 1, by simp at hf; omega⟩
    have hx : Blank x := hw x (by simp)
    rw [List.cons_append, skipSpace.eq_def, scan_ascii (blank_ascii hx).2 (blank_ascii hx).1, Option.bind_some]
    simp only
    rw [if_neg (by omega), isspace_ascii, Option.bind_some, (isSpace_iff x).mpr hx]
    simp only [if_true, List.drop_succ_cons, List.drop_zero]
    exact ih (fun y hy => hw y (by simp [hy])) fuel (by simpa using hf)

/-! ## Words -/

theorem token_byte {b : UInt8} (h0 : b ≠ 0) : (isToken (UInt8.ofNat (((b.toNat : Int)) % 256).toNat) = true) ↔ Punct b := by
  rw [ofNat_byte, isToken_iff h0]

theorem token_wide {c : Int} (h : c = -1 ∨ 128 ≤ c) (hc : c < 256) : isToken (UInt8.ofNat (c % 256).toNat) = false := by
  rw [← Bool.not_eq_true]
  unfold isToken
  intro h2
  have h3 : (UInt8.ofNat (c % 256).toNat).toNat < 128 := by
    generalize UInt8.ofNat (c % 256).toNat = b at h2
    simp only [decide_eq_true_eq, List.mem_cons, List.not_mem_nil, or_false] at h2
    rcases h2 with rfl | rfl | rfl | rfl | rfl | rfl | rfl <;> decide
  rw [UInt8.toNat_ofNat'] at h3
  omega

theorem scanWord_sound : ∀ (fuel : Nat) {t : List UInt8} {m}, NulFree t → scanWord H0 fuel (t ++ [0]) = some m →
    ∃ u r, t = u ++ r ∧ m = r ++ [0] ∧ Word u ∧ Stop r := by
  intro fuel
  induction fuel with
  | zero =>
    intro t m hs h
    match t, hs with
    | [], _ =>
      rw [scanWord.eq_def] at h
      simp [ustrscan_zero] at h
      exact ⟨[], [], rfl, h.symm, word_nil, by simp [Stop]⟩
    | b :: t, hs =>
      have h0 : b ≠ 0 := fun e => hs (by simp [e])
      obtain ⟨c, u, s', rfl, h2, h3, h4, h5⟩ := chunk h0 t
      rw [scanWord.eq_def, h3, Option.bind_some] at h
      simp only at h
      rw [if_neg (by omega)] at h
      by_cases hb : b.toNat < 128
      · rw [(h4 hb).1, isspace_ascii, Option.bind_some] at h
        split at h
        · next hsp =>
          cases h
          refine ⟨[], b :: (u ++ s'), rfl, rfl, word_nil, ?_⟩
          intro x hx
          cases hx
          rw [Bool.or_eq_true, isSpace_iff, token_byte h0] at hsp
          exact hsp
        · cases h
      · have hb : 128 ≤ b.toNat := by omega
        rw [isspace_byte hb h5] at h
        by_cases hc : c < 256
        · rw [if_pos hc, Option.bind_some, token_wide ((h5 hb).imp_right (·.1)) hc] at h
          cases h
        · rw [if_neg hc] at h; cases h
  | succ fuel ih =>
    intro t m hs h
    match t, hs with
    | [], _ =>
      rw [scanWord.eq_def] at h
      simp [ustrscan_zero] at h
      exact ⟨[], [], rfl, h.symm, word_nil, by simp [Stop]⟩
    | b :: t, hs =>
      have h0 : b ≠ 0 := fun e => hs (by simp [e])
      obtain ⟨c, u, s', rfl, h2, h3, h4, h5⟩ := chunk h0 t
      have hs' : NulFree s' := fun e => hs (by simp [e])
      have ed : (b :: (u ++ s') ++ [0]).drop (u.length + 1) = s' ++ [0] := by simp
      rw [scanWord.eq_def, h3, Option.bind_some] at h
      simp only at h
      rw [if_neg (by omega), ed] at h
      by_cases hb : b.toNat < 128
      · obtain ⟨rfl, rfl⟩ := h4 hb
        rw [isspace_ascii, Option.bind_some] at h
        split at h
        · next hsp =>
          cases h
          refine ⟨[], b :: s', rfl, rfl, word_nil, ?_⟩
          intro x hx
          cases hx
          rw [Bool.or_eq_true, isSpace_iff, token_byte h0] at hsp
          exact hsp
        · next hsp =>
          rw [Bool.or_eq_true, isSpace_iff, token_byte h0] at hsp
          obtain ⟨u, r, rfl, e2, e3, e4⟩ := ih hs' h
          exact ⟨b :: u, r, rfl, e2, word_ascii hb (not_or.mp hsp) e3, e4⟩
      · have hb : 128 ≤ b.toNat := by omega
        rw [isspace_byte hb h5] at h
        by_cases hc : c < 256
        · rw [if_pos hc, Option.bind_some, token_wide ((h5 hb).imp_right (·.1)) hc] at h
          obtain ⟨u', r, rfl, e2, e3, e4⟩ := ih hs' h
          refine ⟨b :: u ++ u', r, by simp, e2, word_chunk ⟨?_, ?_⟩ h2 h0 (s := r) (by simpa using h3) hc e3, e4⟩
          · intro e; have := (blank_ascii e).1; omega
          · intro e; have := (punct_ascii e).1; omega
        · rw [if_neg hc] at h; cases h

theorem word_tail {p u : List UInt8} (h : Word (p ++ u)) : Word u :=
  ⟨fun b hb => h.1 b (by simp [hb]), fun ch hch hin => h.2 ch hch (hin.trans (List.suffix_append p u).isInfix)⟩

theorem stop_low {r : List UInt8} (h : Stop r) : ∀ b, r.head? = some b → b.toNat < 128 := by
  intro b hb
  rcases h b hb with h | h
  · exact (blank_ascii h).1
  · exact (punct_ascii h).1

/-- Trail bytes in front of a rest that starts below 128 come from before the rest. -/
theorem trail_prefix {t s' u r : List UInt8} (h : u ++ r = t ++ s') (ht : ∀ x ∈ t, IsTrailByte x) (hr : ∀ b, r.head? = some b → b.toNat < 128) :
    ∃ u', u = t ++ u' ∧ s' = u' ++ r := by
  induction t generalizing u with
  | nil => exact ⟨u, rfl, by simpa using h.symm⟩
  | cons x t ih =>
    rcases u with _ | ⟨y, u⟩
    · rw [List.nil_append] at h
      have h1 := hr x (by rw [h]; rfl)
      have h2 := ht x (by simp)
      unfold IsTrailByte at h2; omega
    · simp only [List.cons_append, List.cons.injEq] at h
      obtain ⟨u', e1, e2⟩ := ih h.2 fun x hx => ht x (by simp [hx])
      exact ⟨u', by rw [h.1, e1]; rfl, e2⟩

theorem scanWord_word : ∀ (n : Nat) {u r : List UInt8}, u.length ≤ n → NulFree (u ++ r) → Word u → Stop r → ∀ fuel, u.length ≤ fuel →
    scanWord H0 fuel (u ++ r ++ [0]) = some (r ++ [0]) := by
  intro n
  induction n with
  | zero =>
    intro u r hn hs hu hr fuel hf
    have : u = [] := List.length_eq_zero_iff.mp (by omega)
    subst this
    rw [List.nil_append] at hs ⊢
    match r, hs, hr with
    | [], _, _ => rw [scanWord.eq_def]; simp [ustrscan_zero]
    | b :: r, hs, hr =>
      have h0 : b ≠ 0 := fun e => hs (by simp [e])
      rw [scanWord.eq_def, List.cons_append, scan_ascii h0 (stop_low hr b rfl), Option.bind_some]
      simp only
      rw [if_neg (by omega), isspace_ascii, Option.bind_some, if_pos]
      rw [Bool.or_eq_true, isSpace_iff, token_byte h0]
      exact hr b rfl
  | succ n ih =>
    intro u r hn hs hu hr fuel hf
    match u, hn, hs, hu, hf with
    | [], _, hs, hu, hf => exact ih (by simp) hs hu hr fuel hf
    | b :: u, hn, hs, hu, hf =>
      obtain ⟨fuel, rfl⟩ : ∃ f, fuel = f + 1 := ⟨fuel - 1, by simp at hf; omega⟩
      have h0 : b ≠ 0 := fun e => hs (by simp [e])
      obtain ⟨c, t, s', e1, h2, h3, h4, h5⟩ := chunk h0 (u ++ r)
      obtain ⟨u', rfl, rfl⟩ := trail_prefix e1 h2 (stop_low hr)
      have ed : (b :: (t ++ u' ++ r) ++ [0]).drop (t.length + 1) = u' ++ r ++ [0] := by simp
      have hbb := hu.1 b (by simp)
      simp only [List.length_cons, List.length_append] at hn hf
      have hrec := ih (u := u') (r := r) (by omega) (fun e => hs (by simp only [List.mem_append, List.cons_append, List.mem_cons] at e ⊢; exact Or.inr (e.elim (fun e => Or.inl (Or.inr e)) Or.inr)))
        (word_tail (p := b :: t) (by simpa using hu)) hr fuel (by omega)
      rw [scanWord.eq_def, List.cons_append, h3, Option.bind_some]
      simp only
      rw [if_neg (by omega), ed]
      by_cases hb : b.toNat < 128
      · rw [(h4 hb).1, isspace_ascii, Option.bind_some, if_neg, hrec]
        rw [Bool.or_eq_true, isSpace_iff, token_byte h0]
        exact not_or.mpr hbb
      · have hb : 128 ≤ b.toNat := by omega
        have hc : c < 256 := by
          rcases h5 hb with h | ⟨-, ch, e1, e2⟩
          · omega
          · apply Classical.byContradiction
            intro hc
            refine hu.2 ch (by omega) ?_
            rw [e2]
            exact ⟨[], u', by simp⟩
        rw [isspace_byte hb h5, if_pos hc, Option.bind_some, token_wide ((h5 hb).imp_right (·.1)) hc]
        exact hrec

end Json
end Duck
