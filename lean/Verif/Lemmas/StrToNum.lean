import Verif.Spec.StrToNum
namespace Duck
namespace Num
open Unicode

theorem isDigit_iff (b : UInt8) : isDigit b = true ↔ 48 ≤ b.toNat ∧ b.toNat ≤ 57 := by
  unfold isDigit
  rw [Bool.and_eq_true, decide_eq_true_eq, decide_eq_true_eq, UInt8.le_iff_toNat_le, UInt8.le_iff_toNat_le]
  exact Iff.rfl

theorem skipWs_eq {ws : List UInt8} (hw : ∀ b ∈ ws, isSpace b = true) {b : UInt8} (hb : isSpace b = false) (m : Mem) :
    skipWs (ws ++ b :: m) = some (b :: m) := by
  induction ws with
  | nil => simp [skipWs, hb]
  | cons c ws ih =>
    rw [List.cons_append, skipWs, if_pos (hw c (by simp)), ih (fun b h => hw b (by simp [h]))]

theorem foldl_mono (ds : List UInt8) : ∀ a : Nat, a ≤ ds.foldl (fun a b => a * 10 + (b.toNat - 48)) a := by
  induction ds with
  | nil => simp
  | cons d ds ih => intro a; exact Nat.le_trans (show a ≤ a * 10 + (d.toNat - 48) by omega) (ih _)

theorem digits_eq {ds : List UInt8} (hd : Digits ds) {b : UInt8} (hb : isDigit b = false) (m : Mem) :
    ∀ acc : Option Nat, (∀ a, acc = some a → a < 2 ^ 63) → digits acc (ds ++ b :: m) =
      some (acc.bind fun a => if ds.foldl (fun a b => a * 10 + (b.toNat - 48)) a < 2 ^ 63 then
        some (ds.foldl (fun a b => a * 10 + (b.toNat - 48)) a) else none, b :: m) := by
  induction ds with
  | nil =>
    intro acc ha
    cases acc with
    | none => simp [digits, hb]
    | some a => simp [digits, hb, ha a rfl]
  | cons d ds ih =>
    intro acc ha
    have hd' : Digits ds := fun b h => hd b (by simp [h])
    rw [List.cons_append, digits, if_pos ((isDigit_iff d).mpr (hd d (by simp)))]
    cases acc with
    | none => rw [show push none d = none from rfl, ih hd' _ (by simp)]; rfl
    | some a =>
      have hm := foldl_mono ds (a * 10 + (d.toNat - 48))
      simp only [push, Option.bind_some, List.foldl_cons]
      by_cases h : a * 10 + (d.toNat - 48) < 2 ^ 63
      · rw [if_pos h, ih hd' _ (by intro x hx; cases hx; exact h)]; rfl
      · rw [if_neg h, ih hd' _ (by simp), Option.bind_none]
        exact congrArg (fun x => some (x, b :: m)) (if_neg (by omega)).symm

theorem fraction_eq {ds : List UInt8} (hd : Digits ds) {b : UInt8} (hb : isDigit b = false) (m : Mem) :
    ∀ (pre : List Nat) (k : Nat), k < 63 → 10 ^ k < 2 ^ 63 → fraction pre (some (10 ^ k)) (ds ++ b :: m) =
      some ((pre ++ ds.map (fun b => b.toNat - 48), if 10 ^ (k + ds.length) < 2 ^ 63 then some (10 ^ (k + ds.length)) else none), b :: m) := by
  have none_ : ∀ {ds : List UInt8} (_ : Digits ds) (pre : List Nat), fraction pre none (ds ++ b :: m) =
      some ((pre ++ ds.map (fun b => b.toNat - 48), none), b :: m) := by
    intro ds hd
    induction ds with
    | nil => intro pre; simp [fraction, hb]
    | cons d ds ih =>
      intro pre
      rw [List.cons_append, fraction, if_pos ((isDigit_iff d).mpr (hd d (by simp))), Option.bind_none, ih (fun b h => hd b (by simp [h]))]
      simp
  induction ds with
  | nil => intro pre k _ h; simp [fraction, hb, h]
  | cons d ds ih =>
    intro pre k hk h
    have hd' : Digits ds := fun b h => hd b (by simp [h])
    rw [List.cons_append, fraction, if_pos ((isDigit_iff d).mpr (hd d (by simp)))]
    simp only [Option.bind_some]
    by_cases h1 : 10 ^ k * 10 < 2 ^ 63
    · rw [if_pos h1, ← Nat.pow_succ, ih hd' _ (k + 1) (by
        rcases Nat.lt_or_ge (k + 1) 63 with h2 | h2
        · exact h2
        · have : 10 ^ 62 ≤ 10 ^ k := Nat.pow_le_pow_right (by omega) (by omega)
          omega) (by rw [Nat.pow_succ]; exact h1)]
      simp [Nat.add_comm, Nat.add_left_comm]
    · rw [if_neg h1, none_ hd']
      have : 10 ^ (k + 1) ≤ 10 ^ (k + (d :: ds).length) := Nat.pow_le_pow_right (by omega) (by simp)
      rw [Nat.pow_succ] at this
      rw [if_neg (by omega)]
      simp

/-- Reading past the number never leaves the string. -/
theorem digits_suffix {m : Mem} : ∀ {acc r m'}, digits acc m = some (r, m') → ∃ ds, m = ds ++ m' ∧ Digits ds ∧
    ∀ b, m'.head? = some b → isDigit b = false := by
  induction m with
  | nil => intro acc r m' h; simp [digits] at h
  | cons b m ih =>
    intro acc r m' h
    rw [digits] at h
    split at h
    · next hb =>
      obtain ⟨ds, rfl, hd, he⟩ := ih h
      exact ⟨b :: ds, rfl, fun x hx => by
        rcases List.mem_cons.mp hx with rfl | hx
        · exact (isDigit_iff _).mp hb
        · exact hd x hx, he⟩
    · next hb => cases h; exact ⟨[], rfl, fun x hx => by simp at hx, fun b' hb' => by simp at hb'; subst hb'; simpa using hb⟩

theorem fraction_suffix {m : Mem} : ∀ {ds dn r m'}, fraction ds dn m = some (r, m') → ∃ pre, m = pre ++ m' ∧ Digits pre ∧
    ∀ b, m'.head? = some b → isDigit b = false := by
  induction m with
  | nil => intro ds dn r m' h; simp [fraction] at h
  | cons b m ih =>
    intro ds dn r m' h
    rw [fraction] at h
    split at h
    · next hb =>
      obtain ⟨pre, rfl, hd, he⟩ := ih h
      exact ⟨b :: pre, rfl, fun x hx => by
        rcases List.mem_cons.mp hx with rfl | hx
        · exact (isDigit_iff _).mp hb
        · exact hd x hx, he⟩
    · next hb => cases h; exact ⟨[], rfl, fun x hx => by simp at hx, fun b' hb' => by simp at hb'; subst hb'; simpa using hb⟩

theorem digits_some {m : Mem} (h : (0 : UInt8) ∈ m) : ∀ acc, ∃ r, digits acc m = some r ∧ (0 : UInt8) ∈ r.2 ∧ r.2 <:+ m := by
  induction m with
  | nil => simp at h
  | cons b m ih =>
    intro acc
    rw [digits]
    split
    · next hb =>
      have hm : (0 : UInt8) ∈ m := by
        rcases List.mem_cons.mp h with rfl | h
        · exact absurd hb (by decide)
        · exact h
      obtain ⟨r, h1, h2, h3⟩ := ih hm (push acc b)
      exact ⟨r, h1, h2, h3.trans (List.suffix_cons _ _)⟩
    · exact ⟨_, rfl, h, List.suffix_rfl⟩

theorem fraction_some {m : Mem} (h : (0 : UInt8) ∈ m) : ∀ ds dn, ∃ r, fraction ds dn m = some r ∧ (0 : UInt8) ∈ r.2 ∧ r.2 <:+ m := by
  induction m with
  | nil => simp at h
  | cons b m ih =>
    intro ds dn
    rw [fraction]
    split
    · next hb =>
      have hm : (0 : UInt8) ∈ m := by
        rcases List.mem_cons.mp h with rfl | h
        · exact absurd hb (by decide)
        · exact h
      obtain ⟨r, h1, h2, h3⟩ := ih hm _ _
      exact ⟨r, h1, h2, h3.trans (List.suffix_cons _ _)⟩
    · exact ⟨_, rfl, h, List.suffix_rfl⟩

theorem skipWs_some {m : Mem} (h : (0 : UInt8) ∈ m) : ∃ r, skipWs m = some r ∧ (0 : UInt8) ∈ r ∧ r <:+ m := by
  induction m with
  | nil => simp at h
  | cons b m ih =>
    rw [skipWs]
    split
    · next hb =>
      have hm : (0 : UInt8) ∈ m := by
        rcases List.mem_cons.mp h with rfl | h
        · exact absurd hb (by decide)
        · exact h
      obtain ⟨r, h1, h2, h3⟩ := ih hm
      exact ⟨r, h1, h2, h3.trans (List.suffix_cons _ _)⟩
    · exact ⟨_, rfl, h, List.suffix_rfl⟩

theorem sign_some {m : Mem} (h : (0 : UInt8) ∈ m) : ∃ r, sign m = some r ∧ (0 : UInt8) ∈ r.2 ∧ r.2 <:+ m := by
  match m, h with
  | b :: m, h =>
    by_cases h1 : b = 45
    · subst h1; exact ⟨(true, m), rfl, by simpa using h, List.suffix_cons _ _⟩
    · by_cases h2 : b = 43
      · subst h2; exact ⟨(false, m), rfl, by simpa using h, List.suffix_cons _ _⟩
      · exact ⟨(false, b :: m), by simp [sign, h1, h2], h, List.suffix_rfl⟩

theorem fracPart_some {m : Mem} (h : (0 : UInt8) ∈ m) : ∃ r, fracPart m = some r ∧ (0 : UInt8) ∈ r.2 ∧ r.2 <:+ m := by
  match m, h with
  | b :: m, h =>
    by_cases h1 : b = 46
    · subst h1
      have hm : (0 : UInt8) ∈ m := by simpa using h
      obtain ⟨r, e1, e2, e3⟩ := fraction_some hm [] (some 10)
      exact ⟨(some r.1, r.2), by simp [fracPart, e1], e2, e3.trans (List.suffix_cons _ _)⟩
    · exact ⟨(none, b :: m), by simp [fracPart, h1], h, List.suffix_rfl⟩

theorem expPart_some {m : Mem} (h : (0 : UInt8) ∈ m) : ∃ r, expPart m = some r ∧ (0 : UInt8) ∈ r.2 ∧ r.2 <:+ m := by
  match m, h with
  | b :: m, h =>
    by_cases h1 : b = 101 ∨ b = 69
    · have hm : (0 : UInt8) ∈ m := by
        rcases List.mem_cons.mp h with e | h
        · subst e; rcases h1 with h1 | h1 <;> exact absurd h1 (by decide)
        · exact h
      obtain ⟨r, e1, e2, e3⟩ := digits_some hm (some 0)
      exact ⟨(some r.1, r.2), by simp [expPart, h1, e1], e2, e3.trans (List.suffix_cons _ _)⟩
    · exact ⟨(none, b :: m), by simp [expPart, h1], h, List.suffix_rfl⟩

theorem strtonum_some {m : Mem} (h : (0 : UInt8) ∈ m) : ∃ r, strtonum m = some r ∧ (0 : UInt8) ∈ r.2 ∧ r.2 <:+ m := by
  obtain ⟨a, a1, a2, a3⟩ := skipWs_some h
  obtain ⟨b, b1, b2, b3⟩ := sign_some a2
  obtain ⟨c, c1, c2, c3⟩ := digits_some b2 (some 0)
  obtain ⟨d, d1, d2, d3⟩ := fracPart_some c2
  obtain ⟨e, e1, e2, e3⟩ := expPart_some d2
  refine ⟨(result b.1 c.1 d.1 e.1, e.2), ?_, e2, e3.trans (d3.trans (c3.trans (b3.trans a3)))⟩
  rw [strtonum, a1, Option.bind_some, b1, Option.bind_some, c1, Option.bind_some, d1, Option.bind_some, e1]; rfl

/-! ## The parts of a numeral -/

theorem isDigit_false {b : UInt8} (h : ¬ (48 ≤ b.toNat ∧ b.toNat ≤ 57)) : isDigit b = false := by
  rw [← Bool.not_eq_true]; exact mt (isDigit_iff b).mp h

theorem sign_eq (neg plus : Bool) {d : UInt8} (hd : 48 ≤ d.toNat ∧ d.toNat ≤ 57) (m : Mem) :
    sign (signText neg plus ++ d :: m) = some (neg, d :: m) := by
  have h1 : d ≠ 45 := by rintro rfl; exact absurd hd (by decide)
  have h2 : d ≠ 43 := by rintro rfl; exact absurd hd (by decide)
  cases neg <;> cases plus <;> simp [signText, sign, h1, h2]

theorem expPart_eq {exp : Option (Bool × List UInt8)} (hx : ∀ e, exp = some e → Digits e.2 ∧ value e.2 < 2 ^ 63)
    {b : UInt8} (hb : ¬ (48 ≤ b.toNat ∧ b.toNat ≤ 57)) (he : exp = none → b ≠ 0x65 ∧ b ≠ 0x45) (m : Mem) :
    expPart ((exp.elim [] fun e => (if e.1 then 0x45 else 0x65) :: e.2) ++ b :: m) = some (exp.map fun e => some (value e.2), b :: m) := by
  cases exp with
  | none =>
    have := he rfl
    simp [expPart, this.1, this.2]
  | some e =>
    obtain ⟨h1, h2⟩ := hx e rfl
    have hd := digits_eq h1 (isDigit_false hb) m (some 0) (by intro a ha; cases ha; omega)
    rw [Option.bind_some] at hd
    unfold value at h2
    rw [if_pos h2] at hd
    have : ((if e.1 then 0x45 else 0x65 : UInt8) == 101 || (if e.1 then 0x45 else 0x65 : UInt8) == 69) = true := by cases e.1 <;> rfl
    simp only [Option.elim_some, List.cons_append, expPart, List.head?_cons, Option.bind_some, this, if_true, List.tail_cons]
    rw [hd]; rfl

theorem exp_head (exp : Option (Bool × List UInt8)) {b : UInt8} (hb : ¬ (48 ≤ b.toNat ∧ b.toNat ≤ 57)) (m : Mem) :
    ∃ b' m', (exp.elim [] fun e => (if e.1 then 0x45 else 0x65) :: e.2) ++ b :: m = b' :: m' ∧ ¬ (48 ≤ b'.toNat ∧ b'.toNat ≤ 57) ∧
      (exp = none → b' = b) ∧ (exp ≠ none → b' = 0x45 ∨ b' = 0x65) := by
  cases exp with
  | none => exact ⟨b, m, rfl, hb, fun _ => rfl, fun h => absurd rfl h⟩
  | some e =>
    refine ⟨if e.1 then 0x45 else 0x65, e.2 ++ b :: m, rfl, ?_, nofun, fun _ => ?_⟩
    · cases e.1 <;> decide
    · cases e.1 <;> simp

theorem fracPart_eq {frac : Option (List UInt8)} (hf : ∀ fs, frac = some fs → Digits fs ∧ fs.length ≤ 17)
    {b : UInt8} (hb : ¬ (48 ≤ b.toNat ∧ b.toNat ≤ 57)) (he : frac = none → b ≠ 0x2e) (m : Mem) :
    ∃ r, fracPart ((frac.elim [] fun fs => 0x2e :: fs) ++ b :: m) = some (r, b :: m) ∧
      (frac = none → r = none) ∧ (∀ fs, frac = some fs → ∃ d, r = some (fs.map (fun b => b.toNat - 48), some d)) := by
  cases frac with
  | none =>
    exact ⟨none, by simp [fracPart, he rfl], fun _ => rfl, fun fs h => by cases h⟩
  | some fs =>
    obtain ⟨h1, h2⟩ := hf fs rfl
    have hd := fraction_eq h1 (isDigit_false hb) m [] 1 (by omega) (by omega)
    have hp : 10 ^ (1 + fs.length) ≤ 10 ^ 18 := Nat.pow_le_pow_right (by omega) (by omega)
    rw [if_pos (by omega)] at hd
    refine ⟨some (fs.map (fun b => b.toNat - 48), some (10 ^ (1 + fs.length))), ?_, nofun, fun gs h => by cases h; exact ⟨_, rfl⟩⟩
    simp only [Option.elim_some, List.cons_append, fracPart, List.head?_cons, Option.bind_some, List.tail_cons]
    rw [if_pos (by rfl), show some 10 = some (10 ^ 1) from rfl, hd]; rfl

theorem frac_head (frac : Option (List UInt8)) (m : Mem) {b : UInt8} (hb : ¬ (48 ≤ b.toNat ∧ b.toNat ≤ 57)) :
    ∃ b' m', (frac.elim [] fun fs => 0x2e :: fs) ++ b :: m = b' :: m' ∧ ¬ (48 ≤ b'.toNat ∧ b'.toNat ≤ 57) := by
  cases frac with
  | none => exact ⟨b, m, rfl, hb⟩
  | some fs => exact ⟨0x2e, fs ++ b :: m, rfl, by decide⟩

theorem digit_not_space {d : UInt8} (h : 48 ≤ d.toNat ∧ d.toNat ≤ 57) : isSpace d = false := by
  unfold isSpace
  have h1 : d ≠ 32 := by rintro rfl; exact absurd h (by decide)
  have h2 : ¬ d ≤ 13 := by
    rw [UInt8.le_iff_toNat_le]
    have : (13 : UInt8).toNat = 13 := rfl
    omega
  simp [h1, h2]

end Num
end Duck
