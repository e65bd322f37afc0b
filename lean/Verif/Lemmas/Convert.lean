import Verif.Spec.Convert
import Verif.Lemmas.JsonParse
import Verif.Lemmas.Number
import Verif.Props.Number
namespace Duck
namespace Convert
open Num (Digits value signText)
open Unicode (Mem)

theorem clamp_eq (i : Int) : saturate i = clamp i := by
  unfold saturate clamp
  split
  · omega
  · split <;> omega

theorem decimal_head : ∀ (fuel n : Nat), n < 10 ^ (fuel + 1) → (Json.decimal fuel n).head? = some 0x30 → Json.decimal fuel n = [0x30] := by
  have one : ∀ d, d < 10 → UInt8.ofNat (48 + d) = 0x30 → d = 0 := by
    intro d hd h
    have : (UInt8.ofNat (48 + d)).toNat = 48 + d := by rw [UInt8.toNat_ofNat']; omega
    rw [h] at this
    have h2 : (0x30 : UInt8).toNat = 48 := rfl
    omega
  intro fuel
  induction fuel with
  | zero => intro n _ h; rw [Json.decimal] at *; simpa using h
  | succ fuel ih =>
    intro n hn h
    rw [Json.decimal] at *
    split at h
    · next hlt => rw [if_pos hlt]; simpa using h
    · next hge =>
      have hne := (Json.decimal_eq fuel (n / 10) (by rw [Nat.pow_succ] at hn; omega))
      have hh : (Json.decimal fuel (n / 10)).head? = some 0x30 := by
        cases hc : Json.decimal fuel (n / 10) with
        | nil => exact absurd hc hne.2.1
        | cons x xs => rw [hc] at h; simpa using h
      have h0 := ih (n / 10) (by rw [Nat.pow_succ] at hn; omega) hh
      have hv := hne.2.2
      rw [h0] at hv
      have : value [0x30] = 0 := rfl
      omega

theorem intVal_natAbs_lt (t : Number.Ty) (ht : t.fmt = none) {b : Nat} (hb : b < 2 ^ t.bits) : (Number.intVal t b).natAbs < 10 ^ 20 := by
  have := Number.intVal_range t hb
  cases t <;> simp [Number.Ty.fmt, Number.Ty.lo, Number.Ty.hi, Number.Ty.signed, Number.Ty.bits, Number.Ty.size] at ht this ⊢ <;> omega

theorem elemText_shows (real : Number.Ty → Nat → List UInt8) (t : Number.Ty) {b : Nat} (hb : b < 2 ^ t.bits) :
    Shows real t b (elemText real t b) := by
  unfold Shows elemText
  cases ht : t.fmt with
  | some f => rfl
  | none =>
    have hn := intVal_natAbs_lt t ht hb
    obtain ⟨h1, h2, h3⟩ := Json.decimal_eq 19 _ hn
    refine ⟨Json.decimal 19 (Number.intVal t b).natAbs, h1, h2, by rw [h3], decimal_head 19 _ hn, ?_⟩
    simp only
    split <;> rfl

theorem element_eq {a : Number.Obj} (ha : a.Ok) {i : Nat} (hi : i < a.enc.count) :
    element a i = some (Number.elem a.enc.ty a.value i) ∧ Number.elem a.enc.ty a.value i < 2 ^ a.enc.ty.bits := by
  have hl : (i + 1) * a.enc.ty.size ≤ a.value.length := by
    refine Number.idx_le hi ?_
    rw [ha, Number.Enc.size, Nat.mul_comm]
  exact ⟨Number.read_elem hl, Number.elem_lt hl⟩

/-- The texts of elements `i`, `i + 1`, … -/
def texts (real : Number.Ty → Nat → List UInt8) (a : Number.Obj) (i n : Nat) : List (List UInt8) :=
  (List.range n).map fun k => elemText real a.enc.ty (Number.elem a.enc.ty a.value (i + k))

theorem texts_succ (real : Number.Ty → Nat → List UInt8) (a : Number.Obj) (i n : Nat) :
    texts real a i (n + 1) = elemText real a.enc.ty (Number.elem a.enc.ty a.value i) :: texts real a (i + 1) n := by
  unfold texts
  rw [List.range_succ_eq_map, List.map_cons, List.map_map]
  congr 1
  refine List.map_congr_left fun k _ => ?_
  simp [Nat.add_comm, Nat.add_left_comm]

theorem joined_cons (sep t : List UInt8) (ts : List (List UInt8)) (h : ts ≠ []) : joined sep (t :: ts) = t ++ sep ++ joined sep ts := by
  cases ts with
  | nil => exact absurd rfl h
  | cons => rfl

theorem formatLoop_eq (real : Number.Ty → Nat → List UInt8) (sep : List UInt8) {a : Number.Obj} (ha : a.Ok) :
    ∀ (n i : Nat) (desc : List UInt8), i + n ≤ a.enc.count →
      formatLoop real sep a n i desc = some (joined sep (desc :: texts real a i n)) := by
  intro n
  induction n with
  | zero => intro i desc _; rfl
  | succ n ih =>
    intro i desc h
    rw [formatLoop, (element_eq ha (i := i) (by omega)).1, Option.bind_some, ih (i + 1) _ (by omega), texts_succ]
    cases texts real a (i + 1) n <;> simp [joined]

theorem formatString_eq (real : Number.Ty → Nat → List UInt8) (sep : List UInt8) {a : Number.Obj} (ha : a.Ok) (hc : 0 < a.enc.count) :
    formatString real sep a = some (joined sep (texts real a 0 a.enc.count)) := by
  obtain ⟨n, hn⟩ : ∃ n, a.enc.count = n + 1 := ⟨a.enc.count - 1, by omega⟩
  rw [formatString, (element_eq ha hc).1, Option.bind_some, formatLoop_eq real sep ha _ _ _ (by omega), hn, Nat.add_sub_cancel, texts_succ]

/-! ## strtol -/

theorem white_space {ws : List UInt8} (h : White ws) : ∀ b ∈ ws, Num.isSpace b = true := by
  intro b hb
  unfold Num.isSpace
  rcases h b hb with rfl | h
  · rfl
  · have h9 : (9 : UInt8) ≤ b := UInt8.le_iff_toNat_le.mpr h.1
    have h13 : b ≤ (13 : UInt8) := UInt8.le_iff_toNat_le.mpr h.2
    simp [h9, h13]

theorem space_white {b : UInt8} (h : Num.isSpace b = true) : b = 0x20 ∨ (9 ≤ b.toNat ∧ b.toNat ≤ 13) := by
  unfold Num.isSpace at h
  simp only [Bool.or_eq_true, beq_iff_eq, Bool.and_eq_true, decide_eq_true_eq] at h
  rcases h with h | h
  · exact .inl h
  · exact .inr ⟨UInt8.le_iff_toNat_le.mp h.1, UInt8.le_iff_toNat_le.mp h.2⟩

theorem digitRun_eq {ds : List UInt8} (hd : Digits ds) {b : UInt8} (hb : Num.isDigit b = false) (m : Mem) :
    digitRun (ds ++ b :: m) = some (ds, b :: m) := by
  induction ds with
  | nil => simp [digitRun, hb]
  | cons d ds ih =>
    rw [List.cons_append, digitRun, if_pos ((Num.isDigit_iff d).mpr (hd d (by simp))), ih (fun b h => hd b (by simp [h]))]
    rfl

theorem strtol_begins {text ds : List UInt8} {neg : Bool} (h : Begins text neg ds) : strtol (memory text) = some (clamp (signed neg ds)) := by
  obtain ⟨ws, plus, rest, hw, hd, hne, hr, rfl⟩ := h
  obtain ⟨b, m, hbm, hb⟩ : ∃ b m, rest ++ [0] = b :: m ∧ Num.isDigit b = false := by
    match rest, hr with
    | [], _ => exact ⟨0, [], rfl, by decide⟩
    | b :: rest, hr => exact ⟨b, rest ++ [0], rfl, Num.isDigit_false (hr b rfl)⟩
  obtain ⟨d, ds', rfl⟩ : ∃ d ds', ds = d :: ds' := by
    match ds, hne with
    | d :: ds, _ => exact ⟨d, ds, rfl⟩
  have hd0 := hd d (by simp)
  have etext : memory (ws ++ signText neg plus ++ d :: ds' ++ rest) = ws ++ (signText neg plus ++ d :: (ds' ++ b :: m)) := by
    unfold memory
    rw [List.append_assoc _ rest, hbm]
    simp
  obtain ⟨c, t, ect, hc⟩ : ∃ c t, signText neg plus ++ d :: (ds' ++ b :: m) = c :: t ∧ Num.isSpace c = false := by
    cases neg <;> cases plus
    · exact ⟨d, _, rfl, Num.digit_not_space hd0⟩
    · exact ⟨0x2b, _, rfl, by decide⟩
    · exact ⟨0x2d, _, rfl, by decide⟩
    · exact ⟨0x2d, _, rfl, by decide⟩
  rw [strtol, etext, ect, Num.skipWs_eq (white_space hw) hc, ← ect, Option.bind_some, Num.sign_eq neg plus hd0, Option.bind_some]
  simp only
  rw [← List.cons_append, digitRun_eq hd hb, Option.map_some]
  simp only [clamp_eq]
  unfold signed
  cases neg <;> rfl

theorem skipWs_split {m : Mem} : ∀ {r}, Num.skipWs m = some r → ∃ ws c t, m = ws ++ r ∧ White ws ∧ r = c :: t ∧ Num.isSpace c = false := by
  induction m with
  | nil => intro r h; simp [Num.skipWs] at h
  | cons b m ih =>
    intro r h
    rw [Num.skipWs] at h
    split at h
    · next hb =>
      obtain ⟨ws, c, t, rfl, hw, e, hc⟩ := ih h
      refine ⟨b :: ws, c, t, rfl, fun x hx => ?_, e, hc⟩
      rcases List.mem_cons.mp hx with rfl | hx
      · exact space_white hb
      · exact hw x hx
    · next hb => cases h; exact ⟨[], b, m, rfl, fun x hx => by simp at hx, rfl, by simpa using hb⟩

theorem sign_split {m m' : Mem} {neg : Bool} (h : Num.sign m = some (neg, m')) : ∃ plus, m = signText neg plus ++ m' := by
  cases m with
  | nil => simp [Num.sign] at h
  | cons b m =>
    simp only [Num.sign, List.head?_cons, Option.map_some, List.tail_cons, Option.some.injEq, beq_iff_eq] at h
    split at h
    · next hb => cases h; exact ⟨false, by rw [hb]; rfl⟩
    · split at h
      · next hb => cases h; exact ⟨true, by rw [hb]; rfl⟩
      · cases h; exact ⟨false, rfl⟩

theorem digitRun_split {m : Mem} : ∀ {ds m'}, digitRun m = some (ds, m') → m = ds ++ m' ∧ Digits ds ∧
    ∃ b t, m' = b :: t ∧ ¬ (48 ≤ b.toNat ∧ b.toNat ≤ 57) := by
  induction m with
  | nil => intro ds m' h; simp [digitRun] at h
  | cons b m ih =>
    intro ds m' h
    rw [digitRun] at h
    split at h
    · next hb =>
      cases hr : digitRun m with
      | none => rw [hr] at h; cases h
      | some r =>
        rw [hr] at h
        obtain ⟨e1, e2, e3⟩ := ih (ds := r.1) (m' := r.2) hr
        cases h
        refine ⟨by rw [e1]; rfl, fun x hx => ?_, e3⟩
        rcases List.mem_cons.mp hx with rfl | hx
        · exact (Num.isDigit_iff _).mp hb
        · exact e2 x hx
    · next hb =>
      cases h
      exact ⟨rfl, fun x hx => by simp at hx, b, m, rfl, fun hd => hb ((Num.isDigit_iff b).mpr hd)⟩

theorem digitRun_some {m : Mem} (h : (0 : UInt8) ∈ m) : ∃ r, digitRun m = some r := by
  induction m with
  | nil => simp at h
  | cons b m ih =>
    rw [digitRun]
    split
    · next hb =>
      have hm : (0 : UInt8) ∈ m := by
        rcases List.mem_cons.mp h with rfl | h
        · exact absurd hb (by decide)
        · exact h
      obtain ⟨r, hr⟩ := ih hm
      exact ⟨_, by rw [hr]; rfl⟩
    · exact ⟨_, rfl⟩

theorem strtol_none {text : List UInt8} (h : ∀ neg ds, ¬ Begins text neg ds) : strtol (memory text) = some 0 := by
  have h0 : (0 : UInt8) ∈ memory text := by simp [memory]
  obtain ⟨a, a1, a2, _⟩ := Num.skipWs_some h0
  obtain ⟨⟨neg, m⟩, b1, b2, _⟩ := Num.sign_some a2
  obtain ⟨⟨ds, m'⟩, c1⟩ := digitRun_some b2
  obtain ⟨ws, c, t, e1, hw, _, _⟩ := skipWs_split a1
  obtain ⟨plus, e2⟩ := sign_split b1
  simp only at c1
  obtain ⟨e3, hd, d, u, e4, hnd⟩ := digitRun_split c1
  rw [strtol, a1, Option.bind_some, b1, Option.bind_some, c1, Option.map_some]
  by_cases hds : ds = []
  · subst hds
    cases neg <;> rfl
  · exfalso
    have hall : text ++ [0] = (ws ++ signText neg plus ++ ds) ++ d :: u := by
      have : memory text = text ++ [0] := rfl
      rw [← this, e1, e2, e3, e4]; simp
    -- the last byte is in the rest
    obtain ⟨rest, hrest⟩ : ∃ rest, text = ws ++ signText neg plus ++ ds ++ rest ∧ rest ++ [0] = d :: u := by
      rcases List.eq_nil_or_concat u with rfl | ⟨u', x, rfl⟩
      · refine ⟨[], ?_⟩
        have := List.append_inj' hall (by simp)
        exact ⟨by rw [this.1]; simp, by simpa using this.2⟩
      · refine ⟨d :: u', ?_⟩
        rw [List.concat_eq_append, ← List.cons_append, ← List.append_assoc] at hall
        have := List.append_inj' hall (by simp)
        refine ⟨this.1, ?_⟩
        rw [List.concat_eq_append, this.2]; rfl
    refine h neg ds ⟨ws, plus, rest, hw, hd, hds, ?_, hrest.1⟩
    intro b hb
    cases rest with
    | nil => simp at hb
    | cons r rs =>
      simp only [List.head?_cons, Option.some.injEq] at hb
      have := hrest.2
      simp only [List.cons_append, List.cons.injEq] at this
      rw [← hb, this.1]; exact hnd

theorem begins_ne {text ds : List UInt8} {neg : Bool} (h : Begins text neg ds) : 0 < text.length := by
  obtain ⟨ws, plus, rest, _, _, hne, _, rfl⟩ := h
  have := List.length_pos_iff.mpr hne
  simp; omega

/-- The text of an integer, followed by something that is not a digit. -/
theorem writes_begins {text rest : List UInt8} {i : Int} (h : Writes text i) (hr : ∀ b, rest.head? = some b → ¬ (48 ≤ b.toNat ∧ b.toNat ≤ 57)) :
    ∃ neg ds, Begins (text ++ rest) neg ds ∧ signed neg ds = i := by
  obtain ⟨ds, h1, h2, h3, _, rfl⟩ := h
  refine ⟨decide (i < 0), ds, ⟨[], false, rest, fun b hb => by simp at hb, h1, h2, hr, ?_⟩, ?_⟩
  · by_cases hi : i < 0 <;> simp [hi, signText]
  · unfold signed
    by_cases hi : i < 0
    · rw [if_pos (decide_eq_true hi), h3]; omega
    · rw [if_neg (by simp [hi]), h3]; omega

theorem toInt32_id {i : Int} (h1 : -(2 ^ 31) ≤ i) (h2 : i < 2 ^ 31) : toInt32 i = i := by
  unfold toInt32
  split <;> omega

/-! ## Numbers -/

theorem val_int {t : Number.Ty} (ht : t.fmt = none) (b : Nat) : Number.val t b = .fin (Number.intVal t b * Number.scale) := by
  unfold Number.val
  rw [ht]

theorem getScalar_int {a : Number.Obj} (ha : a.Ok) (hc : 0 < a.enc.count) (ht : a.enc.ty.fmt = none) (u : Number.Ty) (h32 : u = .i32 ∨ u = .i64)
    (hf : u.lo ≤ intAt a 0 ∧ intAt a 0 ≤ u.hi) :
    ∃ c, Number.getScalar a u = some c ∧ Number.intVal u c = intAt a 0 ∧ c < 2 ^ u.bits := by
  have hlt := (element_eq ha hc).2
  have hu : u.fmt = none := by rcases h32 with rfl | rfl <;> rfl
  have hfit : Number.Fits u (Number.val a.enc.ty (Number.elem a.enc.ty a.value 0)) := by
    refine ⟨Number.wrap u (intAt a 0), Number.wrap_lt _ _, ?_⟩
    rw [val_int hu, val_int ht]
    congr 2
    have hw : Number.intVal u (Number.wrap u (intAt a 0)) = intAt a 0 := by
      generalize intAt a 0 = i at hf
      unfold Number.wrap Number.intVal
      rcases h32 with rfl | rfl
      all_goals
        simp only [Number.Ty.lo, Number.Ty.hi, Number.Ty.signed, Number.Ty.bits, Number.Ty.size, if_true, Bool.true_and, Nat.reduceMul, Nat.reduceSub, Nat.reducePow, Int.reducePow] at hf ⊢
        split
        · next h => have h' := of_decide_eq_true h; omega
        · next h => have h' := of_decide_eq_false (Bool.not_eq_true _ ▸ h); omega
    exact hw
  obtain ⟨c, h1, h2, h3⟩ := Number.C31_value a.enc.ty u _ hlt (by rw [val_int ht]; nofun) hfit
  have hcast : Number.intVal u c = intAt a 0 := by
    rw [val_int hu, val_int ht] at h3
    have := Number.mul_scale_inj (Number.Num.fin.inj h3)
    exact this
  have hone : (Number.vec u 1).count = 1 := rfl
  have hmin : min a.enc.count (Number.vec u 1).count = 1 := by rw [hone]; omega
  obtain ⟨d, g1, g2, g3, _⟩ := Number.C31_vector a.value (List.replicate u.size 0) a.enc (Number.vec u 1) ha
    (by simp [Number.Enc.size, Number.Enc.count, Number.vec]) (.inr (.inr rfl))
    (by
      intro i hi1 hi2
      have : i = 0 := by simp [Number.Enc.count, Number.vec] at hi2; exact hi2
      subst this
      simp only [Number.vec]; exact ⟨c, h1⟩)
  rw [hmin] at g1 g3
  have g4 := g3 0 (by omega)
  simp only [Number.vec] at g4
  rw [h1] at g4
  refine ⟨c, ?_, hcast, h2⟩
  unfold Number.getScalar
  rw [g1]
  simp only [Option.bind_some, if_true]
  rw [show (0 : Nat) = 0 * u.size by simp, Number.read_elem (by rw [g2]; simp)]
  rw [← Option.some.inj g4]

end Convert
end Duck
