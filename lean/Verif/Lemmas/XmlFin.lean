import Verif.Lemmas.XmlReject
import Verif.Spec.XmlLoose

/-! # Helper lemmas for XML: what an accepted text looks like, from the front; bytes, names, references -/

namespace Duck.Xml

/-- From this state the rest of the text is accepted, and the tree is `t`. -/
def Fin (t : Node) (s : Abs) (b : Builder) (rest : Bytes) : Prop :=
  (∀ c ∈ rest, c ≠ 0x0d) ∧ ∃ s' b', aloop s b rest = some (.ok (s', b')) ∧ s'.ctl.st = .misc3 ∧ b'.done = some t

theorem Fin.after {t : Node} {s s' : Abs} {b b' : Builder} {l m : Bytes} (h : Fin t s b (l ++ m)) (hr : Runs s b l s' b') :
    Fin t s' b' m := by
  obtain ⟨hc, s1, b1, h1, h2, h3⟩ := h
  refine ⟨fun c hm => hc c (by simp [hm]), s1, b1, ?_, h2, h3⟩
  rw [aloop_append, hr] at h1
  exact h1

variable {t : Node} {st nx : St} {lit : Bytes} {q : UInt8} {d : Bytes} {es : List Bytes} {top : Top} {k : Nat}
  {b : Builder} {rest m : Bytes} {ch : UInt8}

theorem Fin.plain (h : Fin t (S st nx lit q d es top k) b (ch :: m)) : Plain ch := by
  obtain ⟨hc, s1, b1, h1, h2, h3⟩ := h
  refine ⟨?_, hc ch (by simp)⟩
  rintro rfl
  simp [aloop, astep, ahandle, Ret.isError] at h1

/-- There is a next byte, unless this is the state at the end. -/
theorem Fin.head (h : Fin t (S st nx lit q d es top k) b rest) (hst : st ≠ .misc3) :
    ∃ ch m, rest = ch :: m ∧ Plain ch := by
  match rest, h with
  | [], h =>
    obtain ⟨_, s1, b1, h1, h2, _⟩ := h
    simp only [aloop, Option.some.injEq, Except.ok.injEq, Prod.mk.injEq] at h1
    obtain ⟨rfl, rfl⟩ := h1
    exact absurd h2 hst
  | ch :: m, h => exact ⟨ch, m, rfl, h.plain⟩

theorem Fin.step {c : Ctl} {a : Act} {s' : Abs} {r : Ret} {x : Bytes} {b' : Builder}
    (h : Fin t (S st nx lit q d es top k) b (ch :: m)) (ht : trans ⟨st, nx, lit, q⟩ ch = some (c, a))
    (ha : aperform a ⟨c, 0, d, es, top, k⟩ ch = some (s', r, x)) (hr : r.isError = false) (hb : build b r x = some b') :
    Fin t s' b' m :=
  Fin.after (l := [ch]) h (step1 h.plain ht ha hr hb)

theorem Fin.go {c : Ctl} (h : Fin t (S st nx lit q d es top k) b (ch :: m))
    (ht : trans ⟨st, nx, lit, q⟩ ch = some (c, .ok)) : Fin t ⟨c, 0, d, es, top, k⟩ b m :=
  h.step ht rfl rfl rfl

theorem Fin.err {c : Ctl} {a : Act} {s' : Abs} {r : Ret} {x : Bytes} 
    (h : Fin t (S st nx lit q d es top k) b (ch :: m)) (ht : trans ⟨st, nx, lit, q⟩ ch = some (c, a))
    (ha : aperform a ⟨c, 0, d, es, top, k⟩ ch = some (s', r, x)) (hr : r.isError = true) : False := by
  have hp := h.plain
  obtain ⟨_, s1, b1, h1, _⟩ := h
  unfold aloop astep at h1
  rw [if_neg hp.1, if_neg (fun h => hp.1 h.symm), if_neg hp.2, if_neg hp.2] at h1
  unfold afeed at h1
  simp [ht, ha, ahandle, hr] at h1

theorem Fin.stuck (h : Fin t (S st nx lit q d es top k) b (ch :: m)) (ht : trans ⟨st, nx, lit, q⟩ ch = none) : False := by
  have hp := h.plain
  obtain ⟨_, s1, b1, h1, _⟩ := h
  unfold aloop astep at h1
  rw [if_neg hp.1, if_neg (fun h => hp.1 h.symm), if_neg hp.2, if_neg hp.2] at h1
  unfold afeed at h1
  simp [ht, ahandle, Ret.isError] at h1

/-! ## Bytes -/

theorem blank_of {c : UInt8} : isSP c = true → Blank c := by
  exact all_bytes (P := fun b => isSP b = true → Blank b) (by decide +kernel) c
theorem nameStart_of {c : UInt8} : isNameStart c = true → NameStart c := by
  exact all_bytes (P := fun b => isNameStart b = true → NameStart b) (by decide +kernel) c
theorem nameChar_of {c : UInt8} : isName c = true → NameChar c := by
  exact all_bytes (P := fun b => isName b = true → NameChar b) (by decide +kernel) c
theorem digit_of {c : UInt8} : isNum c = true → 0x30 ≤ c ∧ c ≤ 0x39 := by
  exact all_bytes (P := fun c => isNum c = true → 0x30 ≤ c ∧ c ≤ 0x39) (by decide +kernel) c
theorem hex_of {c : UInt8} : isHex c = true → (0x30 ≤ c ∧ c ≤ 0x39) ∨ (0x61 ≤ c ∧ c ≤ 0x66) ∨ (0x41 ≤ c ∧ c ≤ 0x46) := by
  exact all_bytes (P := fun c => isHex c = true → (0x30 ≤ c ∧ c ≤ 0x39) ∨ (0x61 ≤ c ∧ c ≤ 0x66) ∨ (0x41 ≤ c ∧ c ≤ 0x46))
    (by decide +kernel) c
theorem alpha_of {c : UInt8} : isAlpha c = true → (0x61 ≤ c ∧ c ≤ 0x7a) ∨ (0x41 ≤ c ∧ c ≤ 0x5a) := by
  exact all_bytes (P := fun c => isAlpha c = true → (0x61 ≤ c ∧ c ≤ 0x7a) ∨ (0x41 ≤ c ∧ c ≤ 0x5a)) (by decide +kernel) c
theorem encName_of {c : UInt8} : isEncName c = true →
    (0x61 ≤ c ∧ c ≤ 0x7a) ∨ (0x41 ≤ c ∧ c ≤ 0x5a) ∨ (0x30 ≤ c ∧ c ≤ 0x39) ∨ c = 0x2e ∨ c = 0x5f ∨ c = 0x2d := by
  exact all_bytes (P := fun c => isEncName c = true →
    (0x61 ≤ c ∧ c ≤ 0x7a) ∨ (0x41 ≤ c ∧ c ≤ 0x5a) ∨ (0x30 ≤ c ∧ c ≤ 0x39) ∨ c = 0x2e ∨ c = 0x5f ∨ c = 0x2d)
    (by decide +kernel) c

theorem span (p : UInt8 → Bool) (l : Bytes) :
    ∃ w m, l = w ++ m ∧ (∀ c ∈ w, p c = true) ∧ ∀ c r, m = c :: r → p c = false := by
  induction l with
  | nil => exact ⟨[], [], rfl, by simp, by simp⟩
  | cons c l ih =>
    by_cases hc : p c = true
    · obtain ⟨w, m, h1, h2, h3⟩ := ih
      refine ⟨c :: w, m, by rw [h1]; rfl, ?_, h3⟩
      intro x hx
      rcases List.mem_cons.mp hx with rfl | hx
      · exact hc
      · exact h2 x hx
    · refine ⟨[], c :: l, rfl, by simp, ?_⟩
      intro x r hx
      simp only [List.cons.injEq] at hx
      rw [← hx.1]; simpa using hc

/-- Everything up to the first byte that is not in a class, where the class leads from `s` to `s'`. -/
theorem Fin.span {s' : Bytes → Abs} (p : UInt8 → Bool) (h : Fin t (S st nx lit q d es top k) b rest)
    (hr : ∀ w, (∀ c ∈ w, p c = true) → (∀ c ∈ w, Plain c) → Runs (S st nx lit q d es top k) b w (s' w) b)
    (hs : ∀ w, (s' w).ctl.st ≠ .misc3) :
    ∃ w ch m, rest = w ++ ch :: m ∧ (∀ c ∈ w, p c = true) ∧ (∀ c ∈ w, Plain c) ∧ p ch = false ∧
      Fin t (s' w) b (ch :: m) := by
  obtain ⟨w, m, h1, h2, h3⟩ := Xml.span p rest
  subst h1
  have hz : ∀ c ∈ w, Plain c := by
    intro c hc
    refine ⟨?_, h.1 c (by simp [hc])⟩
    rintro rfl
    obtain ⟨w1, w2, hw⟩ := List.append_of_mem hc
    obtain ⟨_, s1, b1, e1, e2, _⟩ := h
    -- a zero byte stops every run
    have zero : ∀ (w1 : Bytes) (s : Abs) (b : Builder) (r : Bytes) x, aloop s b (w1 ++ (0 : UInt8) :: r) ≠ some (.ok x) := by
      intro w1
      induction w1 with
      | nil => intro s b r x hx; simp [aloop, astep, ahandle, Ret.isError] at hx
      | cons c w1 ih =>
        intro s b r x hx
        simp only [List.cons_append, aloop] at hx
        cases h4 : (astep s c).bind (ahandle b) with
        | none => rw [h4] at hx; simp at hx
        | some y =>
          rw [h4] at hx
          cases y with
          | error r => simp at hx
          | ok y => exact ih _ _ _ _ hx
    rw [hw, List.append_assoc, List.cons_append] at e1
    exact zero _ _ _ _ _ e1
  have hf := h.after (hr w h2 hz)
  have : ∃ ch r, m = ch :: r := by
    match m, hf with
    | [], hf =>
      obtain ⟨_, s1, b1, e1, e2, _⟩ := hf
      simp only [aloop, Option.some.injEq, Except.ok.injEq, Prod.mk.injEq] at e1
      rw [← e1.1] at e2
      exact absurd e2 (hs w)
    | ch :: r, _ => exact ⟨ch, r, rfl⟩
  obtain ⟨ch, r, rfl⟩ := this
  exact ⟨w, ch, r, rfl, h2, hz, h3 ch r rfl, hf⟩

/-- White space that changes nothing. -/
theorem Fin.blanks (h : Fin t (S st nx lit q d es top k) b rest) (hst : st ≠ .misc3)
    (hsp : ∀ ch, isSP ch = true → trans ⟨st, nx, lit, q⟩ ch = some (⟨st, nx, lit, q⟩, .ok)) :
    ∃ w ch m, rest = w ++ ch :: m ∧ Blanks w ∧ isSP ch = false ∧ Fin t (S st nx lit q d es top k) b (ch :: m) := by
  obtain ⟨w, ch, m, h1, h2, h3, h4, h5⟩ := h.span (s' := fun _ => S st nx lit q d es top k) isSP
    (fun w hw _ => blanks_same (fun c hc => blank_of (hw c hc)) hsp) (fun _ => hst)
  exact ⟨w, ch, m, h1, fun c hc => blank_of (h2 c hc), h4, h5⟩

/-- A literal. -/
theorem Fin.literal {l : Bytes} (h : Fin t (S .string nx l q d es top k) b rest) (hl : l ≠ []) :
    ∃ m, rest = l ++ m ∧ Fin t (S nx nx [] q d es top k) b m := by
  induction l generalizing rest with
  | nil => exact absurd rfl hl
  | cons c l ih =>
    obtain ⟨ch, m, rfl, hp⟩ := h.head (by simp)
    by_cases hc : ch = c
    · subst hc
      by_cases h0 : l = []
      · subst h0
        exact ⟨m, rfl, h.go (by simp [trans])⟩
      · have h1 := h.go (c := ⟨.string, nx, l, q⟩) (by simp [trans, h0])
        obtain ⟨m', rfl, h2⟩ := ih h1 h0
        exact ⟨m', rfl, h2⟩
    · exact (h.stuck (by simp [trans, hc])).elim

/-! ## References -/

theorem mem_while {p : UInt8 → Bool} {l : Bytes} {c : UInt8} (h : c ∈ l.takeWhile p) : p c = true := by
  induction l with
  | nil => simp at h
  | cons x l ih =>
    rw [List.takeWhile_cons] at h
    split at h
    · rename_i hx
      rcases List.mem_cons.mp h with rfl | h
      · exact hx
      · exact ih h
    · simp at h

theorem value_ref {y : Bytes} (hy : y.length ≤ 7) (hr : refRejected (refValue y) = false) :
    ∃ r : Ref, y = r.inner ∧ r.Taken ∧ r.value = refValue y := by
  have h0 : refValue y ≠ 0 := by
    intro h0; rw [h0] at hr; simp [refRejected] at hr
  have hv : refValue y ≠ 0 ∧ refValue y ≤ 0x10FFFF ∧ refValue y ≠ 0xFFFE ∧ refValue y ≠ 0xFFFF ∧
      ¬ (0xDFFF ≤ refValue y ∧ refValue y ≤ 0xE7FD) := by
    unfold refRejected at hr
    simp only [Bool.or_eq_false_iff, beq_eq_false_iff_ne, decide_eq_false_iff_not] at hr
    obtain ⟨⟨⟨⟨a1, a2⟩, a3⟩, a4⟩, a5⟩ := hr
    refine ⟨a1, by omega, a3, a4, ?_⟩
    omega
  clear hr
  unfold refValue at h0
  split at h0
  · rename_i r
    have hd : r.dropWhile isHex = [] := Decidable.byContradiction fun h1 => by simp [h1] at h0
    have ha : ∀ c ∈ r, isHex c = true := by
      intro c hc
      rw [← List.takeWhile_append_dropWhile (p := isHex) (l := r), hd, List.append_nil] at hc
      exact mem_while hc
    have hval : refValue (0x23 :: 0x78 :: r) = number 16 r := by
      have h2 := all_dropWhile ha
      simp only [refValue, h2.1, h2.2, if_true]
      exact foldl_digit (fun c hc => (isRef_digit (hex_of (ha c hc))).2.2.1) 0
    rw [hval] at hv ⊢
    refine ⟨.hex r, rfl, ⟨⟨?_, fun c hc => hex_of (ha c hc)⟩, hv⟩, rfl⟩
    simp only [List.length_cons] at hy; omega
  · rename_i r hne
    have hd : r.dropWhile isNum = [] := Decidable.byContradiction fun h1 => by simp [h1] at h0
    have ha : ∀ c ∈ r, isNum c = true := by
      intro c hc
      rw [← List.takeWhile_append_dropWhile (p := isNum) (l := r), hd, List.append_nil] at hc
      exact mem_while hc
    have hval : refValue (0x23 :: r) = number 10 r := by
      have h2 := all_dropWhile ha
      unfold refValue
      split
      · rename_i r' heq
        simp only [List.cons.injEq, true_and] at heq
        exact absurd heq (hne r')
      · rename_i r' _ heq
        simp only [List.cons.injEq, true_and] at heq
        subst heq
        rw [h2.1, h2.2, if_pos rfl]
        exact foldl_digit (fun c hc => (isNum_digit (digit_of (ha c hc))).2.2.1) 0
      · rename_i h1 h2
        exact absurd rfl (h2 r)
    rw [hval] at hv ⊢
    refine ⟨.dec r, rfl, ⟨⟨?_, fun c hc => digit_of (ha c hc)⟩, hv⟩, rfl⟩
    simp only [List.length_cons] at hy; omega
  · have take5' : ∀ {x : Bytes}, x.length < 5 → y.take 5 = x → y = x := by
      intro x hx h
      have h1 : (y.take 5).length = x.length := by rw [h]
      rw [List.length_take] at h1
      rw [List.take_of_length_le (by omega)] at h
      exact h
    split at h0
    · rename_i h1; have := take5' (by decide) h1; subst this
      exact ⟨.lt, rfl, ⟨trivial, hv⟩, rfl⟩
    · split at h0
      · rename_i h1; have := take5' (by decide) h1; subst this
        exact ⟨.gt, rfl, ⟨trivial, hv⟩, rfl⟩
      · split at h0
        · rename_i h1; have := take5' (by decide) h1; subst this
          exact ⟨.amp, rfl, ⟨trivial, hv⟩, rfl⟩
        · split at h0
          · rename_i h1; have := take5' (by decide) h1; subst this
            exact ⟨.apos, rfl, ⟨trivial, hv⟩, rfl⟩
          · split at h0
            · rename_i h1; have := take5' (by decide) h1; subst this
              exact ⟨.quot, rfl, ⟨trivial, hv⟩, rfl⟩
            · exact absurd rfl h0

/-- What a reference is replaced by. -/
theorem utf8Of_eq {v : Nat} (h : v < 0x110000) : setutf8 v = utf8Of v := by
  have e : ∀ x, x &&& 0x3F = x % 64 := fun x => Nat.and_two_pow_sub_one_eq_mod x 6
  unfold setutf8 utf8Of
  simp only [e, Nat.shiftRight_eq_div_pow, Nat.reducePow]
  by_cases h1 : v ≤ 0x7F
  · simp only [if_pos h1, show v < 0x80 by omega, if_true, List.map]
  · by_cases h2 : v ≤ 0x7FF
    · simp only [if_neg h1, if_pos h2, show ¬ v < 0x80 by omega, show v < 0x800 by omega, if_true, if_false, List.map]
      rw [shift2_table _ (by omega), shift_table _ (by omega), Nat.add_comm 0xC0, Nat.add_comm 0x80]
    · by_cases h3 : v ≤ 0xFFFF
      · simp only [if_neg h1, if_neg h2, if_pos h3, show ¬ v < 0x80 by omega, show ¬ v < 0x800 by omega,
          show v < 0x10000 by omega, if_true, if_false, List.map]
        rw [shift3_table _ (by omega), shift_table _ (by omega), shift_table _ (by omega), Nat.add_comm 0xE0,
          Nat.add_comm 0x80, Nat.add_comm 0x80]
      · simp only [if_neg h1, if_neg h2, if_neg h3, show ¬ v < 0x80 by omega, show ¬ v < 0x800 by omega,
          show ¬ v < 0x10000 by omega, if_false, List.map]
        rw [shift4_table _ (by omega), shift_table _ (by omega), shift_table _ (by omega), shift_table _ (by omega),
          Nat.add_comm 0xF0, Nat.add_comm 0x80, Nat.add_comm 0x80, Nat.add_comm 0x80]

theorem Fin.refBytes (h : Fin t (S st nx lit q d es top 0) b rest) (hd : d.length ≤ 7) (hst : st ≠ .misc3)
    (hs : ∀ ch, isRef ch = true → trans ⟨st, nx, lit, q⟩ ch = some (⟨st, nx, lit, q⟩, .ref))
    (hn : ∀ ch, isRef ch = false → ch ≠ 0x3b → trans ⟨st, nx, lit, q⟩ ch = none) :
    ∃ y m, rest = y ++ 0x3b :: m ∧ (d ++ y).length ≤ 7 ∧ Fin t (S st nx lit q (d ++ y) es top 0) b (0x3b :: m) := by
  induction hl : rest.length generalizing rest d with
  | zero =>
    obtain ⟨ch, m, rfl, _⟩ := h.head hst
    simp at hl
  | succ n ih =>
    obtain ⟨ch, m, rfl, hp⟩ := h.head hst
    cases hr : isRef ch with
    | true =>
      by_cases h7 : 7 ≤ d.length
      · exact (h.err (hs ch hr) (s' := S st nx lit q d es top 0) (r := .eref) (x := [])
          (by simp [aperform, h7]) rfl).elim
      · have h1 := h.step (hs ch hr) (s' := S st nx lit q (d ++ [ch]) es top 0) (r := .ok) (x := []) (b' := b)
          (by simp [aperform, h7]) rfl rfl
        obtain ⟨y, m', rfl, h3, h4⟩ := ih h1 (by simp; omega) (by simpa using hl)
        exact ⟨ch :: y, m', rfl, by simpa using h3, by simpa using h4⟩
    | false =>
      by_cases h3 : ch = 0x3b
      · subst h3
        exact ⟨[], m, rfl, by simpa using hd, by simpa using h⟩
      · exact (h.stuck (hn ch hr h3)).elim

end Duck.Xml
