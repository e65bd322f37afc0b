import Verif.Lemmas.XmlShape
import Verif.Lemmas.UnicodeScan
import Verif.Spec.Xml

/-! # Helper lemmas for XML: running the tokenizer over the constructs of the grammar -/

namespace Duck.Xml

/-! ## Byte classes -/

theorem all_bytes {P : UInt8 → Prop} (h : ∀ n, n < 256 → P (UInt8.ofNat n)) (b : UInt8) : P b := by
  have := h b.toNat b.toNat_lt
  rwa [UInt8.ofNat_toNat] at this

theorem isSP_of {b : UInt8} (h : Blank b) : isSP b = true := by
  rcases h with rfl | rfl | rfl <;> decide

instance (b : UInt8) : Decidable (NameStart b) := by unfold NameStart; infer_instance
instance (b : UInt8) : Decidable (NameChar b) := by unfold NameChar; infer_instance
instance (b : UInt8) : Decidable (Blank b) := by unfold Blank; infer_instance

theorem isNameStart_of {b : UInt8} : NameStart b → isNameStart b = true := by
  exact all_bytes (P := fun b => NameStart b → isNameStart b = true) (by decide +kernel) b

theorem isName_of {b : UInt8} : NameChar b → isName b = true := by
  exact all_bytes (P := fun b => NameChar b → isName b = true) (by decide +kernel) b

theorem nameStart_char {b : UInt8} (h : NameStart b) : NameChar b := Or.inl h

/-- What is known about a name byte: it is none of the bytes the tokenizer looks for. -/
theorem name_facts {b : UInt8} : NameChar b →
    b ≠ 0 ∧ b ≠ 0x0d ∧ isSP b = false ∧ b ≠ 0x2f ∧ b ≠ 0x3e ∧ b ≠ 0x3d ∧ b ≠ 0x3f ∧ b ≠ 0x21 ∧ b ≠ 0x3c := by
  exact all_bytes (P := fun b => NameChar b →
    b ≠ 0 ∧ b ≠ 0x0d ∧ isSP b = false ∧ b ≠ 0x2f ∧ b ≠ 0x3e ∧ b ≠ 0x3d ∧ b ≠ 0x3f ∧ b ≠ 0x21 ∧ b ≠ 0x3c)
    (by decide +kernel) b

theorem start_facts {b : UInt8} : NameStart b → b ≠ 0x2d ∧ isNum b = false := by
  exact all_bytes (P := fun b => NameStart b → b ≠ 0x2d ∧ isNum b = false) (by decide +kernel) b

theorem blank_facts {b : UInt8} : Blank b →
    b ≠ 0 ∧ b ≠ 0x0d ∧ isName b = false ∧ b ≠ 0x2f ∧ b ≠ 0x3e ∧ b ≠ 0x3d ∧ b ≠ 0x3f ∧ b ≠ 0x21 ∧ b ≠ 0x3c := by
  rintro (rfl | rfl | rfl) <;> decide

theorem name_plain {b : UInt8} (h : NameChar b) : Plain b := ⟨(name_facts h).1, (name_facts h).2.1⟩
theorem blank_plain {b : UInt8} (h : Blank b) : Plain b := ⟨(blank_facts h).1, (blank_facts h).2.1⟩

/-! ## Runs -/

abbrev S (st nx : St) (lit : Bytes) (q : UInt8) (d : Bytes) (es : List Bytes) (top : Top) (k : Nat) : Abs :=
  ⟨⟨st, nx, lit, q⟩, 0, d, es, top, k⟩

def Runs (s : Abs) (b : Builder) (l : Bytes) (s' : Abs) (b' : Builder) : Prop :=
  aloop s b l = some (.ok (s', b'))

theorem aloop_append (s : Abs) (b : Builder) (l m : Bytes) :
    aloop s b (l ++ m) = (aloop s b l).bind fun
      | .error r => some (.error r)
      | .ok (s, b) => aloop s b m := by
  induction l generalizing s b with
  | nil => simp [aloop]
  | cons ch l ih =>
    simp only [List.cons_append, aloop]
    cases astep s ch with
    | none => rfl
    | some t =>
      simp only [Option.bind_some]
      cases ahandle b t with
      | none => rfl
      | some x =>
        cases x with
        | error r => rfl
        | ok y => simp only [Option.bind_some]; exact ih y.1 y.2

theorem Runs.nil (s : Abs) (b : Builder) : Runs s b [] s b := rfl

theorem Runs.append {s s' s'' : Abs} {b b' b'' : Builder} {l m : Bytes} (h : Runs s b l s' b')
    (h' : Runs s' b' m s'' b'') : Runs s b (l ++ m) s'' b'' := by
  unfold Runs at *
  rw [aloop_append, h]
  exact h'

theorem Runs.cons {s s' s'' : Abs} {b b' b'' : Builder} {ch : UInt8} {m : Bytes} (h : Runs s b [ch] s' b')
    (h' : Runs s' b' m s'' b'') : Runs s b (ch :: m) s'' b'' := h.append h'

/-- One byte. -/
theorem step1 {st nx : St} {lit : Bytes} {q : UInt8} {d : Bytes} {es : List Bytes} {top : Top} {k : Nat}
    {b b' : Builder} {ch : UInt8} {c : Ctl} {a : Act} {s' : Abs} {r : Ret} {t : Bytes} (hp : Plain ch)
    (ht : trans ⟨st, nx, lit, q⟩ ch = some (c, a)) (ha : aperform a ⟨c, 0, d, es, top, k⟩ ch = some (s', r, t))
    (hr : r.isError = false) (hb : build b r t = some b') : Runs (S st nx lit q d es top k) b [ch] s' b' := by
  unfold Runs aloop astep
  rw [if_neg hp.1, if_neg (fun h => hp.1 h.symm), if_neg hp.2, if_neg hp.2]
  unfold afeed
  simp only [ht, ha, Option.bind_some, ahandle, hr, hb]
  rfl

/-- One byte that only changes the control state. -/
theorem step_ok1 {st nx : St} {lit : Bytes} {q : UInt8} {d : Bytes} {es : List Bytes} {top : Top} {k : Nat}
    {b : Builder} {ch : UInt8} {c : Ctl} (hp : Plain ch) (ht : trans ⟨st, nx, lit, q⟩ ch = some (c, .ok)) :
    Runs (S st nx lit q d es top k) b [ch] ⟨c, 0, d, es, top, k⟩ b :=
  step1 hp ht rfl rfl rfl

/-- Bytes that leave everything as it is. -/
theorem loop_same {st nx : St} {lit : Bytes} {q : UInt8} {d : Bytes} {es : List Bytes} {top : Top} {k : Nat}
    {b : Builder} {w : Bytes}
    (h : ∀ ch ∈ w, Plain ch ∧ trans ⟨st, nx, lit, q⟩ ch = some (⟨st, nx, lit, q⟩, .ok)) :
    Runs (S st nx lit q d es top k) b w (S st nx lit q d es top k) b := by
  induction w with
  | nil => exact Runs.nil _ _
  | cons ch w ih =>
    have h1 := h ch (by simp)
    exact (step_ok1 h1.1 h1.2).cons (ih fun c hc => h c (by simp [hc]))

theorem blanks_same {st nx : St} {lit : Bytes} {q : UInt8} {d : Bytes} {es : List Bytes} {top : Top} {k : Nat}
    {b : Builder} {w : Bytes} (hw : Blanks w)
    (h : ∀ ch, isSP ch = true → trans ⟨st, nx, lit, q⟩ ch = some (⟨st, nx, lit, q⟩, .ok)) :
    Runs (S st nx lit q d es top k) b w (S st nx lit q d es top k) b :=
  loop_same fun ch hc => ⟨blank_plain (hw ch hc), h ch (isSP_of (hw ch hc))⟩

/-- A literal. -/
theorem lit_run {nx : St} {q : UInt8} {d : Bytes} {es : List Bytes} {top : Top} {k : Nat} {b : Builder} {l : Bytes}
    (hl : l ≠ []) (hp : ∀ c ∈ l, Plain c) :
    Runs (S .string nx l q d es top k) b l (S nx nx [] q d es top k) b := by
  induction l with
  | nil => exact absurd rfl hl
  | cons c l ih =>
    by_cases h0 : l = []
    · subst h0
      exact step_ok1 (hp c (by simp)) (by simp [trans])
    · refine Runs.cons (s' := S .string nx l q d es top k) (b' := b) ?_ (ih h0 fun x hx => hp x (by simp [hx]))
      exact step_ok1 (hp c (by simp)) (by simp [trans, h0])

/-! ## Names -/

theorem elem_name {nx : St} {lit : Bytes} {q : UInt8} {d e : Bytes} {es : List Bytes} {b : Builder} {l : Bytes}
    (h : ∀ c ∈ l, NameChar c) :
    Runs (S .elem0 nx lit q d (e :: es) .none 0) b l (S .elem0 nx lit q d ((e ++ l) :: es) .none 0) b := by
  induction l generalizing e with
  | nil => simpa using Runs.nil _ _
  | cons c l ih =>
    have h1 := h c (by simp)
    refine Runs.cons (s' := S .elem0 nx lit q d ((e ++ [c]) :: es) .none 0) (b' := b) ?_ ?_
    · exact step1 (c := ⟨.elem0, nx, lit, q⟩) (a := .elemname) (name_plain h1) (by simp [trans, isName_of h1]) rfl rfl rfl
    · have := ih (e := e ++ [c]) fun x hx => h x (by simp [hx])
      simpa using this

theorem attr_name {nx : St} {lit : Bytes} {q : UInt8} {d e : Bytes} {es : List Bytes} {b : Builder} {l : Bytes}
    (h : ∀ c ∈ l, NameChar c) :
    Runs (S .attr0 nx lit q d es (.attr e) 0) b l (S .attr0 nx lit q d es (.attr (e ++ l)) 0) b := by
  induction l generalizing e with
  | nil => simpa using Runs.nil _ _
  | cons c l ih =>
    have h1 := h c (by simp)
    refine Runs.cons (s' := S .attr0 nx lit q d es (.attr (e ++ [c])) 0) (b' := b) ?_ ?_
    · exact step1 (c := ⟨.attr0, nx, lit, q⟩) (a := .attrname) (name_plain h1) (by simp [trans, isName_of h1]) rfl rfl rfl
    · have := ih (e := e ++ [c]) fun x hx => h x (by simp [hx])
      simpa using this

theorem pi_name {nx : St} {lit : Bytes} {q : UInt8} {d e : Bytes} {es : List Bytes} {b : Builder} {l : Bytes}
    (h : ∀ c ∈ l, NameChar c) :
    Runs (S .pi1 nx lit q d es (.pi e) 0) b l (S .pi1 nx lit q d es (.pi (e ++ l)) 0) b := by
  induction l generalizing e with
  | nil => simpa using Runs.nil _ _
  | cons c l ih =>
    have h1 := h c (by simp)
    refine Runs.cons (s' := S .pi1 nx lit q d es (.pi (e ++ [c])) 0) (b' := b) ?_ ?_
    · exact step1 (c := ⟨.pi1, nx, lit, q⟩) (a := .piname) (name_plain h1) (by simp [trans, isName_of h1]) rfl rfl rfl
    · have := ih (e := e ++ [c]) fun x hx => h x (by simp [hx])
      simpa using this

/-! ## References -/

theorem shift_table : ∀ x, x < 64 → 0x80 ||| x = x + 128 := by decide +kernel
theorem shift2_table : ∀ x, x < 32 → 0xC0 ||| x = x + 192 := by decide +kernel
theorem shift3_table : ∀ x, x < 16 → 0xE0 ||| x = x + 224 := by decide +kernel
theorem shift4_table : ∀ x, x < 8 → 0xF0 ||| x = x + 240 := by decide +kernel

theorem setutf8_eq {v : Nat} (h : v < 0x110000) : setutf8 v = Unicode.encNat v := by
  have e : ∀ x, x &&& 0x3F = x % 64 := fun x => Nat.and_two_pow_sub_one_eq_mod x 6
  unfold setutf8 Unicode.encNat
  simp only [e, Nat.shiftRight_eq_div_pow, Nat.reducePow]
  split
  · rfl
  · split
    · rw [shift2_table _ (by omega), shift_table _ (by omega), Nat.mod_eq_of_lt (a := v / 64) (by omega)]
    · split
      · rw [shift3_table _ (by omega), shift_table _ (by omega), shift_table _ (by omega),
          Nat.mod_eq_of_lt (a := v / 4096) (b := 16) (by omega)]
      · rw [shift4_table _ (by omega), shift_table _ (by omega), shift_table _ (by omega), shift_table _ (by omega),
          Nat.mod_eq_of_lt (a := v / 262144) (b := 8) (by omega)]

theorem chars_eq (r : Ref) (h : r.Legal) : setutf8 r.value = r.chars := by
  have hv : r.value.isValidChar := h.2.2.1
  unfold Ref.chars
  rw [Unicode.enc_eq]
  have h1 : (Char.ofNat r.value).toNat = r.value := by
    unfold Char.ofNat
    rw [dif_pos hv]
    rfl
  rw [h1]
  refine setutf8_eq ?_
  rcases hv with hv | hv <;> omega

theorem not_rejected (r : Ref) (h : r.OK) : refRejected r.value = false := by
  obtain ⟨⟨_, h0, hv, hfe, hff⟩, _, hs⟩ := h
  have h1 : r.value < 0xd800 ∨ (0xdfff < r.value ∧ r.value < 0x110000) := hv
  unfold refRejected
  simp only [Bool.or_eq_false_iff, beq_eq_false_iff_ne, decide_eq_false_iff_not]
  refine ⟨⟨⟨⟨h0, by omega⟩, hfe⟩, hff⟩, ?_⟩
  omega

theorem isRef_digit {c : UInt8} : ((0x30 ≤ c ∧ c ≤ 0x39) ∨ (0x61 ≤ c ∧ c ≤ 0x66) ∨ (0x41 ≤ c ∧ c ≤ 0x46)) →
    isRef c = true ∧ isHex c = true ∧ hexDigit c = digitVal c ∧ Plain c := by
  exact all_bytes (P := fun c => ((0x30 ≤ c ∧ c ≤ 0x39) ∨ (0x61 ≤ c ∧ c ≤ 0x66) ∨ (0x41 ≤ c ∧ c ≤ 0x46)) →
    isRef c = true ∧ isHex c = true ∧ hexDigit c = digitVal c ∧ Plain c) (by unfold Plain; decide +kernel) c

theorem isNum_digit {c : UInt8} : (0x30 ≤ c ∧ c ≤ 0x39) →
    isRef c = true ∧ isNum c = true ∧ c.toNat - 0x30 = digitVal c ∧ Plain c ∧ c ≠ 0x78 := by
  exact all_bytes (P := fun c => (0x30 ≤ c ∧ c ≤ 0x39) →
    isRef c = true ∧ isNum c = true ∧ c.toNat - 0x30 = digitVal c ∧ Plain c ∧ c ≠ 0x78) (by unfold Plain; decide +kernel) c

theorem foldl_digit {base : Nat} {f : UInt8 → Nat} {ds : Bytes} (h : ∀ c ∈ ds, f c = digitVal c) (n : Nat) :
    ds.foldl (fun n c => n * base + f c) n = ds.foldl (fun n c => n * base + digitVal c) n := by
  induction ds generalizing n with
  | nil => rfl
  | cons c l ih =>
    simp only [List.foldl_cons, h c (by simp)]
    exact ih (fun x hx => h x (by simp [hx])) _

theorem all_dropWhile {p : UInt8 → Bool} {l : Bytes} (h : ∀ c ∈ l, p c = true) :
    l.dropWhile p = [] ∧ l.takeWhile p = l := by
  induction l with
  | nil => exact ⟨rfl, rfl⟩
  | cons c l ih =>
    have := ih fun x hx => h x (by simp [hx])
    simp [h c (by simp), this]

/-- The bytes between `&` and `;`. -/
def Ref.inner : Ref → Bytes
  | .lt => [0x6c, 0x74]
  | .gt => [0x67, 0x74]
  | .amp => [0x61, 0x6d, 0x70]
  | .apos => [0x61, 0x70, 0x6f, 0x73]
  | .quot => [0x71, 0x75, 0x6f, 0x74]
  | .dec ds => 0x23 :: ds
  | .hex ds => 0x23 :: 0x78 :: ds

theorem Ref.bytes_eq (r : Ref) : r.bytes = 0x26 :: (r.inner ++ [0x3b]) := by
  cases r <;> simp [Ref.bytes, Ref.inner, ascii]

theorem inner_ok (r : Ref) (h : r.OK) :
    (∀ c ∈ r.inner, isRef c = true ∧ Plain c) ∧ r.inner.length ≤ 7 ∧ refValue r.inner = r.value := by
  obtain ⟨⟨hl, _⟩, hs, _⟩ := h
  cases r with
  | lt | gt | amp | apos | quot => unfold Plain; decide
  | dec ds =>
    have hd : ∀ c ∈ ds, _ := fun c hc => isNum_digit (hl.2 c hc)
    refine ⟨?_, by simp only [Ref.inner, List.length_cons]; omega, ?_⟩
    · intro c hc
      simp only [Ref.inner, List.mem_cons] at hc
      rcases hc with rfl | hc
      · unfold Plain; decide
      · exact ⟨(hd c hc).1, (hd c hc).2.2.2.1⟩
    · simp only [Ref.inner]
      unfold refValue
      split
      · rename_i r heq
        simp only [List.cons.injEq, true_and] at heq
        exact absurd rfl (hd 0x78 (by rw [heq]; simp)).2.2.2.2
      · rename_i r _ heq
        simp only [List.cons.injEq, true_and] at heq
        subst heq
        have h2 := all_dropWhile (p := isNum) (l := ds) fun c hc => (hd c hc).2.1
        rw [h2.1, h2.2, if_pos rfl]
        exact foldl_digit (fun c hc => (hd c hc).2.2.1) 0
      · rename_i h1 h2
        exact absurd rfl (h2 ds)
  | hex ds =>
    have hd : ∀ c ∈ ds, _ := fun c hc => isRef_digit (hl.2 c hc)
    refine ⟨?_, by simp only [Ref.inner, List.length_cons]; omega, ?_⟩
    · intro c hc
      simp only [Ref.inner, List.mem_cons] at hc
      rcases hc with rfl | rfl | hc
      · unfold Plain; decide
      · unfold Plain; decide
      · exact ⟨(hd c hc).1, (hd c hc).2.2.2⟩
    · simp only [Ref.inner, refValue]
      have h2 := all_dropWhile (p := isHex) (l := ds) fun c hc => (hd c hc).2.1
      rw [h2.1, h2.2, if_pos rfl]
      exact foldl_digit (fun c hc => (hd c hc).2.2.1) 0

theorem ref_bytes {st nx : St} {lit : Bytes} {q : UInt8} {d : Bytes} {es : List Bytes} {top : Top} {b : Builder}
    {l : Bytes} (hst : ∀ ch, isRef ch = true → trans ⟨st, nx, lit, q⟩ ch = some (⟨st, nx, lit, q⟩, .ref))
    (h : ∀ c ∈ l, isRef c = true ∧ Plain c) (hl : d.length + l.length ≤ 7) :
    Runs (S st nx lit q d es top 0) b l (S st nx lit q (d ++ l) es top 0) b := by
  induction l generalizing d with
  | nil => simpa using Runs.nil _ _
  | cons c l ih =>
    have h1 := h c (by simp)
    simp only [List.length_cons] at hl
    refine Runs.cons (s' := S st nx lit q (d ++ [c]) es top 0) (b' := b) ?_ ?_
    · refine step1 h1.2 (hst c h1.1) (r := .ok) (t := []) ?_ rfl rfl
      simp only [aperform]
      rw [if_neg (by omega)]
    · have := ih (d := d ++ [c]) (fun x hx => h x (by simp [hx])) (by simp; omega)
      simpa using this

/-- A reference in content. -/
theorem ref_content {nx : St} {lit : Bytes} {q : UInt8} {d : Bytes} {es : List Bytes} {b b' : Builder} (r : Ref)
    (h : r.OK) (hb : build b .content r.chars = some b') :
    Runs (S .misc2 nx lit q d es .none 0) b r.bytes (S .misc2 nx lit q r.chars es .none 0) b' := by
  obtain ⟨h1, h2, h3⟩ := inner_ok r h
  rw [Ref.bytes_eq]
  refine Runs.cons (s' := S .misc2a nx lit q [] es .none 0) (b' := b) ?_ ?_
  · exact step1 (by unfold Plain; decide) rfl rfl rfl rfl
  · refine Runs.append (ref_bytes (d := []) (fun ch hc => by simp [trans, hc]) h1 (by simpa using h2)) ?_
    refine step1 (by unfold Plain; decide) (c := ⟨.misc2, nx, lit, q⟩) (a := .refcontent) rfl ?_ rfl hb
    simp only [aperform, arefend, List.nil_append, h3, not_rejected r h, Bool.false_eq_true, if_false,
      chars_eq r h.1]

/-- A reference in an attribute value. -/
theorem ref_attr {nx : St} {lit : Bytes} {q : UInt8} {d : Bytes} {es : List Bytes} {t : Bytes} {b b' : Builder}
    (r : Ref) (h : r.OK) (hb : build b .attrval r.chars = some b') :
    Runs (S .attr3 nx lit q d es (.attr t) 0) b r.bytes (S .attr3 nx lit q r.chars es (.attr t) 0) b' := by
  obtain ⟨h1, h2, h3⟩ := inner_ok r h
  rw [Ref.bytes_eq]
  refine Runs.cons (s' := S .attr4 nx lit q [] es (.attr t) 0) (b' := b) ?_ ?_
  · exact step1 (c := ⟨.attr4, nx, lit, q⟩) (a := .refstart) (by unfold Plain; decide) (by simp [trans]) rfl rfl rfl
  · refine Runs.append (ref_bytes (d := []) (fun ch hc => by simp [trans, hc]) h1 (by simpa using h2)) ?_
    refine step1 (by unfold Plain; decide) (c := ⟨.attr3, nx, lit, q⟩) (a := .refattrval) rfl ?_ rfl hb
    simp only [aperform, arefend, List.nil_append, h3, not_rejected r h, Bool.false_eq_true, if_false,
      chars_eq r h.1]

end Duck.Xml
