import Verif.Lemmas.Unicode
/-! Helper lemmas for C33-C37: scanning whole strings. -/
namespace Duck
namespace Unicode

theorem rd_mono {m : Mem} (x : Mem) {k b : Nat} (h : rd m k = some b) : rd (m ++ x) k = some b := by
  have : k < m.length := by
    obtain ⟨u, hu, -⟩ := rd_eq h
    rcases Nat.lt_or_ge k m.length with h | h
    · exact h
    · rw [List.getElem?_eq_none h] at hu; cases hu
  rw [rd_append_left this, h]

theorem bind_mono {α β : Type} {o o' : Option α} {f f' : α → Option β} {r : β} (ho : ∀ a, o = some a → o' = some a)
    (hf : ∀ a, f a = some r → f' a = some r) (h : o.bind f = some r) : o'.bind f' = some r := by
  cases o with
  | none => cases h
  | some a => rw [ho a rfl]; exact hf a h

theorem map_mono {α β : Type} {o o' : Option α} {f : α → β} {r : β} (ho : ∀ a, o = some a → o' = some a)
    (h : o.map f = some r) : o'.map f = some r := by
  cases o with
  | none => cases h
  | some a => rw [ho a rfl]; exact h

theorem body1_mono {m : Mem} (x : Mem) {count i c : Nat} {r} (h : body1 m count i c = some r) :
    body1 (m ++ x) count i c = some r := map_mono (fun _ => rd_mono x) h

theorem body2_mono {m : Mem} (x : Mem) {count i c : Nat} {r} (h : body2 m count i c = some r) :
    body2 (m ++ x) count i c = some r := by
  refine bind_mono (fun _ => rd_mono x) (fun b hb => ?_) h
  simp only at hb ⊢
  split at hb
  · next hc => rw [if_pos hc]; exact hb
  · next hc => rw [if_neg hc]; exact body1_mono x hb

theorem body3_mono {m : Mem} (x : Mem) {count i c : Nat} {r} (h : body3 m count i c = some r) :
    body3 (m ++ x) count i c = some r := by
  refine bind_mono (fun _ => rd_mono x) (fun b hb => ?_) h
  simp only at hb ⊢
  split at hb
  · next hc => rw [if_pos hc]; exact hb
  · next hc => rw [if_neg hc]; exact body2_mono x hb

theorem body_mono {m : Mem} (x : Mem) {count c : Nat} {r} (h : body m count c = some r) :
    body (m ++ x) count c = some r := by
  unfold body at h ⊢
  split at h
  · exact body3_mono x h
  · exact body2_mono x h
  · exact body1_mono x h
  · exact h

theorem skip_mono {m : Mem} (x : Mem) : ∀ {count i : Nat} {r}, skip m count i = some r → skip (m ++ x) count i = some r := by
  intro count
  induction count with
  | zero => intro i r h; exact h
  | succ count ih =>
    intro i r h
    refine bind_mono (fun _ => rd_mono x) (fun b hb => ?_) h
    split at hb
    · next hc => rw [if_pos hc]; exact ih hb
    · next hc => rw [if_neg hc]; exact hb

theorem nextSlow_mono {m : Mem} (x : Mem) {c : Nat} {r} (h : nextSlow m c = some r) : nextSlow (m ++ x) c = some r := by
  refine bind_mono (fun _ => body_mono x) (fun b hb => ?_) h
  cases b with
  | none => exact map_mono (fun _ => skip_mono x) hb
  | some p => exact hb

/-- Extra readable memory does not change a scan. -/
theorem next_mono {m : Mem} (x : Mem) {r} (h : next m = some r) : next (m ++ x) = some r := by
  refine bind_mono (fun _ => rd_mono x) (fun c hc => ?_) h
  split at hc
  · next h1 =>
    rw [if_pos h1]
    split at hc
    · next h2 =>
      rw [if_pos h2]
      refine bind_mono (fun _ => rd_mono x) (fun b hb => ?_) hc
      split at hb
      · next h3 =>
        rw [if_pos h3]
        refine bind_mono (fun _ => rd_mono x) (fun b2 hb2 => ?_) hb
        split at hb2
        · next h4 => rw [if_pos h4]; exact hb2
        · next h4 => rw [if_neg h4]; exact nextSlow_mono x hb2
      · next h3 => rw [if_neg h3]; exact nextSlow_mono x hb
    · next h2 =>
      rw [if_neg h2]
      split at hc
      · next h3 =>
        rw [if_pos h3]
        refine bind_mono (fun _ => rd_mono x) (fun b hb => ?_) hc
        split at hb
        · next h4 => rw [if_pos h4]; exact hb
        · next h4 => rw [if_neg h4]; exact nextSlow_mono x hb
      · next h3 => rw [if_neg h3]; exact nextSlow_mono x hc
  · next h1 => rw [if_neg h1]; exact hc

theorem rd_drop (m : Mem) (i k : Nat) : rd (m.drop i) k = rd m (i + k) := by simp [rd]

theorem next_zero (r : Mem) : next (0 :: r) = some (0, 1) := rfl
theorem ustrscan_zero (r : Mem) : ustrscan (0 :: r) = some (0, 0) := rfl

theorem ustrscan_eq_next {b : UInt8} {r : Mem} (h : b ≠ 0) : ustrscan (b :: r) = next (b :: r) := by
  have : b.toNat ≠ 0 := fun e => h (UInt8.toNat_inj.mp (by simpa using e))
  simp only [ustrscan, rd_cons_zero, Option.bind_some, if_neg this]

/-- A scan of a terminated string stops at or before the terminator. -/
theorem next_nul {s : List UInt8} {k : Nat} {c : Int} (hs : s ≠ []) (h : next (s ++ [0]) = some (c, k)) :
    1 ≤ k ∧ k ≤ s.length := by
  obtain ⟨h1, h2⟩ := next_trail h
  refine ⟨h1, ?_⟩
  rcases Nat.lt_or_ge s.length k with hlt | hge
  · obtain ⟨b, hb, hb1, -⟩ := h2 s.length (List.length_pos_iff.mpr hs) hlt
    have : rd (s ++ [0]) s.length = some 0 := by simp [rd]
    rw [this] at hb; cases hb; omega
  · exact hge

/-- The value scanned from a nonzero byte is not zero. -/
theorem next_ne_zero {b : UInt8} {m : Mem} {c : Int} {k : Nat} (hb : b ≠ 0) (h : next (b :: m) = some (c, k)) : c ≠ 0 := by
  rcases next_spec h with ⟨v, rfl, -, h2, h3⟩ | ⟨rfl, -⟩
  · intro hv
    have hv : v = 0 := by omega
    subst hv
    have h3 : k = 1 := by rw [h3]; rfl
    subst h3
    rw [List.take_succ_cons] at h2
    simp [encNat] at h2
    exact hb h2
  · decide

/-- One step of scanning: what `Scans` says of a nonempty string. -/
structure Step (c : Int) (bytes rest : List UInt8) : Prop where
  ne : bytes ≠ []
  next : ∀ r, Unicode.next (bytes ++ rest ++ 0 :: r) = some (c, bytes.length)
  code : c ≠ 0
  first : bytes.head? ≠ some 0

theorem step_of_scan {c : Int} {bytes rest : List UInt8} (hne : bytes ≠ [])
    (h : ustrscan (bytes ++ rest ++ [0]) = some (c, bytes.length)) : Step c bytes rest := by
  match bytes, hne, h with
  | b :: bs, _, h =>
    have hb : b ≠ 0 := by
      intro e; subst e
      simp only [List.cons_append] at h
      rw [ustrscan_zero] at h
      simp at h
    have hn : next (b :: bs ++ rest ++ [0]) = some (c, (b :: bs).length) := by
      rw [List.cons_append, List.cons_append, ustrscan_eq_next hb] at h; exact h
    refine ⟨by simp, fun r => ?_, next_ne_zero hb hn, by simpa using hb⟩
    have := next_mono r hn
    simpa [List.append_assoc] using this

theorem Step.rd {c : Int} {bytes rest : List UInt8} (h : Step c bytes rest) (r : Mem) :
    ∃ b, rd (bytes ++ rest ++ 0 :: r) 0 = some b ∧ b ≠ 0 := by
  match bytes, h with
  | [], h => exact absurd rfl h.ne
  | b :: bs, h =>
    refine ⟨b.toNat, rfl, fun e => ?_⟩
    have : b = 0 := UInt8.toNat_inj.mp (by simpa using e)
    exact h.first (by simp [this])

theorem Step.scan {c : Int} {bytes rest : List UInt8} (h : Step c bytes rest) (r : Mem) :
    ustrscan (bytes ++ rest ++ 0 :: r) = some (c, bytes.length) := by
  obtain ⟨b, hb, h0⟩ := h.rd r
  rw [ustrscan, hb]
  simp only [Option.bind_some, if_neg h0]
  exact h.next r

/-- Every C string can be scanned to its end, in exactly one way. -/
theorem scans_total : ∀ (n : Nat) (s : List UInt8), s.length ≤ n → NulFree s → ∃ cs, Scans s cs
  | n, [], _, _ => ⟨[], .nil⟩
  | 0, _ :: _, h, _ => by simp at h
  | n + 1, b :: s, hl, hf => by
    have hb : b ≠ 0 := fun e => hf (by simp [e])
    obtain ⟨⟨c, k⟩, hr⟩ := next_some (closed_append_zero (b :: s)) (by simp)
    obtain ⟨h1, h2⟩ := next_nul (by simp) hr
    have hne : ((b :: s).take k) ≠ [] := by
      intro e; have := congrArg List.length e; simp at this; omega
    have hlen : ((b :: s).take k).length = k := by rw [List.length_take]; omega
    obtain ⟨cs, hcs⟩ := scans_total n ((b :: s).drop k) (by simp at hl ⊢; omega) (fun e => hf (List.mem_of_mem_drop e))
    refine ⟨(c, (b :: s).take k) :: cs, ?_⟩
    have := Scans.cons c ((b :: s).take k) ((b :: s).drop k) cs hne
      (by rw [List.take_append_drop, hlen, List.cons_append, ustrscan_eq_next hb]; exact hr) hcs
    rwa [List.take_append_drop] at this

theorem scans_bytes {s : List UInt8} {cs} (h : Scans s cs) : s = cs.flatMap (·.2) := by
  induction h with
  | nil => rfl
  | cons c bytes rest cs _ _ _ ih => simp [← ih]

theorem scans_unique {s : List UInt8} {cs ds} (h : Scans s cs) (h' : Scans s ds) : cs = ds := by
  induction h generalizing ds with
  | nil =>
    generalize hs : ([] : List UInt8) = s at h'
    cases h' with
    | nil => rfl
    | cons c bytes rest cs hne _ _ =>
      exact absurd (List.append_eq_nil_iff.mp hs.symm).1 hne
  | cons c bytes rest cs hne hsc hr ih =>
    generalize hs : bytes ++ rest = s at h'
    cases h' with
    | nil => exact absurd (List.append_eq_nil_iff.mp hs).1 hne
    | cons c' bytes' rest' cs' hne' hsc' hr' =>
      rw [hs] at hsc
      rw [hsc] at hsc'
      simp only [Option.some.injEq, Prod.mk.injEq] at hsc'
      obtain ⟨e1, e2⟩ := List.append_inj hs hsc'.2
      subst e1; subst e2
      rw [hsc'.1, ih hr']

theorem enc_ne_nil (c : Char) : String.utf8EncodeChar c ≠ [] := by
  intro e
  have := encNat_length_pos c.toNat
  rw [enc_eq] at e; rw [e] at this; simp at this

theorem next_char (c : Char) (r : Mem) :
    next (String.utf8EncodeChar c ++ r) = some ((c.toNat : Int), (String.utf8EncodeChar c).length) :=
  next_enc (char_scalar c) r

theorem enc_head {c : Char} (h : c ≠ '\x00') : (String.utf8EncodeChar c).head? ≠ some 0 := by
  intro e
  have hn := next_char c [0]
  match hb : String.utf8EncodeChar c, enc_ne_nil c with
  | b :: bs, _ =>
    rw [hb] at e hn
    simp at e; subst e
    rw [List.cons_append, next_zero] at hn
    simp only [Option.some.injEq, Prod.mk.injEq] at hn
    exact h (Char.toNat_inj.mp (by have := hn.1; simp at this ⊢; omega))

theorem ustrscan_char {c : Char} (h : c ≠ '\x00') (r : Mem) :
    ustrscan (String.utf8EncodeChar c ++ r) = some ((c.toNat : Int), (String.utf8EncodeChar c).length) := by
  have h1 := enc_head h
  have h2 := next_char c r
  match hb : String.utf8EncodeChar c, enc_ne_nil c with
  | b :: bs, _ =>
    rw [hb] at h1 h2
    rw [List.cons_append, ustrscan_eq_next (by simpa using h1)]
    exact h2

/-- A text scans as its characters. -/
theorem scans_utf8 : ∀ {cs : List Char}, '\x00' ∉ cs →
    Scans (utf8 cs) (cs.map fun c => ((c.toNat : Int), String.utf8EncodeChar c))
  | [], _ => .nil
  | c :: cs, h => by
    have hc : c ≠ '\x00' := fun e => h (by simp [e])
    refine Scans.cons (c.toNat : Int) (String.utf8EncodeChar c) (utf8 cs) _ (enc_ne_nil c) ?_
      (scans_utf8 (fun e => h (by simp [e])))
    rw [List.append_assoc]; exact ustrscan_char hc _

theorem scans_nulfree {s : List UInt8} {cs} (h : Scans s cs) : NulFree s := by
  induction h with
  | nil => simp [NulFree]
  | cons c bytes rest cs hne hsc hr ih =>
    have hst := step_of_scan hne hsc
    have hn := hst.next []
    intro hmem
    rcases List.mem_append.mp hmem with hm | hm
    · obtain ⟨j, hj, hz⟩ := List.mem_iff_getElem.mp hm
      rcases Nat.eq_zero_or_pos j with rfl | hpos
      · exact hst.first (by rw [List.head?_eq_getElem?, List.getElem?_eq_getElem hj, hz])
      · obtain ⟨b, hb, h128, -⟩ := (next_trail hn).2 j hpos hj
        rw [List.append_assoc, rd_append_left hj, rd_some hj, hz] at hb
        cases hb; simp at h128
    · exact ih hm

theorem utf8_nulfree {cs : List Char} (h : '\x00' ∉ cs) : NulFree (utf8 cs) := scans_nulfree (scans_utf8 h)

/-! Scanning a part of a string -/

theorem nextSlow_bad {m : Mem} {a k : Nat} (h : nextSlow m a = some (-1, k)) : skip m (countTrail a) 1 = some k := by
  unfold nextSlow at h
  cases hb : body m (countTrail a) (maskLead a (countTrail a)) with
  | none => rw [hb] at h; cases h
  | some r =>
    rw [hb] at h
    cases r with
    | none =>
      simp only [Option.bind_some] at h
      cases hs : skip m (countTrail a) 1 with
      | none => rw [hs] at h; cases h
      | some n => rw [hs] at h; simp only [Option.map_some, Option.some.injEq, Prod.mk.injEq] at h; rw [h.2]
    | some p => simp only [Option.bind_some, Option.some.injEq, Prod.mk.injEq] at h; omega

theorem next_bad {m : Mem} {a k : Nat} (h0 : rd m 0 = some a) (h : next m = some (-1, k)) :
    skip m (countTrail a) 1 = some k := by
  unfold next at h
  rw [h0] at h
  simp only [Option.bind_some] at h
  split at h
  · split at h
    · unfold next3 at h
      cases h1 : rd m 1 with
      | none => rw [h1] at h; cases h
      | some b1 =>
        rw [h1] at h; simp only [Option.bind_some] at h
        split at h
        · cases h2 : rd m 2 with
          | none => rw [h2] at h; cases h
          | some b2 =>
            rw [h2] at h; simp only [Option.bind_some] at h
            split at h
            · simp only [Option.some.injEq, Prod.mk.injEq] at h; omega
            · exact nextSlow_bad h
        · exact nextSlow_bad h
    · split at h
      · unfold next2 at h
        cases h1 : rd m 1 with
        | none => rw [h1] at h; cases h
        | some b1 =>
          rw [h1] at h; simp only [Option.bind_some] at h
          split at h
          · simp only [Option.some.injEq, Prod.mk.injEq] at h; omega
          · exact nextSlow_bad h
      · exact nextSlow_bad h
  · simp only [Option.some.injEq, Prod.mk.injEq] at h; omega

theorem skip_cut {m t : Mem} {k : Nat} (ht : ∃ b, rd t 0 = some b ∧ (b < 128 ∨ rd m k = some b)) :
    ∀ {count i : Nat}, skip m count i = some k → k ≤ m.length → skip (m.take k ++ t) count i = some k := by
  intro count
  induction count with
  | zero => intro i h _; exact h
  | succ count ih =>
    intro i h hk
    have hik := (skip_spec h).1
    rw [skip] at h ⊢
    rcases Nat.lt_or_ge i k with hlt | hge
    · rw [rd_append_left (by rw [List.length_take]; omega), rd_take hlt]
      cases hb : rd m i with
      | none => rw [hb] at h; cases h
      | some b =>
        rw [hb] at h
        simp only [Option.bind_some] at h ⊢
        split at h
        · next ht => rw [if_pos ht]; exact ih h hk
        · simp only [Option.some.injEq] at h; omega
    · have : i = k := by omega
      subst this
      have hl : (m.take i).length = i := by rw [List.length_take]; omega
      obtain ⟨b, hb, hb2⟩ := ht
      have hr : rd (m.take i ++ t) i = some b := by
        rw [← hb]; unfold rd
        rw [List.getElem?_append_right (by omega), hl, Nat.sub_self]
      rw [hr]
      simp only [Option.bind_some]
      have hnt : isTrail b ≠ true := by
        rcases hb2 with hb2 | hb2
        · intro ht; have := (isTrail_iff (by omega)).mp ht; omega
        · rw [hb2] at h
          simp only [Option.bind_some] at h
          intro ht
          rw [if_pos ht] at h
          have := (skip_spec h).1
          omega
      rw [if_neg hnt]

theorem char_of_good {m : Mem} {v k : Nat} (h : Good m v k) (r : Mem) : next (m.take k ++ r) = some ((v : Int), k) := by
  obtain ⟨h1, h2, h3⟩ := h
  rw [h2, h3]; exact next_enc h1 r

theorem skip_all {m : Mem} : ∀ {count i : Nat}, (∀ j, i ≤ j → j < i + count → ∃ b, rd m j = some b ∧ 128 ≤ b ∧ b < 192) →
    skip m count i = some (i + count) := by
  intro count
  induction count with
  | zero => intro i _; rfl
  | succ count ih =>
    intro i h
    obtain ⟨b, hb, ht⟩ := h i (by omega) (by omega)
    rw [skip, hb]
    simp only [Option.bind_some]
    rw [if_pos ((isTrail_iff (rd_lt hb)).mpr ht), ih fun j j1 j2 => h j (by omega) (by omega)]
    congr 1; omega

/-- The lead byte of a well-formed character tells its length. -/
theorem good_lead {m : Mem} {v k a : Nat} (h : Good m v k) (h0 : rd m 0 = some a) : k = 1 + countTrail a := by
  obtain ⟨h1, h2, h3⟩ := h
  have hk := encNat_length_pos v
  have h0' : rd (encNat v) 0 = some a := by rw [← h2, rd_take (by omega), h0]
  unfold Scalar at h1
  rw [h3, countTrail_eq]
  unfold encNat at h0' ⊢
  split at h0'
  · next c1 =>
    rw [rd0 _ _ (by omega)] at h0'; cases h0'
    simp only [if_pos c1]; rw [if_pos (by omega)]; rfl
  · next c1 =>
    split at h0'
    · next c2 =>
      rw [rd0 _ _ (by omega)] at h0'; cases h0'
      simp only [if_neg c1, if_pos c2]; rw [if_neg (by omega), if_pos (by omega)]; rfl
    · next c2 =>
      split at h0'
      · next c3 =>
        rw [rd0 _ _ (by omega)] at h0'; cases h0'
        simp only [if_neg c1, if_neg c2, if_pos c3]; rw [if_neg (by omega), if_neg (by omega), if_pos (by omega)]; rfl
      · next c3 =>
        rw [rd0 _ _ (by omega)] at h0'; cases h0'
        simp only [if_neg c1, if_neg c2, if_neg c3]
        rw [if_neg (by omega), if_neg (by omega), if_neg (by omega), if_pos (by omega)]; rfl

/-- Only the byte after a scanned character matters, and only if it is not ASCII. -/
theorem step_follow {c : Int} {bytes rest : List UInt8} (h : Step c bytes rest) (rest' : List UInt8)
    (hrest : rest' = [] ∨ (∃ b, rest'.head? = some b ∧ b.toNat < 128) ∨ rest'.head? = rest.head?) : Step c bytes rest' := by
  refine ⟨h.ne, fun r => ?_, h.code, h.first⟩
  have hn := h.next r
  have htake : (bytes ++ rest ++ 0 :: r).take bytes.length = bytes := by rw [List.append_assoc, List.take_left]
  rcases next_spec hn with ⟨v, rfl, hg⟩ | ⟨rfl, -⟩
  · have := char_of_good hg (rest' ++ 0 :: r)
    rwa [htake, ← List.append_assoc] at this
  · obtain ⟨a, ha, -⟩ := h.rd r
    have hb := next_bad ha hn
    have hafter : ∃ b, rd (rest' ++ 0 :: r) 0 = some b ∧ (b < 128 ∨ rd (bytes ++ rest ++ 0 :: r) bytes.length = some b) := by
      match rest', hrest with
      | [], _ => exact ⟨0, rfl, Or.inl (by omega)⟩
      | x :: xs, hrest =>
        rcases hrest with hrest | ⟨b, hb, hb2⟩ | hrest
        · cases hrest
        · simp at hb; subst hb; exact ⟨x.toNat, rfl, Or.inl hb2⟩
        · match rest, hrest with
          | y :: ys, hrest =>
            simp only [List.head?_cons, Option.some.injEq] at hrest
            subst hrest
            refine ⟨x.toNat, rfl, Or.inr ?_⟩
            unfold rd
            rw [List.append_assoc, List.getElem?_append_right (Nat.le_refl _)]
            simp
          | [], hrest => simp at hrest
    have hb' := skip_cut hafter hb (by simp)
    rw [htake, ← List.append_assoc] at hb'
    obtain ⟨⟨c', k'⟩, hr⟩ := next_some (closed_append_zero (bytes ++ rest')) (by simp)
    have hr := next_mono r hr
    have e : bytes ++ rest' ++ [0] ++ r = bytes ++ rest' ++ 0 :: r := by simp
    rw [e] at hr
    have ha' : rd (bytes ++ rest' ++ 0 :: r) 0 = some a := by
      match bytes, h.ne with
      | b :: bs, _ => exact ha
    have hk : k' = bytes.length := by
      rcases next_spec hr with ⟨v, rfl, hg⟩ | ⟨rfl, -⟩
      · have hl := good_lead hg ha'
        have hsk : skip (bytes ++ rest' ++ 0 :: r) (countTrail a) 1 = some (1 + countTrail a) :=
          skip_all fun j j1 j2 => (next_trail hr).2 j j1 (by omega)
        rw [hb', Option.some.injEq] at hsk; omega
      · have := next_bad ha' hr
        rw [hb', Option.some.injEq] at this; exact this.symm
    subst hk
    rcases next_spec hr with ⟨v, rfl, hg⟩ | ⟨rfl, -⟩
    · have h2 := char_of_good hg (rest ++ 0 :: r)
      rw [List.append_assoc, List.take_left, ← List.append_assoc, hn] at h2
      simp only [Option.some.injEq, Prod.mk.injEq] at h2
      omega
    · exact hr

theorem step_cut {c : Int} {bytes rest : List UInt8} (h : Step c bytes rest) (rest' : List UInt8)
    (hrest : rest' = [] ∨ rest'.head? = rest.head?) : Step c bytes rest' :=
  step_follow h rest' (hrest.imp id Or.inr)

theorem Step.toScans {c : Int} {bytes rest : List UInt8} {cs} (h : Step c bytes rest) (hr : Scans rest cs) :
    Scans (bytes ++ rest) ((c, bytes) :: cs) := Scans.cons c bytes rest cs h.ne (h.scan []) hr

theorem head_flatMap_take {cs : List (Int × List UInt8)} (hne : ∀ p ∈ cs, p.2 ≠ []) (n : Nat) :
    (cs.take n).flatMap (·.2) = [] ∨ ((cs.take n).flatMap (·.2)).head? = (cs.flatMap (·.2)).head? := by
  match cs, n with
  | [], _ => simp
  | _, 0 => simp
  | (c, b :: bs) :: cs, n + 1 => right; simp
  | (c, []) :: cs, n + 1 => exact absurd rfl (hne (c, []) (by simp))

theorem scans_chunks_ne {s : List UInt8} {cs} (h : Scans s cs) : ∀ p ∈ cs, p.2 ≠ [] := by
  induction h with
  | nil => simp
  | cons c bytes rest cs hne _ _ ih =>
    intro p hp
    rcases List.mem_cons.mp hp with rfl | hp
    · exact hne
    · exact ih p hp

/-- A prefix of the characters scans as those characters. -/
theorem prefix_scans {s : List UInt8} {cs} (h : Scans s cs) : ∀ n, Scans ((cs.take n).flatMap (·.2)) (cs.take n) := by
  induction h with
  | nil => intro n; simp; exact .nil
  | cons c bytes rest cs hne hsc hr ih =>
    intro n
    match n with
    | 0 => simp; exact .nil
    | n + 1 =>
      rw [List.take_succ_cons, List.flatMap_cons]
      refine Step.toScans (step_cut (step_of_scan hne hsc) _ ?_) (ih n)
      have := head_flatMap_take (scans_chunks_ne hr) n
      rwa [← scans_bytes hr] at this

/-! Walking -/

theorem ustrlenGo_scans {s : List UInt8} {cs} (h : Scans s cs) : ∀ (fuel n : Nat) (r : Mem), cs.length ≤ fuel →
    ustrlenGo fuel (s ++ 0 :: r) n = some (n + cs.length) := by
  induction h with
  | nil => intro fuel n r _; rw [ustrlenGo.eq_def]; rfl
  | cons c bytes rest cs hne hsc hr ih =>
    intro fuel n r hf
    have hst := step_of_scan hne hsc
    obtain ⟨b, hb, h0⟩ := hst.rd r
    match fuel, hf with
    | fuel + 1, hf =>
      rw [ustrlenGo.eq_def, hb]
      simp only [Option.bind_some, if_neg h0]
      rw [hst.scan r]
      simp only [Option.bind_some, List.append_assoc, List.drop_left]
      rw [ih fuel (n + 1) r (by simpa using hf)]
      simp; omega

theorem ustridxGo_scans {s : List UInt8} {cs} (h : Scans s cs) : ∀ (m : Mem) (r : Mem) (n cur : Nat),
    m.drop cur = s ++ 0 :: r →
    ustridxGo m n cur = some (if n ≤ cs.length then some (cur + ((cs.take n).flatMap (·.2)).length) else none) := by
  induction h with
  | nil =>
    intro m r n cur hm
    match n with
    | 0 => simp [ustridxGo]
    | n + 1 => rw [ustridxGo, hm, List.nil_append, ustrscan_zero]; simp
  | cons c bytes rest cs hne hsc hr ih =>
    intro m r n cur hm
    have hst := step_of_scan hne hsc
    match n with
    | 0 => simp [ustridxGo]
    | n + 1 =>
      rw [ustridxGo, hm, hst.scan r]
      simp only [Option.bind_some, if_neg hst.code]
      rw [ih m r n (cur + bytes.length) (by rw [← List.drop_drop, hm, List.append_assoc, List.drop_left])]
      by_cases hn : n ≤ cs.length
      · simp [hn]; omega
      · simp [hn]

/-- The codes of scanned characters. -/
def codes (cs : List (Int × List UInt8)) : List Int := cs.map (·.1)

theorem matchGo_scans {t2 : List UInt8} {c2} (h2 : Scans t2 c2) : ∀ (t1 : List UInt8) (c1) (_ : Scans t1 c1)
    (s1 s2 r1 r2 : Mem) (fuel i j : Nat) (ch1 ch2 : Int) (len : Nat), s2.drop j = t2 ++ 0 :: r2 → ch2 ≠ 0 →
    (ch1 ≠ 0 → s1.drop i = t1 ++ 0 :: r1) → (ch1 = 0 → c1 = []) → c2.length ≤ fuel →
    matchGo s1 s2 fuel i j ch1 ch2 len =
      some (if ch2 :: codes c2 <+: ch1 :: codes c1 then some (len + c2.length) else none) := by
  induction h2 with
  | nil =>
    intro t1 c1 h1 s1 s2 r1 r2 fuel i j ch1 ch2 len e2 hz e1 hc1 hf
    rw [matchGo.eq_def]
    by_cases he : ch1 = ch2
    · rw [if_pos he, show rd s2 j = some 0 by rw [← Nat.add_zero j, ← rd_drop, e2]; rfl]
      simp [codes, he]
    · rw [if_neg he, if_neg]
      intro hp
      exact he (List.cons_prefix_cons.mp hp).1.symm
  | cons c bytes rest cs hne hsc hr ih =>
    intro t1 c1 h1 s1 s2 r1 r2 fuel i j ch1 ch2 len e2 hz e1 hc1 hf
    have hst := step_of_scan hne hsc
    rw [matchGo.eq_def]
    by_cases he : ch1 = ch2
    · have hz1 : ch1 ≠ 0 := by rw [he]; exact hz
      have e1 := e1 hz1
      obtain ⟨b, hb, h0⟩ := hst.rd r2
      rw [if_pos he, show rd s2 j = some b by rw [← Nat.add_zero j, ← rd_drop, e2]; exact hb]
      simp only [Option.bind_some, if_neg h0]
      match fuel, hf with
      | fuel + 1, hf =>
        simp only
        have n2 : next (s2.drop j) = some (c, bytes.length) := by rw [e2]; exact hst.next r2
        have e2' : s2.drop (j + bytes.length) = rest ++ 0 :: r2 := by
          rw [← List.drop_drop, e2, List.append_assoc, List.drop_left]
        cases h1 with
        | nil =>
          have n1 : next (s1.drop i) = some (0, 1) := by rw [e1]; exact next_zero r1
          rw [n1, n2]
          simp only [Option.bind_some]
          rw [ih [] [] .nil s1 s2 r1 r2 fuel _ _ 0 c (len + 1) e2' hst.code (fun h => absurd rfl h) (fun _ => rfl)
            (by simpa using hf)]
          rw [if_neg (fun hp => hst.code (List.cons_prefix_cons.mp hp).1), if_neg]
          intro hp
          have := (List.cons_prefix_cons.mp hp).2
          simp [codes] at this
        | cons d bytes' rest' ds hne' hsc' hr' =>
          have hst' := step_of_scan hne' hsc'
          have n1 : next (s1.drop i) = some (d, bytes'.length) := by rw [e1]; exact hst'.next r1
          rw [n1, n2]
          simp only [Option.bind_some]
          rw [ih rest' ds hr' s1 s2 r1 r2 fuel _ _ d c (len + 1) e2' hst.code
            (fun _ => by rw [← List.drop_drop, e1, List.append_assoc, List.drop_left]) (fun h => absurd h hst'.code)
            (by simpa using hf)]
          have : (ch2 :: codes ((c, bytes) :: cs) <+: ch1 :: codes ((d, bytes') :: ds)) ↔ (c :: codes cs <+: d :: codes ds) := by
            rw [List.cons_prefix_cons]; simp [he, codes]
          simp only [this, List.length_cons]
          split
          · simp; omega
          · rfl
    · rw [if_neg he, if_neg]
      intro hp
      exact he (List.cons_prefix_cons.mp hp).1.symm

theorem firstAt_lt {needle : List Int} {hay : List Int} {k : Nat} (h : firstAt needle hay = some k) : k ≤ hay.length := by
  induction hay generalizing k with
  | nil => unfold firstAt at h; split at h <;> simp at h; omega
  | cons x xs ih =>
    unfold firstAt at h
    split at h
    · simp at h; omega
    · cases hf : firstAt needle xs with
      | none => rw [hf] at h; cases h
      | some j => rw [hf] at h; simp at h; have := ih hf; simp; omega

/-- The result of the search, on scanned characters. -/
theorem strGo_scans {s2 : List UInt8} {d : Int} {b2 rest2 : List UInt8} {ds} (h2 : Step d b2 rest2) (hs2 : Scans rest2 ds)
    (he2 : s2 = b2 ++ rest2) (r2 : Mem) {t : List UInt8} {cs} (h : Scans t cs) : ∀ (m r : Mem) (fuel i loc : Nat),
    m.drop i = t ++ 0 :: r → cs.length ≤ fuel →
    strGo m (s2 ++ 0 :: r2) fuel i loc =
      some ((firstAt (d :: codes ds) (codes cs)).map fun k =>
        (i + ((cs.take k).flatMap (·.2)).length, loc + k, ds.length + 1)) := by
  have n2 : next (s2 ++ 0 :: r2) = some (d, b2.length) := by rw [he2]; exact h2.next r2
  have hlen : ds.length ≤ (s2 ++ 0 :: r2).length := by
    have h3 : ds.length ≤ rest2.length := by
      clear n2 he2 h2 h
      induction hs2 with
      | nil => simp
      | cons c bytes rest cs hne _ _ ih =>
        have : 0 < bytes.length := List.length_pos_iff.mpr hne
        simp; omega
    rw [he2]; simp; omega
  induction h with
  | nil =>
    intro m r fuel i loc hm hf
    rw [strGo.eq_def, show rd m i = some 0 by rw [← Nat.add_zero i, ← rd_drop, hm]; rfl]
    simp [codes, firstAt]
  | cons c bytes rest cs hne hsc hr ih =>
    intro m r fuel i loc hm hf
    have hst := step_of_scan hne hsc
    obtain ⟨b, hb, h0⟩ := hst.rd r
    match fuel, hf with
    | fuel + 1, hf =>
      have n1 : next (m.drop i) = some (c, bytes.length) := by rw [hm]; exact hst.next r
      have hm' : m.drop (i + bytes.length) = rest ++ 0 :: r := by
        rw [← List.drop_drop, hm, List.append_assoc, List.drop_left]
      rw [strGo.eq_def, show rd m i = some b by rw [← Nat.add_zero i, ← rd_drop, hm]; exact hb]
      simp only [Option.bind_some, if_neg h0]
      rw [n1, n2]
      simp only [Option.bind_some]
      rw [matchGo_scans hs2 rest cs hr m _ r r2 _ _ _ c d 1 (by rw [he2, List.append_assoc, List.drop_left]) h2.code
        (fun _ => hm') (fun h => absurd h hst.code) hlen]
      simp only [Option.bind_some]
      have hcod : codes ((c, bytes) :: cs) = c :: codes cs := rfl
      rw [hcod, firstAt]
      by_cases hp : d :: codes ds <+: c :: codes cs
      · rw [if_pos hp, if_pos hp]; simp; omega
      · rw [if_neg hp, if_neg hp]
        simp only
        rw [ih m r fuel _ (loc + 1) hm' (by simpa using hf)]
        cases firstAt (d :: codes ds) (codes cs) with
        | none => rfl
        | some k => simp; omega

theorem scans_length {s : List UInt8} {cs} (h : Scans s cs) : cs.length ≤ s.length := by
  induction h with
  | nil => simp
  | cons c bytes rest cs hne _ _ ih =>
    have : 0 < bytes.length := List.length_pos_iff.mpr hne
    simp; omega

theorem search_scans {s1 s2 : List UInt8} {cs ds} (h1 : Scans s1 cs) (h2 : Scans s2 ds) (hne : ds ≠ []) (r1 r2 : Mem) :
    search (s1 ++ 0 :: r1) (s2 ++ 0 :: r2) = some ((firstAt (codes ds) (codes cs)).map fun k =>
      (((cs.take k).flatMap (·.2)).length, k, ds.length)) := by
  cases h2 with
  | nil => exact absurd rfl hne
  | cons d b2 rest2 ds hne2 hsc2 hr2 =>
    have hst2 := step_of_scan hne2 hsc2
    have hlen := scans_length h1
    cases h1 with
    | nil => simp [search, rd, codes, firstAt]
    | cons c bytes rest cs hne hsc hr =>
      have hst := step_of_scan hne hsc
      obtain ⟨b, hb, h0⟩ := hst.rd r1
      obtain ⟨b', hb', h0'⟩ := hst2.rd r2
      rw [search, hb, hb']
      simp only [Option.bind_some, if_neg h0, if_neg h0']
      rw [strGo_scans hst2 hr2 rfl r2 (Scans.cons c bytes rest cs hne hsc hr) _ r1 _ 0 0 (by rw [List.drop_zero])
        (by simp at hlen ⊢; omega)]
      have : codes ((d, b2) :: ds) = d :: codes ds := rfl
      rw [this]
      simp

end Unicode
end Duck
