import Verif.Model.Text
import Verif.Lemmas.UnicodeScan
/-! Helper lemmas for C34-C37: the string functions on scanned characters. -/
namespace Duck
namespace Text
open Unicode

theorem mem_eq (s : List UInt8) : mem s = s ++ 0 :: [0, 0, 0] := rfl

theorem sizeT_nat {n : Nat} (h : n < 2 ^ 64) : sizeT (n : Int) = n := by
  unfold sizeT; omega

theorem getLength_scans {s : List UInt8} {cs} (h : Scans s cs) : getLength s = some cs.length := by
  rw [getLength, ustrlen, mem_eq, ustrlenGo_scans h _ 0 _ (by have := scans_length h; simp; omega)]
  simp

theorem ustridx_scans {s : List UInt8} {cs} (h : Scans s cs) (r : Mem) (n : Nat) :
    ustridx (s ++ 0 :: r) n =
      some (if n ≤ cs.length then some ((cs.take n).flatMap (·.2)).length else none) := by
  rw [ustridx, ustridxGo_scans h _ r n 0 (by rw [List.drop_zero])]
  simp

theorem step_le {c : Int} {bytes rest : List UInt8} (h : Step c bytes rest) : bytes.length < 8 := by
  have hn := h.next []
  rcases next_spec hn with ⟨v, -, -, -, h3⟩ | ⟨-, -⟩
  · rw [h3]; unfold encNat; repeat' split
    all_goals simp
  · -- an unsuccessful scan skips at most five trail bytes
    have : ∀ {m : Mem} {k : Nat} {c : Int}, next m = some (c, k) → k < 8 := by
      intro m k c h
      have slow : ∀ {a : Nat}, nextSlow m a = some (c, k) → k < 8 := by
        intro a h
        unfold nextSlow at h
        cases hb : body m (countTrail a) (maskLead a (countTrail a)) with
        | none => rw [hb] at h; cases h
        | some r =>
          rw [hb] at h
          cases r with
          | none =>
            simp only [Option.bind_some] at h
            cases hs : skip m (countTrail a) 1 with
            | none => rw [hs] at h; cases h
            | some n =>
              rw [hs] at h
              simp only [Option.map_some, Option.some.injEq, Prod.mk.injEq] at h
              have h5 : countTrail a ≤ 5 := by rw [countTrail_eq]; repeat' split
                                               all_goals omega
              have := (skip_spec hs).2.1
              omega
          | some p =>
            obtain ⟨v, n⟩ := p
            simp only [Option.bind_some, Option.some.injEq, Prod.mk.injEq] at h
            unfold body at hb
            split at hb
            · obtain ⟨b, -, -, -, hr⟩ := body3_ok hb
              unfold body2 at hr
              cases hb2 : rd m (1 + 1) with
              | none => rw [hb2] at hr; cases hr
              | some b2 =>
                rw [hb2] at hr
                simp only [Option.bind_some] at hr
                split at hr
                · cases hr
                · obtain ⟨_, -, -, -, -, hn⟩ := body1_ok hr; omega
            · unfold body2 at hb
              cases hb2 : rd m 1 with
              | none => rw [hb2] at hb; cases hb
              | some b2 =>
                rw [hb2] at hb
                simp only [Option.bind_some] at hb
                split at hb
                · cases hb
                · obtain ⟨_, -, -, -, -, hn⟩ := body1_ok hb; omega
            · obtain ⟨_, -, -, -, -, hn⟩ := body1_ok hb; omega
            · cases hb
      unfold next at h
      cases h0 : rd m 0 with
      | none => rw [h0] at h; cases h
      | some a =>
        rw [h0] at h
        simp only [Option.bind_some] at h
        split at h
        · split at h
          · unfold next3 at h
            cases h1 : rd m 1 with
            | none => rw [h1] at h; cases h
            | some b1 =>
              rw [h1] at h; simp only [Option.bind_some] at h
              split at h
              · cases h2 : rd m 2 with
                | none => rw [h2] at h; cases h
                | some b2 =>
                  rw [h2] at h; simp only [Option.bind_some] at h
                  split at h
                  · simp only [Option.some.injEq, Prod.mk.injEq] at h; omega
                  · exact slow h
              · exact slow h
          · split at h
            · unfold next2 at h
              cases h1 : rd m 1 with
              | none => rw [h1] at h; cases h
              | some b1 =>
                rw [h1] at h; simp only [Option.bind_some] at h
                split at h
                · simp only [Option.some.injEq, Prod.mk.injEq] at h; omega
                · exact slow h
            · exact slow h
        · simp only [Option.some.injEq, Prod.mk.injEq] at h; omega
    exact this hn

theorem charAtGo_scans {s : List UInt8} {cs} (h : Scans s cs) : ∀ (m r : Mem) (index : Int) (fuel i p : Nat),
    m.drop p = s ++ 0 :: r → cs.length ≤ fuel → (i : Int) ≤ index →
    charAtGo m index fuel i p = some (cs[(index - i).toNat]?.getD (0, [])) := by
  induction h with
  | nil =>
    intro m r index fuel i p hm hf hi
    rw [charAtGo.eq_def, show rd m p = some 0 by rw [← Nat.add_zero p, ← rd_drop, hm]; rfl]
    simp
  | cons c bytes rest cs hne hsc hr ih =>
    intro m r index fuel i p hm hf hi
    have hst := step_of_scan hne hsc
    obtain ⟨b, hb, h0⟩ := hst.rd r
    match fuel, hf with
    | fuel + 1, hf =>
      rw [charAtGo.eq_def, show rd m p = some b by rw [← Nat.add_zero p, ← rd_drop, hm]; exact hb]
      simp only [Option.bind_some, if_neg h0]
      rw [hm, hst.scan r]
      simp only [Option.bind_some]
      by_cases he : (i : Int) = index
      · rw [if_pos he, if_pos (step_le hst), List.append_assoc, List.take_left]
        have : (index - i).toNat = 0 := by omega
        simp [this]
      · rw [if_neg he, ih m r index fuel (i + 1) (p + bytes.length)
          (by rw [← List.drop_drop, hm, List.append_assoc, List.drop_left]) (by simpa using hf) (by omega)]
        have : (index - (i : Int)).toNat = (index - ((i + 1 : Nat) : Int)).toNat + 1 := by omega
        rw [this, List.getElem?_cons_succ]

theorem charAtGo_neg {s : List UInt8} {cs} (h : Scans s cs) : ∀ (m r : Mem) (index : Int) (fuel i p : Nat),
    m.drop p = s ++ 0 :: r → cs.length ≤ fuel → index < 0 → charAtGo m index fuel i p = some (0, []) := by
  induction h with
  | nil =>
    intro m r index fuel i p hm hf hi
    rw [charAtGo.eq_def, show rd m p = some 0 by rw [← Nat.add_zero p, ← rd_drop, hm]; rfl]
    simp
  | cons c bytes rest cs hne hsc hr ih =>
    intro m r index fuel i p hm hf hi
    have hst := step_of_scan hne hsc
    obtain ⟨b, hb, h0⟩ := hst.rd r
    match fuel, hf with
    | fuel + 1, hf =>
      rw [charAtGo.eq_def, show rd m p = some b by rw [← Nat.add_zero p, ← rd_drop, hm]; exact hb]
      simp only [Option.bind_some, if_neg h0]
      rw [hm, hst.scan r]
      simp only [Option.bind_some]
      rw [if_neg (by omega)]
      exact ih m r index fuel (i + 1) (p + bytes.length)
          (by rw [← List.drop_drop, hm, List.append_assoc, List.drop_left]) (by simpa using hf) hi

theorem charAt_scans {s : List UInt8} {cs} (h : Scans s cs) (index : Int) :
    charAt s index = some (if 0 ≤ index then cs[index.toNat]?.getD (0, []) else (0, [])) := by
  rw [charAt]
  by_cases hi : 0 ≤ index
  · rw [if_pos hi, charAtGo_scans h (mem s) [0, 0, 0] index s.length 0 0 (by rw [List.drop_zero, mem_eq]) (scans_length h)
      (by simpa using hi)]
    simp
  · rw [if_neg hi, charAtGo_neg h (mem s) [0, 0, 0] index s.length 0 0 (by rw [List.drop_zero, mem_eq]) (scans_length h)
      (by omega)]

/-- Skipping scanned characters. -/
theorem scans_drop {s : List UInt8} {cs} (h : Scans s cs) : ∀ n, Scans ((cs.drop n).flatMap (·.2)) (cs.drop n) := by
  induction h with
  | nil => intro n; simp; exact .nil
  | cons c bytes rest cs hne hsc hr ih =>
    intro n
    match n with
    | 0 => 
      rw [List.drop_zero]
      have e : ((c, bytes) :: cs).flatMap (·.2) = bytes ++ rest := by rw [List.flatMap_cons, ← scans_bytes hr]
      rw [e]; exact Scans.cons c bytes rest cs hne hsc hr
    | n + 1 => exact ih n

theorem drop_chunks {s : List UInt8} {cs} (h : Scans s cs) (n : Nat) :
    s.drop ((cs.take n).flatMap (·.2)).length = (cs.drop n).flatMap (·.2) := by
  have e : s = (cs.take n).flatMap (·.2) ++ (cs.drop n).flatMap (·.2) := by
    rw [← List.flatMap_append, List.take_append_drop]; exact scans_bytes h
  conv => lhs; rw [e]
  rw [List.drop_left]

theorem take_chunks {s : List UInt8} {cs} (h : Scans s cs) (n : Nat) :
    s.take ((cs.take n).flatMap (·.2)).length = (cs.take n).flatMap (·.2) := by
  have e : s = (cs.take n).flatMap (·.2) ++ (cs.drop n).flatMap (·.2) := by
    rw [← List.flatMap_append, List.take_append_drop]; exact scans_bytes h
  conv => lhs; rw [e]
  rw [List.take_left]

theorem chunks_le {s : List UInt8} {cs} (h : Scans s cs) (n : Nat) : ((cs.take n).flatMap (·.2)).length ≤ s.length := by
  have e : s = (cs.take n).flatMap (·.2) ++ (cs.drop n).flatMap (·.2) := by
    rw [← List.flatMap_append, List.take_append_drop]; exact scans_bytes h
  have := congrArg List.length e
  rw [List.length_append] at this; omega

theorem mem_drop_chunks {s : List UInt8} {cs} (h : Scans s cs) (n : Nat) :
    (mem s).drop ((cs.take n).flatMap (·.2)).length = (cs.drop n).flatMap (·.2) ++ 0 :: [0, 0, 0] := by
  rw [mem_eq, List.drop_append_of_le_length (chunks_le h n), drop_chunks h]

theorem scans_ne {s : List UInt8} {cs} (h : Scans s cs) (hs : s ≠ []) : cs ≠ [] := by
  intro e; subst e; exact hs (scans_bytes h)

theorem substring_scans {s : List UInt8} {cs} (h : Scans s cs) (loc len : Nat) (hl : loc < 2 ^ 64) (hn : len < 2 ^ 64)
    (hpos : 0 < len) : substring s loc len =
      some (if loc + len ≤ cs.length then some (((cs.drop loc).take len).flatMap (·.2)) else none) := by
  rw [substring, if_pos (by omega)]
  by_cases hs : s = []
  · subst hs
    have : cs = [] := scans_unique h .nil
    subst this
    simp; omega
  · rw [if_pos (List.length_pos_iff.mpr hs), sizeT_nat hl, mem_eq, ustridx_scans h]
    simp only [Option.bind_some]
    by_cases h1 : loc ≤ cs.length
    · rw [if_pos h1]
      simp only
      rw [substringFrom, mem_drop_chunks h, sizeT_nat hn, ustridx_scans (scans_drop h loc)]
      simp only [Option.bind_some, List.length_drop]
      by_cases h2 : len ≤ cs.length - loc
      · rw [if_pos h2, if_pos (by omega)]
        simp only
        rw [copySubstring]
        have e : mem s = (cs.take loc).flatMap (·.2) ++ (((cs.drop loc).take len).flatMap (·.2) ++
            ((cs.drop (loc + len)).flatMap (·.2) ++ [0, 0, 0, 0])) := by
          rw [mem, scans_bytes h]
          have : cs = cs.take loc ++ ((cs.drop loc).take len ++ cs.drop (loc + len)) := by
            rw [← List.drop_drop, List.take_append_drop, List.take_append_drop]
          conv => lhs; rw [this]
          simp [List.flatMap_append, List.append_assoc]
        rw [e, List.drop_left, List.take_left]
        split
        · next h0 =>
          rw [List.length_eq_zero_iff.mp h0]; rfl
        · rw [if_pos (by simp only [List.length_append]; omega)]; rfl
      · rw [if_neg h2, if_neg (by omega)]
    · rw [if_neg h1, if_neg (by omega)]

theorem substringToIndex_scans {s : List UInt8} {cs} (h : Scans s cs) (hs : s ≠ []) (n : Nat) (hn : n < 2 ^ 64) :
    substringToIndex s n = some (if n ≤ cs.length then some ((cs.take n).flatMap (·.2)) else none) := by
  rw [substringToIndex, if_pos (by omega), if_pos (List.length_pos_iff.mpr hs), sizeT_nat hn, mem_eq, ustridx_scans h]
  simp only [Option.bind_some]
  by_cases h1 : n ≤ cs.length
  · rw [if_pos h1, if_pos h1]
    simp only
    rw [copySubstring, ← mem_eq]
    split
    · next h0 => rw [List.length_eq_zero_iff.mp h0]; rfl
    · have := chunks_le h n
      rw [if_pos (by simp only [mem, List.length_append]; omega), List.drop_zero, mem, List.take_append_of_le_length this,
        take_chunks h]; rfl
  · rw [if_neg h1, if_neg h1]

theorem substringFromIndex_scans {s : List UInt8} {cs} (h : Scans s cs) (hs : s ≠ []) (n : Nat) (hn : n < 2 ^ 64) :
    substringFromIndex s n = some (if n ≤ cs.length then some ((cs.drop n).flatMap (·.2)) else none) := by
  rw [substringFromIndex, if_pos (by omega), if_pos (List.length_pos_iff.mpr hs), sizeT_nat hn, mem_eq, ustridx_scans h]
  simp only [Option.bind_some]
  by_cases h1 : n ≤ cs.length
  · rw [if_pos h1, if_pos h1]
    simp only
    have hle := chunks_le h n
    have hlen : s.length - ((cs.take n).flatMap (·.2)).length = ((cs.drop n).flatMap (·.2)).length := by
      rw [← drop_chunks h, List.length_drop]
    rw [copySubstring, ← mem_eq, hlen]
    split
    · next h0 => rw [List.length_eq_zero_iff.mp h0]; rfl
    · rw [if_pos (by simp only [mem, List.length_append]; omega), mem_drop_chunks h, List.take_left]; rfl
  · rw [if_neg h1, if_neg h1]

theorem rangeStart_scans {s : List UInt8} {cs} (h : Scans s cs) (n : Nat) (hn : n < 2 ^ 64) :
    rangeStart s n = some (if n ≤ cs.length then some ((cs.take n).flatMap (·.2)).length else none) := by
  rw [rangeStart]
  by_cases h0 : (n : Int) > 0
  · rw [if_pos h0, sizeT_nat hn, mem_eq, ustridx_scans h]
  · have : n = 0 := by omega
    subst this
    simp

/-- The search on scanned characters. -/
theorem rangeOfString_scans {s pat : List UInt8} {cs ds} (h : Scans s cs) (hd : Scans pat ds) (hne : pat ≠ [])
    (n : Nat) (hn : n ≤ cs.length) (h64 : n < 2 ^ 64) :
    rangeOfString s pat n = some (match firstAt (codes ds) (codes (cs.drop n)) with
      | some k => (((n + k : Nat) : Int), (ds.length : Int))
      | none => (-1, 0)) := by
  have hds := scans_ne hd hne
  rw [rangeOfString]
  by_cases hs : s = []
  · subst hs
    have : cs = [] := scans_unique h .nil
    subst this
    have : firstAt (codes ds) (codes []) = none := by
      simp only [codes, List.map_nil, firstAt]
      rw [if_neg]; simp [hds]
    simp [this]
  · rw [if_pos (List.length_pos_iff.mpr hs), rangeStart_scans h n h64, if_pos hn]
    simp only [Option.bind_some]
    obtain ⟨b, hb, h0⟩ : ∃ b, rd (mem pat) 0 = some b ∧ b ≠ 0 := by
      cases hd with
      | nil => exact absurd rfl hne
      | cons c bytes rest cs hne' hsc hr => exact (step_of_scan hne' hsc).rd [0, 0, 0]
    rw [hb]
    simp only [Option.bind_some, if_pos h0]
    rw [ustrstrRange, mem_drop_chunks h, mem_eq pat, search_scans (scans_drop h n) hd hds]
    cases firstAt (codes ds) (codes (cs.drop n)) with
    | none => simp
    | some k =>
      simp only [Option.map_some]
      rw [if_pos (by omega)]
      simp; omega

/-! Comparison -/

theorem ustrcmpGo_scans {s1 : List UInt8} {cs} (h1 : Scans s1 cs) : ∀ (s2 : List UInt8) (ds) (_ : Scans s2 ds)
    (fuel : Nat) (r1 r2 : Mem), cs.length ≤ fuel →
    ∃ v, ustrcmpGo fuel (s1 ++ 0 :: r1) (s2 ++ 0 :: r2) = some v ∧
      (v = 0 ↔ codes cs = codes ds) ∧
      (∀ c d cs' ds' p, codes cs ++ [0] = p ++ c :: cs' → codes ds ++ [0] = p ++ d :: ds' → c ≠ d → v = d - c) := by
  induction h1 with
  | nil =>
    intro s2 ds h2 fuel r1 r2 hf
    cases h2 with
    | nil =>
      refine ⟨0, by rw [ustrcmpGo.eq_def, List.nil_append, next_zero, List.nil_append, next_zero]; simp, by simp, ?_⟩
      intro c d cs' ds' p e1 e2 hcd
      match p with
      | [] => simp [codes] at e1 e2; exact absurd (e1.1.symm.trans e2.1) hcd
      | x :: p => simp [codes] at e1
    | cons d b rest ds hne hsc hr =>
      have hst := step_of_scan hne hsc
      refine ⟨d - 0, ?_, ?_, ?_⟩
      · rw [ustrcmpGo.eq_def, List.nil_append, next_zero, hst.next r2]; simp
      · simp [codes]; exact hst.code
      · intro c d' cs' ds' p e1 e2 hcd
        match p with
        | [] => simp [codes] at e1 e2; rw [e1.1, e2.1]
        | x :: p => simp [codes] at e1
  | cons c bytes rest cs hne hsc hr ih =>
    intro s2 ds h2 fuel r1 r2 hf
    have hst := step_of_scan hne hsc
    match fuel, hf with
    | fuel + 1, hf =>
      cases h2 with
      | nil =>
        refine ⟨0 - c, ?_, ?_, ?_⟩
        · rw [ustrcmpGo.eq_def, List.nil_append, next_zero, hst.next r1]
          simp
        · simp [codes]; exact hst.code
        · intro c' d' cs' ds' p e1 e2 hcd
          match p with
          | [] => simp [codes] at e1 e2; rw [e1.1, e2.1]
          | x :: p => simp [codes] at e2
      | cons d b rest2 ds hne2 hsc2 hr2 =>
        have hst2 := step_of_scan hne2 hsc2
        by_cases he : c = d
        · subst he
          obtain ⟨v, hv, hz, ho⟩ := ih rest2 ds hr2 fuel r1 r2 (by simpa using hf)
          refine ⟨v, ?_, ?_, ?_⟩
          · rw [ustrcmpGo.eq_def, hst.next r1, hst2.next r2]
            simp only [Option.bind_some]
            rw [if_pos ⟨trivial, hst.code⟩]
            rw [List.append_assoc, List.drop_left, List.append_assoc, List.drop_left]
            exact hv
          · rw [hz]; simp [codes]
          · intro c' d' cs' ds' p e1 e2 hcd
            match p with
            | [] => simp [codes] at e1 e2; exact absurd (e1.1.symm.trans e2.1) hcd
            | x :: p =>
              simp [codes] at e1 e2
              exact ho c' d' cs' ds' p (by simpa [codes] using e1.2) (by simpa [codes] using e2.2) hcd
        · refine ⟨d - c, ?_, ?_, ?_⟩
          · rw [ustrcmpGo.eq_def, hst.next r1, hst2.next r2]; simp [he]
          · simp only [codes, List.map_cons, List.cons.injEq]
            constructor
            · intro h; omega
            · intro h; exact absurd h.1 he
          · intro c' d' cs' ds' p e1 e2 hcd
            match p with
            | [] => simp [codes] at e1 e2; rw [e1.1, e2.1]
            | x :: p => simp [codes] at e1 e2; exact absurd (e1.1.trans e2.1.symm) he

/-! Texts -/

theorem firstAt_map {α β : Type} [DecidableEq α] [DecidableEq β] {f : α → β} (hf : ∀ a b, f a = f b → a = b)
    (needle : List α) : ∀ hay : List α, firstAt (needle.map f) (hay.map f) = firstAt needle hay
  | [] => by simp [firstAt]
  | x :: xs => by
    have : (needle.map f <+: f x :: xs.map f) ↔ (needle <+: x :: xs) := by
      rw [← List.map_cons]
      constructor
      · intro h
        obtain ⟨t, ht⟩ := h
        have hl : needle.length ≤ (x :: xs).length := by
          have := congrArg List.length ht; simp at this ⊢; omega
        have h1 : needle.map f = ((x :: xs).take needle.length).map f := by
          rw [List.map_take, ← ht, List.take_left' (by simp)]
        have h2 : needle = (x :: xs).take needle.length := by
          revert h1
          generalize (x :: xs).take needle.length = ys
          clear ht hl
          induction needle generalizing ys with
          | nil => intro h; cases ys with
            | nil => rfl
            | cons => simp at h
          | cons a as ih => intro h; cases ys with
            | nil => simp at h
            | cons y ys => simp at h; rw [hf _ _ h.1, ih ys h.2]
        rw [h2]; exact List.take_prefix _ _
      · intro h; exact h.map f
    rw [List.map_cons, firstAt, firstAt, firstAt_map hf needle xs]
    simp only [this]

theorem firstAt_spec {α : Type} [DecidableEq α] (needle : List α) (hne : needle ≠ []) : ∀ hay : List α,
    (∀ k, firstAt needle hay = some k ↔ needle <+: hay.drop k ∧ ∀ j, j < k → ¬ needle <+: hay.drop j) ∧
    (firstAt needle hay = none ↔ ∀ j, ¬ needle <+: hay.drop j)
  | [] => by
    have h : ∀ j, ¬ needle <+: ([] : List α).drop j := by
      intro j h; rw [List.drop_nil] at h; exact hne (List.prefix_nil.mp h)
    simp only [firstAt, if_neg hne]
    exact ⟨fun k => ⟨by simp, fun h' => absurd h'.1 (h k)⟩, by simp [hne]⟩
  | x :: xs => by
    obtain ⟨ih1, ih2⟩ := firstAt_spec needle hne xs
    rw [firstAt]
    by_cases hp : needle <+: x :: xs
    · rw [if_pos hp]
      refine ⟨fun k => ⟨fun h => ?_, fun h => ?_⟩, ⟨by simp, fun h => absurd hp (h 0)⟩⟩
      · cases h; exact ⟨hp, fun j hj => by omega⟩
      · rcases Nat.eq_zero_or_pos k with rfl | hk
        · rfl
        · exact absurd hp (h.2 0 hk)
    · rw [if_neg hp]
      refine ⟨fun k => ?_, ?_⟩
      · cases k with
        | zero =>
          constructor
          · intro h; cases hf : firstAt needle xs <;> rw [hf] at h <;> simp at h
          · intro h; exact absurd h.1 hp
        | succ k =>
          have h1 : (firstAt needle xs).map (· + 1) = some (k + 1) ↔ firstAt needle xs = some k := by
            cases firstAt needle xs <;> simp
          rw [h1, ih1 k]
          refine and_congr Iff.rfl ⟨fun h j hj => ?_, fun h j hj => h (j + 1) (by omega)⟩
          cases j with
          | zero => exact hp
          | succ j => exact h j (by omega)
      · have h1 : (firstAt needle xs).map (· + 1) = none ↔ firstAt needle xs = none := by
          cases firstAt needle xs <;> simp
        rw [h1, ih2]
        refine ⟨fun h j => ?_, fun h j => h (j + 1)⟩
        cases j with
        | zero => exact hp
        | succ j => exact h j

/-- A text as scanned characters. -/
def chunks (cs : List Char) : List (Int × List UInt8) := cs.map fun c => ((c.toNat : Int), String.utf8EncodeChar c)

theorem toInt_inj (a b : Char) (h : (a.toNat : Int) = (b.toNat : Int)) : a = b := Char.toNat_inj.mp (by omega)

theorem codes_chunks (cs : List Char) : codes (chunks cs) = cs.map fun c => (c.toNat : Int) := by
  simp [codes, chunks]

theorem flat_chunks (cs : List Char) : (chunks cs).flatMap (·.2) = utf8 cs := by
  simp [chunks, utf8, List.flatMap_map]

theorem scans_text {cs : List Char} (h : '\x00' ∉ cs) : Scans (utf8 cs) (chunks cs) := scans_utf8 h

theorem utf8_ne {cs : List Char} (h : cs ≠ []) : utf8 cs ≠ [] := by
  match cs, h with
  | c :: cs, _ => 
    intro e
    have e' : String.utf8EncodeChar c ++ utf8 cs = [] := e
    exact enc_ne_nil c (List.append_eq_nil_iff.mp e').1

theorem rangeOfString_text {cs ds : List Char} (hc : '\x00' ∉ cs) (hd : '\x00' ∉ ds) (hne : ds ≠ []) (n : Nat)
    (hn : n ≤ cs.length) (h64 : n < 2 ^ 64) :
    rangeOfString (utf8 cs) (utf8 ds) n = some (match firstAt ds (cs.drop n) with
      | some k => (((n + k : Nat) : Int), (ds.length : Int))
      | none => (-1, 0)) := by
  rw [rangeOfString_scans (scans_text hc) (scans_text hd) (utf8_ne hne) n (by simpa [chunks] using hn) h64]
  have : firstAt (codes (chunks ds)) (codes ((chunks cs).drop n)) = firstAt ds (cs.drop n) := by
    rw [codes_chunks, show (chunks cs).drop n = chunks (cs.drop n) by simp [chunks, List.map_drop], codes_chunks,
      firstAt_map toInt_inj]
  rw [this]
  simp [chunks]

theorem text_tri : ∀ a b : List Char, a < b ∨ a = b ∨ b < a
  | [], [] => Or.inr (Or.inl rfl)
  | [], _ :: _ => Or.inl (List.nil_lt_cons _ _)
  | _ :: _, [] => Or.inr (Or.inr (List.nil_lt_cons _ _))
  | x :: a, y :: b => by
    rcases Nat.lt_trichotomy x.toNat y.toNat with h | h | h
    · exact Or.inl (List.cons_lt_cons_iff.mpr (Or.inl h))
    · have h := Char.toNat_inj.mp h
      subst h
      rcases text_tri a b with h | h | h
      · exact Or.inl (List.cons_lt_cons_iff.mpr (Or.inr ⟨rfl, h⟩))
      · exact Or.inr (Or.inl (by rw [h]))
      · exact Or.inr (Or.inr (List.cons_lt_cons_iff.mpr (Or.inr ⟨rfl, h⟩)))
    · exact Or.inr (Or.inr (List.cons_lt_cons_iff.mpr (Or.inl h)))

theorem compare_text {a b : List Char} (ha : '\x00' ∉ a) (hb : '\x00' ∉ b) :
    ∃ v, compareString (utf8 a) (utf8 b) = some v ∧ (v = 0 ↔ a = b) ∧ (v > 0 ↔ a < b) ∧ (v < 0 ↔ b < a) := by
  obtain ⟨v, hv, hz, ho⟩ := ustrcmpGo_scans (scans_text ha) (utf8 b) _ (scans_text hb) (mem (utf8 a)).length
    [0, 0, 0] [0, 0, 0] (by have := scans_length (scans_text ha); simp [mem]; omega)
  refine ⟨v, hv, ?_⟩
  rw [codes_chunks, codes_chunks] at hz ho
  have hinj : a.map (fun c => (c.toNat : Int)) = b.map (fun c => (c.toNat : Int)) ↔ a = b :=
    ⟨fun h => List.map_inj_right (f := fun c : Char => (c.toNat : Int)) (fun {x y} => toInt_inj x y) |>.mp h, fun h => by rw [h]⟩
  rw [hinj] at hz
  have key : ∀ (a b : List Char), '\x00' ∉ a → '\x00' ∉ b → a < b → ∃ p c d cs' ds',
      a.map (fun c => (c.toNat : Int)) ++ [0] = p ++ c :: cs' ∧ b.map (fun c => (c.toNat : Int)) ++ [0] = p ++ d :: ds' ∧ c < d := by
    intro a
    induction a with
    | nil =>
      intro b _ hb h
      match b with
      | [] => exact absurd h (List.lt_irrefl _)
      | d :: ds =>
        refine ⟨[], 0, d.toNat, [], ds.map (fun c => (c.toNat : Int)) ++ [0], rfl, rfl, ?_⟩
        have : d ≠ '\x00' := fun e => hb (by simp [e])
        have : d.toNat ≠ 0 := fun e => this (Char.toNat_inj.mp (by rw [e]; rfl))
        omega
    | cons x a ih =>
      intro b ha hb h
      match b with
      | [] => exact absurd h (List.not_lt_nil _)
      | y :: b =>
        rcases List.cons_lt_cons_iff.mp h with hxy | ⟨rfl, hab⟩
        · refine ⟨[], x.toNat, y.toNat, a.map (fun c => (c.toNat : Int)) ++ [0], b.map (fun c => (c.toNat : Int)) ++ [0],
            rfl, rfl, ?_⟩
          have : x.toNat < y.toNat := hxy
          omega
        · obtain ⟨p, c, d, cs', ds', e1, e2, hlt⟩ := ih b (fun e => ha (by simp [e])) (fun e => hb (by simp [e])) hab
          refine ⟨(x.toNat : Int) :: p, c, d, cs', ds', ?_, ?_, hlt⟩
          · rw [List.map_cons, List.cons_append, e1, List.cons_append]
          · rw [List.map_cons, List.cons_append, e2, List.cons_append]
  have hlt : a < b → v > 0 := by
    intro h
    obtain ⟨p, c, d, cs', ds', e1, e2, hcd⟩ := key a b ha hb h
    have := ho c d cs' ds' p e1 e2 (by omega)
    omega
  have hgt : b < a → v < 0 := by
    intro h
    obtain ⟨p, c, d, cs', ds', e1, e2, hcd⟩ := key b a hb ha h
    have := ho d c ds' cs' p e2 e1 (by omega)
    omega
  have tri : a < b ∨ a = b ∨ b < a := by
    exact text_tri a b
  refine ⟨hz, ⟨fun h => ?_, hlt⟩, ⟨fun h => ?_, hgt⟩⟩
  · rcases tri with t | t | t
    · exact t
    · have := hz.mpr t; omega
    · have := hgt t; omega
  · rcases tri with t | t | t
    · have := hlt t; omega
    · have := hz.mpr t; omega
    · exact t

end Text
end Duck
