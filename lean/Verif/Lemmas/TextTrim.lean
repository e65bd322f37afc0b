import Verif.Lemmas.Text
import Verif.Spec.TextTrim
namespace Duck
namespace Text
open Unicode

/-! ## Trimming -/

theorem isspace_narrow {c : Int} (h0 : -1 ≤ c) (h : c < 256) : isspace c = some (decide (White c)) := by
  unfold isspace
  by_cases h1 : c = -1
  · subst h1; rfl
  · rw [if_neg h1, if_pos (by omega)]
    rfl

theorem isspace_wide {c : Int} (h : 256 ≤ c) : isspace c = none := by
  unfold isspace; rw [if_neg (by omega), if_neg (by omega)]

theorem step_code {c : Int} {bytes rest : List UInt8} (h : Step c bytes rest) : -1 ≤ c := by
  rcases next_spec (h.next []) with ⟨v, rfl, -, -, -⟩ | ⟨rfl, -⟩ <;> omega

/-- What is left after dropping white characters at the end. -/
def rtrim : List (Int × List UInt8) → List (Int × List UInt8)
  | [] => []
  | x :: xs => if rtrim xs = [] ∧ White x.1 then [] else x :: rtrim xs

abbrev flat (cs : List (Int × List UInt8)) : List UInt8 := cs.flatMap (·.2)

theorem trimTail_scans {s : List UInt8} {cs} (h : Scans s cs) : ∀ (m r : Mem) (fuel p len keep : Nat),
    m.drop p = s ++ 0 :: r → cs.length ≤ fuel → (∀ x ∈ cs, x.1 < 256) →
    trimTail m fuel p len keep = some (if rtrim cs = [] then keep else len + (flat (rtrim cs)).length) := by
  induction h with
  | nil =>
    intro m r fuel p len keep hm hf _
    rw [trimTail.eq_def, show rd m p = some 0 by rw [← Nat.add_zero p, ← rd_drop, hm]; rfl]
    simp [rtrim]
  | cons c bytes rest cs hne hsc hr ih =>
    intro m r fuel p len keep hm hf hn
    have hst := step_of_scan hne hsc
    obtain ⟨b, hb, h0⟩ := hst.rd r
    match fuel, hf with
    | fuel + 1, hf =>
      rw [trimTail.eq_def, show rd m p = some b by rw [← Nat.add_zero p, ← rd_drop, hm]; exact hb]
      simp only [Option.bind_some, if_neg h0]
      rw [hm, hst.scan r]
      simp only [Option.bind_some]
      rw [isspace_narrow (step_code hst) (hn (c, bytes) (by simp))]
      simp only [Option.bind_some]
      rw [ih m r fuel (p + bytes.length) _ _ (by rw [← List.drop_drop, hm, List.append_assoc, List.drop_left])
        (by simpa using hf) (fun x hx => hn x (by simp [hx]))]
      by_cases h1 : rtrim cs = [] <;> by_cases h2 : White c <;> simp [rtrim, h1, h2, flat] <;> omega

theorem trimTail_wide {s : List UInt8} {cs} (h : Scans s cs) : ∀ (m r : Mem) (fuel p len keep : Nat),
    m.drop p = s ++ 0 :: r → (∃ x ∈ cs, 256 ≤ x.1) → trimTail m fuel p len keep = none := by
  induction h with
  | nil => intro m r fuel p len keep hm hx; simp at hx
  | cons c bytes rest cs hne hsc hr ih =>
    intro m r fuel p len keep hm hx
    have hst := step_of_scan hne hsc
    obtain ⟨b, hb, h0⟩ := hst.rd r
    rw [trimTail.eq_def, show rd m p = some b by rw [← Nat.add_zero p, ← rd_drop, hm]; exact hb]
    simp only [Option.bind_some, if_neg h0]
    match fuel with
    | 0 => rfl
    | fuel + 1 =>
      simp only
      rw [hm, hst.scan r]
      simp only [Option.bind_some]
      rcases Int.lt_or_le c 256 with hc | hc
      · rw [isspace_narrow (step_code hst) hc]
        simp only [Option.bind_some]
        refine ih m r fuel _ _ _ (by rw [← List.drop_drop, hm, List.append_assoc, List.drop_left]) ?_
        obtain ⟨x, hx1, hx2⟩ := hx
        rcases List.mem_cons.mp hx1 with rfl | hx1
        · simp at hx2; omega
        · exact ⟨x, hx1, hx2⟩
      · rw [isspace_wide hc]; rfl

theorem trimHead_scans {s : List UInt8} {cs} (h : Scans s cs) : ∀ (m r : Mem) (fuel p : Nat),
    m.drop p = s ++ 0 :: r → cs.length ≤ fuel → (∀ x ∈ cs, x.1 < 256) →
    ∃ A B, cs = A ++ B ∧ (∀ x ∈ A, White x.1) ∧ (∀ x, B.head? = some x → ¬ White x.1) ∧
      trimHead m fuel p = some (p + (flat A).length, ((B.head?.map (·.2)).getD []).length,
        p + (flat A).length + ((B.head?.map (·.2)).getD []).length) := by
  induction h with
  | nil =>
    intro m r fuel p hm hf _
    refine ⟨[], [], rfl, by simp, by simp, ?_⟩
    rw [trimHead.eq_def, show rd m p = some 0 by rw [← Nat.add_zero p, ← rd_drop, hm]; rfl]
    simp [flat]
  | cons c bytes rest cs hne hsc hr ih =>
    intro m r fuel p hm hf hn
    have hst := step_of_scan hne hsc
    obtain ⟨b, hb, h0⟩ := hst.rd r
    match fuel, hf with
    | fuel + 1, hf =>
      rw [trimHead.eq_def, show rd m p = some b by rw [← Nat.add_zero p, ← rd_drop, hm]; exact hb]
      simp only [Option.bind_some, if_neg h0]
      rw [hm, hst.scan r]
      simp only [Option.bind_some]
      rw [isspace_narrow (step_code hst) (hn (c, bytes) (by simp))]
      simp only [Option.bind_some]
      by_cases hw : White c
      · obtain ⟨A, B, e, hA, hB, ht⟩ := ih m r fuel (p + bytes.length)
          (by rw [← List.drop_drop, hm, List.append_assoc, List.drop_left]) (by simpa using hf) (fun x hx => hn x (by simp [hx]))
        refine ⟨(c, bytes) :: A, B, by simp [e], ?_, hB, ?_⟩
        · intro x hx
          rcases List.mem_cons.mp hx with rfl | hx
          · exact hw
          · exact hA x hx
        · rw [if_pos (by simpa using hw), ht]
          simp only [flat, List.flatMap_cons, List.length_append]
          refine congrArg some (Prod.ext ?_ (Prod.ext rfl ?_)) <;> simp only <;> omega
      · refine ⟨[], (c, bytes) :: cs, rfl, by simp, by simp [hw], ?_⟩
        rw [if_neg (by simpa using hw)]
        simp [flat]

theorem trimHead_wide {s : List UInt8} {cs} (h : Scans s cs) (F : Nat) : ∀ (m r : Mem) (fuel p : Nat),
    m.drop p = s ++ 0 :: r → (∃ x ∈ cs, 256 ≤ x.1) →
    ((trimHead m fuel p).bind fun h => trimTail m F h.2.2 h.2.1 h.2.1) = none := by
  induction h with
  | nil => intro m r fuel p hm hx; simp at hx
  | cons c bytes rest cs hne hsc hr ih =>
    intro m r fuel p hm hx
    have hst := step_of_scan hne hsc
    obtain ⟨b, hb, h0⟩ := hst.rd r
    rw [trimHead.eq_def, show rd m p = some b by rw [← Nat.add_zero p, ← rd_drop, hm]; exact hb]
    simp only [Option.bind_some, if_neg h0]
    match fuel with
    | 0 => rfl
    | fuel + 1 =>
      simp only
      rw [hm, hst.scan r]
      simp only [Option.bind_some]
      rcases Int.lt_or_le c 256 with hc | hc
      · rw [isspace_narrow (step_code hst) hc]
        simp only [Option.bind_some]
        have hx' : ∃ x ∈ cs, 256 ≤ x.1 := by
          obtain ⟨x, hx1, hx2⟩ := hx
          rcases List.mem_cons.mp hx1 with rfl | hx1
          · simp at hx2; omega
          · exact ⟨x, hx1, hx2⟩
        have hd : m.drop (p + bytes.length) = rest ++ 0 :: r := by rw [← List.drop_drop, hm, List.append_assoc, List.drop_left]
        split
        · exact ih m r fuel _ hd hx'
        · simp only [Option.bind_some]
          exact trimTail_wide hr m r F _ _ _ hd hx'
      · rw [isspace_wide hc]; rfl

theorem rtrim_spec : ∀ cs : List (Int × List UInt8), ∃ b, cs = rtrim cs ++ b ∧ (∀ x ∈ b, White x.1) ∧
    (∀ x, (rtrim cs).getLast? = some x → ¬ White x.1)
  | [] => ⟨[], rfl, by simp, by simp [rtrim]⟩
  | x :: xs => by
    obtain ⟨b, e, hb, hl⟩ := rtrim_spec xs
    by_cases h : rtrim xs = [] ∧ White x.1
    · refine ⟨x :: b, ?_, ?_, ?_⟩
      · rw [h.1] at e; simp [rtrim, h]; simpa using e
      · intro y hy
        rcases List.mem_cons.mp hy with rfl | hy
        · exact h.2
        · exact hb y hy
      · simp [rtrim, h]
    · refine ⟨b, ?_, hb, ?_⟩
      · rw [rtrim, if_neg h, List.cons_append, ← e]
      · rw [rtrim, if_neg h]
        intro y hy
        cases hr : rtrim xs with
        | nil =>
          rw [hr] at hy
          simp at hy; subst hy
          exact fun hw => h ⟨hr, hw⟩
        | cons z zs =>
          rw [hr, List.getLast?_cons_cons] at hy
          exact hl y (by rw [hr]; exact hy)

theorem flat_append (a b : List (Int × List UInt8)) : flat (a ++ b) = flat a ++ flat b := by simp [flat]

theorem flat_nil {s : List UInt8} {cs a t b} (h : Scans s cs) (e : cs = a ++ t ++ b) (hn : (flat t).length = s.length) :
    flat t = s := by
  have hs := scans_bytes h
  change s = flat cs at hs
  rw [e, flat_append, flat_append] at hs
  have hl := congrArg List.length hs
  simp only [List.length_append] at hl
  have h1 : flat a = [] := List.length_eq_zero_iff.mp (by omega)
  have h2 : flat b = [] := List.length_eq_zero_iff.mp (by omega)
  rw [hs, h1, h2]; simp

/-- Trimming a string, whatever its bytes, when no character is beyond U+00FF. -/
theorem trim_scans {s : List UInt8} {cs} (h : Scans s cs) (hn : ∀ x ∈ cs, x.1 < 256) :
    ∃ t, Trimmed (·.1) cs t ∧ trim s = some (flat t) := by
  obtain ⟨A, B, e, hA, hB, ht⟩ := trimHead_scans h (mem s) [0, 0, 0] s.length 0 (by rw [List.drop_zero, mem_eq]) (scans_length h) hn
  have hse : s = flat cs := scans_bytes h
  have hAB : cs.drop A.length = B := by rw [e, List.drop_left]
  cases B with
  | nil =>
    refine ⟨[], ⟨A, [], by simpa using e, hA, by simp, by simp, by simp⟩, ?_⟩
    rw [trim, ht]
    simp only [List.head?_nil, Option.map_none, Option.getD_none, List.length_nil, Option.bind_some, Nat.add_zero, Nat.zero_add]
    have hd : (mem s).drop (flat A).length = [] ++ 0 :: [0, 0, 0] := by
      rw [mem_eq, hse, e]; simp [flat]
    rw [trimTail_scans Scans.nil (mem s) [0, 0, 0] s.length _ 0 0 hd (by simp) (by simp)]
    simp only [rtrim, if_true, Option.bind_some]
    by_cases h0 : (0 : Nat) ≠ s.length
    · rw [if_pos h0, copySubstring, if_pos rfl]; rfl
    · rw [if_neg h0]
      have : s = [] := List.length_eq_zero_iff.mp (by omega)
      rw [this]; rfl
  | cons x B =>
    obtain ⟨b, eb, hb, hl⟩ := rtrim_spec B
    have hx : ¬ White x.1 := hB x rfl
    refine ⟨x :: rtrim B, ⟨A, b, by rw [e]; simp [← eb], hA, hb, by simpa using hx, ?_⟩, ?_⟩
    · intro y hy
      cases hr : rtrim B with
      | nil => rw [hr] at hy; simp at hy; subst hy; exact hx
      | cons z zs => rw [hr, List.getLast?_cons_cons] at hy; exact hl y (by rw [hr]; exact hy)
    · have hsB : Scans (flat B) B := by
        have := scans_drop h (A.length + 1)
        rwa [e, show (A ++ x :: B).drop (A.length + 1) = B by
          rw [← List.drop_drop, List.drop_left]; rfl] at this
      have hd : (mem s).drop ((flat A).length + x.2.length) = flat B ++ 0 :: [0, 0, 0] := by
        rw [mem_eq, hse, e]
        have : flat (A ++ x :: B) = (flat A ++ x.2) ++ flat B := by simp [flat]
        rw [this, List.append_assoc, ← List.length_append, List.drop_left]
      rw [trim, ht]
      simp only [List.head?_cons, Option.map_some, Option.getD_some, Option.bind_some, Nat.zero_add]
      rw [trimTail_scans hsB (mem s) [0, 0, 0] s.length _ _ _ hd (by
        have := scans_length h; rw [e] at this; simp at this; omega) (fun y hy => hn y (by rw [e]; simp [hy]))]
      have hlen : (if rtrim B = [] then x.2.length else x.2.length + (flat (rtrim B)).length) = (flat (x :: rtrim B)).length := by
        by_cases hr : rtrim B = []
        · simp [hr, flat]
        · simp [hr, flat]
      rw [hlen]
      simp only [Option.bind_some]
      have hpos : (flat (x :: rtrim B)).length ≠ 0 := by
        have := scans_chunks_ne h x (by rw [e]; simp)
        have := List.length_pos_iff.mpr this
        simp only [flat, List.flatMap_cons, List.length_append]; omega
      have hfull : s = flat A ++ (flat (x :: rtrim B) ++ flat b) := by
        rw [hse, e]; conv => lhs; rw [eb]
        simp [flat]
      by_cases h0 : (flat (x :: rtrim B)).length ≠ s.length
      · rw [if_pos h0, copySubstring, if_neg hpos, if_pos (by
          rw [mem_eq]; have := congrArg List.length hfull; simp only [List.length_append] at this ⊢; omega)]
        rw [mem_eq, hfull, List.append_assoc, List.drop_left, List.append_assoc, List.take_left]
      · rw [if_neg h0, flat_nil h (a := A) (t := x :: rtrim B) (b := b) (by rw [e]; simp [← eb]) (by omega)]

theorem trim_wide {s : List UInt8} {cs} (h : Scans s cs) (hw : ∃ x ∈ cs, 256 ≤ x.1) : trim s = none := by
  have := trimHead_wide h s.length (mem s) [0, 0, 0] s.length 0 (by rw [List.drop_zero, mem_eq]) hw
  rw [trim]
  cases ht : trimHead (mem s) s.length 0 with
  | none => rfl
  | some h =>
    rw [ht, Option.bind_some] at this
    rw [Option.bind_some, this]; rfl

theorem _root_.List.head?_append_of_ne_nil' {α : Type} {a b : List α} (h : a ≠ []) : (a ++ b).head? = a.head? := by
  cases a with
  | nil => exact absurd rfl h
  | cons x a => rfl

theorem trimmed_unique {α : Type} {code : α → Int} {s t t' : List α} (h : Trimmed code s t) (h' : Trimmed code s t') : t = t' := by
  obtain ⟨a, b, e, ha, hb, h1, h2⟩ := h
  obtain ⟨a', b', e', ha', hb', h1', h2'⟩ := h'
  have key : ∀ (a : List α) {a' u u' : List α}, a ++ u = a' ++ u' → (∀ x ∈ a, White (code x)) → (∀ x ∈ a', White (code x)) →
      (∀ x, u.head? = some x → ¬ White (code x)) → (∀ x, u'.head? = some x → ¬ White (code x)) → u = u' := by
    intro a
    induction a with
    | nil =>
      intro a' u u' e _ ha' hu _
      cases a' with
      | nil => simpa using e
      | cons x a' =>
        simp at e; subst e
        exact absurd (ha' x (by simp)) (hu x rfl)
    | cons x a ih =>
      intro a' u u' e ha ha' hu hu'
      cases a' with
      | nil =>
        simp at e; subst e
        exact absurd (ha x (by simp)) (hu' x rfl)
      | cons y a' =>
        simp at e
        exact ih e.2 (fun z hz => ha z (by simp [hz])) (fun z hz => ha' z (by simp [hz])) hu hu'
  by_cases ht : t = []
  · subst ht
    have hall : ∀ x ∈ s, White (code x) := by
      rw [e]; intro x hx; simp at hx; rcases hx with hx | hx
      · exact ha x hx
      · exact hb x hx
    cases t' with
    | nil => rfl
    | cons x t' => exact absurd (hall x (by rw [e']; simp)) (h1' x rfl)
  · by_cases ht' : t' = []
    · subst ht'
      have hall : ∀ x ∈ s, White (code x) := by
        rw [e']; intro x hx; simp at hx; rcases hx with hx | hx
        · exact ha' x hx
        · exact hb' x hx
      cases t with
      | nil => rfl
      | cons x t => exact absurd (hall x (by rw [e]; simp)) (h1 x rfl)
    · have e1 : t ++ b = t' ++ b' := by
        refine key a (a' := a') (by rw [← List.append_assoc, ← List.append_assoc, ← e, ← e']) ha ha' ?_ ?_
        · intro x hx; rw [List.head?_append_of_ne_nil' ht] at hx; exact h1 x hx
        · intro x hx; rw [List.head?_append_of_ne_nil' ht'] at hx; exact h1' x hx
      have e2 : t.reverse = t'.reverse := by
        refine key b.reverse (a' := b'.reverse) ?_ ?_ ?_ ?_ ?_
        · rw [← List.reverse_append, ← List.reverse_append, e1]
        · intro x hx; exact hb x (by simpa using hx)
        · intro x hx; exact hb' x (by simpa using hx)
        · intro x hx; rw [List.head?_reverse] at hx; exact h2 x hx
        · intro x hx; rw [List.head?_reverse] at hx; exact h2' x hx
      simpa using e2

/-! ## Filtering -/

theorem filterGo_scans {σ : Type} (f : Filter σ) {s : List UInt8} {cs} (h : Scans s cs) : ∀ (m r : Mem) (fuel p i j : Nat)
    (out : List UInt8) (x : σ), m.drop p = s ++ 0 :: r → cs.length ≤ fuel →
    filterGo f m fuel p i j out x = some (out ++ (select f i j x cs).1.flatten, (select f i j x cs).2) := by
  induction h with
  | nil =>
    intro m r fuel p i j out x hm hf
    rw [filterGo.eq_def, show rd m p = some 0 by rw [← Nat.add_zero p, ← rd_drop, hm]; rfl]
    simp [select]
  | cons c bytes rest cs hne hsc hr ih =>
    intro m r fuel p i j out x hm hf
    have hst := step_of_scan hne hsc
    obtain ⟨b, hb, h0⟩ := hst.rd r
    match fuel, hf with
    | fuel + 1, hf =>
      rw [filterGo.eq_def, show rd m p = some b by rw [← Nat.add_zero p, ← rd_drop, hm]; exact hb]
      simp only [Option.bind_some, if_neg h0]
      rw [hm, hst.scan r]
      simp only [Option.bind_some]
      rw [if_pos (step_le hst), List.append_assoc, List.take_left]
      have hd : m.drop (p + bytes.length) = rest ++ 0 :: r := by rw [← List.drop_drop, hm, List.append_assoc, List.drop_left]
      by_cases hs : (f i j bytes c x).stop
      · by_cases hk : (f i j bytes c x).keep <;> simp [select, hs, hk]
      · rw [if_neg hs, ih m r fuel _ _ _ _ _ hd (by simpa using hf)]
        by_cases hk : (f i j bytes c x).keep <;> simp [select, hs, hk]

theorem filter_scans {σ : Type} (f : Filter σ) {s : List UInt8} {cs} (h : Scans s cs) (x : σ) :
    filter f s x = some ((select f 0 0 x cs).1.flatten, (select f 0 0 x cs).2) := by
  rw [filter, filterGo_scans f h (mem s) [0, 0, 0] s.length 0 0 0 [] x (by rw [List.drop_zero, mem_eq]) (scans_length h)]
  simp

end Text
end Duck
