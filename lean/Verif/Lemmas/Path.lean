import Verif.Model.Path
import Verif.Spec.Path
import Verif.Lemmas.TextEdit
/-! Helper lemmas for C38 and C62. -/
namespace Duck
namespace Path
open Unicode Text

/-! ## Components -/

theorem pieces_ne (s : List UInt8) : pieces s ≠ [] := by
  cases s with
  | nil => simp [pieces]
  | cons b s => simp only [pieces]; split
                · simp
                · split <;> simp

theorem pieces_free : ∀ (s : List UInt8), ∀ p ∈ pieces s, (0x2f : UInt8) ∉ p
  | [], p, hp => by simp [pieces] at hp; simp [hp]
  | b :: s, p, hp => by
    have ih := pieces_free s
    simp only [pieces] at hp
    split at hp
    · rcases List.mem_cons.mp hp with rfl | hp
      · simp
      · exact ih p hp
    · next hb =>
      split at hp
      · next h => exact absurd h (pieces_ne s)
      · next q qs h =>
        rcases List.mem_cons.mp hp with rfl | hp
        · have := ih q (by rw [h]; simp)
          simp [this, Ne.symm hb]
        · exact ih p (by rw [h]; simp [hp])

theorem pieces_append (s t : List UInt8) : pieces (s ++ 0x2f :: t) = pieces s ++ pieces t := by
  induction s with
  | nil => simp [pieces]
  | cons b s ih =>
    simp only [List.cons_append, pieces, ih]
    split
    · rfl
    · match h : pieces s, pieces_ne s with
      | p :: ps, _ => simp

theorem pieces_slashfree : ∀ {p : List UInt8}, (0x2f : UInt8) ∉ p → pieces p = [p]
  | [], _ => rfl
  | b :: p, h => by
    have hb : b ≠ 0x2f := fun e => h (by simp [e])
    rw [pieces, if_neg hb, pieces_slashfree (fun e => h (by simp [e]))]

theorem comps_append (s t : List UInt8) : comps (s ++ 0x2f :: t) = comps s ++ comps t := by
  simp [comps, pieces_append]

theorem comps_cons_slash (t : List UInt8) : comps (0x2f :: t) = comps t := by simp [comps, pieces]

theorem comps_nil : comps [] = [] := rfl

theorem comps_single {p : List UInt8} (h : (0x2f : UInt8) ∉ p) (hne : p ≠ []) : comps p = [p] := by
  simp [comps, pieces_slashfree h, hne]

theorem comps_ok (s : List UInt8) : ∀ p ∈ comps s, p ≠ [] ∧ (0x2f : UInt8) ∉ p := by
  intro p hp
  simp only [comps, List.mem_filter] at hp
  exact ⟨by simpa using hp.2, pieces_free s p hp.1⟩

theorem inter_cons (p q : List UInt8) (ps : List (List UInt8)) :
    [0x2f].intercalate (p :: q :: ps) = p ++ 0x2f :: [0x2f].intercalate (q :: ps) := by
  simp [List.intercalate, List.intersperse]

theorem inter_single (p : List UInt8) : [(0x2f : UInt8)].intercalate [p] = p := by simp

theorem comps_inter : ∀ {ps : List (List UInt8)}, (∀ p ∈ ps, p ≠ [] ∧ (0x2f : UInt8) ∉ p) → comps ([0x2f].intercalate ps) = ps
  | [], _ => rfl
  | [p], h => by rw [inter_single]; exact comps_single (h p (by simp)).2 (h p (by simp)).1
  | p :: q :: ps, h => by
    rw [inter_cons, comps_append, comps_inter (fun x hx => h x (by simp [List.mem_cons.mp hx])),
      comps_single (h p (by simp)).2 (h p (by simp)).1]
    rfl

theorem inter_head {ps : List (List UInt8)} (h : ∀ p ∈ ps, p ≠ [] ∧ (0x2f : UInt8) ∉ p) :
    abs ([0x2f].intercalate ps) = false := by
  match ps with
  | [] => rfl
  | [p] =>
    rw [inter_single]
    have := h p (by simp)
    match p, this with
    | b :: p, ⟨_, h2⟩ => simp [abs]; intro e; exact h2 (by simp [e])
  | p :: q :: ps =>
    rw [inter_cons]
    have := h p (by simp)
    match p, this with
    | b :: p, ⟨_, h2⟩ => simp [abs]; intro e; exact h2 (by simp [e])

theorem comps_build {a : Bool} {ps : List (List UInt8)} (h : ∀ p ∈ ps, p ≠ [] ∧ (0x2f : UInt8) ∉ p) : comps (build a ps) = ps := by
  cases a with
  | false => simp only [build, Bool.false_eq_true, if_false, List.nil_append]; exact comps_inter h
  | true => simp only [build, if_true, List.singleton_append, comps_cons_slash]; exact comps_inter h

theorem abs_build {a : Bool} {ps : List (List UInt8)} (h : ∀ p ∈ ps, p ≠ [] ∧ (0x2f : UInt8) ∉ p) : abs (build a ps) = a := by
  cases a with
  | false => simp only [build, Bool.false_eq_true, if_false, List.nil_append]; exact inter_head h
  | true => simp [build, abs]

/-! ## Collapsing slashes -/

def collapse : Bool → List UInt8 → List UInt8
  | _, [] => []
  | was, b :: s => if b = 0x2f then (if was then collapse true s else b :: collapse true s) else b :: collapse false s

def lastSlash : Bool → List UInt8 → Bool
  | was, [] => was
  | _, b :: s => lastSlash (b == 0x2f) s

theorem collapse_free : ∀ {p : List UInt8} (was : Bool) (t : List UInt8), p ≠ [] → (0x2f : UInt8) ∉ p →
    collapse was (p ++ t) = p ++ collapse false t
  | [b], was, t, _, h => by
    have hb : b ≠ 0x2f := fun e => h (by simp [e])
    simp [collapse, hb]
  | b :: c :: p, was, t, _, h => by
    have hb : b ≠ 0x2f := fun e => h (by simp [e])
    rw [List.cons_append, collapse, if_neg hb, collapse_free false t (by simp) (fun e => h (List.mem_cons_of_mem _ e))]
    rfl

theorem lastSlash_free : ∀ {p : List UInt8} (was : Bool) (t : List UInt8), p ≠ [] → (0x2f : UInt8) ∉ p →
    lastSlash was (p ++ t) = lastSlash false t
  | [b], was, t, _, h => by
    have hb : b ≠ 0x2f := fun e => h (by simp [e])
    simp only [List.cons_append, List.nil_append, lastSlash]
    rw [show (b == 0x2f) = false by simpa using hb]
  | b :: c :: p, was, t, _, h => by
    rw [List.cons_append, lastSlash, lastSlash_free _ t (by simp) (fun e => h (List.mem_cons_of_mem _ e))]

/-- A scanned character is a slash, or has no slash among its bytes. -/
theorem step_slash {c : Int} {bytes rest : List UInt8} (h : Step c bytes rest) :
    (c = 47 ∧ bytes = [0x2f]) ∨ (c ≠ 47 ∧ (0x2f : UInt8) ∉ bytes) := by
  have hn := h.next []
  have htr := next_trail hn
  have hd : ∀ b ∈ bytes.drop 1, b ≠ 0x2f := by
    intro b hb
    obtain ⟨i, hi, he⟩ := List.mem_iff_getElem.mp hb
    rw [List.getElem_drop] at he
    rw [List.length_drop] at hi
    obtain ⟨v, hv, h1, -⟩ := htr.2 (1 + i) (by omega) (by omega)
    intro e
    have : rd (bytes ++ rest ++ [0]) (1 + i) = some b.toNat := by
      rw [rd, List.append_assoc, List.getElem?_append_left (by omega), List.getElem?_eq_getElem (by omega), he]; rfl
    rw [hv, e] at this
    simp at this; omega
  match bytes, h.ne with
  | b :: bs, _ =>
    by_cases hb : b = 0x2f
    · subst hb
      have : next (0x2f :: bs ++ rest ++ [0]) = some (47, 1) := by simp [next, rd]
      rw [this] at hn
      simp only [Option.some.injEq, Prod.mk.injEq, List.length_cons] at hn
      left
      have : bs = [] := List.length_eq_zero_iff.mp (by omega)
      exact ⟨by omega, by rw [this]⟩
    · right
      refine ⟨?_, ?_⟩
      · intro e
        subst e
        rcases next_spec hn with ⟨v, hv, -, h2, -⟩ | ⟨hv, -⟩
        · have : v = 47 := by omega
          subst this
          have := congrArg List.head? h2
          simp [encNat] at this
          exact hb this
        · omega
      · intro hm
        rcases List.mem_cons.mp hm with e | hm
        · exact hb e.symm
        · exact hd _ hm rfl

theorem standardizeGo_scans {s : List UInt8} {cs} (h : Scans s cs) : ∀ (m r : Mem) (fuel src : Nat) (out : List UInt8) (was : Bool),
    m.drop src = s ++ 0 :: r → cs.length ≤ fuel →
    standardizeGo m fuel src out was = some (out ++ collapse was s, lastSlash was s) := by
  induction h with
  | nil =>
    intro m r fuel src out was hm _
    rw [standardizeGo.eq_def, hm]
    simp [ustrscan, rd, collapse, lastSlash]
  | cons c bytes rest cs hne hsc hr ih =>
    intro m r fuel src out was hm hf
    have hst := step_of_scan hne hsc
    match fuel, hf with
    | fuel + 1, hf =>
      have hb : bytes.length ≠ 0 := fun e => hne (List.length_eq_zero_iff.mp e)
      rw [standardizeGo.eq_def, hm, hst.scan r]
      simp only [Option.bind_some]
      rw [if_pos hb]
      rw [ih m r fuel (src + bytes.length) _ _ (by rw [← List.drop_drop, hm, List.append_assoc, List.drop_left]) (by simp at hf; omega)]
      have ht : (bytes ++ rest ++ 0 :: r).take bytes.length = bytes := by rw [List.append_assoc, List.take_left]
      rw [ht]
      rcases step_slash hst with ⟨rfl, rfl⟩ | ⟨hc, hfree⟩
      · cases was <;> simp [collapse, lastSlash]
      · have hc' : (c == 47) = false := by simpa using hc
        rw [hc', collapse_free was rest hne hfree, lastSlash_free was rest hne hfree]
        simp

def strip (x : List UInt8) (last : Bool) : List UInt8 := x.take (if last && decide (x.length > 1) then x.length - 1 else x.length)

theorem standardize_eq {s : List UInt8} (h : NulFree s) : standardize s = some (strip (collapse false s) (lastSlash false s)) := by
  obtain ⟨cs, hs⟩ := scans_total s.length s (Nat.le_refl _) h
  rw [standardize, standardizeGo_scans hs (mem s) [0, 0, 0] s.length 0 [] false rfl (scans_length hs)]
  simp [strip]

theorem lastSlash_of_comps : ∀ {s : List UInt8}, comps s = [] → lastSlash true s = true
  | [], _ => rfl
  | b :: s, h => by
    by_cases hb : b = 0x2f
    · subst hb
      rw [lastSlash]
      exact lastSlash_of_comps (by rwa [comps_cons_slash] at h)
    · exfalso
      simp only [comps, pieces, if_neg hb] at h
      match hp : pieces s, pieces_ne s with
      | p :: ps, _ => rw [hp] at h; simp at h

theorem lastSlash_irrel {s : List UInt8} (h : s ≠ []) (a b : Bool) : lastSlash a s = lastSlash b s := by
  match s, h with
  | c :: s, _ => rfl

theorem collapse_true : ∀ (s : List UInt8), collapse true s =
    [0x2f].intercalate (comps s) ++ (if comps s ≠ [] ∧ lastSlash true s = true then [0x2f] else [])
  | [] => by simp [collapse, comps_nil]
  | b :: s => by
    by_cases hb : b = 0x2f
    · subst hb
      rw [collapse, if_pos rfl, if_pos rfl, collapse_true s, comps_cons_slash]
      rfl
    · have ih := collapse_true s
      rw [collapse, if_neg hb]
      match s, ih with
      | [], _ =>
        have : comps [b] = [[b]] := comps_single (by simpa using Ne.symm hb) (by simp)
        rw [this]
        simp [collapse, lastSlash, hb]
      | c :: s', ih =>
        by_cases hc : c = 0x2f
        · subst hc
          have ih2 := collapse_true s'
          have e : comps (b :: 0x2f :: s') = [b] :: comps s' := by
            have := comps_append [b] s'
            rw [comps_single (p := [b]) (by simpa using Ne.symm hb) (by simp)] at this
            exact this
          rw [e, collapse, if_pos rfl, if_neg (by simp), ih2]
          have e2 : lastSlash true (b :: 0x2f :: s') = lastSlash true s' := rfl
          rw [e2]
          by_cases hs : comps s' = []
          · rw [hs]
            simp [lastSlash_of_comps hs]
          · match hcs : comps s', hs with
            | q :: qs, _ => rw [inter_cons]; simp
        · have hcol : collapse false (c :: s') = collapse true (c :: s') := by simp [collapse, hc]
          rw [hcol, ih]
          have hl : lastSlash true (b :: c :: s') = lastSlash true (c :: s') := rfl
          rw [hl]
          have e : ∃ p ps, comps (c :: s') = p :: ps ∧ comps (b :: c :: s') = (b :: p) :: ps := by
            simp only [comps, pieces, if_neg hb, if_neg hc]
            match hp : pieces s', pieces_ne s' with
            | p :: ps, _ => exact ⟨c :: p, ps.filter (· ≠ []), by simp, by simp⟩
          obtain ⟨p, ps, e1, e2⟩ := e
          rw [e1, e2]
          cases ps with
          | nil => simp
          | cons q qs => rw [inter_cons, inter_cons]; simp

theorem inter_ne {ps : List (List UInt8)} (h : ∀ p ∈ ps, p ≠ [] ∧ (0x2f : UInt8) ∉ p) (hne : ps ≠ []) : [(0x2f : UInt8)].intercalate ps ≠ [] := by
  intro e
  have := comps_inter h
  rw [e] at this
  exact hne (by rw [← this]; rfl)

theorem strip_snoc {x : List UInt8} (hx : x ≠ []) : strip (x ++ [0x2f]) true = x := by
  have : x.length ≠ 0 := fun e => hx (List.length_eq_zero_iff.mp e)
  rw [strip, if_pos (by simp; omega)]
  simp

theorem strip_false (x : List UInt8) : strip x false = x := by simp [strip]

theorem standardize_build {s : List UInt8} (h : NulFree s) : standardize s = some (build (abs s) (comps s)) := by
  rw [standardize_eq h]
  congr 1
  have hok := comps_ok s
  match s with
  | [] => rfl
  | b :: s =>
    by_cases hb : b = 0x2f
    · subst hb
      rw [comps_cons_slash] at hok ⊢
      rw [collapse, if_pos rfl, if_neg (by simp), collapse_true]
      have hl : lastSlash false (0x2f :: s) = lastSlash true s := rfl
      rw [hl]
      have ha : abs (0x2f :: s) = true := rfl
      rw [ha, build, if_pos rfl]
      by_cases hc : comps s = []
      · simp [hc, strip]
      · cases hls : lastSlash true s with
        | true =>
          rw [if_pos ⟨hc, rfl⟩, ← List.cons_append, strip_snoc (by simp)]; rfl
        | false =>
          rw [if_neg (by simp), List.append_nil, strip_false]; rfl
    · have hcol : collapse false (b :: s) = collapse true (b :: s) := by simp [collapse, hb]
      have hl : lastSlash false (b :: s) = lastSlash true (b :: s) := rfl
      have ha : abs (b :: s) = false := by simp [abs, hb]
      have hc : comps (b :: s) ≠ [] := by
        simp only [comps, pieces, if_neg hb]
        match hp : pieces s, pieces_ne s with
        | p :: ps, _ => simp
      rw [hcol, hl, ha, collapse_true, build]
      simp only [Bool.false_eq_true, if_false, List.nil_append]
      cases hls : lastSlash true (b :: s) with
      | true => rw [if_pos ⟨hc, rfl⟩, strip_snoc (inter_ne hok hc)]
      | false => rw [if_neg (by simp), List.append_nil, strip_false]

/-! ## Searching backwards for a slash or a dot -/

theorem rd_mem_left {s : List UInt8} {k : Nat} (h : k < s.length) : rd (mem s) k = some (s[k]).toNat := by
  rw [rd, mem, List.getElem?_append_left h, List.getElem?_eq_getElem h]; rfl

theorem rrchr_some {x y : List UInt8} {b : UInt8} (hb : b.toNat < 128) (hf : NulFree (x ++ b :: y)) (hy : b ∉ y) :
    ustrrchr (mem (x ++ b :: y)) (b.toNat : Int) = some (some x.length) := by
  have hs : strlen (mem (x ++ b :: y)) = some (x ++ b :: y).length := strlen_eq hf [0, 0, 0]
  rw [ustrrchr, hs, Option.bind_some]
  obtain ⟨r, h1, h2, h3⟩ := ustrrchrGo_ascii (s := mem (x ++ b :: y)) (ch := b.toNat) hb (fuel := (x ++ b :: y).length)
    (i := (x ++ b :: y).length) (by simp [mem]) (Nat.le_refl _)
  rw [h1]
  have hx : rd (mem (x ++ b :: y)) x.length = some b.toNat := by
    rw [rd_mem_left (by simp)]; simp
  have hyk : ∀ k, x.length < k → k < (x ++ b :: y).length → rd (mem (x ++ b :: y)) k ≠ some b.toNat := by
    intro k k1 k2 e
    rw [rd_mem_left k2, List.getElem_append_right (by omega)] at e
    obtain ⟨i, hi⟩ : ∃ i, k - x.length = i + 1 := ⟨k - x.length - 1, by omega⟩
    simp only [hi, List.getElem_cons_succ, Option.some.injEq] at e
    exact hy (UInt8.toNat_inj.mp e ▸ List.getElem_mem _)
  match r with
  | none => exact absurd hx (h3 rfl _ (by simp))
  | some k =>
    obtain ⟨k1, k2, k3⟩ := h2 k rfl
    rcases Nat.lt_trichotomy k x.length with hl | hl | hl
    · exact absurd hx (k3 _ hl (by simp))
    · rw [hl]
    · exact absurd k2 (hyk k hl k1)

theorem rrchr_none {s : List UInt8} {b : UInt8} (hb : b.toNat < 128) (hf : NulFree s) (hy : b ∉ s) :
    ustrrchr (mem s) (b.toNat : Int) = some none := by
  have hs : strlen (mem s) = some s.length := strlen_eq hf [0, 0, 0]
  rw [ustrrchr, hs, Option.bind_some]
  obtain ⟨r, h1, h2, -⟩ := ustrrchrGo_ascii (s := mem s) (ch := b.toNat) hb (fuel := s.length) (i := s.length) (by simp [mem]) (Nat.le_refl _)
  rw [h1]
  match r with
  | none => rfl
  | some k =>
    obtain ⟨k1, k2, -⟩ := h2 k rfl
    rw [rd_mem_left k1] at k2
    simp only [Option.some.injEq] at k2
    exact absurd (UInt8.toNat_inj.mp k2 ▸ List.getElem_mem k1) hy

/-! ## Deleting the last component -/

theorem build_nulfree {a : Bool} {ps : List (List UInt8)} (h : ∀ p ∈ ps, NulFree p) : NulFree (build a ps) := by
  have hi : ∀ {ps : List (List UInt8)}, (∀ p ∈ ps, NulFree p) → NulFree ([0x2f].intercalate ps) := by
    intro ps
    induction ps with
    | nil => intro _; simp [NulFree]
    | cons p ps ih =>
      intro h
      cases ps with
      | nil => rw [inter_single]; exact h p (by simp)
      | cons q qs =>
        rw [inter_cons]
        have h1 := h p (by simp)
        have h2 := ih (fun x hx => h x (List.mem_cons_of_mem _ hx))
        simp only [NulFree, List.mem_append, List.mem_cons] at *
        rintro (e | e | e)
        · exact h1 e
        · exact absurd e (by decide)
        · exact h2 e
  have := hi h
  simp only [NulFree, build, List.mem_append] at *
  rintro (e | e)
  · cases a <;> simp at e
  · exact this e

theorem comps_nulfree {s : List UInt8} (h : NulFree s) : ∀ p ∈ comps s, NulFree p := by
  intro p hp hz
  have : ∀ (s : List UInt8), ∀ p ∈ pieces s, ∀ b ∈ p, b ∈ s := by
    intro s
    induction s with
    | nil => intro p hp b hb; simp [pieces] at hp; subst hp; exact hb
    | cons c s ih =>
      intro p hp b hb
      simp only [pieces] at hp
      split at hp
      · rcases List.mem_cons.mp hp with rfl | hp
        · cases hb
        · exact List.mem_cons_of_mem _ (ih p hp b hb)
      · split at hp
        · next h => exact absurd h (pieces_ne s)
        · next q qs hq =>
          rcases List.mem_cons.mp hp with rfl | hp
          · rcases List.mem_cons.mp hb with rfl | hb
            · simp
            · exact List.mem_cons_of_mem _ (ih q (by rw [hq]; simp) b hb)
          · exact List.mem_cons_of_mem _ (ih p (by rw [hq]; simp [hp]) b hb)
  exact h (this s p (List.mem_filter.mp hp |>.1) 0 hz)

theorem emptyOrRoot_build {a : Bool} {ps : List (List UInt8)} (h : ∀ p ∈ ps, p ≠ [] ∧ (0x2f : UInt8) ∉ p) :
    emptyOrRoot (build a ps) = decide (ps = []) := by
  by_cases hp : ps = []
  · subst hp
    cases a <;> decide
  · have hi := inter_ne h hp
    have hh := inter_head h
    have hl : ([(0x2f : UInt8)].intercalate ps).length ≠ 0 := fun e => hi (List.length_eq_zero_iff.mp e)
    simp only [hp, decide_false]
    cases a with
    | true => simp [emptyOrRoot, build, hi]
    | false =>
      simp only [abs, beq_eq_false_iff_ne, ne_eq] at hh
      simp only [emptyOrRoot, build, slash, Bool.false_eq_true, if_false, List.nil_append, Bool.or_eq_false_iff, Bool.and_eq_false_iff, beq_eq_false_iff_ne]
      exact ⟨hl, Or.inr hh⟩

theorem inter_snoc (qs : List (List UInt8)) (y : List UInt8) (hq : qs ≠ []) :
    [0x2f].intercalate (qs ++ [y]) = [0x2f].intercalate qs ++ 0x2f :: y := by
  induction qs with
  | nil => exact absurd rfl hq
  | cons q qs ih =>
    cases qs with
    | nil => rw [inter_single, List.singleton_append, inter_cons, inter_single]
    | cons r rs =>
      rw [List.cons_append, List.cons_append, inter_cons, ← List.cons_append, ih (by simp), inter_cons]
      simp

theorem cutLast_build {a : Bool} {ps : List (List UInt8)} (h : ∀ p ∈ ps, p ≠ [] ∧ (0x2f : UInt8) ∉ p) (hz : ∀ p ∈ ps, NulFree p)
    (hne : ps ≠ []) : cutLast (build a ps) = some (build a ps.dropLast) := by
  obtain ⟨qs, y, rfl⟩ : ∃ qs y, ps = qs ++ [y] := ⟨ps.dropLast, ps.getLast hne, (List.dropLast_concat_getLast hne).symm⟩
  rw [List.dropLast_concat]
  have hy := h y (by simp)
  have hnf := build_nulfree (a := a) hz
  rw [cutLast]
  by_cases hq : qs = []
  · subst hq
    cases a with
    | false =>
      have e : build false ([] ++ [y]) = y := by simp [build]
      rw [e] at hnf ⊢
      have := rrchr_none (b := 0x2f) (by decide) hnf hy.2
      rw [show ((47 : Int)) = (((0x2f : UInt8).toNat : Nat) : Int) by decide, this]
      rfl
    | true =>
      have e : build true ([] ++ [y]) = [] ++ 0x2f :: y := by simp [build]
      rw [e] at hnf ⊢
      have := rrchr_some (b := 0x2f) (x := []) (by decide) hnf hy.2
      rw [show ((47 : Int)) = (((0x2f : UInt8).toNat : Nat) : Int) by decide, this]
      simp [build]
  · have e : build a (qs ++ [y]) = build a qs ++ 0x2f :: y := by
      simp only [build]; rw [inter_snoc qs y hq]; simp
    rw [e] at hnf ⊢
    have := rrchr_some (b := 0x2f) (x := build a qs) (by decide) hnf hy.2
    rw [show ((47 : Int)) = (((0x2f : UInt8).toNat : Nat) : Int) by decide, this]
    have hl : (build a qs).length ≠ 0 := by
      intro e
      have e := List.length_eq_zero_iff.mp e
      have h' : ∀ p ∈ qs, p ≠ [] ∧ (0x2f : UInt8) ∉ p := fun p hp => h p (by simp [hp])
      have := comps_build (a := a) h'
      rw [e] at this
      exact hq (by rw [← this]; rfl)
    simp only [Option.map_some]
    congr 1
    obtain ⟨k, hk⟩ : ∃ k, (build a qs).length = k + 1 := ⟨(build a qs).length - 1, by omega⟩
    simp only [hk]
    rw [← hk, List.take_left]

theorem deleteLast_build {s : List UInt8} (h : NulFree s) : deleteLast s = some (build (abs s) (comps s).dropLast) := by
  rw [deleteLast, standardize_build h, Option.bind_some, emptyOrRoot_build (comps_ok s)]
  by_cases hc : comps s = []
  · simp [hc]
  · simp only [hc, decide_false, Bool.false_eq_true, if_false]
    exact cutLast_build (comps_ok s) (comps_nulfree h) hc

/-! ## The last component -/

theorem skipSlashes_spec {x c : List UInt8} (hc : c ≠ []) (hf : (0x2f : UInt8) ∉ c) : ∀ (k : Nat) (t : List UInt8) (fuel : Nat), k < fuel →
    skipSlashes (mem (x ++ c ++ List.replicate k 0x2f ++ t)) fuel ((x ++ c).length + k) = some (x ++ c).length := by
  intro k
  have hcl : c.length ≠ 0 := fun e => hc (List.length_eq_zero_iff.mp e)
  induction k with
  | zero =>
    intro t fuel hfu
    match fuel, hfu with
    | fuel + 1, _ =>
      rw [skipSlashes.eq_def, if_pos (by simp; omega)]
      have hle : (x ++ c).length + 0 ≤ (mem (x ++ c ++ List.replicate 0 0x2f ++ t)).length := by simp [mem]
      obtain ⟨⟨r, j⟩, hp⟩ := prev_some (show 0 < (x ++ c).length + 0 by simp; omega) hle
      simp only [hp, Option.bind_some]
      obtain ⟨hj, hcase⟩ := prev_spec (by simp; omega) hp
      rw [if_pos, Nat.add_zero]
      intro e
      subst e
      rcases hcase with ⟨h1, b, hb, -, hr⟩ | ⟨h1, -⟩
      · have hlt : j < (x ++ c).length := by omega
        have h2 : rd (mem (x ++ c ++ List.replicate 0 0x2f ++ t)) j = some (c[j - x.length]'(by simp at hlt h1; omega)).toNat := by
          rw [rd_mem_left (by simp; simp at hlt; omega)]
          have : x.length ≤ j := by simp at h1; omega
          simp only [List.length_append] at hlt
          simp [List.getElem_append, this]
          rw [dif_pos (by omega)]
        rw [hb] at h2
        simp only [Option.some.injEq] at h2
        exact hf (by
          have e : c[j - x.length]'(by simp at hlt h1; omega) = 0x2f := UInt8.toNat_inj.mp (by rw [← h2]; simp; omega)
          rw [← e]; exact List.getElem_mem _)
      · omega
  | succ k ih =>
    intro t fuel hfu
    match fuel, hfu with
    | fuel + 1, hfu =>
      have he : x ++ c ++ List.replicate (k + 1) 0x2f ++ t = x ++ c ++ List.replicate k 0x2f ++ (0x2f :: t) := by
        rw [List.replicate_succ']; simp
      rw [he, skipSlashes.eq_def, if_pos (by omega)]
      have hle : (x ++ c).length + (k + 1) ≤ (mem (x ++ c ++ List.replicate k 0x2f ++ (0x2f :: t))).length := by simp [mem]; omega
      obtain ⟨⟨r, j⟩, hp⟩ := prev_some (show 0 < (x ++ c).length + (k + 1) by omega) hle
      simp only [hp, Option.bind_some]
      obtain ⟨hj, hcase⟩ := prev_spec (by omega) hp
      have hrd : rd (mem (x ++ c ++ List.replicate k 0x2f ++ (0x2f :: t))) ((x ++ c).length + k) = some 47 := by
        rw [rd_mem_left (by simp; omega)]
        congr 1
        rw [List.getElem_append_right (by simp; omega)]
        simp [Nat.add_assoc]
      rcases hcase with ⟨h1, b, hb, -, hr⟩ | ⟨-, h2⟩
      · have : j = (x ++ c).length + k := by omega
        subst this
        rw [hrd] at hb
        simp only [Option.some.injEq] at hb
        subst hb hr
        rw [if_neg (by simp)]
        exact ih (0x2f :: t) fuel (by omega)
      · obtain ⟨b, hb, h128⟩ := h2 ((x ++ c).length + k) (by omega) (by omega)
        rw [hrd] at hb
        simp only [Option.some.injEq] at hb
        omega

theorem findSlash_spec {x t : List UInt8} (hx : x = [] ∨ ∃ x', x = x' ++ [0x2f]) : ∀ (n : Nat) (c : List UInt8) (fuel : Nat),
    c.length ≤ n → (0x2f : UInt8) ∉ c → ∀ (d : List UInt8), (x ++ c).length ≤ fuel →
    findSlash (mem (x ++ c ++ d ++ t)) fuel (x ++ c).length = some x.length := by
  intro n
  induction n with
  | zero =>
    intro c fuel hn hf d hfu
    have : c = [] := List.length_eq_zero_iff.mp (by omega)
    subst this
    rw [List.append_nil] at hfu ⊢
    rw [findSlash.eq_def]
    rcases hx with rfl | ⟨x', rfl⟩
    · simp
    · rw [if_pos (by simp)]
      match fuel, hfu with
      | 0, hfu => simp at hfu
      | fuel + 1, hfu =>
        have hle : (x' ++ [(0x2f : UInt8)]).length ≤ (mem (x' ++ [0x2f] ++ d ++ t)).length := by simp [mem]
        obtain ⟨⟨r, j⟩, hp⟩ := prev_some (show 0 < (x' ++ [(0x2f : UInt8)]).length by simp) hle
        simp only [hp, Option.bind_some]
        obtain ⟨hj, hcase⟩ := prev_spec (by simp) hp
        have hrd : rd (mem (x' ++ [0x2f] ++ d ++ t)) x'.length = some 47 := by
          rw [rd_mem_left (by simp)]
          simp
        simp only [List.length_append, List.length_cons, List.length_nil] at hj hcase
        rcases hcase with ⟨h1, b, hb, -, hr⟩ | ⟨-, h2⟩
        · have : j = x'.length := by omega
          subst this
          rw [hrd] at hb
          simp only [Option.some.injEq] at hb
          rw [if_pos (by omega)]
        · obtain ⟨b, hb, h128⟩ := h2 x'.length (by omega) (by omega)
          rw [hrd] at hb
          simp only [Option.some.injEq] at hb
          omega
  | succ n ih =>
    intro c fuel hn hf d hfu
    by_cases hc : c = []
    · subst hc; exact ih [] fuel (by simp) hf d hfu
    · have hcl : c.length ≠ 0 := fun e => hc (List.length_eq_zero_iff.mp e)
      match fuel, hfu with
      | 0, hfu => simp only [List.length_append] at hfu; omega
      | fuel + 1, hfu =>
        rw [findSlash.eq_def, if_pos (by simp; omega)]
        have hle : (x ++ c).length ≤ (mem (x ++ c ++ d ++ t)).length := by simp [mem]
        obtain ⟨⟨r, j⟩, hp⟩ := prev_some (show 0 < (x ++ c).length by simp; omega) hle
        simp only [hp, Option.bind_some]
        obtain ⟨hj, hcase⟩ := prev_spec (by simp; omega) hp
        have hrd : ∀ i (hi : i < c.length), rd (mem (x ++ c ++ d ++ t)) (x.length + i) = some (c[i]).toNat := by
          intro i hi
          rw [rd_mem_left (by simp; omega)]
          simp [hi]
        have hjx : x.length ≤ j := by
          rcases Nat.lt_or_ge j x.length with hlt | hge
          · exfalso
            rcases hx with rfl | ⟨x', rfl⟩
            · simp at hlt
            · rcases hcase with ⟨h1, -⟩ | ⟨-, h2⟩
              · simp at h1 hlt; omega
              · simp only [List.length_append, List.length_cons, List.length_nil] at hlt
                obtain ⟨b, hb, h128⟩ := h2 x'.length (by omega) (by simp)
                have : rd (mem (x' ++ [0x2f] ++ c ++ d ++ t)) x'.length = some 47 := by
                  rw [rd_mem_left (by simp)]; simp
                rw [this] at hb
                simp only [Option.some.injEq] at hb
                omega
          · exact hge
        have hne : r ≠ 47 := by
          intro e
          subst e
          rcases hcase with ⟨h1, b, hb, -, hr⟩ | ⟨h1, -⟩
          · have hlt : j - x.length < c.length := by simp at hj; omega
            have := hrd (j - x.length) hlt
            rw [show x.length + (j - x.length) = j by omega, hb] at this
            simp only [Option.some.injEq] at this
            exact hf (by
              have e : c[j - x.length] = 0x2f := UInt8.toNat_inj.mp (by rw [← this]; simp; omega)
              rw [← e]; exact List.getElem_mem _)
          · omega
        rw [if_neg hne]
        have hlen : (x ++ c).length = x.length + c.length := by simp
        have := ih (c.take (j - x.length)) fuel (by rw [List.length_take]; omega) (fun e => hf (List.mem_of_mem_take e))
          (c.drop (j - x.length) ++ d) (by simp only [List.length_append, List.length_take] at *; omega)
        have e1 : x ++ c.take (j - x.length) ++ (c.drop (j - x.length) ++ d) ++ t = x ++ c ++ d ++ t := by
          have := List.take_append_drop (j - x.length) c
          rw [← List.append_assoc, List.append_assoc x, this]
        have e2 : (x ++ c.take (j - x.length)).length = j := by simp; omega
        rw [e1, e2] at this
        exact this

/-- Every path is all slashes, or has a last component. -/
theorem path_cases : ∀ (s : List UInt8), (∃ k, s = List.replicate k 0x2f) ∨
    ∃ x c k, s = x ++ c ++ List.replicate k 0x2f ∧ c ≠ [] ∧ (0x2f : UInt8) ∉ c ∧ (x = [] ∨ ∃ x', x = x' ++ [0x2f]) := by
  intro s
  obtain ⟨n, hn⟩ : ∃ n, s.length = n := ⟨_, rfl⟩
  induction n generalizing s with
  | zero => exact Or.inl ⟨0, List.length_eq_zero_iff.mp hn⟩
  | succ n ih =>
    obtain ⟨s', b, rfl⟩ : ∃ s' b, s = s' ++ [b] :=
      ⟨s.dropLast, s.getLast (by intro e; subst e; simp at hn), (List.dropLast_concat_getLast _).symm⟩
    have hn' : s'.length = n := by simpa using hn
    by_cases hb : b = 0x2f
    · subst hb
      rcases ih s' hn' with ⟨k, rfl⟩ | ⟨x, c, k, rfl, h⟩
      · exact Or.inl ⟨k + 1, by rw [List.replicate_succ']⟩
      · exact Or.inr ⟨x, c, k + 1, by rw [List.replicate_succ']; simp, h⟩
    · right
      -- the maximal slash-free suffix of s' ++ [b]
      have key : ∀ (u : List UInt8), ∃ x c, u = x ++ c ∧ (0x2f : UInt8) ∉ c ∧ (x = [] ∨ ∃ x', x = x' ++ [0x2f]) := by
        intro u
        obtain ⟨m, hm⟩ : ∃ m, u.length = m := ⟨_, rfl⟩
        induction m generalizing u with
        | zero => exact ⟨[], [], by rw [List.length_eq_zero_iff.mp hm]; rfl, by simp, Or.inl rfl⟩
        | succ m ihm =>
          obtain ⟨u', d, rfl⟩ : ∃ u' d, u = u' ++ [d] :=
            ⟨u.dropLast, u.getLast (by intro e; subst e; simp at hm), (List.dropLast_concat_getLast _).symm⟩
          by_cases hd : d = 0x2f
          · subst hd; exact ⟨u' ++ [0x2f], [], by simp, by simp, Or.inr ⟨u', rfl⟩⟩
          · obtain ⟨x, c, rfl, h1, h2⟩ := ihm u' (by simpa using hm)
            exact ⟨x, c ++ [d], by simp, by simp [h1, Ne.symm hd], h2⟩
      obtain ⟨x, c, rfl, h1, h2⟩ := key s'
      exact ⟨x, c ++ [b], 0, by simp, by simp, by simp [h1, Ne.symm hb], h2⟩

theorem comps_slashes (k : Nat) : comps (List.replicate k 0x2f) = [] := by
  induction k with
  | zero => rfl
  | succ k ih => rw [List.replicate_succ, comps_cons_slash, ih]

theorem comps_tail {c : List UInt8} (hc : c ≠ []) (hf : (0x2f : UInt8) ∉ c) (k : Nat) : comps (c ++ List.replicate k 0x2f) = [c] := by
  cases k with
  | zero => simp [comps_single hf hc]
  | succ k => rw [List.replicate_succ, comps_append, comps_slashes, comps_single hf hc]; rfl

theorem comps_last {x c : List UInt8} {k : Nat} (hc : c ≠ []) (hf : (0x2f : UInt8) ∉ c) (hx : x = [] ∨ ∃ x', x = x' ++ [0x2f]) :
    (comps (x ++ c ++ List.replicate k 0x2f)).getLast? = some c := by
  rcases hx with rfl | ⟨x', rfl⟩
  · rw [List.nil_append, comps_tail hc hf]; rfl
  · have : x' ++ [(0x2f : UInt8)] ++ c ++ List.replicate k 0x2f = x' ++ 0x2f :: (c ++ List.replicate k 0x2f) := by simp
    rw [this, comps_append, comps_tail hc hf]
    simp

theorem lastComponent_eq {x c : List UInt8} {k : Nat} (hc : c ≠ []) (hf : (0x2f : UInt8) ∉ c) (hx : x = [] ∨ ∃ x', x = x' ++ [0x2f]) :
    lastComponent (x ++ c ++ List.replicate k 0x2f) = some c := by
  have hcl : c.length ≠ 0 := fun e => hc (List.length_eq_zero_iff.mp e)
  have he : emptyOrRoot (x ++ c ++ List.replicate k 0x2f) = false := by
    cases hr : emptyOrRoot (x ++ c ++ List.replicate k 0x2f) with
    | false => rfl
    | true =>
      exfalso
      simp only [emptyOrRoot, slash, Bool.or_eq_true, Bool.and_eq_true, beq_iff_eq] at hr
      simp only [List.length_append, List.length_replicate] at hr
      rcases hr with hr | ⟨h1, h2⟩
      · omega
      · have : x = [] := List.length_eq_zero_iff.mp (by omega)
        subst this
        match c, hc with
        | b :: c, _ => simp at h2; exact hf (by simp [h2])
  rw [lastComponent, he]
  simp only [Bool.false_eq_true, if_false]
  have h1 := skipSlashes_spec (x := x) hc hf k [] (x ++ c ++ List.replicate k 0x2f).length (by simp; omega)
  rw [List.append_nil] at h1
  have hl : (x ++ c ++ List.replicate k (0x2f : UInt8)).length = (x ++ c).length + k := by simp; omega
  rw [hl] at h1 ⊢
  rw [h1, Option.bind_some]
  have h2 : findSlash (mem (x ++ c ++ List.replicate k 0x2f)) ((x ++ c).length + k) (x ++ c).length = some x.length := by
    have := findSlash_spec (t := []) hx c.length c ((x ++ c).length + k) (Nat.le_refl _) hf (List.replicate k 0x2f) (by omega)
    rw [List.append_nil] at this
    exact this
  rw [h2, Option.bind_some, if_neg (by rw [List.length_append]; omega), copySubstring, if_neg (by simp; omega), if_pos (by simp [mem])]
  simp [mem]

/-! ## Shape of the standard spelling -/

theorem pieces_inter : ∀ {ps : List (List UInt8)}, ps ≠ [] → (∀ p ∈ ps, (0x2f : UInt8) ∉ p) → pieces ([0x2f].intercalate ps) = ps
  | [p], _, h => by rw [inter_single, pieces_slashfree (h p (by simp))]
  | p :: q :: ps, _, h => by
    rw [inter_cons, pieces_append, pieces_slashfree (h p (by simp)), pieces_inter (by simp) (fun x hx => h x (List.mem_cons_of_mem _ hx))]
    rfl

theorem pieces_build {a : Bool} {ps : List (List UInt8)} (hne : ps ≠ []) (h : ∀ p ∈ ps, p ≠ [] ∧ (0x2f : UInt8) ∉ p) :
    pieces (build a ps) = (if a then [[]] else []) ++ ps := by
  have := pieces_inter hne (fun p hp => (h p hp).2)
  cases a with
  | false => simp [build, this]
  | true => simp [build, pieces, this]

theorem build_no_double {a : Bool} {ps : List (List UInt8)} (h : ∀ p ∈ ps, p ≠ [] ∧ (0x2f : UInt8) ∉ p) (x y : List UInt8) :
    build a ps ≠ x ++ 0x2f :: 0x2f :: y := by
  intro e
  have hp := pieces_append x (0x2f :: y)
  rw [← e] at hp
  have hy : pieces (0x2f :: y) = [] :: pieces y := by simp [pieces]
  rw [hy] at hp
  by_cases hne : ps = []
  · subst hne
    have := congrArg List.length e
    cases a with
    | false => simp [build] at this
    | true => simp [build] at this; omega
  · rw [pieces_build hne h] at hp
    match hx : pieces x, pieces_ne x with
    | x0 :: xs, _ =>
      rw [hx] at hp
      have : ([] : List UInt8) ∈ ps := by
        cases a with
        | false => simp only [Bool.false_eq_true, if_false, List.nil_append] at hp; rw [hp]; simp
        | true =>
          simp only [if_true, List.cons_append, List.cons.injEq, List.nil_append] at hp
          rw [hp.2]; simp
      exact (h [] this).1 rfl

theorem build_no_trailing {a : Bool} {ps : List (List UInt8)} (h : ∀ p ∈ ps, p ≠ [] ∧ (0x2f : UInt8) ∉ p) (x : List UInt8)
    (e : build a ps = x ++ [0x2f]) : x = [] := by
  have hp := pieces_append x []
  rw [← e] at hp
  by_cases hne : ps = []
  · subst hne
    have := congrArg List.length e
    cases a with
    | false => simp [build] at this
    | true => simpa [build] using this
  · rw [pieces_build hne h] at hp
    have hl := congrArg List.getLast? hp
    have h1 : ([] : List UInt8) ∈ ps := by
      have : pieces [] = [[]] := rfl
      rw [this, List.getLast?_concat, List.getLast?_append] at hl
      cases hg : ps.getLast? with
      | none => exact absurd (List.getLast?_eq_none_iff.mp hg) hne
      | some z =>
        rw [hg] at hl
        simp at hl
        rw [← hl]; exact List.mem_of_getLast? hg
    exact absurd rfl (h [] h1).1

/-! ## Extensions -/

theorem last_split (b : UInt8) : ∀ s : List UInt8, b ∉ s ∨ ∃ x y, s = x ++ b :: y ∧ b ∉ y
  | [] => Or.inl (by simp)
  | c :: s => by
    rcases last_split b s with h | ⟨x, y, rfl, h⟩
    · by_cases hc : c = b
      · subst hc; exact Or.inr ⟨[], s, rfl, h⟩
      · left; simp [h, Ne.symm hc]
    · exact Or.inr ⟨c :: x, y, rfl, h⟩

theorem extension_some {x e : List UInt8} (hf : NulFree (x ++ 0x2e :: e)) (hd : (0x2e : UInt8) ∉ e) (hs : (0x2f : UInt8) ∉ e) :
    extension (x ++ 0x2e :: e) = some (some x.length) := by
  have h1 := rrchr_some (b := 0x2e) (by decide) hf hd
  rw [extension, show ((46 : Int)) = (((0x2e : UInt8).toNat : Nat) : Int) by decide, h1, Option.bind_some]
  simp only
  rcases last_split 0x2f x with h | ⟨a, b, rfl, h⟩
  · have h2 := rrchr_none (b := 0x2f) (by decide) hf (by simp [h, hs])
    rw [show ((47 : Int)) = (((0x2f : UInt8).toNat : Nat) : Int) by decide, h2]
    rfl
  · have ee : a ++ 0x2f :: b ++ 0x2e :: e = a ++ 0x2f :: (b ++ 0x2e :: e) := by simp
    rw [ee] at hf ⊢
    have h2 := rrchr_some (b := 0x2f) (by decide) hf (by simp [h, hs])
    rw [show ((47 : Int)) = (((0x2f : UInt8).toNat : Nat) : Int) by decide, h2]
    simp only [Option.map_some]
    rw [if_neg (by simp)]

theorem extension_none {x y : List UInt8} (hf : NulFree (x ++ y)) (hd : (0x2e : UInt8) ∉ y) (hx : x = [] ∨ ∃ x', x = x' ++ [0x2f]) :
    extension (x ++ y) = some none := by
  rcases last_split 0x2e x with h | ⟨a, b, rfl, h⟩
  · have h1 := rrchr_none (b := 0x2e) (by decide) hf (by simp [h, hd])
    rw [extension, show ((46 : Int)) = (((0x2e : UInt8).toNat : Nat) : Int) by decide, h1]
    rfl
  · have ee : a ++ 0x2e :: b ++ y = a ++ 0x2e :: (b ++ y) := by simp
    have hb : ∃ b', b = b' ++ [0x2f] := by
      rcases hx with hx | ⟨x', hx⟩
      · simp at hx
      · have := congrArg List.getLast? hx
        rw [List.getLast?_concat, List.getLast?_append] at this
        rcases List.eq_nil_or_concat b with rfl | ⟨b', z, rfl⟩
        · simp at this
        · rw [List.concat_eq_append, show (0x2e :: (b' ++ [z]) : List UInt8) = (0x2e :: b') ++ [z] by simp, List.getLast?_concat] at this
          simp at this
          exact ⟨b', by simp [this]⟩
    obtain ⟨b', rfl⟩ := hb
    rw [ee] at hf ⊢
    have h1 := rrchr_some (b := 0x2e) (by decide) hf (by simp at h; simp [h, hd])
    rw [extension, show ((46 : Int)) = (((0x2e : UInt8).toNat : Nat) : Int) by decide, h1, Option.bind_some]
    simp only
    have hm : (0x2f : UInt8) ∈ a ++ 0x2e :: (b' ++ [0x2f] ++ y) := by simp
    rcases last_split 0x2f y with hy | ⟨c, d, rfl, hy⟩
    · have e2 : a ++ 0x2e :: (b' ++ [0x2f] ++ y) = (a ++ 0x2e :: b') ++ 0x2f :: y := by simp
      rw [e2] at hf ⊢
      have h2 := rrchr_some (b := 0x2f) (by decide) hf hy
      rw [show ((47 : Int)) = (((0x2f : UInt8).toNat : Nat) : Int) by decide, h2]
      simp
    · have e2 : a ++ 0x2e :: (b' ++ [0x2f] ++ (c ++ 0x2f :: d)) = (a ++ 0x2e :: b' ++ 0x2f :: c) ++ 0x2f :: d := by simp
      rw [e2] at hf ⊢
      have h2 := rrchr_some (b := 0x2f) (by decide) hf hy
      rw [show ((47 : Int)) = (((0x2f : UInt8).toNat : Nat) : Int) by decide, h2]
      simp

theorem build_snoc_append (a : Bool) (qs : List (List UInt8)) (y z : List UInt8) :
    build a (qs ++ [y]) ++ z = build a (qs ++ [y ++ z]) := by
  by_cases hq : qs = []
  · subst hq; simp [build]
  · simp only [build]; rw [inter_snoc qs y hq, inter_snoc qs (y ++ z) hq]; simp

theorem standardize_ext {s e : List UInt8} (hf : NulFree s) (hfe : NulFree e) (hs : (0x2f : UInt8) ∉ e) (hc : comps s ≠ []) :
    standardize (build (abs s) (comps s) ++ 0x2e :: e) = some (build (abs s) (comps s) ++ 0x2e :: e) := by
  have hok := comps_ok s
  have hz := comps_nulfree hf
  obtain ⟨qs, y, hq⟩ : ∃ qs y, comps s = qs ++ [y] := ⟨_, _, (List.dropLast_concat_getLast hc).symm⟩
  rw [hq] at hok hz ⊢
  have hok' : ∀ p ∈ qs ++ [y ++ 0x2e :: e], p ≠ [] ∧ (0x2f : UInt8) ∉ p := by
    intro p hp
    rcases List.mem_append.mp hp with hp | hp
    · exact hok p (by simp [hp])
    · rw [List.mem_singleton.mp hp]
      have := hok y (by simp)
      simp [this.2, hs]
  have hz' : ∀ p ∈ qs ++ [y ++ 0x2e :: e], NulFree p := by
    intro p hp
    rcases List.mem_append.mp hp with hp | hp
    · exact hz p (by simp [hp])
    · rw [List.mem_singleton.mp hp]
      have := hz y (by simp)
      simp only [NulFree] at this hfe ⊢
      simp [this, hfe]
  rw [build_snoc_append, standardize_build (build_nulfree hz'), comps_build hok', abs_build hok']

end Path
end Duck
