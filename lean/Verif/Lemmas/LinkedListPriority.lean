import Verif.Lemmas.LinkedList
/-! Priority insertion keeps the priority order; appending a list to itself never ends. -/
namespace Duck
namespace LList
open HTable (Policy)
variable {V P : Type}

theorem nodup_of_map {α β : Type} {f : α → β} {xs : List α} (h : (xs.map f).Nodup) : xs.Nodup := by
  rw [List.Nodup, List.pairwise_map] at h
  exact h.imp (fun hne e => hne (by rw [e]))

theorem filter_fst_of_nodup [DecidableEq V] : ∀ {xs : List (V × P)} {v : V}, (xs.map (·.1)).Nodup → v ∈ xs.map (·.1) →
    xs.eraseIdx (oldIdx xs v) = xs.filter (fun e => e.1 ≠ v) := by
  intro xs v
  induction h : xs.length generalizing xs with
  | zero =>
    intro _ hm
    have : xs = [] := by simpa using h
    subst this; simp at hm
  | succ n ih =>
    intro hn hm
    rcases List.eq_nil_or_concat xs with rfl | ⟨X, y, rfl⟩
    · simp at h
    rw [List.concat_eq_append] at *
    rw [List.map_append, List.nodup_append] at hn
    rw [List.map_append, List.mem_append] at hm
    have hlen : X.length = n := by simpa using h
    by_cases hy : y.1 = v
    · rw [oldIdx_snoc _ _ _ (Or.inl hy), if_pos hy]
      have hx : X.filter (fun e => e.1 ≠ v) = X := by
        rw [List.filter_eq_self]
        intro e he
        simp only [decide_eq_true_eq]
        exact hn.2.2 e.1 (List.mem_map_of_mem he) v (by simp [hy])
      rw [List.filter_append, hx, List.eraseIdx_append_of_length_le (Nat.le_refl _)]
      simp [hy]
    · have hx : v ∈ X.map (·.1) := by
        rcases hm with hm | hm
        · exact hm
        · simp at hm; exact absurd hm.symm hy
      rw [oldIdx_snoc _ _ _ (Or.inr hx), if_neg hy, List.filter_append, List.eraseIdx_append_of_lt_length (oldIdx_lt X v hx),
        ih hlen hn.1 hx]
      simp [hy]

theorem eraseIdx_insertAt {α : Type} {xs : List α} {s k : Nat} (hs : s ≤ xs.length) (hk : k < xs.length) (x : α) :
    (insertAt xs s x).eraseIdx (if k ≥ s then k + 1 else k) =
      if k < s then (xs.take s).eraseIdx k ++ x :: xs.drop s else xs.take s ++ x :: (xs.drop s).eraseIdx (k - s) := by
  unfold insertAt
  by_cases h : k < s
  · rw [if_pos h, if_neg (by omega), List.eraseIdx_append_of_lt_length (by simp; omega)]
  · rw [if_neg h, if_pos (by omega), List.eraseIdx_append_of_length_le (by simp; omega), List.length_take, Nat.min_eq_left hs,
      show k + 1 - s = (k - s) + 1 by omega, List.eraseIdx_cons_succ]

/-- With one entry per object, priority insertion is: drop the old entry, put the new one at the slot. -/
theorem accepted_eq [DecidableEq V] {gt : P → P → Bool} {xs : List (V × P)} {v : V} {p : P} {policy : Policy}
    (hn : (xs.map (·.1)).Nodup)
    (hr : ¬ ((v ∈ xs.map (·.1) ∧ policy = .ifNotFound) ∨ (v ∉ xs.map (·.1) ∧ policy = .ifFound))) :
    specPriority gt xs v p policy = ((xs.take (slot gt xs p)).filter (fun e => e.1 ≠ v) ++ (v, p) ::
      (xs.drop (slot gt xs p)).filter (fun e => e.1 ≠ v), true) := by
  unfold specPriority
  rw [if_neg hr]
  have hsl := slot_le gt xs p
  generalize slot gt xs p = s at hsl
  have hsplit : xs.take s ++ xs.drop s = xs := List.take_append_drop s xs
  have hn' := hn
  rw [← hsplit, List.map_append, List.nodup_append] at hn'
  by_cases hm : v ∈ xs.map (·.1)
  · rw [if_pos hm]
    have hold := oldIdx_lt xs v hm
    have hf := filter_fst_of_nodup hn hm
    show ((insertAt xs s (v, p)).eraseIdx (if oldIdx xs v ≥ s then oldIdx xs v + 1 else oldIdx xs v), true) = _
    rw [eraseIdx_insertAt hsl hold]
    generalize oldIdx xs v = k at hold hf
    congr 1
    have hx := hf
    rw [← hsplit, List.filter_append] at hx
    have hnd : xs.Nodup := nodup_of_map hn
    have hkv : xs[k].1 = v := by
      refine Decidable.of_not_not (fun hne => ?_)
      have hmem : xs[k] ∈ xs.eraseIdx k := by
        rw [hf, List.mem_filter]
        exact ⟨List.getElem_mem hold, by simpa using hne⟩
      rw [List.mem_eraseIdx_iff_getElem?] at hmem
      obtain ⟨j, hj1, hj2⟩ := hmem
      obtain ⟨hj3, hj4⟩ := List.getElem?_eq_some_iff.mp hj2
      exact hj1 ((List.getElem_inj hnd).mp hj4)
    by_cases hks : k < s
    · rw [if_pos hks]
      rw [List.eraseIdx_append_of_lt_length (by simp; omega)] at hx
      have hvt : ∃ e ∈ xs.take s, e.1 = v := by
        refine ⟨xs[k], ?_, hkv⟩
        have : (xs.take s)[k]? = some xs[k] := by rw [List.getElem?_take, if_pos hks, List.getElem?_eq_getElem hold]
        exact List.mem_of_getElem? this
      have hd : (xs.drop s).filter (fun e => e.1 ≠ v) = xs.drop s := by
        rw [List.filter_eq_self]; intro e he
        simp only [decide_eq_true_eq]
        obtain ⟨e0, h0, h1⟩ := hvt
        rintro rfl
        exact hn'.2.2 e0.1 (List.mem_map_of_mem h0) e.1 (List.mem_map_of_mem he) h1
      rw [hd] at hx ⊢
      rw [List.append_cancel_right hx]
    · rw [if_neg hks]
      rw [List.eraseIdx_append_of_length_le (by simp; omega), List.length_take, Nat.min_eq_left hsl] at hx
      have hkd : xs[k] ∈ xs.drop s := by
        have : (xs.drop s)[k - s]? = some xs[k] := by
          rw [List.getElem?_drop, show s + (k - s) = k by omega, List.getElem?_eq_getElem hold]
        exact List.mem_of_getElem? this
      have ht : (xs.take s).filter (fun e => e.1 ≠ v) = xs.take s := by
        rw [List.filter_eq_self]; intro e he
        simp only [decide_eq_true_eq]
        intro h
        exact hn'.2.2 e.1 (List.mem_map_of_mem he) v (by rw [← hkv]; exact List.mem_map_of_mem hkd) h
      rw [ht] at hx ⊢
      rw [List.append_cancel_left hx]
  · rw [if_neg hm]
    have hf : ∀ ys : List (V × P), (∀ e ∈ ys, e ∈ xs) → ys.filter (fun e => e.1 ≠ v) = ys := by
      intro ys hys
      rw [List.filter_eq_self]
      intro e he
      simp only [decide_eq_true_eq]
      rintro rfl
      exact hm (List.mem_map_of_mem (hys e he))
    rw [hf _ (fun e he => List.mem_of_mem_take he), hf _ (fun e he => List.mem_of_mem_drop he)]
    rfl

theorem slot_before (gt : P → P → Bool) (xs : List (V × P)) (p : P) : ∀ e ∈ xs.take (slot gt xs p), gt p e.2 = false := by
  intro e he
  obtain ⟨i, hi⟩ := List.getElem?_of_mem he
  rw [List.getElem?_take] at hi
  split at hi
  · rename_i h
    obtain ⟨hlt, rfl⟩ := List.getElem?_eq_some_iff.mp hi
    have := List.not_of_lt_findIdx (p := fun e : V × P => gt p e.2) h
    simpa using this
  · cases hi

theorem slot_after {gt : P → P → Bool} (hg : StrictWeak gt) {xs : List (V × P)}
    (hs : xs.Pairwise (fun x y => gt y.2 x.2 = false)) (p : P) : ∀ e ∈ xs.drop (slot gt xs p), gt p e.2 = true := by
  intro e he
  have hlt : slot gt xs p < xs.length := by
    refine Decidable.of_not_not (fun h => ?_)
    rw [List.drop_eq_nil_of_le (by omega)] at he; cases he
  have h0 : gt p (xs[slot gt xs p]).2 = true := List.findIdx_getElem (p := fun e : V × P => gt p e.2) (w := hlt)
  rw [List.drop_eq_getElem_cons hlt, List.mem_cons] at he
  rcases he with rfl | he
  · exact h0
  · have hp : gt e.2 (xs[slot gt xs p]).2 = false := by
      have h1 : (xs.drop (slot gt xs p)).Pairwise (fun x y => gt y.2 x.2 = false) := hs.sublist (List.drop_sublist _ _)
      rw [List.drop_eq_getElem_cons hlt, List.pairwise_cons] at h1
      exact h1.1 e he
    rcases hg.cotrans p e.2 _ h0 with h | h
    · exact h
    · rw [hp] at h; cases h

/-- The order is kept by an accepted insertion. -/
theorem priorityOrder_insert [DecidableEq V] {gt : P → P → Bool} (hg : StrictWeak gt) {log xs : List (V × P)}
    (ho : PriorityOrder gt log xs) (v : V) (p : P) :
    PriorityOrder gt (log.filter (fun e => e.1 ≠ v) ++ [(v, p)])
      ((xs.take (slot gt xs p)).filter (fun e => e.1 ≠ v) ++ (v, p) :: (xs.drop (slot gt xs p)).filter (fun e => e.1 ≠ v)) := by
  have hb := slot_before gt xs p
  have ha := slot_after hg ho.descending p
  have hsplit : xs.take (slot gt xs p) ++ xs.drop (slot gt xs p) = xs := List.take_append_drop _ xs
  have hperm := ho.entries
  have hstab := ho.stable
  have hdesc := ho.descending
  rw [← hsplit] at hperm hstab hdesc
  generalize xs.take (slot gt xs p) = A at *
  generalize xs.drop (slot gt xs p) = B at *
  rw [List.pairwise_append] at hdesc
  have asym : ∀ a b, gt a b = true → gt b a = false := by
    intro a b h
    cases h2 : gt b a
    · rfl
    · have := hg.trans _ _ _ h h2; rw [hg.irrefl] at this; cases this
  refine ⟨?_, ?_, ?_⟩
  · refine List.perm_middle.trans ?_
    rw [← List.filter_append]
    refine List.Perm.trans ?_ (List.perm_append_comm (l₁ := [(v, p)]))
    exact List.Perm.cons _ (hperm.filter _)
  · rw [List.pairwise_append, List.pairwise_cons]
    refine ⟨hdesc.1.filter _, ⟨?_, hdesc.2.1.filter _⟩, ?_⟩
    · intro e he; exact asym _ _ (ha e (List.mem_filter.mp he).1)
    · intro x hx y hy
      rw [List.mem_cons] at hy
      rcases hy with rfl | hy
      · exact hb x (List.mem_filter.mp hx).1
      · exact hdesc.2.2 x (List.mem_filter.mp hx).1 y (List.mem_filter.mp hy).1
  · intro q
    have hq := hstab q
    rw [List.filter_append] at hq
    have comm : ∀ ys : List (V × P), (ys.filter (fun e => e.1 ≠ v)).filter (fun e => !gt e.2 q && !gt q e.2) =
        (ys.filter (fun e => !gt e.2 q && !gt q e.2)).filter (fun e => e.1 ≠ v) := by
      intro ys; rw [List.filter_filter, List.filter_filter]; congr 1; funext e; exact Bool.and_comm _ _
    rw [List.filter_append, List.filter_append, comm, comm log, ← hq, List.filter_append, List.filter_cons, comm]
    by_cases hp : (!gt p q && !gt q p) = true
    · have hB : B.filter (fun e => !gt e.2 q && !gt q e.2) = [] := by
        rw [List.filter_eq_nil_iff]
        intro e he h
        have h1 := ha e he
        simp only [Bool.and_eq_true, Bool.not_eq_true'] at h hp
        rcases hg.cotrans p q e.2 h1 with h2 | h2
        · rw [hp.1] at h2; cases h2
        · rw [h.2] at h2; cases h2
      simp [hB, hp]
    · simp [hp]

theorem map_fst_nodup_filter [DecidableEq V] {log : List (V × P)} (hn : (log.map (·.1)).Nodup) (v : V) (p : P) :
    ((log.filter (fun e => e.1 ≠ v) ++ [(v, p)]).map (·.1)).Nodup := by
  rw [List.map_append, List.nodup_append]
  refine ⟨?_, by simp, ?_⟩
  · exact hn.sublist (List.Sublist.map _ List.filter_sublist)
  · intro a ha b hb
    simp only [List.map_cons, List.map_nil, List.mem_singleton] at hb
    subst hb
    obtain ⟨e, he, rfl⟩ := List.mem_map.mp ha
    have := (List.mem_filter.mp he).2
    simpa using this

theorem run_priority [DecidableEq V] {zero : P} {pick : Nat → Heap V P → Nat} (hp : Fresh pick) {gt : P → P → Bool}
    (hg : StrictWeak gt) : ∀ (calls : List (V × P × Policy)) {l : LinkedList V P} {as xs log}, Links l as xs → CursorOk l as →
    PriorityOrder gt log xs → (log.map (·.1)).Nodup →
    ∃ l' as' xs', run zero pick gt l (calls.map fun c => .insertPriority c.1 c.2.1 c.2.2) =
        some (l', (chronicle log calls).2.map .changed) ∧ Links l' as' xs' ∧ CursorOk l' as' ∧
      PriorityOrder gt (chronicle log calls).1 xs' ∧ ((chronicle log calls).1.map (·.1)).Nodup
  | [], l, as, xs, log, hl, hc, ho, hn => ⟨l, as, xs, rfl, hl, hc, ho, hn⟩
  | (v, p, policy) :: calls, l, as, xs, log, hl, hc, ho, hn => by
    obtain ⟨l1, as1, r1, k1, c1⟩ := insertPriority_spec (zero := zero) hp (gt := gt) hl hc v p policy
    have hperm := ho.entries.map (·.1)
    have hmem : v ∈ xs.map (·.1) ↔ v ∈ log.map (·.1) := hperm.mem_iff
    have hnx : (xs.map (·.1)).Nodup := hperm.nodup_iff.mpr hn
    by_cases hr : (v ∈ log.map (·.1) ∧ policy = .ifNotFound) ∨ (v ∉ log.map (·.1) ∧ policy = .ifFound)
    · have hs : specPriority gt xs v p policy = (xs, false) := by
        unfold specPriority; rw [if_pos (by rw [hmem]; exact hr)]
      rw [hs] at r1 k1
      obtain ⟨l2, as2, xs2, r2, k2, c2, o2, n2⟩ := run_priority (zero := zero) hp hg calls k1 c1 ho hn
      refine ⟨l2, as2, xs2, ?_, k2, c2, ?_, ?_⟩
      · simp only [List.map_cons, run, step, r1, Option.map_some, Option.bind_some, r2, chronicle]
        rw [if_pos hr]; rfl
      · simp only [chronicle]; rw [if_pos hr]; exact o2
      · simp only [chronicle]; rw [if_pos hr]; exact n2
    · have hs := accepted_eq (gt := gt) (p := p) hnx (by rw [hmem]; exact hr)
      rw [hs] at r1 k1
      obtain ⟨l2, as2, xs2, r2, k2, c2, o2, n2⟩ := run_priority (zero := zero) hp hg calls k1 c1 (priorityOrder_insert hg ho v p)
        (map_fst_nodup_filter hn v p)
      refine ⟨l2, as2, xs2, ?_, k2, c2, ?_, ?_⟩
      · simp only [List.map_cons, run, step, r1, Option.map_some, Option.bind_some, r2, chronicle]
        rw [if_neg hr]; rfl
      · simp only [chronicle]; rw [if_neg hr]; exact o2
      · simp only [chronicle]; rw [if_neg hr]; exact n2

/-- While the list grows at its end, the walk never reaches the end. -/
theorem selfLoop_none {zero : P} {pick : Nat → Heap V P → Nat} (hp : Fresh pick) : ∀ (fuel : Nat) {l : LinkedList V P} {as xs},
    Links l as xs → ∀ {k : Nat}, k < as.length → selfLoop zero pick fuel l as[k]? as.length = none
  | 0, l, as, xs, hl, k, hk => by rw [List.getElem?_eq_getElem hk]; rfl
  | fuel + 1, l, as, xs, hl, k, hk => by
    obtain ⟨x, _, hx⟩ := hl.seg.get (List.getElem?_eq_getElem hk)
    obtain ⟨l1, a, r1, k1, c1, i1, f1⟩ := insert_spec (zero := zero) hp hl (Nat.le_refl as.length)
      (fun _ h => absurd h (Nat.lt_irrefl _)) x.1
    have has : insertAt as as.length a = as ++ [a] := by simp [insertAt]
    rw [has] at k1
    have hk1 : (as ++ [a])[k]? = some as[k] := by rw [List.getElem?_append_left hk, List.getElem?_eq_getElem hk]
    obtain ⟨y, _, hy⟩ := k1.seg.get hk1
    rw [List.getElem?_eq_getElem hk, selfLoop, hx]
    simp only [Option.bind_some, r1, hy, Option.or_none]
    have := selfLoop_none (zero := zero) hp fuel k1 (k := k + 1) (by simp; omega)
    simpa using this

end LList
end Duck
