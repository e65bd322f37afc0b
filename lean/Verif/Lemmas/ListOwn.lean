import Verif.Spec.ListOwn
import Verif.Lemmas.LinkedListPriority
import Verif.Props.TreeOwn
/-! The log of a list in terms of its contents. -/
namespace Duck
namespace ListOwn
open LList
open HTable (Policy)
open TreeOwn
variable {P : Type}

/-- The objects among pointers. -/
def objs (vs : List Obj) : List Id := vs.flatMap Option.toList

theorem objs_append (a b : List Obj) : objs (a ++ b) = objs a ++ objs b := by simp [objs]

theorem objs_count (vs : List Obj) (x : Id) : (objs vs).count x = vs.count (some x) := by
  induction vs with
  | nil => rfl
  | cons v vs ih =>
    have : objs (v :: vs) = v.toList ++ objs vs := rfl
    rw [this, List.count_append, ih, List.count_cons]
    cases v with
    | none => simp
    | some y =>
      by_cases e : y = x
      · subst e; simp; omega
      · simp [e]

theorem retains_eq (vs : List Obj) : vs.flatMap retainO = (objs vs).map .retain := by
  induction vs with
  | nil => rfl
  | cons v vs ih => rw [List.flatMap_cons, ih, retainO_eq]; simp [objs]

theorem releases_eq (vs : List Obj) : vs.flatMap releaseO = (objs vs).map .release := by
  induction vs with
  | nil => rfl
  | cons v vs ih => rw [List.flatMap_cons, ih, releaseO_eq]; simp [objs]

theorem removeStepLog_eq {l : LinkedList Obj P} {A B : List Nat} {X Y : List (Obj × P)} {a x}
    (hl : Links l (A ++ a :: B) (X ++ x :: Y)) (hlen : A.length = X.length) (hc : l.cursor = some a) : removeStepLog l = releaseO x.1 := by
  obtain ⟨ha, _⟩ := unlink_spec hl.seg hlen hl.nodup
  simp only [removeStepLog, hc, Option.bind_some, ha]

theorem removeLoopLog_eq : ∀ (n i : Nat) {l : LinkedList Obj P} {as : List Nat} {xs : List (Obj × P)}, Links l as xs →
    i + n ≤ as.length → l.cursor = as[i]? → removeLoopLog n l = (((xs.map (·.1)).drop i).take n).flatMap releaseO
  | 0, i, l, as, xs, hl, _, hc => by simp [removeLoopLog]
  | n + 1, i, l, as, xs, hl, hi, hc => by
    have hlt : i < as.length := by omega
    have hlx : i < xs.length := by have := hl.seg.length; omega
    have ea := split_at (List.getElem?_eq_getElem hlt)
    have ex := split_at' (List.getElem?_eq_getElem hlx)
    have hl' := hl
    rw [ea, ex] at hl'
    have hs := removeStepLog_eq hl' (by simp [hl.seg.length]) (by rw [hc, List.getElem?_eq_getElem hlt])
    obtain ⟨l1, r1, k1, c1, i1⟩ := removeStep_spec hl' (by simp [hl.seg.length]) (by rw [hc, List.getElem?_eq_getElem hlt])
    have hc1 : l1.cursor = (as.take i ++ as.drop (i + 1))[i]? := by
      rw [c1, List.head?_drop, List.getElem?_append_right (by simp; omega)]
      simp [Nat.min_eq_left (Nat.le_of_lt hlt)]
    have ih := removeLoopLog_eq n i k1 (by simp; omega) hc1
    rw [removeLoopLog, hs, r1]
    simp only [ih]
    have e1 : ((xs.take i ++ xs.drop (i + 1)).map (·.1)).drop i = (xs.map (·.1)).drop (i + 1) := by
      rw [List.map_append, List.map_take, List.map_drop, List.drop_append, List.drop_eq_nil_of_le (by simp; omega)]
      simp [Nat.min_eq_left (Nat.le_of_lt hlx)]
    rw [e1, List.drop_eq_getElem_cons (l := xs.map (·.1)) (i := i) (by simpa using hlx), List.take_succ_cons, List.flatMap_cons]
    simp

theorem removeRangeLog_eq {l : LinkedList Obj P} {as : List Nat} {xs : List (Obj × P)} (hl : Links l as xs) (hc : CursorOk l as)
    {i n : Nat} (h : i + n ≤ as.length) : removeRangeLog l i n = (((xs.map (·.1)).drop i).take n).flatMap releaseO := by
  unfold removeRangeLog
  by_cases hn : n = 0
  · subst hn
    rw [if_pos (by rfl)]; simp
  · rw [if_neg (by omega), moveCursor_spec hl hc (by omega : i < as.length)]
    simp only [Int.toNat_natCast]
    exact removeLoopLog_eq n i (hl.withCursor as[i]? i) h rfl

/-- A priority insertion that is accepted retains the object, then releases the object of the old entry, if any: the same object. -/
theorem priorityLog_eq {zero : P} {pick : Nat → Heap Obj P → Nat} (hp : Fresh pick) {gt : P → P → Bool}
    {l : LinkedList Obj P} {as xs} (hl : Links l as xs) (v : Obj) (p : P) (policy : Policy) :
    priorityLog zero pick gt l v p policy =
      if (specPriority gt xs v p policy).2 then retainO v ++ (if v ∈ xs.map (·.1) then releaseO v else []) else [] := by
  have hlen := hl.seg.length
  have hcount := hl.count
  have hsc := scan_spec (gt := gt) (v := v) (p := p) (policy := policy) (as := as) (last := l.last) (A := []) (X := [])
    (fuel := l.count.toNat + 1) hl.seg rfl rfl (by omega)
  have i0 : insOf gt as l.last ([] : List (Obj × P)) p = (l.last, l.count) := by simp [insOf, slot, hcount]
  have r0 : remOf as ([] : List (Obj × P)) v = (none, -1) := by simp [remOf]
  rw [i0, r0, ← hl.first] at hsc
  simp only [List.length_nil, List.nil_append] at hsc
  unfold priorityLog
  rw [hcount] at hsc ⊢
  rw [show ((0 : Nat) : Int) = 0 by rfl] at hsc
  rw [hsc]
  by_cases hnf : policy = .ifNotFound ∧ v ∈ xs.map (·.1)
  · rw [if_pos hnf]
    have : specPriority gt xs v p policy = (xs, false) := by
      unfold specPriority; rw [if_pos (Or.inl ⟨hnf.2, hnf.1⟩)]
    rw [this]; rfl
  · rw [if_neg hnf]
    simp only
    have hmem : ((remOf as xs v).1 = none) ↔ v ∉ xs.map (·.1) := by
      unfold remOf
      split
      · rename_i hm
        have := oldIdx_lt xs v hm
        rw [← hlen] at this
        simp only [List.getElem?_eq_getElem this]
        simp [hm]
      · rename_i hm; simp [hm]
    by_cases hif : policy = .ifFound ∧ (remOf as xs v).1 = none
    · rw [if_pos hif]
      have : specPriority gt xs v p policy = (xs, false) := by
        unfold specPriority; rw [if_pos (Or.inr ⟨hmem.mp hif.2, hif.1⟩)]
      rw [this]; rfl
    · rw [if_neg hif]
      have hrefuse : ¬ ((v ∈ xs.map (·.1) ∧ policy = .ifNotFound) ∨ (v ∉ xs.map (·.1) ∧ policy = .ifFound)) := by
        rintro (⟨a, b⟩ | ⟨a, b⟩)
        · exact hnf ⟨b, a⟩
        · exact hif ⟨b, hmem.mpr a⟩
      have hacc : (specPriority gt xs v p policy).2 = true := by
        unfold specPriority; rw [if_neg hrefuse]; split <;> rfl
      rw [if_pos hacc]
      congr 1
      have hsl := slot_le gt xs p
      generalize hS : slot gt xs p = s at hsl
      have hins2 : (insOf gt as l.last xs p).2 = (s : Nat) := by
        unfold insOf; rw [hS]; split
        · rfl
        · show (as.length : Int) = s; omega
      have hins : 0 < s → s < as.length →
          CursorOk { l with cursor := (insOf gt as l.last xs p).1, cursorIndex := (insOf gt as l.last xs p).2 } as := by
        intro _ hs
        right
        refine ⟨s, hs, hins2, ?_⟩
        show (insOf gt as l.last xs p).1 = _
        unfold insOf; rw [hS, if_pos (by omega)]
      obtain ⟨l1, a, q1, k1, c1, x1, f1⟩ := insert_spec (zero := zero) hp
        (hl.withCursor (insOf gt as l.last xs p).1 (insOf gt as l.last xs p).2) (by omega : s ≤ as.length) hins v
      unfold beforeRemoval
      rw [hins2] at q1 ⊢
      rw [q1]
      simp only [Option.bind_some]
      rw [c1]
      obtain ⟨h2, q2, k2⟩ := setPriority_spec k1 (insertAt_get (by omega) a) (insertAt_get (by omega) (v, zero)) p
      rw [insertAt_set (by omega)] at k2
      rw [q2]
      simp only [Option.map_some]
      by_cases hm : v ∈ xs.map (·.1)
      · rw [if_pos (fun e => hmem.mp e hm), if_pos hm]
        have hold := oldIdx_lt xs v hm
        have hrem : remOf as xs v = (as[oldIdx xs v]?, ((oldIdx xs v : Nat) : Int)) := by unfold remOf; rw [if_pos hm]
        rw [hrem]
        have hxo : (xs.map (·.1))[oldIdx xs v]? = some v := by
          have hex : ∃ e ∈ xs.reverse, (decide (e.1 = v)) = true := by
            obtain ⟨e, he, hv⟩ := List.mem_map.mp hm
            exact ⟨e, List.mem_reverse.mpr he, by simpa using hv⟩
          have hlt := List.findIdx_lt_length_of_exists hex
          have hp := List.findIdx_getElem (w := hlt)
          rw [List.getElem_reverse] at hp
          have hb : oldIdx xs v < (xs.map (·.1)).length := by simpa using hold
          rw [List.getElem?_eq_getElem hb, List.getElem_map]
          congr 1
          simp only [oldIdx]
          exact of_decide_eq_true hp
        generalize hO : oldIdx xs v = o at hold hxo
        have hi : (if ((o : Nat) : Int) ≥ (s : Nat) then ((o : Nat) : Int) + 1 else (o : Nat)) =
            ((if o ≥ s then o + 1 else o : Nat) : Int) := by
          split <;> split <;> omega
        simp only [hi]
        have hget := insertAt_get_old (xs := as) (i := s) (k := o) (by omega) (by omega) a
        have hgetx := insertAt_get_old (xs := xs) (i := s) (k := o) (by omega) (by omega) (v, p)
        have hlt : (if o ≥ s then o + 1 else o) < (insertAt as s a).length := by
          rw [insertAt_length]; split <;> omega
        generalize (if o ≥ s then o + 1 else o) = j at hget hlt hgetx
        have kc : CursorOk { l1 with heap := h2, cursor := as[o]?, cursorIndex := ((j : Nat) : Int) } (insertAt as s a) :=
          Or.inr ⟨j, hlt, rfl, hget.symm⟩
        have hr := removeRangeLog_eq (n := 1) (k2.withCursor as[o]? (j : Nat)) kc (by omega : j + 1 ≤ _)
        rw [show ((1 : Nat) : Int) = 1 by rfl] at hr
        refine hr.trans ?_
        have hj : ((insertAt xs s (v, p)).map (·.1))[j]? = some v := by
          rw [List.getElem?_map, hgetx, ← List.getElem?_map, hxo]
        obtain ⟨hj1, hj2⟩ := List.getElem?_eq_some_iff.mp hj
        rw [List.drop_eq_getElem_cons hj1, hj2]
        simp
      · rw [if_neg (fun e => e (hmem.mpr hm)), if_neg hm]

end ListOwn
end Duck
