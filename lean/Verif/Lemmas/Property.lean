import Verif.Model.Property
import Verif.Spec.Property
namespace Duck
namespace Property

theorem live_lt {h : Heap} {i : Id} {o : Obj} (hl : live h i = some o) : i < h.length := by
  unfold live at hl
  rcases Nat.lt_or_ge i h.length with hlt | hge
  · exact hlt
  · rw [List.getElem?_eq_none hge] at hl; cases hl

theorem live_get {h : Heap} {i : Id} {o : Obj} (hl : live h i = some o) : h[i]? = some (some o) := by
  unfold live at hl
  cases hx : h[i]? with
  | none => rw [hx] at hl; cases hl
  | some c => rw [hx] at hl; cases c with
    | none => cases hl
    | some o' => simp only [Option.join_some, Option.some.injEq] at hl; rw [hl]

theorem live_set (h : Heap) (i j : Id) (c : Option Obj) (hi : i < h.length) :
    live (h.set i c) j = if i = j then c else live h j := by
  unfold live
  rw [List.getElem?_set]
  by_cases hij : i = j
  · subst hij; rw [if_pos rfl, if_pos hi, if_pos rfl]; rfl
  · rw [if_neg hij, if_neg hij]

theorem live_append_lt (h g : Heap) {i : Id} (hi : i < h.length) : live (h ++ g) i = live h i := by
  unfold live; rw [List.getElem?_append_left hi]

/-- What an object owns. -/
def cellOwned : Option Obj → List Id
  | some o => strongs o.fields
  | none => []

def cellCount : Option Obj → Nat
  | some o => o.count
  | none => 0

theorem held_eq (h : Heap) : held h = h.flatMap cellOwned := by
  unfold held
  congr 1

theorem held_set : ∀ (h : Heap) (i : Id) (c c0 : Option Obj) (j : Id), h[i]? = some c0 →
    (held (h.set i c)).count j + (cellOwned c0).count j = (held h).count j + (cellOwned c).count j
  | [], i, c, c0, j, hi => by simp at hi
  | a :: h, 0, c, c0, j, hi => by
      simp only [List.getElem?_cons_zero, Option.some.injEq] at hi
      subst hi
      simp only [held_eq, List.set_cons_zero, List.flatMap_cons, List.count_append]
      omega
  | a :: h, i + 1, c, c0, j, hi => by
      simp only [List.getElem?_cons_succ] at hi
      have ih := held_set h i c c0 j hi
      simp only [held_eq] at ih
      simp only [held_eq, List.set_cons_succ, List.flatMap_cons, List.count_append]
      omega

theorem total_eq (h : Heap) : total h = (h.map cellCount).sum := by
  unfold total
  congr 1

theorem total_set : ∀ (h : Heap) (i : Id) (c c0 : Option Obj), h[i]? = some c0 →
    total (h.set i c) + cellCount c0 = total h + cellCount c
  | [], i, c, c0, hi => by simp at hi
  | a :: h, 0, c, c0, hi => by
      simp only [List.getElem?_cons_zero, Option.some.injEq] at hi
      subst hi
      simp only [total_eq, List.set_cons_zero, List.map_cons, List.sum_cons]
      omega
  | a :: h, i + 1, c, c0, hi => by
      simp only [List.getElem?_cons_succ] at hi
      have ih := total_set h i c c0 hi
      simp only [total_eq] at ih
      simp only [total_eq, List.set_cons_succ, List.map_cons, List.sum_cons]
      omega

theorem total_pos {h : Heap} {i : Id} {o : Obj} (hl : live h i = some o) : o.count ≤ total h := by
  have := total_set h i none (some o) (live_get hl)
  simp only [cellCount] at this
  omega

/-- Exact counts when `ext` are the references from outside the fields. -/
def Own (h : Heap) (ext : List Id) : Prop :=
  ∀ i, match live h i with
    | some o => o.count = ext.count i + (held h).count i ∧ 0 < o.count
    | none => ext.count i + (held h).count i = 0

theorem Own.congr {h : Heap} {ext ext' : List Id} (ho : Own h ext) (hc : ∀ i, ext.count i = ext'.count i) : Own h ext' := by
  intro i
  have := ho i
  rw [← hc i]
  exact this

theorem Own.live {h : Heap} {ext : List Id} (ho : Own h ext) {i : Id} (hi : 0 < ext.count i + (held h).count i) :
    ∃ o, live h i = some o := by
  have := ho i
  cases hl : Property.live h i with
  | some o => exact ⟨o, rfl⟩
  | none => rw [hl] at this; simp only at this; omega

theorem Own.mem {h : Heap} {ext : List Id} (ho : Own h ext) {i : Id} (hi : i ∈ ext) : ∃ o, Property.live h i = some o :=
  ho.live (by have := List.count_pos_iff.mpr hi; omega)

/-- Replacing a live cell by one with the right count. -/
theorem Own.set {h : Heap} {ext ext' : List Id} {i : Id} {o : Obj} (ho : Own h ext) (hl : Property.live h i = some o) (c : Option Obj)
    (hother : ∀ j, j ≠ i → ext'.count j + (cellOwned c).count j = ext.count j + (strongs o.fields).count j)
    (hself : match c with
      | some o' => o'.count + ext.count i + (strongs o.fields).count i = o.count + ext'.count i + (strongs o'.fields).count i ∧ 0 < o'.count
      | none => o.count + ext'.count i = ext.count i + (strongs o.fields).count i) : Own (h.set i c) ext' := by
  intro j
  rw [live_set h i j c (live_lt hl)]
  have hs := held_set h i c (some o) j (live_get hl)
  simp only [cellOwned] at hs
  have hj := ho j
  by_cases hij : i = j
  · subst hij
    rw [hl] at hj
    rw [if_pos rfl]
    cases c with
    | some o' => simp only at hs hself ⊢; simp only at hj; omega
    | none => simp only [List.count_nil] at hs hself ⊢; simp only at hj; omega
  · rw [if_neg hij]
    have h2 := hother j (fun h => hij h.symm)
    simp only [cellOwned] at h2 hs
    cases hlj : Property.live h j with
    | some o' => rw [hlj] at hj; simp only at hj ⊢; omega
    | none => rw [hlj] at hj; simp only at hj ⊢; omega

/-- What survives: the same objects with other counts. -/
def Same (h h' : Heap) : Prop :=
  h'.length = h.length ∧ ∀ i o', live h' i = some o' → ∃ o, live h i = some o ∧ o.cls = o'.cls ∧ o.value = o'.value ∧ o.fields = o'.fields

theorem Same.refl (h : Heap) : Same h h := ⟨rfl, fun _ o' hl => ⟨o', hl, rfl, rfl, rfl⟩⟩

theorem Same.trans {a b c : Heap} (h1 : Same a b) (h2 : Same b c) : Same a c := by
  refine ⟨h2.1.trans h1.1, fun i o' hl => ?_⟩
  obtain ⟨o1, a1, a2, a3, a4⟩ := h2.2 i o' hl
  obtain ⟨o2, b1, b2, b3, b4⟩ := h1.2 i o1 a1
  exact ⟨o2, b1, b2.trans a2, b3.trans a3, b4.trans a4⟩

theorem same_set {h : Heap} {i : Id} {o : Obj} (hl : live h i = some o) (n : Nat) : Same h (h.set i (some { o with count := n })) := by
  refine ⟨by simp, fun j o' hj => ?_⟩
  rw [live_set _ _ _ _ (live_lt hl)] at hj
  by_cases hij : i = j
  · subst hij; rw [if_pos rfl] at hj; cases hj; exact ⟨o, hl, rfl, rfl, rfl⟩
  · rw [if_neg hij] at hj; exact ⟨o', hj, rfl, rfl, rfl⟩

theorem same_free {h : Heap} {i : Id} {o : Obj} (hl : live h i = some o) : Same h (h.set i none) := by
  refine ⟨by simp, fun j o' hj => ?_⟩
  rw [live_set _ _ _ _ (live_lt hl)] at hj
  by_cases hij : i = j
  · subst hij; rw [if_pos rfl] at hj; cases hj
  · rw [if_neg hij] at hj; exact ⟨o', hj, rfl, rfl, rfl⟩

theorem releases_ok : ∀ (fuel : Nat) (h : Heap) (l ext : List Id), Own h (l ++ ext) → total h ≤ fuel →
    ∃ h', releases fuel h l = some h' ∧ Own h' ext ∧ Same h h'
  | fuel, h, [], ext, ho, _ => ⟨h, by cases fuel <;> rfl, ho, Same.refl h⟩
  | 0, h, i :: l, ext, ho, hf => by
      obtain ⟨o, hl⟩ := ho.mem (i := i) (by simp)
      have h1 := total_pos hl
      have h2 := ho i
      rw [hl] at h2
      simp only at h2
      omega
  | fuel + 1, h, i :: l, ext, ho, hf => by
      obtain ⟨o, hl⟩ := ho.mem (i := i) (by simp)
      rw [releases, hl]
      simp only
      have hcnt := ho i
      rw [hl] at hcnt
      simp only [List.cons_append, List.count_cons_self] at hcnt
      by_cases hc : o.count > 1
      · rw [if_pos hc]
        have ht := total_set h i (some { o with count := o.count - 1 }) (some o) (live_get hl)
        simp only [cellCount] at ht
        obtain ⟨h', h1, h2, h3⟩ := releases_ok fuel _ l ext (ho.set hl (ext' := l ++ ext) (some { o with count := o.count - 1 })
          (fun j hj => by simp only [cellOwned, List.cons_append, List.count_cons, beq_iff_eq, if_neg (Ne.symm hj)]; omega)
          (by simp only [List.cons_append, List.count_cons_self]; omega)) (by omega)
        exact ⟨h', h1, h2, (same_set hl _).trans h3⟩
      · rw [if_neg hc]
        have ht := total_set h i none (some o) (live_get hl)
        simp only [cellCount] at ht
        obtain ⟨h', h1, h2, h3⟩ := releases_ok fuel _ (strongs o.fields ++ l) ext (ho.set hl (ext' := (strongs o.fields ++ l) ++ ext) none
          (fun j hj => by
            simp only [cellOwned, List.cons_append, List.count_cons, List.count_append, beq_iff_eq, if_neg (Ne.symm hj), List.count_nil]; omega)
          (by simp only [List.cons_append, List.count_cons_self, List.count_append]; omega)) (by omega)
        exact ⟨h', h1, h2, (same_free hl).trans h3⟩

theorem release_ok {h : Heap} {l ext : List Id} (ho : Own h (l ++ ext)) :
    ∃ h', release h l = some h' ∧ Own h' ext ∧ Same h h' := releases_ok _ h l ext ho (Nat.le_refl _)

theorem retain_ok {h : Heap} {i : Id} {ext : List Id} (ho : Own h ext) (hi : ∃ o, live h i = some o) :
    ∃ h', retain h i = some h' ∧ Own h' (i :: ext) ∧ Same h h' ∧ Same h' h := by
  obtain ⟨o, hl⟩ := hi
  refine ⟨_, by rw [retain, hl]; rfl, ?_, same_set hl _, ?_⟩
  · refine ho.set hl _ (fun j hj => ?_) ?_
    · simp only [cellOwned, List.count_cons, beq_iff_eq, if_neg (Ne.symm hj)]; omega
    · simp only [List.count_cons_self]
      constructor
      · omega
      · omega
  · refine ⟨by simp, fun j o' hj => ?_⟩
    rw [live_set _ _ _ _ (live_lt hl)]
    by_cases hij : i = j
    · subst hij; rw [if_pos rfl]; rw [hl] at hj; cases hj; exact ⟨_, rfl, rfl, rfl, rfl⟩
    · rw [if_neg hij]; exact ⟨o', hj, rfl, rfl, rfl⟩

theorem retains_ok : ∀ (l : List Id) {h : Heap} {ext : List Id}, Own h ext → (∀ i ∈ l, ∃ o, live h i = some o) →
    ∃ h', retains h l = some h' ∧ Own h' (l ++ ext) ∧ Same h h' ∧ Same h' h
  | [], h, ext, ho, _ => ⟨h, rfl, ho, Same.refl h, Same.refl h⟩
  | i :: l, h, ext, ho, hl => by
      obtain ⟨h1, a1, a2, a3, a4⟩ := retain_ok ho (hl i (by simp))
      obtain ⟨h2, b1, b2, b3, b4⟩ := retains_ok l a2 (fun j hj => by
        obtain ⟨o, ho'⟩ := hl j (by simp [hj])
        obtain ⟨o2, h2, _⟩ := a4.2 j o ho'
        exact ⟨o2, h2⟩)
      refine ⟨h2, by rw [retains, a1]; exact b1, b2.congr (fun j => ?_), a3.trans b3, b4.trans a4⟩
      simp only [List.count_append, List.count_cons, List.cons_append]; omega

/-! ### Storing into a field -/

theorem live_write (h : Heap) (i j : Id) (k : Nat) (v : Slot) :
    live (write h i k v) j = if i = j then (live h j).map (fun o => { o with fields := o.fields.set k v }) else live h j := by
  unfold write
  cases hl : live h i with
  | none =>
      by_cases hij : i = j
      · subst hij; simp only [hl, if_pos, Option.map_none]
      · simp only [if_neg hij]
  | some o =>
      simp only
      rw [live_set _ _ _ _ (live_lt hl)]
      by_cases hij : i = j
      · subst hij; rw [if_pos rfl, if_pos rfl, hl]; rfl
      · rw [if_neg hij, if_neg hij]

theorem write_len (h : Heap) (i : Id) (k : Nat) (v : Slot) : (write h i k v).length = h.length := by
  unfold write; split <;> simp

/-- A freed object stays freed. -/
theorem releases_dead : ∀ (fuel : Nat) (h : Heap) (l : List Id) (h' : Heap) (i : Id), releases fuel h l = some h' → live h i = none →
    live h' i = none
  | fuel, h, [], h', i, hr, hd => by cases fuel <;> (cases hr; exact hd)
  | 0, h, _ :: _, h', i, hr, hd => by cases hr
  | fuel + 1, h, j :: l, h', i, hr, hd => by
      rw [releases] at hr
      cases hl : live h j with
      | none => rw [hl] at hr; cases hr
      | some o =>
          rw [hl] at hr
          simp only at hr
          have hji : j ≠ i := by intro e; subst e; rw [hl] at hd; cases hd
          split at hr
          · exact releases_dead fuel _ _ h' i hr (by rw [live_set _ _ _ _ (live_lt hl), if_neg hji]; exact hd)
          · exact releases_dead fuel _ _ h' i hr (by rw [live_set _ _ _ _ (live_lt hl), if_neg hji]; exact hd)

theorem write_set {h : Heap} {i j : Id} {k : Nat} {v : Slot} (c : Option Obj) (hij : i ≠ j) (hj : j < h.length) :
    (write h i k v).set j c = write (h.set j c) i k v := by
  unfold write
  rw [live_set _ _ _ _ hj, if_neg (Ne.symm hij)]
  cases live h i with
  | none => rfl
  | some o => simp only; rw [List.set_comm _ _ hij]

/-- The field being replaced does not matter to the releases, as long as its object survives. -/
theorem releases_write : ∀ (fuel : Nat) (h : Heap) (l : List Id) (h' : Heap) (i : Id) (k : Nat) (v : Slot), releases fuel h l = some h' →
    live h' i ≠ none → releases fuel (write h i k v) l = some (write h' i k v)
  | fuel, h, [], h', i, k, v, hr, _ => by cases fuel <;> (cases hr; rfl)
  | 0, h, _ :: _, h', i, k, v, hr, _ => by cases hr
  | fuel + 1, h, j :: l, h', i, k, v, hr, hl' => by
      rw [releases] at hr
      rw [releases, live_write]
      cases hl : live h j with
      | none => rw [hl] at hr; cases hr
      | some o =>
          rw [hl] at hr
          simp only at hr
          have hlt := live_lt hl
          by_cases hij : i = j
          · subst hij
            simp only [if_true, Option.map_some]
            by_cases hc : o.count > 1
            · rw [if_pos hc] at hr
              rw [if_pos hc]
              have := releases_write fuel _ l h' i k v hr hl'
              rw [← this]
              congr 1
              unfold write
              rw [live_set _ _ _ _ hlt, hl, if_pos rfl]
              simp
            · rw [if_neg hc] at hr
              exact absurd (releases_dead fuel _ _ h' i hr (by rw [live_set _ _ _ _ hlt, if_pos rfl])) hl'
          · simp only [if_neg hij]
            by_cases hc : o.count > 1
            · rw [if_pos hc] at hr
              rw [if_pos hc, write_set _ hij hlt]
              exact releases_write fuel _ l h' i k v hr hl'
            · rw [if_neg hc] at hr
              rw [if_neg hc, write_set _ hij hlt]
              exact releases_write fuel _ _ h' i k v hr hl'

theorem total_write (h : Heap) (i : Id) (k : Nat) (v : Slot) : total (write h i k v) = total h := by
  unfold write
  cases hl : live h i with
  | none => rfl
  | some o =>
      have := total_set h i (some { o with fields := o.fields.set k v }) (some o) (live_get hl)
      simp only [cellCount] at this ⊢
      omega

theorem strongs_set : ∀ (l : List Slot) (k : Nat) (v old : Slot) (j : Id), l[k]? = some old →
    (strongs (l.set k v)).count j + (owned old).count j = (strongs l).count j + (owned v).count j
  | [], k, v, old, j, h => by simp at h
  | a :: l, 0, v, old, j, h => by
      simp only [List.getElem?_cons_zero, Option.some.injEq] at h
      subst h
      simp only [strongs, List.set_cons_zero, List.flatMap_cons, List.count_append]
      omega
  | a :: l, k + 1, v, old, j, h => by
      simp only [List.getElem?_cons_succ] at h
      have ih := strongs_set l k v old j h
      simp only [strongs] at ih
      simp only [strongs, List.set_cons_succ, List.flatMap_cons, List.count_append]
      omega

theorem set_same {α : Type} {l : List α} {k : Nat} {a : α} (h : l[k]? = some a) : l.set k a = l := by
  apply List.ext_getElem?
  intro n
  rw [List.getElem?_set]
  by_cases hn : k = n
  · subst hn
    rw [if_pos rfl, if_pos (List.getElem?_eq_some_iff.mp h).1, h]
  · rw [if_neg hn]

/-- Field `k` of object `i`. -/
def field (h : Heap) (i : Id) (k : Nat) : Option Slot := (live h i).bind fun o => o.fields[k]?

/-- The heap after a field was replaced: the field has its new contents, other fields of objects that survive are unchanged. -/
structure Replaced (h h' : Heap) (i : Id) (k : Nat) (v : Slot) : Prop where
  len : h'.length = h.length
  obj : ∀ j o', live h' j = some o' → ∃ o, live h j = some o ∧ o.cls = o'.cls ∧ o.value = o'.value ∧
    o'.fields = if i = j then o.fields.set k v else o.fields

theorem replace_ok {h : Heap} {ext : List Id} {i : Id} {k : Nat} {v : Slot} (ho : Own h (owned v ++ ext)) (hi : i ∈ ext)
    {o : Obj} (hl : live h i = some o) (hk : k < o.fields.length) :
    ∃ h', replace h i k v = some h' ∧ Own h' ext ∧ Replaced h h' i k v := by
  obtain ⟨old, hold⟩ : ∃ old, o.fields[k]? = some old := ⟨_, List.getElem?_eq_getElem hk⟩
  -- the field emptied
  have hempty : Own (write h i k .null) (owned old ++ (owned v ++ ext)) := by
    unfold write
    rw [hl]
    have hs := fun j => strongs_set o.fields k .null old j hold
    refine ho.set hl _ (fun j hj => ?_) ?_
    · have := hs j
      simp only [cellOwned, List.count_append, owned, List.count_nil] at this ⊢
      omega
    · have := hs i
      have hp := ho i
      rw [hl] at hp
      simp only [List.count_append, owned, List.count_nil] at this ⊢
      exact ⟨by omega, hp.2⟩
  obtain ⟨h1, r1, r2, r3⟩ := release_ok hempty
  have hi1 : ∃ o1, live h1 i = some o1 := r2.mem (by simp [hi])
  obtain ⟨o1, hl1⟩ := hi1
  obtain ⟨o0, ho0, e1, e2, e3⟩ := r3.2 i o1 hl1
  rw [live_write, if_pos rfl, hl] at ho0
  simp only [Option.map_some, Option.some.injEq] at ho0
  -- releasing with the old contents still in the field
  have hw : release h (owned old) = some (write h1 i k old) := by
    have := releases_write _ _ _ _ i k old r1 (by rw [hl1]; simp)
    rw [total_write] at this
    unfold release
    rw [← this]
    congr 1
    unfold write
    rw [hl]
    simp only
    rw [live_set _ _ _ _ (live_lt hl), if_pos rfl]
    simp only [List.set_set]
    rw [set_same hold, set_same (live_get hl)]
  have hlw : live (write h1 i k old) i = some { o1 with fields := o1.fields.set k old } := by
    rw [live_write, if_pos rfl, hl1]; rfl
  have hfin : write (write h1 i k old) i k v = write h1 i k v := by
    unfold write
    rw [hl1]
    simp only
    rw [live_set _ _ _ _ (live_lt hl1), if_pos rfl]
    simp
  refine ⟨write h1 i k v, ?_, ?_, ?_⟩
  · rw [replace, hl]
    simp only [Option.bind_some]
    rw [hold]
    simp only [Option.bind_some]
    rw [hw]
    simp only [Option.bind_some]
    rw [hlw]
    simp only [Option.map_some]
    rw [hfin]
  · unfold write
    rw [hl1]
    have hf1 : o1.fields = o.fields.set k .null := by rw [← e3, ← ho0]
    have hnull : o1.fields[k]? = some .null := by rw [hf1, List.getElem?_set_self hk]
    have hs := fun j => strongs_set o1.fields k v .null j hnull
    refine r2.set hl1 _ (fun j hj => ?_) ?_
    · have := hs j
      simp only [cellOwned, List.count_append, owned, List.count_nil] at this ⊢
      omega
    · have := hs i
      have hp := r2 i
      rw [hl1] at hp
      simp only [List.count_append, owned, List.count_nil] at this ⊢
      exact ⟨by omega, hp.2⟩
  · refine ⟨by rw [write_len, r3.1, write_len], fun j o' hj => ?_⟩
    rw [live_write] at hj
    by_cases hij : i = j
    · subst hij
      rw [if_pos rfl, hl1] at hj
      simp only [Option.map_some, Option.some.injEq] at hj
      subst hj
      refine ⟨o, hl, ?_, ?_, ?_⟩
      · simp only [← e1, ← ho0]
      · simp only [← e2, ← ho0]
      · simp only [if_true, ← e3, ← ho0, List.set_set]
    · rw [if_neg hij] at hj
      obtain ⟨o2, h2, b1, b2, b3⟩ := r3.2 j o' hj
      rw [live_write, if_neg hij] at h2
      exact ⟨o2, h2, b1, b2, by rw [if_neg hij, b3]⟩

end Property
end Duck
