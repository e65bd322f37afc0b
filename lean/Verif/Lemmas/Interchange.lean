import Verif.Spec.Interchange
import Verif.Lemmas.Array
import Verif.Lemmas.LinkedList
import Verif.Props.ArrayOps
import Verif.Props.HashTable
import Verif.Props.BinaryTree
import Verif.Lemmas.Dictionary
/-! Helper lemmas for the interchangeability of collections. -/
namespace Duck
namespace Inter
open Arr (Ref)
open GArray (Rep)

/-- The entries of the interface follow the sequence `R` relates to the list. -/
structure Refines {L : Type} (I : Impl L) (R : L → List Ref → Prop) : Prop where
  count : ∀ {l xs}, R l xs → I.count l = xs.length
  get : ∀ {l xs} (i : Int), R l xs → ∃ l', I.get l i = some (l', itemAt xs i) ∧ R l' xs
  range : ∀ {l xs} (loc len : Int), loc + len < 2 ^ 63 → R l xs → ∃ l', I.range l loc len =
    some (l', if Inside xs loc len then (xs.drop loc.toNat).take len.toNat else []) ∧ R l' xs
  replace : ∀ {l xs} (loc len : Int) (os : List Ref), (¬ Inside xs loc len → loc + len < 2 ^ 63) → R l xs →
    ∃ l', I.replace l loc len os = some l' ∧ R l' (spliced xs loc len os)
  reverse : ∀ {l xs}, R l xs → ∃ l', I.reverse l = some l' ∧ R l' xs.reverse
  sort : ∀ {l xs} {cmp : Ref → Ref → Int}, Spec.TotalPreorder cmp → R l xs →
    ∃ l' ys, I.sort cmp l = some l' ∧ ArrayOps.sortObjects cmp (xs.length + 1) xs = some ys ∧ R l' ys

theorem itemAt_nat (xs : List Ref) (i : Nat) : itemAt xs (i : Int) = (xs[i]?).join := by simp [itemAt]

theorem alike_eq (eqv : Nat → Nat → Bool) (a b : Ref) : Arr.eqRef eqv a b = alike eqv a b := by
  cases a <;> cases b <;> rfl

/-! ### Arrays -/

def RA (s : Arr.Heap × GArray Ref) (xs : List Ref) : Prop := Rep s.2 xs ∧ ∀ o, s.1 o = xs.count (some o) + 1

theorem reorder_ok {a : GArray Ref} {xs ys : List Ref} {f : List Ref → Option (List Ref)} (hr : Rep a xs) (hf : f xs = some ys)
    (hl : ys.length = xs.length) : ∃ a', reorder f a = some a' ∧ Rep a' ys := by
  obtain ⟨h1, h2⟩ := hr
  unfold reorder
  cases hb : a.elements with
  | none =>
    rw [hb] at h2
    obtain ⟨rfl, h3⟩ := h2
    have : ys = [] := List.length_eq_zero_iff.mp (by simpa using hl)
    subst this
    refine ⟨a, by simp [hf], h1, ?_⟩
    rw [hb]; exact ⟨rfl, h3⟩
  | some b =>
    rw [hb] at h2
    obtain ⟨h3, h4, h5⟩ := h2
    have hm : (b.take a.length).mapM id = some xs := by
      rw [h1, h5, List.mapM_map]
      show xs.mapM (fun x => some x) = some xs
      clear * -
      induction xs with
      | nil => rfl
      | cons x xs ih => simp [List.mapM_cons, ih]
    refine ⟨_, by simp only [hm, Option.bind_some, hf, Option.map_some]; rfl, ?_, ?_⟩
    · show a.length = ys.length; omega
    · show (ys.map some ++ b.drop a.length).length = a.maxLength ∧ ys.length ≤ a.maxLength ∧ (ys.map some ++ b.drop a.length).take ys.length = ys.map some
      refine ⟨by simp; omega, by omega, by simp⟩

theorem rangeLoop_ok {a : GArray Ref} {xs : List Ref} (hr : Rep a xs) : ∀ (n i : Nat), i + n ≤ xs.length →
    rangeLoop a n i = some ((xs.drop i).take n)
  | 0, i, _ => by simp [rangeLoop]
  | n + 1, i, h => by
    have hi : i < xs.length := by omega
    rw [rangeLoop, Arr.rawGet_rep hr hi, Option.bind_some, rangeLoop_ok hr n (i + 1) (by omega), Arr.take_drop_succ hi]
    rfl

theorem spliced_eq (xs : List Ref) (loc len : Int) (os : List Ref) : Arr.replaced xs loc len os = spliced xs loc len os := by
  unfold Arr.replaced spliced
  by_cases h : Inside xs loc len
  · rw [if_pos h, if_pos (show 0 ≤ loc ∧ 0 ≤ len ∧ loc + len ≤ xs.length from h)]
    unfold Spec.splice
    rw [show (loc + len).toNat = loc.toNat + len.toNat by have := h.1; have := h.2.1; omega]
  · rw [if_neg h, if_neg (show ¬ (0 ≤ loc ∧ 0 ≤ len ∧ loc + len ≤ xs.length) from h)]

theorem array_refines : Refines array RA where
  count h := by show ((_ : Nat) : Int) = _; rw [h.1.1]
  get := by
    intro l xs i h
    refine ⟨l, ?_, h⟩
    have hlen := h.1.1
    show (Arr.getObjectAtIndex l.2 i).map _ = _
    unfold Arr.getObjectAtIndex
    by_cases hi : 0 ≤ i ∧ i < l.2.length
    · rw [if_pos hi, Arr.rawGet_rep h.1 (by omega), itemAt, if_pos hi.1, List.getElem?_eq_getElem (by omega)]
      rfl
    · rw [if_neg hi]
      unfold itemAt
      split
      · rw [List.getElem?_eq_none (by omega)]; rfl
      · rfl
  range := by
    intro l xs loc len hb h
    refine ⟨l, ?_, h⟩
    have hlen := h.1.1
    show (if Arr.inRange loc len l.2.length then (rangeLoop l.2 len.toNat loc.toNat).map _
      else if rangeOverflows loc len then none else some (l, [])) = _
    by_cases hi : Inside xs loc len
    · have hi' : 0 ≤ loc ∧ 0 ≤ len ∧ loc + len ≤ xs.length := hi
      rw [if_pos hi, if_pos (Arr.inRange_iff.mpr (by rw [hlen]; exact hi)), rangeLoop_ok h.1 _ _ (by omega)]
      rfl
    · rw [if_neg hi, if_neg (fun e => hi (by have := Arr.inRange_iff.mp e; rw [hlen] at this; exact this)),
        if_neg (by unfold rangeOverflows; omega)]
  replace := by
    intro l xs loc len os hb h
    obtain ⟨h', a', e, r, c⟩ := Arr.replaceCArray_ok (ext := fun _ => 1) h.1 h.2 loc len hb os (Or.inl fun _ _ => by omega)
    rw [spliced_eq] at r c
    exact ⟨(h', a'), e, r, c⟩
  reverse := by
    intro l xs h
    obtain ⟨a', e, r⟩ := reorder_ok (f := ArrayOps.reverse) h.1 (ArrayOps.C04_reverse xs) (by simp)
    refine ⟨(l.1, a'), by show (reorder _ _).map _ = _; rw [e]; rfl, r, fun o => ?_⟩
    rw [h.2 o, (List.reverse_perm xs).count_eq]
  sort := by
    intro l xs cmp ho h
    obtain ⟨ys, e1, hp, _⟩ := ArrayOps.C03_sort cmp ho xs (xs.length + 1) (by omega)
    obtain ⟨a', e, r⟩ := reorder_ok (f := ArrayOps.sortObjects cmp (l.2.length + 1)) h.1 (by rw [h.1.1]; exact e1) hp.length_eq
    refine ⟨(l.1, a'), ys, by show (reorder _ _).map _ = _; rw [e]; rfl, e1, r, fun o => ?_⟩
    rw [h.2 o, hp.count_eq]

/-! ### Linked lists -/

def RL (l : LList.LinkedList Ref Int) (xs : List Ref) : Prop :=
  ∃ as es, LList.Links l as es ∧ LList.CursorOk l as ∧ es.map (·.1) = xs

theorem sortObjects_short {cmp : Ref → Ref → Int} {xs : List Ref} (h : xs.length ≤ 1) (f : Nat) :
    ArrayOps.sortObjects cmp (f + 1) xs = some xs := by
  match xs, h with
  | [], _ => rfl
  | [x], _ => rfl

theorem linked_refines {pick : Nat → LList.Heap Ref Int → Nat} (hp : LList.Fresh pick) : Refines (linked pick) RL where
  count := by
    rintro l xs ⟨as, es, k, c, rfl⟩
    show l.count = _
    rw [k.count, k.seg.length]; simp
  get := by
    rintro l xs i ⟨as, es, k, c, rfl⟩
    obtain ⟨l', r, k', c'⟩ := LList.nodeAt_spec k c i
    refine ⟨l', ?_, as, es, k', c', rfl⟩
    show (LList.nodeAt l i).map _ = _
    rw [r, Option.map_some]
    congr 2
    unfold itemAt
    split
    · simp
    · rfl
  range := by
    rintro l xs loc len hb ⟨as, es, k, c, rfl⟩
    have hlen := k.seg.length
    have hcount := k.count
    show ∃ l', LList.objectsInRange l loc len = _ ∧ _
    unfold LList.objectsInRange
    by_cases h : Inside (es.map (·.1)) loc len
    · have h' : 0 ≤ loc ∧ 0 ≤ len ∧ loc + len ≤ (es.map (·.1)).length := h
      simp only [List.length_map] at h'
      rw [if_pos h, if_pos (by unfold LList.rangeOk; omega)]
      obtain ⟨i, rfl⟩ := Int.eq_ofNat_of_zero_le h'.1
      obtain ⟨n, rfl⟩ := Int.eq_ofNat_of_zero_le h'.2.1
      obtain ⟨l1, r1, k1, c1⟩ := LList.nodesFrom_spec n i k c (by omega)
      exact ⟨l1, r1, as, es, k1, c1, rfl⟩
    · have h' : ¬ (0 ≤ loc ∧ 0 ≤ len ∧ loc + len ≤ (es.map (·.1)).length) := h
      simp only [List.length_map] at h'
      rw [if_neg h, if_neg (by unfold LList.rangeOk; omega), if_neg (by unfold rangeOverflows; omega)]
      exact ⟨l, rfl, as, es, k, c, rfl⟩
  replace := by
    rintro l xs loc len os hb ⟨as, es, k, c, rfl⟩
    have hlen := k.seg.length
    have hcount := k.count
    show ∃ l', LList.replaceRange 0 pick l loc len os = _ ∧ _
    unfold LList.replaceRange spliced
    by_cases h : Inside (es.map (·.1)) loc len
    · have h' : 0 ≤ loc ∧ 0 ≤ len ∧ loc + len ≤ (es.map (·.1)).length := h
      simp only [List.length_map] at h'
      rw [if_pos h, if_pos (by unfold LList.rangeOk; omega)]
      obtain ⟨i, rfl⟩ := Int.eq_ofNat_of_zero_le h'.1
      obtain ⟨n, rfl⟩ := Int.eq_ofNat_of_zero_le h'.2.1
      have hin : i + n ≤ as.length := by omega
      obtain ⟨l1, r1, k1, c1⟩ := LList.removeRange_spec k c hin
      have hle : i ≤ (as.take i ++ as.drop (i + n)).length := by simp; omega
      obtain ⟨l2, as2, r2, k2, c2⟩ := LList.insertAll_spec (zero := (0 : Int)) hp os k1 c1 hle
      refine ⟨l2, by rw [r1]; exact r2, as2, _, k2, c2, ?_⟩
      have e1 : (es.take i ++ es.drop (i + n)).take i = es.take i := by
        rw [List.take_append_of_le_length (by simp; omega), List.take_take, Nat.min_self]
      have e2 : (es.take i ++ es.drop (i + n)).drop i = es.drop (i + n) := by
        rw [List.drop_append, List.drop_eq_nil_of_le (by simp), List.length_take, Nat.min_eq_left (by omega)]; simp
      rw [e1, e2]
      simp only [Int.toNat_natCast]
      rw [show ((i : Int) + n).toNat = i + n by omega]
      simp [Function.comp_def]
    · have h' : ¬ (0 ≤ loc ∧ 0 ≤ len ∧ loc + len ≤ (es.map (·.1)).length) := h
      simp only [List.length_map] at h'
      rw [if_neg h, if_neg (by unfold LList.rangeOk; omega), if_neg (by have := hb h; unfold rangeOverflows; omega)]
      exact ⟨l, rfl, as, es, k, c, rfl⟩
  reverse := by
    rintro l xs ⟨as, es, k, c, rfl⟩
    obtain ⟨l', r, k', c'⟩ := LList.reverse_spec k
    exact ⟨l', r, _, _, k', c', by simp⟩
  sort := by
    rintro l xs cmp ho ⟨as, es, hl, hc, rfl⟩
    have hlen := hl.seg.length
    have hcount := hl.count
    show ∃ l' ys, LList.sort cmp l = some l' ∧ _
    unfold LList.sort
    by_cases h : l.count > 1
    · rw [if_pos h]
      have e : l.count.toNat = as.length := by omega
      have hf : l.first = as.head?.or none := by rw [hl.first]; simp
      rw [e, hf, LList.listToArray_spec hl.seg]
      obtain ⟨b, hb, hp, hs⟩ := ArrayOps.C03_sort cmp ho (es.map (·.1)) (as.length + 1) (by simp; omega)
      have hbl : b.length = as.length := by rw [hp.length_eq]; simp; omega
      obtain ⟨h', r, k, f, d⟩ := LList.arrayToList_spec (vs := b) hl.seg hl.nodup hbl
      simp only [Option.bind_some, hb, r, Option.map_some]
      have hz1 : (b.zip (es.map (·.2))).map (·.1) = b := by
        have := List.map_fst_zip (l₁ := b) (l₂ := es.map (·.2)) (by simp; omega)
        simpa using this
      refine ⟨_, b, rfl, by rw [List.length_map, ← hlen]; exact hb, as, b.zip (es.map (·.2)),
        ⟨k, hl.nodup, ?_, ?_, hl.last, hl.count⟩, ?_, hz1⟩
      · intro p hp
        exact hl.dom p (fun e => hp ((d p).mpr e))
      · exact hl.first ▸ (by simp [hl.first])
      · right
        refine ⟨0, by omega, rfl, ?_⟩
        simp [List.head?_eq_getElem?]
    · rw [if_neg h]
      exact ⟨l, _, rfl, sortObjects_short (by simp; omega) _, as, es, hl, hc, rfl⟩

/-! ### The generic functions -/

section
variable {L : Type} {I : Impl L} {R : L → List Ref → Prop} {eqv : Nat → Nat → Bool}

theorem firstFrom_ok (hI : Refines I R) (o : Ref) {xs : List Ref} : ∀ (n i : Nat) {l : L}, R l xs → i + n = xs.length →
    ∃ l', firstFrom I eqv o n i l = some (l', match (xs.drop i).findIdx? (alike eqv o) with | some k => ((i + k : Nat) : Int) | none => -1) ∧ R l' xs
  | 0, i, l, h, e => by
    rw [List.drop_eq_nil_of_le (by omega)]
    exact ⟨l, rfl, h⟩
  | n + 1, i, l, h, e => by
    have hi : i < xs.length := by omega
    obtain ⟨l1, r1, h1⟩ := hI.get (i : Int) h
    rw [firstFrom, r1, Option.bind_some, List.drop_eq_getElem_cons hi, List.findIdx?_cons]
    simp only [alike_eq, itemAt_nat, List.getElem?_eq_getElem hi, Option.join_some]
    by_cases ha : alike eqv o xs[i]
    · rw [if_pos ha, if_pos ha]
      exact ⟨l1, rfl, h1⟩
    · rw [if_neg ha, if_neg ha]
      obtain ⟨l2, r2, h2⟩ := firstFrom_ok hI o n (i + 1) h1 (by omega)
      refine ⟨l2, ?_, h2⟩
      rw [show ((i : Int) + 1) = ((i + 1 : Nat) : Int) by omega, r2]
      cases (xs.drop (i + 1)).findIdx? (alike eqv o) with
      | none => rfl
      | some k => simp only [Option.map_some]; rw [show i + 1 + k = i + (k + 1) by omega]

theorem firstIndex_ok (hI : Refines I R) {l : L} {xs : List Ref} (h : R l xs) (o : Ref) :
    ∃ l', firstIndex I eqv l o = some (l', position eqv o xs) ∧ R l' xs := by
  obtain ⟨l', r, h'⟩ := firstFrom_ok hI (eqv := eqv) o xs.length 0 h (by omega)
  refine ⟨l', ?_, h'⟩
  unfold firstIndex
  rw [hI.count h, Int.toNat_natCast, show (0 : Int) = ((0 : Nat) : Int) from rfl, r, position, List.drop_zero]
  cases xs.findIdx? (alike eqv o) <;> simp

theorem append_ok (hI : Refines I R) {l : L} {xs : List Ref} (h : R l xs) (os : List Ref) :
    ∃ l', appendAll I l os = some l' ∧ R l' (xs ++ os) := by
  have hin : Inside xs (xs.length : Int) 0 := ⟨by omega, by omega, by omega⟩
  obtain ⟨l', r, h'⟩ := hI.replace (xs.length : Int) 0 os (fun hn => absurd hin hn) h
  refine ⟨l', by unfold appendAll; rw [hI.count h]; exact r, ?_⟩
  rw [spliced, if_pos hin] at h'
  simpa using h'

theorem clear_ok (hI : Refines I R) {l : L} {xs : List Ref} (h : R l xs) :
    ∃ l', I.replace l 0 (I.count l) [] = some l' ∧ R l' [] := by
  have hin : Inside xs 0 (xs.length : Int) := ⟨by omega, by omega, by omega⟩
  obtain ⟨l', r, h'⟩ := hI.replace 0 (xs.length : Int) [] (fun hn => absurd hin hn) h
  refine ⟨l', by rw [hI.count h]; exact r, ?_⟩
  rw [spliced, if_pos hin] at h'
  simpa using h'

theorem removeFrom_ok (hI : Refines I R) (o : Ref) : ∀ (n i : Nat) {l : L} {xs : List Ref}, R l xs → i + n = xs.length →
    ∃ l', removeFrom I eqv o n i l = some l' ∧ R l' (xs.take i ++ (xs.drop i).filter (fun x => !alike eqv o x))
  | 0, i, l, xs, h, e => by
    rw [List.drop_eq_nil_of_le (by omega), List.take_of_length_le (by omega)]
    exact ⟨l, rfl, by simpa using h⟩
  | n + 1, i, l, xs, h, e => by
    have hi : i < xs.length := by omega
    obtain ⟨l1, r1, h1⟩ := hI.get (i : Int) h
    rw [removeFrom, r1, Option.bind_some, List.drop_eq_getElem_cons hi, List.filter_cons]
    simp only [alike_eq, itemAt_nat, List.getElem?_eq_getElem hi, Option.join_some]
    by_cases ha : alike eqv o xs[i]
    · rw [if_pos ha]
      have hin : Inside xs (i : Int) 1 := ⟨by omega, by omega, by omega⟩
      obtain ⟨l2, r2, h2⟩ := hI.replace (i : Int) 1 [] (fun hn => absurd hin hn) h1
      rw [spliced, if_pos hin, List.append_nil, Int.toNat_natCast, show ((i : Int) + 1).toNat = i + 1 by omega] at h2
      have hl : (xs.take i).length = i := by simp; omega
      obtain ⟨l3, r3, h3⟩ := removeFrom_ok hI o n i h2 (by simp; omega)
      refine ⟨l3, by rw [r2]; exact r3, ?_⟩
      rw [List.take_append_of_le_length (by omega), List.take_take, Nat.min_self, List.drop_append, List.drop_eq_nil_of_le (by omega), hl] at h3
      simpa [ha] using h3
    · rw [if_neg ha]
      obtain ⟨l3, r3, h3⟩ := removeFrom_ok hI o n (i + 1) h1 (by omega)
      refine ⟨l3, r3, ?_⟩
      have e : ∀ F : List Ref, xs.take (i + 1) ++ F = xs.take i ++ (xs[i] :: F) := fun F => by
        rw [List.take_add_one, List.getElem?_eq_getElem hi, List.append_assoc]; rfl
      rw [e] at h3
      rw [if_pos (by simpa using ha)]
      exact h3

theorem remove_ok (hI : Refines I R) {l : L} {xs : List Ref} (h : R l xs) (o : Ref) :
    ∃ l', removeFrom I eqv o (I.count l).toNat 0 l = some l' ∧ R l' (xs.filter (fun x => !alike eqv o x)) := by
  obtain ⟨l', r, h'⟩ := removeFrom_ok hI (eqv := eqv) o xs.length 0 h (by omega)
  exact ⟨l', by rw [hI.count h]; exact r, by simpa using h'⟩
end

theorem two_step {L M : Type} {I : Impl L} {R : L → List Ref → Prop} {J : Impl M} {S : M → List Ref → Prop} {eqv : Nat → Nat → Bool}
    (hI : Refines I R) (hJ : Refines J S) {l : L} {m : M} {xs : List Ref} (h1 : R l xs) (h2 : S m xs) (op : ListOp) (hop : ListOk op) :
    ∃ l' m' ans ys, listStep I eqv l op = some (l', ans) ∧ listStep J eqv m op = some (m', ans) ∧ Follows eqv xs op ans ys ∧ R l' ys ∧ S m' ys := by
  cases op with
  | get i =>
    obtain ⟨l', r, k⟩ := hI.get i h1
    obtain ⟨m', r', k'⟩ := hJ.get i h2
    exact ⟨l', m', _, xs, by simp only [listStep, r, Option.map_some], by simp only [listStep, r', Option.map_some], ⟨rfl, rfl⟩, k, k'⟩
  | range loc len =>
    obtain ⟨l', r, k⟩ := hI.range loc len hop h1
    obtain ⟨m', r', k'⟩ := hJ.range loc len hop h2
    exact ⟨l', m', _, xs, by simp only [listStep, r, Option.map_some], by simp only [listStep, r', Option.map_some], ⟨rfl, rfl⟩, k, k'⟩
  | first =>
    obtain ⟨l', r, k⟩ := hI.get 0 h1
    obtain ⟨m', r', k'⟩ := hJ.get 0 h2
    simp only [listStep, hI.count h1, hJ.count h2]
    by_cases hn : (xs.length : Int) > 0
    · rw [if_pos hn, if_pos hn]
      exact ⟨l', m', _, xs, by rw [r]; rfl, by rw [r']; rfl, ⟨rfl, rfl⟩, k, k'⟩
    · rw [if_neg hn, if_neg hn]
      have : xs = [] := List.length_eq_zero_iff.mp (by omega)
      subst this
      exact ⟨l, m, _, [], rfl, rfl, ⟨rfl, rfl⟩, h1, h2⟩
  | last =>
    obtain ⟨l', r, k⟩ := hI.get ((xs.length : Int) - 1) h1
    obtain ⟨m', r', k'⟩ := hJ.get ((xs.length : Int) - 1) h2
    simp only [listStep, hI.count h1, hJ.count h2]
    by_cases hn : (xs.length : Int) > 0
    · rw [if_pos hn, if_pos hn]
      exact ⟨l', m', _, xs, by rw [r]; rfl, by rw [r']; rfl, ⟨rfl, rfl⟩, k, k'⟩
    · rw [if_neg hn, if_neg hn]
      have : xs = [] := List.length_eq_zero_iff.mp (by omega)
      subst this
      exact ⟨l, m, _, [], rfl, rfl, ⟨rfl, rfl⟩, h1, h2⟩
  | indexOf o =>
    obtain ⟨l', r, k⟩ := firstIndex_ok hI (eqv := eqv) h1 o
    obtain ⟨m', r', k'⟩ := firstIndex_ok hJ (eqv := eqv) h2 o
    exact ⟨l', m', _, xs, by simp only [listStep, r, Option.map_some], by simp only [listStep, r', Option.map_some], ⟨rfl, rfl⟩, k, k'⟩
  | append os =>
    obtain ⟨l', r, k⟩ := append_ok hI h1 os
    obtain ⟨m', r', k'⟩ := append_ok hJ h2 os
    exact ⟨l', m', _, _, by simp only [listStep, r, Option.map_some], by simp only [listStep, r', Option.map_some], ⟨rfl, rfl⟩, k, k'⟩
  | insert o i =>
    have hb : i + 1 < 2 ^ 63 := hop
    obtain ⟨l', r, k⟩ := hI.replace i 0 [o] (fun _ => by omega) h1
    obtain ⟨m', r', k'⟩ := hJ.replace i 0 [o] (fun _ => by omega) h2
    exact ⟨l', m', _, _, by simp only [listStep, r, Option.map_some], by simp only [listStep, r', Option.map_some], ⟨rfl, rfl⟩, k, k'⟩
  | set o i =>
    have hb : i + 1 < 2 ^ 63 := hop
    obtain ⟨l', r, k⟩ := hI.replace i 1 [o] (fun _ => by omega) h1
    obtain ⟨m', r', k'⟩ := hJ.replace i 1 [o] (fun _ => by omega) h2
    exact ⟨l', m', _, _, by simp only [listStep, r, Option.map_some], by simp only [listStep, r', Option.map_some], ⟨rfl, rfl⟩, k, k'⟩
  | replace loc len os =>
    obtain ⟨l', r, k⟩ := hI.replace loc len os (fun _ => hop) h1
    obtain ⟨m', r', k'⟩ := hJ.replace loc len os (fun _ => hop) h2
    exact ⟨l', m', _, _, by simp only [listStep, r, Option.map_some], by simp only [listStep, r', Option.map_some], ⟨rfl, rfl⟩, k, k'⟩
  | remove o =>
    obtain ⟨l', r, k⟩ := remove_ok hI (eqv := eqv) h1 o
    obtain ⟨m', r', k'⟩ := remove_ok hJ (eqv := eqv) h2 o
    exact ⟨l', m', _, _, by simp only [listStep, r, Option.map_some], by simp only [listStep, r', Option.map_some], ⟨rfl, rfl⟩, k, k'⟩
  | removeAll =>
    obtain ⟨l', r, k⟩ := clear_ok hI h1
    obtain ⟨m', r', k'⟩ := clear_ok hJ h2
    exact ⟨l', m', _, _, by simp only [listStep, r, Option.map_some], by simp only [listStep, r', Option.map_some], ⟨rfl, rfl⟩, k, k'⟩
  | reverse =>
    obtain ⟨l', r, k⟩ := hI.reverse h1
    obtain ⟨m', r', k'⟩ := hJ.reverse h2
    exact ⟨l', m', _, _, by simp only [listStep, r, Option.map_some], by simp only [listStep, r', Option.map_some], ⟨rfl, rfl⟩, k, k'⟩
  | sort cmp =>
    have ho : Spec.TotalPreorder cmp := hop
    obtain ⟨l', ys, r, e, k⟩ := hI.sort ho h1
    obtain ⟨m', ys', r', e', k'⟩ := hJ.sort ho h2
    obtain ⟨b, e2, p, s⟩ := ArrayOps.C03_sort cmp ho xs (xs.length + 1) (by omega)
    rw [e] at e' e2
    cases e'; cases e2
    exact ⟨l', m', _, ys, by simp only [listStep, r, Option.map_some], by simp only [listStep, r', Option.map_some], ⟨p, s, rfl⟩, k, k'⟩
  | count =>
    exact ⟨l, m, _, xs, rfl, by simp only [listStep, hI.count h1, hJ.count h2], ⟨rfl, by rw [hI.count h1]⟩, h1, h2⟩

theorem two_run {L M : Type} {I : Impl L} {R : L → List Ref → Prop} {J : Impl M} {S : M → List Ref → Prop} {eqv : Nat → Nat → Bool}
    (hI : Refines I R) (hJ : Refines J S) : ∀ (ops : List ListOp) {l : L} {m : M} {xs : List Ref}, R l xs → S m xs → (∀ op ∈ ops, ListOk op) →
    ∃ l' m' anss ys, listRun I eqv l ops = some (l', anss) ∧ listRun J eqv m ops = some (m', anss) ∧ FollowsAll eqv xs ops anss ys ∧ R l' ys ∧ S m' ys
  | [], l, m, xs, h1, h2, _ => ⟨l, m, [], xs, rfl, rfl, .nil _, h1, h2⟩
  | op :: ops, l, m, xs, h1, h2, ho => by
    obtain ⟨l1, m1, a1, ys1, r1, s1, f1, k1, k2⟩ := two_step hI hJ (eqv := eqv) h1 h2 op (ho op (by simp))
    obtain ⟨l2, m2, a2, ys2, r2, s2, f2, k3, k4⟩ := two_run hI hJ (eqv := eqv) ops k1 k2 (fun o h => ho o (by simp [h]))
    exact ⟨l2, m2, a1 :: a2, ys2, by simp only [listRun, r1, r2, Option.bind_some, Option.map_some],
      by simp only [listRun, s1, s2, Option.bind_some, Option.map_some], .cons f1 f2, k3, k4⟩

/-! ### Sets held in lists -/

def DistinctSet (eqv : Nat → Nat → Bool) (xs : List Nat) : Prop := xs.Pairwise fun a b => eqv a b = false

theorem setStep_distinct {hash : Nat → Nat} {eqv : Nat → Nat → Bool} (kc : HTable.KeyClass hash eqv) {xs : List Nat}
    (h : DistinctSet eqv xs) (op : SetOp) : DistinctSet eqv (setStep eqv xs op).1 := by
  cases op with
  | add o =>
    show DistinctSet eqv (if xs.any (eqv · o) then xs else o :: xs)
    by_cases ha : xs.any (eqv · o)
    · rw [if_pos ha]; exact h
    · rw [if_neg ha]
      refine List.pairwise_cons.mpr ⟨fun x hx => ?_, h⟩
      cases e : eqv o x with
      | false => rfl
      | true => exact absurd (List.any_eq_true.mpr ⟨x, hx, kc.symm o x e⟩) ha
  | remove o => exact List.Pairwise.filter _ h
  | removeAll => exact List.Pairwise.nil
  | member o => exact h
  | count => exact h

theorem find_reverse {hash : Nat → Nat} {eqv : Nat → Nat → Bool} (kc : HTable.KeyClass hash eqv) {xs : List Nat}
    (h : DistinctSet eqv xs) (o : Nat) : xs.reverse.find? (eqv · o) = xs.find? (eqv · o) := by
  have := Dict.find_perm (m := xs.map fun x => (x, ())) (m' := xs.reverse.map fun x => (x, ())) kc
    ((List.reverse_perm xs).symm.map _) (by unfold Dict.Distinct; rw [List.pairwise_map]; exact h) o
  simp only [List.find?_map, Function.comp_def] at this
  cases h1 : xs.find? (eqv · o) <;> cases h2 : xs.reverse.find? (eqv · o) <;> rw [h1, h2] at this <;> simp at this <;> simp_all

section
variable {hash : Nat → Nat} {eqv : Nat → Nat → Bool}

theorem alike_some (kc : HTable.KeyClass hash eqv) (o x : Nat) : alike eqv (some o) (some x) = eqv x o := by
  show (o == x || eqv o x) = _
  have hcomm : eqv o x = eqv x o := by
    cases e : eqv o x with
    | true => exact (kc.symm _ _ e).symm
    | false =>
      cases e' : eqv x o with
      | true => rw [kc.symm _ _ e'] at e; cases e
      | false => rfl
  by_cases h : o = x
  · subst h; simp [kc.refl]
  · simp [h, hcomm]

theorem position_some (kc : HTable.KeyClass hash eqv) (o : Nat) (ys : List Nat) :
    position eqv (some o) (ys.map some) = (ys.findIdx? (eqv · o)).elim (-1) (fun i : Nat => (i : Int)) := by
  unfold position
  rw [List.findIdx?_map]
  have : (alike eqv (some o)) ∘ some = fun x => eqv x o := funext fun x => alike_some kc o x
  rw [this]
  cases ys.findIdx? (eqv · o) <;> rfl

theorem item_found {p : Nat → Bool} : ∀ {ys : List Nat} {i : Nat}, ys.findIdx? p = some i → ys[i]? = ys.find? p
  | y :: ys, i, h => by
    rw [List.findIdx?_cons] at h
    rw [List.find?_cons]
    by_cases hp : p y
    · rw [if_pos hp] at h; cases h; simp [hp]
    · rw [if_neg hp] at h
      cases hj : ys.findIdx? p with
      | none => rw [hj] at h; cases h
      | some j =>
        rw [hj] at h
        cases h
        simp only [List.getElem?_cons_succ, hp]
        exact item_found hj

variable {L : Type} {I : Impl L} {R : L → List Ref → Prop}

theorem listSet_step (kc : HTable.KeyClass hash eqv) (hI : Refines I R) {l : L} {xs : List Nat} (hd : DistinctSet eqv xs)
    (h : R l (xs.reverse.map some)) (op : SetOp) :
    ∃ l', listSetStep I eqv l op = some (l', (setStep eqv xs op).2) ∧ R l' ((setStep eqv xs op).1.reverse.map some) := by
  cases op with
  | add o =>
    obtain ⟨l1, r1, h1⟩ := firstIndex_ok hI (eqv := eqv) h (some o)
    simp only [listSetStep, addToSet, r1, Option.bind_some, setStep]
    rw [position_some kc]
    cases hf : xs.reverse.findIdx? (eqv · o) with
    | none =>
      simp only [Option.elim, if_true]
      have hn : ¬ xs.any (eqv · o) := by
        rw [List.findIdx?_eq_none_iff] at hf
        rw [List.any_eq_true]
        rintro ⟨x, hx, e⟩
        have := hf x (by simpa using hx)
        rw [e] at this; cases this
      rw [if_neg hn]
      obtain ⟨l2, r2, h2⟩ := append_ok hI h1 [some o]
      exact ⟨l2, by rw [r2]; rfl, by simpa using h2⟩
    | some i =>
      rw [if_neg (by simp only [Option.elim]; omega)]
      have hy : xs.any (eqv · o) := by
        have := item_found hf
        obtain ⟨hi, hp, _⟩ := List.findIdx?_eq_some_iff_getElem.mp hf
        exact List.any_eq_true.mpr ⟨xs.reverse[i], by simpa using List.getElem_mem hi, hp⟩
      rw [if_pos hy]
      exact ⟨l1, rfl, h1⟩
  | remove o =>
    obtain ⟨l1, r1, h1⟩ := remove_ok hI (eqv := eqv) h (some o)
    refine ⟨l1, by simp only [listSetStep, r1, Option.map_some]; rfl, ?_⟩
    rw [List.filter_map] at h1
    have : (fun x => !alike eqv (some o) x) ∘ some = fun x => !eqv x o := funext fun x => by simp [alike_some kc]
    rw [this, List.filter_reverse] at h1
    exact h1
  | removeAll =>
    obtain ⟨l1, r1, h1⟩ := clear_ok hI h
    exact ⟨l1, by simp only [listSetStep, r1, Option.map_some]; rfl, h1⟩
  | member o =>
    obtain ⟨l1, r1, h1⟩ := firstIndex_ok hI (eqv := eqv) h (some o)
    simp only [listSetStep, memberOfSet, r1, Option.bind_some, setStep]
    rw [position_some kc, ← find_reverse kc hd]
    cases hf : xs.reverse.findIdx? (eqv · o) with
    | none =>
      rw [if_neg (by simp)]
      rw [List.findIdx?_eq_none_iff] at hf
      have : xs.reverse.find? (eqv · o) = none := by
        rw [List.find?_eq_none]; intro x hx; simp [hf x hx]
      rw [this]
      exact ⟨l1, rfl, h1⟩
    | some i =>
      rw [if_pos (by simp only [Option.elim]; omega)]
      obtain ⟨l2, r2, h2⟩ := hI.get (i : Int) h1
      refine ⟨l2, ?_, h2⟩
      simp only [Option.elim]
      rw [r2]
      simp only [Option.map_some, itemAt, List.getElem?_map, Int.toNat_natCast]
      rw [if_pos (by omega)]
      rw [item_found hf]
      cases xs.reverse.find? (eqv · o) <;> rfl
  | count =>
    refine ⟨l, ?_, h⟩
    simp only [listSetStep, hI.count h, setStep]
    simp

theorem listSet_run (kc : HTable.KeyClass hash eqv) (hI : Refines I R) : ∀ (ops : List SetOp) {l : L} {xs : List Nat},
    DistinctSet eqv xs → R l (xs.reverse.map some) →
    ∃ l', listSetRun I eqv l ops = some (l', (setRun eqv xs ops).2) ∧ R l' ((setRun eqv xs ops).1.reverse.map some)
  | [], l, xs, _, h => ⟨l, rfl, h⟩
  | op :: ops, l, xs, hd, h => by
    obtain ⟨l1, r1, h1⟩ := listSet_step kc hI hd h op
    obtain ⟨l2, r2, h2⟩ := listSet_run kc hI ops (setStep_distinct kc hd op) h1
    exact ⟨l2, by simp only [listSetRun, r1, r2, Option.bind_some, Option.map_some, setRun], h2⟩
end

/-! ### Sets held in tables and trees -/

def dup (xs : List Nat) : List (Nat × Nat) := xs.map fun x => (x, x)

theorem specStep_set (eqv : Nat → Nat → Bool) (xs : List Nat) (op : SetOp) :
    (HTable.specStep eqv (dup xs) (toTable op)).1 = dup (setStep eqv xs op).1 ∧
      fromTable (HTable.specStep eqv (dup xs) (toTable op)).2 = (setStep eqv xs op).2 := by
  have hh : ∀ o, HTable.has eqv (dup xs) o = xs.any (eqv · o) := fun o => by
    simp [HTable.has, dup, List.any_map, Function.comp_def]
  cases op with
  | add o =>
    refine ⟨?_, rfl⟩
    show (HTable.specInsert eqv (dup xs) o o .ifNotFound).1 = _
    unfold HTable.specInsert
    rw [hh]
    simp only [setStep]
    by_cases ha : xs.any (eqv · o)
    · rw [if_pos ha, if_pos ha]; simp
    · rw [if_neg ha, if_neg ha, if_neg (by simp)]; rfl
  | remove o =>
    refine ⟨?_, rfl⟩
    simp [toTable, HTable.specStep, HTable.specRemove, dup, setStep, List.filter_map, Function.comp_def]
  | removeAll => exact ⟨rfl, rfl⟩
  | member o =>
    refine ⟨rfl, ?_⟩
    simp only [toTable, HTable.specStep, HTable.specGet, dup, fromTable, setStep, List.find?_map, Option.map_map, Function.comp_def]
    simp
  | count => exact ⟨rfl, by simp [toTable, HTable.specStep, fromTable, setStep, dup]⟩

theorem specRun_set (eqv : Nat → Nat → Bool) : ∀ (ops : List SetOp) (xs : List Nat),
    (HTable.specRun eqv (dup xs) (ops.map toTable)).1 = dup (setRun eqv xs ops).1 ∧
      (HTable.specRun eqv (dup xs) (ops.map toTable)).2.map fromTable = (setRun eqv xs ops).2
  | [], xs => ⟨rfl, rfl⟩
  | op :: ops, xs => by
    obtain ⟨h1, h2⟩ := specStep_set eqv xs op
    obtain ⟨h3, h4⟩ := specRun_set eqv ops (setStep eqv xs op).1
    simp only [List.map_cons, HTable.specRun, setRun, h1, h2, h3, h4, and_self]

theorem tableSetRun_eq (hash : Nat → Nat) (eqv : Nat → Nat → Bool) : ∀ (ops : List SetOp) (t : HTable.Table Nat Nat),
    tableSetRun hash eqv t ops = (HTable.run hash eqv t (ops.map toTable)).map fun q => (q.1, q.2.map fromTable)
  | [], t => rfl
  | op :: ops, t => by
    simp only [tableSetRun, List.map_cons, HTable.run]
    cases HTable.step hash eqv t (toTable op) with
    | error e => rfl
    | ok r =>
      simp only [Except.bind]
      rw [tableSetRun_eq hash eqv ops r.1]
      cases HTable.run hash eqv r.1 (ops.map toTable) <;> rfl

theorem treeSetRun_eq (cmp : Nat → Nat → Int) : ∀ (ops : List SetOp) (t : BTree.Tree Nat Nat),
    treeSetRun cmp t ops = (BTree.run cmp t (ops.map toTree)).map fun q => (q.1, q.2.map fromTree)
  | [], t => rfl
  | op :: ops, t => by
    simp only [treeSetRun, List.map_cons, BTree.run]
    cases BTree.step cmp t (toTree op) with
    | none => rfl
    | some r =>
      simp only [Option.bind_some]
      rw [treeSetRun_eq cmp ops r.1]
      cases BTree.run cmp r.1 (ops.map toTree) <;> rfl

theorem toTree_eq (op : SetOp) : toTree op = dictToTree (toTable op) := by cases op <;> rfl

section
variable {K V : Type}

/-- A table's report without the insertion results. -/
def dropOut : HTable.Out V → BTree.Out V
  | .value v => .value v
  | .changed _ => .done
  | .done => .done
  | .count n => .count n

theorem fromTree_drop (o : HTable.Out Nat) : fromTree (dropOut o) = fromTable o := by cases o <;> rfl

theorem dict_drop (o : HTable.Out V) : dictOfTree (dropOut o) = dictOfTable o := by cases o <;> rfl

theorem treeSpec_eq (cmp : K → K → Int) : ∀ (ops : List (HTable.Op K V)) (m : List (K × V)),
    BTree.specRun cmp m (ops.map dictToTree) =
      ((HTable.specRun (BTree.keyEq cmp) m ops).1, (HTable.specRun (BTree.keyEq cmp) m ops).2.map dropOut)
  | [], m => rfl
  | op :: ops, m => by
    have h1 : (BTree.specStep cmp m (dictToTree op)).1 = (HTable.specStep (BTree.keyEq cmp) m op).1 := by cases op <;> rfl
    have h2 : (BTree.specStep cmp m (dictToTree op)).2 = dropOut (HTable.specStep (BTree.keyEq cmp) m op).2 := by cases op <;> rfl
    simp only [List.map_cons, BTree.specRun, HTable.specRun, h1, h2, treeSpec_eq cmp ops]

theorem keyEq_eq {hash : K → Nat} {eqv : K → K → Bool} {cmp : K → K → Int} (hc : Consistent hash eqv cmp) : BTree.keyEq cmp = eqv := by
  funext a b
  unfold BTree.keyEq
  cases h : eqv a b with
  | true => simpa using (hc.agree a b).mpr h
  | false =>
    have : ¬ cmp a b = 0 := fun e => by rw [(hc.agree a b).mp e] at h; cases h
    simpa using this
end

/-! ### Building -/

section
variable {hash : Nat → Nat} {eqv : Nat → Nat → Bool}

theorem has_find {m : List (Nat × Nat)} {o : Nat} : HTable.has eqv m o = true ↔ ∃ v, HTable.specGet eqv m o = some v := by
  unfold HTable.has HTable.specGet
  rw [List.any_eq_true]
  constructor
  · rintro ⟨x, hx, e⟩
    cases h : m.find? (fun e => eqv e.1 o) with
    | none => rw [List.find?_eq_none] at h; exact absurd e (h x hx)
    | some y => exact ⟨y.2, rfl⟩
  · rintro ⟨v, e⟩
    cases h : m.find? (fun e => eqv e.1 o) with
    | none => rw [h] at e; cases e
    | some y => exact ⟨y, List.mem_of_find?_eq_some h, by simpa using List.find?_some h⟩

theorem comm (kc : HTable.KeyClass hash eqv) (a b : Nat) : eqv a b = eqv b a := by
  cases e : eqv a b with
  | true => exact (kc.symm _ _ e).symm
  | false =>
    cases e' : eqv b a with
    | true => rw [kc.symm _ _ e'] at e; cases e
    | false => rfl

theorem eqv_left (kc : HTable.KeyClass hash eqv) {a b : Nat} (h : eqv a b = true) (c : Nat) : eqv a c = eqv b c := by
  cases e : eqv b c with
  | true => exact kc.trans _ _ _ h e
  | false =>
    cases e' : eqv a c with
    | true => rw [kc.trans _ _ _ (kc.symm _ _ h) e'] at e; cases e
    | false => rfl

theorem get_map_hit (kc : HTable.KeyClass hash eqv) (k o : Nat) : ∀ m : List (Nat × Nat),
    HTable.specGet eqv (m.map fun e => if eqv e.1 k then (e.1, k) else e) o =
      if eqv k o && HTable.has eqv m o then some k else HTable.specGet eqv m o
  | [] => by simp [HTable.specGet, HTable.has]
  | e :: m => by
    have ih := get_map_hit kc k o m
    unfold HTable.specGet HTable.has at *
    simp only [List.map_cons, List.find?_cons, List.any_cons]
    by_cases h1 : eqv e.1 k
    · rw [if_pos h1]
      have := eqv_left kc h1 o
      cases h2 : eqv k o with
      | true => simp [this, h2]
      | false =>
        simp only [this, h2] at ih ⊢
        simpa using ih
    · rw [if_neg h1]
      by_cases h2 : eqv e.1 o = true
      · have : eqv k o = false := by
          cases h3 : eqv k o with
          | false => rfl
          | true => exact absurd (kc.trans _ _ _ h2 (kc.symm _ _ h3)) h1
        simp [this, h2]
      · have h2' : eqv e.1 o = false := by simpa using h2
        simp only [h2', Bool.false_or]
        exact ih

theorem get_insert_always (kc : HTable.KeyClass hash eqv) (m : List (Nat × Nat)) (k o : Nat) :
    HTable.specGet eqv (HTable.specInsert eqv m k k .always).1 o = if eqv k o then some k else HTable.specGet eqv m o := by
  unfold HTable.specInsert
  by_cases h : HTable.has eqv m k
  · rw [if_pos h, if_neg (by simp)]
    show HTable.specGet eqv (m.map _) o = _
    rw [get_map_hit kc]
    cases h2 : eqv k o with
    | false => simp
    | true =>
      have : HTable.has eqv m o = true := by
        obtain ⟨x, hx, e⟩ := List.any_eq_true.mp h
        exact List.any_eq_true.mpr ⟨x, hx, kc.trans _ _ _ e h2⟩
      simp [this]
  · rw [if_neg h, if_neg (by simp)]
    unfold HTable.specGet
    simp only [List.find?_cons]
    cases h2 : eqv k o <;> simp

def insAll (os : List Nat) : List (HTable.Op Nat Nat) := os.map fun o => .insert o o .always

theorem get_insAll (kc : HTable.KeyClass hash eqv) (o : Nat) : ∀ (os : List Nat) (m : List (Nat × Nat)),
    HTable.specGet eqv (HTable.specRun eqv m (insAll os)).1 o = (os.reverse.find? (eqv · o)).or (HTable.specGet eqv m o)
  | [], m => by simp [insAll, HTable.specRun]
  | k :: os, m => by
    have ih := get_insAll kc o os (HTable.specInsert eqv m k k .always).1
    simp only [insAll, List.map_cons, HTable.specRun, HTable.specStep] at ih ⊢
    rw [ih, get_insert_always kc, List.reverse_cons, List.find?_append, List.find?_singleton]
    cases os.reverse.find? (eqv · o) with
    | some x => simp
    | none => cases eqv k o <;> simp

/-- Entries whose object equals their key, keys pairwise different. -/
def Sound (eqv : Nat → Nat → Bool) (m : List (Nat × Nat)) : Prop := (∀ e ∈ m, eqv e.1 e.2 = true) ∧ Dict.Distinct eqv m

theorem insert_sound (kc : HTable.KeyClass hash eqv) {m : List (Nat × Nat)} (h : Sound eqv m) (k : Nat) :
    Sound eqv (HTable.specInsert eqv m k k .always).1 := by
  unfold HTable.specInsert
  by_cases hh : HTable.has eqv m k
  · rw [if_pos hh, if_neg (by simp)]
    refine ⟨fun e he => ?_, ?_⟩
    · obtain ⟨x, hx, rfl⟩ := List.mem_map.mp he
      by_cases hk : eqv x.1 k
      · simp only [hk, if_true]
      · rw [if_neg hk]; exact h.1 x hx
    · show List.Pairwise _ (m.map _)
      rw [List.pairwise_map]
      refine h.2.imp fun {a b} hab => ?_
      have e : ∀ x : Nat × Nat, (if eqv x.1 k then (x.1, k) else x).1 = x.1 := fun x => by split <;> rfl
      rw [e, e]; exact hab
  · rw [if_neg hh, if_neg (by simp)]
    refine ⟨fun e he => ?_, ?_⟩
    · rcases List.mem_cons.mp he with rfl | he
      · exact kc.refl _
      · exact h.1 e he
    · refine List.pairwise_cons.mpr ⟨fun x hx => ?_, h.2⟩
      cases e : eqv k x.1 with
      | false => rfl
      | true => exact absurd (List.any_eq_true.mpr ⟨x, hx, kc.symm _ _ e⟩) hh

theorem insAll_sound (kc : HTable.KeyClass hash eqv) : ∀ (os : List Nat) {m : List (Nat × Nat)}, Sound eqv m →
    Sound eqv (HTable.specRun eqv m (insAll os)).1
  | [], m, h => h
  | k :: os, m, h => insAll_sound kc os (insert_sound kc h k)

theorem built_ok (kc : HTable.KeyClass hash eqv) {os : List Nat} {es : List (Nat × Nat)}
    (hp : es.Perm (HTable.specRun eqv [] (insAll os)).1) :
    DistinctSet eqv (es.map (·.2)) ∧ ∀ o, (es.map (·.2)).find? (eqv · o) = os.reverse.find? (eqv · o) := by
  have hs := insAll_sound kc os (m := []) ⟨fun _ h => absurd h (List.not_mem_nil), List.Pairwise.nil⟩
  have hd : Dict.Distinct eqv es := hp.symm.pairwise hs.2 (fun {x y} h => by rw [comm kc]; exact h)
  have he : ∀ e ∈ es, eqv e.1 e.2 = true := fun e h => hs.1 e (hp.mem_iff.mp h)
  refine ⟨?_, fun o => ?_⟩
  · unfold DistinctSet
    rw [List.pairwise_map]
    refine List.Pairwise.imp_of_mem (fun {a b} ha hb h => ?_) hd
    rw [← eqv_left kc (he a ha), comm kc, ← eqv_left kc (he b hb), comm kc]; exact h
  · rw [List.find?_map]
    have e1 : es.find? ((eqv · o) ∘ (·.2)) = es.find? (fun e => eqv e.1 o) := by
      clear hp hd
      induction es with
      | nil => rfl
      | cons x es ih =>
        simp only [List.find?_cons, Function.comp_apply]
        rw [← eqv_left kc (he x (by simp)) o]
        rw [show es.find? ((eqv · o) ∘ (·.2)) = es.find? (fun e => eqv e.1 o) from ih (fun e h => he e (by simp [h]))]
    rw [e1, Dict.find_perm kc hp hd o]
    have := get_insAll kc o os []
    simpa [HTable.specGet] using this
end

end Inter
end Duck
