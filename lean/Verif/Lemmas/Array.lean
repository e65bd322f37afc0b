import Verif.Spec.Array
import Verif.Lemmas.GenericArray
/-! Helper lemmas for arrays of objects and for lists. -/
namespace Duck
namespace Arr
open GArray (Rep)

theorem rawGet_rep {a : GArray Ref} {xs : List Ref} (h : Rep a xs) {i : Nat} (hi : i < xs.length) : rawGet a i = some xs[i] := by
  obtain ⟨hl, h⟩ := h
  unfold rawGet
  cases hb : a.elements with
  | none => rw [hb] at h; rw [h.1] at hi; cases hi
  | some b =>
      rw [hb] at h
      have h2 : b[i]? = some (some xs[i]) := by
        have : (b.take xs.length)[i]? = some (some xs[i]) := by rw [h.2.2]; simp [hi]
        rw [List.getElem?_take_of_lt hi] at this
        exact this
      show (b[i]?).join = _
      rw [h2]; rfl

theorem rawSet_rep {a : GArray Ref} {xs : List Ref} (h : Rep a xs) {i : Nat} (hi : i < xs.length) (r : Ref) :
    ∃ a', rawSet a i r = some a' ∧ Rep a' (xs.set i r) := by
  obtain ⟨hl, h⟩ := h
  unfold rawSet
  cases hb : a.elements with
  | none => rw [hb] at h; rw [h.1] at hi; cases hi
  | some b =>
      rw [hb] at h
      refine ⟨{ a with elements := some (b.set i (some r)) }, ?_, ?_⟩
      · show setBlock a i r b = _
        unfold setBlock
        rw [if_pos (by omega)]
      · refine ⟨by simp [hl], ?_⟩
        refine ⟨by simp [h.1], by simpa using h.2.1, ?_⟩
        rw [List.length_set, List.take_set, h.2.2, List.map_set]

theorem deref_rep {a : GArray Ref} {xs : List Ref} (h : Rep a xs) {i : Nat} (hi : i < xs.length) : deref a i = some xs[i] := by
  unfold deref
  rw [if_pos (by rw [h.1]; exact hi), rawGet_rep h hi]

theorem store_rep {a : GArray Ref} {xs : List Ref} (h : Rep a xs) {i : Nat} (hi : i < xs.length) (r : Ref) :
    ∃ a', store a i r = some a' ∧ Rep a' (xs.set i r) := by
  unfold store
  rw [if_pos (by rw [h.1]; exact hi)]
  exact rawSet_rep h hi r

/-- `o` may be retained or released. -/
def Alive (h : Heap) (o : Ref) : Prop := ∀ i, o = some i → 0 < h i

theorem retain_ok {h : Heap} {o : Ref} (ha : Alive h o) : ∃ h', retain h o = some h' ∧ ∀ i, h' i = h i + [o].count (some i) := by
  cases o with
  | none => exact ⟨h, rfl, fun i => by simp⟩
  | some o =>
      have := ha o rfl
      refine ⟨bump h o (h o + 1), by unfold retain; simp; omega, fun i => ?_⟩
      unfold bump
      by_cases hi : i = o
      · subst hi; simp
      · rw [if_neg hi]
        have : (some o == some i) = false := by simpa using fun h => hi h.symm
        simp [List.count_cons, this]

theorem release_ok {h : Heap} {o : Ref} {e : Nat → Nat} (hc : ∀ i, h i = e i + [o].count (some i)) : ∃ h', release h o = some h' ∧ ∀ i, h' i = e i := by
  cases o with
  | none => exact ⟨h, rfl, fun i => by simp [hc i]⟩
  | some o =>
      have := hc o
      simp at this
      refine ⟨bump h o (h o - 1), by unfold release; simp; omega, fun i => ?_⟩
      unfold bump
      by_cases hi : i = o
      · subst hi; simp; omega
      · rw [if_neg hi]
        have h2 : (some o == some i) = false := by simpa using fun h => hi h.symm
        have h3 := hc i
        rw [h3]; simp [List.count_cons, h2]

theorem count_set {xs : List Ref} {i : Nat} (hi : i < xs.length) (r : Ref) (x : Ref) :
    (xs.set i r).count x + [xs[i]].count x = xs.count x + [r].count x := by
  induction xs generalizing i with
  | nil => cases hi
  | cons y ys ih =>
      cases i with
      | zero => simp [List.count_cons]; omega
      | succ i =>
          have := ih (by simpa using hi)
          simp only [List.set_cons_succ, List.count_cons, List.getElem_cons_succ, List.count_nil] at this ⊢
          omega

theorem splice_set {xs : List Ref} {i : Nat} (hi : i < xs.length) (o : Ref) (os : List Ref) :
    Spec.splice (xs.set i o) (i + 1) os.length os = Spec.splice xs i (os.length + 1) (o :: os) := by
  unfold Spec.splice
  rw [List.drop_set_of_lt (by omega), List.take_set, List.take_add_one]
  have hlen : i = (xs.take i).length := by simp; omega
  have : (xs.take i ++ xs[i]?.toList).set i o = xs.take i ++ [o] := by
    rw [List.set_append_right _ _ (by simp; omega)]
    have : i - (xs.take i).length = 0 := by simp; omega
    rw [this, List.getElem?_eq_getElem hi]
    simp
  rw [this, show i + 1 + os.length = i + (os.length + 1) by omega]
  simp

theorem overlap_ok {ext : Nat → Nat} : ∀ (os : List Ref) (i : Nat) (h : Heap) {a : GArray Ref} {xs : List Ref}, Rep a xs → i + os.length ≤ xs.length →
    (∀ o, h o = xs.count (some o) + ext o) → ((∀ o, some o ∈ os → 0 < ext o) ∨ (os.length ≤ 1 ∧ ∀ o, some o ∈ os → 0 < h o)) →
    ∃ h' a', overlapLoop os i h a = some (h', a') ∧ Rep a' (Spec.splice xs i os.length os) ∧
      ∀ o, h' o = (Spec.splice xs i os.length os).count (some o) + ext o
  | [], i, h, a, xs, hr, _, hc, _ => by
      refine ⟨h, a, rfl, ?_, ?_⟩ <;> simpa [Spec.splice] using (by assumption)
  | o :: os, i, h, a, xs, hr, hle, hc, hv => by
      have hi : i < xs.length := by simp at hle; omega
      have halive : Alive h o := by
        rintro j rfl
        rcases hv with hv | hv
        · have := hv j (by simp); have := hc j; omega
        · exact hv.2 j (by simp)
      obtain ⟨h1, e1, c1⟩ := retain_ok halive
      have hcount := fun x => count_set hi o x
      obtain ⟨h2, e2, c2⟩ := release_ok (h := h1) (o := xs[i]) (e := fun j => (xs.set i o).count (some j) + ext j) (fun j => by
        rw [c1, hc]; have := hcount (some j); omega)
      obtain ⟨a1, e3, hr1⟩ := store_rep hr hi o
      obtain ⟨h3, a2, e4, hr2, c3⟩ := overlap_ok (ext := ext) os (i + 1) h2 hr1 (by simp at hle ⊢; omega) c2 (by
        rcases hv with hv | hv
        · exact Or.inl fun o ho => hv o (by simp [ho])
        · have : os = [] := by
            have := hv.1; simp at this; exact this
          subst this
          exact Or.inl fun o ho => (nomatch ho))
      rw [splice_set hi] at hr2 c3
      refine ⟨h3, a2, ?_, hr2, c3⟩
      unfold overlapLoop
      rw [e1, Option.bind_some, deref_rep hr hi, Option.bind_some, e2, Option.bind_some, e3, Option.bind_some, e4]

theorem retainAll_ok : ∀ (os : List Ref) (h : Heap), (∀ o, some o ∈ os → 0 < h o) →
    ∃ h', retainAll os h = some h' ∧ ∀ o, h' o = h o + os.count (some o)
  | [], h, _ => ⟨h, rfl, fun _ => by simp⟩
  | o :: os, h, hv => by
      obtain ⟨h1, e1, c1⟩ := retain_ok (h := h) (o := o) (by rintro i rfl; exact hv i (by simp))
      obtain ⟨h2, e2, c2⟩ := retainAll_ok os h1 (fun j hj => by rw [c1]; have := hv j (by simp [hj]); omega)
      refine ⟨h2, by unfold retainAll; rw [e1, Option.bind_some, e2], fun j => ?_⟩
      rw [c2, c1, List.count_cons, List.count_cons]; simp; omega

theorem take_drop_succ {xs : List Ref} {i n : Nat} (hi : i < xs.length) : (xs.drop i).take (n + 1) = xs[i] :: (xs.drop (i + 1)).take n := by
  rw [List.drop_eq_getElem_cons hi, List.take_succ_cons]

theorem releaseRange_ok {a : GArray Ref} {xs : List Ref} (hr : Rep a xs) {e : Nat → Nat} : ∀ (n i : Nat) (h : Heap), i + n ≤ xs.length →
    (∀ o, h o = ((xs.drop i).take n).count (some o) + e o) → ∃ h', releaseRange a n i h = some h' ∧ ∀ o, h' o = e o
  | 0, i, h, _, hc => ⟨h, rfl, fun o => by simpa using hc o⟩
  | n + 1, i, h, hle, hc => by
      have hi : i < xs.length := by omega
      obtain ⟨h1, e1, c1⟩ := release_ok (h := h) (o := xs[i]) (e := fun o => ((xs.drop (i + 1)).take n).count (some o) + e o) (fun o => by
        rw [hc, take_drop_succ hi, List.count_cons, List.count_cons]; simp; omega)
      obtain ⟨h2, e2, c2⟩ := releaseRange_ok hr n (i + 1) h1 (by omega) c1
      refine ⟨h2, ?_, c2⟩
      unfold releaseRange
      rw [deref_rep hr hi, Option.bind_some, e1, Option.bind_some, e2]

theorem releaseRaw_ok {a : GArray Ref} {xs : List Ref} (hr : Rep a xs) {e : Nat → Nat} : ∀ (n i : Nat) (h : Heap), i + n ≤ xs.length →
    (∀ o, h o = ((xs.drop i).take n).count (some o) + e o) → ∃ h', releaseRaw a n i h = some h' ∧ ∀ o, h' o = e o
  | 0, i, h, _, hc => ⟨h, rfl, fun o => by simpa using hc o⟩
  | n + 1, i, h, hle, hc => by
      have hi : i < xs.length := by omega
      obtain ⟨h1, e1, c1⟩ := release_ok (h := h) (o := xs[i]) (e := fun o => ((xs.drop (i + 1)).take n).count (some o) + e o) (fun o => by
        rw [hc, take_drop_succ hi, List.count_cons, List.count_cons]; simp; omega)
      obtain ⟨h2, e2, c2⟩ := releaseRaw_ok hr n (i + 1) h1 (by omega) c1
      refine ⟨h2, ?_, c2⟩
      unfold releaseRaw
      rw [rawGet_rep hr hi, Option.bind_some, e1, Option.bind_some, e2]

/-- The counts of a list and of a splice of it. -/
theorem count_splice (xs : List Ref) (loc len : Nat) (ys : List Ref) (x : Ref) :
    (Spec.splice xs loc len ys).count x + ((xs.drop loc).take len).count x = xs.count x + ys.count x := by
  unfold Spec.splice
  have : xs = xs.take loc ++ ((xs.drop loc).take len ++ xs.drop (loc + len)) := by
    rw [← List.drop_drop, List.take_append_drop, List.take_append_drop]
  conv => rhs; rw [this]
  simp only [List.count_append]
  omega

theorem splice_length (xs : List Ref) {loc len : Nat} (h : loc + len ≤ xs.length) (ys : List Ref) :
    (Spec.splice xs loc len ys).length = xs.length - len + ys.length := by
  unfold Spec.splice; simp; omega

theorem inRange_iff {loc len : Int} {n : Nat} : inRange loc len n = true ↔ 0 ≤ loc ∧ 0 ≤ len ∧ loc + len ≤ n := by
  unfold inRange; simp [and_assoc]

theorem value_ext (ys : List Ref) : GArray.Src.value none ys.length (.ext ys) = some ys := by
  unfold GArray.Src.value; simp

theorem splice_splice {xs os : List Ref} {loc n : Nat} (h : loc + n ≤ xs.length) (ho : os.length = n) (len : Nat) (ys : List Ref) :
    Spec.splice (Spec.splice xs loc n os) (loc + n) len ys = Spec.splice xs loc (n + len) (os ++ ys) := by
  unfold Spec.splice
  have h1 : (xs.take loc).length = loc := by simp; omega
  have h2 : (xs.take loc ++ os ++ xs.drop (loc + n)).take (loc + n) = xs.take loc ++ os := by
    rw [List.take_append_of_le_length (by simp [ho]; omega)]
    apply List.take_of_length_le; simp [ho]; omega
  have h3 : (xs.take loc ++ os ++ xs.drop (loc + n)).drop (loc + n + len) = xs.drop (loc + (n + len)) := by
    rw [List.drop_append]
    have : (xs.take loc ++ os).length = loc + n := by simp [ho]; omega
    rw [this, List.drop_of_length_le (by omega), List.drop_drop]
    simp only [List.nil_append]; congr 1; omega
  rw [h2, h3]; simp

theorem replaceCArray_ok {ext : Nat → Nat} {h : Heap} {a : GArray Ref} {xs : List Ref} (hr : Rep a xs) (hc : ∀ o, h o = xs.count (some o) + ext o)
    (loc len : Int) (hf : ¬ (0 ≤ loc ∧ 0 ≤ len ∧ loc + len ≤ xs.length) → loc + len < 2 ^ 63) (objects : List Ref)
    (hv : (∀ o, some o ∈ objects → 0 < ext o) ∨ (objects.length ≤ 1 ∧ ∀ o, some o ∈ objects → 0 < h o)) :
    ∃ h' a', replaceCArray h a loc len objects = some (h', a') ∧ Rep a' (replaced xs loc len objects) ∧
      ∀ o, h' o = (replaced xs loc len objects).count (some o) + ext o := by
  unfold replaceCArray replaced
  by_cases hin : 0 ≤ loc ∧ 0 ≤ len ∧ loc + len ≤ xs.length
  · rw [if_pos (by rw [inRange_iff, hr.1]; exact hin), if_pos hin]
    obtain ⟨l, rfl⟩ := Int.eq_ofNat_of_zero_le hin.1
    obtain ⟨n, rfl⟩ := Int.eq_ofNat_of_zero_le hin.2.1
    have hle : l + n ≤ xs.length := by have := hin.2.2; omega
    simp only [Int.toNat_natCast]
    have hvt : (∀ o, some o ∈ objects.take n → 0 < ext o) ∨ ((objects.take n).length ≤ 1 ∧ ∀ o, some o ∈ objects.take n → 0 < h o) := by
      rcases hv with hv | hv
      · exact Or.inl fun o ho => hv o (List.mem_of_mem_take ho)
      · exact Or.inr ⟨by simp; omega, fun o ho => hv.2 o (List.mem_of_mem_take ho)⟩
    obtain ⟨h1, a1, e1, hr1, c1⟩ := overlap_ok (ext := ext) (objects.take n) l h hr (by simp; omega) hc hvt
    rw [e1, Option.bind_some]
    unfold replaceRest
    split
    · next hlt =>
      have hlen : (objects.take n).length = n := by simp; omega
      rw [hlen] at hr1 c1
      have hv1 : ∀ o, some o ∈ objects.drop n → 0 < h1 o := by
        intro o ho
        rcases hv with hv | hv
        · have := hv o (List.mem_of_mem_drop ho); rw [c1]; omega
        · have hn0 : n = 0 := by omega
          subst hn0
          have := hv.2 o (List.mem_of_mem_drop ho)
          rw [c1]
          rw [hc] at this
          simpa [Spec.splice] using this
      obtain ⟨h2, e2, c2⟩ := retainAll_ok (objects.drop n) h1 hv1
      rw [e2, Option.bind_some]
      have hval : GArray.Src.value none (objects.length - n) (.ext (objects.drop n)) = some (objects.drop n) := by
        have := value_ext (objects.drop n); rw [List.length_drop] at this; exact this
      obtain ⟨a2, e3, hr2⟩ := GArray.replace_rep none hr1 (loc := l + n) (len := 0) (by rw [splice_length _ hle]; omega) hval
      rw [e3]
      rw [splice_splice hle hlen, List.take_append_drop, Nat.add_zero] at hr2
      refine ⟨h2, a2, rfl, hr2, fun o => ?_⟩
      rw [c2, c1]
      have s1 := count_splice xs l n (objects.take n) (some o)
      have s2 := count_splice xs l n objects (some o)
      have s3 : objects.count (some o) = (objects.take n).count (some o) + (objects.drop n).count (some o) := by
        rw [← List.count_append, List.take_append_drop]
      omega
    · next hge =>
      have ht : objects.take n = objects := List.take_of_length_le (by omega)
      rw [ht] at hr1 c1
      split
      · next hgt =>
        have hdrop : (Spec.splice xs l objects.length objects).drop (l + objects.length) = xs.drop (l + objects.length) := by
          unfold Spec.splice
          rw [List.drop_append, List.drop_of_length_le (by simp; omega)]
          simp only [List.nil_append]
          have : l + objects.length - (xs.take l ++ objects).length = 0 := by simp; omega
          simp only [this, List.drop_zero]
        have htot : ∀ x, (Spec.splice xs l n objects).count x + ((xs.drop (l + objects.length)).take (n - objects.length)).count x =
            (Spec.splice xs l objects.length objects).count x := by
          intro x
          have s1 := count_splice xs l n objects x
          have s2 := count_splice xs l objects.length objects x
          have s3 : ((xs.drop l).take n).count x = ((xs.drop l).take objects.length).count x + ((xs.drop (l + objects.length)).take (n - objects.length)).count x := by
            rw [← List.drop_drop, ← List.count_append, ← List.take_add]
            congr 2; omega
          omega
        obtain ⟨h2, e2, c2⟩ := releaseRange_ok hr1 (e := fun o => (Spec.splice xs l n objects).count (some o) + ext o) (n - objects.length) (l + objects.length) h1
          (by rw [splice_length _ (by omega)]; omega) (fun o => by rw [c1, hdrop]; have := htot (some o); omega)
        rw [e2, Option.bind_some]
        obtain ⟨a2, e3, hr2⟩ := GArray.replace_rep none hr1 (loc := l + objects.length) (len := n - objects.length) (n := 0) (src := .null) (ys := [])
          (by rw [splice_length _ (by omega)]; omega) rfl
        rw [e3]
        rw [splice_splice (by omega) rfl, List.append_nil, show objects.length + (n - objects.length) = n by omega] at hr2
        exact ⟨h2, a2, rfl, hr2, c2⟩
      · next hle2 =>
        have : objects.length = n := by omega
        rw [this] at hr1 c1
        exact ⟨h1, a1, rfl, hr1, c1⟩
  · have hf' := hf hin
    rw [if_neg (by rw [inRange_iff, hr.1]; exact hin), if_neg (by unfold rangeOverflows; omega), if_neg hin]
    exact ⟨h, a, rfl, hr, hc⟩

theorem fill_ok {e : Nat → Nat} : ∀ (os : List Ref) (i : Nat) (h : Heap) {a : GArray Ref} {xs : List Ref}, Rep a xs → i + os.length ≤ xs.length →
    (∀ o, h o = e o) → (∀ o, some o ∈ os → 0 < e o) →
    ∃ h' a', fill os i h a = some (h', a') ∧ Rep a' (Spec.splice xs i os.length os) ∧ ∀ o, h' o = e o + os.count (some o)
  | [], i, h, a, xs, hr, _, hc, _ => by
      refine ⟨h, a, rfl, ?_, ?_⟩
      · simpa [Spec.splice] using hr
      · simpa using hc
  | o :: os, i, h, a, xs, hr, hle, hc, hv => by
      have hi : i < xs.length := by simp at hle; omega
      obtain ⟨h1, e1, c1⟩ := retain_ok (h := h) (o := o) (by rintro j rfl; rw [hc]; exact hv j (by simp))
      obtain ⟨a1, e3, hr1⟩ := rawSet_rep hr hi o
      obtain ⟨h3, a2, e4, hr2, c3⟩ := fill_ok (e := fun j => e j + [o].count (some j)) os (i + 1) h1 hr1 (by simp at hle ⊢; omega)
        (fun j => by rw [c1, hc]) (fun j hj => by have := hv j (by simp [hj]); omega)
      rw [splice_set hi] at hr2
      refine ⟨h3, a2, ?_, hr2, fun j => ?_⟩
      · unfold fill
        rw [e1, Option.bind_some, e3, Option.bind_some, e4]
      · rw [c3, List.count_cons, List.count_cons]; simp; omega

theorem replaceOther_ok {ext : Nat → Nat} {h : Heap} {a : GArray Ref} {xs : List Ref} (hr : Rep a xs) (hc : ∀ o, h o = xs.count (some o) + ext o)
    (loc len : Int) (hf : ¬ (0 ≤ loc ∧ 0 ≤ len ∧ loc + len ≤ xs.length) → loc + len < 2 ^ 63) (ys : List Ref) (hv : ∀ o, some o ∈ ys → 0 < ext o) :
    ∃ h' a', replaceCollection h a loc len (.other ys) = some (h', a') ∧ Rep a' (replaced xs loc len ys) ∧
      ∀ o, h' o = (replaced xs loc len ys).count (some o) + ext o := by
  unfold replaceCollection replaced
  by_cases hin : 0 ≤ loc ∧ 0 ≤ len ∧ loc + len ≤ xs.length
  · simp only
    rw [if_pos (by rw [inRange_iff, hr.1]; exact hin), if_pos hin]
    obtain ⟨l, rfl⟩ := Int.eq_ofNat_of_zero_le hin.1
    obtain ⟨n, rfl⟩ := Int.eq_ofNat_of_zero_le hin.2.1
    have hle : l + n ≤ xs.length := by have := hin.2.2; omega
    simp only [Int.toNat_natCast]
    have hnull : ∀ o, (List.replicate ys.length (none : Ref)).count (some o) = 0 := fun o => by
      rw [List.count_eq_zero]; intro hm; have := List.eq_of_mem_replicate hm; cases this
    obtain ⟨h1, e1, c1⟩ := releaseRaw_ok hr (e := fun o => (Spec.splice xs l n []).count (some o) + ext o) n l h (by omega) (fun o => by
      rw [hc]; have := count_splice xs l n [] (some o); simp at this ⊢; omega)
    rw [e1, Option.bind_some]
    obtain ⟨a1, e2, hr1⟩ := GArray.replace_rep none hr (loc := l) (len := n) (n := ys.length) (src := .null) (ys := List.replicate ys.length none) hle rfl
    rw [e2, Option.bind_some]
    obtain ⟨h2, a2, e3, hr2, c2⟩ := fill_ok ys l h1 hr1 (by rw [splice_length _ hle]; simp; omega) c1 (fun o ho => by have := hv o ho; omega)
    have hs : Spec.splice (Spec.splice xs l n (List.replicate ys.length none)) l ys.length ys = Spec.splice xs l n ys := by
      unfold Spec.splice
      have h1 : (xs.take l).length = l := by simp; omega
      have h2 : (xs.take l ++ List.replicate ys.length none ++ xs.drop (l + n)).take l = xs.take l := by
        rw [List.append_assoc, List.take_append_of_le_length (by omega), List.take_of_length_le (by omega)]
      have h3 : (xs.take l ++ List.replicate ys.length none ++ xs.drop (l + n)).drop (l + ys.length) = xs.drop (l + n) := by
        rw [List.drop_append, List.drop_of_length_le (by simp; omega)]
        have : l + ys.length - (xs.take l ++ List.replicate ys.length none).length = 0 := by simp; omega
        simp only [this, List.drop_zero, List.nil_append]
      rw [h2, h3]
    rw [hs] at hr2
    refine ⟨h2, a2, e3, hr2, fun o => ?_⟩
    rw [c2]
    have s1 := count_splice xs l n [] (some o)
    have s2 := count_splice xs l n ys (some o)
    simp at s1
    omega
  · simp only
    have hf' := hf hin
    rw [if_neg (by rw [inRange_iff, hr.1]; exact hin), if_neg (by unfold rangeOverflows; omega), if_neg hin]
    exact ⟨h, a, rfl, hr, hc⟩

theorem finalize_ok {ext : Nat → Nat} {h : Heap} {a : GArray Ref} {xs : List Ref} (hr : Rep a xs) (hc : ∀ o, h o = xs.count (some o) + ext o) :
    ∃ h' a', finalize h a = some (h', a') ∧ Rep a' [] ∧ ∀ o, h' o = ext o := by
  obtain ⟨h1, e1, c1⟩ := releaseRaw_ok hr (e := ext) a.length 0 h (by rw [hr.1]; omega) (fun o => by
    rw [hc, hr.1]; simp)
  refine ⟨h1, a.finalize, ?_, ?_, c1⟩
  · unfold finalize; rw [e1]; rfl
  · exact GArray.Rep_init

/-- The state agrees with the client's view. -/
def Agrees (s : Heap × GArray Ref) (v : View) : Prop := Rep s.2 v.xs ∧ ∀ o, s.1 o = refs v o

theorem owned_mem {ext : Nat → Nat} {os : List Ref} (h : os.all (owned ext) = true) : ∀ o, some o ∈ os → 0 < ext o := by
  intro o ho
  have := List.all_eq_true.mp h _ ho
  simpa [owned] using this

theorem step_ok {s : Heap × GArray Ref} {v v' : View} (ha : Agrees s v) (op : Op) (hs : specStep v op = some v') :
    ∃ s', step s op = some s' ∧ Agrees s' v' := by
  obtain ⟨hr, hc⟩ := ha
  cases op with
  | create o =>
      simp only [specStep] at hs
      split at hs
      · next h0 =>
        cases hs
        refine ⟨(bump s.1 o 1, s.2), by simp [step, hc o, h0], hr, fun i => ?_⟩
        have := hc i
        unfold refs bump at *
        by_cases hi : i = o
        · subst hi; simp; omega
        · simp [hi, this]
      · cases hs
  | retain o =>
      simp only [specStep] at hs
      split at hs
      · next h0 =>
        cases hs
        have h1 := hc o
        refine ⟨(bump s.1 o (s.1 o + 1), s.2), ?_, hr, fun i => ?_⟩
        · have : s.1 o ≠ 0 := by omega
          simp [step, Arr.retain, this]
        · have := hc i
          unfold refs bump at *
          by_cases hi : i = o
          · subst hi; simp; omega
          · simp [hi, this]
      · cases hs
  | release o =>
      simp only [specStep] at hs
      split at hs
      · next h0 =>
        cases hs
        have h1 := hc o
        refine ⟨(bump s.1 o (s.1 o - 1), s.2), ?_, hr, fun i => ?_⟩
        · have : s.1 o ≠ 0 := by unfold refs at h1; omega
          simp [step, Arr.release, this]
        · have := hc i
          unfold refs bump at *
          by_cases hi : i = o
          · subst hi; simp; omega
          · simp [hi, this]
      · cases hs
  | replace loc len objects =>
      simp only [specStep] at hs
      split at hs
      · next hv =>
        obtain ⟨hv, hf⟩ := hv
        cases hs
        obtain ⟨h', a', h1, h2, h3⟩ := replaceCArray_ok hr (ext := v.ext) hc loc len (fun _ => hf) objects (by
          unfold validArgs at hv
          rw [Bool.or_eq_true, Bool.and_eq_true, decide_eq_true_eq] at hv
          rcases hv with hv | ⟨hv, hl⟩
          · exact Or.inl (owned_mem hv)
          · refine Or.inr ⟨hv, fun o ho => ?_⟩
            have := List.all_eq_true.mp hl _ ho
            rw [hc]
            simpa [live] using this)
        exact ⟨(h', a'), h1, h2, h3⟩
      · cases hs
  | replaceColl loc len src =>
      cases src with
      | none =>
          simp only [specStep] at hs
          split at hs
          · next hf =>
            cases hs
            obtain ⟨h', a', h1, h2, h3⟩ := replaceCArray_ok hr (ext := v.ext) hc loc len (fun _ => hf) [] (Or.inl fun o ho => (nomatch ho))
            exact ⟨(h', a'), h1, h2, h3⟩
          · cases hs
      | some ys =>
          simp only [specStep] at hs
          split at hs
          · next hv =>
            cases hs
            obtain ⟨h', a', h1, h2, h3⟩ := replaceOther_ok hr (ext := v.ext) hc loc len (fun _ => hv.2) ys (owned_mem hv.1)
            exact ⟨(h', a'), h1, h2, h3⟩
          · cases hs
  | destroy =>
      cases hs
      obtain ⟨h', a', h1, h2, h3⟩ := finalize_ok hr (ext := v.ext) hc
      exact ⟨(h', a'), h1, h2, fun o => by show h' o = _; rw [h3]; simp [refs]⟩

theorem steps_ok : ∀ (ops : List Op) {s : Heap × GArray Ref} {v v' : View}, Agrees s v → ops.foldlM specStep v = some v' →
    ∃ s', ops.foldlM step s = some s' ∧ Agrees s' v'
  | [], s, v, v', ha, h => by cases h; exact ⟨s, rfl, ha⟩
  | op :: ops, s, v, v', ha, h => by
      rw [List.foldlM_cons] at h
      cases h1 : specStep v op with
      | none => rw [h1] at h; cases h
      | some v1 =>
          rw [h1] at h
          obtain ⟨s1, e1, a1⟩ := step_ok ha op h1
          obtain ⟨s2, e2, a2⟩ := steps_ok ops a1 h
          refine ⟨s2, ?_, a2⟩
          rw [List.foldlM_cons, e1]
          exact e2

theorem run_ok {ops : List Op} {v : View} (h : specRun ops = some v) : ∃ s, run ops = some s ∧ Agrees s v :=
  steps_ok ops ⟨GArray.Rep_init, fun o => by simp [refs]⟩ h

/-! ### Lists -/

theorem at'_lt {xs : List Ref} {i : Nat} (hi : i < xs.length) : at' xs i = xs[i] := by
  unfold at'; rw [List.getElem?_eq_getElem hi]; rfl

variable {eqv : Nat → Nat → Bool}

theorem countLoop_ok (xs : List Ref) (o : Ref) : ∀ (n i c : Nat), i + n = xs.length →
    countLoop eqv (at' xs) o n i c = c + (xs.drop i).countP (eqRef eqv o)
  | 0, i, c, h => by rw [List.drop_of_length_le (by omega)]; simp [countLoop]
  | n + 1, i, c, h => by
      have hi : i < xs.length := by omega
      unfold countLoop
      rw [countLoop_ok xs o n (i + 1) _ (by omega), List.drop_eq_getElem_cons hi, List.countP_cons, at'_lt hi]
      split <;> omega

theorem firstLoop_ok (xs : List Ref) (o : Ref) : ∀ (n i : Nat), i + n = xs.length → (∀ j (hj : j < xs.length), j < i → eqRef eqv o xs[j] = false) →
    (firstLoop eqv (at' xs) o n i = -1 ∧ ∀ x ∈ xs, eqRef eqv o x = false) ∨
    ∃ k : Nat, ∃ hk : k < xs.length, firstLoop eqv (at' xs) o n i = k ∧ eqRef eqv o xs[k] = true ∧ ∀ j (hj : j < xs.length), j < k → eqRef eqv o xs[j] = false
  | 0, i, h, hb => by
      left
      refine ⟨rfl, fun x hx => ?_⟩
      obtain ⟨j, hj, rfl⟩ := List.getElem_of_mem hx
      exact hb j hj (by omega)
  | n + 1, i, h, hb => by
      have hi : i < xs.length := by omega
      unfold firstLoop
      rw [at'_lt hi]
      split
      · next he => exact Or.inr ⟨i, hi, rfl, he, hb⟩
      · next he =>
        refine firstLoop_ok xs o n (i + 1) (by omega) fun j hj hlt => ?_
        by_cases hji : j = i
        · subst hji; simpa using he
        · exact hb j hj (by omega)

theorem lastLoop_ok (xs : List Ref) (o : Ref) : ∀ (n : Nat), n ≤ xs.length → (∀ j (hj : j < xs.length), n ≤ j → eqRef eqv o xs[j] = false) →
    (lastLoop eqv (at' xs) o n = -1 ∧ ∀ x ∈ xs, eqRef eqv o x = false) ∨
    ∃ k : Nat, ∃ hk : k < xs.length, lastLoop eqv (at' xs) o n = k ∧ eqRef eqv o xs[k] = true ∧ ∀ j (hj : j < xs.length), k < j → eqRef eqv o xs[j] = false
  | 0, h, hb => by
      left
      refine ⟨rfl, fun x hx => ?_⟩
      obtain ⟨j, hj, rfl⟩ := List.getElem_of_mem hx
      exact hb j hj (by omega)
  | n + 1, h, hb => by
      have hi : n < xs.length := by omega
      unfold lastLoop
      rw [at'_lt hi]
      split
      · next he => exact Or.inr ⟨n, hi, rfl, he, fun j hj hlt => hb j hj (by omega)⟩
      · next he =>
        refine lastLoop_ok xs o n (by omega) fun j hj hle => ?_
        by_cases hjn : j = n
        · subst hjn; simpa using he
        · exact hb j hj (by omega)

theorem equalLoop_ok (xs ys : List Ref) (hl : ys.length = xs.length) : ∀ (n i : Nat), i + n = xs.length →
    (equalLoop eqv (at' xs) (at' ys) n i = true ↔ ∀ j (hj : j < xs.length), i ≤ j → eqRef eqv xs[j] (ys[j]'(by omega)) = true)
  | 0, i, h => by
      simp only [equalLoop, true_iff]
      intro j hj hle; omega
  | n + 1, i, h => by
      have hi : i < xs.length := by omega
      have ih := equalLoop_ok xs ys hl n (i + 1) (by omega)
      unfold equalLoop
      rw [at'_lt hi, at'_lt (xs := ys) (by omega)]
      cases he : eqRef eqv xs[i] (ys[i]'(by omega)) with
      | false =>
          simp only [Bool.not_false, if_true, Bool.false_eq_true, false_iff]
          intro hall
          have := hall i hi (Nat.le_refl _)
          rw [he] at this; cases this
      | true =>
          simp only [Bool.not_true, Bool.false_eq_true, if_false]
          rw [ih]
          constructor
          · intro hall j hj hle
            by_cases hji : j = i
            · subst hji; exact he
            · exact hall j hj (by omega)
          · intro hall j hj hle
            exact hall j hj (by omega)

theorem compareLoop_ok (cmp : Ref → Ref → Int) (xs ys : List Ref) (hl : ys.length = xs.length) : ∀ (n i : Nat), i + n = xs.length →
    lex cmp (xs.drop i) (ys.drop i) = (compareLoop (at' xs) cmp (at' ys) n i).getD 0
  | 0, i, h => by
      rw [List.drop_of_length_le (by omega)]
      simp [lex, compareLoop]
  | n + 1, i, h => by
      have hi : i < xs.length := by omega
      have hi2 : i < ys.length := by omega
      have ih := compareLoop_ok cmp xs ys hl n (i + 1) (by omega)
      unfold compareLoop
      rw [at'_lt hi, at'_lt hi2, List.drop_eq_getElem_cons hi, List.drop_eq_getElem_cons hi2]
      unfold lex
      by_cases hc : cmp xs[i] ys[i] = 0
      · rw [if_pos hc, if_neg (by simpa using hc)]
        exact ih
      · rw [if_neg hc, if_pos hc]
        rfl

theorem dkEqual_ok {h : Heap} {a b : Ref} (ha : Alive h a) (hb : Alive h b) : dkEqual eqv h a b = some (eqRef eqv a b) := by
  cases a with
  | none => cases b <;> rfl
  | some a =>
      cases b with
      | none => rfl
      | some b =>
          have h1 := ha a rfl
          have h2 := hb b rfl
          unfold dkEqual eqRef
          by_cases hab : a = b
          · simp [hab]
          · have : ¬ (h a = 0 ∨ h b = 0) := by omega
            simp [hab, this]

theorem removeLoop_ok {ext : Nat → Nat} {o : Ref} (ho : ∀ i, o = some i → 0 < ext i) : ∀ (n i : Nat) (h : Heap) {a : GArray Ref} {xs : List Ref},
    Rep a xs → (∀ o, h o = xs.count (some o) + ext o) → i + n = xs.length →
    ∃ h' a', removeLoop eqv o n i h a = some (h', a') ∧ Rep a' (xs.take i ++ (xs.drop i).filter fun x => !eqRef eqv o x) ∧
      ∀ j, h' j = (xs.take i ++ (xs.drop i).filter fun x => !eqRef eqv o x).count (some j) + ext j
  | 0, i, h, a, xs, hr, hc, hn => by
      have : (xs.take i ++ (xs.drop i).filter fun x => !eqRef eqv o x) = xs := by
        rw [List.drop_of_length_le (by omega), List.take_of_length_le (by omega)]; simp
      rw [this]
      exact ⟨h, a, rfl, hr, hc⟩
  | n + 1, i, h, a, xs, hr, hc, hn => by
      have hi : i < xs.length := by omega
      have hget : getObjectAtIndex a (i : Nat) = some xs[i] := by
        unfold getObjectAtIndex
        rw [if_pos (by rw [hr.1]; omega), Int.toNat_natCast, rawGet_rep hr hi]
      have heq : dkEqual eqv h o xs[i] = some (eqRef eqv o xs[i]) := dkEqual_ok
        (fun j hj => by rw [hc]; have := ho j hj; omega)
        (fun j hj => by
          rw [hc]
          have : 0 < xs.count (some j) := List.count_pos_iff.mpr (by rw [← hj]; exact List.getElem_mem hi)
          omega)
      unfold removeLoop
      rw [hget, Option.bind_some, heq, Option.bind_some]
      cases he : eqRef eqv o xs[i] with
      | true =>
          simp only [if_true]
          obtain ⟨h1, a1, e1, hr1, c1⟩ := replaceCArray_ok hr hc (i : Nat) 1 (fun h => absurd ⟨by omega, by omega, by omega⟩ h) [] (Or.inl fun o ho => (nomatch ho))
          have hrep : replaced xs (i : Nat) 1 [] = xs.take i ++ xs.drop (i + 1) := by
            unfold replaced Spec.splice
            rw [if_pos (by omega)]
            simp
          rw [hrep] at hr1 c1
          rw [e1, Option.bind_some]
          obtain ⟨h2, a2, e2, hr2, c2⟩ := removeLoop_ok ho n i h1 hr1 c1 (by simp; omega)
          have hl : (xs.take i).length = i := by simp; omega
          have : ((xs.take i ++ xs.drop (i + 1)).take i ++ ((xs.take i ++ xs.drop (i + 1)).drop i).filter fun x => !eqRef eqv o x) =
              xs.take i ++ (xs.drop i).filter fun x => !eqRef eqv o x := by
            rw [List.take_append_of_le_length (by omega), List.take_of_length_le (by omega), List.drop_append,
              List.drop_of_length_le (by omega), hl]
            simp only [Nat.sub_self, List.drop_zero, List.nil_append]
            rw [List.drop_eq_getElem_cons hi, List.filter_cons, he]
            simp
          rw [this] at hr2 c2
          exact ⟨h2, a2, e2, hr2, c2⟩
      | false =>
          simp only [Bool.false_eq_true, if_false]
          obtain ⟨h2, a2, e2, hr2, c2⟩ := removeLoop_ok ho n (i + 1) h hr hc (by omega)
          have : (xs.take (i + 1) ++ (xs.drop (i + 1)).filter fun x => !eqRef eqv o x) = xs.take i ++ (xs.drop i).filter fun x => !eqRef eqv o x := by
            rw [List.take_add_one, List.getElem?_eq_getElem hi, List.drop_eq_getElem_cons hi, List.filter_cons, he, List.append_assoc]
            rfl
          rw [this] at hr2 c2
          exact ⟨h2, a2, e2, hr2, c2⟩

end Arr
end Duck
