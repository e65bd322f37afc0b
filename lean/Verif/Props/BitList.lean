import Verif.Lemmas.BitList
/-! Properties of bit lists (C14). -/
namespace Duck
namespace BitList

/-- C14, single bits: for every length, initial value and history of in-range calls, the list is the set of indexes the
    calls describe; in particular setting, clearing or flipping one index changes only that index. -/
theorem C14_bits (n : Nat) (v : Bool) (ops : List Op) (ho : ∀ op ∈ ops, op.InRange n) :
    ∃ l, run (init n v) ops = some (l, (specRun (fun _ => v) ops).2) ∧ length l = n ∧
      ∀ i < n, testBit l i = some ((specRun (fun _ => v) ops).1 i) := by
  obtain ⟨l, r, h⟩ := run_spec (intsOf_room n) ops (init_holds n v) ho
  exact ⟨l, r, h.numBits, fun i hi => testBit_spec h (Nat.lt_of_lt_of_le hi (intsOf_room n))⟩

/-- C14, searches (partial): the least set (clear) index is found whenever there is one below the length.  Missing: the
    answer DKNotFound when there is none; see `C14_first_clear_fails`. -/
theorem C14_first_partial (n : Nat) (v : Bool) (ops : List Op) (ho : ∀ op ∈ ops, op.InRange n) :
    ∃ l, run (init n v) ops = some (l, (specRun (fun _ => v) ops).2) ∧
      (∀ k, IsLeast (specRun (fun _ => v) ops).1 n true k → firstSet l = some k) ∧
      (∀ k, IsLeast (specRun (fun _ => v) ops).1 n false k → firstClear l = some k) := by
  obtain ⟨l, r, h⟩ := run_spec (intsOf_room n) ops (init_holds n v) ho
  have hw := window_ge n
  have uniq : ∀ (f : Nat → Bool) b k k', IsLeast f n b k → IsLeast f (window n) b k' → k = k' := by
    intro f b k k' h1 h2
    rcases Nat.lt_trichotomy k k' with hlt | he | hlt
    · exact absurd h1.2.1 (h2.2.2 k hlt)
    · exact he
    · exact absurd h2.2.1 (h1.2.2 k' hlt)
  refine ⟨l, r, ?_, ?_⟩
  · intro k hk
    rcases firstSet_spec h with ⟨k', h1, h2⟩ | ⟨h1, _⟩
    · rw [h2, uniq _ _ _ _ hk h1]
    · exact absurd hk.2.1 (h1 k (Nat.lt_of_lt_of_le hk.1 hw))
  · intro k hk
    rcases firstClear_spec h with ⟨k', h1, h2⟩ | ⟨h1, _⟩
    · rw [h2, uniq _ _ _ _ hk h1]
    · exact absurd hk.2.1 (h1 k (Nat.lt_of_lt_of_le hk.1 hw))

/-- C14, set counts (partial): on a list created clear and never wholly set or flipped, the count of set bits is the
    number of set indexes below the length, and DKNotFound is reported exactly when there is none.  Missing: lists with
    an all-bits set or flip in their history (`C14_count_set_fails`) and counts of clear bits (`C14_count_clear_fails`). -/
theorem C14_count_partial (n : Nat) (ops : List Op) (ho : ∀ op ∈ ops, op.InRange n) (hq : ∀ op ∈ ops, op.Quiet) :
    ∃ l, run (init n false) ops = some (l, (specRun (fun _ => false) ops).2) ∧
      countSet l = countBelow (specRun (fun _ => false) ops).1 n true ∧
      (firstSet l = none ↔ ∀ i < n, (specRun (fun _ => false) ops).1 i = false) := by
  obtain ⟨l, r, h⟩ := run_spec (intsOf_room n) ops (init_holds n false) ho
  have hw := window_ge n
  have hb := quiet_beyond (n := n) ops (f := fun _ => false) (fun _ _ => rfl) ho hq
  refine ⟨l, r, ?_, ?_⟩
  · rw [countSet_spec h, show window n = n + (window n - n) by omega, countBelow_add]
    rw [countBelow_none (f := fun i => (specRun (fun _ => false) ops).1 (n + i)) (fun i _ => by
      have := hb (n + i) (by omega)
      simp [this])]
    rfl
  · constructor
    · intro hf
      rcases firstSet_spec h with ⟨k, _, h2⟩ | ⟨h1, _⟩
      · rw [hf] at h2; cases h2
      · intro i hi
        have := h1 i (by omega)
        simpa using this
    · intro hall
      rcases firstSet_spec h with ⟨k, h1, _⟩ | ⟨_, h2⟩
      · exfalso
        by_cases hk : k < n
        · have := hall k hk; rw [h1.2.1] at this; cases this
        · have := hb k (by omega); rw [h1.2.1] at this; cases this
      · exact h2

/-- What the counts really are: the set (clear) bits of the first `32 * (words - 1) + length % 32` bits of storage, where
    the storage has a word per bit rather than a word per 32 bits. -/
theorem C14_count_exact (n : Nat) (v : Bool) (ops : List Op) (ho : ∀ op ∈ ops, op.InRange n) :
    ∃ l, run (init n v) ops = some (l, (specRun (fun _ => v) ops).2) ∧
      countSet l = countBelow (specRun (fun _ => v) ops).1 (window n) true ∧
      countClear l = countBelow (specRun (fun _ => v) ops).1 (window n) false := by
  obtain ⟨l, r, h⟩ := run_spec (intsOf_room n) ops (init_holds n v) ho
  exact ⟨l, r, countSet_spec h, countClear_spec h⟩

/-- The property fails: a list of any positive length created set counts more set bits than it has. -/
theorem C14_count_set_fails (n : Nat) (hn : 0 < n) : n < countSet (init n true) := by
  rw [countSet_spec (init_holds n true), countBelow_const]; exact window_gt hn

/-- The property fails: a list of any positive length created clear counts more clear bits than it has. -/
theorem C14_count_clear_fails (n : Nat) (hn : 0 < n) : n < countClear (init n false) := by
  rw [countClear_spec (init_holds n false), countBelow_const]; exact window_gt hn

/-- The property fails: when every bit of a positive length has been set one by one, the first clear bit reported is the
    length itself, not DKNotFound. -/
theorem C14_first_clear_fails (n : Nat) (hn : 0 < n) :
    ∃ l, run (init n false) ((List.range n).map .set) = some (l, List.replicate n none) ∧ firstClear l = some n := by
  have hspec : ∀ (ks : List Nat) (f : Nat → Bool), (specRun f (ks.map .set)).2 = List.replicate ks.length none ∧
      ∀ i, (specRun f (ks.map .set)).1 i = (decide (i ∈ ks) || f i) := by
    intro ks
    induction ks with
    | nil => intro f; exact ⟨rfl, fun i => by simp [specRun]⟩
    | cons k ks ih =>
      intro f
      have := ih (fun i => if i = k then true else f i)
      refine ⟨by simp only [List.map_cons, specRun, specStep, this.1]; rfl, ?_⟩
      intro i
      simp only [List.map_cons, specRun, specStep, this.2 i]
      by_cases hik : i = k
      · subst hik; simp
      · simp [hik]
  obtain ⟨l, r, h⟩ := run_spec (intsOf_room n) ((List.range n).map .set) (init_holds n false) (by
    intro op hop
    obtain ⟨k, hk, rfl⟩ := List.mem_map.mp hop
    simpa [Op.InRange] using hk)
  have h1 := hspec (List.range n) (fun _ => false)
  refine ⟨l, by rw [r, h1.1]; simp, ?_⟩
  have hval : ∀ i, (specRun (fun _ => false) ((List.range n).map .set)).1 i = decide (i < n) := by
    intro i; rw [h1.2 i]; simp
  rcases firstClear_spec h with ⟨k, k1, k2⟩ | ⟨k1, _⟩
  · rw [k2]
    have hk := k1.2.1
    rw [hval k] at hk
    simp at hk
    rcases Nat.lt_or_ge n k with hlt | hge
    · exact absurd (by rw [hval n]; simp) (k1.2.2 n hlt)
    · congr 1; omega
  · exact absurd (by rw [hval n]; simp) (k1 n (window_gt hn))

/-- C14, merges: for lists (possibly the same one in several places) where the result has a word for every word common
    to the arguments, each bit of the result is the Boolean combination of the argument bits, and nothing else changes. -/
theorem C14_merge (op : MergeOp) (a b r : Nat) (s : Store)
    (hr : min (s a).words.length (s b).words.length ≤ (s r).words.length) :
    ∃ s', merge op.words a b r s = some s' ∧ (∀ h, h ≠ r → s' h = s h) ∧ length (s' r) = length (s r) ∧
      ∀ i x y, testBit (s a) i = some x → testBit (s b) i = some y → testBit (s' r) i = some (op.bool x y) := by
  have hm : min (min (s a).words.length (s b).words.length) (s b).words.length =
    min (s a).words.length (s b).words.length := by omega
  obtain ⟨s', e, h1, h2, h3, h4, h5⟩ := mergeLoop_spec op.words a b r s (min (s a).words.length (s b).words.length)
    (by omega) (by omega) hr (min (s a).words.length (s b).words.length) 0 s (by omega) (fun _ _ => rfl) rfl rfl
    (fun _ _ => rfl) (fun j hj => by omega)
  refine ⟨s', by unfold merge; rw [hm]; exact e, h1, h2, ?_⟩
  intro i x y hx hy
  unfold testBit at hx hy ⊢
  rcases Option.map_eq_some_iff.mp hx with ⟨wa, ha1, ha2⟩
  rcases Option.map_eq_some_iff.mp hy with ⟨wb, hb1, hb2⟩
  obtain ⟨la, _⟩ := List.getElem?_eq_some_iff.mp ha1
  obtain ⟨lb, _⟩ := List.getElem?_eq_some_iff.mp hb1
  rw [h5 (i / 32) (by omega) wa wb ha1 hb1]
  have hj : i % 32 < 32 := Nat.mod_lt _ (by omega)
  rw [test_shift _ _ hj] at ha2 hb2
  simp only [Option.map_some]
  rw [test_shift _ _ hj, op.bits _ _ _ hj, ha2, hb2]

/-- Merging into a shorter list writes outside it. -/
theorem C14_merge_overflow (op : MergeOp) (a b r : Nat) (s : Store)
    (hr : (s r).words.length < min (s a).words.length (s b).words.length) : merge op.words a b r s = none := by
  unfold merge
  exact mergeLoop_short _ a b r _ 0 s (by omega) (by omega)

/-- Concrete cases: a list of length 40 with bits 3 and 35 set. -/
example : ∀ op ∈ [Op.set 35, Op.set 3, Op.testAndFlip 35, Op.set 35], op.InRange 40 ∧ op.Quiet := by
  intro op h
  simp only [List.mem_cons, List.not_mem_nil, or_false] at h
  rcases h with rfl | rfl | rfl | rfl <;> simp [Op.InRange, Op.Quiet]

example : (run (init 40 false) [.set 35, .set 3, .testAndFlip 35, .set 35]).map
    (fun r => (r.2, firstSet r.1, countSet r.1, firstClear r.1)) = some ([none, none, some true, none], some 3, 2, some 0) := by
  decide +kernel

example : countSet (init 1 true) = 993 := by decide +kernel

end BitList
end Duck
