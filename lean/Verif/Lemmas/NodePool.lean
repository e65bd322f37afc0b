import Verif.Spec.NodePool
/-! The free list is a duplicate-free chain of nodes not in use. -/
namespace Duck
namespace NodePool
variable {P : Type}

/-- The chain of nodes starting at a pointer. -/
def Chain (mem : Addr → Content P) : Option Addr → List Addr → Prop
  | p, [] => p = none
  | p, a :: as => p = some a ∧ Chain mem (mem a).link as

theorem Chain.frame {mem mem' : Addr → Content P} : ∀ {as : List Addr} {p}, Chain mem p as →
    (∀ a ∈ as, mem' a = mem a) → Chain mem' p as
  | [], _, h, _ => h
  | a :: as, _, ⟨h1, h2⟩, hm => ⟨h1, by
      rw [hm a (by simp)]; exact h2.frame (fun b hb => hm b (by simp [hb]))⟩

theorem store_same (mem : Addr → Content P) (a c) : store mem a c a = c := by simp [store]
theorem store_other (mem : Addr → Content P) {a b} (c) (h : b ≠ a) : store mem a c b = mem b := by simp [store, h]

/-- Invariant of a pool between calls. -/
structure Inv (s : Pool P) (live : Live P) (fl : List Addr) : Prop where
  chain : Chain s.mem s.freeList fl
  nodup : fl.Nodup
  notLive : ∀ a ∈ fl, live a = none
  blocksFree : ∀ a ∈ fl, InBlocks s a
  blocksLive : ∀ a, live a ≠ none → InBlocks s a
  all : ∀ a, InBlocks s a → a ∈ fl ∨ live a ≠ none
  mem : ∀ a c, live a = some c → s.mem a = c
  count : s.nodeCount = s.blocks.sum

theorem free_chain {s : Pool P} {fl : List Addr} (h : Chain s.mem s.freeList fl) {a : Addr} (ha : a ∉ fl) :
    Chain (free s a).mem (free s a).freeList (a :: fl) := by
  refine ⟨rfl, ?_⟩
  simp only [free, store_same]
  exact h.frame (fun b hb => store_other _ _ (by rintro rfl; exact ha hb))

theorem freeAll_spec (b : Nat) : ∀ (n i : Nat) (s : Pool P) (fl : List Addr), Chain s.mem s.freeList fl → fl.Nodup →
    (∀ a ∈ fl, a.1 = b → a.2 < i) →
    ∃ fl', Chain (freeAll b n i s).mem (freeAll b n i s).freeList fl' ∧ fl'.Nodup ∧
      (∀ a, a ∈ fl' ↔ a ∈ fl ∨ (a.1 = b ∧ i ≤ a.2 ∧ a.2 < i + n)) ∧
      (freeAll b n i s).blocks = s.blocks ∧ (freeAll b n i s).nodeCount = s.nodeCount ∧
      (∀ a, a.1 ≠ b → (freeAll b n i s).mem a = s.mem a)
  | 0, i, s, fl, h, hn, _ => by
    refine ⟨fl, h, hn, ?_, rfl, rfl, fun _ _ => rfl⟩
    intro a; constructor
    · exact Or.inl
    · rintro (h | ⟨_, h1, h2⟩)
      · exact h
      · omega
  | n + 1, i, s, fl, h, hn, hb => by
    have hnot : (b, i) ∉ fl := fun hm => by have := hb _ hm rfl; simp at this
    obtain ⟨fl', h1, h2, h3, h4, h5, h6⟩ := freeAll_spec b n (i + 1) (free s (b, i)) ((b, i) :: fl) (free_chain h hnot)
      (List.nodup_cons.mpr ⟨hnot, hn⟩) (by
        intro a ha hab
        rcases List.mem_cons.mp ha with rfl | ha
        · simp
        · have := hb a ha hab; omega)
    refine ⟨fl', h1, h2, ?_, h4, h5, ?_⟩
    · intro a
      rw [h3, List.mem_cons]
      constructor
      · rintro ((h | h) | h)
        · right; subst h; simp
        · exact Or.inl h
        · right; omega
      · rintro (h | ⟨ha, h1, h2⟩)
        · exact Or.inl (Or.inr h)
        · by_cases he : a.2 = i
          · left; left; exact Prod.ext ha he
          · right; omega
    · intro a ha
      rw [show freeAll b (n + 1) i s = freeAll b n (i + 1) (free s (b, i)) from rfl, h6 a ha]
      exact store_other _ _ (by rintro rfl; exact ha rfl)

theorem addBlock_spec {s : Pool P} {live : Live P} (h : Inv s live []) (count : Nat) :
    ∃ fl, Inv (addBlock s count) live fl ∧ fl ≠ [] := by
  have key : ∀ n, 0 < n → ∃ fl, Inv { freeAll s.blocks.length n 0 s with
      blocks := s.blocks ++ [n], nodeCount := s.nodeCount + n } live fl ∧ fl ≠ [] := by
    intro n hn
    obtain ⟨fl, h1, h2, h3, h4, h5, h6⟩ := freeAll_spec s.blocks.length n 0 s [] h.chain List.nodup_nil (by simp)
    have hin : ∀ a : Addr, (∃ m, (s.blocks ++ [n])[a.1]? = some m ∧ a.2 < m) ↔
        InBlocks s a ∨ (a.1 = s.blocks.length ∧ a.2 < n) := by
      intro a
      unfold InBlocks
      rcases Nat.lt_trichotomy a.1 s.blocks.length with hl | hl | hl
      · rw [List.getElem?_append_left hl]
        constructor
        · exact Or.inl
        · rintro (h | h)
          · exact h
          · omega
      · rw [hl, List.getElem?_append_right (Nat.le_refl _)]
        simp
      · rw [List.getElem?_append_right (by omega), List.getElem?_eq_none (by simp; omega),
          List.getElem?_eq_none (by omega)]
        simp; omega
    have hold : ∀ a, InBlocks s a → a.1 < s.blocks.length := by
      rintro a ⟨m, hm, _⟩; exact (List.getElem?_eq_some_iff.mp hm).1
    have hlive : ∀ a, live a ≠ none → a.1 < s.blocks.length := fun a ha => hold a (h.blocksLive a ha)
    refine ⟨fl, ⟨h1, h2, ?_, ?_, ?_, ?_, ?_, ?_⟩, ?_⟩
    · intro a ha
      have := (h3 a).mp ha
      cases hl : live a with
      | none => rfl
      | some c => have := hlive a (by simp [hl]); simp at *; omega
    · intro a ha
      have := (h3 a).mp ha
      exact (hin a).mpr (Or.inr (by simp at this; omega))
    · intro a ha; exact (hin a).mpr (Or.inl (h.blocksLive a ha))
    · intro a ha
      rcases (hin a).mp ha with hb | hb
      · right; rcases h.all a hb with h | h
        · simp at h
        · exact h
      · left; exact (h3 a).mpr (Or.inr (by omega))
    · intro a c ha
      have := hlive a (by simp [ha])
      simp only
      rw [h6 a (by omega)]; exact h.mem a c ha
    · simp only [h.count, List.sum_append]; simp
    · intro he
      have := (h3 (s.blocks.length, 0)).mpr (Or.inr ⟨rfl, by omega, by omega⟩)
      rw [he] at this; simp at this
  unfold addBlock allocBlock
  by_cases hb : s.blocks = []
  · rw [if_neg (by simp [hb])]
    have := key (if count < 32 then 32 else count) (by split <;> omega)
    rw [h.count, hb] at this
    simp only [List.sum_nil, List.nil_append, Nat.zero_add] at this
    rw [hb]; exact this
  · rw [if_pos hb]
    exact key (if s.nodeCount < 32 then 32 else s.nodeCount) (by split <;> omega)

theorem init_spec (garbage : Addr → Content P) (n : Nat) : ∃ fl, Inv (init garbage n) (fun _ => none) fl := by
  have h0 : Inv (⟨none, [], 0, garbage⟩ : Pool P) (fun _ => none) [] :=
    ⟨rfl, List.nodup_nil, by simp, by simp, by simp, by simp [InBlocks], by simp, rfl⟩
  unfold init
  split
  · obtain ⟨fl, h, _⟩ := addBlock_spec h0 n; exact ⟨fl, h⟩
  · exact ⟨[], h0⟩

theorem alloc_spec (zero : P) {s : Pool P} {live : Live P} {fl : List Addr} (h : Inv s live fl) :
    ∃ s' a fl', alloc zero s = some (s', a) ∧ live a = none ∧ InBlocks s' a ∧ s'.mem a = ⟨none, zero⟩ ∧
      Inv s' (live.set a (some ⟨none, zero⟩)) fl' ∧ (∀ b t, fl = b :: t → a = b) := by
  have key : ∀ (s : Pool P) (a : Addr) (fl : List Addr), Inv s live (a :: fl) →
      s.freeList = some a ∧ live a = none ∧ InBlocks s a ∧
      Inv { s with freeList := (s.mem a).link, mem := store s.mem a ⟨none, zero⟩ } (live.set a (some ⟨none, zero⟩)) fl := by
    intro s a fl h
    obtain ⟨hc1, hc2⟩ := h.chain
    have hn := List.nodup_cons.mp h.nodup
    refine ⟨hc1, h.notLive a (by simp), h.blocksFree a (by simp), ?_, hn.2, ?_, ?_, ?_, ?_, ?_, h.count⟩
    · exact hc2.frame (fun b hb => store_other _ _ (by rintro rfl; exact hn.1 hb))
    · intro b hb
      have : b ≠ a := by rintro rfl; exact hn.1 hb
      simp only [Live.set, this, if_false]; exact h.notLive b (by simp [hb])
    · intro b hb; exact h.blocksFree b (by simp [hb])
    · intro b hb
      by_cases hba : b = a
      · subst hba; exact h.blocksFree b (by simp)
      · simp only [Live.set, hba, if_false] at hb; exact h.blocksLive b hb
    · intro b hb
      by_cases hba : b = a
      · right; simp [Live.set, hba]
      · rcases h.all b hb with h1 | h1
        · left; simpa [hba] using h1
        · right; simpa [Live.set, hba] using h1
    · intro b c hb
      by_cases hba : b = a
      · subst hba; simp only [Live.set, if_true] at hb; cases hb; exact store_same _ _ _
      · simp only [Live.set, hba, if_false] at hb
        simp only [store_other _ _ hba]; exact h.mem b c hb
  cases fl with
  | nil =>
    have hf : s.freeList = none := h.chain
    obtain ⟨fl, h1, h2⟩ := addBlock_spec h 0
    obtain ⟨a, fl, rfl⟩ := List.exists_cons_of_ne_nil h2
    obtain ⟨k1, k2, k3, k4⟩ := key _ a fl h1
    refine ⟨{ addBlock s 0 with
        freeList := ((addBlock s 0).mem a).link, mem := store (addBlock s 0).mem a ⟨none, zero⟩ },
      a, fl, ?_, k2, k3, store_same _ _ _, k4, by simp⟩
    simp only [alloc, hf, if_true]
    rw [k1]
  | cons a fl =>
    obtain ⟨k1, k2, k3, k4⟩ := key _ a fl h
    refine ⟨{ s with freeList := (s.mem a).link, mem := store s.mem a ⟨none, zero⟩ },
      a, fl, ?_, k2, k3, store_same _ _ _, k4, by simp⟩
    simp only [alloc, k1]
    simp [k1]

theorem free_spec {s : Pool P} {live : Live P} {fl : List Addr} (h : Inv s live fl) {a : Addr} (ha : live a ≠ none) :
    Inv (free s a) (live.set a none) (a :: fl) := by
  have hnot : a ∉ fl := fun hm => ha (h.notLive a hm)
  refine ⟨free_chain h.chain hnot, List.nodup_cons.mpr ⟨hnot, h.nodup⟩, ?_, ?_, ?_, ?_, ?_, h.count⟩
  · intro b hb
    by_cases hba : b = a
    · simp [Live.set, hba]
    · simp only [Live.set, hba, if_false]; exact h.notLive b (by simpa [hba] using hb)
  · intro b hb
    rcases List.mem_cons.mp hb with rfl | hb
    · exact h.blocksLive b ha
    · exact h.blocksFree b hb
  · intro b hb
    by_cases hba : b = a
    · simp [Live.set, hba] at hb
    · simp only [Live.set, hba, if_false] at hb; exact h.blocksLive b hb
  · intro b hb
    by_cases hba : b = a
    · left; simp [hba]
    · rcases h.all b hb with h1 | h1
      · left; simp [h1]
      · right; simpa [Live.set, hba] using h1
  · intro b c hb
    by_cases hba : b = a
    · simp [Live.set, hba] at hb
    · simp only [Live.set, hba, if_false] at hb
      simp only [free, store_other _ _ hba]; exact h.mem b c hb

theorem write_spec {s : Pool P} {live : Live P} {fl : List Addr} (h : Inv s live fl) {a : Addr} (ha : live a ≠ none)
    (c : Content P) : Inv { s with mem := store s.mem a c } (live.set a (some c)) fl := by
  have hnot : a ∉ fl := fun hm => ha (h.notLive a hm)
  have hne : ∀ b, (live.set a (some c)) b ≠ none ↔ live b ≠ none := by
    intro b; by_cases hba : b = a
    · subst hba; simp [Live.set, ha]
    · simp [Live.set, hba]
  refine ⟨h.chain.frame (fun b hb => store_other _ _ (by rintro rfl; exact hnot hb)), h.nodup, ?_, h.blocksFree, ?_, ?_,
    ?_, h.count⟩
  · intro b hb
    have : b ≠ a := by rintro rfl; exact hnot hb
    simp only [Live.set, this, if_false]; exact h.notLive b hb
  · intro b hb; exact h.blocksLive b ((hne b).mp hb)
  · intro b hb; rw [hne]; exact h.all b hb
  · intro b d hb
    by_cases hba : b = a
    · subst hba; simp only [Live.set, if_true] at hb; cases hb; exact store_same _ _ _
    · simp only [Live.set, hba, if_false] at hb
      simp only [store_other _ _ hba]; exact h.mem b d hb

theorem reach_inv {zero : P} {s : Pool P} {live : Live P} (h : Reach zero s live) : ∃ fl, Inv s live fl := by
  induction h with
  | init garbage n => exact init_spec garbage n
  | alloc _ ha ih =>
    obtain ⟨fl, h⟩ := ih
    obtain ⟨s', a, fl', h1, _, _, _, h2, _⟩ := alloc_spec zero h
    rw [ha] at h1; cases h1
    exact ⟨fl', h2⟩
  | write c _ ha ih => obtain ⟨fl, h⟩ := ih; exact ⟨fl, write_spec h ha c⟩
  | free _ ha ih => obtain ⟨fl, h⟩ := ih; exact ⟨_, free_spec h ha⟩

end NodePool
end Duck
