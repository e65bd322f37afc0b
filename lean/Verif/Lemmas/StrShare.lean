import Verif.Spec.StrShare
/-! Invariant of the strings used by several threads. -/
namespace Duck
namespace StrShare
open Data

/-- The cache holds the hash. -/
def Settled (s : St) (i : Nat) : Prop := (s.str i).hashCode = strhash (s.str i).data.bytes

/-- The call is one that updates hashes, or it has nothing to update. -/
def PcOk (s : St) : Pc → Prop
  | .idle => True
  | .test c left => (∃ i, c = .hash i ∧ i < s.n ∧ (i ∈ left ∨ Settled s i)) ∨
      (∃ i j, c = .equal i j ∧ i < s.n ∧ j < s.n ∧ (i ∈ left ∨ Settled s i) ∧ (j ∈ left ∨ Settled s j))
  | .fill c left => left ≠ [] ∧ ((∃ i, c = .hash i ∧ i < s.n ∧ (i ∈ left ∨ Settled s i)) ∨
      (∃ i j, c = .equal i j ∧ i < s.n ∧ j < s.n ∧ (i ∈ left ∨ Settled s i) ∧ (j ∈ left ∨ Settled s j)))
  | .load c => (∃ i, c = .hash i ∧ i < s.n ∧ Settled s i) ∨ (∃ i j, c = .equal i j ∧ i < s.n ∧ j < s.n ∧ Settled s i ∧ Settled s j) ∨
      (∃ i, c = .copy i ∧ i < s.n)
  | .load2 c h => ∃ i j, c = .equal i j ∧ i < s.n ∧ j < s.n ∧ h = strhash (s.str i).data.bytes ∧ Settled s j

structure Inv (s : St) : Prop where
  cache : ∀ i, (s.str i).hashCode = 0 ∨ Settled s i
  pc : ∀ t, PcOk s (s.pc t)
  log : ∀ e ∈ s.log, Right s e.1 e.2 ∧ ∀ i ∈ e.1.args, i < s.n

/-- What a step may do to the strings. -/
structure Le (s s' : St) : Prop where
  n : s.n ≤ s'.n
  text : ∀ i, i < s.n → (s'.str i).data.bytes = (s.str i).data.bytes
  settled : ∀ i, i < s.n → Settled s i → Settled s' i

theorem Le.refl (s : St) : Le s s := ⟨Nat.le_refl _, fun _ _ => rfl, fun _ _ h => h⟩

theorem PcOk.mono {s s' : St} (h : Le s s') {p : Pc} (hp : PcOk s p) : PcOk s' p := by
  cases p with
  | idle => trivial
  | test c left =>
    rcases hp with ⟨i, e, h1, h2⟩ | ⟨i, j, e, h1, h2, h3, h4⟩
    · exact .inl ⟨i, e, Nat.lt_of_lt_of_le h1 h.n, h2.imp id (h.settled i h1)⟩
    · exact .inr ⟨i, j, e, Nat.lt_of_lt_of_le h1 h.n, Nat.lt_of_lt_of_le h2 h.n, h3.imp id (h.settled i h1), h4.imp id (h.settled j h2)⟩
  | fill c left =>
    refine ⟨hp.1, ?_⟩
    rcases hp.2 with ⟨i, e, h1, h2⟩ | ⟨i, j, e, h1, h2, h3, h4⟩
    · exact .inl ⟨i, e, Nat.lt_of_lt_of_le h1 h.n, h2.imp id (h.settled i h1)⟩
    · exact .inr ⟨i, j, e, Nat.lt_of_lt_of_le h1 h.n, Nat.lt_of_lt_of_le h2 h.n, h3.imp id (h.settled i h1), h4.imp id (h.settled j h2)⟩
  | load c =>
    rcases hp with ⟨i, e, h1, h2⟩ | ⟨i, j, e, h1, h2, h3, h4⟩ | ⟨i, e, h1⟩
    · exact .inl ⟨i, e, Nat.lt_of_lt_of_le h1 h.n, h.settled i h1 h2⟩
    · exact .inr (.inl ⟨i, j, e, Nat.lt_of_lt_of_le h1 h.n, Nat.lt_of_lt_of_le h2 h.n, h.settled i h1 h3, h.settled j h2 h4⟩)
    · exact .inr (.inr ⟨i, e, Nat.lt_of_lt_of_le h1 h.n⟩)
  | load2 c k =>
    obtain ⟨i, j, e, h1, h2, h3, h4⟩ := hp
    exact ⟨i, j, e, Nat.lt_of_lt_of_le h1 h.n, Nat.lt_of_lt_of_le h2 h.n, by rw [h.text i h1]; exact h3, h.settled j h2 h4⟩

theorem Right.mono {s s' : St} (h : Le s s') {c : Call} {r : Res} (ha : ∀ i ∈ c.args, i < s.n) (hr : Right s c r) : Right s' c r := by
  cases c with
  | hash i =>
    cases r with
    | code k => simp only [Right, St.text] at hr ⊢; rw [h.text i (ha i (by simp [Call.args]))]; exact hr
    | _ => exact hr.elim
  | equal i j =>
    cases r with
    | truth b =>
      simp only [Right, St.text] at hr ⊢
      rw [h.text i (ha i (by simp [Call.args])), h.text j (ha j (by simp [Call.args]))]; exact hr
    | _ => exact hr.elim
  | copy i =>
    cases r with
    | made k =>
      simp only [Right, St.text] at hr ⊢
      rw [h.text i (ha i (by simp [Call.args])), h.text k hr.1]
      exact ⟨Nat.lt_of_lt_of_le hr.1 h.n, hr.2⟩
    | _ => exact hr.elim

/-- Changing the strings as allowed, and then where one thread is. -/
theorem Inv.next {s s' : St} (hi : Inv s) (h : Le s s') (hc : ∀ i, (s'.str i).hashCode = 0 ∨ Settled s' i) (hp : s'.pc = s.pc) (hl : s'.log = s.log)
    {t : Nat} {p : Pc} (ho : PcOk s' p) : Inv (setPc s' t p) := by
  refine ⟨hc, fun u => ?_, fun e he => ?_⟩
  · show PcOk s' (if u = t then p else s'.pc u)
    split
    · exact ho
    · rw [hp]; exact (hi.pc u).mono h
  · have he' : e ∈ s.log := by rw [← hl]; exact he
    obtain ⟨h1, h2⟩ := hi.log e he'
    exact ⟨(h1.mono h h2 : Right s' e.1 e.2), fun i m => Nat.lt_of_lt_of_le (h2 i m) h.n⟩

theorem Inv.answer {s s' : St} (hi : Inv s) (h : Le s s') (hc : ∀ i, (s'.str i).hashCode = 0 ∨ Settled s' i) (hp : s'.pc = s.pc) (hl : s'.log = s.log)
    {t : Nat} {c : Call} {r : Res} (ho : Right s' c r) (ha : ∀ i ∈ c.args, i < s'.n) : Inv (answer s' t c r) := by
  have := hi.next h hc hp hl (t := t) (p := .idle) trivial
  refine ⟨this.cache, this.pc, fun e he => ?_⟩
  rcases List.mem_cons.mp he with rfl | he
  · exact ⟨ho, ha⟩
  · exact this.log e he

theorem strhash_nil : strhash [] = 0 := rfl

theorem inv_begin {s : St} (hi : Inv s) (t : Nat) (c : Call) (ha : ∀ i ∈ c.args, i < s.n) : Inv (begin s t c) := by
  cases c with
  | hash i =>
    exact hi.next (Le.refl s) hi.cache rfl rfl (.inl ⟨i, rfl, ha i (by simp [Call.args]), .inl (by simp)⟩)
  | equal i j =>
    simp only [begin]
    split
    · rename_i e
      exact hi.answer (Le.refl s) hi.cache rfl rfl (by simp [Right, e]) ha
    · exact hi.next (Le.refl s) hi.cache rfl rfl
        (.inr ⟨i, j, rfl, ha i (by simp [Call.args]), ha j (by simp [Call.args]), .inl (by simp), .inl (by simp)⟩)
  | copy i => exact hi.next (Le.refl s) hi.cache rfl rfl (.inr (.inr ⟨i, rfl, ha i (by simp [Call.args])⟩))

theorem le_store {s : St} (i : Nat) : Le s (store s i) := by
  refine ⟨Nat.le_refl _, fun k _ => ?_, fun k _ h => ?_⟩
  · simp only [store, upd]; split
    · rename_i e; rw [e]
    · rfl
  · simp only [Settled, store, upd] at h ⊢; split
    · rfl
    · exact h

theorem store_settled (s : St) (i : Nat) : Settled (store s i) i := by simp [Settled, store, upd]

theorem inv_go {s : St} (hi : Inv s) (t : Nat) : Inv (step s t) := by
  have hp := hi.pc t
  have drop : ∀ {s' : St} {i k : Nat} {left : List Nat}, Settled s' i → (k ∈ i :: left ∨ Settled s' k) → (k ∈ left ∨ Settled s' k) := by
    intro s' i k left h1 h2
    rcases h2 with h2 | h2
    · rcases List.mem_cons.mp h2 with rfl | h2
      · exact .inr h1
      · exact .inl h2
    · exact .inr h2
  unfold step
  split
  · exact hi
  · rename_i c e
    rw [e] at hp
    refine hi.next (Le.refl s) hi.cache rfl rfl ?_
    rcases hp with ⟨i, e, h1, h2⟩ | ⟨i, j, e, h1, h2, h3, h4⟩
    · exact .inl ⟨i, e, h1, h2.resolve_left (by simp)⟩
    · exact .inr (.inl ⟨i, j, e, h1, h2, h3.resolve_left (by simp), h4.resolve_left (by simp)⟩)
  · rename_i c i left e
    rw [e] at hp
    split
    · exact hi.next (Le.refl s) hi.cache rfl rfl ⟨by simp, hp⟩
    · rename_i hn
      have hs : Settled s i := by
        rcases hi.cache i with h0 | h0
        · have : (s.str i).data.bytes = [] := by
            cases hb : (s.str i).data.bytes with
            | nil => rfl
            | cons x l => exact absurd ⟨h0, by rw [hb]; simp⟩ hn
          unfold Settled
          rw [h0, this, strhash_nil]
        · exact h0
      refine hi.next (Le.refl s) hi.cache rfl rfl ?_
      rcases hp with ⟨k, e, h1, h2⟩ | ⟨k, j, e, h1, h2, h3, h4⟩
      · exact .inl ⟨k, e, h1, drop hs h2⟩
      · exact .inr ⟨k, j, e, h1, h2, drop hs h3, drop hs h4⟩
  · rename_i c e
    rw [e] at hp
    exact absurd rfl hp.1
  · rename_i c i left e
    rw [e] at hp
    have hs := store_settled s i
    have hp' := PcOk.mono (le_store (s := s) i) hp
    refine hi.next (le_store i) ?_ rfl rfl ?_
    · intro k
      by_cases hk : k = i
      · subst hk; exact .inr hs
      · rcases hi.cache k with h | h
        · left; simp only [store, upd, if_neg hk]; exact h
        · right; simp only [Settled, store, upd, if_neg hk]; exact h
    · rcases hp'.2 with ⟨k, e, h1, h2⟩ | ⟨k, j, e, h1, h2, h3, h4⟩
      · exact .inl ⟨k, e, h1, drop hs h2⟩
      · exact .inr ⟨k, j, e, h1, h2, drop hs h3, drop hs h4⟩
  · rename_i c e
    rw [e] at hp
    rcases hp with ⟨i, rfl, h1, h2⟩ | ⟨i, j, rfl, h1, h2, h3, h4⟩ | ⟨i, rfl, h1⟩
    · exact hi.answer (Le.refl s) hi.cache rfl rfl h2 (by simpa [Call.args] using h1)
    · exact hi.next (Le.refl s) hi.cache rfl rfl ⟨i, j, rfl, h1, h2, h3, h4⟩
    · have hne : ∀ k, k < s.n → k ≠ s.n := fun k hk e => by omega
      have hle : Le s (make s i (s.str i).hashCode) := by
        refine ⟨Nat.le_succ _, fun k hk => ?_, fun k hk h => ?_⟩
        · simp only [make, upd, if_neg (hne k hk)]
        · simp only [Settled, make, upd, if_neg (hne k hk)]; exact h
      refine hi.answer hle ?_ rfl rfl ?_ (by simp only [Call.args, List.mem_singleton, forall_eq]; exact Nat.lt_succ_of_lt h1)
      · intro k
        by_cases hk : k = s.n
        · subst hk
          rcases hi.cache i with h | h
          · left; simp [make, upd, h]
          · right; simp only [Settled, make, upd, if_true]; exact h
        · rcases hi.cache k with h | h
          · left; simp only [make, upd, if_neg hk]; exact h
          · right; simp only [Settled, make, upd, if_neg hk]; exact h
      · refine ⟨Nat.lt_succ_self _, ?_⟩
        simp only [St.text, make, upd, if_true, if_neg (hne i h1)]
  · rename_i c h e
    rw [e] at hp
    obtain ⟨i, j, rfl, h1, h2, rfl, h4⟩ := hp
    have ha : ∀ k ∈ (Call.equal i j).args, k < s.n := by simp [Call.args, h1, h2]
    simp only [compare]
    split
    · rename_i hne
      refine hi.answer (Le.refl s) hi.cache rfl rfl ?_ ha
      simp only [Right, Bool.false_eq_true, false_iff]
      intro he
      apply hne
      rw [h4]
      simp only [strhash, St.text] at he ⊢
      rw [he]
    · refine hi.answer (Le.refl s) hi.cache rfl rfl ?_ ha
      simp [Right, St.text]

theorem inv_reach {texts : List (List UInt8)} {s : St} (h : Reach texts s) : Inv s := by
  induction h with
  | start => exact ⟨fun _ => .inl rfl, fun _ => trivial, fun e he => by cases he⟩
  | step _ hs ih =>
    cases hs with
    | begin t c _ ha => exact inv_begin ih t c ha
    | go t _ => exact inv_go ih t

theorem texts_reach {texts : List (List UInt8)} {s : St} (h : Reach texts s) : texts.length ≤ s.n ∧ ∀ i, i < texts.length → s.text i = texts.getD i [] := by
  have le : ∀ {s s' : St}, Step s s' → s.n ≤ s'.n ∧ ∀ i, i < s.n → s'.text i = s.text i := by
    intro s s' hs
    cases hs with
    | begin t c _ ha =>
      cases c <;> simp only [begin]
      · exact ⟨Nat.le_refl _, fun _ _ => rfl⟩
      · split <;> exact ⟨Nat.le_refl _, fun _ _ => rfl⟩
      · exact ⟨Nat.le_refl _, fun _ _ => rfl⟩
    | go t _ =>
      unfold step
      split
      · exact ⟨Nat.le_refl _, fun _ _ => rfl⟩
      · exact ⟨Nat.le_refl _, fun _ _ => rfl⟩
      · split <;> exact ⟨Nat.le_refl _, fun _ _ => rfl⟩
      · exact ⟨Nat.le_refl _, fun _ _ => rfl⟩
      · exact ⟨Nat.le_refl _, fun k hk => (le_store _).text k hk⟩
      · rename_i c _
        cases c with
        | hash i => exact ⟨Nat.le_refl _, fun _ _ => rfl⟩
        | equal i j => exact ⟨Nat.le_refl _, fun _ _ => rfl⟩
        | copy i =>
          refine ⟨Nat.le_succ _, fun k hk => ?_⟩
          have : k ≠ s.n := by omega
          simp [finish, answer, make, setPc, St.text, upd, this]
      · rename_i c h _
        cases c <;> simp only [compare]
        · exact ⟨Nat.le_refl _, fun _ _ => rfl⟩
        · split <;> exact ⟨Nat.le_refl _, fun _ _ => rfl⟩
        · exact ⟨Nat.le_refl _, fun _ _ => rfl⟩
  induction h with
  | start => exact ⟨Nat.le_refl _, fun _ _ => rfl⟩
  | step _ hs ih =>
    obtain ⟨h1, h2⟩ := le hs
    exact ⟨Nat.le_trans ih.1 h1, fun i hi => by rw [h2 i (Nat.lt_of_lt_of_le hi ih.1)]; exact ih.2 i hi⟩

/-- How many steps of its own a thread still needs. -/
def todo : Pc → Nat
  | .idle => 0
  | .test _ left => 2 * left.length + 3
  | .fill _ left => 2 * left.length + 2
  | .load _ => 2
  | .load2 _ _ => 1

theorem pc_other {s : St} {t u : Nat} (h : u ≠ t) : (step s u).pc t = s.pc t := by
  have hs : ∀ (s : St) (p : Pc), (setPc s u p).pc t = s.pc t := fun s p => by simp [setPc, Ne.symm h]
  have hans : ∀ (s : St) (c r), (answer s u c r).pc t = s.pc t := fun s c r => hs s _
  unfold step
  split
  · rfl
  · exact hs _ _
  · split <;> exact hs _ _
  · exact hs _ _
  · exact hs _ _
  · rename_i c _
    cases c with
    | hash i => exact hans _ _ _
    | equal i j => exact hs _ _
    | copy i => exact hans _ _ _
  · rename_i c k _
    cases c with
    | equal i j => simp only [compare]; split <;> exact hans _ _ _
    | _ => exact hs _ _

theorem begin_other {s : St} {t u : Nat} (h : u ≠ t) (c : Call) : (begin s u c).pc t = s.pc t := by
  have hs : ∀ (s : St) (p : Pc), (setPc s u p).pc t = s.pc t := fun s p => by simp [setPc, Ne.symm h]
  cases c with
  | hash i => exact hs _ _
  | equal i j => simp only [begin]; split <;> exact hs _ _
  | copy i => exact hs _ _

theorem todo_step {s : St} (hi : Inv s) (t : Nat) : todo ((step s t).pc t) ≤ todo (s.pc t) - 1 := by
  have hp := hi.pc t
  have hs : ∀ (s : St) (p : Pc), (setPc s t p).pc t = p := fun s p => by simp [setPc]
  have hans : ∀ (s : St) (c r), (answer s t c r).pc t = .idle := fun s c r => hs s _
  unfold step
  split
  · rename_i e; rw [e]; exact Nat.le_refl _
  · rename_i e; rw [hs, e]; simp [todo]
  · rename_i e; split <;> rw [hs, e] <;> simp [todo] <;> omega
  · rename_i e; rw [e] at hp; exact absurd rfl hp.1
  · rename_i e; rw [hs, e]; simp [todo]; omega
  · rename_i c e
    rw [e]
    cases c with
    | hash i => simp only [finish]; rw [hans]; simp [todo]
    | equal i j => simp only [finish]; rw [hs]; simp [todo]
    | copy i => simp only [finish]; rw [hans]; simp [todo]
  · rename_i c k e
    rw [e] at hp
    obtain ⟨i, j, rfl, _⟩ := hp
    simp only [compare]
    split <;> rw [hans] <;> simp [todo]

end StrShare
end Duck
