import Verif.Lemmas.StrShare
/-! # C114: immutable strings used by several threads -/
namespace Duck
namespace StrShare
open Data

/-- **C114.** Any number of threads may hash, compare and copy the same immutable strings at once: in every state of every
    interleaving each answer given is right for the texts, although the threads share and fill the cached hashes without a
    lock. -/
theorem C114_answers (texts : List (List UInt8)) (s : St) (h : Reach texts s) (c : Call) (r : Res) (he : (c, r) ∈ s.log) : Right s c r :=
  ((inv_reach h).log _ he).1

/-- **C114.** No call changes a text. -/
theorem C114_texts (texts : List (List UInt8)) (s : St) (h : Reach texts s) (i : Nat) (hi : i < texts.length) :
    i < s.n ∧ s.text i = texts.getD i [] :=
  ⟨Nat.lt_of_lt_of_le hi (texts_reach h).1, (texts_reach h).2 i hi⟩

/-- What other threads do while thread `t` is in a call, and its own steps. -/
inductive During (t : Nat) : St → List Bool → St → Prop
  | nil (s) : During t s [] s
  | own {s l s'} : s.pc t ≠ .idle → During t (step s t) l s' → During t s (true :: l) s'
  | other {s u l s'} : u ≠ t → s.pc u ≠ .idle → During t (step s u) l s' → During t s (false :: l) s'
  | call {s u c l s'} : u ≠ t → s.pc u = .idle → (∀ i ∈ c.args, i < s.n) → During t (begin s u c) l s' → During t s (false :: l) s'

/-- **C114.** No call waits for another thread: it returns after at most seven steps of its own, whatever the others do
    meanwhile. -/
theorem C114_returns (texts : List (List UInt8)) (s : St) (h : Reach texts s) (t : Nat) (l : List Bool) (s' : St) (hd : During t s l s') :
    l.count true ≤ 7 := by
  have key : ∀ {s l s'}, During t s l s' → Inv s → l.count true ≤ todo (s.pc t) := by
    intro s l s' hd
    induction hd with
    | nil s => intro _; simp
    | @own s l s' hn _ ih =>
      intro hi
      have h1 := ih (inv_go hi t)
      have h2 := todo_step hi t
      have h3 : 0 < todo (s.pc t) := by
        cases hp : s.pc t with
        | idle => exact absurd hp hn
        | _ => simp [todo]
      simp only [List.count_cons_self]
      omega
    | @other s u l s' hn hu _ ih =>
      intro hi
      have h1 := ih (inv_go hi u)
      rw [pc_other hn] at h1
      simpa using h1
    | @call s u c l s' hn hu ha _ ih =>
      intro hi
      have h1 := ih (inv_begin hi u c ha)
      rw [begin_other hn] at h1
      simpa using h1
  have bound : ∀ {s : St}, Reach texts s → ∀ t, todo (s.pc t) ≤ 7 := by
    intro s h
    induction h with
    | start => intro t; simp [start, todo]
    | @step s s' hr hs ih =>
      intro t
      cases hs with
      | begin u c hu ha =>
        by_cases e : u = t
        · subst e
          cases c with
          | hash i => simp [begin, setPc, todo]
          | equal i j => simp only [begin]; split <;> simp [answer, setPc, todo]
          | copy i => simp [begin, setPc, todo]
        · rw [begin_other e]; exact ih t
      | go u hu =>
        by_cases e : u = t
        · subst e
          have := todo_step (inv_reach hr) u
          have := ih u
          omega
        · rw [pc_other e]; exact ih t
  exact Nat.le_trans (key hd (inv_reach h)) (bound h t)

/-- Two threads compare the strings "ab" and "ab" while a third hashes one of them: both find the cache empty, both fill it. -/
example : ∃ s, Reach [[97, 98], [97, 98]] s ∧ s.log = [(.equal 0 1, .truth true), (.hash 0, .code (strhash [97, 98]))] := by
  have b : ∀ {s}, Reach [[97, 98], [97, 98]] s → ∀ t c, s.pc t = .idle → (∀ i ∈ c.args, i < s.n) → Reach [[97, 98], [97, 98]] (begin s t c) :=
    fun h t c h1 h2 => .step h (.begin _ t c h1 h2)
  have g : ∀ {s}, Reach [[97, 98], [97, 98]] s → ∀ t, s.pc t ≠ .idle → Reach [[97, 98], [97, 98]] (step s t) :=
    fun h t h1 => .step h (.go _ t h1)
  have s0 := b (b .start 0 (.equal 0 1) rfl (by decide)) 1 (.hash 0) (by decide) (by decide)
  have s1 := g (g s0 0 (by decide)) 1 (by decide)
  have s2 := g (g s1 1 (by decide)) 0 (by decide)
  have s3 := g (g (g s2 1 (by decide)) 1 (by decide)) 0 (by decide)
  have s4 := g (g (g (g s3 0 (by decide)) 0 (by decide)) 0 (by decide)) 0 (by decide)
  exact ⟨_, s4, by decide⟩

end StrShare
end Duck
