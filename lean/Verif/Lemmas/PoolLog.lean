import Verif.Spec.ThreadPool

namespace Duck
namespace Pool

theorem added_append (l m : List Event) : added (l ++ m) = added l ++ added m := List.filterMap_append
theorem started_append (l m : List Event) : started (l ++ m) = started l ++ started m := List.filterMap_append
theorem finished_append (l m : List Event) : finished (l ++ m) = finished l ++ finished m := List.filterMap_append

theorem mem_added {l : List Event} {t : Task} : t ∈ added l ↔ Event.added t ∈ l := by
  constructor
  · intro h
    obtain ⟨e, he, h⟩ := List.mem_filterMap.1 h
    cases e <;> simp at h
    exact h ▸ he
  · intro h
    exact List.mem_filterMap.2 ⟨_, h, rfl⟩

theorem mem_started {l : List Event} {t : Task} : t ∈ started l ↔ Event.started t ∈ l := by
  constructor
  · intro h
    obtain ⟨e, he, h⟩ := List.mem_filterMap.1 h
    cases e <;> simp at h
    exact h ▸ he
  · intro h
    exact List.mem_filterMap.2 ⟨_, h, rfl⟩

theorem mem_finished {l : List Event} {t : Task} : t ∈ finished l ↔ Event.finished t ∈ l := by
  constructor
  · intro h
    obtain ⟨e, he, h⟩ := List.mem_filterMap.1 h
    cases e <;> simp at h
    exact h ▸ he
  · intro h
    exact List.mem_filterMap.2 ⟨_, h, rfl⟩

theorem ofGroup_append (k : Kind) (g : Nat) (l m : List Task) : ofGroup k g (l ++ m) = ofGroup k g l ++ ofGroup k g m := List.filter_append ..

theorem ofGroup_nil (k : Kind) (g : Nat) : ofGroup k g [] = [] := rfl

theorem ofGroup_one_pos {k : Kind} {g : Nat} {t : Task} (h : t.kind = k ∧ t.owner = g) : ofGroup k g [t] = [t] := by
  unfold ofGroup
  rw [List.filter_cons_of_pos (by simpa using h)]
  rfl

theorem ofGroup_one_neg {k : Kind} {g : Nat} {t : Task} (h : ¬(t.kind = k ∧ t.owner = g)) : ofGroup k g [t] = [] := by
  unfold ofGroup
  rw [List.filter_cons_of_neg (by simpa using h)]
  rfl

theorem mem_ofGroup {k : Kind} {g : Nat} {l : List Task} {t : Task} : t ∈ ofGroup k g l ↔ t ∈ l ∧ t.kind = k ∧ t.owner = g := by
  unfold ofGroup
  rw [List.mem_filter]
  simp

theorem snoc_split {α : Type} {l l1 l2 : List α} {x e : α} (h : l ++ [x] = l1 ++ e :: l2) :
    (l2 = [] ∧ l1 = l ∧ e = x) ∨ ∃ l', l2 = l' ++ [x] ∧ l = l1 ++ e :: l' := by
  rcases List.eq_nil_or_concat l2 with h2 | ⟨l', y, h2⟩
  · subst h2
    have := List.append_inj' h rfl
    simp at this
    exact .inl ⟨rfl, this.1.symm, this.2.symm⟩
  · subst h2
    rw [List.concat_eq_append] at h
    have h' : l ++ [x] = (l1 ++ e :: l') ++ [y] := by simpa using h
    have := List.append_inj' h' rfl
    simp at this
    exact .inr ⟨l', by simp [this.2], this.1⟩

theorem snoc_induction {α : Type} {P : List α → Prop} (h0 : P []) (h1 : ∀ l x, P l → P (l ++ [x])) (l : List α) : P l := by
  have : ∀ n, ∀ l : List α, l.length = n → P l := by
    intro n
    induction n with
    | zero => intro l hl; rw [List.length_eq_zero_iff.1 hl]; exact h0
    | succ n ih =>
      intro l hl
      rcases List.eq_nil_or_concat l with h | ⟨l', x, h⟩
      · subst h; exact h0
      · subst h
        rw [List.concat_eq_append] at hl ⊢
        exact h1 l' x (ih l' (by simpa using hl))
  exact this _ l rfl

/-- Every event fits what happened before it. -/
def Hist (P : List Event → Event → Prop) (l : List Event) : Prop := ∀ l1 e l2, l = l1 ++ e :: l2 → P l1 e

theorem hist_nil {P} : Hist P [] := by
  intro l1 e l2 h
  simp at h

theorem hist_snoc {P l x} (h : Hist P l) (hx : P l x) : Hist P (l ++ [x]) := by
  intro l1 e l2 he
  rcases snoc_split he with ⟨-, h1, h2⟩ | ⟨l', -, h2⟩
  · subst h1 h2
    exact hx
  · exact h l1 e l' h2

/-- What must hold when an event happens. -/
def Fits (l : List Event) : Event → Prop
  | .added t => (∀ u ∈ added l, u.id < t.id) ∧ (t.kind = .task → ∀ c ∈ added l, c.kind = .completion → c.owner ≠ t.owner) ∧
      ∀ a g b, l = a ++ .waited g :: b → 1 ≤ g → (∃ u ∈ added a, u.owner = g) → t.owner ≠ g
  | .started t => t ∈ added l ∧ t ∉ started l ∧ (t.kind = .completion → ∀ u ∈ added l, u.kind = .task → u.owner = t.owner → u ∈ finished l)
  | .finished t => t ∈ started l
  | .waited g => Event.removed ∉ l → ∀ t ∈ added l, t.kind = .task → t.owner = g → t ∈ finished l
  | .idled => ∀ t ∈ started l, t ∈ finished l
  | .removed => True

end Pool
end Duck
