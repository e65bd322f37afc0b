import Verif.Spec.NestedInit
/-! Lemmas for Props/NestedInit.lean. -/
namespace Duck
namespace Nested
variable {A : Type} [DecidableEq A]

/-- The lock is held. -/
def Crit : Pc A → Prop
  | .retest | .create _ | .store | .unlock => True
  | _ => False

/-- The object is being created. -/
def Build : Pc A → Prop
  | .create _ | .store => True
  | _ => False

/-- The object has been stored. -/
def After : Pc A → Prop
  | .unlock | .read => True
  | _ => False

def Frames (s : State A) (i : Nat) : List (Frame A) := (s.threads[i]?).elim [] (·.stack)
def Res (s : State A) (i : Nat) : List (A × Option Nat) := (s.threads[i]?).elim [] (·.results)

structure Inv (rank : A → Nat) (s : State A) : Prop where
  order : ∀ i, (Frames s i).Pairwise fun g f => rank g.acc < rank f.acc ∧ ∃ ys, f.pc = .create ys
  rest : ∀ i, ∀ f ∈ Frames s i, ∀ ys, f.pc = .create ys → ∀ y ∈ ys, rank y < rank f.acc
  locks : ∀ i, ∀ f ∈ Frames s i, Crit f.pc → s.lock f.acc = some i
  holder : ∀ x i, s.lock x = some i → ∃ f ∈ Frames s i, f.acc = x ∧ Crit f.pc
  building : ∀ i, ∀ f ∈ Frames s i, Build f.pc → s.shared f.acc = none ∧ s.made f.acc = 1
  after : ∀ i, ∀ f ∈ Frames s i, After f.pc → s.shared f.acc = some 1
  shared : ∀ x o, s.shared x = some o → o = 1
  once : ∀ x, s.made x ≤ 1
  made : ∀ x, s.made x = 0 ∨ s.shared x = some 1 ∨ ∃ i, ∃ f ∈ Frames s i, f.acc = x ∧ Build f.pc
  results : ∀ i x o, (x, o) ∈ Res s i → o = some 1

theorem upd_self {β : Type} (f : A → β) (x : A) (v : β) : upd f x v x = v := if_pos rfl
theorem upd_ne {β : Type} (f : A → β) {x y : A} (v : β) (h : y ≠ x) : upd f x v y = f y := if_neg h

theorem frames_set (s : State A) (sh lk md) {i : Nat} (hi : i < s.threads.length) (t : Thread A) (j : Nat) :
    Frames (⟨sh, lk, md, s.threads.set i t⟩ : State A) j = if j = i then t.stack else Frames s j := by
  unfold Frames
  simp only [List.getElem?_set]
  by_cases h : i = j
  · subst h
    rw [if_pos rfl, if_pos hi, if_pos rfl]; rfl
  · rw [if_neg h, if_neg (Ne.symm h)]

theorem res_set (s : State A) (sh lk md) {i : Nat} (hi : i < s.threads.length) (t : Thread A) (j : Nat) :
    Res (⟨sh, lk, md, s.threads.set i t⟩ : State A) j = if j = i then t.results else Res s j := by
  unfold Res
  simp only [List.getElem?_set]
  by_cases h : i = j
  · subst h
    rw [if_pos rfl, if_pos hi, if_pos rfl]; rfl
  · rw [if_neg h, if_neg (Ne.symm h)]

section
variable {rank : A → Nat} {s s' : State A} {i : Nat} {f f' : Frame A} {below : List (Frame A)}

-- The innermost call of a thread makes a step.
theorem inv_top (h : Inv rank s) (hf : Frames s i = f :: below) (hf' : ∀ j, Frames s' j = if j = i then f' :: below else Frames s j) (hr : ∀ j, Res s' j = Res s j) (ha : f'.acc = f.acc)
    (hrest : ∀ ys, f'.pc = .create ys → ∀ y ∈ ys, rank y < rank f'.acc)
    (hne : ∀ y, y ≠ f.acc → s'.lock y = s.lock y ∧ s'.shared y = s.shared y ∧ s'.made y = s.made y)
    (hcrit : Crit f'.pc → s'.lock f.acc = some i)
    (hother : ∀ j, j ≠ i → ∀ g ∈ Frames s j, g.acc = f.acc → (Crit g.pc → s'.lock f.acc = some j) ∧ (Build g.pc → s'.shared f.acc = none ∧ s'.made f.acc = 1) ∧ (After g.pc → s'.shared f.acc = some 1))
    (hholder : ∀ j, s'.lock f.acc = some j → (j = i ∧ Crit f'.pc) ∨ (j ≠ i ∧ s.lock f.acc = some j))
    (hbuild : Build f'.pc → s'.shared f.acc = none ∧ s'.made f.acc = 1) (hafter : After f'.pc → s'.shared f.acc = some 1)
    (hshared : ∀ o, s'.shared f.acc = some o → o = 1) (honce : s'.made f.acc ≤ 1)
    (hmade : s'.made f.acc = 0 ∨ s'.shared f.acc = some 1 ∨ Build f'.pc ∨ (s'.made f.acc = s.made f.acc ∧ s'.shared f.acc = s.shared f.acc ∧ ¬ Build f.pc)) : Inv rank s' := by
  have ord := h.order i
  rw [hf, List.pairwise_cons] at ord
  have nb : ∀ g ∈ below, g.acc ≠ f.acc := fun g hg e => by have := (ord.1 g hg).1; rw [e] at this; omega
  have memb : ∀ g ∈ below, g ∈ Frames s i := fun g hg => by rw [hf]; exact List.mem_cons_of_mem _ hg
  have mem : ∀ j g, g ∈ Frames s' j → (j = i ∧ g = f') ∨ (g ∈ Frames s j ∧ (j = i → g ∈ below)) := by
    intro j g hg
    rw [hf'] at hg
    by_cases e : j = i
    · rw [if_pos e] at hg
      rcases List.mem_cons.mp hg with hg | hg
      · exact .inl ⟨e, hg⟩
      · exact .inr ⟨by rw [e]; exact memb g hg, fun _ => hg⟩
    · rw [if_neg e] at hg
      exact .inr ⟨hg, fun e' => absurd e' e⟩
  have old : ∀ j g, g ∈ Frames s j → (j = i ∧ g = f) ∨ g ∈ Frames s' j := by
    intro j g hg
    by_cases e : j = i
    · subst e
      rw [hf] at hg
      rcases List.mem_cons.mp hg with hg | hg
      · exact .inl ⟨rfl, hg⟩
      · exact .inr (by rw [hf', if_pos rfl]; exact List.mem_cons_of_mem _ hg)
    · exact .inr (by rw [hf', if_neg e]; exact hg)
  have new : f' ∈ Frames s' i := by rw [hf', if_pos rfl]; exact List.mem_cons_self ..
  constructor
  · intro j
    rw [hf']
    by_cases e : j = i
    · rw [if_pos e, List.pairwise_cons]
      exact ⟨fun g hg => by rw [ha]; exact ord.1 g hg, ord.2⟩
    · rw [if_neg e]; exact h.order j
  · intro j g hg
    rcases mem j g hg with ⟨-, rfl⟩ | ⟨hg, -⟩
    · exact hrest
    · exact h.rest j g hg
  · intro j g hg hc
    rcases mem j g hg with ⟨rfl, rfl⟩ | ⟨hg, hb⟩
    · rw [ha]; exact hcrit hc
    · by_cases e : g.acc = f.acc
      · by_cases e' : j = i
        · exact absurd e (nb g (hb e'))
        · rw [e]; exact (hother j e' g hg e).1 hc
      · rw [(hne _ e).1]; exact h.locks j g hg hc
  · intro x j hx
    by_cases e : x = f.acc
    · subst e
      rcases hholder j hx with ⟨rfl, hc⟩ | ⟨hj, hl⟩
      · exact ⟨f', new, ha, hc⟩
      · obtain ⟨g, hg, e1, e2⟩ := h.holder _ _ hl
        rcases old j g hg with ⟨e3, -⟩ | hg
        · exact absurd e3 hj
        · exact ⟨g, hg, e1, e2⟩
    · rw [(hne x e).1] at hx
      obtain ⟨g, hg, e1, e2⟩ := h.holder _ _ hx
      rcases old j g hg with ⟨-, rfl⟩ | hg
      · exact absurd e1.symm e
      · exact ⟨g, hg, e1, e2⟩
  · intro j g hg hc
    rcases mem j g hg with ⟨rfl, rfl⟩ | ⟨hg, hb⟩
    · rw [ha]; exact hbuild hc
    · by_cases e : g.acc = f.acc
      · by_cases e' : j = i
        · exact absurd e (nb g (hb e'))
        · rw [e]; exact (hother j e' g hg e).2.1 hc
      · rw [(hne _ e).2.1, (hne _ e).2.2]; exact h.building j g hg hc
  · intro j g hg hc
    rcases mem j g hg with ⟨rfl, rfl⟩ | ⟨hg, hb⟩
    · rw [ha]; exact hafter hc
    · by_cases e : g.acc = f.acc
      · by_cases e' : j = i
        · exact absurd e (nb g (hb e'))
        · rw [e]; exact (hother j e' g hg e).2.2 hc
      · rw [(hne _ e).2.1]; exact h.after j g hg hc
  · intro x o hx
    by_cases e : x = f.acc
    · subst e; exact hshared o hx
    · rw [(hne x e).2.1] at hx; exact h.shared x o hx
  · intro x
    by_cases e : x = f.acc
    · subst e; exact honce
    · rw [(hne x e).2.2]; exact h.once x
  · intro x
    by_cases e : x = f.acc
    · subst e
      rcases hmade with h1 | h1 | h1 | ⟨h1, h2, h3⟩
      · exact .inl h1
      · exact .inr (.inl h1)
      · exact .inr (.inr ⟨i, f', new, ha, h1⟩)
      · rw [h1, h2]
        rcases h.made f.acc with h4 | h4 | ⟨j, g, hg, e1, e2⟩
        · exact .inl h4
        · exact .inr (.inl h4)
        · rcases old j g hg with ⟨-, rfl⟩ | hg
          · exact absurd e2 h3
          · exact .inr (.inr ⟨j, g, hg, e1, e2⟩)
    · rw [(hne x e).2.1, (hne x e).2.2]
      rcases h.made x with h4 | h4 | ⟨j, g, hg, e1, e2⟩
      · exact .inl h4
      · exact .inr (.inl h4)
      · rcases old j g hg with ⟨-, rfl⟩ | hg
        · exact absurd e1.symm e
        · exact .inr (.inr ⟨j, g, hg, e1, e2⟩)
  · intro j x o hx
    rw [hr] at hx
    exact h.results j x o hx

/-- A thread has other calls, but no other frame that holds a lock, and the variables are as before. -/
theorem inv_same (h : Inv rank s) (hs : s'.shared = s.shared) (hl : s'.lock = s.lock) (hm : s'.made = s.made) (hj : ∀ j, j ≠ i → Frames s' j = Frames s j)
    (hord : (Frames s' i).Pairwise fun g f => rank g.acc < rank f.acc ∧ ∃ ys, f.pc = .create ys)
    (hrest : ∀ f ∈ Frames s' i, ∀ ys, f.pc = .create ys → ∀ y ∈ ys, rank y < rank f.acc)
    (hfwd : ∀ g ∈ Frames s' i, g.pc = .test ∨ ∃ f ∈ Frames s i, f.acc = g.acc ∧ (Crit g.pc → Crit f.pc) ∧ (Build g.pc → Build f.pc) ∧ (After g.pc → After f.pc))
    (hbwd : ∀ f ∈ Frames s i, Crit f.pc → ∃ g ∈ Frames s' i, g.acc = f.acc ∧ Crit g.pc ∧ (Build f.pc → Build g.pc))
    (hr : ∀ j x o, (x, o) ∈ Res s' j → (x, o) ∈ Res s j ∨ o = some 1) : Inv rank s' := by
  have bc : ∀ {p : Pc A}, Build p → Crit p := fun {p} hb => by cases p <;> first | trivial | exact hb
  have fwd : ∀ j, ∀ g ∈ Frames s' j, g.pc = .test ∨ ∃ f ∈ Frames s j, f.acc = g.acc ∧ (Crit g.pc → Crit f.pc) ∧ (Build g.pc → Build f.pc) ∧ (After g.pc → After f.pc) := by
    intro j g hg
    by_cases e : j = i
    · subst e; exact hfwd g hg
    · rw [hj j e] at hg; exact .inr ⟨g, hg, rfl, id, id, id⟩
  have bwd : ∀ j, ∀ f ∈ Frames s j, Crit f.pc → ∃ g ∈ Frames s' j, g.acc = f.acc ∧ Crit g.pc ∧ (Build f.pc → Build g.pc) := by
    intro j f hf hc
    by_cases e : j = i
    · subst e; exact hbwd f hf hc
    · rw [hj j e]; exact ⟨f, hf, rfl, hc, id⟩
  constructor
  · intro j
    by_cases e : j = i
    · subst e; exact hord
    · rw [hj j e]; exact h.order j
  · intro j
    by_cases e : j = i
    · subst e; exact hrest
    · rw [hj j e]; exact h.rest j
  · intro j g hg hc
    rcases fwd j g hg with e | ⟨f, hf, e, h1, -⟩
    · rw [e] at hc; exact hc.elim
    · rw [hl, ← e]; exact h.locks j f hf (h1 hc)
  · intro x j hx
    rw [hl] at hx
    obtain ⟨f, hf, e1, e2⟩ := h.holder x j hx
    obtain ⟨g, hg, e3, e4, -⟩ := bwd j f hf e2
    exact ⟨g, hg, e3.trans e1, e4⟩
  · intro j g hg hc
    rcases fwd j g hg with e | ⟨f, hf, e, -, h1, -⟩
    · rw [e] at hc; exact hc.elim
    · rw [hs, hm, ← e]; exact h.building j f hf (h1 hc)
  · intro j g hg hc
    rcases fwd j g hg with e | ⟨f, hf, e, -, -, h1⟩
    · rw [e] at hc; exact hc.elim
    · rw [hs, ← e]; exact h.after j f hf (h1 hc)
  · intro x; rw [hs]; exact h.shared x
  · intro x; rw [hm]; exact h.once x
  · intro x
    rw [hs, hm]
    rcases h.made x with h4 | h4 | ⟨j, f, hf, e1, e2⟩
    · exact .inl h4
    · exact .inr (.inl h4)
    · obtain ⟨g, hg, e3, e4, e5⟩ := bwd j f hf (bc e2)
      exact .inr (.inr ⟨j, g, hg, e3.trans e1, e5 e2⟩)
  · intro j x o hx
    rcases hr j x o hx with hx | hx
    · exact h.results j x o hx
    · exact hx

end

theorem inv_init (rank : A → Nat) (progs : List (List A)) : Inv rank (init progs) := by
  have hf : ∀ i, Frames (init progs) i = [] := by
    intro i
    simp only [Frames, init, List.getElem?_map]
    cases progs[i]? <;> rfl
  have hr : ∀ i, Res (init progs) i = [] := by
    intro i
    simp only [Res, init, List.getElem?_map]
    cases progs[i]? <;> rfl
  constructor
  · intro i; rw [hf]; exact .nil
  · intro i f h; rw [hf] at h; cases h
  · intro i f h; rw [hf] at h; cases h
  · intro x i h; cases h
  · intro i f h; rw [hf] at h; cases h
  · intro i f h; rw [hf] at h; cases h
  · intro x o h; cases h
  · intro x; exact Nat.zero_le _
  · intro x; exact .inl rfl
  · intro i x o h; rw [hr] at h; cases h

section
variable {needs : A → List A} {rank : A → Nat} {s s' : State A} {i : Nat} {t : Thread A}

theorem inv_step (hn : ∀ x, ∀ y ∈ needs x, rank y < rank x) (h : Inv rank s) (hs : step needs s i = some s') : Inv rank s' := by
  unfold step at hs
  cases ht : s.threads[i]? with
  | none => rw [ht] at hs; cases hs
  | some t =>
    rw [ht, Option.bind_some] at hs
    have hi : i < s.threads.length := by
      rcases Nat.lt_or_ge i s.threads.length with h | h
      · exact h
      · rw [List.getElem?_eq_none h] at ht; cases ht
    have hF : Frames s i = t.stack := by unfold Frames; rw [ht]; rfl
    have hR : Res s i = t.results := by unfold Res; rw [ht]; rfl
    unfold threadStep at hs
    cases hst : t.stack with
    | nil =>
      rw [hst] at hs
      cases htd : t.todo with
      | nil => rw [htd] at hs; cases hs
      | cons x xs =>
        rw [htd] at hs
        cases hs
        have hf : ∀ j, Frames { s with threads := s.threads.set i { t with stack := [⟨x, .test⟩], todo := xs } } j = if j = i then [⟨x, .test⟩] else Frames s j := frames_set s _ _ _ hi _
        have hr : ∀ j, Res { s with threads := s.threads.set i { t with stack := [⟨x, .test⟩], todo := xs } } j = Res s j := fun j => by
          refine (res_set s _ _ _ hi _ j).trans ?_
          by_cases e : j = i
          · subst e; rw [if_pos rfl, hR]
          · rw [if_neg e]
        refine inv_same (i := i) h rfl rfl rfl (fun j hj => by rw [hf, if_neg hj]) ?_ ?_ ?_ ?_ (fun j y o hy => .inl (by rw [hr] at hy; exact hy))
        · rw [hf, if_pos rfl]; exact List.pairwise_singleton ..
        · intro f hf' ys e
          rw [hf, if_pos rfl, List.mem_singleton] at hf'
          subst hf'; cases e
        · intro g hg
          rw [hf, if_pos rfl, List.mem_singleton] at hg
          subst hg; exact .inl rfl
        · intro f hf'
          rw [hF, hst] at hf'; cases hf'
    | cons f below =>
      rw [hst] at hs
      have hf0 : Frames s i = f :: below := by rw [hF, hst]
      have fmem : f ∈ Frames s i := by rw [hf0]; exact List.mem_cons_self ..
      have bmem : ∀ g ∈ below, g ∈ Frames s i := fun g hg => by rw [hf0]; exact List.mem_cons_of_mem _ hg
      have hgo : ∀ (sh : A → Option Nat) (lk : A → Option Nat) (md : A → Nat) (st : List (Frame A)) (j : Nat),
          Frames (goto (⟨sh, lk, md, s.threads⟩ : State A) i t st) j = if j = i then st else Frames s j := fun sh lk md st j => frames_set s sh lk md hi _ j
      have hgr : ∀ (sh : A → Option Nat) (lk : A → Option Nat) (md : A → Nat) (st : List (Frame A)) (j : Nat),
          Res (goto (⟨sh, lk, md, s.threads⟩ : State A) i t st) j = Res s j := fun sh lk md st j => by
        refine (res_set s sh lk md hi _ j).trans ?_
        by_cases e : j = i
        · subst e; rw [if_pos rfl, hR]
        · rw [if_neg e]
      have others : ∀ j, j ≠ i → ∀ g ∈ Frames s j, g.acc = f.acc → (Crit g.pc → s.lock f.acc = some j) ∧ (Build g.pc → s.shared f.acc = none ∧ s.made f.acc = 1) ∧ (After g.pc → s.shared f.acc = some 1) :=
        fun j _ g hg e => ⟨fun hc => e ▸ h.locks j g hg hc, fun hc => e ▸ h.building j g hg hc, fun hc => e ▸ h.after j g hg hc⟩
      obtain ⟨x, pc⟩ := f
      cases pc with
      | test =>
        simp only [frameStep] at hs
        cases hs
        refine inv_top h hf0 (hgo _ _ _ _) (hgr _ _ _ _) rfl ?_ (fun _ _ => ⟨rfl, rfl, rfl⟩) ?_ others ?_ ?_ ?_ (h.shared x) (h.once x) (.inr (.inr (.inr ⟨rfl, rfl, id⟩)))
        · intro ys e; dsimp only at e; split at e <;> cases e
        · intro hc; dsimp only at hc; split at hc <;> exact hc.elim
        · intro j hj
          refine .inr ⟨fun e => ?_, hj⟩
          subst e
          obtain ⟨g, hg, e1, e2⟩ := h.holder _ _ hj
          rw [hf0] at hg
          rcases List.mem_cons.mp hg with e | hg
          · rw [e] at e2; exact e2.elim
          · have := h.order j
            rw [hf0, List.pairwise_cons] at this
            have := (this.1 g hg).1
            rw [e1] at this; exact absurd this (Nat.lt_irrefl _)
        · intro hc; dsimp only at hc; split at hc <;> exact hc.elim
        · intro hc
          dsimp only at hc
          split at hc
          · rename_i hne
            cases hsx : s.shared x with
            | none => exact absurd hsx hne
            | some o => rw [h.shared x o hsx] at hsx; exact hsx
          · exact hc.elim
      | lock =>
        simp only [frameStep] at hs
        split at hs
        · rename_i hl
          cases hs
          refine inv_top h hf0 (hgo _ _ _ _) (hgr _ _ _ _) rfl (fun ys e => by cases e) (fun y e => ⟨upd_ne _ _ e, rfl, rfl⟩) (fun _ => upd_self ..) ?_ ?_ (fun hc => hc.elim) (fun hc => hc.elim) (h.shared x) (h.once x)
            (.inr (.inr (.inr ⟨rfl, rfl, id⟩)))
          · intro j hj g hg e
            refine ⟨fun hc => ?_, (others j hj g hg e).2⟩
            have := (others j hj g hg e).1 hc
            rw [hl] at this; cases this
          · intro j hj
            have : upd s.lock x (some i) x = some j := hj
            rw [upd_self] at this
            cases this
            exact .inl ⟨rfl, trivial⟩
        · cases hs
      | retest =>
        have hl : s.lock x = some i := h.locks i _ fmem trivial
        have hold : ∀ j, s.lock x = some j → j = i := fun j hj => by rw [hl] at hj; exact (Option.some.inj hj).symm
        have noc : ∀ j, j ≠ i → ∀ g ∈ Frames s j, g.acc = x → ¬ Crit g.pc := fun j hj g hg e hc => hj (hold j ((others j hj g hg e).1 hc))
        have bc : ∀ {p : Pc A}, Build p → Crit p := fun {p} hb => by cases p <;> first | trivial | exact hb
        simp only [frameStep] at hs
        split at hs
        · rename_i hsx
          cases hs
          have hm : s.made x = 0 := by
            rcases h.made x with h4 | h4 | ⟨j, g, hg, e1, e2⟩
            · exact h4
            · rw [hsx] at h4; cases h4
            · by_cases e : j = i
              · subst e
                rw [hf0] at hg
                rcases List.mem_cons.mp hg with e | hg
                · rw [e] at e2; exact e2.elim
                · have := h.order j
                  rw [hf0, List.pairwise_cons] at this
                  have := (this.1 g hg).1
                  rw [e1] at this; exact absurd this (Nat.lt_irrefl _)
              · exact absurd (bc e2) (noc j e g hg e1)
          have hm' : upd s.made x (s.made x + 1) x = 1 := by rw [upd_self, hm]
          refine inv_top h hf0 (hgo _ _ _ _) (hgr _ _ _ _) rfl (fun ys e => by cases e; exact hn x) (fun y e => ⟨rfl, rfl, upd_ne _ _ e⟩) (fun _ => hl) ?_ (fun j hj => .inl ⟨hold j hj, trivial⟩)
            (fun _ => ⟨hsx, hm'⟩) (fun hc => hc.elim) (h.shared x) (Nat.le_of_eq hm') (.inr (.inr (.inl trivial)))
          intro j hj g hg e
          exact ⟨(others j hj g hg e).1, fun hb => absurd (bc hb) (noc j hj g hg e), (others j hj g hg e).2.2⟩
        · rename_i hsx
          cases hs
          have hsx1 : s.shared x = some 1 := by
            cases e : s.shared x with
            | none => exact absurd e hsx
            | some o => rw [h.shared x o e]
          exact inv_top h hf0 (hgo _ _ _ _) (hgr _ _ _ _) rfl (fun ys e => by cases e) (fun y e => ⟨rfl, rfl, rfl⟩) (fun _ => hl) others (fun j hj => .inl ⟨hold j hj, trivial⟩)
            (fun hc => hc.elim) (fun _ => hsx1) (h.shared x) (h.once x) (.inr (.inl hsx1))
      | create ys =>
        have hl : s.lock x = some i := h.locks i _ fmem trivial
        have hold : ∀ j, s.lock x = some j → j = i := fun j hj => by rw [hl] at hj; exact (Option.some.inj hj).symm
        cases ys with
        | nil =>
          simp only [frameStep] at hs
          cases hs
          exact inv_top h hf0 (hgo _ _ _ _) (hgr _ _ _ _) rfl (fun ys e => by cases e) (fun y e => ⟨rfl, rfl, rfl⟩) (fun _ => hl) others (fun j hj => .inl ⟨hold j hj, trivial⟩)
            (fun _ => h.building i _ fmem trivial) (fun hc => hc.elim) (h.shared x) (h.once x) (.inr (.inr (.inl trivial)))
        | cons y ys =>
          simp only [frameStep] at hs
          cases hs
          have hf := hgo s.shared s.lock s.made (⟨y, .test⟩ :: ⟨x, .create ys⟩ :: below)
          have ord := h.order i
          rw [hf0, List.pairwise_cons] at ord
          have hr0 := h.rest i _ fmem (y :: ys) rfl
          refine inv_same (i := i) h rfl rfl rfl (fun j hj => by rw [hf, if_neg hj]) ?_ ?_ ?_ ?_ (fun j z o hz => .inl (by rw [hgr] at hz; exact hz))
          · rw [hf, if_pos rfl, List.pairwise_cons, List.pairwise_cons]
            have hy : rank y < rank x := hr0 y (List.mem_cons_self ..)
            refine ⟨fun g hg => ?_, fun g hg => ord.1 g hg, ord.2⟩
            rcases List.mem_cons.mp hg with e | hg
            · rw [e]; exact ⟨hy, ys, rfl⟩
            · exact ⟨Nat.lt_trans hy (ord.1 g hg).1, (ord.1 g hg).2⟩
          · intro g hg zs e z hz
            rw [hf, if_pos rfl] at hg
            rcases List.mem_cons.mp hg with e' | hg
            · rw [e'] at e; cases e
            · rcases List.mem_cons.mp hg with e' | hg
              · rw [e'] at e ⊢; cases e; exact hr0 z (List.mem_cons_of_mem _ hz)
              · exact h.rest i g (bmem g hg) zs e z hz
          · intro g hg
            rw [hf, if_pos rfl] at hg
            rcases List.mem_cons.mp hg with e' | hg
            · rw [e']; exact .inl rfl
            · rcases List.mem_cons.mp hg with e' | hg
              · rw [e']; exact .inr ⟨_, fmem, rfl, fun _ => trivial, fun _ => trivial, fun hc => hc.elim⟩
              · exact .inr ⟨g, bmem g hg, rfl, id, id, id⟩
          · intro g hg hc
            rw [hf, if_pos rfl]
            rw [hf0] at hg
            rcases List.mem_cons.mp hg with e' | hg
            · rw [e']; exact ⟨⟨x, .create ys⟩, by simp, rfl, trivial, fun _ => trivial⟩
            · exact ⟨g, by simp [hg], rfl, hc, id⟩
      | store =>
        have hl : s.lock x = some i := h.locks i _ fmem trivial
        have hold : ∀ j, s.lock x = some j → j = i := fun j hj => by rw [hl] at hj; exact (Option.some.inj hj).symm
        have noc : ∀ j, j ≠ i → ∀ g ∈ Frames s j, g.acc = x → ¬ Crit g.pc := fun j hj g hg e hc => hj (hold j ((others j hj g hg e).1 hc))
        have bc : ∀ {p : Pc A}, Build p → Crit p := fun {p} hb => by cases p <;> first | trivial | exact hb
        have hb := h.building i _ fmem trivial
        have hsh : upd s.shared x (some (s.made x)) x = some 1 := by rw [upd_self]; exact congrArg some hb.2
        simp only [frameStep] at hs
        cases hs
        refine inv_top h hf0 (hgo _ _ _ _) (hgr _ _ _ _) rfl (fun ys e => by cases e) (fun y e => ⟨rfl, upd_ne _ _ e, rfl⟩) (fun _ => hl) ?_ (fun j hj => .inl ⟨hold j hj, trivial⟩)
          (fun hc => hc.elim) (fun _ => hsh) (fun o ho => ?_) (h.once x) (.inr (.inl hsh))
        · intro j hj g hg e
          exact ⟨(others j hj g hg e).1, fun hb => absurd (bc hb) (noc j hj g hg e), fun _ => hsh⟩
        · have := ho
          exact (Option.some.inj (hsh.symm.trans this)).symm
      | unlock =>
        have hl : s.lock x = some i := h.locks i _ fmem trivial
        have hold : ∀ j, s.lock x = some j → j = i := fun j hj => by rw [hl] at hj; exact (Option.some.inj hj).symm
        simp only [frameStep] at hs
        cases hs
        have hu : upd s.lock x none x = none := upd_self ..
        refine inv_top h hf0 (hgo _ _ _ _) (hgr _ _ _ _) rfl (fun ys e => by cases e) (fun y e => ⟨upd_ne _ _ e, rfl, rfl⟩) (fun hc => hc.elim) ?_ ?_
          (fun hc => hc.elim) (fun _ => h.after i _ fmem trivial) (h.shared x) (h.once x) (.inr (.inl (h.after i _ fmem trivial)))
        · intro j hj g hg e
          exact ⟨fun hc => absurd (hold j ((others j hj g hg e).1 hc)) hj, (others j hj g hg e).2⟩
        · intro j hj
          have := hu.symm.trans hj
          cases this
      | read =>
        simp only [frameStep] at hs
        cases hs
        have hf : ∀ j, Frames { s with threads := s.threads.set i (ret t x (s.shared x) below) } j = if j = i then below else Frames s j := frames_set s _ _ _ hi _
        have ord := h.order i
        rw [hf0, List.pairwise_cons] at ord
        have hsx := h.after i _ fmem trivial
        refine inv_same (i := i) h rfl rfl rfl (fun j hj => by rw [hf, if_neg hj]) ?_ ?_ ?_ ?_ ?_
        · rw [hf, if_pos rfl]; exact ord.2
        · intro g hg; rw [hf, if_pos rfl] at hg; exact h.rest i g (bmem g hg)
        · intro g hg; rw [hf, if_pos rfl] at hg; exact .inr ⟨g, bmem g hg, rfl, id, id, id⟩
        · intro g hg hc
          rw [hf, if_pos rfl]
          rw [hf0] at hg
          rcases List.mem_cons.mp hg with e' | hg
          · rw [e'] at hc; exact hc.elim
          · exact ⟨g, hg, rfl, hc, id⟩
        · intro j y o hy
          have hr := res_set s s.shared s.lock s.made hi (ret t x (s.shared x) below) j
          rw [hr] at hy
          by_cases e : j = i
          · subst e
            rw [if_pos rfl] at hy
            rw [hR]
            simp only [ret] at hy
            split at hy
            · rcases List.mem_append.mp hy with hy | hy
              · exact .inl hy
              · rw [List.mem_singleton] at hy
                cases hy
                exact .inr hsx
            · exact .inl hy
          · rw [if_neg e] at hy; exact .inl hy

end

/-- What a call may cost, at a depth of at most `n`. -/
def cost (needs : A → List A) : Nat → A → Nat
  | 0, _ => 8
  | n + 1, x => 8 + ((needs x).map fun y => cost needs n y + 1).sum

/-- What the calls of these accessors may cost. -/
def costs (needs : A → List A) (rank : A → Nat) (ys : List A) : Nat := (ys.map fun y => cost needs (rank y) y + 1).sum

def frameW (needs : A → List A) (rank : A → Nat) (f : Frame A) : Nat :=
  match f.pc with
  | .test => costs needs rank (needs f.acc) + 8
  | .lock => costs needs rank (needs f.acc) + 7
  | .retest => costs needs rank (needs f.acc) + 6
  | .create ys => costs needs rank ys + 5
  | .store => 4
  | .unlock => 3
  | .read => 2

def threadW (needs : A → List A) (rank : A → Nat) (t : Thread A) : Nat := (t.stack.map (frameW needs rank)).sum + costs needs rank t.todo
def stateW (needs : A → List A) (rank : A → Nat) (s : State A) : Nat := (s.threads.map (threadW needs rank)).sum

theorem sum_le {l : List A} {f g : A → Nat} (h : ∀ x ∈ l, f x ≤ g x) : (l.map f).sum ≤ (l.map g).sum := by
  induction l with
  | nil => exact Nat.le_refl _
  | cons a l ih =>
    simp only [List.map_cons, List.sum_cons]
    have h1 := h a (List.mem_cons_self ..)
    have h2 := ih fun x hx => h x (List.mem_cons_of_mem _ hx)
    omega

theorem cost_mono (needs : A → List A) (n : Nat) : ∀ x, cost needs n x ≤ cost needs (n + 1) x := by
  induction n with
  | zero => intro x; simp only [cost]; omega
  | succ n ih =>
    intro x
    rw [cost, cost]
    have := sum_le (l := needs x) (f := fun y => cost needs n y + 1) (g := fun y => cost needs (n + 1) y + 1) fun y _ => by have := ih y; omega
    omega

theorem cost_le (needs : A → List A) {m n : Nat} (h : m ≤ n) (x : A) : cost needs m x ≤ cost needs n x := by
  induction h with
  | refl => exact Nat.le_refl _
  | step _ ih => exact Nat.le_trans ih (cost_mono needs _ x)

theorem cost_test {needs : A → List A} {rank : A → Nat} (hn : ∀ x, ∀ y ∈ needs x, rank y < rank x) (x : A) : costs needs rank (needs x) + 8 ≤ cost needs (rank x) x := by
  unfold costs
  cases hr : rank x with
  | zero =>
    cases hx : needs x with
    | nil => simp [cost]
    | cons y ys => have := hn x y (by rw [hx]; exact List.mem_cons_self ..); omega
  | succ n =>
    rw [cost]
    have := sum_le (l := needs x) (f := fun y => cost needs (rank y) y + 1) (g := fun y => cost needs n y + 1) fun y hy => by
      have := hn x y hy
      have := cost_le needs (show rank y ≤ n by omega) y
      omega
    omega

theorem sum_set {α : Type} (w : α → Nat) (t' t : α) : ∀ (l : List α) (i : Nat), l[i]? = some t → ((l.set i t').map w).sum + w t = (l.map w).sum + w t'
  | [], i, h => by simp at h
  | a :: l, 0, h => by
    simp only [List.getElem?_cons_zero, Option.some.injEq] at h
    subst h
    simp only [List.set_cons_zero, List.map_cons, List.sum_cons]; omega
  | a :: l, i + 1, h => by
    have := sum_set w t' t l i (by simpa using h)
    simp only [List.set_cons_succ, List.map_cons, List.sum_cons]; omega

/-- The calls a thread makes: those that have returned, the one it is in, and those to come. -/
def calls (t : Thread A) : List A := t.results.map (·.1) ++ (t.stack.getLast?.map (·.acc)).toList ++ t.todo

theorem calls_top (t : Thread A) {f f' : Frame A} {below : List (Frame A)} (h : t.stack = f :: below) (ha : f'.acc = f.acc) : calls { t with stack := f' :: below } = calls t := by
  unfold calls
  rw [h]
  cases below with
  | nil => simp [ha]
  | cons g gs => simp [List.getLast?_cons_cons]

theorem step_shape {needs : A → List A} {rank : A → Nat} (hn : ∀ x, ∀ y ∈ needs x, rank y < rank x) {s s' : State A} {i : Nat} (hs : step needs s i = some s') :
    ∃ t t', s.threads[i]? = some t ∧ s'.threads = s.threads.set i t' ∧ threadW needs rank t' < threadW needs rank t ∧ calls t' = calls t := by
  unfold step at hs
  cases ht : s.threads[i]? with
  | none => rw [ht] at hs; cases hs
  | some t =>
    rw [ht, Option.bind_some] at hs
    refine ⟨t, ?_⟩
    unfold threadStep at hs
    cases hst : t.stack with
    | nil =>
      rw [hst] at hs
      cases htd : t.todo with
      | nil => rw [htd] at hs; cases hs
      | cons x xs =>
        rw [htd] at hs
        cases hs
        refine ⟨_, rfl, rfl, ?_, ?_⟩
        · have := cost_test hn x
          unfold threadW
          rw [hst, htd]
          simp only [List.map_cons, List.map_nil, List.sum_cons, List.sum_nil, frameW, costs] at this ⊢
          omega
        · unfold calls
          rw [hst, htd]; simp
    | cons f below =>
      rw [hst] at hs
      obtain ⟨x, pc⟩ := f
      have hw : ∀ f' : Frame A, frameW needs rank f' < frameW needs rank ⟨x, pc⟩ → threadW needs rank { t with stack := f' :: below } < threadW needs rank t := by
        intro f' h
        unfold threadW
        rw [hst]
        simp only [List.map_cons, List.sum_cons]
        omega
      cases pc with
      | test =>
        simp only [frameStep] at hs
        cases hs
        refine ⟨_, rfl, rfl, hw _ ?_, calls_top t hst rfl⟩
        split <;> simp only [frameW] <;> omega
      | lock =>
        simp only [frameStep] at hs
        split at hs
        · cases hs
          refine ⟨_, rfl, rfl, hw _ ?_, calls_top t hst rfl⟩
          simp only [frameW]; omega
        · cases hs
      | retest =>
        simp only [frameStep] at hs
        split at hs
        · cases hs
          refine ⟨_, rfl, rfl, hw _ ?_, calls_top t hst rfl⟩
          simp only [frameW]; omega
        · cases hs
          refine ⟨_, rfl, rfl, hw _ ?_, calls_top t hst rfl⟩
          simp only [frameW]; omega
      | create ys =>
        cases ys with
        | nil =>
          simp only [frameStep] at hs
          cases hs
          refine ⟨_, rfl, rfl, hw _ ?_, calls_top t hst rfl⟩
          simp only [frameW]; omega
        | cons y ys =>
          simp only [frameStep] at hs
          cases hs
          refine ⟨_, rfl, rfl, ?_, ?_⟩
          · have := cost_test hn y
            unfold threadW
            rw [hst]
            simp only [List.map_cons, List.sum_cons, frameW, costs] at this ⊢
            omega
          · refine Eq.trans ?_ (calls_top t (f' := ⟨x, .create ys⟩) hst rfl)
            unfold calls
            simp only [List.getLast?_cons_cons]
      | store =>
        simp only [frameStep] at hs
        cases hs
        refine ⟨_, rfl, rfl, hw _ ?_, calls_top t hst rfl⟩
        simp only [frameW]; omega
      | unlock =>
        simp only [frameStep] at hs
        cases hs
        refine ⟨_, rfl, rfl, hw _ ?_, calls_top t hst rfl⟩
        simp only [frameW]; omega
      | read =>
        simp only [frameStep] at hs
        cases hs
        refine ⟨_, rfl, rfl, ?_, ?_⟩
        · unfold threadW
          rw [hst]
          simp only [ret, List.map_cons, List.sum_cons, frameW]
          omega
        · unfold calls ret
          rw [hst]
          cases below with
          | nil => simp
          | cons g gs => simp [List.getLast?_cons_cons]

theorem step_weight {needs : A → List A} {rank : A → Nat} (hn : ∀ x, ∀ y ∈ needs x, rank y < rank x) {s s' : State A} {i : Nat} (hs : step needs s i = some s') :
    stateW needs rank s' < stateW needs rank s := by
  obtain ⟨t, t', h1, h2, h3, -⟩ := step_shape hn hs
  unfold stateW
  rw [h2]
  have := sum_set (threadW needs rank) t' t _ _ h1
  omega

theorem step_calls {needs : A → List A} {rank : A → Nat} (hn : ∀ x, ∀ y ∈ needs x, rank y < rank x) {s s' : State A} {i : Nat} (hs : step needs s i = some s') :
    s'.threads.map calls = s.threads.map calls := by
  obtain ⟨t, t', h1, h2, -, h4⟩ := step_shape hn hs
  rw [h2, List.map_set, h4]
  apply List.ext_getElem?
  intro j
  rw [List.getElem?_set]
  by_cases e : i = j
  · subst e
    rw [if_pos rfl]
    have hi : i < s.threads.length := by
      rcases Nat.lt_or_ge i s.threads.length with h | h
      · exact h
      · rw [List.getElem?_eq_none h] at h1; cases h1
    rw [if_pos (by simpa using hi), List.getElem?_map, h1]; rfl
  · rw [if_neg e]

theorem run_inv {needs : A → List A} {rank : A → Nat} (hn : ∀ x, ∀ y ∈ needs x, rank y < rank x) : ∀ (is : List Nat) {s s' : State A}, Inv rank s → run needs s is = some s' →
    Inv rank s' ∧ s'.threads.map calls = s.threads.map calls ∧ stateW needs rank s' + is.length ≤ stateW needs rank s
  | [], s, s', h, hr => by
    simp only [run, Option.some.injEq] at hr
    subst hr
    exact ⟨h, rfl, Nat.le_refl _⟩
  | i :: is, s, s', h, hr => by
    simp only [run] at hr
    cases hs : step needs s i with
    | none => rw [hs] at hr; cases hr
    | some s1 =>
      rw [hs, Option.bind_some] at hr
      obtain ⟨h1, h2, h3⟩ := run_inv hn is (inv_step hn h hs) hr
      have := step_weight hn hs
      refine ⟨h1, h2.trans (step_calls hn hs), ?_⟩
      simp only [List.length_cons]; omega

/-- A thread that cannot make a step has made all its calls or waits for a lock. -/
theorem stuck_top {needs : A → List A} {s : State A} {i : Nat} {t : Thread A} (ht : s.threads[i]? = some t) (hs : step needs s i = none) :
    (t.stack = [] ∧ t.todo = []) ∨ ∃ x below, t.stack = ⟨x, .lock⟩ :: below ∧ s.lock x ≠ none := by
  unfold step at hs
  rw [ht, Option.bind_some] at hs
  unfold threadStep at hs
  cases hst : t.stack with
  | nil =>
    rw [hst] at hs
    cases htd : t.todo with
    | nil => exact .inl ⟨rfl, rfl⟩
    | cons x xs => rw [htd] at hs; cases hs
  | cons f below =>
    rw [hst] at hs
    obtain ⟨x, pc⟩ := f
    cases pc with
    | lock =>
      refine .inr ⟨x, below, rfl, fun hl => ?_⟩
      simp only [frameStep] at hs
      rw [if_pos hl] at hs; cases hs
    | retest => simp only [frameStep] at hs; split at hs <;> cases hs
    | create ys => cases ys <;> simp only [frameStep] at hs <;> cases hs
    | test => simp only [frameStep] at hs; cases hs
    | store => simp only [frameStep] at hs; cases hs
    | unlock => simp only [frameStep] at hs; cases hs
    | read => simp only [frameStep] at hs; cases hs

theorem no_wait {needs : A → List A} {rank : A → Nat} {s : State A} (h : Inv rank s) (hs : ∀ i, step needs s i = none) :
    ∀ (n i : Nat) (t : Thread A) (x : A) (below : List (Frame A)), s.threads[i]? = some t → t.stack = ⟨x, .lock⟩ :: below → s.lock x ≠ none → rank x < n → False := by
  intro n
  induction n with
  | zero => intro _ _ _ _ _ _ _ h; exact absurd h (Nat.not_lt_zero _)
  | succ n ih =>
    intro i t x below _ _ hl hr
    cases hj : s.lock x with
    | none => exact hl hj
    | some j =>
      obtain ⟨f, hf, e, hc⟩ := h.holder x j hj
      unfold Frames at hf
      cases ht : s.threads[j]? with
      | none => rw [ht] at hf; cases hf
      | some u =>
        rw [ht] at hf
        have hf : f ∈ u.stack := hf
        rcases stuck_top ht (hs j) with ⟨h1, -⟩ | ⟨y, bl, h1, h2⟩
        · rw [h1] at hf; cases hf
        · have ord := h.order j
          unfold Frames at ord
          rw [ht] at ord
          have ord : u.stack.Pairwise _ := ord
          rw [h1, List.pairwise_cons] at ord
          rw [h1] at hf
          rcases List.mem_cons.mp hf with e' | hf
          · rw [e'] at hc; exact hc.elim
          · have := (ord.1 f hf).1
            rw [e] at this
            exact ih j u y bl ht h1 h2 (by have : rank y < rank x := this; omega)

theorem results_eq : ∀ (rs : List (A × Option Nat)), (∀ x o, (x, o) ∈ rs → o = some 1) → rs = (rs.map (·.1)).map fun x => (x, some 1)
  | [], _ => rfl
  | (x, o) :: rs, h => by
    have h1 := h x o (List.mem_cons_self ..)
    have h2 := results_eq rs fun y p hp => h y p (List.mem_cons_of_mem _ hp)
    subst h1
    simp only [List.map_cons]
    rw [← h2]

end Nested
end Duck
