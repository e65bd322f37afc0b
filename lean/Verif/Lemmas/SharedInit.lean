import Verif.Model.SharedInit

/-! # Lemmas about shared objects -/

namespace Duck
namespace Shared

/-- Has the lock. -/
def Pc.inside : Pc → Bool
  | .retest | .create | .build _ | .store _ | .unlock => true
  | _ => false

/-- What holds for caller `i`. -/
structure Ok (s : State) (i : Nat) (pc : Pc) : Prop where
  lock : pc.inside ↔ s.lock = some i
  creating : pc = .create → s.shared = none ∧ s.allocated = 0
  building : ∀ o, pc = .build o → s.shared = none ∧ s.allocated = 1 ∧ o = 0
  storing : ∀ o, pc = .store o → s.shared = none ∧ s.allocated = 1 ∧ o = 0 ∧ 0 ∈ s.built
  unlocking : pc = .unlock → s.shared ≠ none
  reading : pc = .read → s.shared ≠ none
  finished : ∀ r, pc = .done r → r ≠ none ∧ r = s.shared

structure Inv (s : State) : Prop where
  ok : ∀ (i : Nat) (pc : Pc), s.callers[i]? = some pc → Ok s i pc
  shared : ∀ o, s.shared = some o → o = 0 ∧ s.allocated = 1 ∧ 0 ∈ s.built
  alloc : s.shared = none → s.allocated = 0 ∨ s.allocated = 1 ∧ ∃ i pc, s.lock = some i ∧ s.callers[i]? = some pc ∧ (pc = .build 0 ∨ pc = .store 0)
  held : ∀ i, s.lock = some i → ∃ pc, s.callers[i]? = some pc ∧ pc.inside

theorem inv_init : Inv init :=
  ⟨fun i pc h => by simp [init] at h, fun o h => by simp [init] at h, fun _ => .inl rfl, fun i h => by simp [init] at h⟩

theorem get_set {l : List Pc} {i j : Nat} {pc pc' x : Pc} (h : l[i]? = some pc) (hx : (l.set i pc')[j]? = some x) :
    j = i ∧ x = pc' ∨ j ≠ i ∧ l[j]? = some x := by
  by_cases hj : j = i
  · subst hj
    rw [List.getElem?_set_self (List.getElem?_eq_some_iff.mp h).1] at hx
    exact .inl ⟨rfl, by simpa using hx.symm⟩
  · rw [List.getElem?_set_ne (fun e => hj e.symm)] at hx
    exact .inr ⟨hj, hx⟩

theorem get_self {l : List Pc} {i : Nat} {pc pc' : Pc} (h : l[i]? = some pc) : (l.set i pc')[i]? = some pc' :=
  List.getElem?_set_self (List.getElem?_eq_some_iff.mp h).1

/-- A caller without the lock is in none of the special places. -/
theorem ok_outside {s s' : State} {j : Nat} {x : Pc} (h : Ok s j x) (hin : x.inside = false) (hl : s'.lock ≠ some j)
    (hs : s.shared ≠ none → s'.shared = s.shared) : Ok s' j x := by
  have hs' : s.shared ≠ none → s'.shared ≠ none := fun h => by rw [hs h]; exact h
  refine ⟨by simp [hin, hl], fun e => ?_, fun o e => ?_, fun o e => ?_, fun e => ?_, fun e => hs' (h.reading e), fun r e => ?_⟩
  · subst e; cases hin
  · subst e; cases hin
  · subst e; cases hin
  · subst e; cases hin
  · obtain ⟨h1, h2⟩ := h.finished r e
    exact ⟨h1, by rw [h2, hs (by rw [← h2]; exact h1)]⟩

theorem step_inv {s s' : State} {a : Action} (h : Inv s) (ha : act s a = some s') : Inv s' := by
  cases a with
  | call =>
    simp only [act, Option.some.injEq] at ha
    subst ha
    have hlt : ∀ {i : Nat} {pc : Pc}, s.callers[i]? = some pc → (s.callers ++ [Pc.test])[i]? = some pc := by
      intro i pc hi
      rw [List.getElem?_append_left (List.getElem?_eq_some_iff.mp hi).1]; exact hi
    refine ⟨fun i pc hi => ?_, h.shared, fun hn => ?_, fun i hi => ?_⟩
    · rw [List.getElem?_append] at hi
      split at hi
      · have := h.ok i pc hi
        exact ⟨this.lock, this.creating, this.building, this.storing, this.unlocking, this.reading, this.finished⟩
      · rename_i hlen
        have : pc = .test := by
          cases hk : i - s.callers.length with
          | zero => rw [hk] at hi; simpa using hi.symm
          | succ k => rw [hk] at hi; simp at hi
        subst this
        refine ⟨?_, nofun, nofun, nofun, nofun, nofun, nofun⟩
        refine ⟨nofun, fun hl => ?_⟩
        obtain ⟨pc, hpc, _⟩ := h.held i hl
        exact absurd (List.getElem?_eq_some_iff.mp hpc).1 hlen
    · rcases h.alloc hn with h0 | ⟨h1, i, pc, h2, h3, h4⟩
      · exact .inl h0
      · exact .inr ⟨h1, i, pc, h2, hlt h3, h4⟩
    · obtain ⟨pc, h1, h2⟩ := h.held i hi
      exact ⟨pc, hlt h1, h2⟩
  | step i =>
    simp only [act, Option.bind_eq_some_iff] at ha
    obtain ⟨pc, hi, ha⟩ := ha
    have hok := h.ok i pc hi
    -- the others do not have the lock if `i` has it
    have others : s.lock = some i → ∀ (j : Nat) (x : Pc), j ≠ i → s.callers[j]? = some x → x.inside = false := by
      intro hl j x hj hx
      cases hin : x.inside with
      | false => rfl
      | true => exact absurd (Option.some.inj (((h.ok j x hx).lock.mp hin).symm.trans hl)) hj
    cases pc with
    | test =>
      have hl : s.lock ≠ some i := fun e => by have := hok.lock.mpr e; cases this
      simp only [step, Option.some.injEq] at ha
      have h4 : ∀ k, s.lock = some k → k ≠ i := fun k e e' => hl (e' ▸ e)
      split at ha <;> rename_i hs <;> subst ha
      · refine ⟨fun j x hx => ?_, h.shared, fun hn => absurd hn hs, fun j hj => ?_⟩
        · rcases get_set hi hx with ⟨rfl, rfl⟩ | ⟨hj, hx⟩
          · exact ⟨by simp [goto, Pc.inside, hl], nofun, nofun, nofun, nofun, fun _ => hs, nofun⟩
          · have := h.ok j x hx
            exact ⟨this.lock, this.creating, this.building, this.storing, this.unlocking, this.reading, this.finished⟩
        · obtain ⟨pc, h1, h2⟩ := h.held j hj
          exact ⟨pc, by simp only [goto]; rw [List.getElem?_set_ne (fun e => h4 j hj e.symm)]; exact h1, h2⟩
      · refine ⟨fun j x hx => ?_, h.shared, fun hn => ?_, fun j hj => ?_⟩
        · rcases get_set hi hx with ⟨rfl, rfl⟩ | ⟨hj, hx⟩
          · exact ⟨by simp [goto, Pc.inside, hl], nofun, nofun, nofun, nofun, nofun, nofun⟩
          · have := h.ok j x hx
            exact ⟨this.lock, this.creating, this.building, this.storing, this.unlocking, this.reading, this.finished⟩
        · rcases h.alloc hn with h0 | ⟨h1, k, pc, h2, h3, h5⟩
          · exact .inl h0
          · exact .inr ⟨h1, k, pc, h2, by simp only [goto]; rw [List.getElem?_set_ne (fun e => h4 k h2 e.symm)]; exact h3, h5⟩
        · obtain ⟨pc, h1, h2⟩ := h.held j hj
          exact ⟨pc, by simp only [goto]; rw [List.getElem?_set_ne (fun e => h4 j hj e.symm)]; exact h1, h2⟩
    | lock =>
      simp only [step] at ha
      split at ha
      · rename_i hl
        cases ha
        have hout : ∀ (j : Nat) (x : Pc), s.callers[j]? = some x → x.inside = false := by
          intro j x hx
          cases hin : x.inside with
          | false => rfl
          | true => have := (h.ok j x hx).lock.mp hin; rw [hl] at this; cases this
        refine ⟨fun j x hx => ?_, h.shared, fun hn => ?_, fun j hj => ?_⟩
        · rcases get_set hi hx with ⟨rfl, rfl⟩ | ⟨hj, hx⟩
          · exact ⟨by simp [goto, Pc.inside], nofun, nofun, nofun, nofun, nofun, nofun⟩
          · exact ok_outside (h.ok j x hx) (hout j x hx) (by simp [goto]; exact fun e => hj e.symm) (fun _ => rfl)
        · rcases h.alloc hn with h0 | ⟨h1, k, pc, h2, _⟩
          · exact .inl h0
          · rw [hl] at h2; cases h2
        · have : i = j := by simpa [goto] using hj
          subst this
          exact ⟨_, get_self hi, rfl⟩
      · cases ha
    | retest =>
      have hl := hok.lock.mp rfl
      simp only [step, Option.some.injEq] at ha
      have hal : s.shared = none → s.allocated = 0 := by
        intro hn
        rcases h.alloc hn with h0 | ⟨_, k, pc, h2, h3, h4⟩
        · exact h0
        · rw [hl] at h2; cases h2
          rw [hi] at h3; cases h3
          rcases h4 with h4 | h4 <;> cases h4
      split at ha <;> rename_i hs <;> subst ha
      · refine ⟨fun j x hx => ?_, h.shared, fun hn => .inl (hal hn), fun j hj => ?_⟩
        · rcases get_set hi hx with ⟨rfl, rfl⟩ | ⟨hj, hx⟩
          · exact ⟨by simp [goto, Pc.inside, hl], fun _ => ⟨hs, hal hs⟩, nofun, nofun, nofun, nofun, nofun⟩
          · exact ok_outside (h.ok j x hx) (others hl j x hj hx) (by simp only [goto, hl]; exact fun e => hj (Option.some.inj e).symm) (fun _ => rfl)
        · have : i = j := by simpa [goto, hl] using hj
          subst this
          exact ⟨_, get_self hi, rfl⟩
      · refine ⟨fun j x hx => ?_, h.shared, fun hn => absurd hn hs, fun j hj => ?_⟩
        · rcases get_set hi hx with ⟨rfl, rfl⟩ | ⟨hj, hx⟩
          · exact ⟨by simp [goto, Pc.inside, hl], nofun, nofun, nofun, fun _ => hs, nofun, nofun⟩
          · exact ok_outside (h.ok j x hx) (others hl j x hj hx) (by simp only [goto, hl]; exact fun e => hj (Option.some.inj e).symm) (fun _ => rfl)
        · have : i = j := by simpa [goto, hl] using hj
          subst this
          exact ⟨_, get_self hi, rfl⟩
    | create =>
      have hl := hok.lock.mp rfl
      obtain ⟨hs, h0⟩ := hok.creating rfl
      simp only [step, Option.some.injEq] at ha
      subst ha
      refine ⟨fun j x hx => ?_, fun o ho => ?_, fun _ => .inr ⟨by simp [goto, h0], i, _, hl, get_self hi, .inl (by rw [h0])⟩, fun j hj => ?_⟩
      · rcases get_set hi hx with ⟨rfl, rfl⟩ | ⟨hj, hx⟩
        · exact ⟨by simp [goto, Pc.inside, hl], nofun, fun o e => ⟨hs, by simp [goto, h0], by cases e; exact h0⟩, nofun, nofun, nofun, nofun⟩
        · exact ok_outside (h.ok j x hx) (others hl j x hj hx) (by simp only [goto, hl]; exact fun e => hj (Option.some.inj e).symm) (fun _ => rfl)
      · simp only [goto] at ho; rw [hs] at ho; cases ho
      · have : i = j := by simpa [goto, hl] using hj
        subst this
        exact ⟨_, get_self hi, rfl⟩
    | build o =>
      have hl := hok.lock.mp rfl
      obtain ⟨hs, h1, rfl⟩ := hok.building o rfl
      simp only [step, Option.some.injEq] at ha
      subst ha
      refine ⟨fun j x hx => ?_, fun o ho => ?_, fun _ => .inr ⟨h1, i, _, hl, get_self hi, .inr rfl⟩, fun j hj => ?_⟩
      · rcases get_set hi hx with ⟨rfl, rfl⟩ | ⟨hj, hx⟩
        · exact ⟨by simp [goto, Pc.inside, hl], nofun, nofun, fun o e => ⟨hs, h1, by cases e; rfl, by simp [goto]⟩, nofun, nofun, nofun⟩
        · exact ok_outside (h.ok j x hx) (others hl j x hj hx) (by simp only [goto, hl]; exact fun e => hj (Option.some.inj e).symm) (fun _ => rfl)
      · simp only [goto] at ho; rw [hs] at ho; cases ho
      · have : i = j := by simpa [goto, hl] using hj
        subst this
        exact ⟨_, get_self hi, rfl⟩
    | store o =>
      have hl := hok.lock.mp rfl
      obtain ⟨hs, h1, rfl, h2⟩ := hok.storing o rfl
      simp only [step, Option.some.injEq] at ha
      subst ha
      refine ⟨fun j x hx => ?_, fun o ho => ?_, nofun, fun j hj => ?_⟩
      · rcases get_set hi hx with ⟨rfl, rfl⟩ | ⟨hj, hx⟩
        · exact ⟨by simp [goto, Pc.inside, hl], nofun, nofun, nofun, fun _ => by simp [goto], nofun, nofun⟩
        · exact ok_outside (h.ok j x hx) (others hl j x hj hx) (by simp only [goto, hl]; exact fun e => hj (Option.some.inj e).symm)
            (fun e => absurd hs e)
      · simp only [goto, Option.some.injEq] at ho
        exact ⟨ho.symm, h1, h2⟩
      · have : i = j := by simpa [goto, hl] using hj
        subst this
        exact ⟨_, get_self hi, rfl⟩
    | unlock =>
      have hl := hok.lock.mp rfl
      have hs := hok.unlocking rfl
      simp only [step, Option.some.injEq] at ha
      subst ha
      refine ⟨fun j x hx => ?_, h.shared, fun e => absurd e hs, fun j hj => by simp [goto] at hj⟩
      rcases get_set hi hx with ⟨rfl, rfl⟩ | ⟨hj, hx⟩
      · exact ⟨by simp [goto, Pc.inside], nofun, nofun, nofun, nofun, fun _ => hs, nofun⟩
      · exact ok_outside (h.ok j x hx) (others hl j x hj hx) (by simp [goto]) (fun _ => rfl)
    | read =>
      have hl : s.lock ≠ some i := fun e => by have := hok.lock.mpr e; cases this
      have hs := hok.reading rfl
      simp only [step, Option.some.injEq] at ha
      subst ha
      refine ⟨fun j x hx => ?_, h.shared, fun e => absurd e hs, fun j hj => ?_⟩
      · rcases get_set hi hx with ⟨rfl, rfl⟩ | ⟨hj, hx⟩
        · exact ⟨by simp [goto, Pc.inside, hl], nofun, nofun, nofun, nofun, nofun, fun r e => by cases e; exact ⟨hs, rfl⟩⟩
        · have := h.ok j x hx
          exact ⟨this.lock, this.creating, this.building, this.storing, this.unlocking, this.reading, this.finished⟩
      · obtain ⟨pc, h1, h2⟩ := h.held j hj
        exact ⟨pc, by simp only [goto]; rw [List.getElem?_set_ne (fun e : i = j => hl (by rw [e]; exact hj))]; exact h1, h2⟩
    | done r => simp [step] at ha

theorem reach_inv {s : State} (h : Reach s) : Inv s := by
  induction h with
  | init => exact inv_init
  | step _ ha ih => exact step_inv ih ha

/-- How many statements are left. -/
def Pc.left : Pc → Nat
  | .test => 8
  | .lock => 7
  | .retest => 6
  | .create => 5
  | .build _ => 4
  | .store _ => 3
  | .unlock => 2
  | .read => 1
  | .done _ => 0

def left (s : State) : Nat := (s.callers.map Pc.left).sum

theorem sum_set {l : List Pc} {i : Nat} {pc pc' : Pc} (h : l[i]? = some pc) :
    ((l.set i pc').map Pc.left).sum + pc.left = (l.map Pc.left).sum + pc'.left := by
  induction l generalizing i with
  | nil => simp at h
  | cons x l ih =>
    cases i with
    | zero => simp at h; subst h; simp; omega
    | succ i => have := ih (i := i) (by simpa using h); simp at this ⊢; omega

theorem step_left {s s' : State} {i : Nat} (ha : act s (.step i) = some s') : left s' < left s := by
  simp only [act, Option.bind_eq_some_iff] at ha
  obtain ⟨pc, hi, ha⟩ := ha
  have key : ∀ {t : State} {pc' : Pc}, t.callers = s.callers → pc'.left < pc.left → left (goto t i pc') < left s := by
    intro t pc' ht hlt
    have := sum_set (pc' := pc') hi
    simp only [left, goto, ht]; omega
  cases pc <;> simp only [step, Option.some.injEq] at ha
  · split at ha <;> subst ha <;> exact key rfl (by decide)
  · split at ha
    · cases ha; exact key rfl (by decide)
    · cases ha
  · split at ha <;> subst ha <;> exact key rfl (by decide)
  · subst ha; exact key rfl (by simp [Pc.left])
  · subst ha; exact key rfl (by simp [Pc.left])
  · subst ha; exact key rfl (by simp [Pc.left])
  · subst ha; exact key rfl (by decide)
  · subst ha; exact key rfl (by simp [Pc.left])
  · cases ha

end Shared
end Duck
