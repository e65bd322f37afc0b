import Verif.Lemmas.PoolCalls

namespace Duck
namespace Pool

def notGone (w : Worker) : Bool := w.pc ≠ .gone

/-- Which workers are counted as idle. -/
def okIdle (rt : Bool) (w : Worker) : Prop :=
  match w.pc with
  | .waiting _ => w.idle = true
  | .napping => w.idle = true ∧ rt = true
  | .top => rt = false → w.idle = false
  | .next => rt = false → w.idle = false
  | _ => w.idle = false

structure WInv (rt : Bool) (idle cnt : Int) (nthreads : Nat) (stopper : Option StopPc) (ws : List Worker) : Prop where
  count : idle = ws.countP (·.idle)
  ok : ∀ w ∈ ws, okIdle rt w
  live : stopper = none → ws.countP notGone = nthreads ∧ cnt = 0
  stop : stopper ≠ none → cnt = ws.countP notGone
  alive : stopper = none → ∀ w ∈ ws, w.state ≠ .cancelled ∧ w.pc ≠ .leaving
  fin : ∀ w ∈ ws, w.pc = .gone → w.state = .finished

theorem set_perm : ∀ {ws : List Worker} {i : Nat} {w w' : Worker}, ws[i]? = some w →
    ∃ r : List Worker, ws.Perm (w :: r) ∧ (ws.set i w').Perm (w' :: r) := by
  intro ws
  induction ws with
  | nil => intro i w w' h; simp at h
  | cons x xs ih =>
    intro i w w' h
    cases i with
    | zero =>
      have : x = w := by simpa using h
      subst this
      exact ⟨xs, List.Perm.refl _, List.Perm.refl _⟩
    | succ i =>
      obtain ⟨r, h1, h2⟩ := ih (w' := w') (by simpa using h)
      refine ⟨x :: r, ?_, ?_⟩
      · exact (h1.cons x).trans (List.Perm.swap _ _ _)
      · exact (h2.cons x).trans (List.Perm.swap _ _ _)

theorem mem_of_get {ws : List Worker} {i : Nat} {w : Worker} (h : ws[i]? = some w) : w ∈ ws := List.mem_of_getElem? h

theorem WInv.set {rt idle cnt n st ws i w w' idle'} (h : WInv rt idle cnt n st ws) (hw : ws[i]? = some w) (hok : okIdle rt w')
    (hi : idle' = idle - (if w.idle then 1 else 0) + (if w'.idle then 1 else 0)) (hg : notGone w' = notGone w)
    (ha : st = none → w'.state ≠ .cancelled ∧ w'.pc ≠ .leaving) (hf : w'.pc = .gone → w'.state = .finished := by simp) : WInv rt idle' cnt n st (ws.set i w') := by
  obtain ⟨r, h1, h2⟩ := set_perm (w' := w') hw
  have hc : (ws.set i w').countP notGone = ws.countP notGone := by
    rw [h1.countP_eq, h2.countP_eq, List.countP_cons, List.countP_cons, hg]
  constructor
  · rw [hi, h.count, h1.countP_eq, h2.countP_eq, List.countP_cons, List.countP_cons]
    cases w.idle <;> cases w'.idle <;> simp
  · intro x hx
    rcases List.mem_or_eq_of_mem_set hx with hx | rfl
    · exact h.ok x hx
    · exact hok
  · rw [hc]; exact h.live
  · rw [hc]; exact h.stop
  · intro hs x hx
    rcases List.mem_or_eq_of_mem_set hx with hx | rfl
    · exact h.alive hs x hx
    · exact ha hs
  · intro x hx
    rcases List.mem_or_eq_of_mem_set hx with hx | rfl
    · exact h.fin x hx
    · exact hf

theorem WInv.exit {rt idle cnt n st ws i w} (h : WInv rt idle cnt n st ws) (hw : ws[i]? = some w) (hl : w.pc = .leaving) :
    1 ≤ cnt ∧ WInv rt idle (cnt - 1) n st (ws.set i { w with pc := .gone, state := .finished }) := by
  have hs : st ≠ none := fun hs => (h.alive hs w (mem_of_get hw)).2 hl
  have hi : w.idle = false := by have := h.ok w (mem_of_get hw); rw [okIdle, hl] at this; exact this
  obtain ⟨r, h1, h2⟩ := set_perm (w' := { w with pc := .gone, state := .finished }) hw
  have hc := h.stop hs
  rw [h1.countP_eq, List.countP_cons, show notGone w = true by simp [notGone, hl]] at hc
  refine ⟨by simp at hc; omega, ?_⟩
  constructor
  · rw [h.count, h1.countP_eq, h2.countP_eq, List.countP_cons, List.countP_cons]
  · intro x hx
    rcases List.mem_or_eq_of_mem_set hx with hx | rfl
    · exact h.ok x hx
    · exact hi
  · exact fun hn => absurd hn hs
  · intro _
    rw [h2.countP_eq, List.countP_cons, hc]
    simp [notGone]
  · exact fun hn => absurd hn hs
  · intro x hx
    rcases List.mem_or_eq_of_mem_set hx with hx | rfl
    · exact h.fin x hx
    · exact fun _ => rfl

theorem okIdle_wake {rt w} (h : okIdle rt w) : okIdle rt (wake w) := by
  unfold wake
  split
  · rename_i hp
    rw [okIdle, hp] at h
    exact h
  · exact h

theorem notGone_wake (w : Worker) : notGone (wake w) = notGone w := by
  unfold wake
  split
  · rename_i hp; simp [notGone, hp]
  · rfl

theorem idle_wake (w : Worker) : (wake w).idle = w.idle := by
  unfold wake
  split <;> rfl

theorem state_wake (w : Worker) : (wake w).state = w.state := by
  unfold wake
  split <;> rfl

theorem load_wake (w : Worker) : load (wake w) = load w := by
  unfold wake
  split
  · rename_i hp; simp [load, hp]
  · rfl

theorem leaving_wake {w : Worker} (h : w.pc ≠ .leaving) : (wake w).pc ≠ .leaving := by
  unfold wake
  split <;> simp [h]

theorem WInv.map {rt idle cnt n st ws} (f : Worker → Worker) (h : WInv rt idle cnt n st ws) (hs : st ≠ none)
    (h1 : ∀ w, (f w).idle = w.idle) (h2 : ∀ w, notGone (f w) = notGone w) (h3 : ∀ w, okIdle rt w → okIdle rt (f w))
    (h4 : ∀ w, (f w).state = w.state) :
    WInv rt idle cnt n st (ws.map f) := by
  have hc : (ws.map f).countP notGone = ws.countP notGone := by
    rw [List.countP_map]
    exact List.countP_congr fun x _ => by simp [h2]
  constructor
  · rw [h.count, List.countP_map]
    exact congrArg _ (List.countP_congr fun x _ => by simp [h1])
  · intro x hx
    obtain ⟨y, hy, rfl⟩ := List.mem_map.1 hx
    exact h3 y (h.ok y hy)
  · exact fun hn => absurd hn hs
  · rw [hc]; exact h.stop
  · exact fun hn => absurd hn hs
  · intro x hx
    obtain ⟨y, hy, rfl⟩ := List.mem_map.1 hx
    intro hg
    rw [h4]
    refine h.fin y hy ?_
    have := h2 y
    simpa [notGone, hg] using this

theorem cancel_pc (w : Worker) : (cancel w).pc = w.pc := by unfold cancel; split <;> rfl
theorem cancel_idle (w : Worker) : (cancel w).idle = w.idle := by unfold cancel; split <;> rfl

theorem modify_eq_set {ws : List Worker} {i : Nat} (f : Worker → Worker) :
    ws.modify i f = match ws[i]? with | some w => ws.set i (f w) | none => ws := by
  cases h : ws[i]? with
  | none => exact List.modify_eq_self (by simpa using h)
  | some w =>
    obtain ⟨hi, he⟩ := List.getElem?_eq_some_iff.1 h
    simp only
    refine List.ext_getElem (by simp) fun j h1 h2 => ?_
    rw [List.getElem_modify, List.getElem_set]
    split
    · subst i; rw [he]
    · rfl

theorem WInv.cancel {rt idle cnt n st ws i} (h : WInv rt idle cnt n st ws) (hs : st ≠ none) : WInv rt idle cnt n st (ws.modify i cancel) := by
  rw [modify_eq_set]
  split
  · rename_i w hw
    refine h.set hw ?_ (by rw [cancel_idle]; split <;> omega) (by simp [notGone, cancel_pc]) (fun hn => absurd hn hs) ?_
    · have := h.ok w (mem_of_get hw)
      rw [okIdle] at this ⊢
      rw [cancel_pc, cancel_idle]
      exact this
    · intro hg
      rw [cancel_pc] at hg
      have := h.fin w (mem_of_get hw) hg
      simp [Pool.cancel, this]
  · exact h

theorem WInv.start {rt idle cnt n ws m} (h : WInv rt idle cnt n none ws) : WInv rt idle cnt (n + m) none (ws ++ List.replicate m newWorker) := by
  have hl := h.live rfl
  constructor
  · rw [h.count, List.countP_append, show (List.replicate m newWorker).countP (·.idle) = 0 by simp [List.countP_eq_zero, newWorker]]
    rfl
  · intro x hx
    rcases List.mem_append.1 hx with hx | hx
    · exact h.ok x hx
    · rw [List.eq_of_mem_replicate hx]; exact rfl
  · intro _
    refine ⟨?_, hl.2⟩
    rw [List.countP_append, hl.1, show (List.replicate m newWorker).countP notGone = m by simp [List.countP_replicate, notGone, newWorker]]
  · exact fun hn => absurd rfl hn
  · intro _ x hx
    rcases List.mem_append.1 hx with hx | hx
    · exact h.alive rfl x hx
    · rw [List.eq_of_mem_replicate hx]; simp [newWorker]
  · intro x hx
    rcases List.mem_append.1 hx with hx | hx
    · exact h.fin x hx
    · rw [List.eq_of_mem_replicate hx]; simp [newWorker]

/-- When as many workers are idle as there are threads, no worker has a task. -/
theorem WInv.idle {rt idle cnt n ws} (h : WInv rt idle cnt n none ws) (hi : ¬ idle < n) : ∀ w ∈ ws, load w = none := by
  intro w hw
  have hl := (h.live rfl).1
  have h1 : ws.countP (·.idle) ≤ ws.countP notGone := by
    refine List.countP_mono_left fun x hx hxi => ?_
    have := h.ok x hx
    simp only [notGone, ne_eq, decide_eq_true_eq]
    intro hg
    rw [okIdle, hg] at this
    simp_all
  have hc := h.count
  have he : ws.countP (·.idle) = ws.countP notGone := by omega
  have hall : ∀ x ∈ ws, notGone x = true → x.idle = true := by
    intro x hx hg
    refine Decidable.byContradiction fun hni => ?_
    have hx' := List.perm_cons_erase hx
    rw [hx'.countP_eq, hx'.countP_eq, List.countP_cons, List.countP_cons, hg] at he
    have h2 : (ws.erase x).countP (·.idle) ≤ (ws.erase x).countP notGone := by
      refine List.countP_mono_left fun y hy hyi => ?_
      have := h.ok y (List.mem_of_mem_erase hy)
      simp only [notGone, ne_eq, decide_eq_true_eq]
      intro hg
      rw [okIdle, hg] at this
      simp_all
    simp only [hni] at he
    simp at he
    omega
  unfold load
  split
  · rename_i t hp
    have h1 := hall w hw (by simp [notGone, hp])
    have h2 := h.ok w hw
    rw [okIdle, hp] at h2
    simp_all
  · rename_i t hp
    have h1 := hall w hw (by simp [notGone, hp])
    have h2 := h.ok w hw
    rw [okIdle, hp] at h2
    simp_all
  · rfl

/-- The worker that has the mutex. -/
def HasLock (w : Worker) : Prop := w.pc = .top ∨ w.pc = .next

def LInv (lock : Option Nat) (ws : List Worker) : Prop := ∀ i, (∃ w, ws[i]? = some w ∧ HasLock w) ↔ lock = some i

theorem LInv.set {lock lock' ws i w w'} (h : LInv lock ws) (hw : ws[i]? = some w)
    (h1 : ∀ j, j ≠ i → (lock = some j ↔ lock' = some j)) (h2 : HasLock w' ↔ lock' = some i) : LInv lock' (ws.set i w') := by
  intro j
  have hi := (List.getElem?_eq_some_iff.1 hw).1
  by_cases hj : j = i
  · subst hj
    rw [List.getElem?_set_self hi, ← h2]
    constructor
    · rintro ⟨x, hx, hl⟩; cases hx; exact hl
    · exact fun hl => ⟨_, rfl, hl⟩
  · rw [List.getElem?_set_ne (fun hx => hj hx.symm), ← h1 j hj]
    exact h j

theorem LInv.map {lock ws} (f : Worker → Worker) (h : LInv lock ws) (hf : ∀ w, HasLock (f w) ↔ HasLock w) : LInv lock (ws.map f) := by
  intro j
  rw [← h j, List.getElem?_map]
  constructor
  · rintro ⟨x, hx, hl⟩
    obtain ⟨y, hy, rfl⟩ := Option.map_eq_some_iff.1 hx
    exact ⟨y, hy, (hf y).1 hl⟩
  · rintro ⟨y, hy, hl⟩
    exact ⟨f y, by rw [hy]; rfl, (hf y).2 hl⟩

theorem hasLock_wake (w : Worker) : HasLock (wake w) ↔ HasLock w := by
  unfold wake
  split
  · rename_i hp; simp [HasLock, hp]
  · exact Iff.rfl

theorem LInv.append {lock ws ws'} (h : LInv lock ws) (hn : ∀ w ∈ ws', ¬ HasLock w) : LInv lock (ws ++ ws') := by
  intro j
  rw [← h j]
  constructor
  · rintro ⟨x, hx, hl⟩
    rw [List.getElem?_append] at hx
    split at hx
    · exact ⟨x, hx, hl⟩
    · exact absurd hl (hn x (List.mem_of_getElem? hx))
  · rintro ⟨x, hx, hl⟩
    refine ⟨x, ?_, hl⟩
    rw [List.getElem?_append_left (List.getElem?_eq_some_iff.1 hx).1]
    exact hx

end Pool
end Duck
