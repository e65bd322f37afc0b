import Verif.Lemmas.PoolLog

namespace Duck
namespace Pool

/-- The task a worker has, and whether it is being executed. -/
def load (w : Worker) : Option (Bool × Task) :=
  match w.pc with
  | .running t => some (true, t)
  | .done t => some (false, t)
  | _ => none

def jobs (ws : List Worker) : List (Bool × Task) := ws.filterMap load

def Queue.items (q : Queue) : Kind → List Task
  | .task => q.tasks
  | .completion => q.completions

def holds (g : Nat) (j : Bool × Task) : Bool := j.2.taskGroup = g

structure QInv (qs : List Queue) (ng id : Nat) (log : List Event) (js : List (Bool × Task)) : Prop where
  grp : ∀ q ∈ qs, 1 ≤ q.taskGroup ∧ q.taskGroup ≤ ng
  nod : (qs.map (·.taskGroup)).Nodup
  own : ∀ t ∈ added log, t.id < id ∧ t.owner ≤ ng ∧ (t.kind = .task → 1 ≤ t.owner)
  link : ∀ q ∈ qs, ∀ k, ∀ t ∈ q.items k, t.kind = k ∧ t.owner = q.taskGroup ∧ t.taskGroup = if k = .task then q.taskGroup else 0
  pref : ∀ k g, ofGroup k g (started log) <+: ofGroup k g (added log)
  zero : ∀ k, ofGroup k 0 (added log) = ofGroup k 0 (started log)
  fifo : ∀ q ∈ qs, ∀ k, ofGroup k q.taskGroup (added log) = ofGroup k q.taskGroup (started log) ++ q.items k
  pend : ∀ q ∈ qs, q.pendingTasks = q.tasks.length + js.countP (holds q.taskGroup)
  run : ∀ t ∈ started log, t ∈ finished log ∨ (true, t) ∈ js
  held : ∀ b t, (b, t) ∈ js → t ∈ started log ∧ t.taskGroup = if t.kind = .task then t.owner else 0
  closed : ∀ q ∈ qs, (∃ c ∈ added log, c.kind = .completion ∧ c.owner = q.taskGroup) → q.closed = true
  waited : ∀ a g b, log = a ++ .waited g :: b → 1 ≤ g → (∃ u ∈ added a, u.owner = g) → g ∉ qs.map (·.taskGroup)
  absent : Event.removed ∉ log → ∀ g, g ∉ qs.map (·.taskGroup) →
    (∀ t ∈ added log, t.owner = g → t ∈ started log) ∧ (∀ t ∈ added log, t.kind = .task → t.owner = g → t ∈ finished log) ∧
    (1 ≤ g → js.countP (holds g) = 0)
  hist : Hist Fits log

theorem QInv.init : QInv [] 0 0 [] [] := by
  constructor <;> simp [added, started, finished, ofGroup, hist_nil]

theorem QInv.perm {qs ng id log js js'} (h : QInv qs ng id log js) (hp : js.Perm js') : QInv qs ng id log js' :=
  { h with
    pend := fun q hq => by rw [h.pend q hq, hp.countP_eq]
    run := fun t ht => (h.run t ht).imp_right fun h => hp.mem_iff.1 h
    held := fun b t ht => h.held b t (hp.mem_iff.2 ht)
    absent := fun hr g hg => by rw [← hp.countP_eq]; exact h.absent hr g hg }

theorem started_added {qs ng id log js} (h : QInv qs ng id log js) {t} (ht : t ∈ started log) : t ∈ added log :=
  (mem_ofGroup.1 ((h.pref t.kind t.owner).subset (mem_ofGroup.2 ⟨ht, rfl, rfl⟩))).1

theorem items_added {qs ng id log js} (h : QInv qs ng id log js) {q} (hq : q ∈ qs) {k t} (ht : t ∈ q.items k) : t ∈ added log := by
  have := h.fifo q hq k
  exact (mem_ofGroup.1 (this ▸ List.mem_append_right _ ht)).1

/-- Nothing is left of the queue. -/
def DoneQ (q : Queue) : Prop := q.tasks = [] ∧ q.pendingTasks = 0 ∧ q.completions = []

/-- Removing the queues nothing is left of. -/
theorem QInv.drop {qs qs' ng id log js} (h : QInv qs ng id log js) (hs : qs'.Sublist qs) (hd : ∀ q ∈ qs, q ∈ qs' ∨ DoneQ q) :
    QInv qs' ng id log js :=
  { h with
    grp := fun q hq => h.grp q (hs.subset hq)
    nod := (hs.map _).nodup h.nod
    link := fun q hq => h.link q (hs.subset hq)
    fifo := fun q hq => h.fifo q (hs.subset hq)
    pend := fun q hq => h.pend q (hs.subset hq)
    closed := fun q hq => h.closed q (hs.subset hq)
    waited := fun a g b e hg hu hm => h.waited a g b e hg hu ((hs.map _).subset hm)
    absent := fun hr g hg => by
      by_cases hg' : g ∈ qs.map (·.taskGroup)
      · obtain ⟨q, hq, rfl⟩ := List.mem_map.1 hg'
        have hD : DoneQ q := (hd q hq).resolve_left fun hx => hg (List.mem_map_of_mem hx)
        obtain ⟨h1, h2, h3⟩ := hD
        have hp := h.pend q hq
        rw [h1, h2] at hp
        have hc : js.countP (holds q.taskGroup) = 0 := by simp at hp; omega
        have hst : ∀ t ∈ added log, t.owner = q.taskGroup → t ∈ started log := by
          intro t ht ho
          have hf := h.fifo q hq t.kind
          have : q.items t.kind = [] := by cases t.kind <;> assumption
          rw [this, List.append_nil] at hf
          exact (mem_ofGroup.1 (hf ▸ mem_ofGroup.2 ⟨ht, rfl, ho⟩)).1
        refine ⟨hst, ?_, fun _ => hc⟩
        intro t ht hk ho
        refine (h.run t (hst t ht ho)).resolve_right fun hj => ?_
        have := List.countP_eq_zero.1 hc _ hj
        have hh := (h.held _ _ hj).2
        rw [if_pos hk] at hh
        exact this (by simp [holds, hh, ho])
      · exact h.absent hr g hg' }

theorem added_nodup : ∀ {log : List Event}, Hist Fits log → (added log).Nodup := by
  intro log
  refine snoc_induction (P := fun log => Hist Fits log → (added log).Nodup) (fun _ => List.nodup_nil) ?_ log
  intro l e ih h
  have h1 : Hist Fits l := fun a x b hx => h a x (b ++ [e]) (by simp [hx])
  have h2 : Fits l e := h l e [] (by simp)
  rw [added_append]
  cases e with
  | added t =>
    refine List.nodup_append.2 ⟨ih h1, by simp [added], ?_⟩
    intro x hx y hy
    have : y = t := by simpa [added] using hy
    subst this
    intro he
    subst he
    exact absurd (h2.1 _ hx) (Nat.lt_irrefl _)
  | _ => simpa [added] using ih h1

/-- `t` is the first task of `q`, or its first completion when no task is left or running; `q'` is what is left. -/
structure Pop (q : Queue) (k : Kind) (t : Task) (q' : Queue) : Prop where
  here : q.items k = t :: q'.items k
  there : ∀ k', k' ≠ k → q'.items k' = q.items k'
  group : q'.taskGroup = q.taskGroup
  pending : q'.pendingTasks = q.pendingTasks
  closed : q'.closed = q.closed
  comp : k = .completion → q.tasks = [] ∧ q.pendingTasks = 0

theorem others {qs a b : List Queue} {q : Queue} (he : qs = a ++ q :: b) (hn : (qs.map (·.taskGroup)).Nodup) :
    ∀ x, x ∈ a ∨ x ∈ b → x.taskGroup ≠ q.taskGroup := by
  subst he
  rw [List.map_append, List.map_cons, List.nodup_append] at hn
  obtain ⟨h1, h2, h3⟩ := hn
  rw [List.nodup_cons] at h2
  rintro x (hx | hx)
  · exact h3 _ (List.mem_map_of_mem hx) _ List.mem_cons_self
  · intro hg
    exact h2.1 (hg ▸ List.mem_map_of_mem hx)

theorem mem_replace {a b : List Queue} {q q' x : Queue} (h : x ∈ a ++ q' :: b) : x = q' ∨ (x ∈ a ++ q :: b ∧ (x ∈ a ∨ x ∈ b)) := by
  simp only [List.mem_append, List.mem_cons] at h ⊢
  rcases h with h | h | h
  · exact .inr ⟨.inl h, .inl h⟩
  · exact .inl h
  · exact .inr ⟨.inr (.inr h), .inr h⟩

theorem QInv.pop {a b q q' ng id log js k t} (h : QInv (a ++ q :: b) ng id log js) (hp : Pop q k t q') :
    QInv (a ++ q' :: b) ng id (log ++ [.started t]) ((true, t) :: js) := by
  have hq : q ∈ a ++ q :: b := by simp
  have hm : (a ++ q' :: b).map (·.taskGroup) = (a ++ q :: b).map (·.taskGroup) := by simp [hp.group]
  have hoth := others rfl h.nod
  have hl := h.link q hq k t (by rw [hp.here]; simp)
  have hf := h.fifo q hq k
  rw [hp.here] at hf
  have hg1 := (h.grp q hq).1
  have ha : added (log ++ [.started t]) = added log := by simp [added]
  have hs : started (log ++ [.started t]) = started log ++ [t] := by simp [started]
  have hfi : finished (log ++ [.started t]) = finished log := by simp [finished]
  have hadd : t ∈ added log := items_added h hq (k := k) (by rw [hp.here]; simp)
  have hhold : ∀ g, 1 ≤ g → g ≠ q.taskGroup → holds g (true, t) = false := by
    intro g hg hne
    simp only [holds, hl.2.2, decide_eq_false_iff_not]
    split <;> omega
  constructor
  · intro x hx
    rcases mem_replace (q := q) hx with rfl | ⟨hx, -⟩
    · rw [hp.group]; exact h.grp q hq
    · exact h.grp x hx
  · rw [hm]; exact h.nod
  · rw [ha]; exact h.own
  · intro x hx k' u hu
    rcases mem_replace (q := q) hx with rfl | ⟨hx, -⟩
    · rw [hp.group]
      refine h.link q hq k' u ?_
      by_cases hk : k' = k
      · subst hk; rw [hp.here]; exact List.mem_cons_of_mem _ hu
      · rw [← hp.there k' hk]; exact hu
    · exact h.link x hx k' u hu
  · intro k' g
    rw [ha, hs, ofGroup_append]
    by_cases hc : t.kind = k' ∧ t.owner = g
    · rw [ofGroup_one_pos hc]
      obtain ⟨rfl, rfl⟩ := hc
      rw [hl.1, hl.2.1, hf]
      exact ⟨q'.items k, by simp⟩
    · rw [ofGroup_one_neg hc, List.append_nil]
      exact h.pref k' g
  · intro k'
    rw [ha, hs, ofGroup_append, ofGroup_one_neg (fun hc => by have := hl.2.1; have := hc.2; omega), List.append_nil]
    exact h.zero k'
  · intro x hx k'
    rw [ha, hs, ofGroup_append]
    rcases mem_replace (q := q) hx with rfl | ⟨hx, ho⟩
    · rw [hp.group]
      by_cases hk : k' = k
      · subst hk
        rw [ofGroup_one_pos ⟨hl.1, hl.2.1⟩, hf]
        simp
      · rw [ofGroup_one_neg (fun hc => hk (hc.1.symm.trans hl.1)), List.append_nil, hp.there k' hk]
        exact h.fifo q hq k'
    · rw [ofGroup_one_neg (fun hc => hoth x ho (hc.2.symm.trans hl.2.1)), List.append_nil]
      exact h.fifo x hx k'
  · intro x hx
    rw [List.countP_cons]
    rcases mem_replace (q := q) hx with rfl | ⟨hx, ho⟩
    · rw [hp.group, hp.pending, h.pend q hq]
      cases k with
      | task =>
        have h1 : q.tasks = t :: x.tasks := hp.here
        have h2 : holds q.taskGroup (true, t) = true := by simp [holds, hl.2.2]
        rw [h1, h2]
        simp
        omega
      | completion =>
        have h1 : x.tasks = q.tasks := hp.there .task (by decide)
        have h2 : holds q.taskGroup (true, t) = false := by simp [holds, hl.2.2]; omega
        rw [h1, h2]
        simp
    · rw [h.pend x hx, hhold x.taskGroup (h.grp x hx).1 (hoth x ho)]
      simp
  · rw [hs, hfi]
    intro u hu
    rcases List.mem_append.1 hu with hu | hu
    · exact (h.run u hu).imp_right (List.mem_cons_of_mem _)
    · simp at hu
      subst hu
      exact .inr List.mem_cons_self
  · rw [hs]
    intro c u hu
    rcases List.mem_cons.1 hu with hu | hu
    · obtain ⟨rfl, rfl⟩ := Prod.mk.inj hu
      refine ⟨by simp, ?_⟩
      rw [hl.2.2, hl.1, hl.2.1]
    · exact ⟨List.mem_append_left _ (h.held c u hu).1, (h.held c u hu).2⟩
  · rw [ha]
    intro x hx hc
    rcases mem_replace (q := q) hx with rfl | ⟨hx, -⟩
    · rw [hp.closed]; rw [hp.group] at hc; exact h.closed q hq hc
    · exact h.closed x hx hc
  · intro a' g b' he
    rw [hm]
    rcases snoc_split he with ⟨-, -, h2⟩ | ⟨l', -, h2⟩
    · cases h2
    · exact h.waited a' g l' h2
  · intro hr g hg
    rw [hm] at hg
    rw [ha, hs, hfi]
    obtain ⟨h1, h2, h3⟩ := h.absent (fun hx => hr (List.mem_append_left _ hx)) g hg
    refine ⟨fun u hu ho => List.mem_append_left _ (h1 u hu ho), h2, fun h1g => ?_⟩
    rw [List.countP_cons, h3 h1g, hhold g h1g fun hx => hg (hx ▸ List.mem_map_of_mem hq)]
    rfl
  · refine hist_snoc h.hist ⟨hadd, ?_, ?_⟩
    · intro hst
      have hn : (ofGroup k q.taskGroup (added log)).Nodup := (added_nodup h.hist).filter _
      rw [hf] at hn
      exact (List.nodup_append.1 hn).2.2 t (mem_ofGroup.2 ⟨hst, hl.1, hl.2.1⟩) t List.mem_cons_self rfl
    · intro hk u hu huk huo
      obtain ⟨h1, h2⟩ := hp.comp (hl.1.symm.trans hk)
      have hft := h.fifo q hq .task
      have hpe := h.pend q hq
      rw [h1, h2] at hpe
      have hc : js.countP (holds q.taskGroup) = 0 := by simp at hpe; omega
      have h1' : q.items .task = [] := h1
      rw [h1', List.append_nil] at hft
      rw [hl.2.1] at huo
      have hst : u ∈ started log := (mem_ofGroup.1 (hft ▸ mem_ofGroup.2 ⟨hu, huk, huo⟩)).1
      refine (h.run u hst).resolve_right fun hj => ?_
      have := List.countP_eq_zero.1 hc _ hj
      have hh := (h.held _ _ hj).2
      rw [if_pos huk] at hh
      exact this (by simp [holds, hh, huo])

theorem getNext_some : ∀ {qs : List Queue} {t : Task}, (getNextTask qs).2 = some t →
    ∃ a q b k q', (a ++ q :: b).Sublist qs ∧ (∀ x ∈ qs, x ∈ a ++ q :: b ∨ DoneQ x) ∧ Pop q k t q' ∧ (getNextTask qs).1 = a ++ q' :: b := by
  intro qs
  induction qs with
  | nil => intro t h; simp [getNextTask] at h
  | cons q qs ih =>
    intro t h
    unfold getNextTask at h ⊢
    split at h
    · rename_i u ts hts
      have : u = t := by simpa using h
      subst this
      refine ⟨[], q, qs, .task, { q with tasks := ts }, List.Sublist.refl _, fun x hx => .inl hx, ?_, by simp⟩
      exact ⟨hts, fun k' hk => by cases k' <;> simp_all [Queue.items], rfl, rfl, rfl, nofun⟩
    · rename_i hts
      split at h
      · rename_i hp
        split at h
        · rename_i c cs hcs
          have : c = t := by simpa using h
          subst this
          refine ⟨[], q, qs, .completion, { q with completions := cs }, List.Sublist.refl _, fun x hx => .inl hx, ?_, by simp [hp]⟩
          exact ⟨hcs, fun k' hk => by cases k' <;> simp_all [Queue.items], rfl, rfl, rfl, fun _ => ⟨hts, hp⟩⟩
        · rename_i hcs
          obtain ⟨a, q0, b, k, q', h1, h2, h3, h4⟩ := ih h
          refine ⟨a, q0, b, k, q', h1.cons _, ?_, h3, by simp [hp, h4]⟩
          intro x hx
          rcases List.mem_cons.1 hx with rfl | hx
          · exact .inr ⟨hts, hp, hcs⟩
          · exact h2 x hx
      · rename_i hp
        obtain ⟨a, q0, b, k, q', h1, h2, h3, h4⟩ := ih h
        refine ⟨q :: a, q0, b, k, q', h1.cons_cons _, ?_, h3, by simp [hp, h4]⟩
        intro x hx
        rcases List.mem_cons.1 hx with rfl | hx
        · exact .inl (by simp)
        · exact (h2 x hx).imp_left fun h => List.mem_cons_of_mem _ h

theorem getNext_none : ∀ {qs : List Queue}, (getNextTask qs).2 = none →
    (getNextTask qs).1.Sublist qs ∧ (∀ x ∈ qs, x ∈ (getNextTask qs).1 ∨ DoneQ x) ∧ ∀ x ∈ (getNextTask qs).1, x.tasks = [] ∧ x.pendingTasks ≠ 0 := by
  intro qs
  induction qs with
  | nil => intro _; simp [getNextTask]
  | cons q qs ih =>
    intro h
    unfold getNextTask at h ⊢
    split at h
    · simp at h
    · rename_i hts
      split at h
      · rename_i hp
        split at h
        · simp at h
        · rename_i hcs
          obtain ⟨h1, h2, h3⟩ := ih h
          simp only [if_pos hp]
          refine ⟨h1.cons _, ?_, h3⟩
          intro x hx
          rcases List.mem_cons.1 hx with rfl | hx
          · exact .inr ⟨hts, hp, hcs⟩
          · exact h2 x hx
      · rename_i hp
        obtain ⟨h1, h2, h3⟩ := ih h
        simp only [if_neg hp]
        refine ⟨h1.cons_cons _, ?_, ?_⟩
        · intro x hx
          rcases List.mem_cons.1 hx with rfl | hx
          · exact .inl (by simp)
          · exact (h2 x hx).imp_left fun h => List.mem_cons_of_mem _ h
        · intro x hx
          rcases List.mem_cons.1 hx with rfl | hx
          · exact ⟨hts, hp⟩
          · exact h3 x hx

end Pool
end Duck
