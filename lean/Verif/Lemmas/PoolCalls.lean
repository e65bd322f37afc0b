import Verif.Lemmas.PoolQueue

namespace Duck
namespace Pool

/-- An event that is neither of a task nor a removal. -/
theorem QInv.mark {qs ng id log js e} (h : QInv qs ng id log js) (ha : added [e] = []) (hs : started [e] = []) (hf : finished [e] = [])
    (hw : ∀ g, e = .waited g → 1 ≤ g → (∃ u ∈ added log, u.owner = g) → g ∉ qs.map (·.taskGroup)) (hfit : Fits log e) :
    QInv qs ng id (log ++ [e]) js := by
  have ha' : added (log ++ [e]) = added log := by rw [added_append, ha, List.append_nil]
  have hs' : started (log ++ [e]) = started log := by rw [started_append, hs, List.append_nil]
  have hf' : finished (log ++ [e]) = finished log := by rw [finished_append, hf, List.append_nil]
  constructor
  · exact h.grp
  · exact h.nod
  · rw [ha']; exact h.own
  · exact h.link
  · rw [ha', hs']; exact h.pref
  · rw [ha', hs']; exact h.zero
  · rw [ha', hs']; exact h.fifo
  · exact h.pend
  · rw [hs', hf']; exact h.run
  · rw [hs']; exact h.held
  · rw [ha']; exact h.closed
  · intro a g b he hg hu
    rcases snoc_split he with ⟨-, h1, h2⟩ | ⟨l', -, h2⟩
    · subst h1
      exact hw g h2.symm hg hu
    · exact h.waited a g l' h2 hg hu
  · rw [ha', hs', hf']
    intro hrm
    exact h.absent fun hx => hrm (List.mem_append_left _ hx)
  · exact hist_snoc h.hist hfit

theorem QInv.idled {qs ng id log js} (h : QInv qs ng id log js) (hi : ∀ t, (true, t) ∉ js) : QInv qs ng id (log ++ [.idled]) js :=
  h.mark rfl rfl rfl (fun _ he => nomatch he) fun t ht => (h.run t ht).resolve_right (hi t)

theorem QInv.wait {qs ng id log js g} (h : QInv qs ng id log js) (hg : g ∉ qs.map (·.taskGroup)) : QInv qs ng id (log ++ [.waited g]) js := by
  refine h.mark rfl rfl rfl ?_ ?_
  · intro g' he _ _
    cases he
    exact hg
  · intro hr t ht hk ho
    exact (h.absent hr g hg).2.1 t ht hk ho

theorem QInv.remove {qs ng id log js} (h : QInv qs ng id log js) : QInv [] ng id (log ++ [.removed]) js := by
  have ha' : added (log ++ [.removed]) = added log := by simp [added]
  have hs' : started (log ++ [.removed]) = started log := by simp [started]
  have hf' : finished (log ++ [.removed]) = finished log := by simp [finished]
  constructor
  · simp
  · simp
  · rw [ha']; exact h.own
  · simp
  · rw [ha', hs']; exact h.pref
  · rw [ha', hs']; exact h.zero
  · simp
  · simp
  · rw [hs', hf']; exact h.run
  · rw [hs']; exact h.held
  · simp
  · simp
  · intro hr; simp at hr
  · exact hist_snoc h.hist trivial

theorem QInv.finish {qs ng id log js t} (h : QInv qs ng id log ((true, t) :: js)) :
    QInv qs ng id (log ++ [.finished t]) ((false, t) :: js) := by
  have ha' : added (log ++ [.finished t]) = added log := by simp [added]
  have hs' : started (log ++ [.finished t]) = started log := by simp [started]
  have hf' : finished (log ++ [.finished t]) = finished log ++ [t] := by simp [finished]
  have hc : ∀ g, List.countP (holds g) ((false, t) :: js) = List.countP (holds g) ((true, t) :: js) := by
    intro g; simp [List.countP_cons, holds]
  constructor
  · exact h.grp
  · exact h.nod
  · rw [ha']; exact h.own
  · exact h.link
  · rw [ha', hs']; exact h.pref
  · rw [ha', hs']; exact h.zero
  · rw [ha', hs']; exact h.fifo
  · intro q hq; rw [hc]; exact h.pend q hq
  · rw [hs', hf']
    intro u hu
    rcases h.run u hu with h1 | h1
    · exact .inl (List.mem_append_left _ h1)
    · rcases List.mem_cons.1 h1 with h1 | h1
      · have := (Prod.mk.inj h1).2
        subst this
        exact .inl (by simp)
      · exact .inr (List.mem_cons_of_mem _ h1)
  · rw [hs']
    intro b u hu
    rcases List.mem_cons.1 hu with hu | hu
    · have := (Prod.mk.inj hu).2
      subst this
      exact h.held true u List.mem_cons_self
    · exact h.held b u (List.mem_cons_of_mem _ hu)
  · rw [ha']; exact h.closed
  · intro a g b he
    rcases snoc_split he with ⟨-, -, h2⟩ | ⟨l', -, h2⟩
    · cases h2
    · exact h.waited a g l' h2
  · rw [ha', hs', hf']
    intro hr g hg
    rw [hc]
    obtain ⟨h1, h2, h3⟩ := h.absent (fun hx => hr (List.mem_append_left _ hx)) g hg
    exact ⟨h1, fun u hu hk ho => List.mem_append_left _ (h2 u hu hk ho), h3⟩
  · exact hist_snoc h.hist (h.held true t List.mem_cons_self).1

theorem find_group {qs : List Queue} {g : Nat} :
    (∃ q, qs.find? (fun q => q.taskGroup = g) = some q ∧ q ∈ qs ∧ q.taskGroup = g) ∨
    (qs.find? (fun q => q.taskGroup = g) = none ∧ g ∉ qs.map (·.taskGroup)) := by
  cases h : qs.find? (fun q => q.taskGroup = g) with
  | some q => exact .inl ⟨q, rfl, List.mem_of_find?_eq_some h, by simpa using List.find?_some h⟩
  | none =>
    refine .inr ⟨rfl, ?_⟩
    rw [List.find?_eq_none] at h
    intro hm
    obtain ⟨q, hq, hg⟩ := List.mem_map.1 hm
    exact h q hq (by simpa using hg)

theorem QInv.complete {qs qs' ng id log js t} (h : QInv qs ng id log ((false, t) :: js)) (hc : completeTask qs t = some qs') :
    QInv qs' ng id log js := by
  have hh := h.held false t List.mem_cons_self
  have hheld : ∀ b u, (b, u) ∈ js → u ∈ started log ∧ u.taskGroup = if u.kind = .task then u.owner else 0 :=
    fun b u hu => h.held b u (List.mem_cons_of_mem _ hu)
  have hrun : ∀ u ∈ started log, u ∈ finished log ∨ (true, u) ∈ js := by
    intro u hu
    refine (h.run u hu).imp_right fun hx => ?_
    rcases List.mem_cons.1 hx with hx | hx
    · cases hx
    · exact hx
  have habs : Event.removed ∉ log → ∀ g, g ∉ qs.map (·.taskGroup) →
      (∀ t ∈ added log, t.owner = g → t ∈ started log) ∧ (∀ t ∈ added log, t.kind = .task → t.owner = g → t ∈ finished log) ∧
      (1 ≤ g → js.countP (holds g) = 0) := by
    intro hr g hg
    obtain ⟨h1, h2, h3⟩ := h.absent hr g hg
    refine ⟨h1, h2, fun hg1 => ?_⟩
    have := h3 hg1
    rw [List.countP_cons] at this
    omega
  unfold completeTask at hc
  split at hc
  · rename_i h0
    cases hc
    exact { h with
      pend := fun q hq => by
        have := h.pend q hq
        have hg := (h.grp q hq).1
        rw [List.countP_cons, show holds q.taskGroup (false, t) = false by simp [holds, h0]; omega] at this
        simpa using this
      run := hrun, held := hheld, absent := habs }
  · rename_i h0
    rcases find_group (qs := qs) (g := t.taskGroup) with ⟨q, hf, hq, hg⟩ | ⟨hf, -⟩
    · rw [hf] at hc
      simp only at hc
      split at hc
      · cases hc
      · cases hc
        have hm : (qs.map fun q => if q.taskGroup = t.taskGroup then { q with pendingTasks := q.pendingTasks - 1 } else q).map (·.taskGroup) =
            qs.map (·.taskGroup) := by
          rw [List.map_map]
          refine List.map_congr_left fun x _ => ?_
          simp only [Function.comp]
          split <;> rfl
        have hmem : ∀ x ∈ qs.map (fun q => if q.taskGroup = t.taskGroup then { q with pendingTasks := q.pendingTasks - 1 } else q),
            ∃ y ∈ qs, x.taskGroup = y.taskGroup ∧ x.tasks = y.tasks ∧ x.completions = y.completions ∧ x.closed = y.closed ∧
              x.pendingTasks = if y.taskGroup = t.taskGroup then y.pendingTasks - 1 else y.pendingTasks := by
          intro x hx
          obtain ⟨y, hy, rfl⟩ := List.mem_map.1 hx
          refine ⟨y, hy, ?_⟩
          split <;> simp
        constructor
        · intro x hx
          obtain ⟨y, hy, h1, -⟩ := hmem x hx
          rw [h1]; exact h.grp y hy
        · rw [hm]; exact h.nod
        · exact h.own
        · intro x hx k
          obtain ⟨y, hy, h1, h2, h3, -⟩ := hmem x hx
          have : x.items k = y.items k := by cases k <;> assumption
          rw [h1, this]; exact h.link y hy k
        · exact h.pref
        · exact h.zero
        · intro x hx k
          obtain ⟨y, hy, h1, h2, h3, -⟩ := hmem x hx
          have : x.items k = y.items k := by cases k <;> assumption
          rw [h1, this]; exact h.fifo y hy k
        · intro x hx
          obtain ⟨y, hy, h1, h2, h3, h4, h5⟩ := hmem x hx
          have := h.pend y hy
          rw [List.countP_cons] at this
          rw [h5, h2, h1, this]
          by_cases hyt : y.taskGroup = t.taskGroup
          · have : holds y.taskGroup (false, t) = true := by simp [holds, hyt]
            rw [if_pos hyt, this]
            simp
            omega
          · have : holds y.taskGroup (false, t) = false := by simp only [holds, decide_eq_false_iff_not]; exact fun hx => hyt hx.symm
            rw [if_neg hyt, this]
            simp
        · exact hrun
        · exact hheld
        · intro x hx hc
          obtain ⟨y, hy, h1, h2, h3, h4, h5⟩ := hmem x hx
          rw [h4]; rw [h1] at hc; exact h.closed y hy hc
        · intro a g b he
          rw [hm]; exact h.waited a g b he
        · intro hr g
          rw [hm]; exact habs hr g
        · exact h.hist
    · rw [hf] at hc
      cases hc

/-- Without DKThreadPoolRemoveAllTasks the queue of a task exists until the task is completed. -/
theorem QInv.complete_ok {qs ng id log js t} (h : QInv qs ng id log ((false, t) :: js)) (hr : Event.removed ∉ log) :
    ∃ qs', completeTask qs t = some qs' := by
  unfold completeTask
  split
  · exact ⟨_, rfl⟩
  · rename_i h0
    rcases find_group (qs := qs) (g := t.taskGroup) with ⟨q, hf, hq, hg⟩ | ⟨hf, hn⟩
    · rw [hf]
      have := h.pend q hq
      rw [List.countP_cons, show holds q.taskGroup (false, t) = true by simp [holds, hg]] at this
      simp only
      rw [if_neg (by simp at this; omega)]
      exact ⟨_, rfl⟩
    · have := (h.absent hr _ hn).2.2 (by omega)
      rw [List.countP_cons, show holds t.taskGroup (false, t) = true by simp [holds]] at this
      simp at this

theorem QInv.close {qs ng id log js g} (h : QInv qs ng id log js) :
    QInv (qs.map fun q => if q.taskGroup = g then { q with closed := true } else q) ng id log js := by
  have hm : (qs.map fun q => if q.taskGroup = g then { q with closed := true } else q).map (·.taskGroup) = qs.map (·.taskGroup) := by
    rw [List.map_map]
    refine List.map_congr_left fun x _ => ?_
    simp only [Function.comp]
    split <;> rfl
  have hmem : ∀ x ∈ qs.map (fun q => if q.taskGroup = g then { q with closed := true } else q),
      ∃ y ∈ qs, x.taskGroup = y.taskGroup ∧ x.tasks = y.tasks ∧ x.completions = y.completions ∧ (y.closed = true → x.closed = true) ∧
        x.pendingTasks = y.pendingTasks := by
    intro x hx
    obtain ⟨y, hy, rfl⟩ := List.mem_map.1 hx
    refine ⟨y, hy, ?_⟩
    split <;> simp
  constructor
  · intro x hx
    obtain ⟨y, hy, h1, -⟩ := hmem x hx
    rw [h1]; exact h.grp y hy
  · rw [hm]; exact h.nod
  · exact h.own
  · intro x hx k
    obtain ⟨y, hy, h1, h2, h3, -⟩ := hmem x hx
    have : x.items k = y.items k := by cases k <;> assumption
    rw [h1, this]; exact h.link y hy k
  · exact h.pref
  · exact h.zero
  · intro x hx k
    obtain ⟨y, hy, h1, h2, h3, -⟩ := hmem x hx
    have : x.items k = y.items k := by cases k <;> assumption
    rw [h1, this]; exact h.fifo y hy k
  · intro x hx
    obtain ⟨y, hy, h1, h2, h3, h4, h5⟩ := hmem x hx
    rw [h5, h2, h1]; exact h.pend y hy
  · exact h.run
  · exact h.held
  · intro x hx hc
    obtain ⟨y, hy, h1, h2, h3, h4, h5⟩ := hmem x hx
    rw [h1] at hc; exact h4 (h.closed y hy hc)
  · intro a g b he
    rw [hm]; exact h.waited a g b he
  · intro hr g
    rw [hm]; exact h.absent hr g
  · exact h.hist

theorem QInv.newQueue {qs ng id log js} (h : QInv qs ng id log js) : QInv (qs ++ [⟨[], [], ng + 1, 0, false⟩]) (ng + 1) id log js := by
  have hnone : ∀ t ∈ added log, t.owner ≠ ng + 1 := fun t ht => by have := (h.own t ht).2.1; omega
  have hempty : ∀ k, ofGroup k (ng + 1) (added log) = [] := by
    intro k
    refine List.eq_nil_iff_forall_not_mem.2 fun t ht => ?_
    obtain ⟨h1, -, h3⟩ := mem_ofGroup.1 ht
    exact hnone t h1 h3
  have hempty' : ∀ k, ofGroup k (ng + 1) (started log) = [] := by
    intro k
    have := h.pref k (ng + 1)
    rw [hempty] at this
    exact List.prefix_nil.1 this
  have hcount : js.countP (holds (ng + 1)) = 0 := by
    refine List.countP_eq_zero.2 fun j hj => ?_
    obtain ⟨b, t⟩ := j
    obtain ⟨h1, h2⟩ := h.held b t hj
    have := hnone t (started_added h h1)
    simp only [holds, decide_eq_true_eq, h2]
    split <;> omega
  have hsplit : ∀ x ∈ qs ++ [(⟨[], [], ng + 1, 0, false⟩ : Queue)], x ∈ qs ∨ x = ⟨[], [], ng + 1, 0, false⟩ := by
    intro x hx; simpa using hx
  constructor
  · intro x hx
    rcases hsplit x hx with hx | rfl
    · have := h.grp x hx; omega
    · simp
  · rw [List.map_append, List.nodup_append]
    refine ⟨h.nod, by simp, ?_⟩
    intro a ha b hb
    obtain ⟨x, hx, rfl⟩ := List.mem_map.1 ha
    have := (h.grp x hx).2
    have hb' : b = ng + 1 := by simpa using hb
    omega
  · intro t ht
    have := h.own t ht
    exact ⟨this.1, by omega, this.2.2⟩
  · intro x hx k t ht
    rcases hsplit x hx with hx | rfl
    · exact h.link x hx k t ht
    · cases k <;> simp [Queue.items] at ht
  · exact h.pref
  · exact h.zero
  · intro x hx k
    rcases hsplit x hx with hx | rfl
    · exact h.fifo x hx k
    · show ofGroup k (ng + 1) _ = ofGroup k (ng + 1) _ ++ _
      rw [hempty, hempty']
      cases k <;> rfl
  · intro x hx
    rcases hsplit x hx with hx | rfl
    · exact h.pend x hx
    · show (0 : Int) = ((0 : Nat) : Int) + ((js.countP (holds (ng + 1)) : Nat) : Int)
      rw [hcount]; rfl
  · exact h.run
  · exact h.held
  · intro x hx hc
    rcases hsplit x hx with hx | rfl
    · exact h.closed x hx hc
    · obtain ⟨c, hc1, -, hc3⟩ := hc
      exact absurd hc3 (hnone c hc1)
  · intro a g b he hg hu hm
    rw [List.map_append, List.mem_append] at hm
    rcases hm with hm | hm
    · exact h.waited a g b he hg hu hm
    · have : g = ng + 1 := by simpa using hm
      subst this
      obtain ⟨u, hu1, hu2⟩ := hu
      refine hnone u ?_ hu2
      rw [he, added_append]
      exact List.mem_append_left _ hu1
  · intro hr g hg
    exact h.absent hr g fun hx => hg (by rw [List.map_append]; exact List.mem_append_left _ hx)
  · exact h.hist

/-- Putting a new task or completion in the last queue. -/
theorem QInv.put {a q q' ng id log js k} (h : QInv (a ++ [q]) ng id log js) (t : Task)
    (ht : t = ⟨id, k, q.taskGroup, if k = .task then q.taskGroup else 0⟩) (hopen : k = .task → q.closed = false)
    (h1 : q'.items k = q.items k ++ [t]) (h2 : ∀ k', k' ≠ k → q'.items k' = q.items k') (h3 : q'.taskGroup = q.taskGroup)
    (h4 : q'.pendingTasks = if k = .task then q.pendingTasks + 1 else q.pendingTasks) (h5 : k = .completion → q'.closed = true)
    (h6 : q.closed = true → q'.closed = true) :
    QInv (a ++ [q']) ng (id + 1) (log ++ [.added t]) js := by
  have hq : q ∈ a ++ [q] := by simp
  have hm : (a ++ [q']).map (·.taskGroup) = (a ++ [q]).map (·.taskGroup) := by simp [h3]
  have hoth := others (b := []) rfl h.nod
  have ha' : added (log ++ [.added t]) = added log ++ [t] := by simp [added]
  have hs' : started (log ++ [.added t]) = started log := by simp [started]
  have hf' : finished (log ++ [.added t]) = finished log := by simp [finished]
  have tk : t.kind = k := by rw [ht]
  have to' : t.owner = q.taskGroup := by rw [ht]
  have tg : t.taskGroup = if k = .task then q.taskGroup else 0 := by rw [ht]
  have ti : t.id = id := by rw [ht]
  have hgq := h.grp q hq
  have hpos : ofGroup k q.taskGroup [t] = [t] := ofGroup_one_pos ⟨tk, to'⟩
  constructor
  · intro x hx
    rcases mem_replace (q := q) hx with rfl | ⟨hx, -⟩
    · rw [h3]; exact hgq
    · exact h.grp x hx
  · rw [hm]; exact h.nod
  · rw [ha']
    intro u hu
    rcases List.mem_append.1 hu with hu | hu
    · have := h.own u hu
      exact ⟨by omega, this.2⟩
    · have : u = t := by simpa using hu
      subst this
      exact ⟨by omega, by omega, fun _ => by omega⟩
  · intro x hx k' u hu
    rcases mem_replace (q := q) hx with rfl | ⟨hx, -⟩
    · rw [h3]
      by_cases hk : k' = k
      · subst hk
        rw [h1] at hu
        rcases List.mem_append.1 hu with hu | hu
        · exact h.link q hq k' u hu
        · have : u = t := by simpa using hu
          subst this
          exact ⟨tk, to', tg⟩
      · rw [h2 k' hk] at hu
        exact h.link q hq k' u hu
    · exact h.link x hx k' u hu
  · intro k' g
    rw [ha', hs', ofGroup_append]
    exact (h.pref k' g).trans (List.prefix_append _ _)
  · intro k'
    rw [ha', hs', ofGroup_append, ofGroup_one_neg (fun hc => by have := hc.2; omega), List.append_nil]
    exact h.zero k'
  · intro x hx k'
    rw [ha', hs', ofGroup_append]
    rcases mem_replace (q := q) hx with rfl | ⟨hx, ho⟩
    · rw [h3]
      by_cases hk : k' = k
      · subst hk
        rw [hpos, h1, h.fifo q hq k', List.append_assoc]
      · rw [ofGroup_one_neg (fun hc => hk (hc.1.symm.trans tk)), List.append_nil, h2 k' hk]
        exact h.fifo q hq k'
    · rw [ofGroup_one_neg (fun hc => hoth x ho (hc.2.symm.trans to')), List.append_nil]
      exact h.fifo x hx k'
  · intro x hx
    rcases mem_replace (q := q) hx with rfl | ⟨hx, ho⟩
    · rw [h3, h4]
      have hp := h.pend q hq
      cases k with
      | task =>
        have : x.tasks = q.tasks ++ [t] := h1
        rw [this, if_pos rfl, hp]
        simp
        omega
      | completion =>
        have : x.tasks = q.tasks := h2 .task (by decide)
        rw [this, if_neg (by decide), hp]
    · exact h.pend x hx
  · rw [hs', hf']; exact h.run
  · rw [hs']; exact h.held
  · rw [ha']
    intro x hx hc
    obtain ⟨c, hc1, hc2, hc3⟩ := hc
    rcases mem_replace (q := q) hx with rfl | ⟨hx, ho⟩
    · rcases List.mem_append.1 hc1 with hc1 | hc1
      · exact h6 (h.closed q hq ⟨c, hc1, hc2, h3 ▸ hc3⟩)
      · have : c = t := by simpa using hc1
        subst this
        exact h5 (tk.symm.trans hc2)
    · rcases List.mem_append.1 hc1 with hc1 | hc1
      · exact h.closed x hx ⟨c, hc1, hc2, hc3⟩
      · have : c = t := by simpa using hc1
        subst this
        exact absurd (hc3.symm.trans to') (hoth x ho)
  · intro a' g b' he
    rw [hm]
    rcases snoc_split he with ⟨-, -, h2⟩ | ⟨l', -, h2⟩
    · cases h2
    · exact h.waited a' g l' h2
  · intro hr g hg
    rw [hm] at hg
    rw [ha', hs', hf']
    obtain ⟨g1, g2, g3⟩ := h.absent (fun hx => hr (List.mem_append_left _ hx)) g hg
    have hne : g ≠ q.taskGroup := fun hx => hg (hx ▸ List.mem_map_of_mem hq)
    refine ⟨?_, ?_, g3⟩
    · intro u hu ho
      rcases List.mem_append.1 hu with hu | hu
      · exact g1 u hu ho
      · have : u = t := by simpa using hu
        subst this
        exact absurd (ho.symm.trans to') hne
    · intro u hu hk ho
      rcases List.mem_append.1 hu with hu | hu
      · exact g2 u hu hk ho
      · have : u = t := by simpa using hu
        subst this
        exact absurd (ho.symm.trans to') hne
  · refine hist_snoc h.hist ⟨?_, ?_, ?_⟩
    · intro u hu
      have := (h.own u hu).1
      omega
    · intro hk c hc hck hco
      have := h.closed q hq ⟨c, hc, hck, hco.trans to'⟩
      rw [hopen (tk.symm.trans hk)] at this
      cases this
    · intro a' g b' he hg hu ho
      exact h.waited a' g b' he hg hu (by rw [← ho, to']; exact List.mem_map_of_mem hq)

/-- A completion executed at once because there are no queues. -/
theorem QInv.atOnce {ng id log js} (h : QInv [] ng id log js) (t : Task) (ht : t = ⟨id, .completion, 0, 0⟩) :
    QInv [] ng (id + 1) (log ++ [.added t, .started t, .finished t]) js := by
  have e1 : log ++ [.added t, .started t, .finished t] = ((log ++ [.added t]) ++ [.started t]) ++ [.finished t] := by simp
  have ha' : added (log ++ [.added t, .started t, .finished t]) = added log ++ [t] := by simp [added]
  have hs' : started (log ++ [.added t, .started t, .finished t]) = started log ++ [t] := by simp [started]
  have hf' : finished (log ++ [.added t, .started t, .finished t]) = finished log ++ [t] := by simp [finished]
  have tk : t.kind = .completion := by rw [ht]
  have to' : t.owner = 0 := by rw [ht]
  have ti : t.id = id := by rw [ht]
  have hnew : t ∉ added log := fun hx => by have := (h.own t hx).1; omega
  have hnone : t ∉ started log := fun hx => hnew (started_added h hx)
  constructor
  · simp
  · simp
  · rw [ha']
    intro u hu
    rcases List.mem_append.1 hu with hu | hu
    · have := h.own u hu
      exact ⟨by omega, this.2⟩
    · have : u = t := by simpa using hu
      subst this
      exact ⟨by omega, by omega, fun hk => absurd (tk.symm.trans hk) (by decide)⟩
  · simp
  · intro k g
    rw [ha', hs', ofGroup_append, ofGroup_append]
    by_cases hc : t.kind = k ∧ t.owner = g
    · rw [ofGroup_one_pos hc, ← hc.2, to', h.zero]
      exact List.prefix_refl _
    · rw [ofGroup_one_neg hc, List.append_nil, List.append_nil]; exact h.pref k g
  · intro k
    rw [ha', hs', ofGroup_append, ofGroup_append, h.zero]
  · simp
  · simp
  · rw [hs', hf']
    intro u hu
    rcases List.mem_append.1 hu with hu | hu
    · exact (h.run u hu).imp_left fun hx => List.mem_append_left _ hx
    · exact .inl (List.mem_append_right _ hu)
  · rw [hs']
    intro b u hu
    exact ⟨List.mem_append_left _ (h.held b u hu).1, (h.held b u hu).2⟩
  · simp
  · simp
  · rw [ha', hs', hf']
    intro hr g hg
    obtain ⟨g1, g2, g3⟩ := h.absent (fun hx => hr (List.mem_append_left _ hx)) g hg
    refine ⟨?_, ?_, g3⟩
    · intro u hu ho
      rcases List.mem_append.1 hu with hu | hu
      · exact List.mem_append_left _ (g1 u hu ho)
      · exact List.mem_append_right _ hu
    · intro u hu hk ho
      rcases List.mem_append.1 hu with hu | hu
      · exact List.mem_append_left _ (g2 u hu hk ho)
      · exact List.mem_append_right _ hu
  · rw [e1]
    refine hist_snoc (hist_snoc (hist_snoc h.hist ⟨?_, ?_, ?_⟩) ⟨?_, ?_, ?_⟩) ?_
    · intro u hu
      have := (h.own u hu).1
      omega
    · intro hk
      exact absurd (tk.symm.trans hk) (by decide)
    · intro a g b he hg hu
      omega
    · simp [added]
    · simpa [started] using hnone
    · intro _ u hu huk huo
      rw [added_append] at hu
      rcases List.mem_append.1 hu with hu | hu
      · have := (h.own u hu).2.2 huk
        omega
      · have : u = t := by simpa [added] using hu
        subst this
        exact absurd (tk.symm.trans huk) (by decide)
    · simp [Fits, started]

end Pool
end Duck
