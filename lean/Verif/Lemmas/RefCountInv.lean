import Verif.Lemmas.RefCountSteps
/-! The invariant holds in every reachable state. -/
namespace Duck
namespace RefCount

/-- The outcome keeps the invariant and touches no freed memory. -/
def Keeps : Res → Prop
  | .stuck => True
  | .fault => False
  | .next s => Inv s

theorem pos_of {s : State} {t : Nat} {th : Thread} (ht : s.threads[t]? = some th) (h : 0 < strongOf th) : 0 < total strongOf s.threads :=
  Nat.lt_of_lt_of_le h (total_ge strongOf ht)

theorem pos_of_strong {s : State} {t : Nat} {th : Thread} (ht : s.threads[t]? = some th) (h : 0 < th.strong) : 0 < total strongOf s.threads :=
  pos_of ht (by unfold strongOf; omega)

theorem onObj_pos {s : State} {k : BitVec 32 → Res} (h : Inv s) (hp : 0 < total strongOf s.threads)
    (hk : Keeps (k (word (total strongOf s.threads) (!s.metas.isEmpty)))) : Keeps (onObj s k) := by
  have hd := h.dying
  rw [if_neg (by omega)] at hd
  unfold onObj
  rw [if_neg (by omega), h.rc]; exact hk

theorem onObj_dying {s : State} {t : Nat} {th : Thread} {k : BitVec 32 → Res} (h : Inv s) (ht : s.threads[t]? = some th)
    (hp : th.pc.dying = 1) (hk : Keeps (k s.rc)) : Keeps (onObj s k) := by
  have hd := h.dying
  have := total_ge dyingOf ht
  have h1 : dyingOf th = 1 := hp
  unfold onObj
  rw [if_neg (by split at hd <;> omega)]; exact hk

theorem onMeta_live {s : State} {k : Meta → Res} (h : Inv s) (ha : s.view.att = true)
    (hl : 0 < total weakOf s.threads + if s.table.isSome then 1 else 0)
    (hk : ∀ x, s.metas[0]? = some x → x.frees = 0 → 0 < x.rc → s.view.lock = x.lock → s.view.target = x.target → Keeps (k x)) :
    Keeps (onMeta s 0 k) := by
  unfold onMeta
  have : s.metas ≠ [] := by
    intro hm
    have : s.view.att = false := by show (!s.metas.isEmpty) = false; rw [hm]; rfl
    rw [ha] at this; cases this
  obtain ⟨x, xs, hx⟩ := List.exists_cons_of_ne_nil this
  have hx0 : s.metas[0]? = some x := by rw [hx]; rfl
  rw [hx0]
  have hc := h.count x hx0
  have hf : x.frees = 0 := by rw [hc.2, if_neg (by omega)]
  simp only
  rw [if_neg (by omega)]
  refine hk x hx0 hf (by omega) ?_ ?_
  · unfold State.view; simp only [hx0, Option.bind_some]
  · unfold State.view; simp only [hx0, Option.map_some, Option.getD_some]

theorem att_ne {s : State} (ha : s.view.att = true) : s.metas ≠ [] := by
  intro hm
  have : s.view.att = false := by show (!s.metas.isEmpty) = false; rw [hm]; rfl
  rw [ha] at this; cases this

theorem att_bit {s : State} (ha : s.view.att = true) : (!s.metas.isEmpty) = true := ha

theorem tab_of_pos {s : State} (h : Inv s) (ha : s.view.att = true) (hp : 0 < total strongOf s.threads) :
    0 < total weakOf s.threads + if s.table.isSome then 1 else 0 := by
  rw [h.kept (att_ne ha) hp]; simp

theorem tab_of_tab {s : State} (ha : s.view.table = true) : 0 < total weakOf s.threads + if s.table.isSome then 1 else 0 := by
  have : s.table.isSome = true := ha
  rw [this]; simp

theorem tab_of_weak {s : State} {t : Nat} {th : Thread} (ht : s.threads[t]? = some th) (hw : 0 < weakOf th) :
    0 < total weakOf s.threads + if s.table.isSome then 1 else 0 := by
  have := total_ge weakOf ht; omega

theorem weakOf_pos {th : Thread} (hw : th.weak ≠ []) : 0 < weakOf th := by
  have : 0 < th.weak.length := List.length_pos_iff.mpr hw
  unfold weakOf; omega

theorem view_eq {s : State} {x : Meta} (ha : s.view.att = true) (hl : s.view.lock = x.lock) (ht : s.view.target = x.target) :
    s.view = ⟨true, x.lock, x.target, s.table.isSome, s.view.pos⟩ := by
  rw [← hl, ← ht, ← ha]; rfl

/-- The lock step. -/
theorem lock_keeps {s : State} {t : Nat} {th : Thread} {pc : PC} (h : Inv s) (ht : s.threads[t]? = some th)
    (ha : s.view.att = true) (hl : 0 < total weakOf s.threads + if s.table.isSome then 1 else 0)
    (hS : pc.strong = th.pc.strong) (hD : pc.dying = th.pc.dying) (hF : pc.finalized = th.pc.finalized) (hW : pc.weak = th.pc.weak)
    (hn : th.pc.nulling = false) (hpc : ∀ v : View, v.att = true → v.lock = some t → PCInv v t th.strong th.weak pc) :
    Keeps (lockStep s t th 0 pc) := by
  unfold lockStep
  refine onMeta_live h ha hl fun x hx hf hr hlk htg => ?_
  split
  · next hnone =>
    have hi := h.thread t th ht
    have hv := view_eq ha hlk htg
    have hxt := h.target x hx
    refine Inv.metaUpd h ht hx (by simp [strongOf, hS]) (by simp [dyingOf, hD]) (by simp [finOf, hF])
      ⟨by simp [weakOf, hW], (h.count x hx).2⟩ hxt.1 ?_ ?_ ?_
    · intro h0
      rcases hxt.2 h0 with h1 | ⟨u, z, h1, _⟩
      · exact Or.inl h1
      · rw [hnone] at h1; cases h1
    · refine ⟨fun m hm => ⟨(hi.1 m hm).1, rfl⟩, hpc _ rfl rfl, last_congr hi.2.2 (fun h => h)⟩
    · intro u z hu hz
      have := others_lock (t := t) hz (by rw [hlk]; exact hnone)
      rw [hv] at this
      exact this
  · trivial

/-- The unlock step. -/
theorem unlock_keeps {s : State} {t : Nat} {th th' : Thread} (h : Inv s) (ht : s.threads[t]? = some th)
    (ha : s.view.att = true) (hlock : s.view.lock = some t)
    (hl : 0 < total weakOf s.threads + if s.table.isSome then 1 else 0)
    (hS : strongOf th' = strongOf th) (hD : dyingOf th' = dyingOf th) (hF : finOf th' = finOf th) (hW : weakOf th' = weakOf th)
    (hn : th.pc.nulling = false) (hth : ThreadInv { s.view with lock := none } t th') :
    Keeps (unlockStep s t th' 0) := by
  unfold unlockStep
  refine onMeta_live h ha hl fun x hx hf hr hlk htg => ?_
  have hi := h.thread t th ht
  have hv := view_eq ha hlk htg
  have hxt := h.target x hx
  refine Inv.metaUpd h ht hx hS hD hF ⟨by simp only [hW], (h.count x hx).2⟩ hxt.1 ?_ ?_ ?_
  · intro h0
    rcases hxt.2 h0 with h1 | ⟨u, z, h1, h2, h3⟩
    · exact Or.inl h1
    · rw [← hlk, hlock] at h1
      cases h1
      rw [ht] at h2; cases h2
      rw [hn] at h3; cases h3
  · rw [hv] at hth; exact hth
  · intro u z hu hz
    have := others_unlock hz hlock hu
    rw [hv] at this
    exact this

/-- The target is cleared. -/
theorem null_keeps {s : State} {t : Nat} {th th' : Thread} (h : Inv s) (ht : s.threads[t]? = some th)
    (ha : s.view.att = true) (hlock : s.view.lock = some t) (htab : s.view.table = true) (h0 : total strongOf s.threads = 0)
    (hS : strongOf th' = strongOf th) (hD : dyingOf th' = dyingOf th) (hF : finOf th' = finOf th) (hW : weakOf th' = weakOf th)
    (hth : ThreadInv { s.view with target := false } t th') :
    Keeps (onMeta s 0 fun x => .next ((s.putMeta 0 { x with target := false }).put t th')) := by
  refine onMeta_live h ha (tab_of_tab htab) fun x hx hf hr hlk htg => ?_
  have hv := view_eq ha hlk htg
  refine Inv.metaUpd h ht hx hS hD hF ⟨by simp only [hW], (h.count x hx).2⟩ (fun _ => h0) (fun _ => Or.inl rfl) ?_ ?_
  · rw [hv] at hth; exact hth
  · intro u z hu hz
    have := others_target hz hlock hu
    rw [hv] at this
    exact this

/-- A reference to the metadata is dropped. -/
theorem metaDec_keeps {s : State} {t : Nat} {th th' : Thread} (h : Inv s) (ht : s.threads[t]? = some th)
    (ha : s.view.att = true)
    (hS : strongOf th' = strongOf th) (hD : dyingOf th' = dyingOf th) (hF : finOf th' = finOf th) (hW : weakOf th' + 1 = weakOf th)
    (hn : th.pc.nulling = false) (hth : ThreadInv s.view t th') : Keeps (metaDec s t th' 0) := by
  unfold metaDec
  refine onMeta_live h ha (tab_of_weak ht (by omega)) fun x hx hf hr hlk htg => ?_
  have hv := view_eq ha hlk htg
  have hc := h.count x hx
  have hxt := h.target x hx
  refine Inv.metaUpd h ht hx hS hD hF ⟨by simp only; omega, ?_⟩ hxt.1 ?_ ?_ ?_
  · simp only; rw [hf]
  · intro h0
    rcases hxt.2 h0 with h1 | ⟨u, z, h1, h2, h3⟩
    · exact Or.inl h1
    · refine Or.inr ⟨u, z, h1, ?_, h3⟩
      have : u ≠ t := by rintro rfl; rw [ht] at h2; cases h2; rw [hn] at h3; cases h3
      rw [get_ne th' this]; exact h2
  · rw [hv] at hth; exact hth
  · intro u z hu hz
    rw [hv] at hz
    exact hz

theorem few_le {s : State} (hf : s.Few) {t : Nat} {th : Thread} (ht : s.threads[t]? = some th) (hs : th.pc.strong = 0) :
    total strongOf s.threads + 1 < 2 ^ 28 := by
  unfold State.Few at hf
  have hle : ∀ p : PC, p.strong ≤ 1 := by
    intro p
    cases p with
    | find a => cases a <;> simp [PC.strong]
    | insert a => cases a <;> simp [PC.strong]
    | relUnlock m z => cases z <;> simp [PC.strong]
    | tryUnlock m z => cases z <;> simp [PC.strong]
    | resUnlock m z => cases z <;> simp [PC.strong]
    | _ => simp [PC.strong]
  let g : Thread → Nat := fun th => th.strong + 1
  have h1 := total_set strongOf s.threads t th { th with pc := .relRead } ht
  have h2 : total strongOf (s.threads.set t { th with pc := .relRead }) ≤ total g (s.threads.set t { th with pc := .relRead }) :=
    total_le _ _ _ (fun x _ => by have := hle x.pc; simp only [strongOf, g]; omega)
  have h3 := total_set g s.threads t th { th with pc := .relRead } ht
  have h4 : strongOf { th with pc := .relRead } = th.strong + 1 := rfl
  have h5 : strongOf th = th.strong := by simp [strongOf, hs]
  have h6 : g { th with pc := .relRead } = g th := rfl
  have h7 : total g s.threads < 2 ^ 28 := hf
  omega

/-- Every step of a thread. -/
theorem stepPC_keeps {s : State} {t : Nat} {th : Thread} (h : Inv s) (hfew : s.Few) (ht : s.threads[t]? = some th)
    (hcalm : ∀ u, th.pc = .insert u → ∀ x ∈ s.threads, x.pc ≠ .relDec) : Keeps (stepPC s t th) := by
  have hi := h.thread t th ht
  obtain ⟨hw, hpc, hlast⟩ := hi
  have hS0 : strongOf th = th.strong + th.pc.strong := rfl
  have hlt := h.few
  have hpos' : s.view.pos = true ↔ 0 < total strongOf s.threads := by unfold State.view; simp
  have hposF : s.view.pos = false ↔ total strongOf s.threads = 0 := by unfold State.view; simp
  have hdead : th.pc.dying = 1 → total strongOf s.threads = 0 := by
    intro hd
    have h1 := h.dying
    have h2 := total_ge dyingOf ht
    have h3 : dyingOf th = 1 := hd
    by_cases h0 : total strongOf s.threads = 0
    · exact h0
    · rw [if_neg h0] at h1; omega
  unfold stepPC
  cases hp : th.pc with
  | idle => trivial
  | retainRead =>
      rw [hp] at hpc
      have hst : 0 < th.strong := hpc
      refine onObj_pos h (pos_of_strong ht hst) ?_
      rw [if_pos (word_disabled _ hlt)]
      exact Inv.local h ht (by simp [strongOf, hp, PC.strong]) (by simp [dyingOf, hp, PC.dying]) (by simp [finOf, hp, PC.finalized])
        (by simp [weakOf, hp, PC.weak]) (by simp [hp, PC.nulling]) ⟨hw, hst, hlast⟩
  | retainInc =>
      rw [hp] at hpc
      have hst : 0 < th.strong := hpc
      have hpos := pos_of_strong ht hst
      refine onObj_pos h hpos ?_
      rw [← h.rc]
      exact Inv.inc h ht hpos (few_le hfew ht (by simp [hp, PC.strong])) (by simp [strongOf, hp, PC.strong]) (by simp [dyingOf, hp, PC.dying])
        (by simp [finOf, hp, PC.finalized]) (by simp [weakOf, hp, PC.weak]) ⟨hw, trivial, trivial⟩
  | relRead =>
      have hpos := pos_of ht (by simp [strongOf, hp, PC.strong])
      refine onObj_pos h hpos ?_
      rw [if_pos (word_disabled _ hlt)]
      split
      · next hb =>
        rw [word_metadata _ hlt] at hb
        exact Inv.local h ht (by simp [strongOf, hp, PC.strong]) (by simp [dyingOf, hp, PC.dying]) (by simp [finOf, hp, PC.finalized])
          (by simp [weakOf, hp, PC.weak]) (by simp [hp, PC.nulling]) ⟨hw, hb, hlast⟩
      · next hb =>
        rw [word_metadata _ hlt] at hb
        exact Inv.local h ht (by simp [strongOf, hp, PC.strong]) (by simp [dyingOf, hp, PC.dying]) (by simp [finOf, hp, PC.finalized])
          (by simp [weakOf, hp, PC.weak]) (by simp [hp, PC.nulling]) ⟨hw, by simpa [PCInv, State.view] using hb, hlast⟩
  | relDec =>
      rw [hp] at hpc
      have hatt : s.view.att = false := hpc
      have hpos := pos_of ht (by simp [strongOf, hp, PC.strong])
      refine onObj_pos h hpos ?_
      rw [word_pred _ _ hpos]
      have hz := word_mask_zero (c := total strongOf s.threads - 1) (!s.metas.isEmpty) (by omega)
      have hm : s.metas = [] := by
        cases hmm : s.metas with
        | nil => rfl
        | cons a l => have : s.view.att = true := by show (!s.metas.isEmpty) = true; rw [hmm]; rfl
                      rw [hatt] at this; cases this
      split
      · next h0 =>
        rw [hz] at h0
        have h1 : total strongOf s.threads = 1 := by omega
        refine Inv.last h ht (by simp [strongOf, hp, PC.strong]) h1 (by simp [dyingOf, hp, PC.dying]) (by simp [finOf, hp, PC.finalized])
          (by simp [weakOf, hp, PC.weak]) _ (by rw [h1]) (Or.inl hm) ⟨hw, ?_, trivial⟩
        intro ha
        have : s.view.att = true := ha
        rw [hatt] at this; cases this
      · next h0 =>
        rw [hz] at h0
        rw [← word_pred _ _ hpos, ← h.rc]
        exact Inv.dec h ht (by simp [strongOf, hp, PC.strong]) (by omega) (by simp [dyingOf, hp, PC.dying])
          (by simp [finOf, hp, PC.finalized]) (by simp [weakOf, hp, PC.weak]) ⟨hw, trivial, trivial⟩
  | find u =>
      rw [hp] at hpc
      simp only
      split
      · next m hm =>
        obtain ⟨rfl, hne⟩ := h.table m hm
        have hatt : s.view.att = true := by
          show (!s.metas.isEmpty) = true
          cases hmm : s.metas with
          | nil => exact absurd hmm hne
          | cons => rfl
        cases u with
        | retainWeak =>
            exact Inv.local h ht (by simp [strongOf, hp, PC.strong, afterFind]) (by simp [dyingOf, hp, PC.dying, afterFind]) (by simp [finOf, hp, PC.finalized, afterFind])
              (by simp [weakOf, hp, PC.weak, afterFind]) (by simp [hp, PC.nulling]) ⟨hw, ⟨rfl, hatt, hpc⟩, hlast⟩
        | release =>
            exact Inv.local h ht (by simp [strongOf, hp, PC.strong, afterFind]) (by simp [dyingOf, hp, PC.dying, afterFind]) (by simp [finOf, hp, PC.finalized, afterFind])
              (by simp [weakOf, hp, PC.weak, afterFind]) (by simp [hp, PC.nulling]) ⟨hw, ⟨rfl, hatt⟩, hlast⟩
        | tryRelease =>
            exact Inv.local h ht (by simp [strongOf, hp, PC.strong, afterFind]) (by simp [dyingOf, hp, PC.dying, afterFind]) (by simp [finOf, hp, PC.finalized, afterFind])
              (by simp [weakOf, hp, PC.weak, afterFind]) (by simp [hp, PC.nulling]) ⟨hw, ⟨rfl, hatt⟩, hlast⟩
      · next hm =>
        cases u with
        | retainWeak =>
            exact Inv.local h ht (by simp [strongOf, hp, PC.strong]) (by simp [dyingOf, hp, PC.dying]) (by simp [finOf, hp, PC.finalized])
              (by simp [weakOf, hp, PC.weak]) (by simp [hp, PC.nulling]) ⟨hw, hpc, hlast⟩
        | release =>
            have := h.kept (att_ne hpc) (pos_of ht (by simp [strongOf, hp, PC.strong]))
            rw [hm] at this; cases this
        | tryRelease =>
            have := h.kept (att_ne hpc) (pos_of ht (by simp [strongOf, hp, PC.strong]))
            rw [hm] at this; cases this
  | insert u =>
      rw [hp] at hpc
      cases u with
      | release => exact absurd hpc (fun h => h)
      | tryRelease => exact absurd hpc (fun h => h)
      | retainWeak =>
        simp only
        split
        · next m hm =>
          obtain ⟨rfl, hne⟩ := h.table m hm
          have hatt : s.view.att = true := by
            show (!s.metas.isEmpty) = true
            cases hmm : s.metas with
            | nil => exact absurd hmm hne
            | cons => rfl
          exact Inv.local h ht (by simp [strongOf, hp, PC.strong, afterFind]) (by simp [dyingOf, hp, PC.dying, afterFind]) (by simp [finOf, hp, PC.finalized, afterFind])
            (by simp [weakOf, hp, PC.weak, afterFind]) (by simp [hp, PC.nulling]) ⟨hw, ⟨rfl, hatt, hpc⟩, hlast⟩
        · next hm =>
          refine onObj_pos h (pos_of_strong ht hpc) ?_
          rw [← h.rc]
          exact Inv.attach h ht hp hm (hcalm _ hp)
  | relLock m =>
      rw [hp] at hpc
      obtain ⟨rfl, hatt⟩ := hpc
      have hpos := pos_of ht (by simp [strongOf, hp, PC.strong])
      exact lock_keeps h ht hatt (tab_of_pos h hatt hpos) (by simp [hp, PC.strong]) (by simp [hp, PC.dying]) (by simp [hp, PC.finalized])
        (by simp [hp, PC.weak]) (by simp [hp, PC.nulling]) (fun v ha hl => ⟨rfl, ha, hl⟩)
  | relDecL m =>
      rw [hp] at hpc
      obtain ⟨rfl, hatt, hlock⟩ := hpc
      have hpos := pos_of ht (by simp [strongOf, hp, PC.strong])
      refine onObj_pos h hpos ?_
      rw [word_pred _ _ hpos]
      have hz := word_mask_zero (c := total strongOf s.threads - 1) (!s.metas.isEmpty) (by omega)
      split
      · next h0 =>
        rw [hz] at h0
        have h1 : total strongOf s.threads = 1 := by omega
        refine Inv.last h ht (by simp [strongOf, hp, PC.strong]) h1 (by simp [dyingOf, hp, PC.dying]) (by simp [finOf, hp, PC.finalized])
          (by simp [weakOf, hp, PC.weak]) _ (by rw [h1]) (Or.inr ⟨hlock, rfl⟩) ⟨hw, ⟨rfl, hatt, hlock, ?_⟩, last_congr hlast (fun _ => rfl)⟩
        show s.table.isSome = true
        rw [h.kept (att_ne hatt) hpos]; rfl
      · next h0 =>
        rw [hz] at h0
        rw [← word_pred _ _ hpos, ← h.rc]
        exact Inv.dec h ht (by simp [strongOf, hp, PC.strong]) (by omega) (by simp [dyingOf, hp, PC.dying])
          (by simp [finOf, hp, PC.finalized]) (by simp [weakOf, hp, PC.weak]) ⟨hw, ⟨rfl, hatt, hlock, hpos'.mpr hpos⟩, hlast⟩
  | relNull m =>
      rw [hp] at hpc
      obtain ⟨rfl, hatt, hlock, htab⟩ := hpc
      exact null_keeps h ht hatt hlock htab (hdead (by simp [hp, PC.dying])) (by simp [strongOf, hp, PC.strong]) (by simp [dyingOf, hp, PC.dying])
          (by simp [finOf, hp, PC.finalized]) (by simp [weakOf, hp, PC.weak]) ⟨hw, ⟨rfl, hatt, hlock, htab, rfl⟩, last_congr hlast (fun h => h)⟩
  | relUnlock m z =>
      rw [hp] at hpc
      cases z with
      | true =>
          obtain ⟨rfl, hatt, hlock, htab, htgt⟩ := hpc
          simp only [if_true]
          exact unlock_keeps h ht hatt hlock (tab_of_tab htab) (by simp [strongOf, hp, PC.strong]) (by simp [dyingOf, hp, PC.dying])
            (by simp [finOf, hp, PC.finalized]) (by simp [weakOf, hp, PC.weak]) (by simp [hp, PC.nulling]) ⟨hw, ⟨rfl, hatt, htab, htgt⟩, trivial⟩
      | false =>
          obtain ⟨rfl, hatt, hlock, hpos⟩ := hpc
          simp only [Bool.false_eq_true, if_false]
          exact unlock_keeps h ht hatt hlock (tab_of_pos h hatt (hpos'.mp hpos)) (by simp [strongOf, hp, PC.strong]) (by simp [dyingOf, hp, PC.dying])
            (by simp [finOf, hp, PC.finalized]) (by simp [weakOf, hp, PC.weak]) (by simp [hp, PC.nulling]) ⟨hw, trivial, trivial⟩
  | tryRead =>
      have hpos := pos_of ht (by simp [strongOf, hp, PC.strong])
      refine onObj_pos h hpos ?_
      rw [if_pos (word_disabled _ hlt)]
      split
      · next hb =>
        rw [word_metadata _ hlt] at hb
        split
        · next h1 =>
          rw [word_mask_one _ hlt] at h1
          refine Inv.local h ht (by simp [strongOf, hp, PC.strong]) (by simp [dyingOf, hp, PC.dying]) (by simp [finOf, hp, PC.finalized])
            (by simp [weakOf, hp, PC.weak]) (by simp [hp, PC.nulling]) ⟨hw, ?_, hlast⟩
          show word _ _ = word 1 false
          rw [h1, hb]
        · exact Inv.local h ht (by simp [strongOf, hp, PC.strong]) (by simp [dyingOf, hp, PC.dying]) (by simp [finOf, hp, PC.finalized])
            (by simp [weakOf, hp, PC.weak]) (by simp [hp, PC.nulling]) ⟨hw, trivial, trivial⟩
      · next hb =>
        rw [word_metadata _ hlt] at hb
        exact Inv.local h ht (by simp [strongOf, hp, PC.strong]) (by simp [dyingOf, hp, PC.dying]) (by simp [finOf, hp, PC.finalized])
          (by simp [weakOf, hp, PC.weak]) (by simp [hp, PC.nulling]) ⟨hw, by simpa [PCInv, State.view] using hb, hlast⟩
  | tryCas old =>
      rw [hp] at hpc
      have hold : old = word 1 false := hpc
      have hpos := pos_of ht (by simp [strongOf, hp, PC.strong])
      refine onObj_pos h hpos ?_
      split
      · next he =>
        rw [hold] at he
        obtain ⟨h1, hb⟩ := word_inj_bit hlt (by omega) he
        have hm : s.metas = [] := by cases hmm : s.metas with
          | nil => rfl
          | cons a l => rw [hmm] at hb; cases hb
        refine Inv.last h ht (by simp [strongOf, hp, PC.strong]) h1 (by simp [dyingOf, hp, PC.dying]) (by simp [finOf, hp, PC.finalized])
          (by simp [weakOf, hp, PC.weak]) _ (by rw [hold, word_zero _ _ (by omega), hb]) (Or.inl hm) ⟨hw, ?_, trivial⟩
        intro ha
        exact absurd hm (att_ne ha)
      · exact Inv.local h ht (by simp [strongOf, hp, PC.strong]) (by simp [dyingOf, hp, PC.dying]) (by simp [finOf, hp, PC.finalized])
            (by simp [weakOf, hp, PC.weak]) (by simp [hp, PC.nulling]) ⟨hw, trivial, trivial⟩
  | tryLock m =>
      rw [hp] at hpc
      obtain ⟨rfl, hatt⟩ := hpc
      have hpos := pos_of ht (by simp [strongOf, hp, PC.strong])
      exact lock_keeps h ht hatt (tab_of_pos h hatt hpos) (by simp [hp, PC.strong]) (by simp [hp, PC.dying]) (by simp [hp, PC.finalized])
        (by simp [hp, PC.weak]) (by simp [hp, PC.nulling]) (fun v ha hl => ⟨rfl, ha, hl⟩)
  | tryReadL m =>
      rw [hp] at hpc
      obtain ⟨rfl, hatt, hlock⟩ := hpc
      have hpos := pos_of ht (by simp [strongOf, hp, PC.strong])
      refine onObj_pos h hpos ?_
      split
      · next h1 =>
        rw [word_mask_one _ hlt] at h1
        refine Inv.local h ht (by simp [strongOf, hp, PC.strong]) (by simp [dyingOf, hp, PC.dying]) (by simp [finOf, hp, PC.finalized])
            (by simp [weakOf, hp, PC.weak]) (by simp [hp, PC.nulling]) ⟨hw, ⟨rfl, hatt, hlock, ?_⟩, hlast⟩
        rw [h1, att_bit hatt]
      · exact Inv.local h ht (by simp [strongOf, hp, PC.strong]) (by simp [dyingOf, hp, PC.dying]) (by simp [finOf, hp, PC.finalized])
            (by simp [weakOf, hp, PC.weak]) (by simp [hp, PC.nulling]) ⟨hw, ⟨rfl, hatt, hlock⟩, hlast⟩
  | tryCasL m old =>
      rw [hp] at hpc
      obtain ⟨rfl, hatt, hlock, hold⟩ := hpc
      have hpos := pos_of ht (by simp [strongOf, hp, PC.strong])
      refine onObj_pos h hpos ?_
      split
      · next he =>
        rw [hold] at he
        obtain ⟨h1, hb⟩ := word_inj_bit hlt (by omega) he
        refine Inv.last h ht (by simp [strongOf, hp, PC.strong]) h1 (by simp [dyingOf, hp, PC.dying]) (by simp [finOf, hp, PC.finalized])
          (by simp [weakOf, hp, PC.weak]) _ (by rw [hold, word_zero _ _ (by omega), hb]) (Or.inr ⟨hlock, rfl⟩)
          ⟨hw, ⟨rfl, hatt, hlock, ?_⟩, last_congr hlast (fun _ => rfl)⟩
        show s.table.isSome = true
        rw [h.kept (att_ne hatt) hpos]; rfl
      · exact Inv.local h ht (by simp [strongOf, hp, PC.strong]) (by simp [dyingOf, hp, PC.dying]) (by simp [finOf, hp, PC.finalized])
            (by simp [weakOf, hp, PC.weak]) (by simp [hp, PC.nulling]) ⟨hw, ⟨rfl, hatt, hlock⟩, hlast⟩
  | tryNull m =>
      rw [hp] at hpc
      obtain ⟨rfl, hatt, hlock, htab⟩ := hpc
      exact null_keeps h ht hatt hlock htab (hdead (by simp [hp, PC.dying])) (by simp [strongOf, hp, PC.strong]) (by simp [dyingOf, hp, PC.dying])
          (by simp [finOf, hp, PC.finalized]) (by simp [weakOf, hp, PC.weak]) ⟨hw, ⟨rfl, hatt, hlock, htab, rfl⟩, last_congr hlast (fun h => h)⟩
  | tryUnlock m z =>
      rw [hp] at hpc
      cases z with
      | true =>
          obtain ⟨rfl, hatt, hlock, htab, htgt⟩ := hpc
          simp only [if_true]
          exact unlock_keeps h ht hatt hlock (tab_of_tab htab) (by simp [strongOf, hp, PC.strong]) (by simp [dyingOf, hp, PC.dying])
            (by simp [finOf, hp, PC.finalized]) (by simp [weakOf, hp, PC.weak]) (by simp [hp, PC.nulling]) ⟨hw, ⟨rfl, hatt, htab, htgt⟩, trivial⟩
      | false =>
          obtain ⟨rfl, hatt, hlock⟩ := hpc
          have hpos := pos_of ht (by simp [strongOf, hp, PC.strong])
          simp only [Bool.false_eq_true, if_false]
          exact unlock_keeps h ht hatt hlock (tab_of_pos h hatt hpos) (by simp [strongOf, hp, PC.strong]) (by simp [dyingOf, hp, PC.dying])
            (by simp [finOf, hp, PC.finalized]) (by simp [weakOf, hp, PC.weak]) (by simp [hp, PC.nulling]) ⟨hw, trivial, trivial⟩
  | remove m =>
      rw [hp] at hpc
      obtain ⟨rfl, hatt, htab, htgt⟩ := hpc
      refine onMeta_live h hatt (tab_of_tab htab) fun x hx hf hr hlk htg => ?_
      exact Inv.remove h ht hp rfl
  | dropRead m =>
      rw [hp] at hpc
      obtain ⟨rfl, hatt, htab, htgt⟩ := hpc
      refine onMeta_live h hatt (tab_of_weak ht (by simp [weakOf, hp, PC.weak])) fun x hx hf hr hlk htg => ?_
      exact Inv.local h ht (by simp [strongOf, hp, PC.strong]) (by simp [dyingOf, hp, PC.dying]) (by simp [finOf, hp, PC.finalized])
            (by simp [weakOf, hp, PC.weak]) (by simp [hp, PC.nulling]) ⟨hw, ⟨rfl, hatt, htab, htgt⟩, hlast⟩
  | dropDec m =>
      rw [hp] at hpc
      obtain ⟨rfl, hatt, htab, htgt⟩ := hpc
      exact metaDec_keeps h ht hatt (by simp [strongOf, hp, PC.strong]) (by simp [dyingOf, hp, PC.dying]) (by simp [finOf, hp, PC.finalized])
        (by simp [weakOf, hp, PC.weak]) (by simp [hp, PC.nulling]) ⟨hw, fun _ => ⟨htab, htgt⟩, hlast⟩
  | fin =>
      refine onObj_dying h ht (by simp [hp, PC.dying]) ?_
      exact Inv.fin h ht hp
  | dealloc =>
      refine onObj_dying h ht (by simp [hp, PC.dying]) ?_
      exact Inv.free h ht hp
  | weakRead m =>
      rw [hp] at hpc
      obtain ⟨rfl, hatt, hst⟩ := hpc
      refine onMeta_live h hatt (tab_of_pos h hatt (pos_of_strong ht hst)) fun x hx hf hr hlk htg => ?_
      exact Inv.local h ht (by simp [strongOf, hp, PC.strong]) (by simp [dyingOf, hp, PC.dying]) (by simp [finOf, hp, PC.finalized])
            (by simp [weakOf, hp, PC.weak]) (by simp [hp, PC.nulling]) ⟨hw, ⟨rfl, hatt, hst⟩, hlast⟩
  | weakInc m =>
      rw [hp] at hpc
      obtain ⟨rfl, hatt, hst⟩ := hpc
      have hpos := pos_of_strong ht hst
      refine onMeta_live h hatt (tab_of_pos h hatt hpos) fun x hx hf hr hlk htg => ?_
      have hv := view_eq hatt hlk htg
      have hxt := h.target x hx
      have hc := h.count x hx
      refine Inv.metaUpd h ht hx (by simp [strongOf, hp, PC.strong]) (by simp [dyingOf, hp, PC.dying]) (by simp [finOf, hp, PC.finalized])
        ⟨by simp [weakOf, hp, PC.weak]; omega, ?_⟩ hxt.1 (fun h0 => by omega) ?_ ?_
      · simp only; rw [hf, if_neg (by omega)]
      · refine ⟨fun m hm => ?_, trivial, trivial⟩
        rcases List.mem_cons.mp hm with rfl | hm
        · exact ⟨rfl, rfl⟩
        · exact ⟨(hw m hm).1, rfl⟩
      · intro u z hu hz
        rw [hv] at hz; exact hz
  | resLock m =>
      rw [hp] at hpc
      obtain ⟨rfl, hne⟩ := hpc
      have hatt := weak_att (h.thread t th ht) hne
      exact lock_keeps h ht hatt (tab_of_weak ht (weakOf_pos hne)) (by simp [hp, PC.strong]) (by simp [hp, PC.dying]) (by simp [hp, PC.finalized])
        (by simp [hp, PC.weak]) (by simp [hp, PC.nulling]) (fun v ha hl => ⟨rfl, hne, hl⟩)
  | resRead m =>
      rw [hp] at hpc
      obtain ⟨rfl, hne, hlock⟩ := hpc
      have hatt := weak_att (h.thread t th ht) hne
      refine onMeta_live h hatt (tab_of_weak ht (weakOf_pos hne)) fun x hx hf hr hlk htg => ?_
      have hxt := h.target x hx
      split
      · next htrue =>
        have hpos : 0 < total strongOf s.threads := by
          refine Nat.pos_of_ne_zero fun h0 => ?_
          rcases hxt.2 h0 with h1 | ⟨u, z, h1, h2, h3⟩
          · rw [htrue] at h1; cases h1
          · rw [← hlk, hlock] at h1
            cases h1
            rw [ht] at h2; cases h2
            rw [hp] at h3; cases h3
        exact Inv.local h ht (by simp [strongOf, hp, PC.strong]) (by simp [dyingOf, hp, PC.dying]) (by simp [finOf, hp, PC.finalized])
          (by simp [weakOf, hp, PC.weak]) (by simp [hp, PC.nulling]) ⟨hw, ⟨rfl, hne, hlock, by rw [htg]; exact htrue, hpos'.mpr hpos⟩, hlast⟩
      · next hfalse =>
        exact Inv.local h ht (by simp [strongOf, hp, PC.strong]) (by simp [dyingOf, hp, PC.dying]) (by simp [finOf, hp, PC.finalized])
          (by simp [weakOf, hp, PC.weak]) (by simp [hp, PC.nulling])
          ⟨hw, ⟨rfl, hne, hlock, hposF.mpr (hxt.1 (by simpa using hfalse))⟩, hlast⟩
  | resRetain m =>
      rw [hp] at hpc
      obtain ⟨rfl, hne, hlock, htgt, hps⟩ := hpc
      refine onObj_pos h (hpos'.mp hps) ?_
      rw [if_pos (word_disabled _ hlt)]
      exact Inv.local h ht (by simp [strongOf, hp, PC.strong]) (by simp [dyingOf, hp, PC.dying]) (by simp [finOf, hp, PC.finalized])
          (by simp [weakOf, hp, PC.weak]) (by simp [hp, PC.nulling]) ⟨hw, ⟨rfl, hne, hlock, htgt, hps⟩, hlast⟩
  | resInc m =>
      rw [hp] at hpc
      obtain ⟨rfl, hne, hlock, htgt, hps⟩ := hpc
      refine onObj_pos h (hpos'.mp hps) ?_
      rw [← h.rc]
      exact Inv.inc h ht (hpos'.mp hps) (few_le hfew ht (by simp [hp, PC.strong])) (by simp [strongOf, hp, PC.strong]) (by simp [dyingOf, hp, PC.dying])
        (by simp [finOf, hp, PC.finalized]) (by simp [weakOf, hp, PC.weak]) ⟨hw, ⟨rfl, hne, hlock⟩, hlast⟩
  | resUnlock m z =>
      rw [hp] at hpc
      cases z with
      | true =>
          obtain ⟨rfl, hne, hlock⟩ := hpc
          have hatt := weak_att (h.thread t th ht) hne
          simp only [if_true]
          exact unlock_keeps h ht hatt hlock (tab_of_weak ht (weakOf_pos hne)) (by simp [strongOf, hp, PC.strong]) (by simp [dyingOf, hp, PC.dying])
            (by simp [finOf, hp, PC.finalized]) (by simp [weakOf, hp, PC.weak]) (by simp [hp, PC.nulling]) ⟨hw, trivial, trivial⟩
      | false =>
          obtain ⟨rfl, hne, hlock, hps⟩ := hpc
          have hatt := weak_att (h.thread t th ht) hne
          simp only [Bool.false_eq_true, if_false]
          exact unlock_keeps h ht hatt hlock (tab_of_weak ht (weakOf_pos hne)) (by simp [strongOf, hp, PC.strong]) (by simp [dyingOf, hp, PC.dying])
            (by simp [finOf, hp, PC.finalized]) (by simp [weakOf, hp, PC.weak]) (by simp [hp, PC.nulling]) ⟨hw, trivial, hps⟩
  | wrelRead m =>
      rw [hp] at hpc
      obtain ⟨rfl, hatt⟩ := hpc
      refine onMeta_live h hatt (tab_of_weak ht (by simp [weakOf, hp, PC.weak])) fun x hx hf hr hlk htg => ?_
      exact Inv.local h ht (by simp [strongOf, hp, PC.strong]) (by simp [dyingOf, hp, PC.dying]) (by simp [finOf, hp, PC.finalized])
            (by simp [weakOf, hp, PC.weak]) (by simp [hp, PC.nulling]) ⟨hw, ⟨rfl, hatt⟩, hlast⟩
  | wrelDec m =>
      rw [hp] at hpc
      obtain ⟨rfl, hatt⟩ := hpc
      exact metaDec_keeps h ht hatt (by simp [strongOf, hp, PC.strong]) (by simp [dyingOf, hp, PC.dying]) (by simp [finOf, hp, PC.finalized])
        (by simp [weakOf, hp, PC.weak]) (by simp [hp, PC.nulling]) ⟨hw, trivial, trivial⟩

/-- Starting a call. -/
theorem startCall_keeps {s : State} {t : Nat} {th : Thread} (h : Inv s) (ht : s.threads[t]? = some th) (hp : th.pc = .idle)
    (c : Call) : Keeps (startCall s t th c) := by
  obtain ⟨hw, hpc, hlast⟩ := h.thread t th ht
  cases c with
  | retain =>
      simp only [startCall]; split
      · next hs =>
        exact Inv.local h ht (by simp [strongOf, hp, PC.strong]) (by simp [dyingOf, hp, PC.dying]) (by simp [finOf, hp, PC.finalized])
            (by simp [weakOf, hp, PC.weak]) (by simp [hp, PC.nulling]) ⟨hw, hs, hlast⟩
      · trivial
  | release =>
      simp only [startCall]; split
      · next hs =>
        exact Inv.local h ht (by simp [strongOf, hp, PC.strong]; omega) (by simp [dyingOf, hp, PC.dying]) (by simp [finOf, hp, PC.finalized])
            (by simp [weakOf, hp, PC.weak]) (by simp [hp, PC.nulling]) ⟨hw, trivial, hlast⟩
      · trivial
  | tryRelease =>
      simp only [startCall]; split
      · next hs =>
        exact Inv.local h ht (by simp [strongOf, hp, PC.strong]; omega) (by simp [dyingOf, hp, PC.dying]) (by simp [finOf, hp, PC.finalized])
            (by simp [weakOf, hp, PC.weak]) (by simp [hp, PC.nulling]) ⟨hw, trivial, hlast⟩
      · trivial
  | retainWeak =>
      simp only [startCall]; split
      · next hs =>
        exact Inv.local h ht (by simp [strongOf, hp, PC.strong]) (by simp [dyingOf, hp, PC.dying]) (by simp [finOf, hp, PC.finalized])
            (by simp [weakOf, hp, PC.weak]) (by simp [hp, PC.nulling]) ⟨hw, hs, hlast⟩
      · trivial
  | resolveWeak m =>
      simp only [startCall]; split
      · next hs =>
        exact Inv.local h ht (by simp [strongOf, hp, PC.strong]) (by simp [dyingOf, hp, PC.dying]) (by simp [finOf, hp, PC.finalized])
            (by simp [weakOf, hp, PC.weak]) (by simp [hp, PC.nulling]) ⟨hw, ⟨(hw m hs).1, List.ne_nil_of_mem hs⟩, hlast⟩
      · trivial
  | releaseWeak m =>
      simp only [startCall]; split
      · next hs =>
        have hlen := List.length_erase_of_mem hs
        have hpl := List.length_pos_of_mem hs
        exact Inv.local h ht (by simp [strongOf, hp, PC.strong]) (by simp [dyingOf, hp, PC.dying]) (by simp [finOf, hp, PC.finalized])
            (by simp only [weakOf, hp, PC.weak]; omega) (by simp [hp, PC.nulling])
            ⟨fun a ha => hw a (List.mem_of_mem_erase ha), ⟨(hw m hs).1, (hw m hs).2⟩, hlast⟩
      · trivial

/-- References change hands. -/
theorem Inv.two {s : State} {t u : Nat} {a b a' b' : Thread} (h : Inv s) (hne : t ≠ u) (ha : s.threads[t]? = some a)
    (hb : s.threads[u]? = some b) (hpa : a'.pc = a.pc) (hpb : b'.pc = b.pc)
    (hS : a'.strong + b'.strong = a.strong + b.strong) (hW : a'.weak.length + b'.weak.length = a.weak.length + b.weak.length)
    (hta : ThreadInv s.view t a') (htb : ThreadInv s.view u b') : Inv ((s.put t a').put u b') := by
  have hb1 : (s.threads.set t a')[u]? = some b := by rw [get_ne a' (Ne.symm hne)]; exact hb
  have key : ∀ f : Thread → Nat, total f ((s.threads.set t a').set u b') + (f a + f b) = total f s.threads + (f a' + f b') := by
    intro f
    have h1 := total_set f s.threads t a a' ha
    have h2 := total_set f (s.threads.set t a') u b b' hb1
    omega
  let s' := (s.put t a').put u b'
  have hst : s'.threads = (s.threads.set t a').set u b' := rfl
  have eS' : total strongOf s'.threads = total strongOf s.threads := by
    have := key strongOf
    have e : strongOf a' + strongOf b' = strongOf a + strongOf b := by simp only [strongOf, hpa, hpb]; omega
    rw [hst]; omega
  have eD' : total dyingOf s'.threads = total dyingOf s.threads := by
    have := key dyingOf
    have e : dyingOf a' + dyingOf b' = dyingOf a + dyingOf b := by simp only [dyingOf, hpa, hpb]
    rw [hst]; omega
  have eF' : total finOf s'.threads = total finOf s.threads := by
    have := key finOf
    have e : finOf a' + finOf b' = finOf a + finOf b := by simp only [finOf, hpa, hpb]
    rw [hst]; omega
  have eW' : total weakOf s'.threads = total weakOf s.threads := by
    have := key weakOf
    have e : weakOf a' + weakOf b' = weakOf a + weakOf b := by simp only [weakOf, hpa, hpb]; omega
    rw [hst]; omega
  have ev : s'.view = s.view := by unfold State.view; rw [eS']; rfl
  have hget : ∀ (w : Nat) (z : Thread), s.threads[w]? = some z → ∃ z', s'.threads[w]? = some z' ∧ z'.pc = z.pc := by
    intro w z hz
    by_cases hwu : w = u
    · subst hwu
      refine ⟨b', get_self b' hb1, ?_⟩
      rw [hb] at hz; cases hz; exact hpb
    · by_cases hwt : w = t
      · subst hwt
        refine ⟨a', by rw [hst, get_ne b' hwu]; exact get_self a' ha, ?_⟩
        rw [ha] at hz; cases hz; exact hpa
      · exact ⟨z, by rw [hst, get_ne b' hwu, get_ne a' hwt]; exact hz, rfl⟩
  show Inv s'
  refine ⟨by rw [eS']; exact h.few, by rw [eS']; exact h.rc, by rw [eS', eD']; exact h.dying, by rw [eF']; exact h.fins,
    h.one, h.gone, h.table, by rw [eS']; exact h.kept, by rw [eW']; exact h.count, by rw [eW']; exact h.bare, ?_, ?_⟩
  · rw [eS']
    intro x hx
    refine ⟨(h.target x hx).1, fun h0 => ?_⟩
    rcases (h.target x hx).2 h0 with h1 | ⟨w, y, hl, hy, hny⟩
    · exact Or.inl h1
    · obtain ⟨z', hz', hzp⟩ := hget w y hy
      exact Or.inr ⟨w, z', hl, hz', by rw [hzp]; exact hny⟩
  · intro w z hz
    rw [ev]
    by_cases hwu : w = u
    · subst hwu
      rw [show s'.threads[w]? = some b' from get_self b' hb1] at hz; cases hz; exact htb
    · by_cases hwt : w = t
      · subst hwt
        rw [hst, get_ne b' hwu, get_self a' ha] at hz; cases hz; exact hta
      · rw [hst, get_ne b' hwu, get_ne a' hwt] at hz
        exact h.thread w z hz

theorem pcInv_more {v : View} {t n n' : Nat} {w w' : List Nat} {p : PC} (h : PCInv v t n w p) (hn : n ≤ n') (hw : w ≠ [] → w' ≠ []) :
    PCInv v t n' w' p := by
  have hpos : 0 < n → 0 < n' := by omega
  cases p with
  | find a => cases a <;> simp_all [PCInv]
  | insert a => cases a <;> simp_all [PCInv]
  | relUnlock m z => cases z <;> simp_all [PCInv]
  | tryUnlock m z => cases z <;> simp_all [PCInv]
  | resUnlock m z => cases z <;> simp_all [PCInv]
  | _ => simp_all [PCInv]

theorem step_keeps {s : State} {l : Label} (h : Inv s) (hfew : s.Few) (hcalm : Calm s l) : Keeps (step s l) := by
  cases l with
  | call t c =>
      unfold step; simp only
      cases ht : s.threads[t]? with
      | none => trivial
      | some th =>
          simp only
          split
          · next hp => exact startCall_keeps h ht hp c
          · trivial
  | go t =>
      unfold step; simp only
      cases ht : s.threads[t]? with
      | none => trivial
      | some th => exact stepPC_keeps h hfew ht (fun u hu => hcalm t th u rfl ht hu)
  | give t u =>
      unfold step; simp only
      cases ht : s.threads[t]? with
      | none => trivial
      | some a =>
          cases hu : s.threads[u]? with
          | none => trivial
          | some b =>
              simp only
              split
              · next hc =>
                obtain ⟨hne, hp, hs⟩ := hc
                have ia := h.thread t a ht
                have ib := h.thread u b hu
                refine Inv.two h hne ht hu rfl rfl (by simp only; omega) rfl ⟨ia.1, by rw [hp]; trivial, ia.2.2⟩ ⟨ib.1, ?_, ib.2.2⟩
                exact pcInv_more ib.2.1 (Nat.le_succ _) (fun h => h)
              · trivial
  | giveWeak t u m =>
      unfold step; simp only
      cases ht : s.threads[t]? with
      | none => trivial
      | some a =>
          cases hu : s.threads[u]? with
          | none => trivial
          | some b =>
              simp only
              split
              · next hc =>
                obtain ⟨hne, hp, hs⟩ := hc
                have ia := h.thread t a ht
                have ib := h.thread u b hu
                have hlen := List.length_erase_of_mem hs
                have hpl := List.length_pos_of_mem hs
                refine Inv.two h hne ht hu rfl rfl rfl (by simp only [List.length_cons]; omega)
                  ⟨fun x hx => ia.1 x (List.mem_of_mem_erase hx), by rw [hp]; trivial, ia.2.2⟩ ⟨?_, ?_, ib.2.2⟩
                · intro x hx
                  rcases List.mem_cons.mp hx with rfl | hx
                  · exact ia.1 x hs
                  · exact ib.1 x hx
                · exact pcInv_more ib.2.1 (Nat.le_refl _) (fun _ => by simp)
              · trivial

theorem start_inv (n : Nat) : Inv (start 1 n) := by
  have ht : ∀ f : Thread → Nat, f ⟨0, [], .idle, .none⟩ = 0 → total f (start 1 n).threads = f ⟨1, [], .idle, .none⟩ := by
    intro f hf
    have : total f (List.replicate n ⟨0, [], .idle, .none⟩) = 0 :=
      total_zero f (fun th hm => by rw [(List.mem_replicate.mp hm).2]; exact hf)
    show f _ + total f (List.replicate n _) = _
    omega
  have eS := ht strongOf rfl
  have eD := ht dyingOf rfl
  have eF := ht finOf rfl
  have eW := ht weakOf rfl
  refine ⟨by rw [eS]; decide, by rw [eS]; rfl, by rw [eS, eD]; rfl, by rw [eF]; rfl, by simp [start], fun _ => rfl, fun m hm => (by cases hm),
    fun hm => absurd rfl hm, fun x hx => (by simp [start] at hx), fun _ => eW, fun x hx => (by simp [start] at hx), ?_⟩
  intro t th hth
  cases t with
  | zero =>
      have : th = ⟨1, [], .idle, .none⟩ := by simpa [start] using hth.symm
      subst this
      exact ⟨fun m hm => (by cases hm), trivial, trivial⟩
  | succ t =>
      have hm := List.mem_of_getElem? (show (List.replicate n (⟨0, [], .idle, .none⟩ : Thread))[t]? = some th by simpa [start] using hth)
      rw [(List.mem_replicate.mp hm).2]
      exact ⟨fun m hm => (by cases hm), trivial, trivial⟩

/-- Schedules: few references, and calm. -/
def Permitted (s : State) (l : Label) : Prop := s.Few ∧ Calm s l

theorem reach_inv {ok : State → Label → Prop} (hok : ∀ s l, Inv s → ok s l → Permitted s l) {n : Nat} {s : State}
    (hr : Reach ok (start 1 n) s) : Inv s := by
  induction hr with
  | refl => exact start_inv n
  | step _ hl he ih =>
      have := step_keeps ih (hok _ _ ih hl).1 (hok _ _ ih hl).2
      rw [he] at this; exact this

/-! ### Threads that stay within a set of positions -/

/-- Every thread is at a position in `P`, and the shared state satisfies `Q`. -/
def Within (P : PC → Bool) (Q : State → Prop) (s : State) : Prop := Q s ∧ ∀ th ∈ s.threads, P th.pc = true

def Res.All (R : State → Prop) : Res → Prop
  | .next s => R s
  | _ => True

theorem within_put {P : PC → Bool} {Q : State → Prop} {s s₁ : State} {t : Nat} {th' : Thread} (h : Within P Q s)
    (he : s₁.threads = s.threads) (hq : Q (s₁.put t th')) (hp : P th'.pc = true) : Within P Q (s₁.put t th') := by
  refine ⟨hq, fun x hx => ?_⟩
  have hx' : x ∈ s.threads.set t th' := by rw [← he]; exact hx
  rcases List.mem_or_eq_of_mem_set hx' with h1 | rfl
  · exact h.2 x h1
  · exact hp

theorem onObj_all {R : State → Prop} {s : State} {k : BitVec 32 → Res} (h : (k s.rc).All R) : (onObj s k).All R := by
  unfold onObj; split
  · trivial
  · exact h

theorem onMeta_all {R : State → Prop} {s : State} {m : Nat} {k : Meta → Res} (h : ∀ x, s.metas[m]? = some x → (k x).All R) :
    (onMeta s m k).All R := by
  unfold onMeta
  cases hm : s.metas[m]? with
  | none => trivial
  | some x =>
      simp only
      split
      · trivial
      · exact h x hm

/-- Positions of strong calls on an object without metadata. -/
def PC.plain : PC → Bool
  | .idle | .retainRead | .retainInc | .relRead | .relDec | .tryRead | .tryCas _ | .fin | .dealloc => true
  | _ => false

def Plain : State → Prop := Within PC.plain fun s => s.metas = [] ∧ s.rc &&& metadataBit = 0 ∧ ∀ th ∈ s.threads, th.weak = []

/-- Positions of calls on an object that is not counted. -/
def PC.uncounted : PC → Bool
  | .idle | .retainRead | .relRead | .tryRead | .find .retainWeak | .insert .retainWeak | .weakRead _ | .weakInc _
  | .resLock _ | .resRead _ | .resRetain _ | .resUnlock _ _ | .wrelRead _ | .wrelDec _ => true
  | _ => false

def Uncounted : State → Prop := Within PC.uncounted fun s => s.rc &&& disabledBit ≠ 0 ∧ s.fins = 0 ∧ s.frees = 0

end RefCount
end Duck
