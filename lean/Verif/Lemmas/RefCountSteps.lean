import Verif.Lemmas.RefCount
/-! Every step of the reference-counting system keeps the invariant. -/
namespace Duck
namespace RefCount

theorem get_self {l : List Thread} {t : Nat} {x : Thread} (y : Thread) (h : l[t]? = some x) : (l.set t y)[t]? = some y := by
  have := (List.getElem?_eq_some_iff.mp h).1
  rw [List.getElem?_set_self this]

theorem get_ne {l : List Thread} {t u : Nat} (y : Thread) (h : u ≠ t) : (l.set t y)[u]? = l[u]? :=
  List.getElem?_set_ne (Ne.symm h)

/-! ### The positions of the other threads -/

theorem weak_att {v : View} {u : Nat} {x : Thread} (h : ThreadInv v u x) (hw : x.weak ≠ []) : v.att = true := by
  obtain ⟨w, ws, hx⟩ := List.exists_cons_of_ne_nil hw
  exact (h.1 w (by rw [hx]; exact List.mem_cons_self ..)).2

theorem others_zero {v : View} {u : Nat} {x : Thread} (h : ThreadInv v u x) (ha : v.att = false) : ThreadInv { v with pos := false } u x := by
  have hw : x.weak = [] := by
    cases hx : x.weak with
    | nil => rfl
    | cons w ws => have := weak_att h (by rw [hx]; simp); rw [ha] at this; cases this
  obtain ⟨h1, h2, h3⟩ := h
  refine ⟨h1, ?_, ?_⟩
  · rw [hw] at h2 ⊢
    cases hp : x.pc with
    | find a => cases a <;> simp_all [PCInv]
    | insert a => cases a <;> simp_all [PCInv]
    | relUnlock m z => cases z <;> simp_all [PCInv]
    | tryUnlock m z => cases z <;> simp_all [PCInv]
    | resUnlock m z => cases z <;> simp_all [PCInv]
    | _ => simp_all [PCInv]
  · cases hl : x.last with
    | resolved b => cases b <;> simp [LastInv]
    | _ => simp [LastInv]

theorem last_congr {v v' : View} {r : Result} (h : LastInv v r) (hp : v.pos = false → v'.pos = false) : LastInv v' r := by
  cases r with
  | resolved b => cases b <;> simp_all [LastInv]
  | _ => simp [LastInv]

theorem others_zeroL {v : View} {t u : Nat} {x : Thread} (h : ThreadInv v u x) (hl : v.lock = some t) (hu : u ≠ t) :
    ThreadInv { v with pos := false } u x := by
  obtain ⟨h1, h2, h3⟩ := h
  refine ⟨h1, ?_, last_congr h3 (fun _ => rfl)⟩
  cases hp : x.pc with
  | find a => cases a <;> simp_all [PCInv]
  | insert a => cases a <;> simp_all [PCInv]
  | relUnlock m z => cases z <;> simp_all [PCInv]
  | tryUnlock m z => cases z <;> simp_all [PCInv]
  | resUnlock m z => cases z <;> simp_all [PCInv]
  | _ => simp_all [PCInv]

theorem others_lock {v : View} {t u : Nat} {x : Thread} (h : ThreadInv v u x) (hl : v.lock = none) :
    ThreadInv { v with lock := some t } u x := by
  obtain ⟨h1, h2, h3⟩ := h
  refine ⟨h1, ?_, last_congr h3 (fun h => h)⟩
  cases hp : x.pc with
  | find a => cases a <;> simp_all [PCInv]
  | insert a => cases a <;> simp_all [PCInv]
  | relUnlock m z => cases z <;> simp_all [PCInv]
  | tryUnlock m z => cases z <;> simp_all [PCInv]
  | resUnlock m z => cases z <;> simp_all [PCInv]
  | _ => simp_all [PCInv]

theorem others_unlock {v : View} {t u : Nat} {x : Thread} (h : ThreadInv v u x) (hl : v.lock = some t) (hu : u ≠ t) :
    ThreadInv { v with lock := none } u x := by
  have hu' : t ≠ u := Ne.symm hu
  obtain ⟨h1, h2, h3⟩ := h
  refine ⟨h1, ?_, last_congr h3 (fun h => h)⟩
  cases hp : x.pc with
  | find a => cases a <;> simp_all [PCInv]
  | insert a => cases a <;> simp_all [PCInv]
  | relUnlock m z => cases z <;> simp_all [PCInv]
  | tryUnlock m z => cases z <;> simp_all [PCInv]
  | resUnlock m z => cases z <;> simp_all [PCInv]
  | _ => simp_all [PCInv]

theorem others_target {v : View} {t u : Nat} {x : Thread} (h : ThreadInv v u x) (hl : v.lock = some t) (hu : u ≠ t) :
    ThreadInv { v with target := false } u x := by
  have hu' : t ≠ u := Ne.symm hu
  obtain ⟨h1, h2, h3⟩ := h
  refine ⟨h1, ?_, last_congr h3 (fun h => h)⟩
  cases hp : x.pc with
  | find a => cases a <;> simp_all [PCInv]
  | insert a => cases a <;> simp_all [PCInv]
  | relUnlock m z => cases z <;> simp_all [PCInv]
  | tryUnlock m z => cases z <;> simp_all [PCInv]
  | resUnlock m z => cases z <;> simp_all [PCInv]
  | _ => simp_all [PCInv]

theorem others_table {v : View} {u : Nat} {x : Thread} (h : ThreadInv v u x) (hd : x.pc.dying = 0) :
    ThreadInv { v with table := false } u x := by
  obtain ⟨h1, h2, h3⟩ := h
  refine ⟨h1, ?_, last_congr h3 (fun h => h)⟩
  cases hp : x.pc with
  | find a => cases a <;> simp_all [PCInv]
  | insert a => cases a <;> simp_all [PCInv]
  | relUnlock m z => cases z <;> simp_all [PCInv, PC.dying]
  | tryUnlock m z => cases z <;> simp_all [PCInv, PC.dying]
  | resUnlock m z => cases z <;> simp_all [PCInv]
  | _ => simp_all [PCInv, PC.dying]

theorem others_attach {v : View} {u : Nat} {x : Thread} (h : ThreadInv v u x) (ha : v.att = false) (hd : x.pc.dying = 0)
    (hr : x.pc ≠ .relDec) : ThreadInv { v with att := true, lock := none, target := true, table := true } u x := by
  have hw : x.weak = [] := by
    cases hx : x.weak with
    | nil => rfl
    | cons w ws => have := weak_att h (by rw [hx]; simp); rw [ha] at this; cases this
  obtain ⟨h1, h2, h3⟩ := h
  refine ⟨by rw [hw]; simp, ?_, last_congr h3 (fun h => h)⟩
  rw [hw] at h2 ⊢
  cases hp : x.pc with
  | find a => cases a <;> simp_all [PCInv]
  | insert a => cases a <;> simp_all [PCInv]
  | relUnlock m z => cases z <;> simp_all [PCInv]
  | tryUnlock m z => cases z <;> simp_all [PCInv]
  | resUnlock m z => cases z <;> simp_all [PCInv]
  | _ => simp_all [PCInv, PC.dying]

/-! ### Reassembling the invariant -/

theorem threads_after {s s' : State} {t : Nat} {th th' : Thread} (h : Inv s) (ht : s.threads[t]? = some th)
    (he : s'.threads = s.threads.set t th') (hth : ThreadInv s'.view t th')
    (hothers : ∀ u x, u ≠ t → s.threads[u]? = some x → ThreadInv s.view u x → ThreadInv s'.view u x) :
    ∀ u x, s'.threads[u]? = some x → ThreadInv s'.view u x := by
  intro u x hu
  rw [he] at hu
  by_cases hut : u = t
  · subst hut
    rw [get_self th' ht] at hu
    cases hu; exact hth
  · rw [get_ne th' hut] at hu
    exact hothers u x hut hu (h.thread u x hu)

/-- A move of one thread that changes nothing shared. -/
theorem Inv.local {s : State} {t : Nat} {th th' : Thread} (h : Inv s) (ht : s.threads[t]? = some th)
    (hS : strongOf th' = strongOf th) (hD : dyingOf th' = dyingOf th) (hF : finOf th' = finOf th) (hW : weakOf th' = weakOf th)
    (hn : th.pc.nulling = false) (hth : ThreadInv s.view t th') : Inv (s.put t th') := by
  have eS := total_set strongOf s.threads t th th' ht
  have eD := total_set dyingOf s.threads t th th' ht
  have eF := total_set finOf s.threads t th th' ht
  have eW := total_set weakOf s.threads t th th' ht
  have eS' : total strongOf (s.put t th').threads = total strongOf s.threads := by show total strongOf (s.threads.set t th') = _; omega
  have eD' : total dyingOf (s.put t th').threads = total dyingOf s.threads := by show total dyingOf (s.threads.set t th') = _; omega
  have eF' : total finOf (s.put t th').threads = total finOf s.threads := by show total finOf (s.threads.set t th') = _; omega
  have eW' : total weakOf (s.put t th').threads = total weakOf s.threads := by show total weakOf (s.threads.set t th') = _; omega
  have ev : (s.put t th').view = s.view := by
    unfold State.view; rw [eS']; rfl
  refine ⟨by rw [eS']; exact h.few, by rw [eS']; exact h.rc, by rw [eS', eD']; exact h.dying, by rw [eF']; exact h.fins,
    h.one, h.gone, h.table, by rw [eS']; exact h.kept, by rw [eW']; exact h.count, by rw [eW']; exact h.bare, ?_, ?_⟩
  · rw [eS']
    intro x hx
    refine ⟨(h.target x hx).1, fun h0 => ?_⟩
    rcases (h.target x hx).2 h0 with h1 | ⟨u, y, hl, hy, hny⟩
    · exact Or.inl h1
    · refine Or.inr ⟨u, y, hl, ?_, hny⟩
      have : u ≠ t := by
        rintro rfl
        rw [ht] at hy; cases hy; rw [hn] at hny; cases hny
      show (s.threads.set t th')[u]? = _
      rw [get_ne th' this]; exact hy
  · exact threads_after h ht rfl (by rw [ev]; exact hth) (fun u x _ _ hi => by rw [ev]; exact hi)

/-- An increment of the count by a thread that keeps the object alive. -/
theorem Inv.inc {s : State} {t : Nat} {th th' : Thread} (h : Inv s) (ht : s.threads[t]? = some th)
    (hpos : 0 < total strongOf s.threads) (hfew : total strongOf s.threads + 1 < 2 ^ 28)
    (hS : strongOf th' = strongOf th + 1) (hD : dyingOf th' = dyingOf th) (hF : finOf th' = finOf th) (hW : weakOf th' = weakOf th)
    (hth : ThreadInv s.view t th') : Inv ({ s with rc := s.rc + 1 }.put t th') := by
  have eS := total_set strongOf s.threads t th th' ht
  have eD := total_set dyingOf s.threads t th th' ht
  have eF := total_set finOf s.threads t th th' ht
  have eW := total_set weakOf s.threads t th th' ht
  let s' := { s with rc := s.rc + 1 }.put t th'
  have hst : s'.threads = s.threads.set t th' := rfl
  have eS' : total strongOf s'.threads = total strongOf s.threads + 1 := by rw [hst]; omega
  have eD' : total dyingOf s'.threads = total dyingOf s.threads := by rw [hst]; omega
  have eF' : total finOf s'.threads = total finOf s.threads := by rw [hst]; omega
  have eW' : total weakOf s'.threads = total weakOf s.threads := by rw [hst]; omega
  have ev : s'.view = s.view := by
    unfold State.view; rw [eS']
    simp only [View.mk.injEq, decide_eq_decide]
    exact ⟨rfl, rfl, rfl, rfl, by omega⟩
  have hd := h.dying
  refine ⟨by rw [eS']; exact hfew, ?_, ?_, by rw [eF']; exact h.fins,
    h.one, h.gone, h.table, fun hm _ => h.kept hm hpos, by rw [eW']; exact h.count, by rw [eW']; exact h.bare, ?_, ?_⟩
  · rw [eS']; show s.rc + 1 = _; rw [h.rc, word_succ]; rfl
  · rw [eS', eD']; show _ + s.frees = _; rw [if_neg (by omega)] at hd ⊢; exact hd
  · intro x hx
    refine ⟨fun hx' => ?_, fun h0 => ?_⟩
    · have := (h.target x hx).1 hx'; omega
    · rw [eS'] at h0; omega
  · exact threads_after h ht rfl (by rw [ev]; exact hth) (fun u x _ _ hi => by rw [ev]; exact hi)

/-- A decrement that leaves references. -/
theorem Inv.dec {s : State} {t : Nat} {th th' : Thread} (h : Inv s) (ht : s.threads[t]? = some th)
    (hS : strongOf th' + 1 = strongOf th) (hpos : 1 < total strongOf s.threads) (hD : dyingOf th' = dyingOf th)
    (hF : finOf th' = finOf th) (hW : weakOf th' = weakOf th)
    (hth : ThreadInv s.view t th') : Inv ({ s with rc := s.rc - 1 }.put t th') := by
  have eS := total_set strongOf s.threads t th th' ht
  have eD := total_set dyingOf s.threads t th th' ht
  have eF := total_set finOf s.threads t th th' ht
  have eW := total_set weakOf s.threads t th th' ht
  let s' := { s with rc := s.rc - 1 }.put t th'
  have hst : s'.threads = s.threads.set t th' := rfl
  have eS' : total strongOf s'.threads = total strongOf s.threads - 1 := by rw [hst]; omega
  have eD' : total dyingOf s'.threads = total dyingOf s.threads := by rw [hst]; omega
  have eF' : total finOf s'.threads = total finOf s.threads := by rw [hst]; omega
  have eW' : total weakOf s'.threads = total weakOf s.threads := by rw [hst]; omega
  have ev : s'.view = s.view := by
    unfold State.view; rw [eS']
    simp only [View.mk.injEq, decide_eq_decide]
    exact ⟨rfl, rfl, rfl, rfl, by omega⟩
  have hd := h.dying
  have hf := h.few
  refine ⟨by rw [eS']; omega, ?_, ?_, by rw [eF']; exact h.fins,
    h.one, h.gone, h.table, fun hm _ => h.kept hm (by omega), by rw [eW']; exact h.count, by rw [eW']; exact h.bare, ?_, ?_⟩
  · rw [eS']; show s.rc - 1 = _; rw [h.rc, word_pred _ _ (by omega)]; rfl
  · rw [eS', eD']; show _ + s.frees = _; rw [if_neg (by omega)] at hd ⊢; exact hd
  · intro x hx
    refine ⟨fun hx' => ?_, fun h0 => ?_⟩
    · have := (h.target x hx).1 hx'; omega
    · rw [eS'] at h0; omega
  · exact threads_after h ht rfl (by rw [ev]; exact hth) (fun u x _ _ hi => by rw [ev]; exact hi)

/-- The last reference goes: the thread becomes the one that frees the object. -/
theorem Inv.last {s : State} {t : Nat} {th th' : Thread} (h : Inv s) (ht : s.threads[t]? = some th)
    (hS : strongOf th' + 1 = strongOf th) (hone : total strongOf s.threads = 1) (hD : dyingOf th' = dyingOf th + 1)
    (hF : finOf th' = finOf th) (hW : weakOf th' = weakOf th) (w : BitVec 32) (hw : w = word 0 (!s.metas.isEmpty))
    (hsafe : s.metas = [] ∨ (s.view.lock = some t ∧ th'.pc.nulling = true))
    (hth : ThreadInv { s.view with pos := false } t th') : Inv ({ s with rc := w }.put t th') := by
  have eS := total_set strongOf s.threads t th th' ht
  have eD := total_set dyingOf s.threads t th th' ht
  have eF := total_set finOf s.threads t th th' ht
  have eW := total_set weakOf s.threads t th th' ht
  let s' := { s with rc := w }.put t th'
  have hst : s'.threads = s.threads.set t th' := rfl
  have eS' : total strongOf s'.threads = 0 := by rw [hst]; omega
  have eD' : total dyingOf s'.threads = total dyingOf s.threads + 1 := by rw [hst]; omega
  have eF' : total finOf s'.threads = total finOf s.threads := by rw [hst]; omega
  have eW' : total weakOf s'.threads = total weakOf s.threads := by rw [hst]; omega
  have ev : s'.view = { s.view with pos := false } := by
    unfold State.view; rw [eS']
    simp only [View.mk.injEq]
    exact ⟨rfl, rfl, rfl, rfl, by simp⟩
  have hd := h.dying
  rw [if_neg (by omega)] at hd
  refine ⟨by rw [eS']; omega, ?_, ?_, by rw [eF']; exact h.fins,
    h.one, h.gone, h.table, fun _ h0 => by rw [eS'] at h0; omega, by rw [eW']; exact h.count, by rw [eW']; exact h.bare, ?_, ?_⟩
  · rw [eS']; exact hw
  · rw [eS', eD']; show _ + s.frees = _; rw [if_pos rfl]; omega
  · intro x hx
    refine ⟨fun _ => eS', fun _ => ?_⟩
    rcases hsafe with hm | ⟨hl, hn⟩
    · have hx' : s.metas[0]? = some x := hx
      rw [hm] at hx'; simp at hx'
    · refine Or.inr ⟨t, th', ?_, get_self th' ht, hn⟩
      have hx' : s.metas[0]? = some x := hx
      have : s.view.lock = x.lock := by unfold State.view; simp only [hx', Option.bind_some]
      rw [← this]; exact hl
  · refine threads_after h ht rfl (by rw [ev]; exact hth) (fun u x hu hx hi => ?_)
    rw [ev]
    rcases hsafe with hm | ⟨hl, _⟩
    · exact others_zero hi (by unfold State.view; simp [hm])
    · exact others_zeroL hi hl hu

/-- A step that changes only the fields of the one metadata object. -/
theorem Inv.metaUpd {s : State} {t : Nat} {th th' : Thread} {x y : Meta} (h : Inv s) (ht : s.threads[t]? = some th)
    (hx : s.metas[0]? = some x)
    (hS : strongOf th' = strongOf th) (hD : dyingOf th' = dyingOf th) (hF : finOf th' = finOf th)
    (hc : y.rc + weakOf th = x.rc + weakOf th' ∧ y.frees = if y.rc = 0 then 1 else 0)
    (htf : y.target = false → total strongOf s.threads = 0)
    (htn : total strongOf s.threads = 0 → y.target = false ∨
      ∃ u z, y.lock = some u ∧ (s.threads.set t th')[u]? = some z ∧ z.pc.nulling = true)
    (hth : ThreadInv ⟨true, y.lock, y.target, s.table.isSome, s.view.pos⟩ t th')
    (hothers : ∀ u z, u ≠ t → ThreadInv s.view u z → ThreadInv ⟨true, y.lock, y.target, s.table.isSome, s.view.pos⟩ u z) :
    Inv ((s.putMeta 0 y).put t th') := by
  have eS := total_set strongOf s.threads t th th' ht
  have eD := total_set dyingOf s.threads t th th' ht
  have eF := total_set finOf s.threads t th th' ht
  have eW := total_set weakOf s.threads t th th' ht
  let s' := (s.putMeta 0 y).put t th'
  have hst : s'.threads = s.threads.set t th' := rfl
  have eS' : total strongOf s'.threads = total strongOf s.threads := by rw [hst]; omega
  have eD' : total dyingOf s'.threads = total dyingOf s.threads := by rw [hst]; omega
  have eF' : total finOf s'.threads = total finOf s.threads := by rw [hst]; omega
  obtain ⟨xs, hxs⟩ : ∃ xs, s.metas = x :: xs := by
    cases hm : s.metas with
    | nil => rw [hm] at hx; simp at hx
    | cons a xs => rw [hm] at hx; simp at hx; exact ⟨xs, by rw [hx]⟩
  have hm' : s'.metas = y :: xs := by show s.metas.set 0 y = _; rw [hxs]; rfl
  have hne : s.metas ≠ [] := by rw [hxs]; simp
  have hlen := h.one
  rw [hxs] at hlen
  have ev : s'.view = ⟨true, y.lock, y.target, s.table.isSome, s.view.pos⟩ := by
    unfold State.view; rw [eS', hm']; rfl
  refine ⟨by rw [eS']; exact h.few, ?_, by rw [eS', eD']; exact h.dying, by rw [eF']; exact h.fins,
    by rw [hm']; simpa using hlen, h.gone, fun m hmm => ⟨(h.table m hmm).1, by rw [hm']; simp⟩,
    fun _ h0 => h.kept hne (by rw [eS'] at h0; exact h0), ?_, fun h0 => (by rw [hm'] at h0; cases h0), ?_, ?_⟩
  · rw [eS', hm']
    show s.rc = _
    rw [h.rc, hxs]; rfl
  · intro z hz
    rw [hm'] at hz
    simp only [List.getElem?_cons_zero, Option.some.injEq] at hz
    subst hz
    refine ⟨?_, hc.2⟩
    have := (h.count x hx).1
    have h1 := hc.1
    show y.rc = total weakOf s'.threads + if s.table.isSome then 1 else 0
    rw [hst]; omega
  · intro z hz
    rw [hm'] at hz
    simp only [List.getElem?_cons_zero, Option.some.injEq] at hz
    subst hz
    rw [eS']
    exact ⟨htf, htn⟩
  · exact threads_after h ht rfl (by rw [ev]; exact hth) (fun u z hu _ hi => by rw [ev]; exact hothers u z hu hi)

/-- The metadata leaves the table. -/
theorem Inv.remove {s : State} {t : Nat} {th th' : Thread} (h : Inv s) (ht : s.threads[t]? = some th)
    (hp : th.pc = .remove 0) (hp' : th' = { th with pc := .dropRead 0 }) : Inv ({ s with table := none }.put t th') := by
  have hi := h.thread t th ht
  have hpc := hi.2.1
  rw [hp] at hpc
  obtain ⟨_, hatt, htab, htgt⟩ := hpc
  have eS := total_set strongOf s.threads t th th' ht
  have eD := total_set dyingOf s.threads t th th' ht
  have eF := total_set finOf s.threads t th th' ht
  have eW := total_set weakOf s.threads t th th' ht
  have hS : strongOf th' = strongOf th := by subst hp'; simp [strongOf, hp, PC.strong]
  have hD : dyingOf th' = 1 ∧ dyingOf th = 1 := by subst hp'; simp [dyingOf, hp, PC.dying]
  have hF : finOf th' = finOf th := by subst hp'; simp [finOf, hp, PC.finalized]
  have hW : weakOf th' = weakOf th + 1 := by subst hp'; simp [weakOf, hp, PC.weak]
  let s' := { s with table := none }.put t th'
  have hst : s'.threads = s.threads.set t th' := rfl
  have eS' : total strongOf s'.threads = total strongOf s.threads := by rw [hst]; omega
  have eD' : total dyingOf s'.threads = total dyingOf s.threads := by rw [hst]; omega
  have eF' : total finOf s'.threads = total finOf s.threads := by rw [hst]; omega
  have eW' : total weakOf s'.threads = total weakOf s.threads + 1 := by rw [hst]; omega
  have hd := h.dying
  have hdge := total_ge dyingOf ht
  have h0 : total strongOf s.threads = 0 := by
    by_cases h0 : total strongOf s.threads = 0
    · exact h0
    · rw [if_neg h0] at hd; omega
  rw [if_pos h0] at hd
  have ev : s'.view = { s.view with table := false } := by
    unfold State.view; rw [eS']; rfl
  refine ⟨by rw [eS']; exact h.few, by rw [eS']; exact h.rc, by rw [eS', eD', if_pos h0]; exact hd, by rw [eF']; exact h.fins,
    h.one, fun _ => rfl, fun m hm => (by simp [s', State.put] at hm), fun _ hp => by rw [eS'] at hp; omega, ?_, ?_, ?_, ?_⟩
  · intro x hx
    have hxc := h.count x hx
    have : s.table.isSome = true := htab
    rw [this] at hxc
    refine ⟨?_, hxc.2⟩
    rw [eW']
    show x.rc = total weakOf s.threads + 1 + if (none : Option Nat).isSome then 1 else 0
    rw [hxc.1]; simp
  · intro hm
    have : s.view.att = false := by show (!s.metas.isEmpty) = false; rw [show s.metas = [] from hm]; rfl
    rw [this] at hatt; cases hatt
  · intro x hx
    have hxt := h.target x hx
    refine ⟨fun _ => by rw [eS']; exact h0, fun _ => Or.inl ?_⟩
    have hx' : s.metas[0]? = some x := hx
    have : s.view.target = x.target := by unfold State.view; simp only [hx', Option.map_some, Option.getD_some]
    rw [← this]; exact htgt
  · refine threads_after h ht rfl ?_ (fun u x hu hx hi => ?_)
    · rw [ev]
      subst hp'
      exact ⟨hi.1, ⟨rfl, hatt, rfl, htgt⟩, last_congr hi.2.2 (fun h => h)⟩
    · rw [ev]
      have := total_ge_two dyingOf ht hx (Ne.symm hu)
      exact others_table hi (by have : dyingOf x = 0 := by omega
                                exact this)

/-- The metadata is attached. -/
theorem Inv.attach {s : State} {t : Nat} {th : Thread} (h : Inv s) (ht : s.threads[t]? = some th)
    (hp : th.pc = .insert .retainWeak) (htab : s.table = none) (hcalm : ∀ x ∈ s.threads, x.pc ≠ .relDec) :
    Inv ({ s with rc := s.rc ||| metadataBit, metas := s.metas ++ [(⟨1, true, none, 0⟩ : Meta)], table := some s.metas.length }.put t
            { th with pc := afterFind s.metas.length .retainWeak }) := by
  have hi := h.thread t th ht
  have hpc := hi.2.1
  rw [hp] at hpc
  have hstrong : 0 < th.strong := hpc
  have hge := total_ge strongOf ht
  have hpos : 0 < total strongOf s.threads := by unfold strongOf at hge; unfold strongOf; omega
  have hmet : s.metas = [] := by
    cases hm : s.metas with
    | nil => rfl
    | cons a l => have := h.kept (by rw [hm]; simp) hpos; rw [htab] at this; cases this
  have hatt : s.view.att = false := by show (!s.metas.isEmpty) = false; rw [hmet]; rfl
  rw [hmet]
  let th' : Thread := { th with pc := .weakRead 0 }
  have eS := total_set strongOf s.threads t th th' ht
  have eD := total_set dyingOf s.threads t th th' ht
  have eF := total_set finOf s.threads t th th' ht
  have eW := total_set weakOf s.threads t th th' ht
  have hS : strongOf th' = strongOf th := by simp [th', strongOf, hp, PC.strong]
  have hD : dyingOf th' = dyingOf th := by simp [th', dyingOf, hp, PC.dying]
  have hF : finOf th' = finOf th := by simp [th', finOf, hp, PC.finalized]
  have hW : weakOf th' = weakOf th := by simp [th', weakOf, hp, PC.weak]
  let s' := { s with rc := s.rc ||| metadataBit, metas := [] ++ [(⟨1, true, none, 0⟩ : Meta)], table := some 0 }.put t th'
  have hst : s'.threads = s.threads.set t th' := rfl
  have eS' : total strongOf s'.threads = total strongOf s.threads := by rw [hst]; omega
  have eD' : total dyingOf s'.threads = total dyingOf s.threads := by rw [hst]; omega
  have eF' : total finOf s'.threads = total finOf s.threads := by rw [hst]; omega
  have eW' : total weakOf s'.threads = total weakOf s.threads := by rw [hst]; omega
  have hm' : s'.metas = [(⟨1, true, none, 0⟩ : Meta)] := rfl
  have ev : s'.view = { s.view with att := true, lock := none, target := true, table := true } := by
    unfold State.view; rw [eS']; rfl
  have hd := h.dying
  rw [if_neg (by omega)] at hd
  show Inv s'
  refine ⟨by rw [eS']; exact h.few, ?_, by rw [eS', eD', if_neg (by omega)]; exact hd, by rw [eF']; exact h.fins,
    by rw [hm']; simp, fun (hg : 0 < s.frees) => (by omega), fun m hm => ⟨?_, by rw [hm']; simp⟩, fun _ _ => rfl, ?_, fun h0 => (by rw [hm'] at h0; cases h0), ?_, ?_⟩
  · rw [eS', hm']
    show s.rc ||| metadataBit = _
    rw [h.rc, hmet]
    exact word_or h.few
  · have : some 0 = some m := hm
    cases this; rfl
  · intro x hx
    rw [hm'] at hx
    simp only [List.getElem?_cons_zero, Option.some.injEq] at hx
    subst hx
    rw [eW', h.bare hmet]
    exact ⟨rfl, rfl⟩
  · intro x hx
    rw [hm'] at hx
    simp only [List.getElem?_cons_zero, Option.some.injEq] at hx
    subst hx
    refine ⟨fun hf => (by cases hf), fun h0 => by rw [eS'] at h0; omega⟩
  · refine threads_after h ht rfl ?_ (fun u x hu hx hi => ?_)
    · rw [ev]
      refine ⟨fun m hm => ?_, ⟨rfl, rfl, hstrong⟩, last_congr hi.2.2 (fun h => h)⟩
      have := (hi.1 m hm)
      rw [hatt] at this; cases this.2
    · rw [ev]
      refine others_attach hi hatt ?_ (hcalm x (List.mem_of_getElem? hx))
      have := total_ge dyingOf hx
      have : dyingOf x = 0 := by omega
      exact this

/-- The finalizer runs. -/
theorem Inv.fin {s : State} {t : Nat} {th : Thread} (h : Inv s) (ht : s.threads[t]? = some th) (hp : th.pc = .fin) :
    Inv ({ s with fins := s.fins + 1 }.put t { th with pc := .dealloc }) := by
  have hi := h.thread t th ht
  have hpc := hi.2.1
  rw [hp] at hpc
  let th' : Thread := { th with pc := .dealloc }
  have eS := total_set strongOf s.threads t th th' ht
  have eD := total_set dyingOf s.threads t th th' ht
  have eF := total_set finOf s.threads t th th' ht
  have eW := total_set weakOf s.threads t th th' ht
  have hS : strongOf th' = strongOf th := by simp [th', strongOf, hp, PC.strong]
  have hD : dyingOf th' = dyingOf th := by simp [th', dyingOf, hp, PC.dying]
  have hF : finOf th' = 1 ∧ finOf th = 0 := by simp [th', finOf, hp, PC.finalized]
  have hW : weakOf th' = weakOf th := by simp [th', weakOf, hp, PC.weak]
  let s' := { s with fins := s.fins + 1 }.put t th'
  have hst : s'.threads = s.threads.set t th' := rfl
  have eS' : total strongOf s'.threads = total strongOf s.threads := by rw [hst]; omega
  have eD' : total dyingOf s'.threads = total dyingOf s.threads := by rw [hst]; omega
  have eF' : total finOf s'.threads = total finOf s.threads + 1 := by rw [hst]; omega
  have eW' : total weakOf s'.threads = total weakOf s.threads := by rw [hst]; omega
  have ev : s'.view = s.view := by
    unfold State.view; rw [eS']; rfl
  show Inv s'
  refine ⟨by rw [eS']; exact h.few, by rw [eS']; exact h.rc, by rw [eS', eD']; exact h.dying, ?_,
    h.one, h.gone, h.table, by rw [eS']; exact h.kept, by rw [eW']; exact h.count, by rw [eW']; exact h.bare, ?_, ?_⟩
  · rw [eF']; show s.fins + 1 = s.frees + _; rw [h.fins]; omega
  · rw [eS']
    intro x hx
    refine ⟨(h.target x hx).1, fun h0 => ?_⟩
    have htn := hpc
    left
    have hx' : s.metas[0]? = some x := hx
    have h1 : s.view.target = x.target := by unfold State.view; simp only [hx', Option.map_some, Option.getD_some]
    rw [← h1]
    refine (htn ?_).2
    show (!s.metas.isEmpty) = true
    cases hm : s.metas with
    | nil => rw [hm] at hx'; simp at hx'
    | cons => rfl
  · exact threads_after h ht rfl (by rw [ev]; exact ⟨hi.1, hpc, hi.2.2⟩) (fun u x _ _ hi => by rw [ev]; exact hi)

/-- The object is freed. -/
theorem Inv.free {s : State} {t : Nat} {th : Thread} (h : Inv s) (ht : s.threads[t]? = some th) (hp : th.pc = .dealloc) :
    Inv ({ s with frees := s.frees + 1 }.put t { th with pc := .idle }) := by
  have hi := h.thread t th ht
  have hpc := hi.2.1
  rw [hp] at hpc
  let th' : Thread := { th with pc := .idle }
  have eS := total_set strongOf s.threads t th th' ht
  have eD := total_set dyingOf s.threads t th th' ht
  have eF := total_set finOf s.threads t th th' ht
  have eW := total_set weakOf s.threads t th th' ht
  have hS : strongOf th' = strongOf th := by simp [th', strongOf, hp, PC.strong]
  have hD : dyingOf th' = 0 ∧ dyingOf th = 1 := by simp [th', dyingOf, hp, PC.dying]
  have hF : finOf th' = 0 ∧ finOf th = 1 := by simp [th', finOf, hp, PC.finalized]
  have hW : weakOf th' = weakOf th := by simp [th', weakOf, hp, PC.weak]
  let s' := { s with frees := s.frees + 1 }.put t th'
  have hst : s'.threads = s.threads.set t th' := rfl
  have eS' : total strongOf s'.threads = total strongOf s.threads := by rw [hst]; omega
  have eD' : total dyingOf s'.threads + 1 = total dyingOf s.threads := by rw [hst]; omega
  have eF' : total finOf s'.threads + 1 = total finOf s.threads := by rw [hst]; omega
  have eW' : total weakOf s'.threads = total weakOf s.threads := by rw [hst]; omega
  have ev : s'.view = s.view := by
    unfold State.view; rw [eS']; rfl
  have hd := h.dying
  show Inv s'
  refine ⟨by rw [eS']; exact h.few, by rw [eS']; exact h.rc, ?_, ?_,
    h.one, fun _ => ?_, h.table, by rw [eS']; exact h.kept, by rw [eW']; exact h.count, by rw [eW']; exact h.bare, ?_, ?_⟩
  · rw [eS', ← hd]; show _ + (s.frees + 1) = _; omega
  · show s.fins = s.frees + 1 + _; rw [h.fins]; omega
  · show s.table = none
    cases hm : s.metas with
    | nil =>
        cases htb : s.table with
        | none => rfl
        | some m => exact absurd hm (h.table m htb).2
    | cons a l =>
        have : s.table.isSome = false := (hpc (by show (!s.metas.isEmpty) = true; rw [hm]; rfl)).1
        cases htb : s.table with
        | none => rfl
        | some m => rw [htb] at this; cases this
  · rw [eS']
    intro x hx
    refine ⟨(h.target x hx).1, fun h0 => ?_⟩
    have htn := hpc
    left
    have hx' : s.metas[0]? = some x := hx
    have h1 : s.view.target = x.target := by unfold State.view; simp only [hx', Option.map_some, Option.getD_some]
    rw [← h1]
    refine (htn ?_).2
    show (!s.metas.isEmpty) = true
    cases hm : s.metas with
    | nil => rw [hm] at hx'; simp at hx'
    | cons => rfl
  · exact threads_after h ht rfl (by rw [ev]; exact ⟨hi.1, trivial, hi.2.2⟩) (fun u x _ _ hi => by rw [ev]; exact hi)

end RefCount
end Duck
