import Verif.Lemmas.RefCountInv
/-! Properties of reference counting (C17) and weak references (C18). -/
namespace Duck
namespace RefCount

/-! ### Calls on an object without weak references stay on the plain path -/

theorem plain_of {s : State} {l : Label} {s' : State} (hi : Inv s) (h : Plain s) (hl : l.Strong) (he : step s l = .next s')
    (hi' : Inv s') : Plain s' := by
  obtain ⟨⟨hm, hrc, hw⟩, hp⟩ := h
  have hatt : s.view.att = false := by show (!s.metas.isEmpty) = false; rw [hm]; rfl
  have key : ∀ (s₁ : State) (t : Nat) (th th' : Thread), s' = s₁.put t th' → s.threads[t]? = some th → s₁.metas = s.metas → s₁.threads = s.threads →
      th'.weak = th.weak → th'.pc.plain = true → Plain s' := by
    intro s₁ t th th' e5 ht e1 e2 e3 e4
    subst e5
    refine within_put (s := s) ⟨⟨hm, hrc, hw⟩, hp⟩ e2 ⟨by show s₁.metas = []; rw [e1, hm], ?_, ?_⟩ e4
    · rw [hi'.rc, word_metadata _ hi'.few]
      show (!s₁.metas.isEmpty) = false
      rw [e1, hm]; rfl
    · intro x hx
      have hx' : x ∈ s.threads.set t th' := by rw [← e2]; exact hx
      rcases List.mem_or_eq_of_mem_set hx' with h1 | rfl
      · exact hw x h1
      · rw [e3]; exact hw th (List.mem_of_getElem? ht)
  cases l with
  | call t c =>
      unfold step at he; simp only at he
      cases ht : s.threads[t]? with
      | none => rw [ht] at he; cases he
      | some th =>
          rw [ht] at he; simp only at he
          have hwt := hw th (List.mem_of_getElem? ht)
          split at he
          · cases c with
            | retain => simp only [startCall] at he; split at he <;> cases he; exact key s t th _ rfl ht rfl rfl rfl rfl
            | release => simp only [startCall] at he; split at he <;> cases he; exact key s t th _ rfl ht rfl rfl rfl rfl
            | tryRelease => simp only [startCall] at he; split at he <;> cases he; exact key s t th _ rfl ht rfl rfl rfl rfl
            | retainWeak => exact absurd hl (fun h => h)
            | resolveWeak m => simp only [startCall] at he; rw [hwt, if_neg (by simp)] at he; cases he
            | releaseWeak m => simp only [startCall] at he; rw [hwt, if_neg (by simp)] at he; cases he
          · cases he
  | go t =>
      unfold step at he; simp only at he
      cases ht : s.threads[t]? with
      | none => rw [ht] at he; cases he
      | some th =>
          rw [ht] at he; simp only at he
          have hpl := hp th (List.mem_of_getElem? ht)
          unfold stepPC onObj at he
          cases hpc : th.pc with
          | idle => rw [hpc] at he; cases he
          | retainRead => rw [hpc] at he; simp only at he; split at he; cases he; split at he <;> cases he <;> exact key s t th _ rfl ht rfl rfl rfl rfl
          | retainInc => rw [hpc] at he; simp only at he; split at he <;> cases he; exact key { s with rc := s.rc + 1 } t th _ rfl ht rfl rfl rfl rfl
          | relRead =>
              rw [hpc] at he; simp only [hrc, if_true] at he; split at he; cases he; split at he
              · cases he; exact key s t th _ rfl ht rfl rfl rfl rfl
              · cases he; exact key s t th _ rfl ht rfl rfl rfl rfl
          | relDec => rw [hpc] at he; simp only at he; split at he; cases he; split at he <;> cases he <;> exact key { s with rc := s.rc - 1 } t th _ rfl ht rfl rfl rfl rfl
          | tryRead =>
              rw [hpc] at he; simp only [hrc, if_true] at he; split at he; cases he; split at he
              · split at he <;> cases he <;> exact key s t th _ rfl ht rfl rfl rfl rfl
              · cases he; exact key s t th _ rfl ht rfl rfl rfl rfl
          | tryCas old =>
              rw [hpc] at he; simp only at he; split at he; cases he; split at he
              · cases he; exact key { s with rc := old &&& ~~~mask } t th _ rfl ht rfl rfl rfl rfl
              · cases he; exact key s t th _ rfl ht rfl rfl rfl rfl
          | fin => rw [hpc] at he; simp only at he; split at he <;> cases he; exact key { s with fins := s.fins + 1 } t th _ rfl ht rfl rfl rfl rfl
          | dealloc => rw [hpc] at he; simp only at he; split at he <;> cases he; exact key { s with frees := s.frees + 1 } t th _ rfl ht rfl rfl rfl rfl
          | _ => rw [hpc] at hpl; cases hpl
  | give t u =>
      unfold step at he; simp only at he
      split at he
      · next a b ha hb =>
        split at he
        · cases he
          have hpa := hp a (List.mem_of_getElem? ha)
          have hpb := hp b (List.mem_of_getElem? hb)
          have hwa := hw a (List.mem_of_getElem? ha)
          have hwb := hw b (List.mem_of_getElem? hb)
          refine ⟨⟨hm, hrc, ?_⟩, ?_⟩
          · intro x hx
            rcases List.mem_or_eq_of_mem_set hx with h1 | rfl
            · rcases List.mem_or_eq_of_mem_set h1 with h2 | rfl
              · exact hw x h2
              · exact hwa
            · exact hwb
          · intro x hx
            rcases List.mem_or_eq_of_mem_set hx with h1 | rfl
            · rcases List.mem_or_eq_of_mem_set h1 with h2 | rfl
              · exact hp x h2
              · exact hpa
            · exact hpb
        · cases he
      · cases he
  | giveWeak t u m =>
      unfold step at he; simp only at he
      split at he
      · next a b ha hb =>
        rw [if_neg (by rw [hw a (List.mem_of_getElem? ha)]; simp)] at he
        cases he
      · cases he

theorem plain_calm {s : State} (h : Plain s) (l : Label) : Calm s l := by
  intro t th u _ ht hp
  have := h.2 th (List.mem_of_getElem? ht)
  rw [hp] at this; cases this

theorem reach_plain {n : Nat} {s : State} (hr : Reach (fun s l => s.Few ∧ l.Strong) (start 1 n) s) : Inv s ∧ Plain s := by
  induction hr with
  | refl =>
      refine ⟨start_inv n, ⟨rfl, (by decide : (1 : BitVec 32) &&& metadataBit = 0), fun th hm => ?_⟩, fun th hm => ?_⟩
      · rcases List.mem_cons.mp hm with rfl | hm
        · rfl
        · rw [(List.mem_replicate.mp hm).2]
      · rcases List.mem_cons.mp hm with rfl | hm
        · rfl
        · rw [(List.mem_replicate.mp hm).2]; rfl
  | step _ hl he ih =>
      have hk := step_keeps ih.1 hl.1 (plain_calm ih.2 ‹Label›)
      rw [he] at hk
      exact ⟨hk, plain_of ih.1 ih.2 hl.2 he hk⟩

/-- What holds in every state that satisfies the invariant. -/
theorem inv_facts {s : State} (h : Inv s) :
    (s.Owned → s.fins = 0 ∧ s.frees = 0) ∧ s.fins ≤ 1 ∧ s.frees ≤ s.fins ∧
      (s.Quiet → s.NoStrong → s.fins = 1 ∧ s.frees = 1) := by
  have hd := h.dying
  have hf := h.fins
  have hle : total finOf s.threads ≤ total dyingOf s.threads := by
    refine total_le _ _ _ fun th _ => ?_
    unfold finOf dyingOf
    cases th.pc with
    | relUnlock m z => cases z <;> simp [PC.finalized, PC.dying]
    | tryUnlock m z => cases z <;> simp [PC.finalized, PC.dying]
    | _ => simp [PC.finalized, PC.dying]
  refine ⟨fun ⟨th, hm, hs⟩ => ?_, ?_, by omega, fun hq hn => ?_⟩
  · obtain ⟨t, ht⟩ := List.getElem?_of_mem hm
    have := pos_of_strong ht hs
    rw [if_neg (by omega)] at hd
    omega
  · split at hd <;> omega
  · have hS : total strongOf s.threads = 0 := total_zero _ fun th hm => by
      show th.strong + th.pc.strong = 0
      rw [hn th hm, hq th hm]; rfl
    have hD : total dyingOf s.threads = 0 := total_zero _ fun th hm => by show th.pc.dying = 0; rw [hq th hm]; rfl
    have hF : total finOf s.threads = 0 := total_zero _ fun th hm => by show th.pc.finalized = 0; rw [hq th hm]; rfl
    rw [if_pos hS] at hd
    omega

theorem plain_moves {s : State} {t : Nat} {th : Thread} (hpl : th.pc.plain = true) (hne : th.pc ≠ .idle) : stepPC s t th ≠ .stuck := by
  intro h
  unfold stepPC onObj at h
  cases hpc : th.pc with
  | idle => exact absurd hpc hne
  | retainRead => rw [hpc] at h; simp only at h; repeat' split at h
                  all_goals cases h
  | retainInc => rw [hpc] at h; simp only at h; repeat' split at h
                 all_goals cases h
  | relRead => rw [hpc] at h; simp only at h; repeat' split at h
               all_goals cases h
  | relDec => rw [hpc] at h; simp only at h; repeat' split at h
              all_goals cases h
  | tryRead => rw [hpc] at h; simp only at h; repeat' split at h
               all_goals cases h
  | tryCas old => rw [hpc] at h; simp only at h; repeat' split at h
                  all_goals cases h
  | fin => rw [hpc] at h; simp only at h; repeat' split at h
           all_goals cases h
  | dealloc => rw [hpc] at h; simp only at h; repeat' split at h
               all_goals cases h
  | _ => rw [hpc] at hpl; cases hpl

/-- C17: for every number of threads and every schedule of retain, release and try-release, each on a reference the thread
    owns (references may be handed between threads): nothing touches the object after it is freed; while anyone owns a
    reference the object is neither finalized nor freed; it is finalized and freed at most once; and when every reference
    has been released and no call is in progress it has been finalized and freed exactly once.  The count word never
    reaches its flag bits, and a thread inside a call can always go on. -/
theorem C17_freed_once (n : Nat) (s : State) (hr : Reach (fun s l => s.Few ∧ l.Strong) (start 1 n) s) :
    (s.Few → ∀ l, l.Strong → step s l ≠ .fault) ∧
    (s.Owned → s.fins = 0 ∧ s.frees = 0) ∧
    s.fins ≤ 1 ∧ s.frees ≤ s.fins ∧
    (s.Quiet → s.NoStrong → s.fins = 1 ∧ s.frees = 1) ∧
    s.rc.toNat < 2 ^ 28 ∧
    (s.Few → ∀ t th, s.threads[t]? = some th → th.pc ≠ .idle → ∃ s', step s (.go t) = .next s') := by
  obtain ⟨h, hp⟩ := reach_plain hr
  obtain ⟨h1, h2, h3, h4⟩ := inv_facts h
  have nofault : s.Few → ∀ l, step s l ≠ .fault := by
    intro hf l he
    have := step_keeps h hf (plain_calm hp l)
    rw [he] at this; exact this
  refine ⟨fun hf l _ => nofault hf l, h1, h2, h3, h4, ?_, fun hf t th ht hne => ?_⟩
  · rw [h.rc, hp.1.1]
    have := word_toNat false h.few
    simp only [List.isEmpty_nil, Bool.not_true]
    rw [this]; simpa using h.few
  · have hnf := nofault hf (.go t)
    have hpl := hp.2 th (List.mem_of_getElem? ht)
    have hns := plain_moves (s := s) (t := t) hpl hne
    have hgo : step s (.go t) = stepPC s t th := by unfold step; simp only [ht]
    rw [hgo] at hnf ⊢
    cases hres : stepPC s t th with
    | stuck => exact absurd hres hns
    | fault => exact absurd hres hnf
    | next s' => exact ⟨s', rfl⟩

/-- C18 (partial): if metadata is never attached between the read and the decrement of a concurrent release (`Calm`), then
    for every number of threads and every schedule of strong and weak calls: no call touches freed memory, of the object or
    of its metadata; an owned object is alive; a resolve about to return the target returns it alive, with one more
    reference; a resolve that returned NULL did so when every strong reference had been given up; the object, and the
    metadata once nobody refers to it, are freed exactly once.  Missing: schedules that are not `Calm`, for which the
    property is false (`C18_dangling`). -/
theorem C18_weak_partial (n : Nat) (s : State) (hr : Reach (fun s l => s.Few ∧ Calm s l) (start 1 n) s) :
    (s.Few → ∀ l, Calm s l → step s l ≠ .fault) ∧
    (s.Owned → s.fins = 0 ∧ s.frees = 0) ∧
    (∀ t th m s', s.threads[t]? = some th → th.pc = .resUnlock m true → step s (.go t) = .next s' →
      s'.fins = 0 ∧ s'.frees = 0 ∧ ∃ th', s'.threads[t]? = some th' ∧ th'.last = .resolved true ∧ th'.strong = th.strong + 1) ∧
    (∀ th ∈ s.threads, th.last = .resolved false → s.NoStrong) ∧
    (s.Quiet → s.NoStrong → s.fins = 1 ∧ s.frees = 1) ∧
    (s.Quiet → s.NoStrong → s.NoWeak → ∀ x ∈ s.metas, x.frees = 1) := by
  have h := reach_inv (fun s l _ h => h) hr
  obtain ⟨h1, h2, h3, h4⟩ := inv_facts h
  refine ⟨?_, h1, ?_, ?_, h4, ?_⟩
  · intro hf l hl he
    have := step_keeps h hf hl
    rw [he] at this; exact this
  · intro t th m s' ht hp he
    have hd := h.dying
    have hpos := pos_of ht (by simp [strongOf, hp, PC.strong])
    rw [if_neg (by omega)] at hd
    have hf := h.fins
    have hle : total finOf s.threads ≤ total dyingOf s.threads := by
      refine total_le _ _ _ fun th _ => ?_
      unfold finOf dyingOf
      cases th.pc with
      | relUnlock m z => cases z <;> simp [PC.finalized, PC.dying]
      | tryUnlock m z => cases z <;> simp [PC.finalized, PC.dying]
      | _ => simp [PC.finalized, PC.dying]
    unfold step at he
    simp only [ht] at he
    unfold stepPC at he
    simp only [hp, if_true] at he
    unfold unlockStep onMeta at he
    cases hm : s.metas[m]? with
    | none => rw [hm] at he; cases he
    | some x =>
        rw [hm] at he; simp only at he
        split at he
        · cases he
        · cases he
          refine ⟨?_, ?_, _, get_self _ ht, rfl, rfl⟩
          · show s.fins = 0; omega
          · show s.frees = 0; omega
  · intro th hm hl
    obtain ⟨t, ht⟩ := List.getElem?_of_mem hm
    have := (h.thread t th ht).2.2
    rw [hl] at this
    have h0 : total strongOf s.threads = 0 := by
      have : s.view.pos = false := this
      unfold State.view at this; simpa using this
    intro th' hm'
    obtain ⟨t', ht'⟩ := List.getElem?_of_mem hm'
    have := total_ge strongOf ht'
    unfold strongOf at this h0; omega
  · intro hq hn hw x hx
    have hW : total weakOf s.threads = 0 := total_zero _ fun th hm => by
      show th.weak.length + th.pc.weak = 0
      rw [hw th hm, hq th hm]; rfl
    have hD : total dyingOf s.threads = 0 := total_zero _ fun th hm => by show th.pc.dying = 0; rw [hq th hm]; rfl
    have hone := h.one
    have hx0 : s.metas[0]? = some x := by
      obtain ⟨i, hi⟩ := List.getElem?_of_mem hx
      have := (List.getElem?_eq_some_iff.mp hi).1
      rw [show i = 0 by omega] at hi; exact hi
    have hc := h.count x hx0
    have htab : s.table = none := h.gone (by have := h4 hq hn; omega)
    rw [htab] at hc
    rw [hc.2, if_pos (by rw [hc.1, hW]; rfl)]

/-! ### Concrete schedules -/

instance (s : State) : Decidable s.Few := inferInstanceAs (Decidable (_ < _))

/-- `Calm`, decided. -/
def calm (s : State) : Label → Bool
  | .go t =>
      match s.threads[t]? with
      | some ⟨_, _, .insert _, _⟩ => s.threads.all fun th => th.pc != .relDec
      | _ => true
  | _ => true

theorem calm_of {s : State} {l : Label} (h : calm s l = true) : Calm s l := by
  rintro t th u rfl ht hp x hx
  obtain ⟨a, b, c, d⟩ := th
  simp only at hp
  subst hp
  simp only [calm, ht, List.all_eq_true] at h
  simpa using h x hx

/-- Run a schedule, checking each transition. -/
def exec (ok : State → Label → Bool) : State → List Label → Option State
  | s, [] => some s
  | s, l :: ls => if ok s l then (match step s l with | .next s' => exec ok s' ls | _ => none) else none

theorem exec_reach {ok : State → Label → Bool} {P : State → Label → Prop} (hok : ∀ s l, ok s l = true → P s l) {s₀ : State} :
    ∀ (ls : List Label) (s s' : State), Reach P s₀ s → exec ok s ls = some s' → Reach P s₀ s'
  | [], s, s', hr, h => by cases h; exact hr
  | l :: ls, s, s', hr, h => by
      unfold exec at h
      split at h
      · next ho =>
        cases hs : step s l with
        | next s₁ => rw [hs] at h; exact exec_reach hok ls s₁ s' (hr.step (hok s l ho) hs) h
        | stuck => rw [hs] at h; cases h
        | fault => rw [hs] at h; cases h
      · cases h

/-- Thread 0 starts a release and reads the count; thread 1 takes a weak reference and releases its strong one; thread 0
    goes on and frees the object; thread 1 resolves. -/
def race : List Label :=
  [.call 0 .retain, .go 0, .go 0, .give 0 1, .call 0 .release, .go 0,
    .call 1 .retainWeak, .go 1, .go 1, .go 1, .go 1, .call 1 .release, .go 1, .go 1, .go 1, .go 1, .go 1,
    .go 0, .go 0, .go 0, .call 1 (.resolveWeak 0), .go 1, .go 1]

/-- C18 fails: with two threads, a release that read the count word before the other thread took its first weak reference
    frees the object without clearing the weak reference, and the next resolve touches freed memory. -/
theorem C18_dangling : ∃ s l, Reach (fun s _ => s.Few) (start 1 1) s ∧ step s l = .fault := by
  have h : ∃ s, exec (fun s _ => decide s.Few) (start 1 1) race = some s ∧ step s (.go 1) = .fault := by
    refine ⟨_, rfl, ?_⟩
    decide
  obtain ⟨s, h1, h2⟩ := h
  exact ⟨s, _, exec_reach (P := fun s _ => s.Few) (fun s l h => by simpa using h) _ _ _ .refl h1, h2⟩

/-- A calm schedule: a weak reference is taken, resolved, the object freed, and resolved again to NULL. -/
def story : List Label :=
  [.call 0 .retainWeak, .go 0, .go 0, .go 0, .go 0, .call 0 (.resolveWeak 0), .go 0, .go 0, .go 0, .go 0, .go 0,
    .giveWeak 0 1 0, .call 0 .release, .go 0, .go 0, .go 0, .go 0, .go 0, .call 0 .tryRelease,
    .go 0, .go 0, .go 0, .go 0, .go 0, .go 0, .go 0, .go 0, .go 0, .go 0, .go 0, .go 0,
    .call 1 (.resolveWeak 0), .go 1, .go 1, .go 1, .call 1 (.releaseWeak 0), .go 1]

/-- A case of the hypotheses of C18: the schedule above is calm, and ends with the object freed and the metadata about to be. -/
example : ∃ s, Reach (fun s l => s.Few ∧ Calm s l) (start 1 1) s ∧ s.fins = 1 ∧ s.frees = 1 ∧
    ∃ th ∈ s.threads, th.last = .resolved false ∧ th.pc = .wrelDec 0 := by
  have h : ∃ s, exec (fun s l => decide s.Few && calm s l) (start 1 1) story = some s ∧ s.fins = 1 ∧ s.frees = 1 ∧
      ∃ th ∈ s.threads, th.last = .resolved false ∧ th.pc = .wrelDec 0 := by
    refine ⟨_, rfl, ?_⟩
    decide
  obtain ⟨s, h1, h2⟩ := h
  refine ⟨s, exec_reach (fun s l h => ?_) _ _ _ .refl h1, h2⟩
  simp only [Bool.and_eq_true, decide_eq_true_eq] at h
  exact ⟨h.1, calm_of h.2⟩

/-- A case of the hypotheses of C17: two threads release concurrently. -/
example : ∃ s, Reach (fun s l => s.Few ∧ l.Strong) (start 1 1) s ∧ s.Quiet ∧ s.NoStrong := by
  have h : ∃ s, exec (fun s l => decide s.Few && (match l with | .call _ .retainWeak => false | _ => true)) (start 1 1)
      [.call 0 .retain, .go 0, .go 0, .give 0 1, .call 0 .release, .call 1 .release, .go 0, .go 1, .go 1, .go 0, .go 0, .go 0] = some s ∧
      s.Quiet ∧ s.NoStrong := by
    refine ⟨_, rfl, ?_⟩
    unfold State.Quiet State.NoStrong
    decide
  obtain ⟨s, h1, h2⟩ := h
  refine ⟨s, exec_reach (fun s l h => ?_) _ _ _ .refl h1, h2⟩
  simp only [Bool.and_eq_true, decide_eq_true_eq] at h
  refine ⟨h.1, ?_⟩
  cases l with
  | call t c => cases c <;> simp_all [Label.Strong]
  | _ => trivial

/-! ### Objects that are not counted -/

theorem disabled_or {a b : BitVec 32} (h : a &&& disabledBit ≠ 0) : (a ||| b) &&& disabledBit ≠ 0 := by
  have e : ∀ x : BitVec 32, x &&& disabledBit = if x.getLsbD 29 then BitVec.twoPow 32 29 else 0#32 := by
    intro x; rw [← BitVec.and_twoPow]; rfl
  rw [e] at h ⊢
  cases ha : a.getLsbD 29 with
  | false => rw [ha] at h; exact absurd rfl h
  | true => rw [BitVec.getLsbD_or, ha, Bool.true_or, if_pos rfl]; decide

theorem uncounted_step {s : State} (h : Uncounted s) (l : Label) : (step s l).All Uncounted := by
  obtain ⟨⟨hb, hf, hr⟩, hp⟩ := id h
  have put : ∀ (s₁ : State) (t : Nat) (th' : Thread), s₁.threads = s.threads → (s₁.rc &&& disabledBit ≠ 0 ∧ s₁.fins = 0 ∧ s₁.frees = 0) →
      th'.pc.uncounted = true → Uncounted (s₁.put t th') := fun s₁ t th' e hq hp' => within_put h e hq hp'
  cases l with
  | call t c =>
      unfold step; simp only
      cases ht : s.threads[t]? with
      | none => trivial
      | some th =>
          simp only
          split
          · cases c <;> (simp only [startCall]; split) <;> first | trivial | exact put s t _ rfl ⟨hb, hf, hr⟩ rfl
          · trivial
  | go t =>
      unfold step; simp only
      cases ht : s.threads[t]? with
      | none => trivial
      | some th =>
          have hpl := hp th (List.mem_of_getElem? ht)
          simp only
          unfold stepPC
          cases hpc : th.pc with
          | idle => trivial
          | retainRead => refine onObj_all ?_; rw [if_neg hb]; exact put s t _ rfl ⟨hb, hf, hr⟩ rfl
          | relRead => refine onObj_all ?_; rw [if_neg hb]; exact put s t _ rfl ⟨hb, hf, hr⟩ rfl
          | tryRead => refine onObj_all ?_; rw [if_neg hb]; exact put s t _ rfl ⟨hb, hf, hr⟩ rfl
          | find u =>
              rw [hpc] at hpl
              cases u with
              | retainWeak => simp only; split <;> exact put s t _ rfl ⟨hb, hf, hr⟩ rfl
              | release => cases hpl
              | tryRelease => cases hpl
          | insert u =>
              rw [hpc] at hpl
              cases u with
              | retainWeak =>
                  simp only
                  split
                  · exact put s t _ rfl ⟨hb, hf, hr⟩ rfl
                  · refine onObj_all ?_
                    exact put { s with rc := s.rc ||| metadataBit, metas := s.metas ++ [(⟨1, true, none, 0⟩ : Meta)], table := some s.metas.length } t _ rfl
                      ⟨disabled_or hb, hf, hr⟩ rfl
              | release => cases hpl
              | tryRelease => cases hpl
          | weakRead m => exact onMeta_all fun x hx => put s t _ rfl ⟨hb, hf, hr⟩ rfl
          | weakInc m => exact onMeta_all fun x hx => put (s.putMeta m _) t _ rfl ⟨hb, hf, hr⟩ rfl
          | resLock m =>
              refine onMeta_all fun x hx => ?_
              split
              · exact put (s.putMeta m _) t _ rfl ⟨hb, hf, hr⟩ rfl
              · trivial
          | resRead m =>
              refine onMeta_all fun x hx => ?_
              split <;> exact put s t _ rfl ⟨hb, hf, hr⟩ rfl
          | resRetain m => refine onObj_all ?_; rw [if_neg hb]; exact put s t _ rfl ⟨hb, hf, hr⟩ rfl
          | resUnlock m z =>
              simp only
              split <;> exact onMeta_all fun x hx => put (s.putMeta m _) t _ rfl ⟨hb, hf, hr⟩ rfl
          | wrelRead m => exact onMeta_all fun x hx => put s t _ rfl ⟨hb, hf, hr⟩ rfl
          | wrelDec m => exact onMeta_all fun x hx => put (s.putMeta m _) t _ rfl ⟨hb, hf, hr⟩ rfl
          | _ => rw [hpc] at hpl; cases hpl
  | give t u =>
      unfold step; simp only
      split
      · next a b ha hb' =>
        split
        · have h1 := put s t { a with strong := a.strong - 1 } rfl ⟨hb, hf, hr⟩ (hp a (List.mem_of_getElem? ha))
          exact within_put h1 rfl ⟨hb, hf, hr⟩ (hp b (List.mem_of_getElem? hb'))
        · trivial
      · trivial
  | giveWeak t u m =>
      unfold step; simp only
      split
      · next a b ha hb' =>
        split
        · have h1 := put s t { a with weak := a.weak.erase m } rfl ⟨hb, hf, hr⟩ (hp a (List.mem_of_getElem? ha))
          exact within_put h1 rfl ⟨hb, hf, hr⟩ (hp b (List.mem_of_getElem? hb'))
        · trivial
      · trivial

/-- C17: an object with reference counting disabled (a static object) is never finalized or freed, whatever is called. -/
theorem C17_static (n : Nat) (s : State) (hr : Reach (fun _ _ => True) (start (disabledBit ||| 1) n) s) : s.fins = 0 ∧ s.frees = 0 := by
  have : Uncounted s := by
    induction hr with
    | refl =>
        refine ⟨⟨(by decide : (disabledBit ||| 1) &&& disabledBit ≠ 0), rfl, rfl⟩, fun th hm => ?_⟩
        rcases List.mem_cons.mp hm with rfl | hm
        · rfl
        · rw [(List.mem_replicate.mp hm).2]; rfl
    | step _ _ he ih =>
        have := uncounted_step ih ‹Label›
        rw [he] at this; exact this
  exact ⟨this.1.2.1, this.1.2.2⟩

end RefCount
end Duck
