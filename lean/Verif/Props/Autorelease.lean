import Verif.Lemmas.Autorelease
/-! C19: autorelease pools. -/
namespace Duck
namespace Arp

/-- C19 (partial): for every client program that keeps to the pool stack, whose finalizers autorelease but use no pools of
    their own, or which leads to at most 32 autoreleases in all: the program runs to its end without touching freed memory,
    and every autorelease has been followed by exactly one release, except for the references still waiting in a pool.
    Missing: finalizers that use pools of their own while more than 32 objects are waiting (`C19_nested_fails`). -/
theorem C19_balance_partial (p : Prog) (hp : Fits none p 0) (h : FlatEffects p ∨ p.autos ≤ 32) :
    ∃ N s, (∀ n, N ≤ n → run n p State.init = .ok s) ∧ ∀ id, rels id s.log + waiting id s.objs = autos id s.log := by
  have key : ∃ flat, Pre flat State.init 0 p := by
    rcases h with h | h
    · exact ⟨true, h, fun r hr => (nomatch hr)⟩
    · refine ⟨false, ?_⟩
      show 0 + (p.autos + 0) ≤ max 0 32
      omega
  obtain ⟨flat, hpre⟩ := key
  obtain ⟨N, s, new, l, hrun, hR⟩ := (specs flat p.autos).2 p State.init none [] [] 0 (Nat.le_refl _) rfl (fun m hm => (nomatch hm)) (Nat.zero_le _)
    ⟨rfl, rfl⟩ hp (fun r hr => (nomatch hr)) ⟨Nat.le_refl _, Or.inl rfl⟩ hpre
  refine ⟨N, s, hrun, fun id => ?_⟩
  have h1 : s.objs = new := hR.objs
  have h2 : s.log = l := hR.log
  have h3 : rels id l + waiting id new = 0 + autos id l := hR.count id
  rw [h1, h2]; omega

/-- The states a main program goes through between its calls: some program that fits led here. -/
def Reached (s : State) : Prop :=
  ∃ p N, Fits none p 0 ∧ (FlatEffects p ∨ p.autos ≤ 32) ∧ run N p State.init = .ok s

theorem run_mono_aux : ∀ n, (∀ p s s', run n p s = .ok s' → run (n + 1) p s = .ok s') ∧
    (∀ s s', drain n s = .ok s' → drain (n + 1) s = .ok s') ∧
    (∀ s loc i len addr alen s', release n s loc i len addr alen = .ok s' → release (n + 1) s loc i len addr alen = .ok s') := by
  have bindOk : ∀ {r : Res} {k : State → Res} {s' : State}, r.bind k = .ok s' → ∃ x, r = .ok x ∧ k x = .ok s' := by
    intro r k s' h
    cases r with
    | ok x => exact ⟨x, rfl, h⟩
    | _ => cases h
  intro n
  induction n with
  | zero =>
      refine ⟨fun p s s' h => ?_, fun s s' h => ?_, fun s loc i len addr alen s' h => ?_⟩
      · unfold run at h; cases h
      · unfold drain at h; cases h
      · unfold release at h; cases h
  | succ n ih =>
      refine ⟨fun p s s' h => ?_, fun s s' h => ?_, fun s loc i len addr alen s' h => ?_⟩
      · cases p with
        | done => unfold run at h ⊢; exact h
        | auto x e k => unfold run at h ⊢; exact ih.1 _ _ _ h
        | push k =>
            unfold run at h ⊢
            split at h
            · next hc => rw [if_pos hc]; exact ih.1 _ _ _ h
            · cases h
        | pop k =>
            unfold run at h ⊢
            split at h
            · next hc =>
              rw [if_pos hc]
              obtain ⟨x, h1, h2⟩ := bindOk h
              rw [ih.2.1 _ _ h1]; exact ih.1 _ _ _ h2
            · cases h
        | drain k =>
            unfold run at h ⊢
            split at h
            · next hc =>
              rw [if_pos hc]
              obtain ⟨x, h1, h2⟩ := bindOk h
              rw [ih.2.1 _ _ h1]; exact ih.1 _ _ _ h2
            · cases h
      · unfold drain at h ⊢
        split at h
        · next hc =>
          rw [if_pos hc]
          obtain ⟨x, h1, h2⟩ := bindOk h
          rw [ih.2.2 _ _ _ _ _ _ _ h1]
          simp only [Res.bind]
          split at h2
          · next hd => rw [if_pos hd]; exact ih.2.1 _ _ h2
          · cases h2
        · next hc => rw [if_neg hc]; exact h
      · unfold release at h ⊢
        split at h
        · next hc =>
          rw [if_pos hc]
          split at h
          · next ha =>
            rw [if_pos ha]
            cases hg : s.objs[loc + i]? with
            | none => rw [hg] at h; cases h
            | some r =>
                rw [hg] at h
                simp only at h ⊢
                obtain ⟨x, h1, h2⟩ := bindOk h
                rw [ih.1 _ _ _ h1]
                simp only [Res.bind]
                split at h2
                · next hd => rw [if_pos hd]; exact ih.2.2 _ _ _ _ _ _ _ h2
                · next hd => rw [if_neg hd]; exact ih.2.2 _ _ _ _ _ _ _ h2
          · cases h
        · next hc => rw [if_neg hc]; exact h

theorem run_mono {n m : Nat} (h : n ≤ m) {p : Prog} {s s' : State} (hr : run n p s = .ok s') : run m p s = .ok s' := by
  induction h with
  | refl => exact hr
  | step _ ih => exact (run_mono_aux _).1 _ _ _ ih

theorem Reached.wf {s : State} (h : Reached s) : Pools s.low s.objs ∧ CapOk s := by
  obtain ⟨p, N, hp, hm, hr⟩ := h
  have key : ∃ flat, Pre flat State.init 0 p := by
    rcases hm with h | h
    · exact ⟨true, h, fun r hr => (nomatch hr)⟩
    · refine ⟨false, ?_⟩
      show 0 + (p.autos + 0) ≤ max 0 32
      omega
  obtain ⟨flat, hpre⟩ := key
  obtain ⟨N', s', new, l, hrun, hR⟩ := (specs flat p.autos).2 p State.init none [] [] 0 (Nat.le_refl _) rfl (fun m hm => (nomatch hm)) (Nat.zero_le _)
    ⟨rfl, rfl⟩ hp (fun r hr => (nomatch hr)) ⟨Nat.le_refl _, Or.inl rfl⟩ hpre
  have e : s = s' := by
    have h1 := run_mono (Nat.le_add_right N N') hr
    have h2 := hrun (N + N') (by omega)
    rw [h1] at h2; cases h2; rfl
  subst e
  exact ⟨hR.pools, hR.cap⟩

/-- One program after another. -/
def Prog.then : Prog → Prog → Prog
  | .done, q => q
  | .auto id e k, q => .auto id e (k.then q)
  | .push k, q => .push (k.then q)
  | .pop k, q => .pop (k.then q)
  | .drain k, q => .drain (k.then q)

theorem run_then : ∀ (p q : Prog) (s s1 : State) (N1 N2 : Nat) (s2 : State), run N1 p s = .ok s1 → run N2 q s1 = .ok s2 →
    run (N1 + N2) (p.then q) s = .ok s2
  | .done, q, s, s1, N1, N2, s2, h1, h2 => by
      cases N1 with
      | zero => unfold run at h1; cases h1
      | succ n => unfold run at h1; cases h1; exact run_mono (by omega) h2
  | .auto x e k, q, s, s1, N1, N2, s2, h1, h2 => by
      cases N1 with
      | zero => unfold run at h1; cases h1
      | succ n =>
          unfold run at h1
          rw [Nat.add_right_comm]; unfold Prog.then run
          exact run_then k q _ s1 n N2 s2 h1 h2
  | .push k, q, s, s1, N1, N2, s2, h1, h2 => by
      cases N1 with
      | zero => unfold run at h1; cases h1
      | succ n =>
          unfold run at h1
          rw [Nat.add_right_comm]; unfold Prog.then run
          split at h1
          · next hc => rw [if_pos hc]; exact run_then k q _ s1 n N2 s2 h1 h2
          · cases h1
  | .pop k, q, s, s1, N1, N2, s2, h1, h2 => by
      cases N1 with
      | zero => unfold run at h1; cases h1
      | succ n =>
          unfold run at h1
          rw [Nat.add_right_comm]; unfold Prog.then run
          split at h1
          · next hc =>
            rw [if_pos hc]
            cases hd : drain n s with
            | ok x =>
                rw [hd] at h1
                have hd' : drain (n + N2) s = .ok x := by
                  clear h1 h2
                  induction N2 with
                  | zero => exact hd
                  | succ m ih => exact (run_mono_aux _).2.1 _ _ ih
                rw [hd']
                exact run_then k q _ s1 n N2 s2 h1 h2
            | _ => rw [hd] at h1; cases h1
          · cases h1
  | .drain k, q, s, s1, N1, N2, s2, h1, h2 => by
      cases N1 with
      | zero => unfold run at h1; cases h1
      | succ n =>
          unfold run at h1
          rw [Nat.add_right_comm]; unfold Prog.then run
          split at h1
          · next hc =>
            rw [if_pos hc]
            cases hd : drain n s with
            | ok x =>
                rw [hd] at h1
                have hd' : drain (n + N2) s = .ok x := by
                  clear h1 h2
                  induction N2 with
                  | zero => exact hd
                  | succ m ih => exact (run_mono_aux _).2.1 _ _ ih
                rw [hd']
                exact run_then k q _ s1 n N2 s2 h1 h2
            | _ => rw [hd] at h1; cases h1
          · cases h1

/-- C19 (partial): a pool, from any state a main program reaches: push, then any code that leaves its own pool in place,
    then pop.  Afterwards exactly the references autoreleased in between (by that code, or by the finalizers the pop ran)
    have been released, each once; the references that were waiting before still wait, in the same order, and none of them
    was released.  Missing: as for `C19_balance_partial`. -/
theorem C19_pool_partial (s : State) (hs : Reached s) (hd : s.low.length < stackSize) (b : Prog)
    (hb : Fits (some (s.low.length + 1)) b (s.low.length + 1)) (h : FlatEffects b ∨ s.objs.length + b.autos ≤ 32) :
    ∃ N s' l, (∀ n, N ≤ n → run n (.push (b.then (.pop .done))) s = .ok s') ∧
      s'.low = s.low ∧ s'.objs = s.objs ∧ s'.log = s.log ++ l ∧ ∀ id, rels id l = autos id l := by
  obtain ⟨hp, hc⟩ := hs.wf
  let s0 : State := { s with low := s.objs.length :: s.low }
  have hd0 : s0.objs.drop s.objs.length = [] := List.drop_length
  have key : ∃ flat, Pre flat s0 s.objs.length b := by
    rcases h with h | h
    · exact ⟨true, h, fun r hr => by rw [hd0] at hr; cases hr⟩
    · refine ⟨false, ?_⟩
      show s.objs.length + (b.autos + wt (s0.objs.drop s.objs.length)) ≤ max s.cap 32
      rw [hd0, wt_nil]; omega
  obtain ⟨flat, hpre⟩ := key
  obtain ⟨N1, s1, new, l1, hrun1, hR⟩ := (specs flat (b.autos + wt (s0.objs.drop s.objs.length))).2 b s0 (some (s.low.length + 1)) [] s0.low s.objs.length
    (Nat.le_refl _) rfl (fun m hm => (nomatch hm)) (Nat.le_refl _) rfl hb hp.push hc hpre
  obtain ⟨up, hlow, -, hup⟩ := hR.low
  rw [hup _ rfl, List.nil_append] at hlow
  have hobjs1 : s1.objs = s.objs ++ new := by
    have := hR.objs; rw [show s0.objs.take s.objs.length = s.objs from List.take_length] at this; exact this
  have hloc1 : s1.loc = s.objs.length := by unfold State.loc; rw [hlow]; rfl
  have hdr1 : s1.objs.drop s1.loc = new := by rw [hobjs1, hloc1, List.drop_left]
  have hw := hR.weight
  rw [hd0] at hw
  obtain ⟨N2, s2, l2, hrun2, hK2, hlow2, hobjs2, hlog2, hcount2⟩ := (specs flat (wt new)).1 s1 (by rw [hdr1]; exact Nat.le_refl _) hR.pools hR.cap
    (by
      cases flat with
      | true => exact ⟨trivial, fun r hr => by rw [hdr1] at hr; exact hR.even rfl r hr⟩
      | false =>
          have h1 : s.objs.length + (b.autos + wt (s0.objs.drop s.objs.length)) ≤ max s.cap 32 := hpre
          rw [hd0] at h1
          have h2 : s.cap ≤ s1.cap := hR.grow
          show s1.loc + (0 + wt (s1.objs.drop s1.loc)) ≤ max s1.cap 32
          rw [hdr1, hloc1]; omega)
  refine ⟨N1 + (N2 + 2) + 1, { s2 with low := s2.low.tail }, l1 ++ l2, fun n hn => ?_, ?_, ?_, ?_, ?_⟩
  · obtain ⟨n, rfl⟩ : ∃ m, n = m + 1 := ⟨n - 1, by omega⟩
    unfold run
    rw [if_pos hd]
    refine run_mono (n := N1 + (N2 + 2)) (by omega) (run_then b _ s0 s1 N1 (N2 + 2) _ (hrun1 N1 (Nat.le_refl _)) ?_)
    unfold run
    have hl : s1.low.length = s.low.length + 1 := by rw [hlow]; rfl
    rw [if_pos ⟨by omega, by omega⟩, hrun2 (N2 + 1) (by omega)]
    simp only [Res.bind]
    unfold run; rfl
  · show s2.low.tail = _; rw [hlow2, hlow]; rfl
  · show s2.objs = _; rw [hobjs2, hobjs1, hloc1, List.take_left]
  · show s2.log = _; rw [hlog2, hR.log, List.append_assoc]
  · intro id
    have c1 := hR.count id
    have c2 := hcount2 id
    rw [hd0] at c1
    rw [hdr1] at c2
    have h0 : waiting id [] = 0 := rfl
    rw [rels_append, autos_append]; omega

/-- Autorelease `n` objects (1 .. n) without finalizers. -/
def fill : Nat → Prog → Prog
  | 0, k => k
  | n + 1, k => .auto (n + 1) .done (fill n k)

/-- C19 fails: 32 objects wait in the pool, and the finalizer of the first uses a pool of its own, for one object.  The
    array moves while it is being drained and has its old length back when the finalizer returns, so the drain goes on
    reading the old, freed allocation. -/
theorem C19_nested_fails : ∃ p, Fits none p 0 ∧ ∃ N, run N p State.init = .fault := by
  refine ⟨.auto 0 (.push (.auto 99 .done (.pop .done))) (fill 31 (.drain .done)), ?_, 60, ?_⟩
  · simp [Fits, fill, stackSize]
  · decide +kernel

/-- The limit of the pool stack: with eight pools pushed, DKDrainAutoreleasePool aborts, although DKPopAutoreleasePool works. -/
theorem C19_eighth_pool_drain (s : State) (h : s.low.length = stackSize) (n : Nat) (k : Prog) : run (n + 1) (.drain k) s = .abort := by
  unfold run; rw [if_neg (by omega)]

/-- A finalizer that drains the pool it is being released from never returns: the reference is released again and again. -/
theorem C19_reentrant_drain (n : Nat) (s : State) (h1 : s.low = []) (h2 : s.objs = [⟨7, .drain .done⟩]) (s' : State) : drain n s ≠ .ok s' := by
  induction n using Nat.strongRecOn generalizing s s' with
  | _ n ih =>
      intro hd
      cases n with
      | zero => unfold drain at hd; cases hd
      | succ n =>
          have hloc : s.loc = 0 := by unfold State.loc; rw [h1]; rfl
          unfold drain at hd
          rw [if_pos (by rw [hloc, h2]; decide), hloc, h2] at hd
          cases n with
          | zero => unfold release at hd; cases hd
          | succ n =>
              unfold release at hd
              rw [if_pos (by decide), if_pos rfl, h2] at hd
              simp only [List.getElem?_cons_zero, Nat.zero_add] at hd
              cases n with
              | zero => unfold run at hd; cases hd
              | succ n =>
                  unfold run at hd
                  rw [if_pos (by show s.low.length < _; rw [h1]; decide)] at hd
                  cases hx : drain n { s with objs := [⟨7, .drain .done⟩], log := s.log ++ [.released 7] } with
                  | ok x => exact ih n (by omega) { s with objs := [⟨7, .drain .done⟩], log := s.log ++ [.released 7] } h1 rfl x hx
                  | _ => rw [hx] at hd; cases hd

/-- A case of `C19_balance_partial`: nested pools, and a finalizer that autoreleases an object whose finalizer does so again. -/
example : Fits none (.push (.auto 1 (.auto 2 (.auto 3 .done .done) .done) (.push (.auto 4 .done (.pop (.pop .done)))))) 0 ∧
    FlatEffects (.push (.auto 1 (.auto 2 (.auto 3 .done .done) .done) (.push (.auto 4 .done (.pop (.pop .done)))))) ∧
    run 40 (.push (.auto 1 (.auto 2 (.auto 3 .done .done) .done) (.push (.auto 4 .done (.pop (.pop .done)))))) State.init =
      .ok ⟨[], 32, 1, [], [.autoreleased 1, .autoreleased 4, .released 4, .released 1, .autoreleased 2, .released 2, .autoreleased 3, .released 3]⟩ := by
  refine ⟨by simp [Fits, stackSize], by simp [FlatEffects, Flat], by decide +kernel⟩

/-- A case of `C19_pool_partial`, from a state with a pool pushed and an object waiting in it: a finalizer with a pool of its own. -/
example : ∃ s, Reached s ∧ s.low.length = 1 ∧ s.objs.length = 1 ∧
    Fits (some (s.low.length + 1)) (.auto 1 (.push (.auto 2 .done (.pop .done))) .done) (s.low.length + 1) ∧
    s.objs.length + (Prog.auto 1 (.push (.auto 2 .done (.pop .done))) .done).autos ≤ 32 := by
  refine ⟨⟨[⟨5, .done⟩], 32, 1, [0], [.autoreleased 5]⟩, ⟨.push (.auto 5 .done .done), 9, ?_, Or.inr (by decide), by decide +kernel⟩, rfl, rfl, ?_, by decide⟩
  · simp [Fits, stackSize]
  · simp [Fits, stackSize]

end Arp
end Duck
