import Verif.Spec.Autorelease
namespace Duck
namespace Arp

/-! ### Measures -/

/-- The autorelease calls a list of waiting references stands for. -/
def owed (q : List Ref) : Nat := (q.map fun r => r.effect.autos).sum

/-- The same, and one for each of them. -/
def wt (q : List Ref) : Nat := q.length + owed q

theorem owed_append (a b : List Ref) : owed (a ++ b) = owed a + owed b := by simp [owed]
theorem wt_append (a b : List Ref) : wt (a ++ b) = wt a + wt b := by simp [wt, owed_append]; omega
theorem wt_nil : wt [] = 0 := rfl
theorem wt_cons (r : Ref) (q : List Ref) : wt (r :: q) = 1 + r.effect.autos + wt q := by simp [wt, owed]; omega
theorem owed_cons (r : Ref) (q : List Ref) : owed (r :: q) = r.effect.autos + owed q := by simp [owed]

theorem waiting_append (id : Nat) (a b : List Ref) : waiting id (a ++ b) = waiting id a + waiting id b := by simp [waiting]
theorem waiting_cons (id : Nat) (r : Ref) (q : List Ref) : waiting id (r :: q) = (if r.id = id then 1 else 0) + waiting id q := by
  simp only [waiting, List.countP_cons, beq_iff_eq]; omega
theorem autos_append (id : Nat) (a b : List Event) : autos id (a ++ b) = autos id a + autos id b := by simp [autos]
theorem rels_append (id : Nat) (a b : List Event) : rels id (a ++ b) = rels id a + rels id b := by simp [rels]
theorem autos_auto (id x : Nat) : autos id [.autoreleased x] = if x = id then 1 else 0 := by
  simp [autos, List.count_cons]
theorem rels_auto (id x : Nat) : rels id [.autoreleased x] = 0 := by simp [rels]
theorem autos_rel (id x : Nat) : autos id [.released x] = 0 := by simp [autos]
theorem rels_rel (id x : Nat) : rels id [.released x] = if x = id then 1 else 0 := by simp [rels, List.count_cons]

theorem split_drop (q : List Ref) {F m : Nat} (h : F ≤ m) : q.drop F = (q.take m).drop F ++ q.drop m := by
  have : q.drop F = (q.take m ++ q.drop m).drop F := by rw [List.take_append_drop]
  rw [this, List.drop_append]
  by_cases hl : m ≤ q.length
  · have : F - (q.take m).length = 0 := by rw [List.length_take]; omega
    rw [this]; simp
  · have : q.drop m = [] := List.drop_eq_nil_of_le (by omega)
    rw [this]; simp

/-! ### Well formed pools -/

/-- The starts of the pools are in order, and each waiting reference fits the depth of its pool. -/
def Pools : List Nat → List Ref → Prop
  | [], q => ∀ r ∈ q, Fits (some 0) r.effect 0
  | m :: ms, q => m ≤ q.length ∧ (∀ r ∈ q.drop m, Fits (some (ms.length + 1)) r.effect (ms.length + 1)) ∧ Pools ms (q.take m)

theorem Pools.inner : ∀ {low : List Nat} {q : List Ref}, Pools low q →
    low.headD 0 ≤ q.length ∧ ∀ r ∈ q.drop (low.headD 0), Fits (some low.length) r.effect low.length
  | [], q, h => ⟨Nat.zero_le _, fun r hr => h r (List.mem_of_mem_drop hr)⟩
  | m :: ms, q, h => ⟨h.1, h.2.1⟩

theorem Pools.snoc : ∀ {low : List Nat} {q : List Ref}, Pools low q → ∀ {r : Ref}, Fits (some low.length) r.effect low.length →
    Pools low (q ++ [r])
  | [], q, h, r, hr => fun x hx => by
      rcases List.mem_append.mp hx with hx | hx
      · exact h x hx
      · rw [List.mem_singleton.mp hx]; exact hr
  | m :: ms, q, h, r, hr => by
      refine ⟨by rw [List.length_append]; have := h.1; omega, fun x hx => ?_, ?_⟩
      · rw [List.drop_append_of_le_length h.1] at hx
        rcases List.mem_append.mp hx with hx | hx
        · exact h.2.1 x hx
        · rw [List.mem_singleton.mp hx]; exact hr
      · rw [List.take_append_of_le_length h.1]; exact h.2.2

theorem Pools.push {low : List Nat} {q : List Ref} (h : Pools low q) : Pools (q.length :: low) q := by
  refine ⟨Nat.le_refl _, fun x hx => ?_, ?_⟩
  · simp at hx
  · rw [List.take_length]; exact h

theorem Pools.pop {m : Nat} {ms : List Nat} {q : List Ref} (h : Pools (m :: ms) q) : Pools ms (q.take m) := h.2.2

theorem Pools.keep : ∀ {low : List Nat} {q : List Ref}, Pools low q → ∀ {x : List Ref}, (∀ r ∈ x, r ∈ q.drop (low.headD 0)) →
    Pools low (q.take (low.headD 0) ++ x)
  | [], q, h, x, hx => fun r hr => by
      simp only [List.headD_nil, List.take_zero, List.nil_append] at hr
      exact h r (List.mem_of_mem_drop (hx r hr))
  | m :: ms, q, h, x, hx => by
      simp only [List.headD_cons] at hx ⊢
      have hl : (q.take m).length = m := by rw [List.length_take]; exact Nat.min_eq_left h.1
      refine ⟨by rw [List.length_append, hl]; omega, fun r hr => ?_, ?_⟩
      · rw [List.drop_append_of_le_length (by omega), List.drop_eq_nil_of_le (by omega), List.nil_append] at hr
        exact h.2.1 r (hx r hr)
      · rw [List.take_append_of_le_length (by omega), List.take_of_length_le (by omega)]; exact h.2.2

/-- The array has cells for its elements; it is allocated with room for 32. -/
def CapOk (s : State) : Prop := s.objs.length ≤ s.cap ∧ (s.cap = 0 ∨ 32 ≤ s.cap)

theorem resize_ge (a b : Nat) : a ≤ GArray.resizeLength a b ∧ b ≤ GArray.resizeLength a b := by
  unfold GArray.resizeLength GArray.minSize
  simp only
  repeat' split
  all_goals omega

theorem resize_min {a b : Nat} (h : 32 ≤ a ∨ a < b) : 32 ≤ GArray.resizeLength a b := by
  unfold GArray.resizeLength GArray.minSize
  simp only
  repeat' split
  all_goals omega

theorem resize_keep {a b : Nat} (h : b ≤ a) : GArray.resizeLength a b = a := by
  unfold GArray.resizeLength; rw [if_pos h]

theorem CapOk.auto {s : State} (h : CapOk s) (id : Nat) (e : Prog) : CapOk (s.auto id e) ∧ s.cap ≤ (s.auto id e).cap := by
  have hl : (s.auto id e).objs.length = s.objs.length + 1 := by simp [State.auto]
  refine ⟨⟨?_, Or.inr (resize_min ?_)⟩, (resize_ge _ _).1⟩
  · rw [hl]; exact (resize_ge _ _).2
  · rcases h.2 with h | h <;> omega

/-! ### Programs -/

/-- Under which conditions `objects` stays valid: every finalizer is flat, or the array never has to grow. -/
def Pre (flat : Bool) (s : State) (F : Nat) (p : Prog) : Prop :=
  match flat with
  | true => FlatEffects p ∧ ∀ r ∈ s.objs.drop F, Flat r.effect
  | false => F + (p.autos + wt (s.objs.drop F)) ≤ max s.cap 32

/-- What every call keeps. -/
structure Keeps (flat : Bool) (s s' : State) (new : List Ref) : Prop where
  pools : Pools s'.low s'.objs
  cap : CapOk s'
  grow : s.cap ≤ s'.cap
  even : flat = true → ∀ r ∈ new, Flat r.effect
  addr : flat = false → 32 ≤ s.cap → s'.addr = s.addr

theorem Fits.effects : ∀ {p : Prog}, Flat p → FlatEffects p
  | .done, _ => trivial
  | .auto _ _ _, h => ⟨h.1, Fits.effects h.2⟩

/-- The result of running `p` from `s`, when everything below `F` belongs to others, whose pools are `lo`. -/
structure Ran (flat : Bool) (base : Option Nat) (lo : List Nat) (F : Nat) (p : Prog) (s s' : State) (new : List Ref) (l : List Event) : Prop
    extends Keeps flat s s' new where
  low : ∃ up, s'.low = up ++ lo ∧ (∀ m ∈ up, F ≤ m) ∧ ∀ b, base = some b → up = []
  objs : s'.objs = s.objs.take F ++ new
  log : s'.log = s.log ++ l
  count : ∀ id, rels id l + waiting id new = waiting id (s.objs.drop F) + autos id l
  weight : wt new ≤ p.autos + wt (s.objs.drop F)
  quiet : Flat p → (s'.objs.length = s.objs.length ∧ s'.addr = s.addr) ∨ s.objs.length < s'.objs.length

def RunSpec (flat : Bool) (W : Nat) : Prop :=
  ∀ (p : Prog) (s : State) (base : Option Nat) (up lo : List Nat) (F : Nat),
    p.autos + wt (s.objs.drop F) ≤ W → s.low = up ++ lo → (∀ m ∈ up, F ≤ m) → F ≤ s.objs.length →
    (match base with | none => lo = [] ∧ F = 0 | some b => b = lo.length) → Fits base p s.low.length →
    Pools s.low s.objs → CapOk s → Pre flat s F p →
    ∃ N s' new l, (∀ n, N ≤ n → run n p s = .ok s') ∧ Ran flat base lo F p s s' new l

/-- Draining the innermost pool. -/
def DrainSpec (flat : Bool) (W : Nat) : Prop :=
  ∀ (s : State), wt (s.objs.drop s.loc) ≤ W → Pools s.low s.objs → CapOk s → Pre flat s s.loc .done →
    ∃ N s' l, (∀ n, N ≤ n → drain n s = .ok s') ∧ Keeps flat s s' [] ∧ s'.low = s.low ∧ s'.objs = s.objs.take s.loc ∧
      s'.log = s.log ++ l ∧ ∀ id, rels id l = waiting id (s.objs.drop s.loc) + autos id l

/-- The loop over the references of one round. -/
theorem release_spec {flat : Bool} {W : Nat} (hrun : ∀ W', W' < W → RunSpec flat W') :
    ∀ (k : Nat) (s : State) (i len addr alen : Nat), len - i = k → i ≤ len → s.loc + len ≤ s.objs.length →
      wt (s.objs.drop (s.loc + i)) ≤ W → Pools s.low s.objs → CapOk s → addr = s.addr → alen = s.objs.length →
      (flat = true → ∀ r ∈ s.objs.drop (s.loc + i), Flat r.effect) →
      (flat = false → s.objs.length + owed (s.objs.drop (s.loc + i)) ≤ max s.cap 32) →
      ∃ N s' new l, (∀ n, N ≤ n → release n s s.loc i len addr alen = .ok s') ∧ Keeps flat s s' new ∧ s'.low = s.low ∧
        s'.objs = s.objs ++ new ∧ s'.log = s.log ++ l ∧
        (∀ id, rels id l + waiting id new = waiting id ((s.objs.drop (s.loc + i)).take k) + autos id l) ∧
        wt new + k ≤ wt ((s.objs.drop (s.loc + i)).take k)
  | 0, s, i, len, addr, alen, hk, hi, hlen, hW, hp, hc, ha, hal, hf, hr => by
      refine ⟨1, s, [], [], fun n hn => ?_, ⟨hp, hc, Nat.le_refl _, fun _ r hr => (nomatch hr), fun _ _ => rfl⟩, rfl, by simp, by simp,
        fun id => by simp [rels, waiting, autos], by simp [wt, owed]⟩
      obtain ⟨n, rfl⟩ : ∃ m, n = m + 1 := ⟨n - 1, by omega⟩
      unfold release
      rw [if_neg (by omega)]
  | k + 1, s, i, len, addr, alen, hk, hi, hlen, hW, hp, hc, ha, hal, hf, hr => by
      have hlt : s.loc + i < s.objs.length := by omega
      have hdrop : s.objs.drop (s.loc + i) = s.objs[s.loc + i] :: s.objs.drop (s.loc + i + 1) := List.drop_eq_getElem_cons hlt
      generalize hrr : s.objs[s.loc + i] = r at hdrop
      generalize hQ : s.objs.drop (s.loc + i + 1) = Q at hdrop
      have hQl : Q.length = s.objs.length - (s.loc + i + 1) := by rw [← hQ, List.length_drop]
      rw [hdrop] at hW hf hr ⊢
      rw [wt_cons] at hW
      rw [owed_cons] at hr
      have hmem : r ∈ s.objs.drop s.loc := by
        have h1 : r ∈ s.objs.drop (s.loc + i) := by rw [hdrop]; exact List.mem_cons_self
        rw [← List.drop_drop] at h1
        exact List.mem_of_mem_drop h1
      have hfit := hp.inner.2 r hmem
      -- the release
      let s0 : State := { s with log := s.log ++ [.released r.id] }
      obtain ⟨N1, s1, new1, l1, hrun1, hR⟩ := hrun r.effect.autos (by omega) r.effect s0 (some s.low.length) [] s.low s.objs.length
        (by show _ + wt (s.objs.drop s.objs.length) ≤ _; rw [List.drop_length, wt_nil]; exact Nat.le_refl _) rfl (fun m hm => by cases hm)
        (Nat.le_refl _) rfl hfit hp hc
        (by
          cases flat with
          | true => exact ⟨Fits.effects (hf rfl r List.mem_cons_self), fun x hx => by
              have hx' : x ∈ s.objs.drop s.objs.length := hx
              rw [List.drop_length] at hx'; cases hx'⟩
          | false =>
              show s.objs.length + (r.effect.autos + wt (s.objs.drop s.objs.length)) ≤ max s.cap 32
              rw [List.drop_length, wt_nil]; have := hr rfl; omega)
      obtain ⟨up, hlow, -, hup⟩ := hR.low
      rw [hup _ rfl, List.nil_append] at hlow
      have hobjs : s1.objs = s.objs ++ new1 := by
        have := hR.objs; rw [List.take_length] at this; exact this
      have hloc : s1.loc = s.loc := by unfold State.loc; rw [hlow]
      have hcap0 : 32 ≤ s.cap := by
        have := hc.1; rcases hc.2 with h | h <;> omega
      -- the pointer is still good
      have hptr : s1.objs.length = s.objs.length → s1.addr = s.addr := by
        intro hl
        cases flat with
        | true =>
            rcases hR.quiet (hf rfl r List.mem_cons_self) with h | h
            · exact h.2
            · have h' : s.objs.length < s1.objs.length := h
              omega
        | false => exact hR.addr rfl hcap0
      have hQ1 : s1.objs.drop (s1.loc + (i + 1)) = Q ++ new1 := by
        rw [hobjs, hloc, List.drop_append_of_le_length (by omega), ← hQ]; rfl
      have hw1 : wt new1 ≤ r.effect.autos := by
        have := hR.weight
        have h0 : wt (s0.objs.drop s.objs.length) = 0 := by show wt (s.objs.drop s.objs.length) = 0; rw [List.drop_length, wt_nil]
        omega
      obtain ⟨N2, s2, new2, l2, hrun2, hK2, hlow2, hobjs2, hlog2, hcount2, hw2⟩ :=
        release_spec hrun k s1 (i + 1) len (if alen = s1.objs.length then addr else s1.addr) s1.objs.length (by omega) (by omega)
          (by rw [hloc, hobjs, List.length_append]; omega)
          (by rw [hQ1, wt_append]; omega) hR.pools hR.cap
          (by split
              · next h => rw [ha]; exact (hptr (by omega)).symm
              · rfl) rfl
          (fun h x hx => by
            rw [hQ1] at hx
            rcases List.mem_append.mp hx with hx | hx
            · exact hf h x (List.mem_cons_of_mem _ hx)
            · exact hR.even h x hx)
          (fun h => by
            have h1 := hr h
            have h2 := hR.grow
            have h2' : s.cap ≤ s1.cap := h2
            rw [hQ1, owed_append, hobjs, List.length_append]
            have : wt new1 = new1.length + owed new1 := rfl
            omega)
      have htake : (Q ++ new1).take k = Q.take k := List.take_append_of_le_length (by omega)
      rw [hQ1, htake] at hcount2 hw2
      refine ⟨N1 + N2 + 1, s2, new1 ++ new2, [.released r.id] ++ l1 ++ l2, fun n hn => ?_, ⟨hK2.pools, hK2.cap, ?_, ?_, ?_⟩, ?_, ?_, ?_, ?_, ?_⟩
      · obtain ⟨n, rfl⟩ : ∃ m, n = m + 1 := ⟨n - 1, by omega⟩
        unfold release
        rw [if_pos (by omega), if_pos ha, List.getElem?_eq_getElem hlt, hrr]
        simp only
        rw [hrun1 n (by omega)]
        simp only [Res.bind]
        have := hrun2 n (by omega)
        rw [hloc] at this
        split
        · next h => rw [if_pos h] at this; rw [← this, h]
        · next h => rw [if_neg h] at this; exact this
      · exact Nat.le_trans hR.grow hK2.grow
      · intro h x hx
        rcases List.mem_append.mp hx with hx | hx
        · exact hR.even h x hx
        · exact hK2.even h x hx
      · intro h h'
        have h1 : s1.addr = s.addr := hR.addr h h'
        have h2 : s.cap ≤ s1.cap := hR.grow
        rw [hK2.addr h (by omega), h1]
      · rw [hlow2, hlow]
      · rw [hobjs2, hobjs, List.append_assoc]
      · rw [hlog2, hR.log]; simp [s0]
      · intro id
        have c1 := hR.count id
        have c2 := hcount2 id
        have h0 : waiting id (s0.objs.drop s.objs.length) = 0 := by
          show waiting id (s.objs.drop s.objs.length) = 0; rw [List.drop_length]; rfl
        rw [List.take_succ_cons, waiting_cons, waiting_append, rels_append, rels_append, autos_append, autos_append, rels_rel, autos_rel]
        omega
      · rw [List.take_succ_cons, wt_cons, wt_append]; omega

theorem drain_spec {flat : Bool} {W : Nat} (hrun : ∀ W', W' < W → RunSpec flat W') (hdrain : ∀ W', W' < W → DrainSpec flat W') :
    DrainSpec flat W := by
  intro s hW hp hc hpre
  have hin := hp.inner.1
  have hin' : s.loc ≤ s.objs.length := hin
  by_cases hlt : s.loc < s.objs.length
  · have hfull : (s.objs.drop s.loc).take (s.objs.length - s.loc) = s.objs.drop s.loc := List.take_of_length_le (by rw [List.length_drop]; omega)
    obtain ⟨N1, s1, new, l1, hr1, hK1, hlow1, hobjs1, hlog1, hcount1, hw1⟩ :=
      release_spec hrun (s.objs.length - s.loc) s 0 (s.objs.length - s.loc) s.addr s.objs.length (by omega) (by omega) (by omega)
        hW hp hc rfl rfl (fun h => by subst h; exact hpre.2)
        (fun h => by
          subst h
          have h1 : s.loc + (0 + wt (s.objs.drop s.loc)) ≤ max s.cap 32 := hpre
          have : wt (s.objs.drop s.loc) = (s.objs.drop s.loc).length + owed (s.objs.drop s.loc) := rfl
          rw [List.length_drop] at this
          simp only [Nat.add_zero]
          omega)
    simp only [Nat.add_zero] at hcount1 hw1
    rw [hfull] at hcount1 hw1
    have hloc1 : s1.loc = s.loc := by unfold State.loc; rw [hlow1]
    let s2 : State := { s1 with objs := s1.objs.take s.loc ++ s1.objs.drop (s.loc + (s.objs.length - s.loc)) }
    have hdrop1 : s1.objs.drop (s.loc + (s.objs.length - s.loc)) = new := by
      rw [hobjs1, show s.loc + (s.objs.length - s.loc) = s.objs.length by omega, List.drop_left]
    have htake1 : s1.objs.take s.loc = s.objs.take s.loc := by rw [hobjs1, List.take_append_of_le_length hin']
    have hobjs2 : s2.objs = s.objs.take s.loc ++ new := by show s1.objs.take _ ++ s1.objs.drop _ = _; rw [hdrop1, htake1]
    have hl0 : (s.objs.take s.loc).length = s.loc := by rw [List.length_take]; omega
    have hloc2 : s2.loc = s.loc := hloc1
    have hnew2 : s2.objs.drop s2.loc = new := by
      rw [hobjs2, hloc2, List.drop_append_of_le_length (by omega), List.drop_eq_nil_of_le (by omega), List.nil_append]
    have htake2 : s2.objs.take s2.loc = s.objs.take s.loc := by
      rw [hobjs2, hloc2, List.take_append_of_le_length (by omega), List.take_of_length_le (by omega)]
    have hcap1 : s.cap ≤ s1.cap := hK1.grow
    obtain ⟨N2, s3, l2, hr2, hK3, hlow3, hobjs3, hlog3, hcount3⟩ := hdrain (wt new) (by omega) s2 (by rw [hnew2]; exact Nat.le_refl _)
      (by
        have := hK1.pools
        have hk := Pools.keep this (x := new) (fun r hr => by
          have : s1.low.headD 0 = s.loc := hloc1
          rw [this, hobjs1, List.drop_append_of_le_length hin']
          exact List.mem_append_right _ hr)
        have he : s1.low.headD 0 = s.loc := hloc1
        rw [he, htake1] at hk
        rw [hobjs2]; exact hk)
      (by
        refine ⟨?_, hK1.cap.2⟩
        have h1 := hK1.cap.1
        rw [hobjs1, List.length_append] at h1
        rw [hobjs2, List.length_append, hl0]
        show s.loc + new.length ≤ s1.cap
        omega)
      (by
        cases flat with
        | true => exact ⟨trivial, fun r hr => by rw [hnew2] at hr; exact hK1.even rfl r hr⟩
        | false =>
            have h1 : s.loc + (0 + wt (s.objs.drop s.loc)) ≤ max s.cap 32 := hpre
            show s2.loc + (0 + wt (s2.objs.drop s2.loc)) ≤ max s1.cap 32
            rw [hnew2, hloc2]; omega)
    refine ⟨N1 + N2 + 1, s3, l1 ++ l2, fun n hn => ?_, ⟨hK3.pools, hK3.cap, Nat.le_trans hcap1 hK3.grow, fun _ r hr => (nomatch hr), ?_⟩, ?_, ?_, ?_, ?_⟩
    · obtain ⟨n, rfl⟩ : ∃ m, n = m + 1 := ⟨n - 1, by omega⟩
      unfold drain
      rw [if_pos hlt, hr1 n (by omega)]
      simp only [Res.bind]
      rw [if_pos (by rw [hobjs1, List.length_append]; omega)]
      exact hr2 n (by omega)
    · intro h h'
      have h1 : s1.addr = s.addr := hK1.addr h h'
      rw [hK3.addr h (by show 32 ≤ s1.cap; omega)]; exact h1
    · rw [hlow3]; exact hlow1
    · rw [hobjs3, htake2]
    · rw [hlog3]; show s1.log ++ l2 = _; rw [hlog1, List.append_assoc]
    · intro id
      have c1 := hcount1 id
      have c2 := hcount3 id
      rw [hnew2] at c2
      rw [rels_append, autos_append]; omega
  · have he : s.loc = s.objs.length := by omega
    refine ⟨1, s, [], fun n hn => ?_, ⟨hp, hc, Nat.le_refl _, fun _ r hr => (nomatch hr), fun _ _ => rfl⟩, rfl, ?_, by simp, fun id => ?_⟩
    · obtain ⟨n, rfl⟩ : ∃ m, n = m + 1 := ⟨n - 1, by omega⟩
      unfold drain
      rw [if_neg hlt]
    · rw [he, List.take_length]
    · rw [he, List.drop_length]; rfl

theorem run_spec {flat : Bool} {W : Nat} (hdrain : DrainSpec flat W) : RunSpec flat W := by
  intro p
  induction p with
  | done =>
      intro s base up lo F hW hlow hup hF hb hfit hp hc hpre
      refine ⟨1, s, s.objs.drop F, [], fun n hn => ?_, ⟨⟨hp, hc, Nat.le_refl _, ?_, fun _ _ => rfl⟩, ⟨up, hlow, hup, ?_⟩, ?_, by simp, ?_, ?_, fun _ => Or.inl ⟨rfl, rfl⟩⟩⟩
      · obtain ⟨n, rfl⟩ : ∃ m, n = m + 1 := ⟨n - 1, by omega⟩
        unfold run; rfl
      · intro h; subst h; exact hpre.2
      · intro b hbb
        subst hbb
        have h1 : s.low.length = b := hfit b rfl
        have h2 : b = lo.length := hb
        rw [hlow, List.length_append] at h1
        exact List.length_eq_zero_iff.mp (by omega)
      · rw [List.take_append_drop]
      · intro id; simp [rels, autos]
      · show _ ≤ 0 + _; omega
  | auto x e k ihe ihk =>
      intro s base up lo F hW hlow hup hF hb hfit hp hc hpre
      have hcap := hc.auto x e
      have hd : (s.auto x e).objs.drop F = s.objs.drop F ++ [⟨x, e⟩] := by
        show (s.objs ++ [_]).drop F = _; rw [List.drop_append_of_le_length hF]
      have ht : (s.auto x e).objs.take F = s.objs.take F := by
        show (s.objs ++ [_]).take F = _; rw [List.take_append_of_le_length hF]
      have hl : (s.auto x e).objs.length = s.objs.length + 1 := by simp [State.auto]
      have hwd : wt ((s.auto x e).objs.drop F) = wt (s.objs.drop F) + (1 + e.autos) := by
        rw [hd, wt_append, wt_cons, wt_nil]; rfl
      have ha : (Prog.auto x e k).autos = 1 + e.autos + k.autos := rfl
      rw [ha] at hW
      obtain ⟨N, s', new, l, hrun, hR⟩ := ihk (s.auto x e) base up lo F (by rw [hwd]; omega) hlow hup (by rw [hl]; omega) hb hfit.2
        (hp.snoc hfit.1) hcap.1
        (by
          cases flat with
          | true =>
              refine ⟨hpre.1.2, fun r hr => ?_⟩
              rw [hd] at hr
              rcases List.mem_append.mp hr with hr | hr
              · exact hpre.2 r hr
              · rw [List.mem_singleton.mp hr]; exact hpre.1.1
          | false =>
              have h1 : F + ((Prog.auto x e k).autos + wt (s.objs.drop F)) ≤ max s.cap 32 := hpre
              show F + (k.autos + wt ((s.auto x e).objs.drop F)) ≤ max (s.auto x e).cap 32
              rw [hwd]; rw [ha] at h1; have := hcap.2; omega)
      refine ⟨N + 1, s', new, [.autoreleased x] ++ l, fun n hn => ?_, ⟨⟨hR.pools, hR.cap, Nat.le_trans hcap.2 hR.grow, hR.even, ?_⟩, hR.low, ?_, ?_, ?_, ?_, ?_⟩⟩
      · obtain ⟨n, rfl⟩ : ∃ m, n = m + 1 := ⟨n - 1, by omega⟩
        unfold run; exact hrun n (by omega)
      · intro h h'
        subst h
        have h1 : F + ((Prog.auto x e k).autos + wt (s.objs.drop F)) ≤ max s.cap 32 := hpre
        rw [ha] at h1
        have hw : (s.objs.drop F).length ≤ wt (s.objs.drop F) := Nat.le_add_right _ _
        rw [List.length_drop] at hw
        rw [hR.addr rfl (Nat.le_trans h' hcap.2)]
        show (if s.objs.length + 1 ≤ s.cap then s.addr else s.addr + 1) = s.addr
        rw [if_pos (by omega)]
      · rw [hR.objs, ht]
      · rw [hR.log]; show (s.log ++ [_]) ++ l = _; rw [List.append_assoc]
      · intro id
        have c := hR.count id
        rw [hd, waiting_append, waiting_cons] at c
        have h0 : waiting id [] = 0 := rfl
        rw [rels_append, autos_append, rels_auto, autos_auto]
        simp only at c
        omega
      · have := hR.weight; rw [hwd] at this; rw [ha]; omega
      · intro h
        rcases hR.quiet h.2 with h1 | h1 <;> (right; omega)
  | push k ih =>
      intro s base up lo F hW hlow hup hF hb hfit hp hc hpre
      let s1 : State := { s with low := s.objs.length :: s.low }
      obtain ⟨N, s', new, l, hrun, hR⟩ := ih s1 base (s.objs.length :: up) lo F hW (by show _ :: s.low = _; rw [hlow]; rfl)
        (fun m hm => by
          rcases List.mem_cons.mp hm with rfl | hm
          · exact hF
          · exact hup m hm) hF hb hfit.2 hp.push hc
        (by cases flat with
            | true => exact ⟨hpre.1, hpre.2⟩
            | false => exact hpre)
      refine ⟨N + 1, s', new, l, fun n hn => ?_, ⟨⟨hR.pools, hR.cap, hR.grow, hR.even, hR.addr⟩, hR.low, hR.objs, hR.log, hR.count, hR.weight, fun h => h.elim⟩⟩
      obtain ⟨n, rfl⟩ : ∃ m, n = m + 1 := ⟨n - 1, by omega⟩
      unfold run
      rw [if_pos hfit.1]
      exact hrun n (by omega)
  | pop k ih =>
      intro s base up lo F hW hlow hup hF hb hfit hp hc hpre
      obtain ⟨hd0, hd8, hne, hfitk⟩ := hfit
      have hupne : up ≠ [] := by
        rintro rfl
        rw [List.nil_append] at hlow
        cases base with
        | none => rw [hlow, hb.1] at hd0; cases hd0
        | some b => exact hne (by rw [hlow, hb])
      cases up with
      | nil => exact absurd rfl hupne
      | cons m up =>
          have hloc : s.loc = m := by unfold State.loc; rw [hlow]; rfl
          have hFm : F ≤ m := hup m List.mem_cons_self
          have hml : m ≤ s.objs.length := by have := hp.inner.1; rw [hlow] at this; exact this
          have hsd := split_drop s.objs hFm
          have hwsd : wt (s.objs.drop F) = wt ((s.objs.take m).drop F) + wt (s.objs.drop m) := by
            have := congrArg wt hsd; rw [wt_append] at this; exact this
          have ha : (Prog.pop k).autos = k.autos := rfl
          rw [ha] at hW
          have hlt : ((s.objs.take m).drop F).length = m - F := by rw [List.length_drop, List.length_take]; omega
          have hle : m - F ≤ wt ((s.objs.take m).drop F) := by rw [← hlt]; exact Nat.le_add_right _ _
          obtain ⟨N1, s1, l1, hr1, hK1, hlow1, hobjs1, hlog1, hcount1⟩ := hdrain s (by rw [hloc]; omega) hp hc
            (by
              cases flat with
              | true =>
                  refine ⟨trivial, fun r hr => hpre.2 r ?_⟩
                  rw [hsd]; rw [hloc] at hr; exact List.mem_append_right _ hr
              | false =>
                  have h1 : F + ((Prog.pop k).autos + wt (s.objs.drop F)) ≤ max s.cap 32 := hpre
                  show s.loc + (0 + wt (s.objs.drop s.loc)) ≤ max s.cap 32
                  rw [hloc]; omega)
          rw [hloc] at hobjs1 hcount1
          let s2 : State := { s1 with low := s1.low.tail }
          have hlow2 : s2.low = up ++ lo := by show s1.low.tail = _; rw [hlow1, hlow]; rfl
          have hpool2 : Pools s2.low s2.objs := by
            have h1 := hK1.pools
            have e1 : s1.low = m :: s2.low := by rw [hlow1, hlow, hlow2]; rfl
            rw [e1] at h1
            have h2 := h1.pop
            have e2 : s1.objs.take m = s1.objs := List.take_of_length_le (by rw [hobjs1, List.length_take]; omega)
            rw [e2] at h2; exact h2
          have hcap1 : s.cap ≤ s1.cap := hK1.grow
          have hobjs2 : s2.objs = s.objs.take m := hobjs1
          obtain ⟨N2, s', new, l2, hr2, hR⟩ := ih s2 base up lo F (by rw [hobjs2]; omega) hlow2 (fun x hx => hup x (List.mem_cons_of_mem _ hx))
            (by rw [hobjs2, List.length_take]; omega) hb
            (by
              have : s2.low.length = s.low.length - 1 := by rw [hlow2, hlow]; simp
              rw [this]; exact hfitk) hpool2 hK1.cap
            (by
              cases flat with
              | true =>
                  refine ⟨hpre.1, fun r hr => hpre.2 r ?_⟩
                  rw [hobjs2] at hr; rw [hsd]; exact List.mem_append_left _ hr
              | false =>
                  have h1 : F + ((Prog.pop k).autos + wt (s.objs.drop F)) ≤ max s.cap 32 := hpre
                  show F + (k.autos + wt (s2.objs.drop F)) ≤ max s1.cap 32
                  rw [hobjs2]; omega)
          have htt : (s.objs.take m).take F = s.objs.take F := by rw [List.take_take, Nat.min_eq_left hFm]
          refine ⟨N1 + N2 + 1, s', new, l1 ++ l2, fun n hn => ?_, ⟨⟨hR.pools, hR.cap, Nat.le_trans hcap1 hR.grow, hR.even, ?_⟩, hR.low, ?_, ?_, ?_, ?_, fun h => h.elim⟩⟩
          · obtain ⟨n, rfl⟩ : ∃ m, n = m + 1 := ⟨n - 1, by omega⟩
            unfold run
            rw [if_pos ⟨hd0, hd8⟩, hr1 n (by omega)]
            exact hr2 n (by omega)
          · intro h h'
            have h1 : s1.addr = s.addr := hK1.addr h h'
            rw [hR.addr h (by show 32 ≤ s1.cap; omega)]; exact h1
          · rw [hR.objs, hobjs2, htt]
          · rw [hR.log]; show s1.log ++ l2 = _; rw [hlog1, List.append_assoc]
          · intro id
            have c1 := hcount1 id
            have c2 := hR.count id
            have c3 := congrArg (waiting id) hsd
            rw [waiting_append] at c3
            rw [hobjs2] at c2
            rw [rels_append, autos_append]; omega
          · have := hR.weight; rw [hobjs2] at this; rw [ha]; omega
  | drain k ih =>
      intro s base up lo F hW hlow hup hF hb hfit hp hc hpre
      obtain ⟨hd8, hne, hfitk⟩ := hfit
      have hFm : F ≤ s.loc := by
        cases up with
        | cons m up => unfold State.loc; rw [hlow]; exact hup m List.mem_cons_self
        | nil =>
            rw [List.nil_append] at hlow
            cases base with
            | none => rw [hb.2]; exact Nat.zero_le _
            | some b => exact absurd (by rw [hlow, hb]) hne
      generalize hm : s.loc = m at hFm
      have hml : m ≤ s.objs.length := by rw [← hm]; exact hp.inner.1
      have hsd := split_drop s.objs hFm
      have hwsd : wt (s.objs.drop F) = wt ((s.objs.take m).drop F) + wt (s.objs.drop m) := by
        have := congrArg wt hsd; rw [wt_append] at this; exact this
      have ha : (Prog.drain k).autos = k.autos := rfl
      rw [ha] at hW
      have hlt : ((s.objs.take m).drop F).length = m - F := by rw [List.length_drop, List.length_take]; omega
      have hle : m - F ≤ wt ((s.objs.take m).drop F) := by rw [← hlt]; exact Nat.le_add_right _ _
      obtain ⟨N1, s1, l1, hr1, hK1, hlow1, hobjs1, hlog1, hcount1⟩ := hdrain s (by rw [hm]; omega) hp hc
        (by
          cases flat with
          | true =>
              refine ⟨trivial, fun r hr => hpre.2 r ?_⟩
              rw [hsd]; rw [hm] at hr; exact List.mem_append_right _ hr
          | false =>
              have h1 : F + ((Prog.drain k).autos + wt (s.objs.drop F)) ≤ max s.cap 32 := hpre
              show s.loc + (0 + wt (s.objs.drop s.loc)) ≤ max s.cap 32
              rw [hm]; omega)
      rw [hm] at hobjs1 hcount1
      have hcap1 : s.cap ≤ s1.cap := hK1.grow
      obtain ⟨N2, s', new, l2, hr2, hR⟩ := ih s1 base up lo F (by rw [hobjs1]; omega) (by rw [hlow1, hlow]) hup
        (by rw [hobjs1, List.length_take]; omega) hb (by rw [hlow1]; exact hfitk) hK1.pools hK1.cap
        (by
          cases flat with
          | true =>
              refine ⟨hpre.1, fun r hr => hpre.2 r ?_⟩
              rw [hobjs1] at hr; rw [hsd]; exact List.mem_append_left _ hr
          | false =>
              have h1 : F + ((Prog.drain k).autos + wt (s.objs.drop F)) ≤ max s.cap 32 := hpre
              show F + (k.autos + wt (s1.objs.drop F)) ≤ max s1.cap 32
              rw [hobjs1]; omega)
      have htt : (s.objs.take m).take F = s.objs.take F := by rw [List.take_take, Nat.min_eq_left hFm]
      refine ⟨N1 + N2 + 1, s', new, l1 ++ l2, fun n hn => ?_, ⟨⟨hR.pools, hR.cap, Nat.le_trans hcap1 hR.grow, hR.even, ?_⟩, hR.low, ?_, ?_, ?_, ?_, fun h => h.elim⟩⟩
      · obtain ⟨n, rfl⟩ : ∃ m, n = m + 1 := ⟨n - 1, by omega⟩
        unfold run
        rw [if_pos hd8, hr1 n (by omega)]
        exact hr2 n (by omega)
      · intro h h'
        have h1 : s1.addr = s.addr := hK1.addr h h'
        rw [hR.addr h (by show 32 ≤ s1.cap; omega)]; exact h1
      · rw [hR.objs, hobjs1, htt]
      · rw [hR.log, hlog1, List.append_assoc]
      · intro id
        have c1 := hcount1 id
        have c2 := hR.count id
        have c3 := congrArg (waiting id) hsd
        rw [waiting_append] at c3
        rw [hobjs1] at c2
        rw [rels_append, autos_append]; omega
      · have := hR.weight; rw [hobjs1] at this; rw [ha]; omega

theorem specs (flat : Bool) (W : Nat) : DrainSpec flat W ∧ RunSpec flat W := by
  induction W using Nat.strongRecOn with
  | _ W ih =>
      have hd := drain_spec (fun W' h => (ih W' h).2) (fun W' h => (ih W' h).1)
      exact ⟨hd, run_spec hd⟩

end Arp
end Duck
