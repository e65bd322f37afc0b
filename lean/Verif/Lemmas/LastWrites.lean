import Verif.Spec.LastWrites
/-! Lemmas for Props/LastWrites.lean. -/
namespace Duck
namespace LastWrites

structure Inv (s : State) : Prop where
  count : s.rc = s.owners.length
  owned : s.stage = .owned ↔ s.rc ≠ 0
  buf : ∀ i, s.buf i ≠ [] → i ∈ s.owners
  late : s.late = false

theorem inv_init : Inv init := ⟨rfl, ⟨fun _ h => (by cases h), fun _ => rfl⟩, fun i h => absurd rfl h, rfl⟩

/-- `L k` is what was written last. -/
structure Val (L : Nat → Nat) (s : State) : Prop where
  mem : ∀ k, (∀ i, pending (s.buf i) k = none) → s.field k = L k
  own : ∀ i k v, pending (s.buf i) k = some v → v = L k
  one : ∀ i j k, i ≠ j → pending (s.buf i) k ≠ none → pending (s.buf j) k = none

theorem inv_drop {s : State} {i : Nat} (h : Inv s) (hi : i ∈ s.owners) (hb : s.buf i = []) : Inv (drop s i) := by
  have hl := List.length_erase_of_mem hi
  have hp := List.length_pos_of_mem hi
  have hc := h.count
  have ho := h.owned
  refine ⟨?_, ?_, ?_, h.late⟩
  · show s.rc - 1 = (s.owners.erase i).length
    omega
  · show (if s.rc - 1 = 0 then Stage.finalizing i else s.stage) = .owned ↔ s.rc - 1 ≠ 0
    by_cases e : s.rc - 1 = 0
    · rw [if_pos e]; exact ⟨fun h => (nomatch h), fun h => absurd e h⟩
    · rw [if_neg e]; exact ⟨fun _ => e, fun _ => ho.mpr (by omega)⟩
  · intro j hj
    have hj : s.buf j ≠ [] := hj
    have hne : j ≠ i := fun e => hj (by rw [e]; exact hb)
    exact (List.mem_erase_of_ne hne).mpr (h.buf j hj)

theorem setBuf_self (s : State) (i : Nat) (ws : List (Nat × Nat)) : (setBuf s i ws).buf i = ws := if_pos rfl
theorem setBuf_ne (s : State) {i j : Nat} (ws : List (Nat × Nat)) (h : j ≠ i) : (setBuf s i ws).buf j = s.buf j := if_neg h

theorem inv_act {s s' : State} {a : Action} (h : Inv s) (hl : Locked a) (ha : act s a = some s') : Inv s' := by
  have hc := h.count
  have ho := h.owned
  cases a with
  | write i k v =>
    simp only [act] at ha
    split at ha
    · rename_i hi
      cases ha
      refine ⟨hc, ho, fun j hj => ?_, h.late⟩
      by_cases e : j = i
      · rw [e]; exact hi
      · rw [setBuf_ne s _ e] at hj; exact h.buf j hj
    · cases ha
  | retain i =>
    simp only [act] at ha
    split at ha
    · rename_i hi
      cases ha
      refine ⟨congrArg (· + 1) hc, ⟨fun _ => Nat.succ_ne_zero _, fun _ => ho.mpr ?_⟩, fun j hj => List.mem_cons_of_mem _ (h.buf j hj), h.late⟩
      have := List.length_pos_of_mem hi.1
      omega
    · cases ha
  | resolve i =>
    simp only [act] at ha
    split at ha
    · rename_i hi
      cases ha
      exact ⟨congrArg (· + 1) hc, ⟨fun _ => Nat.succ_ne_zero _, fun _ => ho.mpr hi.1⟩, fun j hj => List.mem_cons_of_mem _ (h.buf j hj), h.late⟩
    · cases ha
  | give i j locked =>
    simp only [act] at ha
    split at ha
    · rename_i hi
      cases ha
      have hb := hi.2 hl
      refine ⟨?_, ho, fun m hm => ?_, h.late⟩
      · show s.rc = (s.owners.erase i).length + 1
        have h1 := List.length_erase_of_mem hi.1
        have h2 := List.length_pos_of_mem hi.1
        omega
      · have hm : s.buf m ≠ [] := hm
        have hne : m ≠ i := fun e => hm (by rw [e]; exact hb)
        exact List.mem_cons_of_mem _ ((List.mem_erase_of_ne hne).mpr (h.buf m hm))
    · cases ha
  | release i =>
    simp only [act] at ha
    split at ha
    · rename_i hi
      cases ha
      exact inv_drop h hi.1 hi.2
    · cases ha
  | tryRelease i =>
    simp only [act] at ha
    split at ha
    · rename_i hi
      split at ha
      · split at ha
        · rename_i hb
          cases ha
          exact inv_drop h hi hb
        · cases ha
      · cases ha; exact h
    · cases ha
  | free i =>
    simp only [act] at ha
    split at ha
    · rename_i hi
      cases ha
      refine ⟨hc, ⟨fun h => (by cases h), fun hr => ?_⟩, h.buf, h.late⟩
      have := ho.mpr hr
      rw [hi] at this; cases this
    · cases ha
  | commit i j =>
    simp only [act] at ha
    cases hw : (s.buf i)[j]? with
    | none => rw [hw] at ha; cases ha
    | some w =>
      rw [hw, Option.bind_some] at ha
      split at ha
      · cases ha
        have hne : s.buf i ≠ [] := fun e => by rw [e] at hw; cases hw
        have hi := h.buf i hne
        refine ⟨hc, ho, fun m hm => ?_, ?_⟩
        · by_cases e : m = i
          · rw [e]; exact hi
          · rw [setBuf_ne _ _ e] at hm; exact h.buf m hm
        · show (s.late || s.stage == .freed) = false
          have : s.stage = .owned := ho.mpr (by have := List.length_pos_of_mem hi; omega)
          rw [h.late, this]; rfl
      · cases ha

theorem pending_append (ws : List (Nat × Nat)) (k v k' : Nat) : pending (ws ++ [(k, v)]) k' = if k = k' then some v else pending ws k' := by
  induction ws with
  | nil => simp [pending]
  | cons w ws ih =>
    obtain ⟨a, b⟩ := w
    simp only [List.cons_append, pending, ih]
    by_cases e : k = k' <;> simp [e]

theorem pending_erase : ∀ {ws : List (Nat × Nat)} {j k v : Nat}, ws[j]? = some (k, v) → pending (ws.take j) k = none →
    pending ws k = (pending (ws.eraseIdx j) k).or (some v) ∧ ∀ k', k' ≠ k → pending ws k' = pending (ws.eraseIdx j) k'
  | [], j, k, v, h, _ => by simp at h
  | (a, b) :: ws, 0, k, v, h, _ => by
    simp only [List.getElem?_cons_zero, Option.some.injEq, Prod.mk.injEq] at h
    obtain ⟨rfl, rfl⟩ := h
    refine ⟨by simp [pending], fun k' hk => ?_⟩
    simp only [pending, List.eraseIdx_cons_zero]
    rw [if_neg (Ne.symm hk), Option.or_none]
  | (a, b) :: ws, j + 1, k, v, h, ht => by
    simp only [List.getElem?_cons_succ] at h
    simp only [List.take_succ_cons, pending] at ht
    have h1 : pending (ws.take j) k = none := by
      cases e : pending (ws.take j) k with
      | none => rfl
      | some x => rw [e] at ht; cases ht
    have h2 : (if a = k then some b else none) = none := by rw [h1] at ht; simpa using ht
    obtain ⟨h3, h4⟩ := pending_erase h h1
    simp only [List.eraseIdx_cons_succ, pending]
    refine ⟨?_, fun k' hk => by rw [h4 k' hk]⟩
    rw [h3, h2, Option.or_none, Option.or_none]

theorem val_init : Val (fun _ => 0) init := ⟨fun _ _ => rfl, fun _ _ _ h => (nomatch h), fun _ _ _ _ h => absurd rfl h⟩

/-- What is written last after one more action. -/
def next (L : Nat → Nat) : Action → Nat → Nat
  | .write _ k v => fun k' => if k = k' then v else L k'
  | _ => L

theorem val_act {L : Nat → Nat} {s s' : State} {a : Action} (h : Val L s) (hr : ∀ i k v, a = .write i k v → ∀ j, j ≠ i → pending (s.buf j) k = none) (ha : act s a = some s') : Val (next L a) s' := by
  have same : s'.field = s.field → s'.buf = s.buf → next L a = L → Val (next L a) s' := by
    intro h1 h2 h3
    rw [h3]
    exact ⟨by rw [h1, h2]; exact h.mem, by rw [h2]; exact h.own, by rw [h2]; exact h.one⟩
  cases a with
  | write i k v =>
    simp only [act] at ha
    split at ha
    · cases ha
      have hr := hr i k v rfl
      have hp : ∀ j k', pending ((setBuf s i (s.buf i ++ [(k, v)])).buf j) k' = if j = i ∧ k = k' then some v else pending (s.buf j) k' := by
        intro j k'
        by_cases e : j = i
        · subst e
          rw [setBuf_self, pending_append]
          by_cases e' : k = k' <;> simp [e']
        · rw [setBuf_ne s _ e, if_neg (fun h => e h.1)]
      constructor
      · intro k' hk
        have hk' : k ≠ k' := fun e => by
          have := hk i
          rw [hp, if_pos ⟨rfl, e⟩] at this; cases this
        show s.field k' = if k = k' then v else L k'
        rw [if_neg hk']
        exact h.mem k' fun j => by have := hk j; rwa [hp, if_neg (fun h => hk' h.2)] at this
      · intro j k' u hu
        rw [hp] at hu
        show u = if k = k' then v else L k'
        by_cases e : k = k'
        · rw [if_pos e]
          by_cases e' : j = i
          · rw [if_pos ⟨e', e⟩] at hu; exact (Option.some.inj hu).symm
          · rw [if_neg (fun h => e' h.1), ← e, hr j e'] at hu; cases hu
        · rw [if_neg e]
          rw [if_neg (fun h => e h.2)] at hu
          exact h.own j k' u hu
      · intro j m k' hjm hj
        rw [hp] at hj ⊢
        by_cases e : k = k'
        · subst e
          by_cases e' : m = i
          · have : j ≠ i := fun h => hjm (h.trans e'.symm)
            rw [if_neg (fun h => this h.1), hr j this] at hj
            exact absurd rfl hj
          · rw [if_neg (fun h => e' h.1)]; exact hr m e'
        · rw [if_neg (fun h => e h.2)] at hj ⊢
          exact h.one j m k' hjm hj
    · cases ha
  | retain i => simp only [act] at ha; split at ha <;> cases ha; exact same rfl rfl rfl
  | resolve i => simp only [act] at ha; split at ha <;> cases ha; exact same rfl rfl rfl
  | give i j l => simp only [act] at ha; split at ha <;> cases ha; exact same rfl rfl rfl
  | release i => simp only [act] at ha; split at ha <;> cases ha; exact same rfl rfl rfl
  | tryRelease i =>
    simp only [act] at ha
    split at ha
    · split at ha
      · split at ha <;> cases ha; exact same rfl rfl rfl
      · cases ha; exact same rfl rfl rfl
    · cases ha
  | free i => simp only [act] at ha; split at ha <;> cases ha; exact same rfl rfl rfl
  | commit i j =>
    simp only [act] at ha
    cases hw : (s.buf i)[j]? with
    | none => rw [hw] at ha; cases ha
    | some w =>
      obtain ⟨k, v⟩ := w
      rw [hw, Option.bind_some] at ha
      split at ha
      · rename_i ht
        cases ha
        obtain ⟨h1, h2⟩ := pending_erase hw ht
        have hi : pending (s.buf i) k ≠ none := by
          rw [h1]
          cases pending ((s.buf i).eraseIdx j) k <;> exact fun e => nomatch e
        have less : ∀ m k', pending ((setBuf (store s k v) i ((s.buf i).eraseIdx j)).buf m) k' ≠ none → pending (s.buf m) k' = pending ((setBuf (store s k v) i ((s.buf i).eraseIdx j)).buf m) k' := by
          intro m k' hm
          by_cases e : m = i
          · subst e
            rw [setBuf_self] at hm ⊢
            by_cases e' : k' = k
            · subst e'
              rw [h1]
              cases e'' : pending ((s.buf m).eraseIdx j) k' with
              | none => exact absurd e'' hm
              | some x => rfl
            · exact h2 k' e'
          · rw [setBuf_ne _ _ e]; rfl
        constructor
        · intro k' hk
          show (if k' = k then v else s.field k') = L k'
          by_cases e : k' = k
          · subst e
            rw [if_pos rfl]
            have := hk i
            rw [setBuf_self] at this
            rw [this] at h1
            exact h.own i k' v h1
          · rw [if_neg e]
            refine h.mem k' fun m => ?_
            by_cases e' : m = i
            · subst e'
              have := hk m
              rw [setBuf_self] at this
              rw [h2 k' e]; exact this
            · have := hk m
              rw [setBuf_ne _ _ e'] at this; exact this
        · intro m k' u hu
          refine h.own m k' u ?_
          rw [less m k' (by rw [hu]; exact fun e => nomatch e)]; exact hu
        · intro m m' k' hne hm
          have := h.one m m' k' hne (by rw [less m k' hm]; exact hm)
          cases e : pending ((setBuf (store s k v) i ((s.buf i).eraseIdx j)).buf m') k' with
          | none => rfl
          | some x =>
            have h5 := less m' k' (by rw [e]; exact fun e => nomatch e)
            rw [this, e] at h5; cases h5
      · cases ha

theorem run_inv : ∀ (as : List Action) {s s' : State}, Inv s → (∀ a ∈ as, Locked a) → run s as = some s' → Inv s'
  | [], s, s', h, _, hr => by
    simp only [run, Option.some.injEq] at hr
    subst hr; exact h
  | a :: as, s, s', h, hl, hr => by
    simp only [run] at hr
    cases ha : act s a with
    | none => rw [ha] at hr; cases hr
    | some s1 =>
      rw [ha, Option.bind_some] at hr
      exact run_inv as (inv_act h (hl a (List.mem_cons_self ..)) ha) (fun b hb => hl b (List.mem_cons_of_mem _ hb)) hr

theorem run_val : ∀ (as : List Action) {L : Nat → Nat} {s s' : State}, Val L s → Ordered s as → run s as = some s' → Val (fun k => (lastOf as k).getD (L k)) s'
  | [], L, s, s', h, _, hr => by
    simp only [run, Option.some.injEq] at hr
    subst hr; exact h
  | a :: as, L, s, s', h, ho, hr => by
    simp only [run] at hr
    cases ha : act s a with
    | none => rw [ha] at hr; cases hr
    | some s1 =>
      rw [ha, Option.bind_some] at hr
      have := run_val as (val_act h ho.1 ha) (ho.2 s1 ha) hr
      have he : (fun k => (lastOf (a :: as) k).getD (L k)) = fun k => (lastOf as k).getD (next L a k) := by
        funext k
        cases a <;> simp only [lastOf, next]
        case write i k' v =>
          cases lastOf as k with
          | some x => rfl
          | none => simp only [Option.none_or, Option.getD_none]; split <;> rfl
      rw [he]; exact this

end LastWrites
end Duck
