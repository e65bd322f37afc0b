import Verif.Spec.Semaphore

/-! # Lemmas about semaphores -/

namespace Duck
namespace Sem

@[simp] theorem total_nil : total [] = 0 := rfl

theorem total_append (l l' : List Event) : total (l ++ l') = total l + total l' := by simp [total]

@[simp] theorem total_inc (v : BitVec 32) : total [.increment v] = v.toNat := by simp [total, Event.amount]
@[simp] theorem total_dec (v : BitVec 32) : total [.decrement v] = -v.toNat := by simp [total, Event.amount]
@[simp] theorem total_ret (v : BitVec 32) : total [.returned v] = 0 := by simp [total, Event.amount]

theorem ofInt_add_nat (x : Int) (v : BitVec 32) : BitVec.ofInt 32 x + v = BitVec.ofInt 32 (x + v.toNat) := by
  rw [BitVec.ofInt_add]; congr 1; simp

theorem ofInt_sub_nat (x : Int) (v : BitVec 32) : BitVec.ofInt 32 x - v = BitVec.ofInt 32 (x + -v.toNat) := by
  rw [BitVec.ofInt_add, BitVec.ofInt_neg, BitVec.sub_eq_add_neg]
  congr 2; simp

/-- The counter is right up to multiples of 2^32, and callers return with the right counter. -/
structure Inv (s : Sem) : Prop where
  counter : s.counter = BitVec.ofInt 32 (total s.log)
  returned : ∀ l v, l ++ [.returned v] <+: s.log → BitVec.ofInt 32 (total l) = v
  pending : s.broadcasts = 0 → ∀ w ∈ s.waiters, w.pc = .asleep → w.value ≠ s.counter

theorem prefix_snoc {α : Type} {l l' : List α} {a b : α} (h : l ++ [a] <+: l' ++ [b]) : l ++ [a] <+: l' ∨ l = l' ∧ a = b := by
  rw [List.prefix_concat_iff] at h
  rcases h with h | h
  · have := List.append_inj' h rfl
    simp at this
    exact .inr this
  · exact .inl h

theorem mem_set_waiters {l : List Waiter} {i : Nat} {w w' : Waiter} (h : w ∈ l.set i w') : w ∈ l ∨ w = w' := List.mem_or_eq_of_mem_set h

theorem step_inv {s s' : Sem} {a : Action} (h : Inv s) (ha : act s a = some (.ok s')) : Inv s' := by
  cases a with
  | increment v =>
    simp only [act, Option.some.injEq, Res.ok.injEq] at ha
    subst ha
    refine ⟨?_, ?_, fun hb => by simp [increment] at hb⟩
    · simp only [increment, total_append, total_inc, h.counter, ofInt_add_nat]
    · intro l u hp
      rcases prefix_snoc hp with hp | ⟨_, hp⟩
      · exact h.returned l u hp
      · cases hp
  | decrement v =>
    simp only [act, Option.some.injEq] at ha
    unfold decrement at ha
    split at ha
    · cases ha
      refine ⟨?_, ?_, fun hb => by simp at hb⟩
      · simp only [total_append, total_dec, h.counter, ofInt_sub_nat]
      · intro l u hp
        rcases prefix_snoc hp with hp | ⟨_, hp⟩
        · exact h.returned l u hp
        · cases hp
    · cases ha
  | broadcast =>
    simp only [act] at ha
    split at ha
    · cases ha
      refine ⟨h.counter, h.returned, fun _ w hw hs => ?_⟩
      simp only [List.mem_map] at hw
      obtain ⟨w', _, rfl⟩ := hw
      unfold wake at hs
      split at hs
      · cases hs
      · rename_i hn; exact absurd hs hn
    · cases ha
  | wait v =>
    simp only [act, Option.some.injEq, Res.ok.injEq] at ha
    subst ha
    refine ⟨h.counter, h.returned, fun hb w hw hs => ?_⟩
    simp only [List.mem_append, List.mem_singleton] at hw
    rcases hw with hw | rfl
    · exact h.pending hb w hw hs
    · cases hs
  | check i =>
    simp only [act, Option.bind_eq_some_iff] at ha
    obtain ⟨w, hw, ha⟩ := ha
    split at ha
    · cases ha
      unfold check
      split
      · rename_i hc
        refine ⟨?_, ?_, fun hb u hu hs => ?_⟩
        · simp only [total_append, total_ret, Int.add_zero]; exact h.counter
        · intro l u hp
          rcases prefix_snoc hp with hp | ⟨rfl, he⟩
          · exact h.returned l u hp
          · rw [← h.counter, hc]; exact (Event.returned.inj he).symm
        · rcases mem_set_waiters hu with hu | rfl
          · exact h.pending hb u hu hs
          · cases hs
      · rename_i hc
        refine ⟨h.counter, h.returned, fun hb u hu hs => ?_⟩
        rcases mem_set_waiters hu with hu | rfl
        · exact h.pending hb u hu hs
        · exact fun e => hc e.symm
    · cases ha
  | spurious i =>
    simp only [act, Option.bind_eq_some_iff] at ha
    obtain ⟨w, hw, ha⟩ := ha
    split at ha
    · rename_i hp
      cases ha
      refine ⟨h.counter, h.returned, fun hb u hu hs => ?_⟩
      rcases mem_set_waiters hu with hu | rfl
      · exact h.pending hb u hu hs
      · rw [wake, if_pos hp] at hs; cases hs
    · cases ha

theorem reach_inv {s : Sem} (h : Reach s) : Inv s := by
  induction h with
  | init => exact ⟨rfl, fun l v hp => by simp [init] at hp, fun _ w hw => by simp [init] at hw⟩
  | step _ ha ih => exact step_inv ih ha

theorem small_prefix {l l' : List Event} (h : Small l') (hp : l <+: l') : Small l :=
  ⟨fun e he => h.1 e (hp.subset he), fun _ hl => h.2 _ (hl.trans hp)⟩

theorem toInt_ofInt_small {x : Int} (h0 : 0 ≤ x) (h : x < 2 ^ 31) : (BitVec.ofInt 32 x).toInt = x := by
  rw [BitVec.toInt_ofInt, Int.bmod_def]
  have : x % (2 ^ 32 : Nat) = x := Int.emod_eq_of_lt h0 (by omega)
  rw [this, if_pos (by omega)]

theorem toInt_small {v : BitVec 32} (h : v.toNat < 2 ^ 31) : v.toInt = v.toNat := by
  rw [BitVec.toInt_eq_toNat_cond, if_pos (by omega)]

/-- The log only grows. -/
theorem step_log {s s' : Sem} {a : Action} (ha : act s a = some (.ok s')) : s.log <+: s'.log := by
  cases a with
  | increment v => simp only [act, Option.some.injEq, Res.ok.injEq] at ha; subst ha; exact List.prefix_append _ _
  | decrement v =>
    simp only [act, Option.some.injEq] at ha
    unfold decrement at ha
    split at ha <;> cases ha
    exact List.prefix_append _ _
  | broadcast =>
    simp only [act] at ha
    split at ha <;> cases ha
    exact List.prefix_refl _
  | wait v => simp only [act, Option.some.injEq, Res.ok.injEq] at ha; subst ha; exact List.prefix_refl _
  | check i =>
    simp only [act, Option.bind_eq_some_iff] at ha
    obtain ⟨w, hw, ha⟩ := ha
    split at ha
    · cases ha
      unfold check; split
      · exact List.prefix_append _ _
      · exact List.prefix_refl _
    · cases ha
  | spurious i =>
    simp only [act, Option.bind_eq_some_iff] at ha
    obtain ⟨w, hw, ha⟩ := ha
    split at ha <;> cases ha
    exact List.prefix_refl _

theorem reach_nonneg {s : Sem} (h : Reach s) (hs : Small s.log) : ∀ l, l <+: s.log → 0 ≤ total l := by
  induction h with
  | init => intro l hl; simp [init] at hl; subst hl; simp
  | @step s a s' hr ha ih =>
    have ih := ih (small_prefix hs (step_log ha))
    have hnn := ih s.log (List.prefix_refl _)
    have hlt := hs.2 s.log (step_log ha)
    have inv := reach_inv hr
    have key : ∀ e : Event, s'.log = s.log ++ [e] → 0 ≤ total s.log + total [e] → ∀ l, l <+: s'.log → 0 ≤ total l := by
      intro e he h0 l hl
      rw [he, List.prefix_concat_iff] at hl
      rcases hl with rfl | hl
      · rw [total_append]; exact h0
      · exact ih l hl
    have same : s'.log = s.log → ∀ l, l <+: s'.log → 0 ≤ total l := fun e => by rw [e]; exact ih
    cases a with
    | increment v =>
      simp only [act, Option.some.injEq, Res.ok.injEq] at ha
      subst ha
      exact key _ rfl (by rw [total_inc]; omega)
    | decrement v =>
      simp only [act, Option.some.injEq] at ha
      unfold decrement at ha
      split at ha
      · rename_i hge
        cases ha
        have hv : v.toNat < 2 ^ 31 := hs.1 (.decrement v) (by simp)
        rw [toInt_small hv, inv.counter, toInt_ofInt_small hnn hlt] at hge
        exact key _ rfl (by rw [total_dec]; omega)
      · cases ha
    | broadcast =>
      simp only [act] at ha
      split at ha <;> cases ha
      exact same rfl
    | wait v => simp only [act, Option.some.injEq, Res.ok.injEq] at ha; subst ha; exact same rfl
    | check i =>
      simp only [act, Option.bind_eq_some_iff] at ha
      obtain ⟨w, hw, ha⟩ := ha
      split at ha
      · cases ha
        unfold check; split
        · rename_i hc
          have := key (.returned w.value) (by simp [check, hc]) (by rw [total_ret]; omega)
          simpa [check, hc] using this
        · exact ih
      · cases ha
    | spurious i =>
      simp only [act, Option.bind_eq_some_iff] at ha
      obtain ⟨w, hw, ha⟩ := ha
      split at ha <;> cases ha
      exact same rfl

/-- How many callers are not asleep. -/
def up (l : List Waiter) : Nat := l.countP fun w => w.pc = .entering ∨ w.pc = .awake

def measure (s : Sem) : Nat := s.broadcasts * (s.waiters.length + 1) + up s.waiters

theorem up_set {l : List Waiter} {i : Nat} {w w' : Waiter} (hi : l[i]? = some w) (hw : w.pc = .entering ∨ w.pc = .awake)
    (hw' : ¬ (w'.pc = .entering ∨ w'.pc = .awake)) : up l = up (l.set i w') + 1 := by
  induction l generalizing i with
  | nil => simp at hi
  | cons x l ih =>
    cases i with
    | zero =>
      simp only [List.getElem?_cons_zero, Option.some.injEq] at hi
      subst hi
      simp [up, hw, hw']
    | succ i =>
      have := ih (i := i) (by simpa using hi)
      simp only [up, List.set_cons_succ, List.countP_cons] at this ⊢
      omega

theorem step_measure {s s' : Sem} {a : Action} (hi : a.internal) (ha : act s a = some (.ok s')) : measure s' < measure s := by
  cases a with
  | broadcast =>
    simp only [act] at ha
    split at ha
    · cases ha
      simp only [measure, List.length_map]
      have : up (s.waiters.map wake) ≤ s.waiters.length := by
        have := List.countP_le_length (p := fun w : Waiter => decide (w.pc = .entering ∨ w.pc = .awake)) (l := s.waiters.map wake)
        simpa [up] using this
      obtain ⟨b, hb⟩ : ∃ b, s.broadcasts = b + 1 := ⟨s.broadcasts - 1, by omega⟩
      rw [hb, Nat.add_mul]
      simp only [Nat.add_sub_cancel]
      omega
    · cases ha
  | check i =>
    simp only [act, Option.bind_eq_some_iff] at ha
    obtain ⟨w, hw, ha⟩ := ha
    split at ha
    · rename_i hp
      cases ha
      unfold check
      split
      · have := up_set (w' := { w with pc := .returned }) hw hp (by simp)
        simp only [measure, List.length_set]; omega
      · have := up_set (w' := { w with pc := .asleep }) hw hp (by simp)
        simp only [measure, List.length_set]; omega
    · cases ha
  | _ => cases hi

end Sem
end Duck
