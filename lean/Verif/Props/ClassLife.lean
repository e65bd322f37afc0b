import Verif.Lemmas.ClassLife

/-
C110: classes live as long as they are needed.
-/

namespace Duck
namespace ClassLife

/-- Nothing that was freed is touched: after any legal history, whatever legal call, or step of a finalization, comes next, it
    succeeds. -/
theorem C110_safe (z : Bool) (ops : List Op) (l : Ledger) (s : State) (h : History z ops l s) (op : Op) (hl : Legal l s op) :
    ∃ s', step z s op = some s' := by
  obtain ⟨s', h1, _⟩ := step_inv z l s (history_inv z ops l s h) op hl
  exact ⟨s', h1⟩

/-- A class is there exactly as long as it is needed: while the client owns a reference to it, while an instance of it has not been
    freed, or while it is the superclass of a class that is needed. -/
theorem C110_lifetime (z : Bool) (ops : List Op) (l : Ledger) (s : State) (h : History z ops l s) (c : Nat) :
    s.alive c ↔ Needed l s.there c :=
  ⟨alive_needed l s (history_inv z ops l s h) s.classes.length c (by omega), needed_alive l s (history_inv z ops l s h) c⟩

/-- A class is finalized once, and only when it is no longer needed. -/
theorem C110_class_once (z : Bool) (ops : List Op) (l : Ledger) (s : State) (h : History z ops l s) (c : Nat) (hc : c < l.nc) :
    (Needed l s.there c → s.fins.count c = 0) ∧ (¬ Needed l s.there c → s.fins.count c = 1) := by
  have hi := history_inv z ops l s h
  have hlt : c < s.classes.length := by rw [hi.nc]; exact hc
  have hk := List.getElem?_eq_getElem hlt
  have hf := hi.fins c _ hk
  rw [← C110_lifetime z ops l s h c]
  constructor
  · intro ⟨k, hk', hr⟩
    rw [hk] at hk'
    cases hk'
    rw [hf, if_neg hr]
  · intro hn
    rw [hf, if_pos]
    apply Classical.byContradiction
    intro hr
    exact hn ⟨_, hk, hr⟩

/-- An instance of a class that counts references is live exactly while the client owns a reference to it; an instance of another
    class is live for ever. -/
theorem C110_objects (z : Bool) (ops : List Op) (l : Ledger) (s : State) (h : History z ops l s) (o : Nat) (ho : o < l.no) :
    (l.counted (l.isa o) = true → ((∃ n, s.obj o = some (.live n)) ↔ 0 < l.ownO o)) ∧
      (l.counted (l.isa o) = false → ∃ n, s.obj o = some (.live n)) := by
  have hi := history_inv z ops l s h
  have hlt : o < s.objects.length := by rw [hi.no]; exact ho
  have hx := List.getElem?_eq_getElem hlt
  have hob : s.obj o = some (s.objects[o]).st := by simp [State.obj, hlt]
  have hok := hi.obj o _ hx
  have hcnt := hi.ocnt o _ hx
  rw [(hi.isa o _ hx).1] at hcnt
  unfold ObjOk at hok
  refine ⟨fun hc => ⟨?_, ?_⟩, fun hc => ?_⟩
  · intro ⟨n, hn⟩
    rw [hob] at hn
    cases hn' : (s.objects[o]).st with
    | live m =>
      rw [hn'] at hok
      rw [← hok.2.1 (by rw [hcnt, hc])]
      exact hok.1
    | dying m => rw [hn'] at hn; cases hn
    | gone => rw [hn'] at hn; cases hn
    | zombie => rw [hn'] at hn; cases hn
  · intro hpos
    obtain ⟨x, n, h1, h2, _⟩ := own_obj l s hi o hpos
    exact ⟨n, by simp [State.obj, h1, h2]⟩
  · rw [hob]
    cases hn' : (s.objects[o]).st with
    | live m => exact ⟨m, rfl⟩
    | dying m => rw [hn'] at hok; rw [hcnt, hc] at hok; cases hok.1.1
    | gone => rw [hn'] at hok; rw [hcnt, hc] at hok; cases hok.1.1
    | zombie => rw [hn'] at hok; rw [hcnt, hc] at hok; cases hok.1.1

/-- The finalizers called for an object are those of its class and of the superclasses, from the most derived on, each once: none
    as long as the object is live, some first ones while it is being finalized, and all when it has been. -/
theorem C110_finalizers (z : Bool) (ops : List Op) (l : Ledger) (s : State) (h : History z ops l s) (o : Nat) (ho : o < l.no) :
    ∃ chain, Chain l.super (some (l.isa o)) chain ∧
      (∀ n, s.obj o = some (.live n) → s.callsOf o = []) ∧
      (∀ next, s.obj o = some (.dying next) → ∃ rest, Chain l.super next rest ∧ chain = s.callsOf o ++ rest) ∧
      (s.obj o = some .gone → s.callsOf o = chain) ∧ (s.obj o = some .zombie → s.callsOf o = chain) := by
  have hi := history_inv z ops l s h
  have hlt : o < s.objects.length := by rw [hi.no]; exact ho
  have hx := List.getElem?_eq_getElem hlt
  have hob : s.obj o = some (s.objects[o]).st := by simp [State.obj, hlt]
  have hok := hi.obj o _ hx
  obtain ⟨hisa, hnc⟩ := hi.isa o _ hx
  rw [hob]
  unfold ObjOk at hok
  rw [hisa] at hok hnc
  cases hst : (s.objects[o]).st with
  | live n =>
    rw [hst] at hok
    obtain ⟨xs, hxs⟩ := chain_total l s hi _ hnc
    exact ⟨xs, hxs, fun _ _ => hok.2.2, by simp, by simp, by simp⟩
  | dying next =>
    rw [hst] at hok
    obtain ⟨_, rest, h1, h2⟩ := hok
    refine ⟨_, h2, by simp, ?_, by simp, by simp⟩
    intro n hn
    simp at hn
    subst hn
    exact ⟨rest, h1, rfl⟩
  | gone =>
    rw [hst] at hok
    exact ⟨_, hok.2, by simp, by simp, by simp, by simp⟩
  | zombie =>
    rw [hst] at hok
    exact ⟨_, hok.2, by simp, by simp, by simp, by simp⟩

/-- A finalization that has begun ends: after a call for each class of the chain the object is freed, or, when zombies were asked
    for, may be a zombie. -/
theorem C110_progress (z : Bool) (ops : List Op) (l : Ledger) (s : State) (h : History z ops l s) (o : Nat) (next : Option Nat)
    (ho : s.obj o = some (.dying next)) :
    ∃ (m : Nat) (s' : State), runFrom z s (List.replicate m (.finalize o)) = some s' ∧
      (s'.obj o = some .gone ∨ (z = true ∧ s'.obj o = some .zombie)) := by
  have hi := history_inv z ops l s h
  have ho' := ho
  simp only [State.obj, Option.map_eq_some_iff] at ho'
  obtain ⟨x, hx, hst⟩ := ho'
  have hok := hi.obj o x hx
  unfold ObjOk at hok
  rw [hst] at hok
  obtain ⟨_, rest, h1, _⟩ := hok
  obtain ⟨s', h2, h3⟩ := progress z l o next rest h1 s hi ho
  exact ⟨rest.length + 1, s', h2, h3⟩

/-- Nothing leaks: when zombies were not asked for, every class counts the references to its instances, no finalization is going
    on and the client owns nothing, then all objects were freed, and all classes deallocated. -/
theorem C110_no_leak (ops : List Op) (l : Ledger) (s : State) (h : History false ops l s)
    (hcounted : ∀ c, c < l.nc → l.counted c = true) (hc : ∀ c, l.ownC c = 0) (ho : ∀ o, l.ownO o = 0)
    (hd : ∀ o next, s.obj o ≠ some (.dying next)) :
    (∀ o, o < l.no → s.obj o = some .gone) ∧ (∀ c, c < l.nc → s.fins.count c = 1) := by
  have hi := history_inv false ops l s h
  have hgone : ∀ o, o < l.no → s.obj o = some .gone := by
    intro o hlt
    have hl : o < s.objects.length := by rw [hi.no]; exact hlt
    have hx := List.getElem?_eq_getElem hl
    have hob : s.obj o = some (s.objects[o]).st := by simp [State.obj, hl]
    obtain ⟨hisa, hnc⟩ := hi.isa o _ hx
    have hobj := (C110_objects false ops l s h o hlt).1 (hcounted _ (by rw [← hisa]; exact hnc))
    have hz := no_zombies ops l s h _ (List.getElem_mem hl)
    cases hst : (s.objects[o]).st with
    | live n =>
      have := hobj.mp ⟨n, by rw [hob, hst]⟩
      have := ho o
      omega
    | dying n => exact absurd (by rw [hob, hst]) (hd o n)
    | gone => rw [hob, hst]
    | zombie => exact absurd hst hz
  refine ⟨hgone, fun c hlt => (C110_class_once false ops l s h c hlt).2 ?_⟩
  intro hn
  clear hlt
  induction hn with
  | own c h => have := hc c; omega
  | inst o h1 h2 =>
    obtain ⟨t, h3, h4⟩ := h2
    rw [hgone o h1] at h3
    cases h3
    exact h4 rfl
  | sub d c _ _ ih => exact ih

/-- With zombies it may leak: the client owns nothing, no finalization is going on, and yet the class is there. -/
theorem C110_zombies_keep_classes : ∃ (ops : List Op) (l : Ledger) (s : State), History true ops l s ∧
    (∀ c, l.ownC c = 0) ∧ (∀ o, l.ownO o = 0) ∧ (∀ o next, s.obj o ≠ some (.dying next)) ∧ s.alive 0 := by
  let ops : List Op := [.newClass none true true, .alloc 0, .releaseClass 0, .release 0, .finalize 0, .finalize 0]
  refine ⟨ops, _, _, checked_history true ops [] .empty _ start _ .start rfl, ?_, ?_, ?_, ⟨_, rfl, by decide⟩⟩
  · intro c
    cases c <;> simp [Ledger.step, Ledger.empty, upd]
  · intro o
    cases o <;> simp [Ledger.step, Ledger.empty, upd]
  · intro o next
    cases o <;> simp [State.obj, start]

/-! ### Examples -/

/-- A class, a subclass, an instance of the subclass; the client releases both classes, and then the object. -/
def sampleOps : List Op :=
  [.newClass none true false, .newClass (some 0) true false, .alloc 1, .releaseClass 0, .releaseClass 1, .release 0, .finalize 0]

/-- In the middle of the finalization both classes are there, though the client owns neither; the finalizer of the subclass was
    called. -/
example : ∃ l s, History false sampleOps l s ∧ l.ownC 0 = 0 ∧ l.ownC 1 = 0 ∧ s.obj 0 = some (.dying (some 0)) ∧ s.alive 0 ∧
    s.alive 1 ∧ s.callsOf 0 = [1] ∧ s.fins = [] ∧ Legal l s (.finalize 0) ∧ Legal l s (.alloc 0) := by
  have h := checked_history false sampleOps [] .empty _ start _ .start rfl
  refine ⟨_, _, h, rfl, rfl, rfl, ⟨_, rfl, by decide⟩, ⟨_, rfl, by decide⟩, by decide, rfl, ⟨_, rfl⟩, ?_⟩
  exact (C110_lifetime false _ _ _ h 0).mp ⟨_, rfl, by decide⟩

/-- At its end the object and both classes are gone, the subclass first. -/
example : ∃ l s, History false (sampleOps ++ [.finalize 0, .finalize 0]) l s ∧ s.obj 0 = some .gone ∧ s.callsOf 0 = [1, 0] ∧
    s.fins = [1, 0] ∧ ¬ s.alive 0 ∧ (∀ c, l.ownC c = 0) ∧ (∀ o, l.ownO o = 0) := by
  have h := checked_history false (sampleOps ++ [.finalize 0, .finalize 0]) [] .empty _ start _ .start rfl
  refine ⟨_, _, h, rfl, by decide, rfl, ?_, ?_, ?_⟩
  · rintro ⟨k, hk, hr⟩
    simp [Cls.withRefs] at hk
    subst hk
    exact hr rfl
  · intro c
    rcases c with _ | _ | c <;> simp [Ledger.step, Ledger.empty, upd]
  · intro o
    cases o <;> simp [Ledger.step, Ledger.empty, upd]

/-- An instance of a class that does not count references. -/
example : ∃ l s, History false [.newClass none false false, .alloc 0, .releaseClass 0, .release 0] l s ∧ l.ownO 0 = 0 ∧
    s.obj 0 = some (.live 1) ∧ s.alive 0 := by
  have h := checked_history false [.newClass none false false, .alloc 0, .releaseClass 0, .release 0] [] .empty _ start _ .start rfl
  exact ⟨_, _, h, rfl, rfl, ⟨_, rfl, by decide⟩⟩

end ClassLife
end Duck
