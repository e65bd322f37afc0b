import Verif.Lemmas.Memory
/-!
# C123: memory goes back where it came from, once

Programs that use any number of arrays, byte arrays, hash tables, node pools and objects, with the allocator of the C library or of their own (DKSetExternalAllocator).
-/
namespace Duck
namespace Memory

/-- A program with its own allocator: an array that grows, bytes that grow, a table that is enlarged and cleaned, a pool of two blocks, objects, memory of the program; everything is finalized. -/
def tour : List Action :=
  [.setAllocator true true, .start false, .new (.arr 8), .op 0 (.append 3), .op 0 (.replace 1 1 40), .op 0 .permute, .new .bytes, .op 1 (.append 70), .op 1 (.align 16), .op 1 (.setLength 5),
   .new (.table 16), .op 2 (.insert .empty), .op 2 (.insert .empty), .op 2 (.insert .empty), .op 2 (.remove true), .op 2 (.insert .deleted), .op 2 (.insert .empty), .op 2 (.insert .empty),
   .op 2 (.insert .empty), .op 2 .removeAll, .new (.pool 24 0), .op 3 .alloc, .op 3 .alloc, .op 3 (.free (6, 31)), .new (.externalArr 8 5), .op 4 .visit, .new (.object 32 10), .op 5 .visit, .new (.arr 200),
   .op 6 (.append 33), .op 6 .permute]

def ending : List Action := [.finalize 5, .finalize 0, .finalize 6, .finalize 3, .finalize 2, .finalize 1, .finalize 4]

/-- Every program that keeps the rules uses memory correctly: no block is freed twice or by another allocator, nothing but blocks of the allocator is freed, and every access is within a block that is not
    freed; the only call that does not return enlarges a table of the last size. -/
theorem C123_safe {as : List Action} (h : Keeps State.init as) :
    (∃ s, run State.init as = .ok s ∧ Safe s.mem.trace) ∨
      (run State.init as = .error .fatal ∧ ∃ bs s t, bs <+: as ∧ run State.init bs = .ok s ∧ some (.table t) ∈ s.containers ∧ 1675364863 ≤ t.rowCount) := by
  rcases run_ok Inv.init h with ⟨s, h1, h2⟩ | h1
  · exact .inl ⟨s, h1, h2.safe⟩
  · exact .inr h1

/-- What is not freed is what the containers that exist need, block by block. -/
theorem C123_exact {as : List Action} {s : State} (h : Keeps State.init as) (hz : .start true ∉ as) (hr : run State.init as = .ok s) :
    (outstanding s.mem.trace).Perm (s.containers.flatMap fun c => match c with | some c => footprint c | none => []) := by
  rcases run_ok Inv.init h with ⟨t, h1, h2⟩ | h1
  · rw [h1] at hr
    cases hr
    exact h2.sizes (run_undead Inv.init h hz rfl rfl h1)
  · rw [h1.1] at hr
    cases hr

/-- When everything is finalized, all memory has been given back. -/
theorem C123_returned {as : List Action} {s : State} (h : Keeps State.init as) (hz : .start true ∉ as) (hr : run State.init as = .ok s) (hf : ∀ c ∈ s.containers, c = none) :
    outstanding s.mem.trace = [] := by
  have := C123_exact h hz hr
  have he : (s.containers.flatMap fun c => match c with | some c => footprint c | none => []) = [] := by
    rw [List.flatMap_eq_nil_iff]
    intro c hc
    rw [hf c hc]
  rw [he] at this
  exact this.eq_nil

/-- Only the functions of the program are called, if it gave any; otherwise only those of the C library. -/
theorem C123_functions {as : List Action} {s : State} (h : Keeps State.init as) (hr : run State.init as = .ok s) {e : Event} (he : e ∈ s.mem.trace) {c : Bool} (hc : e.cb = some c) :
    c = functions false as := by
  rcases run_ok Inv.init h with ⟨t, h1, h2⟩ | h1
  · rw [h1] at hr
    cases hr
    exact (h2.ok.1.2.2 e he c hc).1
  · rw [h1.1] at hr
    cases hr

example : Keeps State.init (tour ++ ending) := keepsB_sound (by decide +kernel)
example : .start true ∉ tour ++ ending := by decide +kernel
example : functions false (tour ++ ending) = true := by decide +kernel
example : ((run State.init tour).toOption.map fun s => (outstanding s.mem.trace, s.mem.next)) = some ([6600, 42, 784, 272, 91, 336], 10) := by decide +kernel
example : ((run State.init (tour ++ ending)).toOption.map fun s => (s.mem.trace.length, s.containers.all (· == none), outstanding s.mem.trace)) = some (101, true, []) := by decide +kernel

/-- With zombies objects are kept, and nothing else. -/
theorem C123_zombies {as : List Action} {s : State} (h : Keeps State.init as) (hr : run State.init as = .ok s) (hf : ∀ c ∈ s.containers, c = none) :
    (outstanding s.mem.trace).Perm (s.undead.map fun o => o.structSize + o.extra) := by
  rcases run_ok Inv.init h with ⟨t, h1, h2⟩ | h1
  · rw [h1] at hr
    cases hr
    obtain ⟨_, _, _, l, h4, h5⟩ := h2.ok
    have he : allOwned s.containers = [] := by
      rw [allOwned, List.flatMap_eq_nil_iff]
      intro c hc
      rw [hf c hc]
    rw [he, List.nil_append] at h5
    simp only [outstanding, h4, Option.getD_some]
    refine (h5.map (·.2.1)).trans ?_
    have : ∀ l : List Object, (∀ o ∈ l, o.Inv) → ((l.flatMap Object.owns).map fun x => (x.1, x.2, functions false as)).map (·.2.1) = l.map fun o => o.structSize + o.extra := by
      intro l hl
      induction l with
      | nil => rfl
      | cons o l ih =>
        obtain ⟨b, hb⟩ := hl o (List.mem_cons_self ..)
        have ho : o.owns = [(b, o.structSize + o.extra)] := by simp [Object.owns, hb]
        simp only [List.flatMap_cons, ho, List.map_append, List.map_cons, List.map_nil, ih fun q hq => hl q (List.mem_cons_of_mem _ hq)]
        rfl
    rw [this _ h2.dead]
  · rw [h1.1] at hr
    cases hr

example : Keeps State.init [.start true, .new (.object 32 0), .new (.object 40 8), .new (.arr 8), .op 2 (.append 1), .finalize 0, .finalize 2, .finalize 1] := keepsB_sound (by decide +kernel)
example : ((run State.init [.start true, .new (.object 32 0), .new (.object 40 8), .new (.arr 8), .op 2 (.append 1), .finalize 0, .finalize 2, .finalize 1]).toOption.map fun s =>
    (outstanding s.mem.trace, s.undead.length)) = some ([48, 32], 2) := by decide +kernel

/-- The rules are needed: memory of the program that an array shows is freed when the array is changed (the assertion that forbids it is not compiled into release builds). -/
theorem C123_external_fails : ∃ as s, run State.init as = .ok s ∧ ¬ Safe s.mem.trace ∧ as = [.start false, .new (.externalArr 8 5), .op 0 (.append 1)] ∧ .free false (.caller 40) ∈ s.mem.trace := by
  refine ⟨_, _, rfl, ?_, rfl, ?_⟩
  · unfold Safe; decide +kernel
  · decide +kernel

/-- Only one of the two functions given: memory of one allocator is given to the other. -/
theorem C123_half_fails : ∃ s, run State.init [.setAllocator true false, .start false, .new (.arr 8), .op 0 (.append 1), .finalize 0] = .ok s ∧ ¬ Safe s.mem.trace :=
  ⟨_, rfl, by unfold Safe; decide +kernel⟩

/-- Functions given after an array was used: likewise, and nothing refuses the call before DKRuntimeInit. -/
theorem C123_late_fails : ∃ s, run State.init [.new (.arr 8), .op 0 (.append 1), .setAllocator true true, .start false, .finalize 0] = .ok s ∧ ¬ Safe s.mem.trace :=
  ⟨_, rfl, by unfold Safe; decide +kernel⟩

/-- After DKRuntimeInit the call is refused. -/
theorem C123_refused (s : State) (h : s.started = true) (m f : Bool) : step s (.setAllocator m f) = .error .fatal := by simp [step, h]

example : ((run State.init [.start false]).toOption.map fun s => s.started) = some true := by decide +kernel

end Memory
end Duck
