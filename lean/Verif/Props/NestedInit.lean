import Verif.Lemmas.NestedInit
/-! C118: accessors that create their object when first called, and call each other while they do, never deadlock. -/
namespace Duck
namespace Nested
variable {A : Type} [DecidableEq A]

/-- C118: whatever the threads and their calls, there is a bound on the number of steps of every execution: no thread goes round for ever. -/
theorem C118_ends {needs : A → List A} (ha : Acyclic needs) (progs : List (List A)) : ∃ bound, ∀ is s, run needs (init progs) is = some s → is.length ≤ bound := by
  obtain ⟨rank, hn⟩ := ha
  refine ⟨stateW needs rank (init progs), fun is s h => ?_⟩
  have := (run_inv hn is (inv_init rank progs) h).2.2
  omega

/-- C118: when no thread can make another step, it is because each has made all its calls, and every call has returned the one object of its accessor: no thread waits for another that waits. -/
theorem C118_stuck {needs : A → List A} (ha : Acyclic needs) (progs : List (List A)) {is : List Nat} {s : State A} (h : run needs (init progs) is = some s) (hs : ∀ i, step needs s i = none) :
    s.threads.length = progs.length ∧ ∀ (i : Nat) t p, s.threads[i]? = some t → progs[i]? = some p → Finished t p := by
  obtain ⟨rank, hn⟩ := ha
  obtain ⟨hi, hc, -⟩ := run_inv hn is (inv_init rank progs) h
  have hp : (init progs).threads.map calls = progs := by
    simp only [init, List.map_map]
    refine (List.map_congr_left (g := id) fun p _ => ?_).trans (List.map_id _)
    simp [calls]
  rw [hp] at hc
  refine ⟨by rw [← hc, List.length_map], fun i t p ht hq => ?_⟩
  have he : p = calls t := by
    rw [← hc, List.getElem?_map, ht] at hq
    exact (Option.some.inj hq).symm
  rcases stuck_top ht (hs i) with ⟨h1, h2⟩ | ⟨x, bl, h1, h2⟩
  · refine ⟨h1, h2, ?_⟩
    have hr := results_eq t.results fun x o ho => hi.results i x o (by unfold Res; rw [ht]; exact ho)
    rw [he]
    unfold calls
    rw [h1, h2]
    simpa using hr
  · exact (no_wait hi hs _ i t x bl ht h1 h2 (Nat.lt_succ_self _)).elim

/-- C118: no object is created twice, and whatever a call has returned is the first object created, at every moment of every execution. -/
theorem C118_once {needs : A → List A} (ha : Acyclic needs) (progs : List (List A)) {is : List Nat} {s : State A} (h : run needs (init progs) is = some s) :
    (∀ x, s.made x ≤ 1) ∧ ∀ t ∈ s.threads, ∀ x o, (x, o) ∈ t.results → o = some 1 := by
  obtain ⟨rank, hn⟩ := ha
  obtain ⟨hi, -, -⟩ := run_inv hn is (inv_init rank progs) h
  refine ⟨hi.once, fun t ht x o ho => ?_⟩
  obtain ⟨i, hi', e⟩ := List.mem_iff_getElem.mp ht
  exact hi.results i x o (by unfold Res; rw [List.getElem?_eq_getElem hi', e]; exact ho)

/-- C118: while an accessor creates its object, only the thread that creates it is inside; every other caller of it waits or has yet to look.  So nobody is given the object before it is complete. -/
theorem C118_alone {needs : A → List A} (ha : Acyclic needs) (progs : List (List A)) {is : List Nat} {s : State A} (h : run needs (init progs) is = some s)
    {i j : Nat} {t u : Thread A} (ht : s.threads[i]? = some t) (hu : s.threads[j]? = some u) {x : A} {ys : List A} (hf : ⟨x, .create ys⟩ ∈ t.stack) {pc : Pc A} (hg : ⟨x, pc⟩ ∈ u.stack) (hij : i ≠ j) :
    pc = .test ∨ pc = .lock := by
  obtain ⟨rank, hn⟩ := ha
  obtain ⟨hi, -, -⟩ := run_inv hn is (inv_init rank progs) h
  have ft : ⟨x, .create ys⟩ ∈ Frames s i := by unfold Frames; rw [ht]; exact hf
  have fu : ⟨x, pc⟩ ∈ Frames s j := by unfold Frames; rw [hu]; exact hg
  have l1 : s.lock x = some i := hi.locks i _ ft trivial
  have l2 : Crit pc → s.lock x = some j := hi.locks j _ fu
  have b := (hi.building i _ ft trivial).1
  have a := hi.after j _ fu
  have nc : ¬ Crit pc := fun hc => by rw [l2 hc] at l1; exact hij (Option.some.inj l1).symm
  cases pc with
  | test => exact .inl rfl
  | lock => exact .inr rfl
  | read => have := a trivial; rw [b] at this; cases this
  | retest => exact absurd trivial nc
  | create _ => exact absurd trivial nc
  | store => exact absurd trivial nc
  | unlock => exact absurd trivial nc

/-- How deep the calls of an accessor of the library go. -/
def depth : Accessor → Nat
  | .DKStringClass => 0
  | .DKConstantStringClass => 1
  | .DKArrayClass | .DKBinaryTreeClass | .DKBooleanClass | .DKMutableDataClass | .DKHashTableClass | .DKLinkedListClass | .DKVariableNumberClass | .DKMsgHandlerNotFound => 3
  | .DKMutableArrayClass | .DKMutableBinaryTreeClass | .DKMutableHashTableClass | .DKMutableLinkedListClass | .DKStringURLPercentEscapePatterns => 4
  | .PredicateOpLookupTable | .DKShellEncoders => 5
  | _ => 2

theorem accessors_acyclic : Acyclic needs := ⟨depth, fun x y hy => by cases x <;> revert y <;> decide⟩

/-- C118: so it is with the accessors of the library, in any number of threads that make any calls: every execution ends, with every call returned. -/
theorem C118_library (progs : List (List Accessor)) :
    (∃ bound, ∀ is s, run needs (init progs) is = some s → is.length ≤ bound) ∧
    ∀ is s, run needs (init progs) is = some s → (∀ x, s.made x ≤ 1) ∧ ((∀ i, step needs s i = none) → s.threads.length = progs.length ∧ ∀ (i : Nat) t p, s.threads[i]? = some t → progs[i]? = some p → Finished t p) :=
  ⟨C118_ends accessors_acyclic progs, fun _ _ h => ⟨(C118_once accessors_acyclic progs h).1, C118_stuck accessors_acyclic progs h⟩⟩

/-- C118: the order matters: an accessor that calls itself while it creates its object waits for ever, in a single thread. -/
theorem C118_self {needs : A → List A} {x : A} {ys : List A} (hx : needs x = x :: ys) :
    ∃ is s, run needs (init [[x]]) is = some s ∧ (∀ i, step needs s i = none) ∧ ∀ t ∈ s.threads, t.results = [] := by
  refine ⟨[0, 0, 0, 0, 0, 0], ⟨fun _ => none, upd (fun _ => none) x (some 0), upd (fun _ => 0) x 1, [⟨[⟨x, .lock⟩, ⟨x, .create ys⟩], [], []⟩]⟩, ?_, ?_, ?_⟩
  · simp [run, step, threadStep, frameStep, init, goto, hx]
  · intro i
    cases i with
    | zero => simp [step, threadStep, frameStep, upd]
    | succ i => simp [step]
  · intro t ht
    rw [List.mem_singleton] at ht
    subst ht; rfl

/-- Two threads ask for the classes of mutable data, constant strings and data: they wait for each other's objects now and then, and both end. -/
example : ∃ is s, run needs (init [[.DKMutableDataClass], [.DKConstantStringClass, .DKDataClass]]) is = some s ∧ (∀ i, i < 2 → step needs s i = none) ∧
    s.threads.map (·.results) = [[(.DKMutableDataClass, some 1)], [(.DKConstantStringClass, some 1), (.DKDataClass, some 1)]] :=
  ⟨[0, 1, 0, 1, 0, 1, 0, 1, 0, 1, 0, 1, 1, 1, 1, 1, 1, 1, 1, 1, 1, 0, 1, 0, 1, 0, 1, 0, 1, 0, 1, 0, 1, 1, 1, 1, 1, 1, 0, 1, 0, 0, 0, 0, 0, 0, 0], _, rfl, fun i h => match i, h with | 0, _ => rfl | 1, _ => rfl, rfl⟩

/-- Two accessors that call each other: each thread has one lock and waits for the other. -/
example : ∃ is s, run (fun b : Bool => [!b]) (init [[true], [false]]) is = some s ∧ (∀ i, i < 2 → step (fun b : Bool => [!b]) s i = none) ∧ s.threads.map (·.results) = [[], []] :=
  ⟨[0, 1, 0, 1, 0, 1, 0, 1, 0, 1, 0, 1], _, rfl, fun i h => match i, h with | 0, _ => rfl | 1, _ => rfl, rfl⟩

end Nested
end Duck
