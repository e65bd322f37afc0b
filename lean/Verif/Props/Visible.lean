import Verif.Lemmas.Visible
/-! C119: a shared object that an accessor has returned is complete, as the thread sees it. -/
namespace Duck
namespace Visible

/-- C119, on machines whose writes are seen in the order in which they were made: whoever the accessor has returned the object to sees every field of it written, in every execution of any number of callers.
    Missing: machines with another order (`C119_order_fails`). -/
theorem C119_visible_partial {n : Nat} {as : List Action} {s : State} (h : run .inOrder n init as = some s) {i : Nat} {c : Caller} (hc : s.callers[i]? = some c) {r : Option Nat} (hp : c.pc = .done r) :
    ∃ o, r = some o ∧ ∀ k, k < n → readField s c o k = true := by
  obtain ⟨hi, ho⟩ := run_inv as (inv_init n) h
  have ho := ho rfl (invO_init n)
  refine ⟨0, hi.done i c hc r hp, fun k hk => ?_⟩
  rw [readField_iff]
  exact .inr (ho.seen (hi.after i c hc r (.inr hp)) k hk)

/-- C119, on any machine: one object is created, and every call returns it. -/
theorem C119_one {order : Order} {n : Nat} {as : List Action} {s : State} (h : run order n init as = some s) :
    s.allocated ≤ 1 ∧ ∀ {i j : Nat} {c d : Caller} {r q : Option Nat}, s.callers[i]? = some c → s.callers[j]? = some d → c.pc = .done r → d.pc = .done q → r = q ∧ r ≠ none := by
  obtain ⟨hi, -⟩ := run_inv as (inv_init n) h
  refine ⟨hi.once, fun {i j c d r q} hc hd hp hq => ?_⟩
  rw [hi.done i c hc r hp, hi.done j d hd q hq]
  exact ⟨rfl, fun e => nomatch e⟩

/-- C119, on any machine: once the object has been stored and the lock released, everyone who has it, then or later, sees every field of it written. -/
theorem C119_released {order : Order} {n : Nat} {as bs : List Action} {s s' : State} (h : run order n init as = some s) (hl : s.lock = none) (hs : s.shared ≠ none) (h' : run order n s bs = some s')
    {i : Nat} {c : Caller} (hc : s'.callers[i]? = some c) {r : Option Nat} (hp : c.pc = .done r) : ∃ o, r = some o ∧ ∀ k, k < n → readField s' c o k = true := by
  obtain ⟨hi, -⟩ := run_inv as (inv_init n) h
  obtain ⟨hi', -⟩ := run_inv bs hi h'
  have h0 : s.shared = some 0 := by
    cases e : s.shared with
    | none => exact absurd e hs
    | some o => rw [hi.shared o e]
  have hf : ∀ k, k < n → s.field 0 k = true := by
    rcases hi.seen h0 with h1 | ⟨j, d, hd, hu⟩
    · exact h1
    · have := hi.locks j d hd (by rw [hu]; trivial)
      rw [hl] at this; cases this
  refine ⟨0, hi'.done i c hc r hp, fun k hk => ?_⟩
  rw [readField_iff]
  exact .inr (run_field bs h' (hf k hk))

/-- C119 is false of machines whose writes are seen in any order: whatever the number of fields, a caller can be given the object before it sees a single field written. -/
theorem C119_order_fails (n : Nat) : ∃ as s c, run .anyOrder n init as = some s ∧ s.callers[1]? = some c ∧ c.pc = .done (some 0) ∧ ∀ k, readField s c 0 k = false := by
  refine ⟨[.call, .call, .step 0, .step 0, .step 0, .step 0] ++ (List.replicate n (.step 0) ++ [.step 0, .step 0, .commit 0 n, .step 1, .step 1]),
    ⟨some 0, some 0, fun _ _ => false, 1, [⟨.unlock, (List.range n).map (.field 0)⟩, ⟨.done (some 0), []⟩]⟩, ⟨.done (some 0), []⟩, ?_, rfl, rfl, fun _ => rfl⟩
  have h1 : run .anyOrder n init [.call, .call, .step 0, .step 0, .step 0, .step 0] = some (filling 0) := rfl
  have he : ((List.range n).map (Write.field 0) ++ [Write.pointer 0]).eraseIdx n = (List.range n).map (.field 0) := by
    rw [List.eraseIdx_append_of_length_le (by simp)]; simp
  rw [run_append, h1, Option.bind_some, run_append, run_filling .anyOrder n n (Nat.le_refl _), Option.bind_some]
  simp [run, act, filling, step, put, commit, apply, he, readPointer, ownPointer]

/-- The same calls on a machine with order: the second caller gets the object when all its fields are in memory. -/
example : ∃ as s c, run .inOrder 2 init as = some s ∧ s.callers[1]? = some c ∧ c.pc = .done (some 0) ∧ s.lock = some 0 :=
  ⟨[.call, .call, .step 0, .step 0, .step 0, .step 0, .step 0, .step 0, .step 0, .step 0, .commit 0 0, .commit 0 0, .commit 0 0, .step 1, .step 1], _, _, rfl, rfl, rfl, rfl⟩

/-- `C119_released` is not empty: the creator has finished. -/
example : ∃ as s, run .anyOrder 2 init as = some s ∧ s.lock = none ∧ s.shared ≠ none :=
  ⟨[.call, .step 0, .step 0, .step 0, .step 0, .step 0, .step 0, .step 0, .step 0, .commit 0 2, .commit 0 1, .commit 0 0, .step 0], _, rfl, rfl, fun e => nomatch e⟩

end Visible
end Duck
