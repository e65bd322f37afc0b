import Verif.Lemmas.NodePool
/-! C13: the node pool never hands out a node that is in use. -/
namespace Duck
namespace NodePool
variable {P : Type} {zero : P}

/-- **C13.** In every history, an allocation succeeds and returns a node inside one of the pool's blocks, zeroed, and
    different from every node in use. -/
theorem C13_alloc_fresh {s : Pool P} {live : Live P} (h : Reach zero s live) :
    ∃ s' a, alloc zero s = some (s', a) ∧ live a = none ∧ InBlocks s' a ∧ s'.mem a = ⟨none, zero⟩ := by
  obtain ⟨fl, h⟩ := reach_inv h
  obtain ⟨s', a, fl', h1, h2, h3, h4, _⟩ := alloc_spec zero h
  exact ⟨s', a, h1, h2, h3, h4⟩

/-- **C13.** Nodes in use keep what their holder put there, whatever is allocated, freed or grown meanwhile; they never
    lie outside the pool's blocks. -/
theorem C13_live_untouched {s : Pool P} {live : Live P} (h : Reach zero s live) (a : Addr) (c : Content P)
    (ha : live a = some c) : s.mem a = c ∧ InBlocks s a := by
  obtain ⟨fl, h⟩ := reach_inv h
  exact ⟨h.mem a c ha, h.blocksLive a (by simp [ha])⟩

/-- **C13.** A freed node is available again: the next allocation returns it. -/
theorem C13_free_reusable {s : Pool P} {live : Live P} (h : Reach zero s live) (a : Addr) (ha : live a ≠ none) :
    ∃ s', alloc zero (free s a) = some (s', a) := by
  obtain ⟨fl, h⟩ := reach_inv h
  obtain ⟨s', b, fl', h1, _, _, _, _, h2⟩ := alloc_spec zero (free_spec h ha)
  rw [h2 a fl rfl] at h1
  exact ⟨s', h1⟩

/-- **C13.** The pool grows only when every node of its blocks is in use. -/
theorem C13_no_leak {s s' : Pool P} {live : Live P} (h : Reach zero s live) (a : Addr) (ha : alloc zero s = some (s', a))
    (hg : s'.blocks ≠ s.blocks) (b : Addr) (hb : InBlocks s b) : live b ≠ none := by
  obtain ⟨fl, h⟩ := reach_inv h
  rcases h.all b hb with h1 | h1
  · exfalso
    cases fl with
    | nil => simp at h1
    | cons x t =>
      have := h.chain.1
      simp [alloc, this] at ha
      rw [← ha.1] at hg; exact hg rfl
  · exact h1

/-- A history: allocate twice, write, free the first; then the next allocation reuses it. -/
example : ∃ (s s1 s2 : Pool Nat) (a b : Addr) (live : Live Nat), alloc 0 (init (fun _ => ⟨none, 77⟩) 0) = some (s1, a) ∧
    alloc 0 s1 = some (s2, b) ∧ s = free { s2 with mem := store s2.mem b ⟨some a, 5⟩ } a ∧
    a = (0, 31) ∧ b = (0, 30) ∧ Reach 0 s live ∧ live b = some ⟨some a, 5⟩ := by
  refine ⟨_, _, _, (0, 31), (0, 30), _, rfl, rfl, rfl, rfl, rfl,
    .free (.write _ (.alloc (.alloc (.init _ 0) rfl) rfl) ?_) ?_, ?_⟩ <;> simp [Live.set, init]

end NodePool
end Duck
