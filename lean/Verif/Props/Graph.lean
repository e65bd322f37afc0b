import Verif.Lemmas.GraphTraverse
import Verif.Props.BinaryTree
/-! C47, C48, C64: graph edges, traversal, shortest paths. -/
namespace Duck
namespace Graph
variable {V K : Type} [DecidableEq V] [DecidableEq K] (cls : V → K)

/-- **C47 (partial).** After any history, DKGraphGetEdge finds an edge between two vertices exactly if some call added it and no
    later call removed it, and the edge found joins these vertices.  (Partial: the second vertex is matched by identity.) -/
theorem C47_query_partial (h : List (Op V)) (a b : V) :
    ((getEdge cls (run cls h) a b).isSome ↔ Present cls h a b) ∧
      ∀ e, getEdge cls (run cls h) a b = some e → cls e.first = cls a ∧ e.second = b := by
  refine ⟨find_run cls h a b, ?_⟩
  intro e he
  have he' : scan b (edgesOf cls (run cls h) a) = some e := by rw [← findEdge_eq]; exact he
  obtain ⟨h1, h2⟩ := scan_some he'
  refine ⟨?_, h2⟩
  cases hm : (run cls h).map (cls a) with
  | none => simp [edgesOf, hm] at h1
  | some es => exact (wf_run cls h).first _ _ hm e (by simpa [edgesOf, hm] using h1)

example : let h : List (Op Nat) := [.remove 1 2 false, .add 1 2 true, .add 1 3 false]
    ((getEdge id (run id h) 1 2).isSome, (getEdge id (run id h) 2 1).isSome, (getEdge id (run id h) 1 3).isSome) = (false, true, true) := by decide

/-- **C47, the edge object.** An edge stays the same object under every call that does not remove it, in particular when it is
    added again. -/
theorem C47_stable (h : List (Op V)) (op : Op V) (a b : V) (e : Edge V) (he : getEdge cls (run cls h) a b = some e)
    (hop : ¬ Removes cls op a b) : getEdge cls (run cls (op :: h)) a b = some e := by
  simp only [getEdge] at *
  have w := wf_run cls h
  cases op with
  | add s t both =>
    simp only [run, step, addEdge]
    split
    · exact keep_findOrInsert cls _ _ _ _ _ (keep_findOrInsert cls _ _ _ _ _ he)
    · exact keep_findOrInsert cls _ _ _ _ _ he
  | remove s t both =>
    simp only [Removes, Names] at hop
    simp only [run, step, removeEdge]
    split
    · next hb =>
      rw [find_removeOne cls (wf_removeOne cls w s t), find_removeOne cls w, if_neg, if_neg, he]
      · exact fun hc => hop (.inl hc)
      · exact fun hc => hop (.inr ⟨hb, hc⟩)
    · rw [find_removeOne cls w, if_neg, he]
      exact fun hc => hop (.inl hc)
  | removeAll => exact absurd trivial hop
  | setInfo s t u => simp only [run, step]; rw [find_setInfo, he]

example : let h : List (Op Nat) := [.add 1 3 false, .add 1 2 true]
    (getEdge id (run id h) 1 3).map Edge.id = some 2 ∧
      (getEdge id (run id (.add 3 1 true :: .remove 1 2 false :: h)) 1 3).map Edge.id = some 2 := by decide

/-- **C47, the list of edges.** DKGraphGetEdges is NULL exactly if the vertex has no edges; otherwise it lists each of them once. -/
theorem C47_list (h : List (Op V)) (a : V) :
    (getEdges cls (run cls h) a = none ↔ ∀ b, ¬ Present cls h a b) ∧
      ∀ es, getEdges cls (run cls h) a = some es → (es.map Edge.second).Nodup ∧ (∀ b, b ∈ es.map Edge.second ↔ Present cls h a b) ∧
        ∀ e ∈ es, getEdge cls (run cls h) a e.second = some e := by
  have w := wf_run cls h
  have eq : ∀ es, getEdges cls (run cls h) a = some es → edgesOf cls (run cls h) a = es := by
    intro es he
    simp only [getEdges] at he
    simp [edgesOf, he]
  refine ⟨⟨?_, ?_⟩, ?_⟩
  · intro hn b hb
    obtain ⟨e, he, _⟩ := present_edge cls hb
    simp only [getEdges] at hn
    simp [edgesOf, hn] at he
  · intro hn
    cases hm : getEdges cls (run cls h) a with
    | none => rfl
    | some es =>
      cases es with
      | nil => exact absurd hm (w.nonempty _)
      | cons e es =>
        have := eq _ hm
        exact absurd (edge_present cls (e := e) (a := a) (h := h) (by rw [this]; simp)) (hn _)
  · intro es he
    refine ⟨w.nodup _ _ he, ?_, ?_⟩
    · intro b
      rw [List.mem_map]
      constructor
      · rintro ⟨e, hm, rfl⟩
        exact edge_present cls (by rw [eq es he]; exact hm)
      · intro hp
        obtain ⟨e, hm, rfl⟩ := present_edge cls hp
        exact ⟨e, by rw [← eq es he]; exact hm, rfl⟩
    · intro e hm
      exact (mem_edgesOf cls w a e).mp (by rw [eq es he]; exact hm)

example : ((getEdges id (run id ([.remove 1 2 false, .add 1 4 false, .add 1 2 true, .add 1 3 false] : List (Op Nat))) 1).map (·.map Edge.second),
    (getEdges id (run id ([.remove 1 2 true, .add 1 2 true] : List (Op Nat))) 2).map (·.map Edge.second)) = (some [3, 4], none) := by decide

/-- **C47, user information.** What is stored on an edge is what is read from it, it survives every call that neither removes the
    edge nor stores something else on it, and a new edge carries nothing. -/
theorem C47_info (h : List (Op V)) (a b : V) :
    (∀ u e, getEdge cls (run cls (.setInfo a b u :: h)) a b = some e → getInfo (run cls (.setInfo a b u :: h)) e = u) ∧
    (∀ op e, getEdge cls (run cls h) a b = some e → ¬ Removes cls op a b → (∀ s t u, op = .setInfo s t u → ¬ (cls s = cls a ∧ t = b)) →
      getInfo (run cls (op :: h)) e = getInfo (run cls h) e) ∧
    (∀ both e, ¬ Present cls h a b → getEdge cls (run cls (.add a b both :: h)) a b = some e → getInfo (run cls (.add a b both :: h)) e = none) := by
  have w := wf_run cls h
  have bound : ∀ (g : Graph V K), WF cls g → ∀ x y e, findEdge cls g x y = some e → e.id < g.next := by
    intro g w x y e he
    rw [findEdge_eq] at he
    have h1 := (scan_some he).1
    cases hm : g.map (cls x) with
    | none => simp [edgesOf, hm] at h1
    | some es => exact w.fresh _ _ hm e (by simpa [edgesOf, hm] using h1)
  have ins : ∀ (g : Graph V K), WF cls g → ∀ s t x y e, findEdge cls g x y = some e → (findOrInsert cls g s t).info e.id = g.info e.id := by
    intro g w s t x y e he
    have := bound g w x y e he
    unfold findOrInsert
    split
    · rfl
    · simp only [insertEdge, setMap]; rw [if_neg (by omega)]
  have rem : ∀ (g : Graph V K) s t, (removeOne cls g s t).info = g.info := by
    intro g s t
    unfold removeOne
    split
    · rfl
    · unfold dropEdge; split <;> rfl
  refine ⟨?_, ?_, ?_⟩
  · intro u e he
    simp only [getEdge, run, step] at he
    rw [find_setInfo] at he
    simp only [run, step, getInfo, setInfo, getEdge, he, if_true]
  · intro op e he hr hne
    simp only [getEdge] at he
    simp only [getInfo, run]
    cases op with
    | add s t both =>
      simp only [step, addEdge]
      split
      · rw [ins _ (wf_findOrInsert cls w s t) t s a b e (keep_findOrInsert cls _ _ _ _ _ he), ins _ w s t a b e he]
      · exact ins _ w s t a b e he
    | remove s t both =>
      simp only [step, removeEdge]
      split
      · rw [rem, rem]
      · rw [rem]
    | removeAll => rfl
    | setInfo s t u =>
      have hne := hne s t u rfl
      simp only [step, setInfo, getEdge]
      split
      · rfl
      · next e' he' =>
        simp only
        rw [if_neg]
        intro hid
        rw [findEdge_eq] at he he'
        obtain ⟨m1, s1⟩ := scan_some he
        obtain ⟨m2, s2⟩ := scan_some he'
        cases h1 : (run cls h).map (cls a) with
        | none => simp [edgesOf, h1] at m1
        | some es =>
          cases h2 : (run cls h).map (cls s) with
          | none => simp [edgesOf, h2] at m2
          | some es' =>
            simp only [edgesOf, h1, h2, Option.getD_some] at m1 m2
            obtain ⟨u1, u2⟩ := w.uniq _ _ h1 e m1 _ _ h2 e' m2 hid
            exact hne ⟨u1.symm, by rw [← s1, ← s2, u2]⟩
  · intro both e hp he
    have hn : findEdge cls (run cls h) a b = none := by
      rw [← find_run] at hp; simpa using hp
    have h1 : findOrInsert cls (run cls h) a b = insertEdge cls (run cls h) a b := by
      unfold findOrInsert; rw [hn]; rfl
    have hf : findEdge cls (insertEdge cls (run cls h) a b) a b = some ⟨(run cls h).next, a, b⟩ := by
      rw [find_insert cls _ _ _ _ _ hn]; simp
    have h0 : (insertEdge cls (run cls h) a b).info (run cls h).next = none := by simp [insertEdge, setMap]
    simp only [getEdge, run, step, addEdge, h1] at he
    simp only [getInfo, run, step, addEdge, h1]
    split at he
    · next hb =>
      rw [keep_findOrInsert cls _ b a a b hf] at he
      simp at he
      subst he
      rw [if_pos hb, ins _ (wf_insert cls w a b hn) b a a b _ hf]
      exact h0
    · next hb =>
      rw [hf] at he
      simp at he
      subst he
      rw [if_neg hb]
      exact h0

example : let h : List (Op Nat) := [.setInfo 1 3 (some 8), .add 3 1 true, .setInfo 1 2 (some 7), .add 1 3 false, .add 1 2 false]
    ((getEdge id (run id h) 1 2).bind (getInfo (run id h)), (getEdge id (run id h) 1 3).bind (getInfo (run id h)),
      (getEdge id (run id (.add 1 2 false :: .remove 1 2 true :: h)) 1 2).bind (getInfo (run id (.add 1 2 false :: .remove 1 2 true :: h))))
      = (some 7, some 8, none) := by decide

/-- **C47 is false of equal second vertices.** First vertices are looked up with DKEqual, second vertices by pointer: with two
    equal objects, such as two number objects with the same value, the edge is found from an equal first vertex and not found to an
    equal second vertex. -/
theorem C47_equal_fails : ∃ (cls : Nat → Nat) (a b a' b' : Nat), cls a' = cls a ∧ cls b' = cls b ∧
    (getEdge cls (run cls [.add a b false]) a' b).isSome = true ∧ (getEdge cls (run cls [.add a b false]) a b').isSome = false :=
  ⟨(· / 10), 10, 20, 11, 21, by decide, by decide, by decide, by decide⟩

/-- **C48, termination.** Traversal returns on every graph, whatever the callback answers. -/
theorem C48_terminates (h : List (Op V)) (callback : List V → Int) (src : V) : ∃ fuel, (traverse cls (run cls h) callback fuel src).isSome :=
  traverse_some cls h callback src

example : ((traverse id (run id ([.add 1 2 true, .add 2 3 true, .add 3 1 true, .add 3 3 false] : List (Op Nat))) (fun _ => 0) 20 1).map (·.1)) = some 0 := by decide

/-- **C48, coverage.** When no callback stops it, traversal returns 0, starts with the start vertex, calls back only vertices
    reachable from it, and calls back every reachable vertex (or one equal to it) at least once. -/
theorem C48_reaches_partial (h : List (Op V)) (src : V) (fuel : Nat) (r : Int) (calls : List V)
    (hr : traverse cls (run cls h) (fun _ => 0) fuel src = some (r, calls)) :
    r = 0 ∧ calls.head? = some src ∧ (∀ x ∈ calls, Reach cls h src x) ∧ ∀ y, Reach cls h src y → ∃ x ∈ calls, cls x = cls y := by
  obtain ⟨h0, h1, h2, h3⟩ := go_zero cls hr (by simp) (by simp)
  refine ⟨h0, ?_, ?_, ?_⟩
  · unfold traverse at hr
    cases fuel with
    | zero => simp [traverseGo] at hr
    | succ fuel =>
      rw [traverseGo] at hr
      simp only [ne_eq, not_true, if_false] at hr
      obtain ⟨t, ht⟩ := go_prefix cls hr
      rw [← ht]; rfl
  · refine go_sound cls (Reach cls h src) hr ?_ (by simp; exact .refl) (by simp)
    intro c hc e he
    exact .step hc (edge_present cls he)
  · intro y hy
    induction hy with
    | refl => exact ⟨src, h2 src (by simp), rfl⟩
    | step _ hp ih =>
      obtain ⟨x, hx, hxb⟩ := ih
      obtain ⟨e, he, hec⟩ := present_edge cls hp
      have he' : e ∈ edgesOf cls (run cls h) x := by simpa [edgesOf, hxb] using he
      obtain ⟨z, hz, hze⟩ := h3 x hx e he'
      exact ⟨z, hz, by rw [hze, hec]⟩

example : traverse id (run id ([.add 1 2 true, .add 2 3 true, .add 3 1 true, .add 5 1 false] : List (Op Nat))) (fun _ => 0) 20 1
    = some (0, [1, 3, 2, 2]) := by decide

/-- **C48, stopping.** A callback that returns non-zero ends the traversal at once and its result is returned; the calls made are
    the first calls of the traversal that is not stopped. -/
theorem C48_stop (h : List (Op V)) (src : V) (callback : List V → Int) (fuel fuel' : Nat) (r r' : Int) (calls full : List V)
    (hr : traverse cls (run cls h) callback fuel src = some (r, calls))
    (hf : traverse cls (run cls h) (fun _ => 0) fuel' src = some (r', full)) :
    calls <+: full ∧ (r = 0 → calls = full) ∧ (r ≠ 0 → r = callback calls) ∧
      ∀ p, p ≠ [] → p <+: calls → p ≠ calls ∨ r = 0 → callback p = 0 := by
  obtain ⟨h1, h2, h3, h4⟩ := go_stop cls hr hf
  exact ⟨h1, h2, h3, fun p hp => h4 p (List.length_pos_iff.mpr hp)⟩

example : traverse id (run id ([.add 1 2 true, .add 2 3 true, .add 3 4 true] : List (Op Nat))) (fun c => if c.getLast? = some 3 then 9 else 0) 20 1
    = some (9, [1, 2, 3]) := by decide

/-- **C48, exactly once (partial).** If every reachable vertex other than the start has at most one edge into it from a reachable
    vertex, each vertex is called back once.  (Missing: graphs with two ways to a vertex, where it fails.) -/
theorem C48_once_partial (h : List (Op V)) (src : V) (ht : TreeLike cls h src) (fuel : Nat) (r : Int) (calls : List V)
    (hr : traverse cls (run cls h) (fun _ => 0) fuel src = some (r, calls)) : (calls.map cls).Nodup := by
  refine go_once cls ht hr (by simp) ?_ (by simp) ?_ ?_
  · simp
  · intro x hx; simp at hx; subst hx; exact .refl
  · intro x hx hne; simp at hx; subst hx; exact absurd rfl hne

/-- The hypothesis is met by a cycle. -/
example : TreeLike id ([.add 1 2 false, .add 2 3 false, .add 3 1 false] : List (Op Nat)) 1 := by
  intro a b c d _ _ h1 h2 h3 h4
  simp [Present, Names] at *
  omega

/-- **C48 is false of a diamond**: the vertex with two edges into it is called back twice. -/
theorem C48_once_fails : ∃ h : List (Op Nat), traverse id (run id h) (fun _ => 0) 10 1 = some (0, [1, 2, 3, 4, 4]) :=
  ⟨[.add 3 4 false, .add 2 4 false, .add 1 3 false, .add 1 2 false], by decide⟩

/-- **C48, cost.** On a graph built with `4 n` calls over `2 n + 1` vertices the callback is called at least `2 ^ n` times. -/
theorem C48_exponential_fails (n : Nat) : ∃ (h : List (Op Nat)) (fuel : Nat) (calls : List Nat), h.length = 4 * n ∧
    traverse id (run id h) (fun _ => 0) fuel 0 = some (0, calls) ∧ 2 ^ n ≤ calls.length ∧ ∀ x ∈ calls, x ≤ 2 * n := by
  obtain ⟨fuel, hs⟩ := traverse_some id (layers n) (fun _ => 0) 0
  obtain ⟨⟨r, calls⟩, hr⟩ := Option.isSome_iff_exists.mp hs
  have h0 := C48_reaches_partial id (layers n) 0 fuel r calls hr
  refine ⟨layers n, fuel, calls, length_layers n, by rw [hr, h0.1], ?_, ?_⟩
  · have := go_layers (n := n) (m := n) (k := 0) (by omega) [0] [] [] fuel hr (by simp [lay]) (by simp)
    simpa using this
  · intro x hx
    have := h0.2.2.1 x hx
    have : lay x ≤ n := by
      cases this with
      | refl => simp [lay]
      | step _ hp => have := (present_layers n _ _).mp hp; omega
    simp only [lay] at this; omega

example : (traverse id (run id (layers 3)) (fun _ => 0) 20 0).map (fun r => r.2.length) = some 15 := by decide

/-- **C64 is false.** DKGraphGetShortestPath never returns: it asks the binary tree that holds the start node for its first
    object, and that walk does not end (C10).  Whatever the comparison, the start node and the rest of the function, there is
    no result after any number of steps. -/
theorem C64_never_returns {N R : Type} (compare : N → N → Int) (start : N) (fuel : Nat) (rest : BTree.Node N N → Option R) :
    shortestPath compare start fuel rest = none ∧ ∃ t, BTree.insert compare BTree.init start start .ifNotFound = some t ∧ t.count = 1 := by
  refine ⟨?_, ⟨.node .nil start start 1 .nil, 1⟩, rfl, rfl⟩
  unfold shortestPath
  cases BTree.insert compare BTree.init start start .ifNotFound with
  | none => rfl
  | some t => simp only [Option.bind_some]; rw [BTree.C10_never_returns]; rfl

example : (shortestPath (fun a b : Int => b - a) 0 1000 fun _ => some ()) = none := (C64_never_returns _ _ _ _).1

end Graph
end Duck
