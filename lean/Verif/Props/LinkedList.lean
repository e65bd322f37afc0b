import Verif.Lemmas.LinkedListPriority
/-! Properties of linked lists (C11, C12) and of appending one to itself (C57). -/
namespace Duck
namespace LList
open HTable (Policy)
variable {V P : Type}

/-- C11: every history of replace-range (which is every append, insert, set and removal), reads, priority insertions,
    reversals and sorts on a fresh list runs without a bad memory access and does to the list exactly what it does to a
    sequence.  Afterwards iteration yields the sequence, and forward and backward links agree. -/
theorem C11_sequence [DecidableEq V] {zero : P} {pick : Nat → Heap V P → Nat} (hp : Fresh pick) (gt : P → P → Bool)
    (ops : List (Op V P)) (ho : ∀ op ∈ ops, OpOk op) :
    ∃ l outs xs, run zero pick gt init ops = some (l, outs) ∧ SpecRun zero gt [] ops outs xs ∧
      iterate l = some (xs.map (·.1)) ∧ l.count = xs.length ∧ LinksAgree l := by
  obtain ⟨l, outs, as, xs, r, s, k, _⟩ := run_spec (zero := zero) hp (gt := gt) ops init_links (Or.inl ⟨rfl, rfl, rfl⟩) ho
  exact ⟨l, outs, xs, r, s, iterate_spec k, by rw [k.count, k.seg.length], k.agree⟩

/-- Iteration stops at the first callback that returns non-zero, having visited the objects before it in order. -/
theorem C11_iteration_stops [DecidableEq V] {zero : P} {pick : Nat → Heap V P → Nat} (hp : Fresh pick) (gt : P → P → Bool)
    (ops : List (Op V P)) (ho : ∀ op ∈ ops, OpOk op) (stop : V → Bool) :
    ∃ l outs, run zero pick gt init ops = some (l, outs) ∧ ∃ vs, iterate l = some vs ∧
      apply l (fun v (seen : List V) => (if stop v then 1 else 0, seen ++ [v])) [] =
        some (match vs.findIdx? stop with | some i => (1, vs.take (i + 1)) | none => (0, vs)) := by
  obtain ⟨l, outs, as, xs, r, s, k, _⟩ := run_spec (zero := zero) hp (gt := gt) ops init_links (Or.inl ⟨rfl, rfl, rfl⟩) ho
  refine ⟨l, outs, r, _, iterate_spec k, ?_⟩
  have main : ∀ {bs : List Nat} {ys : List (V × P)} {prv} {fuel : Nat} (acc : List V), Seg l.heap prv bs ys none → bs.length < fuel →
      applyLoop l.heap (fun v (seen : List V) => (if stop v then (1 : Int) else 0, seen ++ [v])) fuel bs.head? acc =
        some (match (ys.map (·.1)).findIdx? stop with
          | some i => (1, acc ++ (ys.map (·.1)).take (i + 1)) | none => (0, acc ++ ys.map (·.1))) := by
    intro bs
    induction bs with
    | nil =>
      intro ys prv fuel acc hs hf
      cases ys with
      | nil => cases fuel <;> simp [applyLoop]
      | cons => exact hs.elim
    | cons b bs ih =>
      intro ys prv fuel acc hs hf
      obtain ⟨fuel, rfl⟩ : ∃ f, fuel = f + 1 := ⟨fuel - 1, by omega⟩
      cases ys with
      | nil => exact hs.elim
      | cons y ys =>
        simp only [List.head?_cons, applyLoop, hs.1, Option.bind_some, Option.or_none, List.map_cons, List.findIdx?_cons]
        cases hy : stop y.1
        · simp only [Bool.false_eq_true, if_false, ne_eq, not_true_eq_false]
          rw [ih (acc ++ [y.1]) hs.2 (by simp at hf; omega)]
          cases (ys.map (·.1)).findIdx? stop <;> simp
        · simp
  have := main (fuel := l.count.toNat + 1) [] k.seg (by have := k.count; omega)
  unfold apply
  rw [k.first, this]
  simp

/-- The property fails of DKLinkedListShuffle: with two or more elements it stores through a null pointer. -/
theorem C11_shuffle_crashes (l : LinkedList V P) (h : 2 ≤ l.count) : shuffle l = none := if_pos (by omega)

/-- C12: a list built by priority insertions holds, for every insertion history, one entry per object, highest priority
    first, entries of equal priority in the order of their (last) insertion; each call reports whether it was accepted. -/
theorem C12_priority_order [DecidableEq V] {zero : P} {pick : Nat → Heap V P → Nat} (hp : Fresh pick) {gt : P → P → Bool}
    (hg : StrictWeak gt) (calls : List (V × P × Policy)) :
    ∃ l xs, run zero pick gt init (calls.map fun c => .insertPriority c.1 c.2.1 c.2.2) =
        some (l, (chronicle [] calls).2.map .changed) ∧ iterate l = some (xs.map (·.1)) ∧
      (∀ i : Nat, ∃ l', nodeAt l i = some (l', xs[i]?)) ∧ (xs.map (·.1)).Nodup ∧
      PriorityOrder gt (chronicle [] calls).1 xs := by
  obtain ⟨l, as, xs, r, k, c, o, n⟩ := run_priority (zero := zero) hp hg calls init_links (Or.inl ⟨rfl, rfl, rfl⟩)
    (log := []) ⟨List.Perm.refl _, List.Pairwise.nil, fun _ => rfl⟩ List.nodup_nil
  refine ⟨l, xs, r, iterate_spec k, ?_, (o.entries.map (·.1)).nodup_iff.mpr n, o⟩
  intro i
  obtain ⟨l', h, _⟩ := nodeAt_spec k c i
  exact ⟨l', by simpa using h⟩

/-- C57: appending a non-empty linked list to itself never finishes, whatever history built it: no number of
    iterations suffices. -/
theorem C57_list_self_append_never_returns [DecidableEq V] {zero : P} {pick : Nat → Heap V P → Nat} (hp : Fresh pick)
    (gt : P → P → Bool) (ops : List (Op V P)) (ho : ∀ op ∈ ops, OpOk op) :
    ∃ l outs, run zero pick gt init ops = some (l, outs) ∧ (l.count ≠ 0 → ∀ fuel, appendSelf zero pick fuel l = none) := by
  obtain ⟨l, outs, as, xs, r, s, k, _⟩ := run_spec (zero := zero) hp (gt := gt) ops init_links (Or.inl ⟨rfl, rfl, rfl⟩) ho
  refine ⟨l, outs, r, fun h fuel => ?_⟩
  have hc := k.count
  unfold appendSelf
  rw [k.first, List.head?_eq_getElem?, hc]
  exact selfLoop_none hp fuel k (by omega)

/-- An allocator for the examples: the first free address below the number of allocations made so far. -/
def bump : Nat → Heap V P → Nat := fun n h => ((List.range (n + 1)).find? (fun a => (h a).isNone)).getD n

/-- Hypotheses are satisfiable and the conclusions are not vacuous: `7` is re-inserted with a higher priority. -/
example : StrictWeak (fun a b : Nat => decide (b < a)) :=
  ⟨by simp, by intro a b c; simp; omega, by intro a b c; simp; omega⟩

example : (run (V := Nat) (P := Nat) 0 bump (fun a b => decide (b < a)) init
    [.insertPriority 7 1 .always, .insertPriority 8 5 .always, .insertPriority 9 5 .always,
     .insertPriority 7 6 .ifFound, .insertPriority 8 9 .ifNotFound]).bind (fun r => iterate r.1) = some [7, 8, 9] := by
  decide +kernel

example : (run (V := Nat) (P := Nat) 0 bump (fun a b => decide (b < a)) init
    [.replace 0 0 [1, 2, 3, 4], .get 2, .replace 1 2 [5], .reverse, .replace 3 0 [6]]).bind (fun r => iterate r.1) =
      some [4, 5, 1, 6] := by decide +kernel

/-- A fresh-address allocator exists: any address above every live one. -/
example : ∃ pick : Nat → Heap Nat Nat → Nat, Fresh pick := by
  classical
  refine ⟨fun _ h => if e : ∃ a, h a = none then Classical.choose e else 0, ?_⟩
  intro n h live hlive
  have e : ∃ a, h a = none := by
    refine ⟨live.foldr (fun a b => max (a + 1) b) 0, ?_⟩
    have hmax : ∀ (ys : List Nat), ∀ y ∈ ys, y < ys.foldr (fun a b => max (a + 1) b) 0 := by
      intro ys
      induction ys with
      | nil => simp
      | cons z zs ih =>
        intro y hy
        simp only [List.foldr_cons]
        rcases List.mem_cons.mp hy with rfl | hy
        · omega
        · have := ih y hy; omega
    by_cases hn : h (live.foldr (fun a b => max (a + 1) b) 0) = none
    · exact hn
    · exact absurd (hmax live _ (hlive _ hn)) (Nat.lt_irrefl _)
  simp only [e, dif_pos]
  exact Classical.choose_spec e

end LList
end Duck
