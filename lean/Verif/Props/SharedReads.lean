import Verif.Lemmas.SharedReads
import Verif.Props.Foreach
/-! C125: a collection that nobody changes can be read by several threads at once. -/
namespace Duck
namespace Readers
open LList (Heap LinkedList)
variable {V P : Type}

/-- C125: in every schedule, with any number of threads that iterate over the list and of threads that read objects of it by index, a
    thread that has finished its iteration has seen exactly the objects of the list, in their order. -/
theorem C125_iterate {l : LinkedList V P} {xs : List V} (hl : Created l xs) (index : Nat → Option Int) (sched : List Nat) (t : Nat)
    (seen : List V) (h : finished ((sysRun l (starts l index) sched).tasks t) = some seen) : seen = xs := by
  obtain ⟨as, ys, hk, rfl, _, _⟩ := created hl
  have hi : ∀ u, IterOk as ys ((starts l index).tasks u) := by
    intro u
    simp only [starts]
    cases index u with
    | some i => trivial
    | none => exact ⟨0, by rw [hk.first, List.head?_eq_getElem?], by simp⟩
  have := iter_run hk sched _ hi t
  revert this h
  cases (sysRun l (starts l index) sched).tasks t with
  | get pc => intro h; cases h
  | lost => intro h; cases h
  | each p s =>
    cases p with
    | some p => intro h; cases h
    | none =>
      intro h
      rintro ⟨j, h1, h2⟩
      have : as.length ≤ j := by
        rcases Nat.lt_or_ge j as.length with hj | hj
        · rw [List.getElem?_eq_getElem hj] at h1; cases h1
        · exact hj
      have e : s = seen := by injection h
      rw [← e, h2, List.take_of_length_le]
      rw [List.length_map, ← hk.seg.length]; exact this

/-- C125: such an iteration ends: after as many steps of its thread as there are objects, whatever the others do. -/
theorem C125_iterate_ends {l : LinkedList V P} {xs : List V} (hl : Created l xs) (index : Nat → Option Int) (sched : List Nat) (t : Nat)
    (ht : index t = none) (hn : xs.length ≤ sched.count t) :
    finished ((sysRun l (starts l index) sched).tasks t) = some xs := by
  obtain ⟨as, ys, hk, rfl, hlen, _⟩ := created hl
  have h0 : (starts l index).tasks t = .each as[0]? ((ys.map (·.1)).take 0) := by
    simp only [starts, ht]; rw [hk.first, List.head?_eq_getElem?]; rfl
  rw [iter_count hk t sched _ 0 h0, Nat.zero_add, List.getElem?_eq_none (by omega), List.take_of_length_le hn]
  rfl

/-- C125, the calls by index, for lists: when no two calls overlap, each returns the object at its index, whatever the calls before it.
    Missing: calls that overlap (`C125_wrong_fails`, `C125_crash_fails`). -/
theorem C125_in_turn_partial {l : LinkedList V P} {xs : List V} (hl : Created l xs) (is : List Nat) (hi : ∀ i ∈ is, i < xs.length) :
    inTurn l (cursorOf l) (is.map Int.ofNat) = is.map fun i => xs[i]? := by
  obtain ⟨as, ys, hk, rfl, hlen, hc⟩ := created hl
  have key : ∀ (is : List Nat) (c : Nat), c < as.length → (∀ i ∈ is, i < as.length) →
      inTurn l ⟨as[c]?, c⟩ (is.map Int.ofNat) = is.map fun i => (ys.map (·.1))[i]? := by
    intro is
    induction is with
    | nil => intro _ _ _; rfl
    | cons i is ih =>
      intro c hc hi
      obtain ⟨x, hx, ha⟩ := alone_get hk hc (hi i (by simp))
      have ha' : alone l (l.count.toNat + 8) (⟨as[c]?, c⟩, .enter (Int.ofNat i)) = (⟨as[i]?, i⟩, .done x.1) := ha
      simp only [List.map_cons, inTurn, ha', result]
      rw [ih i (hi i (by simp)) (fun j hj => hi j (by simp [hj]))]
      simp [hx]
  cases is with
  | nil => rfl
  | cons i is =>
    have h0 : 0 < as.length := by have := hi i (by simp); omega
    have hn : as ≠ [] := by intro e; simp [e] at h0
    rw [hc hn, show (as.length - 1 : Int) = ((as.length - 1 : Nat) : Int) by omega]
    exact key _ _ (by omega) (fun j hj => by rw [hlen]; exact hi j hj)

/-- C125 fails for lists that are read by index: whatever the list, as long as it has two objects, one thread reads the first object and
    another the last, both calls return, both with the first object; and from then on the last object cannot be read any more: every
    later call for it, though no other call is running, returns the first. -/
theorem C125_wrong_fails {l : LinkedList V P} {xs : List V} (hl : Created l xs) (hn : 2 ≤ xs.length) :
    ∃ sched, let s := sysRun l (starts l fun u => some (if u = 0 then 0 else xs.length - 1)) sched
      got (s.tasks 0) = xs[0]? ∧ got (s.tasks 1) = xs[0]? ∧
      ∀ k, inTurn l s.cursor (List.replicate k (xs.length - 1)) = List.replicate k xs[0]? := by
  obtain ⟨as, ys, hk, rfl, hlen, hc⟩ := created hl
  rw [← hlen] at hn ⊢
  have hc := hc (by intro e; simp [e] at hn)
  obtain ⟨x, hx, hd⟩ := deref_get hk (show 0 < as.length by omega)
  have hfirst : l.first = as[0]? := by rw [hk.first, List.head?_eq_getElem?]
  have hx' : (ys.map (·.1))[0]? = some x.1 := by simp [hx]
  generalize hs0 : starts l (fun u => some (if u = 0 then (0 : Int) else (as.length : Int) - 1)) = s0
  have c0 : s0.cursor = ⟨as[as.length - 1]?, (as.length - 1 : Int)⟩ := by rw [← hs0, ← hc]; rfl
  have t0 : s0.tasks 0 = .get (.enter 0) := by rw [← hs0]; rfl
  have t1 : s0.tasks 1 = .get (.enter (as.length - 1 : Int)) := by rw [← hs0]; simp [starts]
  -- the first thread goes to the first node
  obtain ⟨a1, b1, d1⟩ := phase l 0 3 s0 _ t0
  have e1 : alone l 3 (s0.cursor, .enter 0) = (⟨as[0]?, (as.length - 1 : Int)⟩, .fromFirst 0 0) := by
    rw [c0]; simp only [alone, step]
    rw [if_neg (by omega)]; simp only
    rw [if_pos (by omega), if_neg (by omega)]; simp only [hfirst]; rfl
  rw [e1] at a1 b1
  -- the second finds the index it looks for
  obtain ⟨a2, b2, d2⟩ := phase l 1 2 (sysRun l s0 (List.replicate 3 0)) _ ((d1 1 (by omega)).trans t1)
  have e2 : alone l 2 ((sysRun l s0 (List.replicate 3 0)).cursor, .enter (as.length - 1 : Int)) =
      (⟨as[0]?, (as.length - 1 : Int)⟩, .store (as.length - 1 : Int)) := by
    rw [a1]; simp only [alone, step]
    rw [if_neg (by omega)]; simp only
    rw [if_neg (by omega)]
  rw [e2] at a2 b2
  -- the first stores its index and returns
  obtain ⟨a3, b3, d3⟩ := phase l 0 4 (sysRun l (sysRun l s0 (List.replicate 3 0)) (List.replicate 2 1)) _ ((d2 0 (by omega)).trans b1)
  rw [a2] at a3 b3
  simp only [alone, step, hd] at a3 b3
  -- the second stores its index and returns
  obtain ⟨a4, b4, d4⟩ := phase l 1 3
    (sysRun l (sysRun l (sysRun l s0 (List.replicate 3 0)) (List.replicate 2 1)) (List.replicate 4 0)) _ ((d3 1 (by omega)).trans b2)
  rw [a3] at a4 b4
  simp only [alone, step, hd] at a4 b4
  refine ⟨List.replicate 3 0 ++ List.replicate 2 1 ++ List.replicate 4 0 ++ List.replicate 3 1, ?_⟩
  rw [sysRun_append, sysRun_append, sysRun_append]
  simp only
  refine ⟨?_, ?_, ?_⟩
  · rw [d4 0 (by omega), b3, hx']; rfl
  · rw [b4, hx']; rfl
  · intro k
    rw [a4, hx']
    induction k with
    | zero => rfl
    | succ k ih =>
      have := alone_same hd (as.length - 1 : Int) l.count.toNat
      simp only [List.replicate_succ, inTurn, this, result]
      rw [ih]

/-- C125 fails for lists that are read by index: whatever the list, as long as it has three objects, a thread that reads the last but
    one while another reads the first can follow NULL. -/
theorem C125_crash_fails {l : LinkedList V P} {xs : List V} (hl : Created l xs) (hn : 3 ≤ xs.length) :
    ∃ sched, crashed ((sysRun l (starts l fun u => some (if u = 0 then xs.length - 2 else 0)) sched).tasks 0) = true := by
  obtain ⟨as, ys, hk, rfl, hlen, hc⟩ := created hl
  rw [← hlen] at hn ⊢
  have hc := hc (by intro e; simp [e] at hn)
  obtain ⟨x, hx, hd⟩ := deref_get hk (show 0 < as.length by omega)
  have hfirst : l.first = as[0]? := by rw [hk.first, List.head?_eq_getElem?]
  generalize hs0 : starts l (fun u => some (if u = 0 then (as.length : Int) - 2 else (0 : Int))) = s0
  have c0 : s0.cursor = ⟨as[as.length - 1]?, (as.length - 1 : Int)⟩ := by rw [← hs0, ← hc]; rfl
  have t0 : s0.tasks 0 = .get (.enter (as.length - 2 : Int)) := by rw [← hs0]; rfl
  have t1 : s0.tasks 1 = .get (.enter 0) := by rw [← hs0]; simp [starts]
  obtain ⟨a1, b1, d1⟩ := phase l 0 2 s0 _ t0
  have e1 : alone l 2 (s0.cursor, .enter (as.length - 2 : Int)) =
      (⟨as[as.length - 1]?, (as.length - 1 : Int)⟩, .backward (as.length - 2 : Int) 1) := by
    rw [c0]; simp only [alone, step]
    rw [if_neg (by omega)]; simp only
    rw [if_pos (by omega), if_pos (by omega), show ((as.length : Int) - 1 - (as.length - 2)).toNat = 1 by omega]
  rw [e1] at a1 b1
  obtain ⟨a2, b2, d2⟩ := phase l 1 3 (sysRun l s0 (List.replicate 2 0)) _ ((d1 1 (by omega)).trans t1)
  have e2 : alone l 3 ((sysRun l s0 (List.replicate 2 0)).cursor, .enter 0) =
      (⟨as[0]?, (as.length - 1 : Int)⟩, .fromFirst 0 0) := by
    rw [a1]; simp only [alone, step]
    rw [if_neg (by omega)]; simp only
    rw [if_pos (by omega), if_neg (by omega)]; simp only [hfirst]; rfl
  rw [e2] at a2 b2
  obtain ⟨a3, b3, d3⟩ := phase l 0 5 (sysRun l (sysRun l s0 (List.replicate 2 0)) (List.replicate 3 1)) _ ((d2 0 (by omega)).trans b1)
  rw [a2] at b3
  have hnone : LList.deref l.heap none = none := rfl
  simp only [alone, step, hd, if_true, hnone] at b3
  refine ⟨List.replicate 2 0 ++ List.replicate 3 1 ++ List.replicate 5 0, ?_⟩
  rw [sysRun_append, sysRun_append, b3]; rfl

/-- C125, binary trees: threads that look up keys of their own in the same tree, in every schedule: a search that is finished has the
    result of a search alone, and it is finished once the thread has made one more step than a search alone makes comparisons. -/
theorem C125_tree {K : Type} (cmp : K → K → Int) (root : BTree.Node K V) (keys : Nat → K) (sched : List Nat) (t : Nat) :
    (∀ v, readRun (fun u => searchStep cmp (keys u)) (fun _ => .at root) sched t = .found v → v = BTree.find cmp (keys t) root) ∧
    (BTree.findCost cmp (keys t) root < sched.count t →
      readRun (fun u => searchStep cmp (keys u)) (fun _ => .at root) sched t = .found (BTree.find cmp (keys t) root)) := by
  rw [readRun_spec]
  exact ⟨fun v h => search_any cmp _ root _ v h, fun h => search_enough cmp _ root _ h⟩

/-- C125, hash tables: threads that look up keys of their own in the same table, in every schedule: a search that is finished has the
    result of a search alone, and every search is finished after at most two steps more than the table has rows. -/
theorem C125_table {K : Type} (hash : K → Nat) (eqv : K → K → Bool) (rows : List (HTable.Row K V)) (keys : Nat → K) (sched : List Nat)
    (t : Nat) (row : Nat) (status : HTable.Status) (h : HTable.find hash eqv rows (keys t) = .ok (row, status)) :
    (∀ r st, readRun (fun u => probeStep eqv rows (keys u)) (fun u => .at 0 (hash (keys u) % rows.length) none) sched t = .found r st →
      r = row ∧ st = status) ∧
    (rows.length + 2 ≤ sched.count t →
      readRun (fun u => probeStep eqv rows (keys u)) (fun u => .at 0 (hash (keys u) % rows.length) none) sched t = .found row status) := by
  rw [readRun_spec]
  exact ⟨fun r st h' => probe_any eqv rows _ h h', fun hm => probe_enough eqv rows _ row status _ _ _ _ _ hm h⟩

/-! ### Instances -/

/-- A list of three objects. -/
noncomputable def exList : LinkedList Nat Nat := (LList.insertAll 0 Foreach.lowest [10, 20, 30] 0 LList.init).getD LList.init

theorem exList_created : Created exList [10, 20, 30] := ⟨0, Foreach.lowest, Foreach.lowest_fresh, rfl⟩

-- an iteration among readers, interleaved
example : finished ((sysRun exList (starts exList fun u => if u = 0 then none else some 1) [0, 1, 0, 1, 1, 2, 0, 2]).tasks 0) =
    some [10, 20, 30] := by decide +kernel

-- calls in turn
example : inTurn exList (cursorOf exList) [0, 2, 1, 1] = [some 10, some 30, some 20, some 20] := by decide +kernel

-- the last object is lost
example : ∃ s : System Nat, got (s.tasks 1) = some 10 ∧ inTurn exList s.cursor [2, 2] = [some 10, some 10] ∧
    ∃ sched, s = sysRun exList (starts exList fun u => some (if u = 0 then 0 else 2)) sched :=
  ⟨sysRun exList (starts exList fun u => some (if u = 0 then 0 else 2)) [0, 0, 0, 1, 1, 0, 0, 0, 0, 1, 1, 1], by decide +kernel,
    by decide +kernel, _, rfl⟩

example : crashed ((sysRun exList (starts exList fun u => some (if u = 0 then 1 else 0)) [0, 0, 1, 1, 1, 0, 0, 0, 0, 0]).tasks 0) = true := by
  decide +kernel

-- two threads in a tree and in a table
example : ∃ v, readRun (fun u => searchStep (fun a b : Nat => (b : Int) - a) (u + 1)) (fun _ => .at (.node (.node .nil 1 10 1 .nil) 2 20 2 .nil))
    [0, 1, 0] 0 = .found v ∧ v = some 10 := ⟨_, rfl, by decide +kernel⟩

example : ∃ (rows : List (HTable.Row Nat Nat)), HTable.find (fun k => k) (· == ·) rows 4 = .ok (2, .active) ∧
    readRun (fun u => probeStep (· == ·) rows (4 + u)) (fun u => .at 0 ((4 + u) % rows.length) none) [0, 1, 0, 0, 1] 0 = .found 2 .active :=
  ⟨[.empty, .deleted, .active 4 40], rfl, rfl⟩

end Readers
end Duck
