import Verif.Spec.SharedReads
import Verif.Lemmas.LinkedList
/-! A call that runs alone, the cursor of a new list, and readers that write nothing. -/
namespace Duck
namespace Readers
open LList (Heap LinkedList deref Links Seg)
variable {V P : Type}

/-! ### The cursor of a new list -/

theorem insertAll_end {zero : P} {pick : Nat → Heap V P → Nat} (hp : LList.Fresh pick) : ∀ (vs : List V) {l : LinkedList V P}
    {as xs} (_ : Links l as xs) (_ : as ≠ [] → l.cursor = as[as.length - 1]? ∧ l.cursorIndex = (as.length - 1 : Int)) {l'},
    LList.insertAll zero pick vs as.length l = some l' →
    ∃ as', Links l' as' (xs ++ vs.map (·, zero)) ∧
      (as' ≠ [] → l'.cursor = as'[as'.length - 1]? ∧ l'.cursorIndex = (as'.length - 1 : Int))
  | [], l, as, xs, hl, hc, l', h => by
    cases h; exact ⟨as, by simpa using hl, hc⟩
  | v :: vs, l, as, xs, hl, hc, l', h => by
    obtain ⟨l1, a, r1, k1, c1, i1, _⟩ := LList.insert_spec (zero := zero) hp hl (Nat.le_refl as.length) (fun _ h => by omega) v
    have e1 : LList.insertAt as as.length a = as ++ [a] := by simp [LList.insertAt]
    have e2 : LList.insertAt xs as.length (v, zero) = xs ++ [(v, zero)] := by
      rw [hl.seg.length]; simp [LList.insertAt]
    rw [e1, e2] at k1
    rw [LList.insertAll, r1, Option.bind_some] at h
    have h' : LList.insertAll zero pick vs ((as ++ [a]).length : Nat) l1 = some l' := by
      rw [← h]; congr 1; simp
    obtain ⟨as', q1, q2⟩ := insertAll_end hp vs k1 (fun _ => ⟨by rw [c1]; simp, by rw [i1]; simp⟩) h'
    exact ⟨as', by simpa using q1, q2⟩

/-- A new list holds its objects, and its cursor is at the last. -/
theorem created {l : LinkedList V P} {xs : List V} (h : Created l xs) :
    ∃ as ys, Links l as ys ∧ ys.map (·.1) = xs ∧ as.length = xs.length ∧
      (as ≠ [] → cursorOf l = ⟨as[as.length - 1]?, (as.length - 1 : Int)⟩) := by
  obtain ⟨zero, pick, hp, h⟩ := h
  obtain ⟨as, k, c⟩ := insertAll_end (zero := zero) hp xs (LList.init_links (V := V) (P := P)) (fun h => absurd rfl h) h
  refine ⟨as, _, k, by simp [Function.comp_def], by rw [k.seg.length]; simp, fun hn => ?_⟩
  obtain ⟨c1, c2⟩ := c hn
  unfold cursorOf; rw [c1, c2]

/-- Following a pointer to a node of the list. -/
theorem deref_get {l : LinkedList V P} {as : List Nat} {ys : List (V × P)} (hl : Links l as ys) {j : Nat} (hj : j < as.length) :
    ∃ x, ys[j]? = some x ∧ deref l.heap as[j]? = some ⟨if j = 0 then none else as[j - 1]?, as[j + 1]?, x.1, x.2⟩ := by
  obtain ⟨x, h1, h2⟩ := hl.seg.get (List.getElem?_eq_getElem hj)
  refine ⟨x, h1, ?_⟩
  rw [List.getElem?_eq_getElem hj]
  show l.heap as[j] = _
  rw [h2]; simp

/-! ### A call alone -/

theorem alone_add (l : LinkedList V P) : ∀ (m n : Nat) (s : Cursor × Pc V), alone l (m + n) s = alone l n (alone l m s)
  | 0, n, s => by simp [alone]
  | m + 1, n, s => by rw [Nat.succ_add]; exact alone_add l m n _

theorem alone_done (l : LinkedList V P) (c : Cursor) (v : V) : ∀ n, alone l n (c, .done v) = (c, .done v)
  | 0 => rfl
  | n + 1 => alone_done l c v n

theorem alone_forward {l : LinkedList V P} {as : List Nat} {ys : List (V × P)} (hl : Links l as ys) (i ix : Int) : ∀ (k j : Nat),
    j + k < as.length → alone l (k + 1) (⟨as[j]?, ix⟩, .forward i k) = (⟨as[j + k]?, ix⟩, .again i)
  | 0, j, _ => rfl
  | k + 1, j, h => by
    obtain ⟨x, _, hd⟩ := deref_get hl (show j < as.length by omega)
    rw [alone]
    simp only [step, hd]
    rw [alone_forward hl i ix k (j + 1) (by omega), show j + 1 + k = j + (k + 1) by omega]

theorem alone_fromFirst {l : LinkedList V P} {as : List Nat} {ys : List (V × P)} (hl : Links l as ys) (i ix : Int) : ∀ (k j : Nat),
    j + k < as.length → alone l (k + 1) (⟨as[j]?, ix⟩, .fromFirst i k) = (⟨as[j + k]?, ix⟩, .store i)
  | 0, j, _ => rfl
  | k + 1, j, h => by
    obtain ⟨x, _, hd⟩ := deref_get hl (show j < as.length by omega)
    rw [alone]
    simp only [step, hd]
    rw [alone_fromFirst hl i ix k (j + 1) (by omega), show j + 1 + k = j + (k + 1) by omega]

theorem alone_fromLast {l : LinkedList V P} {as : List Nat} {ys : List (V × P)} (hl : Links l as ys) (i ix : Int) : ∀ (k j : Nat),
    k ≤ j → j < as.length → alone l (k + 1) (⟨as[j]?, ix⟩, .fromLast i k) = (⟨as[j - k]?, ix⟩, .again i)
  | 0, j, _, _ => rfl
  | k + 1, j, h, hj => by
    obtain ⟨x, _, hd⟩ := deref_get hl hj
    rw [alone]
    simp only [step, hd, if_neg (show j ≠ 0 by omega)]
    rw [alone_fromLast hl i ix k (j - 1) (by omega) (by omega), show j - 1 - k = j - (k + 1) by omega]

theorem alone_backward {l : LinkedList V P} {as : List Nat} {ys : List (V × P)} (hl : Links l as ys) (i ix : Int) : ∀ (k j : Nat),
    k ≤ j → j < as.length → alone l (k + 1) (⟨as[j]?, ix⟩, .backward i k) = (⟨as[j - k]?, ix⟩, .store i)
  | 0, j, _, _ => rfl
  | k + 1, j, h, hj => by
    obtain ⟨x, _, hd⟩ := deref_get hl hj
    rw [alone]
    simp only [step, hd, if_neg (show j ≠ 0 by omega)]
    rw [alone_backward hl i ix k (j - 1) (by omega) (by omega), show j - 1 - k = j - (k + 1) by omega]

/-- The end of a call. -/
theorem alone_store {l : LinkedList V P} {as : List Nat} {ys : List (V × P)} (hl : Links l as ys) {i : Nat} (hi : i < as.length)
    (ix : Int) : ∃ x, ys[i]? = some x ∧ alone l 3 (⟨as[i]?, ix⟩, .store (i : Int)) = (⟨as[i]?, i⟩, .done x.1) := by
  obtain ⟨x, hx, hd⟩ := deref_get hl hi
  refine ⟨x, hx, ?_⟩
  simp only [alone, step, hd]

/-- A call that runs alone, with a cursor that is right: it goes along the links from the cursor or from an end, whichever is nearer. -/
theorem alone_walk {l : LinkedList V P} {as : List Nat} {ys : List (V × P)} (hl : Links l as ys) {c i : Nat} (hc : c < as.length)
    (hi : i < as.length) {N : Nat} (hN : (if c < i then min (i - c) (as.length - i - 1) else min (c - i) i) + 7 ≤ N) :
    ∃ x, ys[i]? = some x ∧ alone l N (⟨as[c]?, c⟩, .enter (i : Int)) = (⟨as[i]?, i⟩, .done x.1) := by
  obtain ⟨x, hx, hs⟩ := alone_store hl hi c
  refine ⟨x, hx, ?_⟩
  have hcnt : l.count = as.length := hl.count
  have hlast : l.last = as[as.length - 1]? := by rw [hl.last, List.getLast?_eq_getElem?]
  have hfirst : l.first = as[0]? := by rw [hl.first, List.head?_eq_getElem?]
  -- enough: the store is reached in time
  have key : ∀ m, m + 3 ≤ N → alone l m (⟨as[c]?, c⟩, .enter (i : Int)) = (⟨as[i]?, c⟩, .store (i : Int)) →
      alone l N (⟨as[c]?, c⟩, .enter (i : Int)) = (⟨as[i]?, i⟩, .done x.1) := by
    intro m hm he
    have : N = m + (3 + (N - 3 - m)) := by omega
    rw [this, alone_add, he, alone_add, hs, alone_done]
  by_cases h1 : (i : Int) > c
  · rw [if_pos (by omega)] at hN
    have hag : step l ⟨as[i]?, c⟩ (.again (i : Int)) = (⟨as[i]?, c⟩, .store (i : Int)) := by
      simp only [step]; rw [if_neg (by omega)]
    by_cases h2 : (i : Int) - c ≤ l.count - i - 1
    · refine key (1 + (i - c + 1) + 1) (by omega) ?_
      rw [alone_add, alone_add]
      have : alone l 1 (⟨as[c]?, c⟩, .enter (i : Int)) = (⟨as[c]?, c⟩, .forward i (i - c)) := by
        simp only [alone, step]; rw [if_pos h1, if_pos h2]
        congr 2; omega
      rw [this, alone_forward hl _ _ _ _ (by omega), show c + (i - c) = i by omega]
      simp only [alone]; exact hag
    · refine key (2 + (as.length - i - 1 + 1) + 1) (by omega) ?_
      rw [alone_add, alone_add]
      have : alone l 2 (⟨as[c]?, c⟩, .enter (i : Int)) = (⟨as[as.length - 1]?, c⟩, .fromLast i (as.length - i - 1)) := by
        simp only [alone, step]; rw [if_pos h1, if_neg h2]
        simp only [hlast]
        congr 2; omega
      rw [this, alone_fromLast hl _ _ _ _ (by omega) (by omega), show as.length - 1 - (as.length - i - 1) = i by omega]
      simp only [alone]; exact hag
  · rw [if_neg (by omega)] at hN
    have hen : step l ⟨as[c]?, c⟩ (.enter (i : Int)) = (⟨as[c]?, c⟩, .again (i : Int)) := by
      simp only [step]; rw [if_neg h1]
    by_cases h2 : (i : Int) < c
    · by_cases h3 : (c : Int) - i ≤ i
      · refine key (2 + (c - i + 1)) (by omega) ?_
        rw [alone_add]
        have : alone l 2 (⟨as[c]?, c⟩, .enter (i : Int)) = (⟨as[c]?, c⟩, .backward i (c - i)) := by
          simp only [alone, hen]; simp only [step]; rw [if_pos h2, if_pos h3]
          congr 2; omega
        rw [this, alone_backward hl _ _ _ _ (by omega) (by omega), show c - (c - i) = i by omega]
      · refine key (3 + (i + 1)) (by omega) ?_
        rw [alone_add]
        have : alone l 3 (⟨as[c]?, c⟩, .enter (i : Int)) = (⟨as[0]?, c⟩, .fromFirst i i) := by
          simp only [alone, hen]; simp only [step]; rw [if_pos h2, if_neg h3]
          simp only [hfirst]
          congr 2
        rw [this, alone_fromFirst hl _ _ _ _ (by omega), show 0 + i = i by omega]
    · refine key 2 (by omega) ?_
      have hci : c = i := by omega
      simp only [alone, hen]; simp only [step]; rw [if_neg h2, hci]

theorem alone_get {l : LinkedList V P} {as : List Nat} {ys : List (V × P)} (hl : Links l as ys) {c i : Nat} (hc : c < as.length)
    (hi : i < as.length) :
    ∃ x, ys[i]? = some x ∧ alone l (l.count.toNat + 8) (⟨as[c]?, c⟩, .enter (i : Int)) = (⟨as[i]?, i⟩, .done x.1) := by
  have hcnt : l.count = as.length := hl.count
  exact alone_walk hl hc hi (by split <;> omega)

/-- A call for the index that the cursor has returns the object at the cursor. -/
theorem alone_same {l : LinkedList V P} {p : Option Nat} {n : LList.LNode V P} (hd : deref l.heap p = some n) (ix : Int) (m : Nat) :
    alone l (m + 8) (⟨p, ix⟩, .enter ix) = (⟨p, ix⟩, .done n.object) := by
  have e1 : step l ⟨p, ix⟩ (.enter ix) = (⟨p, ix⟩, .again ix) := by
    simp only [step]; rw [if_neg (by omega)]
  have e2 : step l ⟨p, ix⟩ (.again ix) = (⟨p, ix⟩, .store ix) := by
    simp only [step]; rw [if_neg (by omega)]
  have e3 : alone l 5 (⟨p, ix⟩, .enter ix) = (⟨p, ix⟩, .done n.object) := by
    simp only [alone, e1, e2]; simp only [step, hd]
  rw [show m + 8 = 5 + (m + 3) by omega, alone_add, e3, alone_done]

/-! ### Iteration -/

/-- A task that iterates has seen the objects before its node. -/
def IterOk (as : List Nat) (ys : List (V × P)) : Task V → Prop
  | .get _ => True
  | .each p seen => ∃ j, p = as[j]? ∧ seen = (ys.map (·.1)).take j
  | .lost => False

theorem iter_step {l : LinkedList V P} {as : List Nat} {ys : List (V × P)} (hl : Links l as ys) (c : Cursor) :
    ∀ t : Task V, IterOk as ys t → IterOk as ys (taskStep l c t).2
  | .get _, _ => trivial
  | .lost, h => h
  | .each none seen, h => h
  | .each (some p) seen, ⟨j, h1, h2⟩ => by
    obtain ⟨x, hx, hh⟩ := hl.seg.get h1.symm
    simp only [taskStep, hh]
    refine ⟨j + 1, by simp, ?_⟩
    have : (ys.map (·.1))[j]? = some x.1 := by simp [hx]
    rw [List.take_add_one, this, h2]; rfl

theorem iter_run {l : LinkedList V P} {as : List Nat} {ys : List (V × P)} (hl : Links l as ys) : ∀ (sched : List Nat) (s : System V),
    (∀ u, IterOk as ys (s.tasks u)) → ∀ u, IterOk as ys ((sysRun l s sched).tasks u)
  | [], _, h => h
  | t :: sched, s, h => by
    refine iter_run hl sched (sysStep l s t) ?_
    intro u
    simp only [sysStep]
    split
    · exact iter_step hl _ _ (h t)
    · exact h u

theorem iter_count {l : LinkedList V P} {as : List Nat} {ys : List (V × P)} (hl : Links l as ys) (t : Nat) : ∀ (sched : List Nat)
    (s : System V) (j : Nat), s.tasks t = .each as[j]? ((ys.map (·.1)).take j) →
    (sysRun l s sched).tasks t = .each as[j + sched.count t]? ((ys.map (·.1)).take (j + sched.count t))
  | [], _, _, h => h
  | u :: sched, s, j, h => by
    have e : sysRun l s (u :: sched) = sysRun l (sysStep l s u) sched := rfl
    rw [e]
    by_cases hu : u = t
    · subst hu
      have h1 : (sysStep l s u).tasks u = .each as[j + 1]? ((ys.map (·.1)).take (j + 1)) := by
        simp only [sysStep, if_true, h]
        rcases Nat.lt_or_ge j as.length with hj | hj
        · obtain ⟨x, hx, hh⟩ := hl.seg.get (List.getElem?_eq_getElem hj)
          have hx' : (ys.map (·.1))[j]? = some x.1 := by simp [hx]
          rw [List.getElem?_eq_getElem hj, List.take_add_one, hx']
          simp only [taskStep, hh, Option.or_none]; rfl
        · have hy : (ys.map (·.1)).length ≤ j := by rw [List.length_map, ← hl.seg.length]; exact hj
          rw [List.getElem?_eq_none hj, List.getElem?_eq_none (show as.length ≤ j + 1 by omega), List.take_of_length_le hy,
            List.take_of_length_le (show (ys.map (·.1)).length ≤ j + 1 by omega)]
          rfl
      rw [iter_count hl u sched _ _ h1, List.count_cons_self, show j + 1 + sched.count u = j + (sched.count u + 1) by omega]
    · have h1 : (sysStep l s u).tasks t = .each as[j]? ((ys.map (·.1)).take j) := by
        simp only [sysStep, if_neg (fun e : t = u => hu e.symm)]; exact h
      rw [iter_count hl t sched _ _ h1, List.count_cons_of_ne hu]

/-! ### Bad schedules -/

/-- Thread `t` runs for `k` steps. -/
theorem phase (l : LinkedList V P) (t : Nat) : ∀ (k : Nat) (s : System V) (pc : Pc V), s.tasks t = .get pc →
    (sysRun l s (List.replicate k t)).cursor = (alone l k (s.cursor, pc)).1 ∧
    (sysRun l s (List.replicate k t)).tasks t = .get (alone l k (s.cursor, pc)).2 ∧
    ∀ u, u ≠ t → (sysRun l s (List.replicate k t)).tasks u = s.tasks u
  | 0, s, pc, h => ⟨rfl, h, fun _ _ => rfl⟩
  | k + 1, s, pc, h => by
    have e : sysRun l s (List.replicate (k + 1) t) = sysRun l (sysStep l s t) (List.replicate k t) := rfl
    have e1 : (sysStep l s t).tasks t = .get (step l s.cursor pc).2 := by simp [sysStep, h, taskStep]
    have e2 : (sysStep l s t).cursor = (step l s.cursor pc).1 := by simp [sysStep, h, taskStep]
    obtain ⟨a, b, c⟩ := phase l t k (sysStep l s t) _ e1
    rw [e, a, b, e2]
    refine ⟨rfl, rfl, fun u hu => ?_⟩
    rw [c u hu]; simp [sysStep, hu]

theorem sysRun_append (l : LinkedList V P) (s : System V) (a b : List Nat) : sysRun l s (a ++ b) = sysRun l (sysRun l s a) b := by
  simp [sysRun]

/-! ### Readers that write nothing -/

/-- `n` times the body of a loop. -/
def times {S : Type} (f : S → S) : Nat → S → S
  | 0, s => s
  | n + 1, s => times f n (f s)

theorem times_add {S : Type} (f : S → S) : ∀ m n s, times f (m + n) s = times f n (times f m s)
  | 0, n, s => by simp [times]
  | m + 1, n, s => by rw [Nat.succ_add]; exact times_add f m n _

theorem readRun_spec {S : Type} (body : Nat → S → S) (t : Nat) : ∀ (sched : List Nat) (s : Nat → S),
    readRun body s sched t = times (body t) (sched.count t) (s t)
  | [], _ => rfl
  | u :: sched, s => by
    show readRun body (readStep body s u) sched t = _
    rw [readRun_spec body t sched, List.count_cons]
    by_cases h : t = u
    · subst h; simp [readStep, times]
    · have : (u == t) = false := by simp; exact fun e => h e.symm
      simp [readStep, h, this]

variable {K : Type}

theorem times_found (cmp : K → K → Int) (key : K) (v : Option V) : ∀ n, times (searchStep cmp key) n (.found v) = .found v
  | 0 => rfl
  | n + 1 => times_found cmp key v n

theorem search_enough (cmp : K → K → Int) (key : K) : ∀ (n : BTree.Node K V) (m : Nat), BTree.findCost cmp key n < m →
    times (searchStep cmp key) m (.at n) = .found (BTree.find cmp key n)
  | .nil, m + 1, _ => by
    simp only [times, searchStep]; exact times_found ..
  | .node l k v _ r, m + 1, h => by
    simp only [times, searchStep, BTree.find]
    simp only [BTree.findCost] at h
    by_cases h1 : cmp k key < 0
    · simp only [if_pos h1] at h ⊢; exact search_enough cmp key l m (by omega)
    · by_cases h2 : cmp k key > 0
      · simp only [if_neg h1, if_pos h2] at h ⊢; exact search_enough cmp key r m (by omega)
      · simp only [if_neg h1, if_neg h2]; exact times_found ..

/-- A search that is finished early has found what it finds later. -/
theorem search_any (cmp : K → K → Int) (key : K) (n : BTree.Node K V) (m : Nat) (v : Option V)
    (h : times (searchStep cmp key) m (.at n) = .found v) : v = BTree.find cmp key n := by
  have h1 := search_enough cmp key n (m + (BTree.findCost cmp key n + 1)) (by omega)
  rw [times_add, h, times_found] at h1
  injection h1

theorem times_probed (eqv : K → K → Bool) (rows : List (HTable.Row K V)) (key : K) (r : Nat) (st : HTable.Status) : ∀ n,
    times (probeStep eqv rows key) n (.found r st) = .found r st
  | 0 => rfl
  | n + 1 => times_probed eqv rows key r st n

theorem probe_enough (eqv : K → K → Bool) (rows : List (HTable.Row K V)) (key : K) (r : Nat) (st : HTable.Status) :
    ∀ (f i x : Nat) (fd : Option Nat) (m : Nat), f ≤ m → HTable.findLoop eqv rows key f i x fd = .ok (r, st) →
    times (probeStep eqv rows key) m (.at i x fd) = .found r st
  | 0, _, _, _, _, _, h => by cases h
  | f + 1, i, x, fd, m + 1, hm, h => by
    simp only [times, probeStep]
    simp only [HTable.findLoop] at h
    revert h
    cases rows[x]? with
    | none => intro h; cases h
    | some row =>
      cases row with
      | empty =>
        cases fd with
        | none => intro h; cases h; exact times_probed ..
        | some d => intro h; cases h; exact times_probed ..
      | active k v =>
        simp only
        by_cases he : eqv k key = true
        · rw [if_pos he, if_pos he]; intro h; cases h; exact times_probed ..
        · rw [if_neg he, if_neg he]; intro h; exact probe_enough eqv rows key r st f _ _ _ m (by omega) h
      | deleted => intro h; exact probe_enough eqv rows key r st f _ _ _ m (by omega) h

theorem probe_any (eqv : K → K → Bool) (rows : List (HTable.Row K V)) (key : K) {r r' : Nat} {st st' : HTable.Status} {f i x : Nat}
    {fd : Option Nat} {m : Nat} (h : HTable.findLoop eqv rows key f i x fd = .ok (r, st))
    (h' : times (probeStep eqv rows key) m (.at i x fd) = .found r' st') : r' = r ∧ st' = st := by
  have h1 := probe_enough eqv rows key r st f i x fd (m + f) (by omega) h
  rw [times_add, h', times_probed] at h1
  injection h1 with a b; exact ⟨a, b⟩

end Readers
end Duck
