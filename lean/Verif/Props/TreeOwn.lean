import Verif.Lemmas.TreeOwn
import Verif.Props.BinaryTree
/-! C97: trees own what they hold. -/
namespace Duck
namespace TreeOwn
open BTree
open HTable (Policy)

theorem replay_append (c : Counts) (a b : List Ev) : replay c (a ++ b) = (replay c a).bind fun c => replay c b := by
  induction a generalizing c with
  | nil => rfl
  | cons e a ih =>
    simp only [List.cons_append, replay]
    cases happens c e with
    | none => rfl
    | some d => exact ih d

theorem replay_uses {c : Counts} {us : List Ev} (h : ∀ e ∈ us, ∃ x, e = .use x ∧ c x ≠ 0) : replay c us = some c := by
  induction us with
  | nil => rfl
  | cons e us ih =>
    obtain ⟨x, rfl, hx⟩ := h e List.mem_cons_self
    simp only [replay, happens, hx, if_false, Option.bind_some]
    exact ih fun e he => h e (List.mem_cons_of_mem _ he)

theorem setCount_apply (c : Counts) (x y : Id) (n : Nat) : setCount c x n y = if y = x then n else c y := rfl

theorem replay_retains : ∀ (L : List Id) {c : Counts}, (∀ x ∈ L, c x ≠ 0) → ∃ c', replay c (L.map .retain) = some c' ∧ ∀ x, c' x = c x + L.count x := by
  intro L
  induction L with
  | nil => intro c _; exact ⟨c, rfl, fun x => by simp⟩
  | cons y L ih =>
    intro c h
    have hy := h y List.mem_cons_self
    obtain ⟨c', h1, h2⟩ := ih (c := setCount c y (c y + 1)) (fun x hx => by
      rw [setCount_apply]
      split
      · omega
      · exact h x (List.mem_cons_of_mem _ hx))
    refine ⟨c', by simp only [List.map_cons, replay, happens, hy, if_false, Option.bind_some, h1], fun x => ?_⟩
    rw [h2, setCount_apply, List.count_cons]
    by_cases e : x = y
    · subst e; simp; omega
    · have : ¬ (y == x) = true := by simpa using fun h => e h.symm
      simp [e, this]

theorem replay_releases : ∀ (L : List Id) {c : Counts}, (∀ x, L.count x ≤ c x) → ∃ c', replay c (L.map .release) = some c' ∧ ∀ x, c' x + L.count x = c x := by
  intro L
  induction L with
  | nil => intro c _; exact ⟨c, rfl, fun x => by simp⟩
  | cons y L ih =>
    intro c h
    have hy : c y ≠ 0 := by have := h y; simp at this; omega
    have hc : ∀ x, (y :: L).count x = L.count x + if x = y then 1 else 0 := by
      intro x
      rw [List.count_cons]
      by_cases e : x = y
      · subst e; simp
      · have : ¬ (y == x) = true := by simpa using fun h => e h.symm
        simp [e, this]
    obtain ⟨c', h1, h2⟩ := ih (c := setCount c y (c y - 1)) (fun x => by
      have := h x
      rw [hc] at this
      rw [setCount_apply]
      split
      · rename_i e; subst e; simp at this; omega
      · rename_i e; simp [e] at this; omega)
    refine ⟨c', by simp only [List.map_cons, replay, happens, hy, if_false, Option.bind_some, h1], fun x => ?_⟩
    have h3 := h2 x
    rw [setCount_apply] at h3
    rw [hc]
    split at h3
    · rename_i e; subst e; simp; omega
    · rename_i e; simp [e]; omega

theorem retainO_eq (o : Option Id) : retainO o = o.toList.map .retain := by cases o <;> rfl
theorem releaseO_eq (o : Option Id) : releaseO o = o.toList.map .release := by cases o <;> rfl
theorem freeLog_eq (e : Id × Option Id) : freeLog e = (refsOf e).map .release := by simp [freeLog, refsOf, releaseO_eq]

theorem held_append (a b : List (Id × Option Id)) (x : Id) : held (a ++ b) x = held a x + held b x := by
  simp [held, List.flatMap_append, List.count_append]

theorem held_cons (e : Id × Option Id) (m : List (Id × Option Id)) (x : Id) : held (e :: m) x = (refsOf e).count x + held m x := by
  simp [held, List.flatMap_cons, List.count_append]

theorem held_perm {a b : List (Id × Option Id)} (h : a.Perm b) (x : Id) : held a x = held b x := (h.flatMap_right refsOf).count_eq x

theorem held_key {m : List (Id × Option Id)} {n : Id × Option Id} (h : n ∈ m) : 1 ≤ held m n.1 :=
  List.count_pos_iff.2 (List.mem_flatMap.2 ⟨n, h, List.mem_cons_self⟩)

theorem refs_entry (k : Id) (o : Option Id) (x : Id) : (refsOf (k, o)).count x = [k].count x + o.toList.count x := by
  rw [refsOf, ← List.singleton_append, List.count_append]

/-- Comparisons of keys that exist do nothing. -/
theorem uses_ok {m : List (Id × Option Id)} {ks : List Id} {us : List Ev} {c : Counts} (h : Uses m ks us) (hm : ∀ x, held m x ≤ c x)
    (hk : ∀ x ∈ ks, c x ≠ 0) : replay c us = some c := by
  refine replay_uses fun e he => ?_
  obtain ⟨x, rfl, hx⟩ := h e he
  refine ⟨x, rfl, ?_⟩
  rcases hx with ⟨n, hn, rfl⟩ | hx
  · have := held_key hn; have := hm n.1; omega
  · exact hk x hx

/-- What an insertion leaves. -/
theorem inserted_ok {key : Id} {object : Option Id} {m m' : List (Id × Option Id)} {l : List Ev} {b : Bool} (h : Inserted key object m m' l b)
    {c : Counts} {base : Id → Nat} (hb : ∀ x, c x = base x + held m x) (hk : c key ≠ 0) (ho : ∀ x, object = some x → c x ≠ 0) :
    ∃ c', replay c l = some c' ∧ ∀ x, c' x = base x + held m' x := by
  cases h with
  | same => exact ⟨c, rfl, hb⟩
  | new hp =>
    obtain ⟨c', h1, h2⟩ := replay_retains (refsOf (key, object)) (c := c) (fun x hx => by
      simp only [refsOf, List.mem_cons, Option.mem_toList] at hx
      rcases hx with rfl | hx
      · exact hk
      · exact ho x hx)
    refine ⟨c', by rw [← h1]; simp [refsOf, retainO_eq], fun x => ?_⟩
    rw [h2, hb, held_perm hp, held_cons]
    omega
  | @replaced L k v R e =>
    subst e
    obtain ⟨c1, h1, h2⟩ := replay_retains object.toList (c := c) (fun x hx => ho x (by simpa using hx))
    obtain ⟨c', h3, h4⟩ := replay_releases v.toList (c := c1) (fun x => by
      rw [h2, hb, held_append, held_cons, refs_entry]
      omega)
    refine ⟨c', by rw [retainO_eq, releaseO_eq, replay_append, h1]; exact h3, fun x => ?_⟩
    have e1 := h2 x
    have e2 := h4 x
    have e3 := hb x
    rw [held_append, held_cons, refs_entry] at e3 ⊢
    omega

theorem removeAll_log : ∀ t : Node Id (Option Id), removeAllLog t = ((toList t).flatMap refsOf).map .release := by
  intro t
  induction t with
  | nil => rfl
  | node l k v lev r ihl ihr =>
    simp [removeAllLog, ihl, ihr, freeLog_eq, List.flatMap_append, List.flatMap_cons]

/-- The tree is in order and every count is explained. -/
structure Inv (cmp : Id → Id → Int) (w : World) : Prop where
  aa : AA w.tree.root
  ss : SS cmp (toList w.tree.root)
  counts : ∀ x, w.counts x = w.client x + held (toList w.tree.root) x

theorem step_ok {cmp : Id → Id → Int} (hc : Spec.TotalPreorder cmp) {w : World} (h : Inv cmp w) {op : Op} (hl : Legal w op) :
    ∃ w', step cmp w op = some w' ∧ Inv cmp w' := by
  have hle : ∀ x, held (toList w.tree.root) x ≤ w.counts x := fun x => by rw [h.counts]; omega
  cases op with
  | create x =>
    have hx : w.counts x = 0 := hl
    refine ⟨{ w with counts := setCount w.counts x 1, client := setCount w.client x (w.client x + 1) }, by simp [step, happens, hx], h.aa, h.ss, fun y => ?_⟩
    have := h.counts y
    simp only [setCount_apply]
    split
    · rename_i e; subst e; omega
    · exact this
  | retain x =>
    have hx : w.counts x ≠ 0 := hl
    refine ⟨{ w with counts := setCount w.counts x (w.counts x + 1), client := setCount w.client x (w.client x + 1) }, by simp [step, happens, hx], h.aa, h.ss, fun y => ?_⟩
    have := h.counts y
    simp only [setCount_apply]
    split
    · rename_i e; subst e; omega
    · exact this
  | release x =>
    have hx : w.client x ≠ 0 := hl
    have hx' : w.counts x ≠ 0 := by rw [h.counts]; omega
    refine ⟨{ w with counts := setCount w.counts x (w.counts x - 1), client := setCount w.client x (w.client x - 1) }, by simp [step, happens, hx'], h.aa, h.ss, fun y => ?_⟩
    have := h.counts y
    simp only [setCount_apply]
    split
    · rename_i e; subst e; omega
    · exact this
  | insert key copy object p =>
    obtain ⟨hk, hcp, ho⟩ := hl
    obtain ⟨t', b, e1, e2, e3, -⟩ := insert_ok hc copy object p w.tree.root h.aa h.ss
    obtain ⟨us, tl, i1, i2, i3⟩ := insert_log cmp copy object p w.tree.root e1
    have copied : ∃ c1, replay w.counts (copyLog key copy) = some c1 ∧ ∀ x, c1 x = w.counts x + [copy].count x := by
      by_cases e : copy = key
      · subst e
        obtain ⟨c1, a1, a2⟩ := replay_retains [copy] (c := w.counts) (by simpa using hk)
        exact ⟨c1, by simpa [copyLog] using a1, a2⟩
      · have h0 := hcp.resolve_left e
        refine ⟨setCount w.counts copy 1, by simp [copyLog, e, replay, happens, hk, h0], fun x => ?_⟩
        rw [setCount_apply, List.count_singleton]
        by_cases e : x = copy
        · subst e; simp [h0]
        · have : ¬ (copy == x) = true := by simpa using fun h => e h.symm
          simp [e, this]
    obtain ⟨c1, a1, a2⟩ := copied
    have hu : replay c1 us = some c1 := uses_ok i2 (fun x => by rw [a2]; have := hle x; omega) (fun x hx => by
      simp only [List.mem_singleton] at hx; subst hx; rw [a2]; simp)
    obtain ⟨c2, b1, b2⟩ := inserted_ok i3 (c := c1) (base := fun x => w.client x + [copy].count x) (fun x => by rw [a2, h.counts]; omega)
      (by rw [a2]; simp) (fun x hx => by rw [a2]; have := ho x hx; omega)
    obtain ⟨c3, d1, d2⟩ := replay_releases [copy] (c := c2) (fun x => by rw [b2]; omega)
    have hrun : replay w.counts (copyLog key copy ++ insertLog cmp copy object p w.tree.root ++ [.release copy]) = some c3 := by
      rw [replay_append, replay_append, a1, i1, Option.bind_some, replay_append, hu, Option.bind_some, b1, Option.bind_some]
      exact d1
    refine ⟨{ w with tree := ⟨t', if b then w.tree.count + 1 else w.tree.count⟩, counts := c3, nodes := if b then w.nodes + 1 else w.nodes },
      by simp only [step, hrun, Option.bind_some, put, e1, Option.map_some], e2, ?_, fun x => ?_⟩
    · show SS cmp (toList t')
      rw [e3]; exact insL_sorted hc _ _ _ _ h.ss
    · have := d2 x; rw [b2] at this
      show c3 x = w.client x + held (toList t') x
      omega
  | add y =>
    have hy : w.counts y ≠ 0 := hl
    obtain ⟨t', b, e1, e2, e3, -⟩ := insert_ok hc y (some y) .ifNotFound w.tree.root h.aa h.ss
    obtain ⟨us, tl, i1, i2, i3⟩ := insert_log cmp y (some y) .ifNotFound w.tree.root e1
    have hu : replay w.counts us = some w.counts := uses_ok i2 hle (fun x hx => by
      simp only [List.mem_singleton] at hx; subst hx; exact hy)
    obtain ⟨c2, b1, b2⟩ := inserted_ok i3 (c := w.counts) (base := w.client) h.counts hy (fun x hx => by cases hx; exact hy)
    have hrun : replay w.counts (insertLog cmp y (some y) .ifNotFound w.tree.root) = some c2 := by
      rw [i1, replay_append, hu, Option.bind_some, b1]
    refine ⟨{ w with tree := ⟨t', if b then w.tree.count + 1 else w.tree.count⟩, counts := c2, nodes := if b then w.nodes + 1 else w.nodes },
      by simp only [step, hrun, Option.bind_some, put, e1, Option.map_some], e2, ?_, b2⟩
    show SS cmp (toList t')
    rw [e3]; exact insL_sorted hc _ _ _ _ h.ss
  | remove key =>
    have hk : w.counts key ≠ 0 := hl
    obtain ⟨q, e1, e2, e3, e4, e5⟩ := removeRec_ok hc key w.tree.root none (fun _ he => nomatch he) h.aa h.ss
    obtain ⟨us, tl, i1, i2, i3⟩ := remove_log cmp key w.tree.root none h.aa e1
    have hu : replay w.counts us = some w.counts := uses_ok i2 hle (fun x hx => by
      simp at hx; subst hx; exact hk)
    have htl : ∃ c2, replay w.counts tl = some c2 ∧ ∀ x, c2 x = w.client x + held (toList q.tree) x := by
      cases i3 with
      | same a1 a2 a3 => exact ⟨w.counts, rfl, fun x => by rw [a3]; exact h.counts x⟩
      | here e a1 a2 a3 =>
        obtain ⟨c2, b1, b2⟩ := replay_releases (refsOf e) (c := w.counts) (fun x => by
          rw [h.counts, held_perm a3, held_cons]; omega)
        refine ⟨c2, by rw [freeLog_eq]; exact b1, fun x => ?_⟩
        have := b2 x
        rw [h.counts, held_perm a3, held_cons] at this
        omega
      | above e x a1 a2 a3 a4 => cases a3
    obtain ⟨c2, b1, b2⟩ := htl
    have hrun : replay w.counts (removeLog cmp key none w.tree.root) = some c2 := by
      rw [i1, replay_append, hu, Option.bind_some, b1]
    refine ⟨{ w with tree := ⟨q.tree, if q.erased then w.tree.count - 1 else w.tree.count⟩, counts := c2 },
      by simp only [step, hrun, Option.bind_some, BTree.remove, e1, Option.map_some], e5.1, ?_, b2⟩
    show SS cmp (toList q.tree)
    rw [e3]; exact List.Pairwise.filter _ h.ss
  | removeAll =>
    obtain ⟨c2, b1, b2⟩ := replay_releases ((toList w.tree.root).flatMap refsOf) (c := w.counts) hle
    refine ⟨{ w with tree := BTree.removeAll w.tree, counts := c2 }, by simp only [step, removeAll_log, b1, Option.map_some], trivial, List.Pairwise.nil,
      fun x => ?_⟩
    have := b2 x
    rw [h.counts] at this
    show c2 x = w.client x + 0
    simp only [held] at this
    omega
  | get key =>
    have hk : w.counts key ≠ 0 := hl
    have hu : replay w.counts (findLog cmp key w.tree.root) = some w.counts := uses_ok (find_log cmp key _) hle (fun x hx => by
      simp at hx; subst hx; exact hk)
    exact ⟨w, by simp only [step, hu, Option.map_some], h⟩

theorem reach_inv {cmp : Id → Id → Int} (hc : Spec.TotalPreorder cmp) {w : World} (h : Reach cmp w) : Inv cmp w := by
  induction h with
  | start => exact ⟨trivial, List.Pairwise.nil, fun _ => rfl⟩
  | step _ hl hs ih =>
    obtain ⟨w', h1, h2⟩ := step_ok hc ih hl
    rw [hs] at h1
    cases h1
    exact h2

/-- **C97, safe.** In every history of legal calls no call touches an object that was freed, whoever owns the objects passed to it. -/
theorem C97_safe {cmp : Id → Id → Int} (hc : Spec.TotalPreorder cmp) {w : World} (h : Reach cmp w) {op : Op} (hl : Legal w op) :
    ∃ w', step cmp w op = some w' ∧ Reach cmp w' := by
  obtain ⟨w', h1, -⟩ := step_ok hc (reach_inv hc h) hl
  exact ⟨w', h1, h.step hl h1⟩

/-- **C97, owned.** The references to an object are those of the user and one for every entry it is the key of and for every entry it is the object of. -/
theorem C97_owned {cmp : Id → Id → Int} (hc : Spec.TotalPreorder cmp) {w : World} (h : Reach cmp w) (x : Id) :
    w.counts x = w.client x + (((contents w.tree).map (·.1)).count x + ((contents w.tree).filterMap (·.2)).count x) := by
  have hi := (reach_inv hc h).counts x
  rw [hi, contents_eq]
  congr 1
  generalize toList w.tree.root = m
  induction m with
  | nil => rfl
  | cons e m ih =>
    rw [held_cons, ih, List.map_cons, List.count_cons]
    obtain ⟨k, o⟩ := e
    rw [refs_entry, List.count_singleton]
    cases o with
    | none => simp; omega
    | some o => simp [List.count_cons]; omega

/-- **C97, given back.** When the tree is emptied or finalized, only the references of the user are left. -/
theorem C97_released {cmp : Id → Id → Int} (hc : Spec.TotalPreorder cmp) {w : World} (h : Reach cmp w) :
    ∃ w', step cmp w .removeAll = some w' ∧ contents w'.tree = [] ∧ w'.counts = w.client := by
  obtain ⟨w', h1, h2⟩ := C97_safe hc h (op := .removeAll) trivial
  have hi := reach_inv hc h2
  simp only [step, Option.map_eq_some_iff] at h1
  obtain ⟨c, hr, rfl⟩ := h1
  exact ⟨_, by simp only [step, hr, Option.map_some], rfl, funext fun x => hi.counts x⟩

/-- **C97 (violated), nodes.** The memory of a tree does not depend on what it holds: an empty tree can keep any number of nodes, as the nodes of
    removed entries are not returned to the pool. -/
theorem C97_nodes_fails {cmp : Id → Id → Int} (hc : Spec.TotalPreorder cmp) (n : Nat) :
    ∃ w, Reach cmp w ∧ contents w.tree = [] ∧ w.tree.count = 0 ∧ w.nodes = n := by
  suffices hs : ∃ w, Reach cmp w ∧ w.tree = BTree.init ∧ w.nodes = n ∧ w.client 0 = 1 by
    obtain ⟨w, h1, h2, h3, -⟩ := hs
    exact ⟨w, h1, by rw [h2]; rfl, by rw [h2]; rfl, h3⟩
  induction n with
  | zero =>
    refine ⟨{ start with counts := setCount start.counts 0 1, client := setCount start.client 0 1 }, Reach.start.step (op := .create 0) rfl rfl, rfl, rfl, rfl⟩
  | succ n ih =>
    obtain ⟨w, h1, h2, h3, h4⟩ := ih
    have hi := (reach_inv hc h1).counts 0
    have hc0 : w.counts 0 ≠ 0 := by omega
    have heq : cmp 0 0 = 0 := by have := hc.antisymm 0 0; omega
    obtain ⟨w1, a1, a2⟩ := C97_safe hc h1 (op := .add 0) hc0
    have hw1 : w1.tree = ⟨.node .nil 0 (some 0) 1 .nil, 1⟩ ∧ w1.client = w.client ∧ w1.nodes = n + 1 := by
      simp only [step, h2, BTree.init, Option.bind_eq_some_iff] at a1
      obtain ⟨c, -, a1⟩ := a1
      simp only [put, h2, BTree.init, insertRec] at a1
      cases a1
      exact ⟨rfl, rfl, by simp [h3]⟩
    have hi1 := (reach_inv hc a2).counts 0
    have hc1 : w1.counts 0 ≠ 0 := by rw [hw1.2.1] at hi1; omega
    obtain ⟨w2, b1, b2⟩ := C97_safe hc a2 (op := .remove 0) hc1
    refine ⟨w2, b2, ?_⟩
    simp only [step, Option.bind_eq_some_iff] at b1
    obtain ⟨c, -, b1⟩ := b1
    rw [hw1.1] at b1
    simp only [BTree.remove, removeRec, heq] at b1
    cases b1
    exact ⟨rfl, hw1.2.2, by rw [hw1.2.1]; exact h4⟩

/-! Runs by computation. -/

instance (w : World) (op : Op) : Decidable (Legal w op) := by
  cases op with
  | insert key copy object p =>
    simp only [Legal]
    have : Decidable (∀ x, object = some x → w.counts x ≠ 0) := match object with
      | none => .isTrue (fun _ h => nomatch h)
      | some y => if h : w.counts y ≠ 0 then .isTrue (fun x e => by cases e; exact h) else .isFalse (fun hh => h (hh y rfl))
    exact inferInstance
  | _ => simp only [Legal]; exact inferInstance

def runs (cmp : Id → Id → Int) (w : World) : List Op → Option World
  | [] => some w
  | op :: ops => if Legal w op then (step cmp w op).bind fun w => runs cmp w ops else none

theorem runs_reach {cmp : Id → Id → Int} : ∀ {ops : List Op} {w w' : World}, Reach cmp w → runs cmp w ops = some w' → Reach cmp w' := by
  intro ops
  induction ops with
  | nil => intro w w' h he; cases he; exact h
  | cons op ops ih =>
    intro w w' h he
    simp only [runs] at he
    split at he
    · rename_i hl
      simp only [Option.bind_eq_some_iff] at he
      obtain ⟨v, hv, he⟩ := he
      exact ih (h.step hl hv) he
    · cases he

def order (a b : Id) : Int := (b / 10 : Nat) - (a / 10 : Nat)

theorem order_total : Spec.TotalPreorder order :=
  ⟨by intro a b; simp only [order]; omega, by intro a b c; simp only [order]; omega⟩

/-- Mutable and immutable keys (10 is copied to 11, 20 is its own copy), an object replaced by itself and by another, removal of an inner node
    by the key in the tree itself, whose last reference that is, and a set. -/
example : ∃ w, Reach order w ∧ contents w.tree = [(11, some 10), (30, some 30)] ∧ w.counts 10 = 1 ∧ w.counts 11 = 1 ∧ w.counts 20 = 0 ∧ w.counts 30 = 3 ∧
    w.nodes = 3 := by
  have h : ∃ w, runs order start [.create 10, .create 20, .create 30, .insert 10 11 (some 20) .always, .insert 20 20 (some 20) .always,
      .insert 20 20 (some 20) .always, .insert 10 12 (some 10) .always, .add 30, .release 10, .release 20, .get 20, .remove 20] = some w ∧
      contents w.tree = [(11, some 10), (30, some 30)] ∧ w.counts 10 = 1 ∧ w.counts 11 = 1 ∧ w.counts 20 = 0 ∧ w.counts 30 = 3 ∧ w.nodes = 3 :=
    ⟨_, rfl, by decide +kernel⟩
  obtain ⟨w, h1, h2⟩ := h
  exact ⟨w, runs_reach .start h1, h2⟩

end TreeOwn
end Duck
