import Verif.Spec.BinaryTree
/-! AA-tree balance, and the in-order list of every operation. -/
namespace Duck
namespace BTree
open HTable (Policy)
variable {K V : Type}

/-- In-order list of a tree. -/
def toList : Node K V → List (K × V)
  | .nil => []
  | .node l k v _ r => toList l ++ (k, v) :: toList r

@[simp] theorem level_nil : (Node.nil : Node K V).level = 0 := rfl
@[simp] theorem right_nil : (Node.nil : Node K V).right = .nil := rfl
@[simp] theorem level_node (l : Node K V) (k v lev r) : (Node.node l k v lev r).level = lev := rfl
@[simp] theorem right_node (l : Node K V) (k v lev r) : (Node.node l k v lev r).right = r := rfl
@[simp] theorem toList_nil : toList (Node.nil : Node K V) = [] := rfl
@[simp] theorem toList_node (l : Node K V) (k v lev r) :
    toList (.node l k v lev r) = toList l ++ (k, v) :: toList r := rfl

/-- The AA-tree level discipline. -/
def AA : Node K V → Prop
  | .nil => True
  | .node l _ _ lev r =>
    AA l ∧ AA r ∧ lev = l.level + 1 ∧ (r.level = lev ∨ r.level = lev - 1) ∧ r.right.level < lev

theorem AA.nonneg : ∀ {t : Node K V}, AA t → 0 ≤ t.level
  | .nil, _ => Int.le_refl 0
  | .node l _ _ lev r, h => by
    have := AA.nonneg h.1
    obtain ⟨_, _, h3, _⟩ := h
    simp only [level_node]; omega

theorem AA.pos {l : Node K V} {k v lev r} (h : AA (.node l k v lev r)) : 1 ≤ lev := by
  have := AA.nonneg h.1; obtain ⟨_, _, h3, _⟩ := h; omega

theorem AA.eq_nil {t : Node K V} (h : AA t) (h0 : t.level ≤ 0) : t = .nil := by
  cases t with
  | nil => rfl
  | node l k v lev r => have := h.pos; simp only [level_node] at h0; omega

theorem skew_rot (ll : Node K V) (lk lv lev lr k v r) :
    skew (.node (.node ll lk lv lev lr) k v lev r) = some (.node ll lk lv lev (.node lr k v lev r)) := by
  unfold skew; exact if_pos rfl

theorem skew_stay {l : Node K V} {k v lev r} (h : l.level ≠ lev) : skew (.node l k v lev r) = some (.node l k v lev r) := by
  unfold skew; exact if_neg h

theorem split_rot {l : Node K V} {k v lev rl rk rv rlev rr} (h : rr.level = lev) :
    split (.node l k v lev (.node rl rk rv rlev rr)) = some (.node (.node l k v lev rl) rk rv (rlev + 1) rr) := by
  unfold split; exact if_pos h

theorem split_stay {l : Node K V} {k v lev r} (h : r.right.level ≠ lev) :
    split (.node l k v lev r) = some (.node l k v lev r) := by
  unfold split; exact if_neg h

theorem onR {f : Node K V → Option (Node K V)} {l : Node K V} {k v lev r r'} (h : f r = some r') :
    onRight f (.node l k v lev r) = some (.node l k v lev r') := by
  simp only [onRight, h, Option.map]

theorem lower_both {l : Node K V} {k v lev rl rk rv rlev rr} (h : rlev > lev - 1) :
    lower l k v lev (.node rl rk rv rlev rr) = some (.node l k v (lev - 1) (.node rl rk rv (lev - 1) rr)) := by
  unfold lower; rw [if_pos (by exact h)]; rfl

theorem lower_one {l : Node K V} {k v lev r} (h : ¬ r.level > lev - 1) :
    lower l k v lev r = some (.node l k v (lev - 1) r) := by
  unfold lower; exact if_neg h

theorem rebalance_chain {l : Node K V} {k v lev r} {t1 t2 t3 t4 t5 t6 : Node K V}
    (h : l.level < lev - 1 ∨ r.level < lev - 1) (h1 : lower l k v lev r = some t1) (h2 : skew t1 = some t2)
    (h3 : onRight skew t2 = some t3) (h4 : onRight (onRight skew) t3 = some t4) (h5 : split t4 = some t5)
    (h6 : onRight split t5 = some t6) : rebalance l k v lev r = some t6 := by
  unfold rebalance
  rw [if_pos h, h1, Option.bind_some, h2, Option.bind_some, h3, Option.bind_some, h4, Option.bind_some, h5,
    Option.bind_some, h6]

/-! ### Insertion -/

theorem fix_left {l' : Node K V} {k v lev} {r : Node K V} (hl : AA l') (hr : AA r)
    (h1 : l'.level = lev - 1 ∨ (l'.level = lev ∧ l'.right.level = lev - 1)) (h0 : 1 ≤ lev)
    (h3 : r.level = lev ∨ r.level = lev - 1) (h4 : r.right.level < lev) :
    ∃ t, ((skew (.node l' k v lev r)).bind split) = some t ∧ AA t ∧ toList t = toList l' ++ (k, v) :: toList r ∧
      (t.level = lev ∨ (t.level = lev + 1 ∧ t.right.level = lev ∧ r.level = lev)) := by
  rcases h1 with h1 | ⟨h1, h2⟩
  · refine ⟨.node l' k v lev r, ?_, ⟨hl, hr, by omega, h3, h4⟩, rfl, Or.inl rfl⟩
    rw [skew_stay (by omega), Option.bind_some, split_stay (by omega)]
  · cases l' with
    | nil => simp only [level_nil] at h1; omega
    | node ll lk lv llev lr =>
      simp only [level_node, right_node] at h1 h2
      subst h1
      obtain ⟨a1, a2, a3, a4, a5⟩ := hl
      by_cases hrl : r.level = llev
      · refine ⟨.node (.node ll lk lv llev lr) k v (llev + 1) r, ?_, ⟨⟨a1, a2, a3, a4, a5⟩, hr, ?_, ?_, ?_⟩, ?_, ?_⟩
        · rw [skew_rot, Option.bind_some, split_rot hrl]
        · simp only [level_node]
        · omega
        · omega
        · simp
        · right; simp [hrl]
      · refine ⟨.node ll lk lv llev (.node lr k v llev r), ?_, ⟨a1, ⟨a2, hr, by omega, h3, h4⟩, a3, ?_, ?_⟩, ?_, ?_⟩
        · rw [skew_rot, Option.bind_some, split_stay (by simpa using hrl)]
        · simp
        · simp only [right_node]; omega
        · simp
        · left; rfl

theorem fix_right {l : Node K V} {k v lev} {r' : Node K V} (hl : AA l) (hr : AA r')
    (h1 : l.level = lev - 1) (h0 : 1 ≤ lev)
    (h3 : (r'.level = lev - 1) ∨ r'.level = lev) :
    ∃ t, ((skew (.node l k v lev r')).bind split) = some t ∧ AA t ∧ toList t = toList l ++ (k, v) :: toList r' ∧
      ((t.level = lev ∧ r'.right.level < lev) ∨ (t.level = lev + 1 ∧ t.right.level = lev ∧ r'.right.level = lev)) := by
  by_cases hs : r'.right.level = lev
  · cases r' with
    | nil => simp only [right_nil, level_nil] at hs; omega
    | node rl rk rv rlev rr =>
      simp only [right_node, level_node] at hs h3
      obtain ⟨a1, a2, a3, a4, a5⟩ := hr
      have : rlev = lev := by omega
      subst this
      refine ⟨.node (.node l k v rlev rl) rk rv (rlev + 1) rr, ?_, ⟨⟨hl, a1, ?_, ?_, ?_⟩, a2, ?_, ?_, ?_⟩, ?_, ?_⟩
      · rw [skew_stay (by omega), Option.bind_some, split_rot hs]
      · omega
      · omega
      · have : rl.right.level ≤ rl.level := by
          cases rl with
          | nil => simp
          | node => have := a1.2.2.2.1; simp only [right_node, level_node]; omega
        omega
      · simp only [level_node]
      · omega
      · omega
      · simp
      · right; simp [hs]
  · have hlt : r'.right.level < lev := by
      cases r' with
      | nil => simp only [right_nil, level_nil]; omega
      | node rl rk rv rlev rr => have := hr.2.2.2.1; simp only [right_node, level_node] at *; omega
    refine ⟨.node l k v lev r', ?_, ⟨hl, hr, by omega, by omega, hlt⟩, rfl, Or.inl ⟨rfl, hlt⟩⟩
    rw [skew_stay (by omega), Option.bind_some, split_stay (by omega)]

/-- List-level insertion at the sorted position. -/
def insL (cmp : K → K → Int) (key : K) (object : V) (p : Policy) : List (K × V) → List (K × V)
  | [] => if p = .ifFound then [] else [(key, object)]
  | (k, v) :: m =>
    if cmp k key < 0 then (if p = .ifFound then (k, v) :: m else (key, object) :: (k, v) :: m)
    else if cmp k key > 0 then (k, v) :: insL cmp key object p m
    else if p = .ifNotFound then (k, v) :: m else (k, object) :: m

theorem insL_left (cmp : K → K → Int) (key : K) (object : V) (p : Policy) {k : K} {v : V} {R : List (K × V)}
    (h : cmp k key < 0) : ∀ L : List (K × V),
    insL cmp key object p (L ++ (k, v) :: R) = insL cmp key object p L ++ (k, v) :: R
  | [] => by simp only [List.nil_append, insL, h, if_true]; split <;> rfl
  | (k0, v0) :: L => by
    simp only [List.cons_append, insL]
    split
    · split <;> rfl
    · split
      · rw [insL_left cmp key object p h L]; rfl
      · split <;> rfl

theorem insL_skip (cmp : K → K → Int) (key : K) (object : V) (p : Policy) {R : List (K × V)} :
    ∀ L : List (K × V), (∀ e ∈ L, cmp e.1 key > 0) →
    insL cmp key object p (L ++ R) = L ++ insL cmp key object p R
  | [], _ => rfl
  | (k0, v0) :: L, h => by
    have h0 : cmp k0 key > 0 := h (k0, v0) (by simp)
    simp only [List.cons_append, insL]
    rw [if_neg (by omega), if_pos h0, insL_skip cmp key object p L (fun e he => h e (by simp [he]))]

/-- Sorted, no duplicates, in order: left keys before the node, right keys after. -/
abbrev SS (cmp : K → K → Int) (m : List (K × V)) : Prop := StrictlySorted cmp m

variable {cmp : K → K → Int}

theorem gt_trans (hc : Spec.TotalPreorder cmp) {a b c : K} (h1 : 0 < cmp a b) (h2 : 0 ≤ cmp b c) : 0 < cmp a c := by
  rcases Int.lt_or_le 0 (cmp a c) with h | h
  · exact h
  · have h3 : 0 ≤ cmp c a := by
      rcases Int.lt_or_le (cmp c a) 0 with hcon | hcon
      · have := (hc.antisymm a c).mpr hcon
        omega
      · exact hcon
    have h4 := hc.trans _ _ _ h2 h3
    have := (hc.antisymm a b).mp h1
    omega

theorem gt_trans' (hc : Spec.TotalPreorder cmp) {a b c : K} (h1 : 0 ≤ cmp a b) (h2 : 0 < cmp b c) : 0 < cmp a c := by
  rcases Int.lt_or_le 0 (cmp a c) with h | h
  · exact h
  · have h3 : 0 ≤ cmp c a := by
      rcases Int.lt_or_le (cmp c a) 0 with hcon | hcon
      · have := (hc.antisymm a c).mpr hcon
        omega
      · exact hcon
    have h4 := hc.trans _ _ _ h3 h1
    have := (hc.antisymm b c).mp h2
    omega

theorem cmp_zero_symm (hc : Spec.TotalPreorder cmp) {a b : K} (h : cmp a b = 0) : cmp b a = 0 := by
  have h1 := hc.antisymm a b
  have h2 := hc.antisymm b a
  omega

/-- In a sorted list around `(k, v)`: everything before it is before any key not before `k`. -/
theorem SS.left (hc : Spec.TotalPreorder cmp) {L R : List (K × V)} {k : K} {v : V} {key : K}
    (h : SS cmp (L ++ (k, v) :: R)) (hk : 0 ≤ cmp k key) : ∀ e ∈ L, cmp e.1 key > 0 := by
  intro e he
  have := (List.pairwise_append.mp h).2.2 e he (k, v) (by simp)
  exact gt_trans hc this hk

theorem SS.right (hc : Spec.TotalPreorder cmp) {L R : List (K × V)} {k : K} {v : V} {key : K}
    (h : SS cmp (L ++ (k, v) :: R)) (hk : cmp k key ≤ 0) : ∀ e ∈ R, cmp e.1 key < 0 := by
  intro e he
  have h1 := (List.pairwise_cons.mp (List.pairwise_append.mp h).2.1).1 e he
  have h2 : 0 ≤ cmp key k := by
    rcases Int.lt_or_le (cmp key k) 0 with hcon | hcon
    · have := (hc.antisymm k key).mpr hcon; omega
    · exact hcon
  have := gt_trans' hc h2 h1
  exact (hc.antisymm _ _).mp this

theorem insert_ok (hc : Spec.TotalPreorder cmp) (key : K) (object : V) (p : Policy) : ∀ t : Node K V, AA t →
    SS cmp (toList t) →
    ∃ t' b, insertRec cmp key object p t = some (t', b) ∧ AA t' ∧
      toList t' = insL cmp key object p (toList t) ∧
      (toList t').length = (toList t).length + (if b then 1 else 0) ∧
      (t'.level = t.level ∨ (t'.level = t.level + 1 ∧ t'.right.level = t.level ∧
        (t = .nil ∨ t.right.level = t.level))) ∧
      (t ≠ .nil → t.right.level < t.level → t'.level = t.level ∧ AA t')
  | .nil, _, _ => by
    unfold insertRec insL
    by_cases hp : p = .ifFound
    · simp [hp, AA]
    · simp only [if_neg hp]
      refine ⟨_, _, rfl, ?_⟩
      simp [AA]
  | .node l k v lev r, h, hs => by
    obtain ⟨a1, a2, a3, a4, a5⟩ := h
    have hpos : 1 ≤ lev := by have := a1.nonneg; omega
    have hsp := hs
    simp only [toList_node] at hsp
    unfold insertRec
    by_cases h1 : cmp k key < 0
    · rw [if_pos h1]
      obtain ⟨l', b, e1, e2, e3, e4, e5, _⟩ := insert_ok hc key object p l a1 (List.pairwise_append.mp hsp).1
      rw [e1]
      obtain ⟨t, f1, f2, f3, f4⟩ := fix_left (k := k) (v := v) (lev := lev) e2 a2 (by omega) hpos a4 a5
      refine ⟨t, b, ?_, f2, ?_, ?_, ?_, ?_⟩
      · revert f1
        cases hsk : skew (.node l' k v lev r) with
        | none => intro f1; cases f1
        | some s => intro f1; simp only [Option.bind] at f1 ⊢; rw [hsk]; simp only [f1]; rfl
      · rw [f3, e3, toList_node, insL_left cmp key object p h1]
      · rw [f3]; simp only [toList_node, List.length_append, List.length_cons, e4]; omega
      · simp only [level_node, right_node]; omega
      · simp only [level_node, right_node]; intro _ hlt; exact ⟨by omega, f2⟩
    · rw [if_neg h1]
      by_cases h2 : cmp k key > 0
      · rw [if_pos h2]
        obtain ⟨r', b, e1, e2, e3, e4, e5, e6⟩ := insert_ok hc key object p r a2
          (List.pairwise_cons.mp (List.pairwise_append.mp hsp).2.1).2
        rw [e1]
        have hr' : r'.level = lev - 1 ∨ r'.level = lev := by
          rcases a4 with a4 | a4
          · by_cases hn : r = .nil
            · subst hn; simp only [level_nil] at a4; omega
            · have := (e6 hn (by omega)).1; omega
          · omega
        obtain ⟨t, f1, f2, f3, f4⟩ := fix_right (k := k) (v := v) (lev := lev) a1 e2 (by omega) hpos hr'
        refine ⟨t, b, ?_, f2, ?_, ?_, ?_, ?_⟩
        · revert f1
          cases hsk : skew (.node l k v lev r') with
          | none => intro f1; cases f1
          | some s => intro f1; simp only [Option.bind] at f1 ⊢; rw [hsk]; simp only [f1]; rfl
        · rw [f3, e3, toList_node]
          rw [insL_skip cmp key object p (toList l) (SS.left hc hsp (by omega))]
          simp only [insL]; rw [if_neg h1, if_pos h2]
        · rw [f3]; simp only [toList_node, List.length_append, List.length_cons, e4]; omega
        · simp only [level_node, right_node]
          have : r'.right.level = lev → r.level = lev := by
            intro hrr
            rcases a4 with a4 | a4
            · exact a4
            · have : r'.right.level ≤ r'.level := by
                cases r' with
                | nil => simp
                | node => have := e2.2.2.2.1; simp only [right_node, level_node]; omega
              omega
          rcases f4 with f4 | f4
          · left; omega
          · right; exact ⟨f4.1, f4.2.1, Or.inr (this f4.2.2)⟩
        · simp only [level_node, right_node]; intro _ hlt
          refine ⟨?_, f2⟩
          have : r.level = lev - 1 := by omega
          rcases f4 with f4 | f4
          · exact f4.1
          · exfalso
            have : r'.right.level ≤ r'.level := by
              cases r' with
              | nil => simp
              | node => have := e2.2.2.2.1; simp only [right_node, level_node]; omega
            omega
      · rw [if_neg h2]
        have h0 : cmp k key = 0 := by omega
        by_cases hp : p = .ifNotFound
        · rw [if_pos hp]
          refine ⟨_, _, rfl, ⟨a1, a2, a3, a4, a5⟩, ?_, by simp, Or.inl rfl, fun _ _ => ⟨rfl, ⟨a1, a2, a3, a4, a5⟩⟩⟩
          rw [toList_node, insL_skip cmp key object p (toList l) (SS.left hc hsp (by omega))]
          simp only [insL]; rw [if_neg h1, if_neg h2, if_pos hp]
        · rw [if_neg hp]
          refine ⟨_, _, rfl, ⟨a1, a2, a3, a4, a5⟩, ?_, by simp, Or.inl rfl, fun _ _ => ⟨rfl, ⟨a1, a2, a3, a4, a5⟩⟩⟩
          rw [toList_node, toList_node, insL_skip cmp key object p (toList l) (SS.left hc hsp (by omega))]
          simp only [insL]; rw [if_neg h1, if_neg h2, if_neg hp]

/-! ### Rebalancing after removal -/

theorem AA.right_le {t : Node K V} (h : AA t) : t.right.level ≤ t.level := by
  cases t with
  | nil => simp
  | node => have := h.2.2.2.1; simp only [right_node, level_node]; omega

theorem AA.left_lt {l : Node K V} {k v lev r} (h : AA (.node l k v lev r)) : l.level = lev - 1 := by
  have := h.2.2.1; omega

theorem skew_id {t : Node K V} (h : AA t) : skew t = some t := by
  cases t with
  | nil => rfl
  | node rl rk rv rlev rr => exact skew_stay (by have := h.left_lt; omega)

theorem rebalance_left {l' : Node K V} {k v lev} {r : Node K V} (hl : AA l') (hr : AA r)
    (h1 : l'.level = lev - 2) (h3 : r.level = lev ∨ r.level = lev - 1) (h4 : r.right.level < lev) :
    ∃ t, rebalance l' k v lev r = some t ∧ AA t ∧ toList t = toList l' ++ (k, v) :: toList r ∧
      (t.level = lev ∨ t.level = lev - 1) ∧ (r.level < lev → t.level = lev → t.right.level < lev) := by
  have h0 := hl.nonneg
  cases r with
  | nil => simp only [level_nil] at h3; omega
  | node rl rk rv rlev rr =>
    simp only [level_node, right_node] at h3 h4
    have hrAA := hr
    obtain ⟨a1, a2, a3, a4, a5⟩ := hr
    have hrrle := a2.right_le
    rcases h3 with h3 | h3
    · -- right child at the same level
      subst h3
      cases rl with
      | nil => simp only [level_nil] at a3; omega
      | node rll rlk rlv rllev rlr =>
        simp only [level_node] at a3
        obtain ⟨b1, b2, b3, b4, b5⟩ := a1
        have hrr : rr.level = rlev - 1 := by omega
        have hrll : rllev = rlev - 1 := by omega
        subst hrll
        have c1 : lower l' k v rlev (.node (.node rll rlk rlv (rlev - 1) rlr) rk rv rlev rr) = _ := lower_both (by omega)
        have c2 : skew (.node l' k v (rlev - 1) (.node (.node rll rlk rlv (rlev - 1) rlr) rk rv (rlev - 1) rr)) = _ :=
          skew_stay (by omega)
        have c3 : onRight skew (.node l' k v (rlev - 1) (.node (.node rll rlk rlv (rlev - 1) rlr) rk rv (rlev - 1) rr)) = _ :=
          onR (skew_rot _ _ _ _ _ _ _ _)
        have hg : l'.level < rlev - 1 ∨
            (Node.node (.node rll rlk rlv (rlev - 1) rlr) rk rv rlev rr).level < rlev - 1 := Or.inl (by omega)
        by_cases hc : rlr.level = rlev - 1
        · cases rlr with
          | nil => simp only [level_nil] at hc; omega
          | node xl xk xv xlev xr =>
            simp only [level_node, right_node] at hc b5 b4
            subst hc
            have hxr := b2.right_le
            obtain ⟨d1, d2, d3, d4, d5⟩ := b2
            simp only [level_node, right_node] at hxr
            refine ⟨.node (.node l' k v (rlev - 1) rll) rlk rlv (rlev - 1 + 1)
              (.node (.node xl xk xv (rlev - 1) xr) rk rv (rlev - 1 + 1) rr), ?_, ?_, ?_, ?_, ?_⟩
            · exact rebalance_chain hg c1 c2 c3 (onR (onR (skew_rot _ _ _ _ _ _ _ _))) (split_rot rfl)
                (onR (split_rot hrr))
            · refine ⟨⟨hl, b1, ?_, ?_, ?_⟩, ⟨⟨d1, d2, d3, d4, d5⟩, a2, ?_, ?_, ?_⟩, ?_, ?_, ?_⟩ <;>
                (try simp only [level_node, right_node]) <;> first | omega | exact Or.inl trivial | skip
              have := b1.right_le; omega
            · simp
            · simp only [level_node]; omega
            · simp only [level_node]; omega
        · have hc2 : rlr.level = rlev - 2 := by omega
          by_cases hd : rr.right.level = rlev - 1
          · cases rr with
            | nil => simp only [right_nil, level_nil] at hd; omega
            | node yl yk yv ylev yr =>
              simp only [level_node, right_node] at hd hrr
              subst hrr
              obtain ⟨d1, d2, d3, d4, d5⟩ := a2
              refine ⟨.node (.node l' k v (rlev - 1) rll) rlk rlv (rlev - 1 + 1)
                (.node (.node rlr rk rv (rlev - 1) yl) yk yv (rlev - 1 + 1) yr), ?_, ?_, ?_, ?_, ?_⟩
              · exact rebalance_chain hg c1 c2 c3 (onR (onR (skew_stay (by omega)))) (split_rot rfl)
                  (onR (split_rot hd))
              · refine ⟨⟨hl, b1, ?_, ?_, ?_⟩, ⟨⟨b2, d1, ?_, ?_, ?_⟩, d2, ?_, ?_, ?_⟩, ?_, ?_, ?_⟩ <;>
                  (try simp only [level_node, right_node]) <;> first | omega | exact Or.inl trivial | skip
                · have := b1.right_le; omega
                · have := d1.right_le; omega
              · simp
              · simp only [level_node]; omega
              · simp only [level_node]; omega
          · refine ⟨.node (.node l' k v (rlev - 1) rll) rlk rlv (rlev - 1 + 1)
              (.node rlr rk rv (rlev - 1) rr), ?_, ?_, ?_, ?_, ?_⟩
            · exact rebalance_chain hg c1 c2 c3 (onR (onR (skew_stay (by omega)))) (split_rot rfl)
                (onR (split_stay hd))
            · refine ⟨⟨hl, b1, ?_, ?_, ?_⟩, ⟨b2, a2, ?_, ?_, ?_⟩, ?_, ?_, ?_⟩ <;>
                (try simp only [level_node, right_node]) <;> first | omega | exact Or.inl trivial | skip
              have := b1.right_le; omega
            · simp
            · simp only [level_node]; omega
            · simp only [level_node]; omega
    · -- right child one level down
      subst h3
      have hg : l'.level < lev - 1 ∨ (Node.node rl rk rv (lev - 1) rr).level < lev - 1 := Or.inl (by omega)
      have c1 : lower l' k v lev (.node rl rk rv (lev - 1) rr) = _ := lower_one (by simp)
      have c2 : skew (.node l' k v (lev - 1) (.node rl rk rv (lev - 1) rr)) = _ := skew_stay (by omega)
      have c3 : onRight skew (.node l' k v (lev - 1) (.node rl rk rv (lev - 1) rr)) = _ := onR (skew_id hrAA)
      have c4 : onRight (onRight skew) (.node l' k v (lev - 1) (.node rl rk rv (lev - 1) rr)) = _ :=
        onR (onR (skew_id a2))
      by_cases hc : rr.level = lev - 1
      · cases rr with
        | nil => simp only [level_nil] at hc; omega
        | node yl yk yv ylev yr =>
          simp only [level_node, right_node] at hc hrrle
          subst hc
          have hrr2 : yr.right.level < lev - 1 := a2.2.2.2.2
          refine ⟨.node (.node l' k v (lev - 1) rl) rk rv (lev - 1 + 1) (.node yl yk yv (lev - 1) yr), ?_, ?_, ?_, ?_, ?_⟩
          · exact rebalance_chain hg c1 c2 c3 c4 (split_rot rfl) (onR (split_stay (by omega)))
          · refine ⟨⟨hl, a1, ?_, ?_, ?_⟩, a2, ?_, ?_, ?_⟩ <;>
              (try simp only [level_node, right_node]) <;> first | omega | exact Or.inl trivial | skip
            have := a1.right_le; omega
          · simp
          · simp only [level_node]; omega
          · simp only [level_node, right_node]; omega
      · refine ⟨.node l' k v (lev - 1) (.node rl rk rv (lev - 1) rr), ?_, ?_, ?_, ?_, ?_⟩
        · exact rebalance_chain hg c1 c2 c3 c4 (split_stay hc) (onR (split_stay (by omega)))
        · refine ⟨hl, hrAA, ?_, ?_, ?_⟩ <;> (try simp only [level_node, right_node]) <;> first | omega | exact Or.inl trivial
        · simp
        · exact Or.inr rfl
        · intro _ hh; have hh' : lev - 1 = lev := hh; omega

theorem rebalance_right {l : Node K V} {k v lev} {r' : Node K V} (hl : AA l) (hr : AA r')
    (h1 : l.level = lev - 1) (h3 : r'.level = lev - 2) :
    ∃ t, rebalance l k v lev r' = some t ∧ AA t ∧ toList t = toList l ++ (k, v) :: toList r' ∧
      (t.level = lev ∨ t.level = lev - 1) ∧ (t.level = lev → t.right.level < lev) := by
  have h0 := hr.nonneg
  have hrr := hr.right_le
  cases l with
  | nil => simp only [level_nil] at h1; omega
  | node ll lk lv llev lr =>
    simp only [level_node] at h1
    subst h1
    obtain ⟨a1, a2, a3, a4, a5⟩ := hl
    have hg : (Node.node ll lk lv (lev - 1) lr).level < lev - 1 ∨ r'.level < lev - 1 := Or.inr (by omega)
    have c1 : lower (.node ll lk lv (lev - 1) lr) k v lev r' = _ := lower_one (by omega)
    have c2 : skew (.node (.node ll lk lv (lev - 1) lr) k v (lev - 1) r') = _ := skew_rot _ _ _ _ _ _ _ _
    by_cases hc : lr.level = lev - 1
    · cases lr with
      | nil => simp only [level_nil] at hc; omega
      | node xl xk xv xlev xr =>
        simp only [level_node, right_node] at hc a5
        subst hc
        obtain ⟨b1, b2, b3, b4, b5⟩ := a2
        refine ⟨.node (.node ll lk lv (lev - 1) xl) xk xv (lev - 1 + 1) (.node xr k v (lev - 1) r'), ?_, ?_, ?_, ?_, ?_⟩
        · exact rebalance_chain hg c1 c2 (onR (skew_rot _ _ _ _ _ _ _ _)) (onR (onR (skew_stay (by omega))))
            (split_rot rfl) (onR (split_stay (by omega)))
        · refine ⟨⟨a1, b1, ?_, ?_, ?_⟩, ⟨b2, hr, ?_, ?_, ?_⟩, ?_, ?_, ?_⟩ <;>
            (try simp only [level_node, right_node]) <;> first | omega | exact Or.inl trivial | skip
          have := b1.right_le; omega
        · simp
        · simp only [level_node]; omega
        · simp only [level_node, right_node]; omega
    · refine ⟨.node ll lk lv (lev - 1) (.node lr k v (lev - 1) r'), ?_, ?_, ?_, ?_, ?_⟩
      · exact rebalance_chain hg c1 c2 (onR (skew_stay hc)) (onR (onR (skew_id hr)))
          (split_stay (by rw [right_node]; omega)) (onR (split_stay (by omega)))
      · refine ⟨a1, ⟨a2, hr, ?_, ?_, ?_⟩, ?_, ?_, ?_⟩ <;> (try simp only [level_node, right_node]) <;> first | omega | exact Or.inl trivial
      · simp
      · exact Or.inr rfl
      · intro hh; have hh' : lev - 1 = lev := hh; omega

theorem rebalance_id {l : Node K V} {k v lev} {r : Node K V} (hl : l.level = lev - 1) (hr : r.level ≥ lev - 1) :
    rebalance l k v lev r = some (.node l k v lev r) := by
  unfold rebalance; rw [if_neg (by omega)]

/-! ### Removal -/

/-- Level bookkeeping of one removal step. -/
def Shrinks (t t' : Node K V) : Prop :=
  AA t' ∧ (t'.level = t.level ∨ t'.level = t.level - 1) ∧
  (t.right.level < t.level → t'.level = t.level → t'.right.level < t.level)

theorem join_left {l l' : Node K V} {k v k' v' lev} {r : Node K V} (h : AA (.node l k v lev r)) (hs : Shrinks l l') :
    ∃ t, rebalance l' k' v' lev r = some t ∧ toList t = toList l' ++ (k', v') :: toList r ∧
      Shrinks (.node l k v lev r) t := by
  obtain ⟨a1, a2, a3, a4, a5⟩ := h
  obtain ⟨s1, s2, s3⟩ := hs
  rcases s2 with s2 | s2
  · refine ⟨.node l' k' v' lev r, rebalance_id (by omega) (by omega), by simp, ⟨s1, a2, by omega, a4, a5⟩, Or.inl rfl, ?_⟩
    simp
  · obtain ⟨t, e1, e2, e3, e4, e5⟩ := rebalance_left (k := k') (v := v') (lev := lev) s1 a2 (by omega) a4 a5
    exact ⟨t, e1, e3, e2, by simpa using e4, by simpa using e5⟩

theorem join_right {l : Node K V} {k v k' v' lev} {r r' : Node K V} (h : AA (.node l k v lev r)) (_hn : r ≠ .nil)
    (hs : Shrinks r r') :
    ∃ t, rebalance l k' v' lev r' = some t ∧ toList t = toList l ++ (k', v') :: toList r' ∧
      Shrinks (.node l k v lev r) t := by
  have hpos := h.pos
  obtain ⟨a1, a2, a3, a4, a5⟩ := h
  obtain ⟨s1, s2, s3⟩ := hs
  by_cases hlow : r'.level = lev - 2
  · obtain ⟨t, e1, e2, e3, e4, e5⟩ := rebalance_right (k := k') (v := v') (lev := lev) a1 s1 (by omega) hlow
    exact ⟨t, e1, e3, e2, by simpa using e4, fun _ h => e5 (by simpa using h)⟩
  · refine ⟨.node l k' v' lev r', rebalance_id (by omega) (by omega), by simp, ⟨a1, s1, by omega, by omega, ?_⟩,
      Or.inl rfl, ?_⟩
    · have := s1.right_le
      by_cases hq : r'.level = lev
      · have : r.level = lev := by omega
        have := s3 (by omega) (by omega); omega
      · omega
    · simp only [right_node, level_node]; omega

/-- Remove below a matching erase node: the minimum of the subtree is taken out. -/
theorem removeRec_min (key : K) (e : K) (he : cmp e key = 0) : ∀ t : Node K V, t ≠ .nil → AA t →
    (∀ x ∈ toList t, cmp x.1 key < 0) →
    ∃ q x, removeRec cmp key (some e) t = some q ∧ q.erased = true ∧ q.pending = some x ∧
      toList t = x :: toList q.tree ∧ Shrinks t q.tree
  | .nil, hn, _, _ => absurd rfl hn
  | .node l k v lev r, _, h, hall => by
    have hk : cmp k key < 0 := hall (k, v) (by simp)
    unfold removeRec
    rw [if_pos hk]
    cases l with
    | nil =>
      refine ⟨⟨r, true, some (k, v)⟩, (k, v), by simp only [if_pos he], rfl, rfl, by simp, ?_⟩
      obtain ⟨a1, a2, a3, a4, a5⟩ := h
      simp only [level_nil] at a3
      refine ⟨a2, by simpa using a4, ?_⟩
      simp only [right_node, level_node]; omega
    | node ll lk lv llev lr =>
      obtain ⟨q, x, e1, e2, e3, e4, e5⟩ := removeRec_min key e he (.node ll lk lv llev lr) (by simp) h.1
        (fun y hy => hall y (by rw [toList_node]; exact List.mem_append_left _ hy))
      obtain ⟨t, f1, f2, f3⟩ := join_left (k' := k) (v' := v) h e5
      refine ⟨⟨t, q.erased, q.pending⟩, x, ?_, e2, e3, ?_, f3⟩
      · simp only [e1, Option.bind_some, f1, Option.map]
      · rw [toList_node, e4, f2]; rfl

theorem filter_all {key : K} {m : List (K × V)} (h : ∀ x ∈ m, cmp x.1 key ≠ 0) :
    m.filter (fun e => !keyEq cmp e.1 key) = m := by
  rw [List.filter_eq_self]; intro x hx; simp [keyEq, h x hx]

theorem removeRec_ok (hc : Spec.TotalPreorder cmp) (key : K) : ∀ (t : Node K V) (er : Option K),
    (∀ e, er = some e → cmp e key ≠ 0) → AA t → SS cmp (toList t) →
    ∃ q, removeRec cmp key er t = some q ∧ q.pending = none ∧
      toList q.tree = (toList t).filter (fun e => !keyEq cmp e.1 key) ∧
      (toList t).length = (toList q.tree).length + (if q.erased then 1 else 0) ∧ Shrinks t q.tree
  | .nil, er, _, _, _ => by
    refine ⟨⟨.nil, false, none⟩, by simp [removeRec], rfl, rfl, rfl, ?_⟩
    exact ⟨trivial, Or.inl rfl, by simp⟩
  | .node l k v lev r, er, her, h, hs => by
    have same : Shrinks (.node l k v lev r) (.node l k v lev r) := ⟨h, Or.inl rfl, fun h _ => h⟩
    have hsp := hs
    simp only [toList_node] at hsp
    have hL := (List.pairwise_append.mp hsp).1
    have hR := (List.pairwise_cons.mp (List.pairwise_append.mp hsp).2.1).2
    unfold removeRec
    by_cases h1 : cmp k key < 0
    · rw [if_pos h1]
      have hr0 : ∀ x ∈ (k, v) :: toList r, cmp x.1 key ≠ 0 := by
        intro x hx
        rcases List.mem_cons.mp hx with rfl | hx
        · simp only; omega
        · have := SS.right hc hsp (key := key) (by omega) x hx; omega
      cases l with
      | nil =>
        refine ⟨⟨.node .nil k v lev r, false, none⟩, ?_, rfl, ?_, by simp, same⟩
        · cases er with
          | none => rfl
          | some e => simp only; rw [if_neg (her e rfl)]
        · simp only [toList_node, toList_nil, List.nil_append, filter_all hr0]
      | node ll lk lv llev lr =>
        obtain ⟨q, e1, e2, e3, e4, e5⟩ := removeRec_ok hc key (.node ll lk lv llev lr) er her h.1 hL
        obtain ⟨t, f1, f2, f3⟩ := join_left (k' := k) (v' := v) h e5
        refine ⟨⟨t, q.erased, q.pending⟩, ?_, e2, ?_, ?_, f3⟩
        · simp only [e1, Option.bind_some, f1, Option.map]
        · rw [f2, e3]
          conv => rhs; rw [toList_node, List.filter_append, filter_all hr0]
        · simp only [f2]
          conv => lhs; rw [toList_node]
          simp only [List.length_append, e4, List.length_cons]; omega
    · rw [if_neg h1]
      have hl0 : ∀ x ∈ toList l, cmp x.1 key ≠ 0 := by
        intro x hx; have := SS.left hc hsp (key := key) (by omega) x hx; omega
      cases r with
      | nil =>
        by_cases h2 : cmp k key = 0
        · have hpos := h.pos
          obtain ⟨a1, a2, a3, a4, a5⟩ := h
          simp only [level_nil] at a4
          have hl : l = .nil := a1.eq_nil (by omega)
          subst hl
          refine ⟨⟨.nil, true, none⟩, by simp only [if_pos h2], rfl, ?_, by simp, trivial, ?_, ?_⟩
          · simp [keyEq, h2]
          · simp only [level_nil, level_node] at *; omega
          · simp only [level_nil, level_node]; omega
        · refine ⟨⟨.node l k v lev .nil, false, none⟩, by simp only [if_neg h2], rfl, ?_, by simp, same⟩
          rw [toList_node, List.filter_append, filter_all hl0]
          simp [keyEq, h2]
      | node rl rk rv rlev rr =>
        by_cases h2 : cmp k key = 0
        · have hr0 := SS.right hc hsp (key := key) (by omega)
          obtain ⟨q, x, e1, e2, e3, e4, e5⟩ := removeRec_min key k h2 (.node rl rk rv rlev rr) (by simp) h.2.1 hr0
          obtain ⟨t, f1, f2, f3⟩ := join_right (k' := x.1) (v' := x.2) h (by simp) e5
          refine ⟨⟨t, q.erased, none⟩, ?_, rfl, ?_, ?_, f3⟩
          · simp only [e1, Option.bind_some, e3, f1, Option.map]
          · rw [f2]
            conv => rhs; rw [toList_node, List.filter_append, filter_all hl0, List.filter_cons]
            rw [e4]
            simp only [keyEq, h2]
            have : ∀ y ∈ x :: toList q.tree, cmp y.1 key ≠ 0 := by
              intro y hy; rw [← e4] at hy; have := hr0 y hy; omega
            have := filter_all this
            simp only [keyEq] at this
            rw [this]; rfl
          · simp only [f2, e2]
            conv => lhs; rw [toList_node, e4]
            simp; omega
        · obtain ⟨q, e1, e2, e3, e4, e5⟩ := removeRec_ok hc key (.node rl rk rv rlev rr) (some k)
            (fun e he => by cases he; exact h2) h.2.1 hR
          obtain ⟨t, f1, f2, f3⟩ := join_right (k' := k) (v' := v) h (by simp) e5
          refine ⟨⟨t, q.erased, none⟩, ?_, rfl, ?_, ?_, f3⟩
          · simp only [e1, Option.bind_some, e2, f1, Option.map]
          · rw [f2, e3]
            conv => rhs; rw [toList_node, List.filter_append, filter_all hl0, List.filter_cons]
            simp [keyEq, h2]
          · simp only [f2]
            conv => lhs; rw [toList_node]
            simp only [List.length_append, e4, List.length_cons]; omega

/-! ### Traversal, lookup, list-level insertion against the map specification -/

/-- Fold with early exit over a list. -/
def foldStop {S : Type} (f : K → V → S → Int × S) : List (K × V) → S → Int × S
  | [], s => (0, s)
  | e :: m, s => if (f e.1 e.2 s).1 ≠ 0 then f e.1 e.2 s else foldStop f m (f e.1 e.2 s).2

theorem foldStop_append {S : Type} (f : K → V → S → Int × S) : ∀ (a b : List (K × V)) (s : S),
    foldStop f (a ++ b) s = if (foldStop f a s).1 ≠ 0 then foldStop f a s else foldStop f b (foldStop f a s).2
  | [], b, s => by simp [foldStop]
  | e :: a, b, s => by
    simp only [List.cons_append, foldStop]
    by_cases h : (f e.1 e.2 s).1 ≠ 0
    · simp only [if_pos h]
    · simp only [if_neg h]; exact foldStop_append f a b _

theorem traverse_eq {S : Type} (f : K → V → S → Int × S) : ∀ (t : Node K V) (s : S),
    traverse f t s = foldStop f (toList t) s
  | .nil, s => rfl
  | .node l k v lev r, s => by
    simp only [traverse, toList_node, foldStop_append, foldStop, traverse_eq f l, traverse_eq f r]

theorem foldStop_collect : ∀ (m acc : List (K × V)),
    foldStop (fun k v (acc : List (K × V)) => (0, acc ++ [(k, v)])) m acc = (0, acc ++ m)
  | [], acc => by simp [foldStop]
  | e :: m, acc => by simp [foldStop, foldStop_collect m]

theorem contents_eq (t : Tree K V) : contents t = toList t.root := by
  simp [contents, traverse_eq, foldStop_collect]

theorem find_eq (hc : Spec.TotalPreorder cmp) (key : K) : ∀ t : Node K V, SS cmp (toList t) →
    find cmp key t = HTable.specGet (keyEq cmp) (toList t) key
  | .nil, _ => rfl
  | .node l k v lev r, hs => by
    have hsp := hs
    simp only [toList_node] at hsp
    have hL := (List.pairwise_append.mp hsp).1
    have hR := (List.pairwise_cons.mp (List.pairwise_append.mp hsp).2.1).2
    unfold find HTable.specGet
    rw [toList_node, List.find?_append]
    by_cases h1 : cmp k key < 0
    · rw [if_pos h1, find_eq hc key l hL]
      have : List.find? (fun e : K × V => keyEq cmp e.1 key) ((k, v) :: toList r) = none := by
        rw [List.find?_eq_none]
        intro x hx
        rcases List.mem_cons.mp hx with rfl | hx
        · simp only [keyEq, beq_iff_eq]; omega
        · have := SS.right hc hsp (key := key) (by omega) x hx
          simp only [keyEq, beq_iff_eq]; omega
      rw [this, Option.or_none]; rfl
    · rw [if_neg h1]
      have hl0 : List.find? (fun e : K × V => keyEq cmp e.1 key) (toList l) = none := by
        rw [List.find?_eq_none]
        intro x hx
        have := SS.left hc hsp (key := key) (by omega) x hx
        simp only [keyEq, beq_iff_eq]; omega
      rw [hl0, Option.none_or, List.find?_cons]
      by_cases h2 : cmp k key > 0
      · rw [if_pos h2, find_eq hc key r hR]
        have : keyEq cmp k key = false := by simp only [keyEq, beq_eq_false_iff_ne]; omega
        simp only [this]; rfl
      · rw [if_neg h2]
        have : keyEq cmp k key = true := by simp only [keyEq, beq_iff_eq]; omega
        simp only [this, Option.map]

theorem insL_mem (key : K) (object : V) (p : Policy) : ∀ m : List (K × V), ∀ x ∈ insL cmp key object p m,
    x.1 = key ∨ ∃ y ∈ m, y.1 = x.1
  | [], x, hx => by
    unfold insL at hx; split at hx
    · simp at hx
    · simp at hx; simp [hx]
  | (k, v) :: m, x, hx => by
    unfold insL at hx
    split at hx
    · split at hx
      · exact Or.inr ⟨x, hx, rfl⟩
      · rcases List.mem_cons.mp hx with rfl | hx
        · exact Or.inl rfl
        · exact Or.inr ⟨x, hx, rfl⟩
    · split at hx
      · rcases List.mem_cons.mp hx with rfl | hx
        · exact Or.inr ⟨(k, v), by simp, rfl⟩
        · rcases insL_mem key object p m x hx with h | ⟨y, hy, h⟩
          · exact Or.inl h
          · exact Or.inr ⟨y, by simp [hy], h⟩
      · split at hx
        · exact Or.inr ⟨x, hx, rfl⟩
        · rcases List.mem_cons.mp hx with rfl | hx
          · exact Or.inr ⟨(k, v), by simp, rfl⟩
          · exact Or.inr ⟨x, by simp [hx], rfl⟩

theorem insL_sorted (hc : Spec.TotalPreorder cmp) (key : K) (object : V) (p : Policy) : ∀ m : List (K × V),
    SS cmp m → SS cmp (insL cmp key object p m)
  | [], _ => by unfold insL; split <;> simp [SS, StrictlySorted]
  | (k, v) :: m, h => by
    obtain ⟨h1, h2⟩ := List.pairwise_cons.mp h
    unfold insL
    split
    · rename_i hlt
      split
      · exact h
      · refine List.pairwise_cons.mpr ⟨?_, h⟩
        intro x hx
        have hk := (hc.antisymm key k).mpr hlt
        rcases List.mem_cons.mp hx with rfl | hx
        · exact hk
        · exact gt_trans hc hk (by have := h1 x hx; simp only at this; omega)
    · split
      · rename_i hgt
        refine List.pairwise_cons.mpr ⟨?_, insL_sorted hc key object p m h2⟩
        intro x hx
        rcases insL_mem key object p m x hx with h | ⟨y, hy, h⟩
        · simp only [h]; exact hgt
        · simp only [← h]; exact h1 y hy
      · split
        · exact h
        · exact List.pairwise_cons.mpr ⟨h1, h2⟩

theorem has_false_of (key : K) {m : List (K × V)} (h : ∀ x ∈ m, cmp x.1 key ≠ 0) : HTable.has (keyEq cmp) m key = false := by
  rw [HTable.has, List.any_eq_false]; intro x hx; simp [keyEq, h x hx]

theorem map_id_of (key : K) (v : V) {m : List (K × V)} (h : ∀ x ∈ m, cmp x.1 key ≠ 0) :
    m.map (fun e => if keyEq cmp e.1 key then (e.1, v) else e) = m := by
  conv => rhs; rw [← List.map_id m]
  apply List.map_congr_left
  intro x hx; simp [keyEq, h x hx]

theorem insL_perm (hc : Spec.TotalPreorder cmp) (key : K) (object : V) (p : Policy) : ∀ m : List (K × V),
    SS cmp m → (insL cmp key object p m).Perm (HTable.specInsert (keyEq cmp) m key object p).1
  | [], _ => by
    unfold insL HTable.specInsert
    simp only [HTable.has, List.any_nil]
    by_cases hp : p = .ifFound <;> simp [hp]
  | (k, v) :: m, h => by
    obtain ⟨h1, h2⟩ := List.pairwise_cons.mp h
    unfold insL
    by_cases hlt : cmp k key < 0
    · rw [if_pos hlt]
      have hh : HTable.has (keyEq cmp) ((k, v) :: m) key = false := by
        apply has_false_of
        intro x hx
        rcases List.mem_cons.mp hx with rfl | hx
        · simp only; omega
        · have := SS.right (L := []) hc h (key := key) (by omega) x hx; omega
      unfold HTable.specInsert
      simp only [hh, Bool.false_eq_true, if_false]
      by_cases hp : p = .ifFound <;> simp [hp]
    · rw [if_neg hlt]
      by_cases hgt : cmp k key > 0
      · rw [if_pos hgt]
        have ih := insL_perm hc key object p m h2
        refine (ih.cons _).trans ?_
        have hk : keyEq cmp k key = false := by simp only [keyEq, beq_eq_false_iff_ne]; omega
        unfold HTable.specInsert
        have : HTable.has (keyEq cmp) ((k, v) :: m) key = HTable.has (keyEq cmp) m key := by
          simp [HTable.has, hk]
        rw [this]
        split
        · split
          · exact List.Perm.refl _
          · simp [hk]
        · split
          · exact List.Perm.refl _
          · exact List.Perm.swap _ _ _
      · rw [if_neg hgt]
        have hk : keyEq cmp k key = true := by simp only [keyEq, beq_iff_eq]; omega
        have : HTable.has (keyEq cmp) ((k, v) :: m) key = true := by simp [HTable.has, hk]
        unfold HTable.specInsert
        rw [this]
        simp only [if_true]
        have hm : ∀ x ∈ m, cmp x.1 key ≠ 0 := by
          intro x hx; have := SS.right (L := []) hc h (key := key) (by omega) x hx; omega
        split
        · exact List.Perm.refl _
        · rw [List.map_cons, map_id_of key object hm]; simp [hk]

theorem freeAll_eq : ∀ t : Node K V, freeAll t = (toList t).length
  | .nil => rfl
  | .node l k v lev r => by simp [freeAll, freeAll_eq l, freeAll_eq r]; omega

/-! ### Perm-invariance of the map specification on maps without duplicate keys -/

theorem specGet_perm (hc : Spec.TotalPreorder cmp) (key : K) {m m' : List (K × V)} (h : m.Perm m') (hs : SS cmp m) :
    HTable.specGet (keyEq cmp) m key = HTable.specGet (keyEq cmp) m' key := by
  have huniq : ∀ x ∈ m, ∀ y ∈ m, keyEq cmp x.1 key = true → keyEq cmp y.1 key = true → x = y := by
    intro x hx y hy h1 h2
    simp only [keyEq, beq_iff_eq] at h1 h2
    have h2' := cmp_zero_symm hc h2
    have hxy : cmp x.1 y.1 = 0 := by
      have a1 := hc.trans x.1 key y.1 (by omega) (by omega)
      have a2 := hc.trans y.1 key x.1 (by omega) (by have := cmp_zero_symm hc h1; omega)
      have := hc.antisymm x.1 y.1
      have := hc.antisymm y.1 x.1
      omega
    obtain ⟨i, hi, rfl⟩ := List.getElem_of_mem hx
    obtain ⟨j, hj, rfl⟩ := List.getElem_of_mem hy
    rcases Nat.lt_trichotomy i j with hij | hij | hij
    · have := List.pairwise_iff_getElem.mp hs i j hi hj hij; omega
    · subst hij; rfl
    · have := List.pairwise_iff_getElem.mp hs j i hj hi hij
      have := cmp_zero_symm hc hxy; omega
  unfold HTable.specGet
  congr 1
  cases h1 : m.find? (fun e => keyEq cmp e.1 key) with
  | none =>
    rw [List.find?_eq_none] at h1
    symm; rw [List.find?_eq_none]
    intro x hx; exact h1 x (h.mem_iff.mpr hx)
  | some x =>
    cases h2 : m'.find? (fun e => keyEq cmp e.1 key) with
    | none =>
      rw [List.find?_eq_none] at h2
      exact absurd (List.find?_some h1) (h2 x (h.mem_iff.mp (List.mem_of_find?_eq_some h1)))
    | some y =>
      congr 1
      exact huniq x (List.mem_of_find?_eq_some h1) y (h.mem_iff.mpr (List.mem_of_find?_eq_some h2))
        (by have := List.find?_some h1; exact this) (by have := List.find?_some h2; exact this)

theorem has_perm (key : K) {m m' : List (K × V)} (h : m.Perm m') :
    HTable.has (keyEq cmp) m key = HTable.has (keyEq cmp) m' key := by
  rw [Bool.eq_iff_iff, HTable.has, HTable.has, List.any_eq_true, List.any_eq_true]
  constructor
  · rintro ⟨x, hx, h1⟩; exact ⟨x, h.mem_iff.mp hx, h1⟩
  · rintro ⟨x, hx, h1⟩; exact ⟨x, h.mem_iff.mpr hx, h1⟩

theorem specInsert_perm (key : K) (v : V) (p : Policy) {m m' : List (K × V)} (h : m.Perm m') :
    (HTable.specInsert (keyEq cmp) m key v p).1.Perm (HTable.specInsert (keyEq cmp) m' key v p).1 := by
  unfold HTable.specInsert
  rw [has_perm key h]
  split
  · split
    · exact h
    · exact h.map _
  · split
    · exact h
    · exact h.cons _

/-! ### One call -/

/-- A well-formed tree. -/
structure Good (cmp : K → K → Int) (t : Tree K V) : Prop where
  aa : AA t.root
  sorted : SS cmp (toList t.root)
  count : t.count = (toList t.root).length

theorem init_good : Good cmp (init : Tree K V) := ⟨trivial, List.Pairwise.nil, rfl⟩

theorem step_ok (hc : Spec.TotalPreorder cmp) {t : Tree K V} (h : Good cmp t) {m : List (K × V)}
    (hm : (toList t.root).Perm m) (op : Op K V) :
    ∃ t', step cmp t op = some (t', (specStep cmp m op).2) ∧ Good cmp t' ∧
      (toList t'.root).Perm (specStep cmp m op).1 := by
  cases op with
  | get k =>
    refine ⟨t, ?_, h, hm⟩
    simp only [step, specStep]
    rw [find_eq hc k _ h.sorted, specGet_perm hc k hm h.sorted]
  | insert k v p =>
    obtain ⟨t', b, e1, e2, e3, e4, _⟩ := insert_ok hc k v p t.root h.aa h.sorted
    refine ⟨⟨t', if b then t.count + 1 else t.count⟩, ?_, ⟨e2, ?_, ?_⟩, ?_⟩
    · simp only [step, insert, e1, Option.map, specStep]
    · simp only [e3]; exact insL_sorted hc k v p _ h.sorted
    · simp only [e4, h.count]; cases b <;> simp
    · simp only [e3, specStep]; exact (insL_perm hc k v p _ h.sorted).trans (specInsert_perm k v p hm)
  | remove k =>
    obtain ⟨q, e1, e2, e3, e4, e5⟩ := removeRec_ok hc k t.root none (by simp) h.aa h.sorted
    refine ⟨⟨q.tree, if q.erased then t.count - 1 else t.count⟩, ?_, ⟨e5.1, ?_, ?_⟩, ?_⟩
    · simp only [step, remove, e1, Option.map, specStep]
    · simp only [e3]; exact List.Pairwise.filter _ h.sorted
    · simp only [h.count, e4]; cases q.erased <;> simp
    · simp only [e3, specStep, HTable.specRemove]; exact hm.filter _
  | removeAll =>
    refine ⟨removeAll t, rfl, ⟨trivial, List.Pairwise.nil, ?_⟩, ?_⟩
    · simp only [removeAll, freeAll_eq, h.count, toList_nil, List.length_nil]; omega
    · exact List.Perm.refl _
  | count =>
    refine ⟨t, ?_, h, hm⟩
    simp only [step, specStep, h.count, hm.length_eq]

theorem run_ok (hc : Spec.TotalPreorder cmp) : ∀ (ops : List (Op K V)) {t : Tree K V}, Good cmp t →
    ∀ {m : List (K × V)}, (toList t.root).Perm m →
    ∃ t', run cmp t ops = some (t', (specRun cmp m ops).2) ∧ Good cmp t' ∧
      (toList t'.root).Perm (specRun cmp m ops).1
  | [], t, h, m, hm => ⟨t, rfl, h, hm⟩
  | op :: ops, t, h, m, hm => by
    obtain ⟨t1, e1, g1, p1⟩ := step_ok hc h hm op
    obtain ⟨t2, e2, g2, p2⟩ := run_ok hc ops g1 p1
    refine ⟨t2, ?_, g2, p2⟩
    simp only [run, e1, Option.bind_some, e2, Option.map, specRun]

/-! ### Copy -/

theorem insL_append_last (key : K) (v : V) (p : Policy) (hp : p ≠ .ifFound) : ∀ m : List (K × V),
    (∀ x ∈ m, 0 < cmp x.1 key) → insL cmp key v p m = m ++ [(key, v)] := by
  intro m h
  have := insL_skip cmp key v p (R := []) m (fun e he => h e he)
  rw [List.append_nil] at this
  rw [this]; simp [insL, hp]

theorem copy_fold (hc : Spec.TotalPreorder cmp) : ∀ (m : List (K × V)) (c : Tree K V), Good cmp c →
    SS cmp (toList c.root ++ m) →
    ∃ c', foldStop (fun k v (acc : Option (Tree K V)) => (0, acc.bind fun c => insert cmp c k v .always)) m (some c) =
      (0, some c') ∧ Good cmp c' ∧ toList c'.root = toList c.root ++ m
  | [], c, h, _ => ⟨c, rfl, h, by simp⟩
  | e :: m, c, h, hs => by
    obtain ⟨t', b, e1, e2, e3, e4, _⟩ := insert_ok hc e.1 e.2 .always c.root h.aa h.sorted
    have hlast : ∀ x ∈ toList c.root, 0 < cmp x.1 e.1 := fun x hx =>
      (List.pairwise_append.mp hs).2.2 x hx e (by simp)
    rw [insL_append_last e.1 e.2 .always (by simp) _ hlast] at e3
    have hg : Good cmp (⟨t', if b then c.count + 1 else c.count⟩ : Tree K V) := by
      refine ⟨e2, ?_, ?_⟩
      · simp only [e3]
        have : toList c.root ++ e :: m = (toList c.root ++ [e]) ++ m := by simp
        rw [this] at hs
        exact (List.pairwise_append.mp hs).1
      · simp only [e4, h.count]; cases b <;> simp
    obtain ⟨c', f1, f2, f3⟩ := copy_fold hc m _ hg (by simp only [e3]; simpa using hs)
    refine ⟨c', ?_, f2, ?_⟩
    · simp only [foldStop]
      rw [if_neg (by simp)]
      have : insert cmp c e.1 e.2 .always = some ⟨t', if b then c.count + 1 else c.count⟩ := by
        simp only [insert, e1, Option.map]
      simp only [Option.bind_some, this]; exact f1
    · rw [f3]; simp only [e3]; simp

/-! ### Balance -/

theorem level_size : ∀ t : Node K V, AA t → 2 ^ t.level.toNat ≤ (toList t).length + 1
  | .nil, _ => by simp
  | .node l k v lev r, h => by
    have h0 := h.pos
    obtain ⟨a1, a2, a3, a4, a5⟩ := h
    have i1 := level_size l a1
    have i2 := level_size r a2
    have n1 := a1.nonneg
    have e : lev.toNat = l.level.toNat + 1 := by omega
    have e2 : l.level.toNat ≤ r.level.toNat := by omega
    have e3 : 2 ^ l.level.toNat ≤ 2 ^ r.level.toNat := Nat.pow_le_pow_right (by omega) e2
    simp only [level_node, e, toList_node, List.length_append, List.length_cons, Nat.pow_succ]
    omega

theorem height_le : ∀ t : Node K V, AA t → height t ≤ 2 * t.level.toNat ∧
    (t ≠ .nil → t.right.level < t.level → height t + 1 ≤ 2 * t.level.toNat)
  | .nil, _ => by simp [height]
  | .node l k v lev r, h => by
    have h0 := h.pos
    obtain ⟨a1, a2, a3, a4, a5⟩ := h
    have i1 := height_le l a1
    have i2 := height_le r a2
    have n1 := a1.nonneg
    simp only [level_node, right_node, height]
    constructor
    · rcases a4 with a4 | a4
      · have hn : r ≠ .nil := by rintro rfl; simp only [level_nil] at a4; omega
        have := i2.2 hn (by omega)
        have := i1.1
        omega
      · have := i1.1; have := i2.1; omega
    · intro _ hlt
      have := i1.1; have := i2.1; omega

theorem findCost_le (key : K) : ∀ t : Node K V, findCost cmp key t ≤ height t
  | .nil => Nat.le_refl 0
  | .node l k v lev r => by
    have := findCost_le key l
    have := findCost_le key r
    simp only [findCost, height]
    split
    · omega
    · split <;> omega

end BTree
end Duck
