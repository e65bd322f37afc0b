import Verif.Lemmas.Graph
import Mathlib.Data.List.Nodup
import Mathlib.Data.List.Perm.Subperm
/-! Helper lemmas for C48: traversal. -/
namespace Duck
namespace Graph
variable {V K : Type} [DecidableEq V] [DecidableEq K] (cls : V → K)

/-- The vertices a traversal step appends. -/
def fresh (vis : List K) (es : List (Edge V)) : List V := (es.filter fun e => cls e.second ∉ vis).map Edge.second

omit [DecidableEq V] in
theorem enqueue_eq (vis : List K) (es : List (Edge V)) (q : List V) : enqueue cls vis es q = q ++ fresh cls vis es := by
  induction es generalizing q with
  | nil => simp [enqueue, fresh]
  | cons e es ih =>
    simp only [enqueue, ih, fresh, List.filter_cons]
    by_cases h : cls e.second ∈ vis <;> simp [h]

/-! ### Termination -/

/-- Weight of an unvisited entry of the queue, when `u` classes are unvisited. -/
def wU (D : Nat) : Nat → Nat
  | 0 => 1
  | u + 1 => D * wU D u + 1 + D * wU D u + 1

/-- Weight of a visited entry. -/
def wV (D u : Nat) : Nat := D * wU D u + 1

theorem wU_step (D u : Nat) : wU D u ≤ wU D (u + 1) ∨ D = 0 := by
  cases D with
  | zero => exact .inr rfl
  | succ D => left; simp only [wU]; rw [Nat.add_mul]; omega

theorem wU_mono {D u u' : Nat} (h : u ≤ u') : wU D u ≤ wU D u' := by
  induction h with
  | refl => exact Nat.le_refl _
  | step _ ih =>
    refine Nat.le_trans ih ?_
    rcases wU_step D _ with h | rfl
    · exact h
    · rename_i m _
      cases m <;> simp [wU]

theorem wV_mono {D u u' : Nat} (h : u ≤ u') : wV D u ≤ wV D u' := by
  have := Nat.mul_le_mul_left D (wU_mono (D := D) h)
  simp only [wV]; omega

theorem wV_lt {D u u' : Nat} (h : u < u') : wV D u + D * wU D u < wU D u' := by
  have : wU D (u + 1) ≤ wU D u' := wU_mono h
  simp only [wU, wV] at *; omega

/-- Weight of an entry. -/
def wt (D : Nat) (all vis : List K) (v : V) : Nat :=
  if cls v ∈ vis then wV D (all.filter (· ∉ vis)).length else wU D (all.filter (· ∉ vis)).length

def weight (D : Nat) (all vis : List K) (q : List V) : Nat := (q.map (wt cls D all vis)).sum

omit [DecidableEq V] in
theorem weight_le {D B : Nat} {all vis : List K} {q : List V} (h : ∀ v ∈ q, wt cls D all vis v ≤ B) :
    weight cls D all vis q ≤ q.length * B := by
  induction q with
  | nil => simp [weight]
  | cons v q ih =>
    have h1 := h v (by simp)
    have h2 := ih (fun v hv => h v (by simp [hv]))
    simp only [weight, List.map_cons, List.sum_cons, List.length_cons, Nat.add_mul, Nat.one_mul] at *
    omega

omit [DecidableEq V] in
theorem weight_mono {D : Nat} {all vis vis' : List K} {q : List V} (h : ∀ v, wt cls D all vis v ≤ wt cls D all vis' v) :
    weight cls D all vis q ≤ weight cls D all vis' q := by
  induction q with
  | nil => simp [weight]
  | cons v q ih => have := h v; simp only [weight, List.map_cons, List.sum_cons] at *; omega

theorem filter_lt {all vis : List K} {k : K} (hk : k ∈ all) (hv : k ∉ vis) :
    (all.filter (· ∉ k :: vis)).length < (all.filter (· ∉ vis)).length := by
  have sub : ∀ l : List K, (l.filter (· ∉ k :: vis)).length ≤ (l.filter (· ∉ vis)).length := by
    intro l
    induction l with
    | nil => simp
    | cons x l ih =>
      simp only [List.filter_cons]
      by_cases h1 : x ∈ k :: vis
      · simp only [h1, not_true, decide_false, Bool.false_eq_true, if_false]
        refine Nat.le_trans ih ?_
        split <;> simp
      · have : x ∉ vis := fun h => h1 (by simp [h])
        simp only [h1, this, not_false_iff, decide_true, if_true, List.length_cons]
        omega
  induction all with
  | nil => cases hk
  | cons x l ih =>
    simp only [List.filter_cons]
    rcases List.mem_cons.mp hk with rfl | hk
    · simp only [List.mem_cons, true_or, not_true, decide_false, Bool.false_eq_true, if_false, hv, not_false_iff, decide_true, if_true, List.length_cons]
      have := sub l
      simp only [List.mem_cons] at this
      omega
    · have := ih hk
      by_cases h1 : x ∈ k :: vis
      · simp only [h1, not_true, decide_false, Bool.false_eq_true, if_false]
        refine Nat.lt_of_lt_of_le this ?_
        split <;> simp
      · have : x ∉ vis := fun h => h1 (by simp [h])
        simp only [h1, this, not_false_iff, decide_true, if_true, List.length_cons]
        omega

omit [DecidableEq V] in
theorem weight_step {D : Nat} {all vis : List K} {v : V} {rest : List V} {es : List (Edge V)} (hv : cls v ∈ all) (hD : es.length ≤ D) :
    weight cls D all (cls v :: vis) (rest ++ fresh cls (cls v :: vis) es) < weight cls D all vis (v :: rest) := by
  have hf : (fresh cls (cls v :: vis) es).length ≤ D := by
    simp only [fresh, List.length_map]
    exact Nat.le_trans (List.length_filter_le _ _) hD
  have hfw : weight cls D all (cls v :: vis) (fresh cls (cls v :: vis) es) ≤ D * wU D (all.filter (· ∉ cls v :: vis)).length := by
    refine Nat.le_trans (weight_le cls (B := wU D (all.filter (· ∉ cls v :: vis)).length) ?_) (Nat.mul_le_mul_right _ hf)
    intro x hx
    simp only [fresh, List.mem_map, List.mem_filter, decide_eq_true_eq] at hx
    obtain ⟨e, ⟨_, h⟩, rfl⟩ := hx
    simp only [wt, h, if_false]
    exact Nat.le_refl _
  have app : weight cls D all (cls v :: vis) (rest ++ fresh cls (cls v :: vis) es)
      = weight cls D all (cls v :: vis) rest + weight cls D all (cls v :: vis) (fresh cls (cls v :: vis) es) := by
    simp [weight]
  have cons : weight cls D all vis (v :: rest) = wt cls D all vis v + weight cls D all vis rest := by simp [weight]
  rw [app, cons]
  by_cases hin : cls v ∈ vis
  · have same : ∀ k, (k ∈ cls v :: vis) ↔ k ∈ vis := by
      intro k; simp only [List.mem_cons]; constructor
      · rintro (rfl | h); exacts [hin, h]
      · exact .inr
    have fe : (all.filter (· ∉ cls v :: vis)) = all.filter (· ∉ vis) := by
      apply List.filter_congr; intro k _; simp only [same]
    have : weight cls D all (cls v :: vis) rest ≤ weight cls D all vis rest := by
      apply weight_mono
      intro x
      simp only [wt, same]; exact Nat.le_refl _
    rw [fe] at hfw
    have hw : wt cls D all vis v = wV D (all.filter (· ∉ vis)).length := by simp [wt, hin]
    rw [hw, wV]
    omega
  · have hlt := filter_lt hv hin
    have h1 := wV_lt (D := D) hlt
    have : weight cls D all (cls v :: vis) rest ≤ weight cls D all vis rest := by
      apply weight_mono
      intro x
      simp only [wt]
      by_cases h2 : cls x ∈ vis
      · have : cls x ∈ cls v :: vis := by simp [h2]
        rw [if_pos this, if_pos h2]
        exact wV_mono (Nat.le_of_lt hlt)
      · rw [if_neg h2]
        by_cases h3 : cls x ∈ cls v :: vis
        · rw [if_pos h3]; omega
        · rw [if_neg h3]; exact wU_mono (Nat.le_of_lt hlt)
    have hw : wt cls D all vis v = wU D (all.filter (· ∉ vis)).length := by simp [wt, hin]
    rw [hw]
    omega

omit [DecidableEq V] in
theorem go_some (g : Graph V K) (cb : List V → Int) {D : Nat} {all : List K} (hD : ∀ v, (edgesOf cls g v).length ≤ D)
    (hall : ∀ v, ∀ e ∈ edgesOf cls g v, cls e.second ∈ all) (fuel : Nat) (q : List V) (vis : List K) (calls : List V)
    (hq : ∀ v ∈ q, cls v ∈ all) (hw : weight cls D all vis q ≤ fuel) : (traverseGo cls g cb fuel q vis calls).isSome := by
  induction fuel generalizing q vis calls with
  | zero =>
    cases q with
    | nil => simp [traverseGo]
    | cons v rest =>
      simp only [weight, List.map_cons, List.sum_cons] at hw
      have : wt cls D all vis v ≠ 0 := by
        have : 1 ≤ wU D (all.filter (· ∉ vis)).length := by
          have := wU_mono (D := D) (Nat.zero_le (all.filter (· ∉ vis)).length)
          simpa [wU] using this
        simp only [wt, wV]; split <;> omega
      omega
  | succ fuel ih =>
    cases q with
    | nil => simp [traverseGo]
    | cons v rest =>
      rw [traverseGo]
      split
      · rfl
      · rw [enqueue_eq]
        apply ih
        · intro x hx
          rcases List.mem_append.mp hx with hx | hx
          · exact hq x (by simp [hx])
          · simp only [fresh, List.mem_map, List.mem_filter] at hx
            obtain ⟨e, ⟨he, _⟩, rfl⟩ := hx
            exact hall v e he
        · have := weight_step cls (D := D) (all := all) (vis := vis) (v := v) (rest := rest) (hq v (by simp)) (hD v)
          omega

/-! ### Finiteness -/

/-- The vertices named in a history. -/
def verts : List (Op V) → List V
  | [] => []
  | .add s t _ :: h => s :: t :: verts h
  | .remove _ _ _ :: h => verts h
  | .removeAll :: h => verts h
  | .setInfo _ _ _ :: h => verts h

omit [DecidableEq V] [DecidableEq K] in
theorem present_verts {h : List (Op V)} {a b : V} (p : Present cls h a b) : b ∈ verts h := by
  induction h with
  | nil => cases p
  | cons op h ih =>
    cases op with
    | add s t both =>
      rcases p with (⟨_, rfl⟩ | ⟨_, _, rfl⟩) | p
      · simp [verts]
      · simp [verts]
      · simp [verts, ih p]
    | remove s t both => exact ih p.2
    | removeAll => cases p
    | setInfo s t u => exact ih p

theorem edge_present {h : List (Op V)} {a : V} {e : Edge V} (he : e ∈ edgesOf cls (run cls h) a) : Present cls h a e.second := by
  rw [← find_run, (mem_edgesOf cls (wf_run cls h) a e).mp he]; rfl

theorem present_edge {h : List (Op V)} {a b : V} (p : Present cls h a b) : ∃ e ∈ edgesOf cls (run cls h) a, e.second = b := by
  rw [← find_run, Option.isSome_iff_exists] at p
  obtain ⟨e, he⟩ := p
  have h2 := (scan_some (by rw [findEdge_eq] at he; exact he)).2
  exact ⟨e, (mem_edgesOf cls (wf_run cls h) a e).mpr (by rw [h2]; exact he), h2⟩

theorem nodup_edgesOf (h : List (Op V)) (a : V) : ((edgesOf cls (run cls h) a).map Edge.second).Nodup := by
  cases hm : (run cls h).map (cls a) with
  | none => simp [edgesOf, hm]
  | some es => simpa [edgesOf, hm] using (wf_run cls h).nodup _ _ hm

theorem length_edgesOf (h : List (Op V)) (a : V) : (edgesOf cls (run cls h) a).length ≤ (verts h).length := by
  have := (nodup_edgesOf cls h a).subperm (l₂ := verts h) (by
    intro x hx
    obtain ⟨e, he, rfl⟩ := List.mem_map.mp hx
    exact present_verts cls (edge_present cls he))
  simpa using this.length_le

theorem traverse_some (h : List (Op V)) (cb : List V → Int) (src : V) : ∃ fuel, (traverse cls (run cls h) cb fuel src).isSome := by
  refine ⟨_, go_some cls (run cls h) cb (D := (verts h).length) (all := cls src :: (verts h).map cls) (length_edgesOf cls h) ?_ _ _ _ _ ?_ (Nat.le_refl _)⟩
  · intro v e he
    exact List.mem_cons_of_mem _ (List.mem_map.mpr ⟨_, present_verts cls (edge_present cls he), rfl⟩)
  · simp

/-! ### What is visited -/

omit [DecidableEq V] in
/-- The callbacks made, when none stops the traversal. -/
theorem go_zero {g : Graph V K} {fuel q vis calls r calls'} (hr : traverseGo cls g (fun _ => 0) fuel q vis calls = some (r, calls'))
    (hv : ∀ k, k ∈ vis ↔ ∃ c ∈ calls, cls c = k)
    (hc : ∀ c ∈ calls, ∀ e ∈ edgesOf cls g c, (∃ x ∈ calls, cls x = cls e.second) ∨ ∃ x ∈ q, cls x = cls e.second) :
    r = 0 ∧ (∀ x ∈ calls, x ∈ calls') ∧ (∀ x ∈ q, x ∈ calls') ∧
      ∀ c ∈ calls', ∀ e ∈ edgesOf cls g c, ∃ x ∈ calls', cls x = cls e.second := by
  induction fuel generalizing q vis calls with
  | zero =>
    cases q with
    | nil =>
      simp only [traverseGo, Option.some.injEq, Prod.mk.injEq] at hr
      obtain ⟨rfl, rfl⟩ := hr
      refine ⟨rfl, fun _ h => h, by simp, ?_⟩
      intro c h e he
      rcases hc c h e he with h | ⟨x, hx, _⟩
      · exact h
      · cases hx
    | cons v rest => simp [traverseGo] at hr
  | succ fuel ih =>
    cases q with
    | nil =>
      simp only [traverseGo, Option.some.injEq, Prod.mk.injEq] at hr
      obtain ⟨rfl, rfl⟩ := hr
      refine ⟨rfl, fun _ h => h, by simp, ?_⟩
      intro c h e he
      rcases hc c h e he with h | ⟨x, hx, _⟩
      · exact h
      · cases hx
    | cons v rest =>
      rw [traverseGo] at hr
      simp only [ne_eq, not_true, if_false, enqueue_eq] at hr
      have hv' : ∀ k, k ∈ cls v :: vis ↔ ∃ c ∈ calls ++ [v], cls c = k := by
        intro k
        rw [List.mem_cons, hv]; simp only [List.mem_append, List.mem_singleton]
        constructor
        · rintro (rfl | ⟨c, h1, h2⟩)
          · exact ⟨v, by simp⟩
          · exact ⟨c, by simp [h1], h2⟩
        · rintro ⟨c, (h | rfl), h2⟩
          · exact .inr ⟨c, h, h2⟩
          · exact .inl h2.symm
      obtain ⟨h0, h1, h2, h3⟩ := ih hr hv' (by
        intro c hcm e he
        by_cases hin : cls e.second ∈ cls v :: vis
        · exact .inl ((hv' _).mp hin)
        · rcases List.mem_append.mp hcm with hcm | hcm
          · rcases hc c hcm e he with ⟨x, hx, hxe⟩ | ⟨x, hx, hxe⟩
            · exact .inl ⟨x, by simp [hx], hxe⟩
            · cases hx with
              | head => exact .inl ⟨v, by simp, hxe⟩
              | tail _ hx => exact .inr ⟨x, List.mem_append_left _ hx, hxe⟩
          · simp at hcm; subst hcm
            right
            refine ⟨e.second, ?_, rfl⟩
            simp only [fresh, List.mem_append, List.mem_map, List.mem_filter, decide_eq_true_eq]
            exact .inr ⟨e, ⟨he, hin⟩, rfl⟩)
      refine ⟨h0, fun x hx => h1 x (by simp [hx]), ?_, h3⟩
      intro x hx
      cases hx with
      | head => exact h1 v (by simp)
      | tail _ hx => exact h2 x (List.mem_append_left _ hx)

omit [DecidableEq V] in
/-- Everything called back satisfies a property that the queue satisfies and that edges preserve. -/
theorem go_sound {g : Graph V K} {cb : List V → Int} {fuel q vis calls r calls'} (P : V → Prop) (hr : traverseGo cls g cb fuel q vis calls = some (r, calls'))
    (hs : ∀ c, P c → ∀ e ∈ edgesOf cls g c, P e.second) (hq : ∀ x ∈ q, P x) (hc : ∀ x ∈ calls, P x) : ∀ x ∈ calls', P x := by
  induction fuel generalizing q vis calls with
  | zero =>
    cases q with
    | nil => simp only [traverseGo, Option.some.injEq, Prod.mk.injEq] at hr; obtain ⟨_, rfl⟩ := hr; exact hc
    | cons v rest =>
      rw [traverseGo] at hr
      split at hr
      · simp only [Option.some.injEq, Prod.mk.injEq] at hr
        obtain ⟨_, rfl⟩ := hr
        intro x hx
        rcases List.mem_append.mp hx with hx | hx
        · exact hc x hx
        · simp at hx; subst hx; exact hq x (by simp)
      · cases hr
  | succ fuel ih =>
    cases q with
    | nil => simp only [traverseGo, Option.some.injEq, Prod.mk.injEq] at hr; obtain ⟨_, rfl⟩ := hr; exact hc
    | cons v rest =>
      rw [traverseGo] at hr
      have hcv : ∀ x ∈ calls ++ [v], P x := by
        intro x hx
        rcases List.mem_append.mp hx with hx | hx
        · exact hc x hx
        · simp at hx; subst hx; exact hq x (by simp)
      split at hr
      · simp only [Option.some.injEq, Prod.mk.injEq] at hr
        obtain ⟨_, rfl⟩ := hr
        exact hcv
      · refine ih hr ?_ hcv
        rw [enqueue_eq]
        intro x hx
        rcases List.mem_append.mp hx with hx | hx
        · exact hq x (by simp [hx])
        · simp only [fresh, List.mem_map, List.mem_filter] at hx
          obtain ⟨e, ⟨he, _⟩, rfl⟩ := hx
          exact hs v (hq v (by simp)) e he

omit [DecidableEq V] in
/-- The calls so far are the beginning of the calls made. -/
theorem go_prefix {g : Graph V K} {cb : List V → Int} {fuel q vis calls r calls'} (hr : traverseGo cls g cb fuel q vis calls = some (r, calls')) :
    calls <+: calls' := by
  induction fuel generalizing q vis calls with
  | zero =>
    cases q with
    | nil => simp only [traverseGo, Option.some.injEq, Prod.mk.injEq] at hr; rw [hr.2]; exact List.prefix_refl _
    | cons v rest =>
      rw [traverseGo] at hr
      split at hr
      · simp only [Option.some.injEq, Prod.mk.injEq] at hr; rw [← hr.2]; exact List.prefix_append _ _
      · cases hr
  | succ fuel ih =>
    cases q with
    | nil => simp only [traverseGo, Option.some.injEq, Prod.mk.injEq] at hr; rw [hr.2]; exact List.prefix_refl _
    | cons v rest =>
      rw [traverseGo] at hr
      split at hr
      · simp only [Option.some.injEq, Prod.mk.injEq] at hr; rw [← hr.2]; exact List.prefix_append _ _
      · exact (List.prefix_append _ _).trans (ih hr)

/-- A traversal that is stopped makes the first calls of the one that is not, and stops at the first non-zero result. -/
theorem go_stop {g : Graph V K} {cb : List V → Int} {fuel fuel' q vis calls r calls' r' full}
    (hr : traverseGo cls g cb fuel q vis calls = some (r, calls')) (hf : traverseGo cls g (fun _ => 0) fuel' q vis calls = some (r', full)) :
    calls' <+: full ∧ (r = 0 → calls' = full) ∧ (r ≠ 0 → r = cb calls') ∧
      ∀ p, calls.length < p.length → p <+: calls' → p ≠ calls' ∨ r = 0 → cb p = 0 := by
  induction fuel generalizing fuel' q vis calls with
  | zero =>
    cases q with
    | nil =>
      simp only [traverseGo, Option.some.injEq, Prod.mk.injEq] at hr hf
      obtain ⟨rfl, rfl⟩ := hr
      obtain ⟨_, rfl⟩ := hf
      refine ⟨List.prefix_refl _, fun _ => rfl, nofun, ?_⟩
      intro p h1 h2; have := h2.length_le; omega
    | cons v rest =>
      have h2 := go_prefix cls hf
      rw [traverseGo] at hr
      split at hr
      · next hcb =>
        simp only [Option.some.injEq, Prod.mk.injEq] at hr
        obtain ⟨rfl, rfl⟩ := hr
        have hp : calls ++ [v] <+: full := by
          cases fuel' with
          | zero => simp [traverseGo] at hf
          | succ n => rw [traverseGo] at hf; simp only [ne_eq, not_true, if_false] at hf; exact go_prefix cls hf
        refine ⟨hp, fun h => absurd h hcb, fun _ => rfl, ?_⟩
        intro p h1 h2 h3
        have := h2.length_le
        have : p = calls ++ [v] := h2.eq_of_length (by simp at *; omega)
        exact absurd h3 (by simp [this, hcb])
      · cases hr
  | succ fuel ih =>
    cases q with
    | nil =>
      simp only [traverseGo, Option.some.injEq, Prod.mk.injEq] at hr
      obtain ⟨rfl, rfl⟩ := hr
      have : calls = full := by
        rw [traverseGo] at hf; simp at hf; exact hf.2
      subst this
      refine ⟨List.prefix_refl _, fun _ => rfl, nofun, ?_⟩
      intro p h1 h2; have := h2.length_le; omega
    | cons v rest =>
      cases fuel' with
      | zero => simp [traverseGo] at hf
      | succ n =>
        rw [traverseGo] at hf; simp only [ne_eq, not_true, if_false] at hf
        rw [traverseGo] at hr
        split at hr
        · next hcb =>
          simp only [Option.some.injEq, Prod.mk.injEq] at hr
          obtain ⟨rfl, rfl⟩ := hr
          refine ⟨go_prefix cls hf, fun h => absurd h hcb, fun _ => rfl, ?_⟩
          intro p h1 h2 h3
          have := h2.length_le
          have : p = calls ++ [v] := h2.eq_of_length (by simp at *; omega)
          exact absurd h3 (by simp [this, hcb])
        · next hcb =>
          obtain ⟨i1, i2, i3, i4⟩ := ih hr hf
          refine ⟨i1, i2, i3, ?_⟩
          intro p h1 h2 h3
          by_cases hl : p.length = (calls ++ [v]).length
          · have hp := go_prefix cls hr
            have : p = calls ++ [v] := (List.prefix_of_prefix_length_le h2 hp (by omega)).eq_of_length hl
            rw [this]; simpa using hcb
          · exact i4 p (by simp at *; omega) h2 h3

/-! ### Trees -/

/-- Every reachable vertex other than the start has at most one edge into it from a reachable vertex. -/
def TreeLike (h : List (Op V)) (src : V) : Prop :=
  ∀ a b c d, Reach cls h src a → Reach cls h src b → Present cls h a c → Present cls h b d → cls c = cls d → cls c ≠ cls src → cls a = cls b ∧ c = d

theorem go_once {h : List (Op V)} {src : V} (ht : TreeLike cls h src) {fuel q vis calls r calls'}
    (hr : traverseGo cls (run cls h) (fun _ => 0) fuel q vis calls = some (r, calls'))
    (hv : ∀ k, k ∈ vis ↔ ∃ c ∈ calls, cls c = k) (hs : ∃ x ∈ (calls ++ q).head?, cls x = cls src)
    (hn : ((calls ++ q).map cls).Nodup) (hre : ∀ x ∈ calls ++ q, Reach cls h src x)
    (hp : ∀ x ∈ calls ++ q, cls x ≠ cls src → ∃ p ∈ calls, Present cls h p x) : (calls'.map cls).Nodup := by
  induction fuel generalizing q vis calls with
  | zero =>
    cases q with
    | nil => simp only [traverseGo, Option.some.injEq, Prod.mk.injEq] at hr; rw [← hr.2]; simpa using hn
    | cons v rest => simp [traverseGo] at hr
  | succ fuel ih =>
    cases q with
    | nil => simp only [traverseGo, Option.some.injEq, Prod.mk.injEq] at hr; rw [← hr.2]; simpa using hn
    | cons v rest =>
      rw [traverseGo] at hr
      simp only [ne_eq, not_true, if_false, enqueue_eq] at hr
      have hv' : ∀ k, k ∈ cls v :: vis ↔ ∃ c ∈ calls ++ [v], cls c = k := by
        intro k
        rw [List.mem_cons, hv]; simp only [List.mem_append, List.mem_singleton]
        constructor
        · rintro (rfl | ⟨c, h1, h2⟩)
          · exact ⟨v, by simp⟩
          · exact ⟨c, by simp [h1], h2⟩
        · rintro ⟨c, (h | rfl), h2⟩
          · exact .inr ⟨c, h, h2⟩
          · exact .inl h2.symm
      have hsrc : cls src ∈ cls v :: vis := by
        rw [hv']
        obtain ⟨x, hx, hxs⟩ := hs
        cases calls with
        | nil => simp at hx; subst hx; exact ⟨v, by simp, hxs⟩
        | cons c cs => simp at hx; subst hx; exact ⟨c, by simp, hxs⟩
      have hfr : ∀ x ∈ fresh cls (cls v :: vis) (edgesOf cls (run cls h) v), Present cls h v x ∧ cls x ∉ cls v :: vis := by
        intro x hx
        simp only [fresh, List.mem_map, List.mem_filter, decide_eq_true_eq] at hx
        obtain ⟨e, ⟨he, hn⟩, rfl⟩ := hx
        exact ⟨edge_present cls he, hn⟩
      have hvr : Reach cls h src v := hre v (by simp)
      have assoc : calls ++ [v] ++ (rest ++ fresh cls (cls v :: vis) (edgesOf cls (run cls h) v))
          = (calls ++ v :: rest) ++ fresh cls (cls v :: vis) (edgesOf cls (run cls h) v) := by simp
      have hvc : cls v ∉ calls.map cls := by
        intro hm
        rw [List.map_append, List.nodup_append] at hn
        exact hn.2.2 _ hm (cls v) (by simp) rfl
      refine ih hr hv' ?_ ?_ ?_ ?_
      · rw [assoc]
        obtain ⟨x, hx, hxs⟩ := hs
        refine ⟨x, ?_, hxs⟩
        cases calls with
        | nil => simpa using hx
        | cons c cs => simpa using hx
      · rw [assoc, List.map_append, List.nodup_append]
        refine ⟨hn, ?_, ?_⟩
        · have nd : (fresh cls (cls v :: vis) (edgesOf cls (run cls h) v)).Nodup := by
            refine (nodup_edgesOf cls h v).sublist ?_
            exact List.filter_sublist.map _
          refine (List.nodup_map_iff_inj_on nd).mpr ?_
          intro x hx y hy hxy
          obtain ⟨px, nx⟩ := hfr x hx
          obtain ⟨py, _⟩ := hfr y hy
          exact (ht v v x y hvr hvr px py hxy (fun hc => nx (hc ▸ hsrc))).2
        · intro a ha b hb hab
          subst hab
          obtain ⟨x, hx, hxa⟩ := List.mem_map.mp ha
          obtain ⟨y, hy, hya⟩ := List.mem_map.mp hb
          obtain ⟨py, ny⟩ := hfr y hy
          have hxy : cls x = cls y := hxa.trans hya.symm
          have nsrc : cls x ≠ cls src := fun hc => ny (hxy ▸ hc ▸ hsrc)
          obtain ⟨p, hpc, hpx⟩ := hp x hx nsrc
          have := (ht p v x y (hre p (by simp [hpc])) hvr hpx py hxy nsrc).1
          exact hvc (List.mem_map.mpr ⟨p, hpc, this⟩)
      · rw [assoc]
        intro x hx
        rcases List.mem_append.mp hx with hx | hx
        · exact hre x hx
        · exact .step hvr (hfr x hx).1
      · rw [assoc]
        intro x hx hxs
        rcases List.mem_append.mp hx with hx | hx
        · obtain ⟨p, hp1, hp2⟩ := hp x hx hxs
          exact ⟨p, by simp [hp1], hp2⟩
        · exact ⟨v, by simp, (hfr x hx).1⟩

/-! ### Layered graphs -/

/-- `n` layers of two vertices each below the vertex 0; every vertex has edges to both vertices of the next layer. -/
def layers : Nat → List (Op Nat)
  | 0 => []
  | n + 1 => [.add (2 * n - 1) (2 * n + 1) false, .add (2 * n - 1) (2 * n + 2) false,
      .add (2 * n) (2 * n + 1) false, .add (2 * n) (2 * n + 2) false] ++ layers n

def lay (v : Nat) : Nat := (v + 1) / 2

theorem present_layers (n a b : Nat) : Present id (layers n) a b ↔ lay a < n ∧ lay b = lay a + 1 := by
  induction n with
  | zero => simp [layers, Present]
  | succ n ih =>
    simp only [layers, List.cons_append, List.nil_append, Present, Names, ih, id, lay, Bool.false_eq_true, false_and, or_false]
    omega

theorem length_layers (n : Nat) : (layers n).length = 4 * n := by
  induction n with
  | zero => rfl
  | succ n ih => simp [layers, ih]; omega

theorem edges_layers (n v : Nat) (hv : lay v < n) : ((edgesOf id (run id (layers n)) v).map Edge.second).Perm [2 * lay v + 1, 2 * lay v + 2] := by
  rw [List.perm_ext_iff_of_nodup (nodup_edgesOf id (layers n) v) (by simp)]
  intro b
  constructor
  · intro h
    obtain ⟨e, he, rfl⟩ := List.mem_map.mp h
    have := (present_layers n v e.second).mp (edge_present id he)
    simp only [lay, List.mem_cons, List.not_mem_nil, or_false] at *
    omega
  · intro h
    have : Present id (layers n) v b := by
      rw [present_layers]
      simp only [lay, List.mem_cons, List.not_mem_nil, or_false] at *
      omega
    obtain ⟨e, he, rfl⟩ := present_edge id this
    exact List.mem_map.mpr ⟨e, he, rfl⟩

theorem fresh_layers (n v : Nat) (vis : List Nat) (hv : lay v < n) (hvis : ∀ k ∈ vis, lay k ≤ lay v) :
    (fresh id (v :: vis) (edgesOf id (run id (layers n)) v)).length = 2 ∧
      ∀ x ∈ fresh id (v :: vis) (edgesOf id (run id (layers n)) v), lay x = lay v + 1 := by
  have hp := edges_layers n v hv
  have all : fresh id (v :: vis) (edgesOf id (run id (layers n)) v) = (edgesOf id (run id (layers n)) v).map Edge.second := by
    unfold fresh
    rw [List.filter_eq_self.mpr]
    intro e he
    have := (present_layers n v e.second).mp (edge_present id he)
    have hn : e.second ∉ v :: vis := by
      intro hm
      rcases List.mem_cons.mp hm with hm | hm
      · rw [hm] at this; omega
      · have := hvis _ hm; omega
    simpa using hn
  rw [all]
  refine ⟨by simpa using hp.length_eq, ?_⟩
  intro x hx
  obtain ⟨e, he, rfl⟩ := List.mem_map.mp hx
  exact ((present_layers n v e.second).mp (edge_present id he)).2

theorem go_layer {n k : Nat} (hk : k < n) {res : Int × List Nat} (xs ys : List Nat) (vis calls : List Nat) (fuel : Nat)
    (hr : traverseGo id (run id (layers n)) (fun _ => 0) fuel (xs ++ ys) vis calls = some res)
    (hx : ∀ x ∈ xs, lay x = k) (hvis : ∀ x ∈ vis, lay x ≤ k) :
    ∃ fuel' vis' new, traverseGo id (run id (layers n)) (fun _ => 0) fuel' (ys ++ new) vis' (calls ++ xs) = some res ∧
      new.length = 2 * xs.length ∧ (∀ x ∈ new, lay x = k + 1) ∧ ∀ x ∈ vis', lay x ≤ k := by
  induction xs generalizing ys vis calls fuel with
  | nil => exact ⟨fuel, vis, [], by simpa using hr, rfl, by simp, hvis⟩
  | cons v xs ih =>
    cases fuel with
    | zero => simp [traverseGo] at hr
    | succ fuel =>
      rw [List.cons_append, traverseGo] at hr
      simp only [ne_eq, not_true, if_false, enqueue_eq, List.append_assoc] at hr
      have hv : lay v = k := hx v (by simp)
      obtain ⟨l1, l2⟩ := fresh_layers n v vis (by omega) (by rw [hv]; exact hvis)
      obtain ⟨fuel', vis', new, i1, i2, i3, i4⟩ := ih _ _ _ _ hr (fun x hx' => hx x (by simp [hx'])) (by
        intro x hx'
        rcases List.mem_cons.mp hx' with hx' | hx'
        · rw [hx']; exact Nat.le_of_eq hv
        · exact hvis x hx')
      refine ⟨fuel', vis', fresh id (v :: vis) (edgesOf id (run id (layers n)) v) ++ new, ?_, ?_, ?_, i4⟩
      · simpa using i1
      · simp [l1, i2]; omega
      · intro x hx'
        rcases List.mem_append.mp hx' with hx' | hx'
        · rw [l2 x hx', hv]
        · exact i3 x hx'

theorem go_layers {n m k : Nat} (hk : k + m = n) (xs vis calls : List Nat) (fuel : Nat) {r : Int} {calls' : List Nat}
    (hr : traverseGo id (run id (layers n)) (fun _ => 0) fuel xs vis calls = some (r, calls'))
    (hx : ∀ x ∈ xs, lay x = k) (hvis : ∀ x ∈ vis, lay x < k) : xs.length * 2 ^ m ≤ calls'.length := by
  induction m generalizing k xs vis calls fuel with
  | zero =>
    have : calls ++ xs <+: calls' := by
      clear hx hvis
      induction fuel generalizing xs vis calls with
      | zero =>
        cases xs with
        | nil => simpa using go_prefix id hr
        | cons x xs => simp [traverseGo] at hr
      | succ fuel ih =>
        cases xs with
        | nil => simpa using go_prefix id hr
        | cons v xs =>
          rw [traverseGo] at hr
          simp only [ne_eq, not_true, if_false, enqueue_eq] at hr
          have := ih _ _ _ hr
          have e : calls ++ v :: xs = calls ++ [v] ++ xs := by simp
          rw [e]
          refine List.IsPrefix.trans ?_ this
          rw [← List.append_assoc]
          exact List.prefix_append _ _
    have := this.length_le
    simp at *; omega
  | succ m ih =>
    obtain ⟨fuel', vis', new, i1, i2, i3, i4⟩ := go_layer (by omega : k < n) xs [] vis calls fuel (by simpa using hr) hx
      (fun x hx => Nat.le_of_lt (hvis x hx))
    have := ih (k := k + 1) (by omega) _ _ _ _ (by simpa using i1) i3 (fun x hx => by have := i4 x hx; omega)
    rw [i2] at this
    rw [Nat.pow_succ]
    calc xs.length * (2 ^ m * 2) = 2 * xs.length * 2 ^ m := by rw [Nat.mul_comm (2 ^ m), ← Nat.mul_assoc, Nat.mul_comm xs.length 2]
      _ ≤ _ := this

end Graph
end Duck
