import Verif.Spec.Graph
import Mathlib.Data.List.Nodup
/-! Helper lemmas for C47, C48. -/
namespace Duck
namespace Graph
variable {V K : Type} [DecidableEq V] [DecidableEq K] (cls : V → K)

theorem scan_some {dst : V} {es : List (Edge V)} {e} (h : scan dst es = some e) : e ∈ es ∧ e.second = dst := by
  induction es with
  | nil => simp [scan] at h
  | cons x xs ih =>
    simp only [scan] at h
    split at h
    · simp at h; subst h; simp_all
    · have := ih h; simp [this]

theorem scan_none {dst : V} {es : List (Edge V)} : scan dst es = none ↔ ∀ e ∈ es, e.second ≠ dst := by
  induction es with
  | nil => simp [scan]
  | cons x xs ih =>
    simp only [scan]
    split <;> simp_all

theorem scan_append {dst : V} {es fs : List (Edge V)} : scan dst (es ++ fs) = (scan dst es).or (scan dst fs) := by
  induction es with
  | nil => simp [scan]
  | cons x xs ih => simp only [List.cons_append, scan]; split <;> simp_all

theorem indexOf_none {dst : V} {es : List (Edge V)} {i : Nat} : indexOf dst es i = none ↔ ∀ e ∈ es, e.second ≠ dst := by
  induction es generalizing i with
  | nil => simp [indexOf]
  | cons x xs ih => simp only [indexOf]; split <;> simp_all

theorem indexOf_some {dst : V} {es : List (Edge V)} {i j : Nat} (h : indexOf dst es i = some j) :
    ∃ l e r, es = l ++ e :: r ∧ e.second = dst ∧ j = i + l.length ∧ ∀ x ∈ l, x.second ≠ dst := by
  induction es generalizing i with
  | nil => simp [indexOf] at h
  | cons x xs ih =>
    simp only [indexOf] at h
    split at h
    · next hx => simp at h; exact ⟨[], x, xs, rfl, hx, by simp [h], by simp⟩
    · next hx =>
      obtain ⟨l, e, r, h1, h2, h3, h4⟩ := ih h
      refine ⟨x :: l, e, r, by simp [h1], h2, by simp; omega, ?_⟩
      intro y hy
      cases hy with
      | head => exact hx
      | tail _ hy => exact h4 y hy

theorem erase_mid {α} (l : List α) (e : α) (r : List α) : (l ++ e :: r).eraseIdx l.length = l ++ r := by
  simp [List.eraseIdx_append_of_length_le]

/-- Well-formed graphs: no empty lists, no two edges to the same vertex, first vertices equal to the key, identities below the
    next one and not shared. -/
structure WF (g : Graph V K) : Prop where
  nonempty : ∀ k, g.map k ≠ some []
  nodup : ∀ k es, g.map k = some es → (es.map Edge.second).Nodup
  first : ∀ k es, g.map k = some es → ∀ e ∈ es, cls e.first = k
  fresh : ∀ k es, g.map k = some es → ∀ e ∈ es, e.id < g.next
  uniq : ∀ k es, g.map k = some es → ∀ e ∈ es, ∀ k' es', g.map k' = some es' → ∀ e' ∈ es', e.id = e'.id → k = k' ∧ e.second = e'.second

omit [DecidableEq V] [DecidableEq K] in
theorem wf_init : WF cls (init : Graph V K) := by constructor <;> simp [init]

omit [DecidableEq K] in
theorem findEdge_eq (g : Graph V K) (a b : V) : findEdge cls g a b = scan b (edgesOf cls g a) := by
  unfold findEdge edgesOf
  cases g.map (cls a) <;> simp [scan]

/-! ### Insertion -/

theorem find_insert (g : Graph V K) (s t a b : V) (hn : findEdge cls g s t = none) :
    findEdge cls (insertEdge cls g s t) a b =
      if cls a = cls s ∧ b = t then some ⟨g.next, s, t⟩ else findEdge cls g a b := by
  simp only [findEdge_eq] at *
  by_cases h : cls a = cls s
  · have : edgesOf cls (insertEdge cls g s t) a = edgesOf cls g s ++ [⟨g.next, s, t⟩] := by
      simp [edgesOf, insertEdge, setMap, h]
    rw [this, scan_append]
    have e : edgesOf cls g a = edgesOf cls g s := by simp [edgesOf, h]
    rw [e]
    by_cases hb : b = t
    · subst hb; simp [h, hn, scan]
    · have : t ≠ b := fun h => hb h.symm
      simp [h, hb, scan, this]
  · have : edgesOf cls (insertEdge cls g s t) a = edgesOf cls g a := by
      simp [edgesOf, insertEdge, setMap, h]
    simp [this, h]

theorem wf_insert {g : Graph V K} (w : WF cls g) (s t : V) (hn : findEdge cls g s t = none) : WF cls (insertEdge cls g s t) := by
  rw [findEdge_eq, scan_none] at hn
  have key : ∀ k es, (insertEdge cls g s t).map k = some es → (k ≠ cls s ∧ g.map k = some es) ∨
      (k = cls s ∧ es = edgesOf cls g s ++ [⟨g.next, s, t⟩]) := by
    intro k es h
    simp only [insertEdge, setMap] at h
    split at h
    · next hk => simp at h; exact .inr ⟨hk, h.symm⟩
    · next hk => exact .inl ⟨hk, h⟩
  have old : ∀ e ∈ edgesOf cls g s, ∃ es, g.map (cls s) = some es ∧ e ∈ es := by
    intro e he
    simp only [edgesOf] at he
    cases hm : g.map (cls s) with
    | none => simp [hm] at he
    | some es => exact ⟨es, rfl, by simpa [hm] using he⟩
  have loc : ∀ k es, (insertEdge cls g s t).map k = some es → ∀ e ∈ es,
      (∃ es', g.map k = some es' ∧ e ∈ es') ∨ (k = cls s ∧ e = ⟨g.next, s, t⟩) := by
    intro k es h e he
    rcases key k es h with ⟨_, h⟩ | ⟨rfl, rfl⟩
    · exact .inl ⟨es, h, he⟩
    · rcases List.mem_append.mp he with he | he
      · exact .inl (old e he)
      · exact .inr ⟨rfl, by simpa using he⟩
  constructor
  · intro k h
    rcases key k [] h with ⟨_, h⟩ | ⟨_, h⟩
    · exact w.nonempty k h
    · simp at h
  · intro k es h
    rcases key k es h with ⟨_, h⟩ | ⟨rfl, rfl⟩
    · exact w.nodup k es h
    · rw [List.map_append, List.nodup_append]
      refine ⟨?_, by simp, ?_⟩
      · cases hm : g.map (cls s) with
        | none => simp [edgesOf, hm]
        | some es => simpa [edgesOf, hm] using w.nodup _ _ hm
      · intro x hx y hy
        simp at hy
        subst hy
        obtain ⟨e, he, rfl⟩ := List.mem_map.mp hx
        exact hn e he
  · intro k es h e he
    rcases loc k es h e he with ⟨es', h', he'⟩ | ⟨rfl, rfl⟩
    · exact w.first k es' h' e he'
    · rfl
  · intro k es h e he
    show e.id < g.next + 1
    rcases loc k es h e he with ⟨es', h', he'⟩ | ⟨rfl, rfl⟩
    · have := w.fresh k es' h' e he'; omega
    · simp
  · intro k es h e he k' es' h' e' he' hid
    rcases loc k es h e he with ⟨fs, hf, hef⟩ | ⟨rfl, rfl⟩ <;> rcases loc k' es' h' e' he' with ⟨fs', hf', hef'⟩ | ⟨rfl, rfl⟩
    · exact w.uniq k fs hf e hef k' fs' hf' e' hef' hid
    · have := w.fresh k fs hf e hef; simp at hid; omega
    · have := w.fresh k' fs' hf' e' hef'; simp at hid; omega
    · exact ⟨rfl, rfl⟩

theorem find_findOrInsert (g : Graph V K) (s t a b : V) :
    (findEdge cls (findOrInsert cls g s t) a b).isSome ↔ (cls s = cls a ∧ t = b) ∨ (findEdge cls g a b).isSome := by
  unfold findOrInsert
  split
  · next h =>
    constructor
    · exact .inr
    · rintro (⟨h1, rfl⟩ | h1)
      · simp only [findEdge] at *; rwa [← h1]
      · exact h1
  · next h =>
    rw [find_insert cls g s t a b (by simpa using h)]
    split
    · next hc => simp [hc]
    · next hc =>
      constructor
      · exact .inr
      · rintro (⟨h1, h2⟩ | h1)
        · exact absurd ⟨h1.symm, h2.symm⟩ hc
        · exact h1

theorem keep_findOrInsert (g : Graph V K) (s t a b : V) {e} (h : findEdge cls g a b = some e) :
    findEdge cls (findOrInsert cls g s t) a b = some e := by
  unfold findOrInsert
  split
  · exact h
  · next hn =>
    have hn : findEdge cls g s t = none := by simpa using hn
    rw [find_insert cls g s t a b hn]
    split
    · next hc =>
      simp only [findEdge] at hn h
      rw [hc.1, hc.2, hn] at h
      cases h
    · exact h

theorem wf_findOrInsert {g : Graph V K} (w : WF cls g) (s t : V) : WF cls (findOrInsert cls g s t) := by
  unfold findOrInsert
  split
  · exact w
  · next h => exact wf_insert cls w s t (by simpa using h)

/-! ### Removal -/

omit [DecidableEq V] in
theorem edgesOf_drop {g : Graph V K} (s a : V) (l r : List (Edge V)) (e) (hs : edgesOf cls g s = l ++ e :: r) :
    edgesOf cls (dropEdge cls g s (l ++ e :: r) l.length) a = if cls a = cls s then l ++ r else edgesOf cls g a := by
  unfold dropEdge
  split
  · next h =>
    have : l = [] ∧ r = [] := by
      cases l <;> cases r <;> simp_all
    by_cases hk : cls a = cls s <;> simp [edgesOf, setMap, hk, this]
  · by_cases hk : cls a = cls s <;> simp [edgesOf, setMap, hk, erase_mid]

theorem find_removeOne {g : Graph V K} (w : WF cls g) (s t a b : V) :
    findEdge cls (removeOne cls g s t) a b = if cls s = cls a ∧ t = b then none else findEdge cls g a b := by
  simp only [findEdge_eq, removeOne]
  split
  · next h =>
    rw [indexOf_none] at h
    split
    · next hc =>
      rw [scan_none]
      have : edgesOf cls g a = edgesOf cls g s := by simp [edgesOf, hc.1]
      rw [this, ← hc.2]; exact h
    · rfl
  · next i h =>
    obtain ⟨l, e, r, h1, h2, h3, h4⟩ := indexOf_some h
    have h3 : i = l.length := by omega
    subst h3
    rw [h1, edgesOf_drop cls s a l r e h1]
    have nd : ((l ++ e :: r).map Edge.second).Nodup := by
      cases hm : g.map (cls s) with
      | none => simp [edgesOf, hm] at h1
      | some es =>
        have := w.nodup _ _ hm
        simp [edgesOf, hm] at h1
        rwa [h1] at this
    split
    · next hk =>
      have ea : edgesOf cls g a = l ++ e :: r := by rw [← h1]; simp [edgesOf, hk]
      rw [ea]
      split
      · next hc =>
        rw [scan_none]
        intro x hx
        rw [← hc.2, ← h2]
        intro hxe
        simp only [List.map_append, List.map_cons] at nd
        rw [List.nodup_append] at nd
        obtain ⟨_, nd2, nd3⟩ := nd
        rcases List.mem_append.mp hx with hx | hx
        · exact nd3 _ (List.mem_map.mpr ⟨x, hx, rfl⟩) e.second (by simp) hxe
        · rw [List.nodup_cons] at nd2
          exact nd2.1 (List.mem_map.mpr ⟨x, hx, hxe⟩)
      · next hc =>
        have : e.second ≠ b := by
          intro hb; exact hc ⟨hk.symm, by rw [← h2]; exact hb⟩
        simp [scan_append, scan, this]
    · next hk =>
      rw [if_neg (fun hc => hk hc.1.symm)]

theorem wf_removeOne {g : Graph V K} (w : WF cls g) (s t : V) : WF cls (removeOne cls g s t) := by
  unfold removeOne
  split
  · exact w
  · next i h =>
    obtain ⟨l, e, r, h1, h2, h3, h4⟩ := indexOf_some h
    have h3 : i = l.length := by omega
    subst h3
    have hm : g.map (cls s) = some (l ++ e :: r) := by
      cases hm : g.map (cls s) with
      | none => simp [edgesOf, hm] at h1
      | some es => simp [edgesOf, hm] at h1; rw [h1]
    rw [h1]
    have loc : ∀ k es, (dropEdge cls g s (l ++ e :: r) l.length).map k = some es →
        ∃ es', g.map k = some es' ∧ es.Sublist es' ∧ es ≠ [] := by
      intro k es h
      unfold dropEdge at h
      split at h
      · simp only [setMap] at h
        split at h
        · cases h
        · exact ⟨es, h, List.Sublist.refl _, fun he => w.nonempty k (by rw [h, he])⟩
      · next hl =>
        simp only [setMap, erase_mid] at h
        split at h
        · next hk =>
          simp at h
          subst hk h
          refine ⟨_, hm, by simp, ?_⟩
          intro he
          simp at he
          simp [he] at hl
        · exact ⟨es, h, List.Sublist.refl _, fun he => w.nonempty k (by rw [h, he])⟩
    have hnext : (dropEdge cls g s (l ++ e :: r) l.length).next = g.next := by
      unfold dropEdge; split <;> rfl
    constructor
    · intro k h
      obtain ⟨_, _, _, h⟩ := loc k [] h
      exact h rfl
    · intro k es h
      obtain ⟨es', h', sub, _⟩ := loc k es h
      exact (w.nodup k es' h').sublist (sub.map _)
    · intro k es h x hx
      obtain ⟨es', h', sub, _⟩ := loc k es h
      exact w.first k es' h' x (sub.subset hx)
    · intro k es h x hx
      obtain ⟨es', h', sub, _⟩ := loc k es h
      rw [hnext]
      exact w.fresh k es' h' x (sub.subset hx)
    · intro k es h x hx k' es' h' x' hx'
      obtain ⟨fs, hf, sub, _⟩ := loc k es h
      obtain ⟨fs', hf', sub', _⟩ := loc k' es' h'
      exact w.uniq k fs hf x (sub.subset hx) k' fs' hf' x' (sub'.subset hx')

/-! ### Histories -/

omit [DecidableEq K] in
theorem map_setInfo (g : Graph V K) (s t : V) (u) : (setInfo cls g s t u).map = g.map ∧ (setInfo cls g s t u).next = g.next := by
  unfold setInfo; split <;> exact ⟨rfl, rfl⟩

theorem wf_step {g : Graph V K} (w : WF cls g) (op : Op V) : WF cls (step cls g op) := by
  cases op with
  | add s t b =>
    simp only [step, addEdge]
    split
    · exact wf_findOrInsert cls (wf_findOrInsert cls w s t) t s
    · exact wf_findOrInsert cls w s t
  | remove s t b =>
    simp only [step, removeEdge]
    split
    · exact wf_removeOne cls (wf_removeOne cls w s t) t s
    · exact wf_removeOne cls w s t
  | removeAll => constructor <;> simp [step, removeAll]
  | setInfo s t u =>
    obtain ⟨h1, h2⟩ := map_setInfo cls g s t u
    simp only [step]
    constructor
    · rw [h1]; exact w.nonempty
    · rw [h1]; exact w.nodup
    · rw [h1]; exact w.first
    · rw [h1, h2]; exact w.fresh
    · rw [h1]; exact w.uniq

theorem wf_run (h : List (Op V)) : WF cls (run cls h) := by
  induction h with
  | nil => exact wf_init cls
  | cons op h ih => exact wf_step cls ih op

omit [DecidableEq K] in
theorem find_setInfo (g : Graph V K) (s t : V) (u) (a b : V) : findEdge cls (setInfo cls g s t u) a b = findEdge cls g a b := by
  simp only [findEdge, (map_setInfo cls g s t u).1]

theorem find_run (h : List (Op V)) (a b : V) : (findEdge cls (run cls h) a b).isSome ↔ Present cls h a b := by
  induction h with
  | nil => simp [run, init, findEdge, Present]
  | cons op h ih =>
    cases op with
    | add s t both =>
      simp only [run, step, addEdge, Present, Names]
      split
      · next hb => rw [find_findOrInsert, find_findOrInsert, ih]; simp [hb]; grind
      · next hb => rw [find_findOrInsert, ih]; simp [hb]
    | remove s t both =>
      simp only [run, step, removeEdge, Present, Names]
      have w := wf_run cls h
      split
      · next hb =>
        rw [find_removeOne cls (wf_removeOne cls w s t), find_removeOne cls w]
        split
        · next hc => simp [hb]; grind
        · next hc =>
          split
          · next hc' => simp; grind
          · next hc' => rw [ih]; grind
      · next hb =>
        rw [find_removeOne cls w]
        split
        · next hc => simp; grind
        · next hc' => rw [ih]; grind
    | removeAll => simp [run, step, removeAll, findEdge, Present]
    | setInfo s t u => simp only [run, step, Present]; rw [find_setInfo, ih]

omit [DecidableEq K] in
theorem mem_edgesOf {g : Graph V K} (w : WF cls g) (a : V) (e : Edge V) : e ∈ edgesOf cls g a ↔ findEdge cls g a e.second = some e := by
  rw [findEdge_eq]
  constructor
  · intro h
    cases hs : scan e.second (edgesOf cls g a) with
    | none => exact absurd rfl (scan_none.mp hs e h)
    | some e' =>
      obtain ⟨h1, h2⟩ := scan_some hs
      cases hm : g.map (cls a) with
      | none => simp [edgesOf, hm] at h
      | some es =>
        simp only [edgesOf, hm, Option.getD_some] at h h1
        have nd := w.nodup _ _ hm
        obtain ⟨i, hi, rfl⟩ := List.getElem_of_mem h
        obtain ⟨j, hj, rfl⟩ := List.getElem_of_mem h1
        have : (es.map Edge.second)[i]'(by simpa using hi) = (es.map Edge.second)[j]'(by simpa using hj) := by simpa using h2.symm
        have := (List.Nodup.getElem_inj_iff nd).mp this
        simp [this]
  · intro h; exact (scan_some h).1

end Graph
end Duck
