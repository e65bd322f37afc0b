import Verif.Lemmas.ParseOwnJsonRun
/-! The objects of an XML tree and where they are. -/
namespace Duck
namespace ParseOwn

/-- Apart from the objects `X`, what exists is as before or new. -/
structure Bk (X : List Nat) (h h' : Heap) : Prop where
  len : h.length ≤ h'.length
  cont : ∀ i n o, i < h.length → i ∉ X → get h' i = some (n, o) → ∃ n', get h i = some (n', o)

theorem Bk.refl (X : List Nat) (h : Heap) : Bk X h h := ⟨Nat.le_refl _, fun i n o _ _ e => ⟨n, e⟩⟩
theorem Bk.mono {X Y : List Nat} {h h' : Heap} (k : Bk X h h') (s : ∀ i ∈ X, i ∈ Y) : Bk Y h h' :=
  ⟨k.len, fun i n o hi hx => k.cont i n o hi fun hh => hx (s i hh)⟩
theorem Bk.trans {X Y : List Nat} {h h' h'' : Heap} (a : Bk X h h') (b : Bk Y h' h'') : Bk (X ++ Y) h h'' :=
  ⟨Nat.le_trans a.len b.len, fun i n o hi hx e => by
    obtain ⟨n, e⟩ := b.cont i n o (Nat.lt_of_lt_of_le hi a.len) (fun hh => hx (List.mem_append_right _ hh)) e
    exact a.cont i n o hi (fun hh => hx (List.mem_append_left _ hh)) e⟩
theorem Bk.of {h h' : Heap} {x : Nat} (t : h'.take x = h.take x) (k : Keep (x + 1) h h') : Bk [x] h h' :=
  ⟨k.len, fun i n o hi hx e => by
    by_cases c : i < x
    · exact ⟨n, by rw [← get_take t c]; exact e⟩
    · exact k.cont i n o (by simp at hx; omega) hi e⟩
theorem Kept.bk {h h' : Heap} (k : Kept h h') : Bk [] h h' := ⟨by rw [k.len]; exact Nat.le_refl _, fun i n o _ _ e => k.cont i n o e⟩
theorem bk_alloc (h : Heap) (o : Obj) : Bk [] h (alloc h o) :=
  ⟨by simp, fun i n q hi _ e => ⟨n, by rw [get_alloc, if_neg (by omega)] at e; exact e⟩⟩

/-- An object that exists -/
def Live (h : Heap) (i : Nat) : Prop := ∃ n o, get h i = some (n, o)

theorem Has.live {h : Heap} {i : Nat} {o : Obj} (e : Has h i o) : Live h i := by obtain ⟨n, e⟩ := e; exact ⟨n, o, e⟩
theorem Has.lt {h : Heap} {i : Nat} {o : Obj} (e : Has h i o) : i < h.length := by obtain ⟨n, e⟩ := e; exact get_lt e
theorem Has.child {h : Heap} {R : List Nat} {i j : Nat} {o : Obj} (e : Has h i o) (b : Bal h R) (hj : j ∈ o.held) : Live h j := by
  obtain ⟨n, e⟩ := e; exact b.child e hj
theorem Has.eq {h : Heap} {i : Nat} {o o' : Obj} (e : Has h i o) (e' : Has h i o') : o = o' := by
  obtain ⟨n, e⟩ := e; obtain ⟨n', e'⟩ := e'; rw [e] at e'; cases e'; rfl
theorem Has.move {X : List Nat} {h h' : Heap} {i : Nat} {o : Obj} (e : Has h i o) (k : Bk X h h') (hx : i ∉ X) (l : Live h' i) : Has h' i o := by
  obtain ⟨n, q, e'⟩ := l
  obtain ⟨n', e2⟩ := k.cont i n q e.lt hx e'
  have := e.eq ⟨n', e2⟩; subst this
  exact ⟨n, e'⟩

/-- The rows of the attributes -/
def ARows (h : Heap) : List (Bytes × Ref × Ref) → List (Bytes × Bytes) → Prop
  | [], [] => True
  | r :: rows, p :: as => (r.1 = p.1 ∧ ∃ i j, r.2 = (.ptr i, .ptr j) ∧ Has h i (.leaf (.str p.1)) ∧ Has h j (.leaf (.str p.2))) ∧ ARows h rows as
  | _, _ => False

theorem ARows.move {X : List Nat} {h h' : Heap} (k : Bk X h h') : ∀ {rows : List (Bytes × Ref × Ref)} {as : List (Bytes × Bytes)},
    ARows h rows as → (∀ i ∈ (Obj.dict rows).held, i ∉ X ∧ Live h' i) → ARows h' rows as
  | [], [], _, _ => trivial
  | r :: rows, p :: as, w, hl => by
    obtain ⟨⟨e, i, j, e2, hi, hj⟩, w⟩ := w
    have h1 : ∀ x ∈ (Obj.dict rows).held, x ∈ (Obj.dict (r :: rows)).held := fun x hx => by
      simp only [Obj.held, List.flatMap_cons, List.mem_append] at hx ⊢; exact .inr hx
    have hi' := hl i (by simp [Obj.held, e2, Ref.ptrs])
    have hj' := hl j (by simp [Obj.held, e2, Ref.ptrs])
    exact ⟨⟨e, i, j, e2, hi.move k hi'.1 hi'.2, hj.move k hj'.1 hj'.2⟩, ARows.move k w fun x hx => hl x (h1 x hx)⟩

/-- The cells of an element -/
structure Elem (h : Heap) (i n a k : Nat) (nm : Bytes) (as : List (Bytes × Bytes)) (rows : List (Bytes × Ref × Ref)) (l : List Ref) : Prop where
  cell : Has h i (.element (.ptr n) (.ptr a) (.ptr k))
  name : Has h n (.leaf (.str nm))
  dict : Has h a (.dict rows)
  rows : ARows h rows as
  list : Has h k (.list l)

/-- The objects of an element without its children -/
def cells (i n a k : Nat) (rows : List (Bytes × Ref × Ref)) : List Nat := [i, n, a, k] ++ (Obj.dict rows).held

theorem Elem.move {X : List Nat} {h h' : Heap} {R : List Nat} {i n a k : Nat} {nm : Bytes} {as : List (Bytes × Bytes)}
    {rows : List (Bytes × Ref × Ref)} {l : List Ref} (w : Elem h i n a k nm as rows l) (b : Bal h' R) (bk : Bk X h h') (hl : Live h' i)
    (hx : ∀ j ∈ cells i n a k rows, j ∉ X) : Elem h' i n a k nm as rows l := by
  have c := w.cell.move bk (hx i (by simp [cells])) hl
  have d := w.dict.move bk (hx a (by simp [cells])) (c.child b (by simp [Obj.held, Ref.ptrs]))
  exact ⟨c, w.name.move bk (hx n (by simp [cells])) (c.child b (by simp [Obj.held, Ref.ptrs])), d,
    w.rows.move bk fun j hj => ⟨hx j (by simp [cells, hj]), d.child b hj⟩,
    w.list.move bk (hx k (by simp [cells])) (c.child b (by simp [Obj.held, Ref.ptrs]))⟩

mutual
/-- The text or element is at `i`, and its objects are `F`. -/
def Foot (h : Heap) : Xml.Node → Nat → List Nat → Prop
  | .text s, i, F => Has h i (.leaf (.str s)) ∧ F = [i]
  | .elem nm as ks, i, F => ∃ n a k rows l K, Elem h i n a k nm as rows l ∧ Foots h ks l K ∧ F = cells i n a k rows ++ K
/-- The children are at `l`. -/
def Foots (h : Heap) : List Xml.Node → List Ref → List Nat → Prop
  | [], l, F => l = [] ∧ F = []
  | t :: ts, l, F => ∃ i l' F1 F2, l = .ptr i :: l' ∧ Foot h t i F1 ∧ Foots h ts l' F2 ∧ F = F1 ++ F2
end

mutual
theorem Foot.move {X : List Nat} {h h' : Heap} {R : List Nat} (b : Bal h' R) (bk : Bk X h h') : ∀ {t : Xml.Node} {i : Nat} {F : List Nat},
    Foot h t i F → Live h' i → (∀ j ∈ F, j ∉ X) → Foot h' t i F
  | .text s, i, F, w, hl, hx => by
    obtain ⟨w, rfl⟩ := w
    exact ⟨w.move bk (hx i (by simp)) hl, rfl⟩
  | .elem nm as ks, i, F, w, hl, hx => by
    obtain ⟨n, a, k, rows, l, K, w, ws, rfl⟩ := w
    have w' := w.move b bk hl fun j hj => hx j (List.mem_append_left _ hj)
    refine ⟨n, a, k, rows, l, K, w', ?_, rfl⟩
    exact Foots.move b bk ws (fun j hj => w'.list.child b hj) fun j hj => hx j (List.mem_append_right _ hj)
theorem Foots.move {X : List Nat} {h h' : Heap} {R : List Nat} (b : Bal h' R) (bk : Bk X h h') : ∀ {ts : List Xml.Node} {l : List Ref} {F : List Nat},
    Foots h ts l F → (∀ j ∈ (Obj.list l).held, Live h' j) → (∀ j ∈ F, j ∉ X) → Foots h' ts l F
  | [], l, F, w, _, _ => w
  | t :: ts, l, F, w, hl, hx => by
    obtain ⟨i, l', F1, F2, rfl, w1, w2, rfl⟩ := w
    refine ⟨i, l', F1, F2, rfl, Foot.move b bk w1 (hl i (by simp [Obj.held, Ref.ptrs])) fun j hj => hx j (List.mem_append_left _ hj),
      Foots.move b bk w2 (fun j hj => hl j ?_) fun j hj => hx j (List.mem_append_right _ hj), rfl⟩
    simp only [Obj.held, List.flatMap_cons, List.mem_append] at hj ⊢; exact .inr hj
end

theorem Foots.snoc {h : Heap} : ∀ {ts : List Xml.Node} {l : List Ref} {F G : List Nat} {t : Xml.Node} {i : Nat}, Foots h ts l F → Foot h t i G →
    Foots h (ts ++ [t]) (l ++ [.ptr i]) (F ++ G)
  | [], l, F, G, t, i, w, g => by
    obtain ⟨rfl, rfl⟩ := w
    exact ⟨i, [], G, [], rfl, g, ⟨rfl, rfl⟩, by simp⟩
  | a :: ts, l, F, G, t, i, w, g => by
    obtain ⟨j, l', F1, F2, rfl, w1, w2, rfl⟩ := w
    exact ⟨j, l' ++ [.ptr i], F1, F2 ++ G, rfl, w1, Foots.snoc w2 g, by simp⟩

theorem Foots.last {h : Heap} : ∀ {ts : List Xml.Node} {l : List Ref} {F : List Nat} {t : Xml.Node}, Foots h (ts ++ [t]) l F →
    ∃ l' i F1 F2, l = l' ++ [.ptr i] ∧ Foots h ts l' F1 ∧ Foot h t i F2 ∧ F = F1 ++ F2
  | [], l, F, t, w => by
    obtain ⟨j, l', F1, F2, rfl, w1, ⟨rfl, rfl⟩, rfl⟩ := w
    exact ⟨[], j, [], F1, rfl, ⟨rfl, rfl⟩, w1, by simp⟩
  | a :: ts, l, F, t, w => by
    obtain ⟨j, l', F1, F2, rfl, w1, w2, rfl⟩ := w
    obtain ⟨l2, i, G1, G2, rfl, g1, g2, rfl⟩ := Foots.last w2
    exact ⟨.ptr j :: l2, i, F1 ++ G1, G2, rfl, ⟨j, l2, F1, G1, rfl, w1, g1, rfl⟩, g2, by simp⟩

theorem Foots.nil {h : Heap} {ts : List Xml.Node} {F : List Nat} (w : Foots h ts [] F) : ts = [] ∧ F = [] := by
  cases ts with
  | nil => exact ⟨rfl, w.2⟩
  | cons t ts => obtain ⟨i, l', F1, F2, e, _⟩ := w; cases e

theorem ARows.lt {h : Heap} : ∀ {rows : List (Bytes × Ref × Ref)} {as : List (Bytes × Bytes)}, ARows h rows as → ∀ i ∈ (Obj.dict rows).held, i < h.length
  | [], [], _, i, hi => by cases hi
  | r :: rows, p :: as, w, x, hx => by
    obtain ⟨⟨e, i, j, e2, hi, hj⟩, w⟩ := w
    simp only [Obj.held, List.flatMap_cons, e2, Ref.ptrs, List.mem_append, List.mem_singleton] at hx
    rcases hx with (rfl | rfl) | hx
    · exact hi.lt
    · exact hj.lt
    · exact ARows.lt w x hx

theorem Elem.lt {h : Heap} {i n a k : Nat} {nm : Bytes} {as : List (Bytes × Bytes)}
    {rows : List (Bytes × Ref × Ref)} {l : List Ref} (w : Elem h i n a k nm as rows l) : ∀ j ∈ cells i n a k rows, j < h.length := by
  intro j hj
  simp only [cells, List.mem_append, List.mem_cons, List.not_mem_nil, or_false] at hj
  rcases hj with (rfl | rfl | rfl | rfl) | hj
  · exact w.cell.lt
  · exact w.name.lt
  · exact w.dict.lt
  · exact w.list.lt
  · exact w.rows.lt j hj

mutual
theorem Foot.lt {h : Heap} : ∀ {t : Xml.Node} {i : Nat} {F : List Nat}, Foot h t i F → ∀ j ∈ F, j < h.length
  | .text s, i, F, w, j, hj => by
    obtain ⟨w, rfl⟩ := w
    simp at hj; subst hj; exact w.lt
  | .elem nm as ks, i, F, w, j, hj => by
    obtain ⟨n, a, k, rows, l, K, w, ws, rfl⟩ := w
    rcases List.mem_append.mp hj with hj | hj
    · exact w.lt j hj
    · exact Foots.lt ws j hj
theorem Foots.lt {h : Heap} : ∀ {ts : List Xml.Node} {l : List Ref} {F : List Nat}, Foots h ts l F → ∀ j ∈ F, j < h.length
  | [], l, F, w, j, hj => by rw [w.2] at hj; cases hj
  | t :: ts, l, F, w, j, hj => by
    obtain ⟨i, l', F1, F2, rfl, w1, w2, rfl⟩ := w
    rcases List.mem_append.mp hj with hj | hj
    · exact Foot.lt w1 j hj
    · exact Foots.lt w2 j hj
end

theorem ARows.shows {h : Heap} : ∀ {rows : List (Bytes × Ref × Ref)} {as : List (Bytes × Bytes)}, ARows h rows as →
    rows.map (·.1) = as.map (·.1) ∧ ∀ (j : Nat) r p, rows[j]? = some r → as[j]? = some p → Val h r.2.1 (.str p.1) ∧ Val h r.2.2 (.str p.2)
  | [], [], _ => ⟨rfl, fun j r p e => by simp at e⟩
  | r :: rows, p :: as, w => by
    obtain ⟨⟨e, i, j, e2, ⟨ni, hi⟩, ⟨nj, hj⟩⟩, w⟩ := w
    have ih := ARows.shows w
    refine ⟨by simp [e, ih.1], fun x r' p' h1 h2 => ?_⟩
    cases x with
    | zero =>
      simp at h1 h2; subst h1; subst h2
      rw [e2]
      exact ⟨.leaf i ni _ hi rfl, .leaf j nj _ hj rfl⟩
    | succ x => exact ih.2 x r' p' (by simpa using h1) (by simpa using h2)

mutual
theorem Foot.shows {h : Heap} : ∀ {t : Xml.Node} {i : Nat} {F : List Nat}, Foot h t i F → Shows h (.ptr i) t
  | .text s, i, F, w => by
    obtain ⟨⟨n, w⟩, _⟩ := w
    exact .text i n s w
  | .elem nm as ks, i, F, w => by
    obtain ⟨n, a, k, rows, l, K, w, ws, _⟩ := w
    obtain ⟨⟨n1, c⟩, ⟨n2, nmc⟩, ⟨n3, d⟩, r, ⟨n4, li⟩⟩ := w
    exact .elem i n a k n1 n2 n3 n4 nm as ks rows l c nmc d r.shows.1 r.shows.2 li (Foots.shows ws).1 (Foots.shows ws).2
theorem Foots.shows {h : Heap} : ∀ {ts : List Xml.Node} {l : List Ref} {F : List Nat}, Foots h ts l F →
    l.length = ts.length ∧ ∀ (j : Nat) r t, l[j]? = some r → ts[j]? = some t → Shows h r t
  | [], l, F, w => by rw [w.1]; simp
  | t :: ts, l, F, w => by
    obtain ⟨i, l', F1, F2, rfl, w1, w2, rfl⟩ := w
    have s1 := Foot.shows w1
    have s2 := Foots.shows w2
    refine ⟨by simp [s2.1], fun j r t' h1 h2 => ?_⟩
    cases j with
    | zero => simp at h1 h2; subst h1; subst h2; exact s1
    | succ j => exact s2.2 j r t' (by simpa using h1) (by simpa using h2)
end

/-! ## Open elements -/

/-- The elements that are open, innermost first, are at `ids`; the list of the innermost ends with `c`. -/
def Stk (h : Heap) : List Xml.Frame → List Nat → List Ref → List Nat → Prop
  | [], ids, _, F => ids = [] ∧ F = []
  | f :: fs, ids, c, F => ∃ i is n a k rows l K G, ids = i :: is ∧ Elem h i n a k f.name f.attrs rows (l ++ c) ∧ Foots h f.kids l K ∧
      Stk h fs is [.ptr i] G ∧ F = cells i n a k rows ++ K ++ G

theorem Stk.move {X : List Nat} {h h' : Heap} {R : List Nat} (b : Bal h' R) (bk : Bk X h h') : ∀ {fs : List Xml.Frame} {ids : List Nat}
    {c : List Ref} {F : List Nat}, Stk h fs ids c F → (∀ i ∈ ids, Live h' i) → (∀ j ∈ F, j ∉ X) → Stk h' fs ids c F
  | [], ids, c, F, w, _, _ => w
  | f :: fs, ids, c, F, w, hl, hx => by
    obtain ⟨i, is, n, a, k, rows, l, K, G, rfl, w, ws, wr, rfl⟩ := w
    have w' := w.move b bk (hl i (by simp)) fun j hj => hx j (by simp [hj])
    refine ⟨i, is, n, a, k, rows, l, K, G, rfl, w', ?_, ?_, rfl⟩
    · refine Foots.move b bk ws (fun j hj => w'.list.child b ?_) fun j hj => hx j (by simp [hj])
      simp only [Obj.held, List.flatMap_append, List.mem_append] at hj ⊢; exact .inl hj
    · exact Stk.move b bk wr (fun i hi => hl i (by simp [hi])) fun j hj => hx j (by simp [hj])

theorem Stk.lt {h : Heap} : ∀ {fs : List Xml.Frame} {ids : List Nat} {c : List Ref} {F : List Nat}, Stk h fs ids c F → ∀ j ∈ F, j < h.length
  | [], ids, c, F, w, j, hj => by rw [w.2] at hj; cases hj
  | f :: fs, ids, c, F, w, j, hj => by
    obtain ⟨i, is, n, a, k, rows, l, K, G, rfl, w, ws, wr, rfl⟩ := w
    rcases List.mem_append.mp hj with hj | hj
    · rcases List.mem_append.mp hj with hj | hj
      · exact w.lt j hj
      · exact ws.lt j hj
    · exact Stk.lt wr j hj

/-- Where the tree is -/
def Tree (h : Heap) (b : Xml.Builder) (root : Ref) (ids F : List Nat) : Prop :=
  match b.stack with
  | [] => ids = [] ∧ if b.started then ∃ t r, b.done = some t ∧ root = .ptr r ∧ Foot h t r F else root = null ∧ F = []
  | f :: fs => b.started = true ∧ (∃ r, ids.getLast? = some r ∧ root = .ptr r) ∧ Stk h (f :: fs) ids [] F

/-- The value of the attribute -/
def Attr (h : Heap) (F : List Nat) (r : Ref) : Option Bytes → Prop
  | none => r = null
  | some t => ∃ i, r = .ptr i ∧ Has h i (.leaf (.str t)) ∧ ∀ j ∈ F, j < i

/-- No object is in two places. -/
def Once (F : List Nat) : Prop := ∀ j, F.count j ≤ 1

theorem Once.left {F G : List Nat} (o : Once (F ++ G)) {j : Nat} (h : j ∈ F) : j ∉ G := by
  intro h2
  have := o j
  rw [List.count_append] at this
  have := List.count_pos_iff.mpr h
  have := List.count_pos_iff.mpr h2
  omega

/-- The variables and the objects are those of the tree built so far. -/
structure Sim (b : Xml.Builder) (v : Vars) (h : Heap) (ids F : List Nat) : Prop where
  bal : Bal h (v.root.ptrs ++ v.stack :: v.attr.ptrs)
  stk : Has h v.stack (.list (ids.reverse.map .ptr))
  attr : Attr h F v.attr b.attr
  tree : Tree h b v.root ids F
  once : Once F
  above : ∀ j ∈ F, v.stack < j

end ParseOwn
end Duck
