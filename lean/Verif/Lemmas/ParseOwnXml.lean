import Verif.Lemmas.ParseOwnTree
import Verif.Lemmas.XmlShape
/-! The steps of the XML parser keep the balance and build the tree. -/
namespace Duck
namespace ParseOwn

theorem ids_live {b : Xml.Builder} {v : Vars} {h : Heap} {ids F : List Nat} (s : Sim b v h ids F) : ∀ i ∈ ids, Live h i := by
  intro i hi
  refine s.stk.child s.bal ?_
  simp only [Obj.held, List.mem_flatMap, List.mem_map, List.mem_reverse]
  exact ⟨.ptr i, ⟨i, hi, rfl⟩, by simp [Ref.ptrs]⟩

theorem list_live {h : Heap} {R : List Nat} {x : Nat} {ids : List Nat} (b : Bal h R) (e : Has h x (.list (ids.reverse.map .ptr))) :
    ∀ i ∈ ids, Live h i := by
  intro i hi
  refine e.child b ?_
  simp only [Obj.held, List.mem_flatMap, List.mem_map, List.mem_reverse]
  exact ⟨.ptr i, ⟨i, hi, rfl⟩, by simp [Ref.ptrs]⟩

theorem top_ok {h : Heap} {x i : Nat} {is : List Nat} (e : Has h x (.list ((i :: is).reverse.map .ptr))) : top h x = some i := by
  rw [top, listOf_has e]
  simp

theorem kidsOf_ok {h : Heap} {i n a k : Nat} {nm : Bytes} {as : List (Bytes × Bytes)} {rows : List (Bytes × Ref × Ref)} {l : List Ref}
    (w : Elem h i n a k nm as rows l) : kidsOf h i = some k := by
  obtain ⟨m, e⟩ := w.cell; simp [kidsOf, e]

theorem attrsOf_ok {h : Heap} {i n a k : Nat} {nm : Bytes} {as : List (Bytes × Bytes)} {rows : List (Bytes × Ref × Ref)} {l : List Ref}
    (w : Elem h i n a k nm as rows l) : attrsOf h i = some a := by
  obtain ⟨m, e⟩ := w.cell; simp [attrsOf, e]

theorem fresh {h : Heap} {R : List Nat} (b : Bal h R) {j : Nat} (hj : h.length ≤ j) : R.count j = 0 ∧ (allHeld h).count j = 0 := by
  have := b.count j
  have e : rc h j = 0 := by unfold rc get; rw [List.getElem?_eq_none hj]; rfl
  omega

theorem newElement_ok {h : Heap} {R : List Nat} (b : Bal h R) (nm : Bytes) :
    Bal (newElement h nm) (h.length :: R) ∧ Elem (newElement h nm) h.length (h.length + 1) (h.length + 2) (h.length + 3) nm [] [] [] ∧
      Bk [] h (newElement h nm) := by
  have g : ∀ i, get (newElement h nm) i = if i = h.length + 3 then some (1, .list []) else if i = h.length + 2 then some (1, .dict [])
      else if i = h.length + 1 then some (1, .leaf (.str nm)) else if i = h.length then
        some (1, .element (.ptr (h.length + 1)) (.ptr (h.length + 2)) (.ptr (h.length + 3))) else get h i := by
    intro i
    simp only [newElement, get_alloc, length_alloc]
  have a : allHeld (newElement h nm) = allHeld h ++ [h.length + 1, h.length + 2, h.length + 3] := by
    simp [newElement, allHeld_alloc, Obj.held, Ref.ptrs]
  refine ⟨⟨fun i => ?_, fun i n o e => ?_, fun i n o e => ?_⟩, ?_, ?_⟩
  · rw [a, rc, g]
    have h0 := b.count i
    have h1 := fun hj : h.length ≤ i => fresh b hj
    simp only [List.count_append, List.count_cons, List.count_nil]
    by_cases c : i < h.length
    · rw [if_neg (by omega), if_neg (by omega), if_neg (by omega), if_neg (by omega)]
      have : ∀ k, (h.length + k == i) = false := fun k => by simp; omega
      have t : (h.length == i) = false := by simp; omega
      rw [this, this, this, t]
      simpa [rc] using h0
    · have h2 := h1 (by omega)
      by_cases c3 : i = h.length + 3
      · subst c3; simp [owners]; omega
      · by_cases c2 : i = h.length + 2
        · subst c2; simp [owners]; omega
        · by_cases c1 : i = h.length + 1
          · subst c1; simp [owners]; omega
          · by_cases c0 : i = h.length
            · subst c0; simp [owners]; omega
            · rw [if_neg c3, if_neg c2, if_neg c1, if_neg c0]
              have : ∀ k, k < 4 → (h.length + k == i) = false := fun k hk => by simp; omega
              rw [this 1 (by omega), this 2 (by omega), this 3 (by omega)]
              have t : (h.length == i) = false := by simp; omega
              rw [t]
              simpa [rc] using h0
  · rw [g] at e
    repeat' split at e
    all_goals first | (cases e; omega) | exact b.pos i n o e
  · rw [g] at e
    repeat' split at e
    all_goals first | (cases e; simp [Obj.held, Ref.ptrs]; omega) | (cases e; simp [Obj.held, Ref.ptrs]; done) | exact b.up i n o e
  · exact ⟨⟨1, by rw [g]; simp⟩, ⟨1, by rw [g]; simp⟩, ⟨1, by rw [g]; simp⟩, trivial, ⟨1, by rw [g]; simp⟩⟩
  · refine ⟨by simp [newElement]; omega, fun i n o hi _ e => ⟨n, ?_⟩⟩
    rw [g, if_neg (by omega), if_neg (by omega), if_neg (by omega), if_neg (by omega)] at e
    exact e

theorem newElement_length (h : Heap) (nm : Bytes) : (newElement h nm).length = h.length + 4 := by simp [newElement]

/-- The stack of the code gets one more. -/
theorem pushStack {h : Heap} {R : List Nat} {x e : Nat} {ids : List Nat} (b : Bal h R) (hs : Has h x (.list (ids.reverse.map .ptr)))
    (hx : x < e) (hl : Live h e) :
    ∃ h', listAppend h x (.ptr e) = some h' ∧ Bal h' R ∧ Has h' x (.list ((e :: ids).reverse.map .ptr)) ∧ Bk [x] h h' := by
  obtain ⟨h', s, b', x', t, k⟩ := listAppend_ok (v := .ptr e) b hs fun i hi => by
    simp only [Ref.ptrs, List.mem_singleton] at hi; subst hi; exact ⟨hx, hl⟩
  exact ⟨h', s, b', by simpa using x', .of t k⟩

theorem elemStart_ok {b b' : Xml.Builder} {v : Vars} {h : Heap} {ids F : List Nat} {nm : Bytes} (s : Sim b v h ids F) (ha : b.attr = none)
    (hb : Xml.build b .elemstart nm = some b') : ∃ v' h' ids' F', elemStart v h nm = some (v', h') ∧ Sim b' v' h' ids' F' := by
  obtain ⟨root, stack, attr⟩ := v
  obtain ⟨started, done, bst, battr⟩ := b
  have hat := s.attr
  subst ha
  simp only [Attr] at hat
  subst hat
  have hbal := s.bal
  have hstk := s.stk
  have htree := s.tree
  have honce := s.once
  have habove := s.above
  simp only at hbal hstk htree habove
  obtain ⟨b1, w1, k1⟩ := newElement_ok hbal nm
  have hn0 : null.ptrs = [] := rfl
  rw [hn0] at hbal b1
  have hsl : stack < h.length := hstk.lt
  have h1live : Live (newElement h nm) h.length := w1.cell.live
  cases bst with
  | nil =>
    simp only [Tree] at htree
    obtain ⟨rfl, htree⟩ := htree
    cases started with
    | true => simp [Xml.build] at hb
    | false =>
      simp only [Bool.false_eq_true, if_false] at htree
      obtain ⟨rfl, rfl⟩ := htree
      simp only [Xml.build, Bool.false_and, Bool.false_eq_true, if_false, Option.some.injEq] at hb
      subst hb
      rw [hn0] at b1
      have st1 := hstk.move k1 (by simp) (b1.live (by simp))
      obtain ⟨h2, s2, b2, st2, k2⟩ := pushStack (ids := []) b1 st1 hsl h1live
      refine ⟨⟨.ptr h.length, stack, null⟩, h2, [h.length], cells h.length (h.length + 1) (h.length + 2) (h.length + 3) [], ?_, ?_⟩
      · simp only [elemStart, link, null, Option.bind_some, s2, Option.map_some]
      · refine ⟨?_, st2, rfl, ?_, ?_, ?_⟩
        · exact b2
        · refine ⟨rfl, ⟨h.length, rfl, rfl⟩, ?_⟩
          have hc : ∀ j ∈ cells h.length (h.length + 1) (h.length + 2) (h.length + 3) [], j ∉ [stack] := by
            simp [cells, Obj.held]; omega
          exact ⟨h.length, [], _, _, _, [], [], [], [], rfl, w1.move b2 k2 (b2.live (by simp [Ref.ptrs])) hc, ⟨rfl, rfl⟩, ⟨rfl, rfl⟩, by simp⟩
        · intro j
          simp [cells, Obj.held, List.count_cons]
          repeat' split
          all_goals omega
        · simp [cells, Obj.held]; omega
  | cons f fs =>
    simp only [Tree] at htree
    obtain ⟨hst, ⟨r, hr, rfl⟩, i, is, n, a, k, rows, l, K, G, rfl, w, ws, wr, rfl⟩ := htree
    subst hst
    simp only [Xml.build, List.isEmpty_cons, Bool.and_false, Bool.false_eq_true, if_false, Option.some.injEq] at hb
    subst hb
    have st1 := hstk.move k1 (by simp) (b1.live (by simp))
    have il1 := list_live b1 st1
    have w2 := w.move b1 k1 (il1 i (by simp)) (by simp)
    -- linked below its parent
    obtain ⟨h2, s2, b2, x2, t2, kk2⟩ := listAppend_ok (v := .ptr h.length) b1 w2.list fun j hj => by
      simp only [Ref.ptrs, List.mem_singleton] at hj; subst hj; exact ⟨w.list.lt, h1live⟩
    have k2 := Bk.of t2 kk2
    obtain ⟨h3, s3, b3, kk3, t3⟩ := release_ok (.ptr h.length) (R := (Ref.ptr r).ptrs ++ [stack]) b2
    have k3 := kk3.bk
    have hks : k ≠ stack := by
      have := habove k (by simp [cells]); omega
    have k13 : Bk [k] h h3 := ((k1.trans k2).trans k3).mono (by simp)
    have k1' : Bk [k] (newElement h nm) h3 := (k2.trans k3).mono (by simp)
    have st3 := hstk.move k13 (by simp; omega) (b3.live (by simp))
    have k3l : Has h3 k (.list (l ++ [] ++ [.ptr h.length])) := by
      refine x2.move k3 (by simp) ?_
      obtain ⟨m, q, e⟩ := list_live b3 st3 i (by simp)
      have c := w.cell.move k13 (by
        have := honce.left (F := [i]) (j := i) (G := [n, a, k] ++ (Obj.dict rows).held ++ K ++ G) (by simp)
        simp at this ⊢; exact this.2.2.1) ⟨m, q, e⟩
      exact c.child b3 (by simp [Obj.held, Ref.ptrs])
    have e3 : Live h3 h.length := k3l.child b3 (by simp [Obj.held, Ref.ptrs])
    obtain ⟨h4, s4, b4, st4, k4⟩ := pushStack b3 st3 hsl e3
    have il4 := list_live b4 st4
    have hc : ∀ j ∈ cells h.length (h.length + 1) (h.length + 2) (h.length + 3) [], j ∉ [k] ++ [stack] := by
      have := w.list.lt
      simp [cells, Obj.held]; omega
    have k14 := k1'.trans k4
    have k04 := k13.trans k4
    have hF : ∀ j, j ∈ cells i n a k rows ++ K ++ G → j < h.length := fun j hj => by
      rcases List.mem_append.mp hj with hj | hj
      · rcases List.mem_append.mp hj with hj | hj
        · exact w.lt j hj
        · exact ws.lt j hj
      · exact wr.lt j hj
    have on : ∀ j ∈ cells i n a k rows ++ K ++ G, j ≠ k → j ∉ [k] ++ [stack] := by
      intro j hj hk
      have := habove j hj
      simp; omega
    have hkc : (cells i n a k rows ++ K ++ G).count k ≤ 1 := honce k
    have c4 := w.cell.move k04 (on i (by simp [cells]) (by
      rintro rfl; simp [cells, List.count_cons] at hkc <;> omega)) (il4 i (by simp))
    have K4 : Has h4 k (.list (l ++ [.ptr h.length])) := by
      have := k3l.move k4 (by simp; omega) (c4.child b4 (by simp [Obj.held, Ref.ptrs]))
      simpa using this
    have d4 := w.dict.move k04 (on a (by simp [cells]) (by
      rintro rfl; simp [cells, List.count_cons] at hkc <;> omega)) (c4.child b4 (by simp [Obj.held, Ref.ptrs]))
    have nk : ∀ j ∈ (Obj.dict rows).held ++ K ++ G, j ≠ k := by
      rintro j hj rfl
      have h1 : 0 < ((Obj.dict rows).held ++ K ++ G).count j := List.count_pos_iff.mpr hj
      simp [cells, List.count_cons, List.count_append] at hkc h1
      omega
    have p4 : Elem h4 i n a k f.name f.attrs rows (l ++ [.ptr h.length]) := by
      refine ⟨c4, w.name.move k04 (on n (by simp [cells]) (by
        rintro rfl; simp [cells, List.count_cons] at hkc <;> omega)) (c4.child b4 (by simp [Obj.held, Ref.ptrs])), d4, ?_, K4⟩
      exact w.rows.move k04 fun j hj => ⟨on j (by simp [cells, hj]) (nk j (by simp [hj])), d4.child b4 hj⟩
    refine ⟨⟨.ptr r, stack, null⟩, h4, h.length :: i :: is,
      cells h.length (h.length + 1) (h.length + 2) (h.length + 3) [] ++ (cells i n a k rows ++ K ++ G), ?_, ?_⟩
    · simp only [elemStart, link, top_ok st1, kidsOf_ok w2, s2, s3, s4, Option.bind_some, Option.map_some]
    · refine ⟨b4, st4, rfl, ⟨rfl, ⟨r, by simpa using hr, rfl⟩, ?_⟩, ?_, ?_⟩
      · refine ⟨h.length, i :: is, _, _, _, [], [], [], cells i n a k rows ++ K ++ G, rfl, w1.move b4 k14 (il4 _ (by simp)) hc, ⟨rfl, rfl⟩, ?_, by simp⟩
        refine ⟨i, is, n, a, k, rows, l, K, G, rfl, p4, ?_, ?_, rfl⟩
        · refine ws.move b4 k04 (fun j hj => K4.child b4 (by simp only [Obj.held, List.flatMap_append, List.mem_append] at hj ⊢; exact .inl hj))
            fun j hj => on j (by simp [hj]) (nk j (by simp [hj]))
        · exact wr.move b4 k04 (fun j hj => il4 j (by simp [hj])) fun j hj => on j (by simp [hj]) (nk j (by simp [hj]))
      · intro j
        have := honce j
        by_cases hj : h.length ≤ j
        · have h0 : (cells i n a k rows ++ K ++ G).count j = 0 := by
            rw [List.count_eq_zero]; intro hh; have := hF j hh; omega
          rw [List.count_append, h0]
          simp [cells, Obj.held, List.count_cons]
          repeat' split
          all_goals omega
        · rw [List.count_append]
          have h0 : (cells h.length (h.length + 1) (h.length + 2) (h.length + 3) []).count j = 0 := by
            rw [List.count_eq_zero]; simp [cells, Obj.held]; omega
          omega
      · intro j hj
        rcases List.mem_append.mp hj with hj | hj
        · simp [cells, Obj.held] at hj; show stack < j; omega
        · exact habove j hj

/-! ## Text -/

/-- The list of children after text was added -/
def TextDone (h h' : Heap) (R : List Nat) (k : Nat) (ks : List Xml.Node) (K : List Nat) : Prop :=
  ∃ l' K', Bal h' R ∧ Has h' k (.list l') ∧ Foots h' ks l' K' ∧ Bk (k :: K) h h' ∧ (∀ j ∈ K', j ∈ K ∨ h.length ≤ j) ∧ Once K'

theorem store_leaf {h : Heap} {R : List Nat} {i : Nat} {t : Json.Json} (b : Bal h R) (e : Has h i (.leaf t)) (t' : Json.Json) :
    ∃ h', store h i (.leaf t') = some h' ∧ Bal h' R ∧ Has h' i (.leaf t') ∧ Bk [i] h h' := by
  obtain ⟨h', s, b', x, t, k⟩ := store_has (mv := []) (dr := []) b e (.leaf t') (by simp [Obj.held]) (by simp)
  exact ⟨h', s, b', x, .of t k⟩

theorem newText_ok {h : Heap} {R : List Nat} {k : Nat} {l : List Ref} {ks : List Xml.Node} {K : List Nat} {ch : Bytes} (b : Bal h R)
    (hk : Has h k (.list l)) (w : Foots h ks l K) (o : Once K) (ho : k ∉ K) (hc : Num.isSpace (ch.headD 0) = false) :
    ∃ h1 h2 h', listAppend (alloc h (.leaf (.str []))) k (.ptr h.length) = some h1 ∧ release h1 (.ptr h.length) = some h2 ∧
      writeText h2 h.length [] ch = some h' ∧ TextDone h h' R k (ks ++ [.text ch]) K := by
  have b0 := b.alloc (.leaf (.str [])) rfl
  have k0 := bk_alloc h (.leaf (.str []))
  have e0 : Has (alloc h (.leaf (.str []))) h.length (.leaf (.str [])) := ⟨1, by rw [get_alloc, if_pos rfl]⟩
  have hk0 : Has (alloc h (.leaf (.str []))) k (.list l) := has_grow (by simp [alloc]) hk
  obtain ⟨h1, s1, b1, x1, t1, kk1⟩ := listAppend_ok (v := .ptr h.length) b0 hk0 fun i hi => by
    simp only [Ref.ptrs, List.mem_singleton] at hi; subst hi; exact ⟨hk.lt, e0.live⟩
  obtain ⟨h2, s2, b2, kk2, t2⟩ := release_ok (.ptr h.length) b1
  have x2 := has_take (t2 (k + 1) (by simp only [Ref.ptrs, List.mem_singleton]; rintro x rfl; exact hk.lt)) x1
  have e2 : Has h2 h.length (.leaf (.str [])) := e0.move ((Bk.of t1 kk1).trans kk2.bk)
    (by have := hk.lt; simp; omega) (x2.child b2 (by simp [Obj.held, Ref.ptrs]))
  obtain ⟨h3, s3, b3, x3, k3⟩ := store_leaf b2 e2 (.str ch)
  have k03 : Bk [k] h h3 := by
    have := ((k0.trans (Bk.of t1 kk1)).trans kk2.bk).trans k3
    refine ⟨this.len, fun i n o hi hx e => this.cont i n o hi ?_ e⟩
    simp at hx ⊢; omega
  have x3' := x2.move k3 (by have := hk.lt; simp; omega) (by
    obtain ⟨m, e⟩ := x2
    have := b3.count k
    have h4 := b2.count k
    rw [rc_get e] at h4
    obtain ⟨n', q, e'⟩ : Live h3 k := by
      have hs := s3
      simp only [store, Option.map_eq_some_iff] at hs
      obtain ⟨c, hc, rfl⟩ := hs
      exact ⟨m, _, by rw [get_set _ _ _ _ e2.lt, if_neg (by have := hk.lt; omega)]; exact e⟩
    exact ⟨n', q, e'⟩)
  refine ⟨h1, h2, h3, s1, s2, ?_, l ++ [.ptr h.length], K ++ [h.length], b3, x3', ?_, k03.mono (by simp), ?_, ?_⟩
  · rw [writeText, hc]; simpa using s3
  · refine Foots.snoc (w.move b3 k03 (fun j hj => x3'.child b3 ?_) fun j hj => ?_) ⟨x3, rfl⟩
    · simp only [Obj.held, List.flatMap_append, List.mem_append] at hj ⊢; exact .inl hj
    · rintro hh; simp at hh; subst hh; exact ho hj
  · intro j hj
    rcases List.mem_append.mp hj with hj | hj
    · exact .inl hj
    · simp at hj; exact .inr (by omega)
  · intro j
    have h1 := o j
    rw [List.count_append]
    by_cases hj : j = h.length
    · have : K.count j = 0 := by rw [List.count_eq_zero]; intro hh; have := w.lt j hh; omega
      rw [this]; simp [List.count_cons]; split <;> omega
    · have : [h.length].count j = 0 := by rw [List.count_eq_zero]; simpa using hj
      omega

theorem TextDone.same {h : Heap} {R : List Nat} {k : Nat} {l : List Ref} {ks : List Xml.Node} {K : List Nat} (b : Bal h R)
    (hk : Has h k (.list l)) (w : Foots h ks l K) (o : Once K) : TextDone h h R k ks K :=
  ⟨l, K, b, hk, w, .refl _ h, fun j hj => .inl hj, o⟩

theorem appendNew_ok {h : Heap} {R : List Nat} {k : Nat} {l : List Ref} {ks : List Xml.Node} {K : List Nat} {ch : Bytes} (b : Bal h R)
    (hk : Has h k (.list l)) (w : Foots h ks l K) (o : Once K) (ho : k ∉ K) (hl : lastText h k = some none) :
    ∃ h', appendText h k ch = some h' ∧ TextDone h h' R k (if Num.isSpace (ch.headD 0) then ks else ks ++ [.text ch]) K := by
  rw [appendText, hl, Option.bind_some]
  by_cases c : Num.isSpace (ch.headD 0) = true
  · simp only [c, if_true]
    exact ⟨h, rfl, .same b hk w o⟩
  · simp only [Bool.not_eq_true] at c
    simp only [c, Bool.false_eq_true, if_false]
    obtain ⟨h1, h2, h3, s1, s2, s3, d⟩ := newText_ok b hk w o ho c
    exact ⟨h3, by simp only [s1, s2, s3, Option.bind_some], d⟩

theorem appendText_ok {h : Heap} {R : List Nat} {k : Nat} {l : List Ref} {ks : List Xml.Node} {K : List Nat} (ch : Bytes) (b : Bal h R)
    (hk : Has h k (.list l)) (w : Foots h ks l K) (o : Once K) (ho : k ∉ K) :
    ∃ h', appendText h k ch = some h' ∧ TextDone h h' R k (Xml.appendText ks ch) K := by
  rcases List.eq_nil_or_concat ks with rfl | ⟨ts, t, rfl⟩
  · obtain ⟨rfl, rfl⟩ := w
    have := appendNew_ok (ch := ch) b hk (ks := []) (K := []) ⟨rfl, rfl⟩ o ho (by rw [lastText, listOf_has hk]; rfl)
    exact this
  · rw [List.concat_eq_append] at w ⊢
    cases t with
    | elem nm as es =>
      have hx : Xml.appendText (ts ++ [.elem nm as es]) ch =
          if Num.isSpace (ch.headD 0) then ts ++ [.elem nm as es] else ts ++ [.elem nm as es] ++ [.text ch] := by
        simp [Xml.appendText]
      rw [hx]
      refine appendNew_ok b hk w o ho ?_
      obtain ⟨l', i, F1, F2, rfl, w1, w2, rfl⟩ := w.last
      obtain ⟨n, a, k', rows, l2, K2, w2, _⟩ := w2
      obtain ⟨m, e⟩ := w2.cell
      rw [lastText, listOf_has hk]
      simp [e]
    | text s =>
      obtain ⟨l', i, F1, F2, rfl, w1, ⟨w2, rfl⟩, rfl⟩ := w.last
      have hl : lastText h k = some (some (i, s)) := by
        obtain ⟨m, e⟩ := w2
        rw [lastText, listOf_has hk]; simp [e]
      have hki : k ≠ i := by rintro rfl; exact ho (by simp)
      -- the text is written
      have wr : ∀ s', ∃ h', store h i (.leaf (.str s')) = some h' ∧ TextDone h h' R k (ts ++ [.text s']) (F1 ++ [i]) := by
        intro s'
        obtain ⟨h', st, b', x', k'⟩ := store_leaf b w2 (.str s')
        have hk' : Has h' k (.list (l' ++ [.ptr i])) := by
          obtain ⟨m, e⟩ := hk
          simp only [store, Option.map_eq_some_iff] at st
          obtain ⟨c, hc, rfl⟩ := st
          exact ⟨m, by rw [get_set _ _ _ _ w2.lt, if_neg (by omega)]; exact e⟩
        refine ⟨h', st, l' ++ [.ptr i], F1 ++ [i], b', hk', ?_, k'.mono (by simp), fun j hj => .inl hj, o⟩
        refine Foots.snoc (w1.move b' k' (fun j hj => hk'.child b' ?_) fun j hj => ?_) ⟨x', rfl⟩
        · simp only [Obj.held, List.flatMap_append, List.mem_append] at hj ⊢; exact .inl hj
        · intro hh; exact o.left hj hh
      rw [appendText, hl, Option.bind_some]
      simp only [Xml.appendText, List.getLast?_append, List.getLast?_singleton, Option.some_or, List.dropLast_concat, writeText]
      split
      · exact wr _
      · split
        · exact wr _
        · exact ⟨h, rfl, .same b hk w o⟩

theorem content_ok {b b' : Xml.Builder} {v : Vars} {h : Heap} {ids F : List Nat} {s : Bytes} (sm : Sim b v h ids F) (ha : b.attr = none)
    (hb : Xml.build b .content s = some b') : ∃ v' h' ids' F', build v h .content s = some (v', h') ∧ Sim b' v' h' ids' F' := by
  obtain ⟨root, stack, attr⟩ := v
  obtain ⟨started, done, bst, battr⟩ := b
  subst ha
  cases bst with
  | nil => simp [Xml.build] at hb
  | cons f fs =>
    have hbal := sm.bal
    have hstk := sm.stk
    have htree := sm.tree
    have honce := sm.once
    have habove := sm.above
    have hattr := sm.attr
    simp only [Attr] at hattr
    subst hattr
    simp only at hbal hstk htree habove
    simp only [Tree] at htree
    obtain ⟨hst, ⟨r, hr, rfl⟩, i, is, n, a, k, rows, l, K, G, rfl, w, ws, wr, rfl⟩ := htree
    subst hst
    simp only [Xml.build, Option.some.injEq] at hb
    subst hb
    have on : ∀ j, (cells i n a k rows).count j + K.count j + G.count j ≤ 1 := fun j => by
      have := honce j; simpa only [List.count_append] using this
    have pos : ∀ {L : List Nat} {j}, j ∈ L → 0 < L.count j := fun h => List.count_pos_iff.mpr h
    have hkK : k ∉ K := fun hh => by
      have h1 := on k; have h2 := pos hh; have h3 : 0 < (cells i n a k rows).count k := pos (by simp [cells]); omega
    obtain ⟨h', s1, l', K', b', x', wk, bk, hK', oK'⟩ := appendText_ok s hbal w.list (by simpa using ws) (fun j => by have := on j; omega) hkK
    have kne : ∀ j ∈ [i, n, a] ++ (Obj.dict rows).held ++ G, j ∉ k :: K := by
      intro j hj hh
      have h1 := on j
      have h4 := pos hj
      have h2 := pos hh
      simp only [cells, List.count_append, List.count_cons, List.count_nil] at h1 h4 h2
      omega
    have stne : stack ∉ k :: K := by
      intro hh
      have := habove stack (by simp only [cells, List.mem_append, List.mem_cons] at hh ⊢; grind)
      omega
    have st' := hstk.move bk stne (b'.live (by simp))
    have il := list_live b' st'
    have c' := w.cell.move bk (kne i (by simp)) (il i (by simp))
    have d' := w.dict.move bk (kne a (by simp)) (c'.child b' (by simp [Obj.held, Ref.ptrs]))
    refine ⟨⟨.ptr r, stack, null⟩, h', i :: is, cells i n a k rows ++ K' ++ G, ?_, b', st', rfl, ⟨rfl, ⟨r, hr, rfl⟩, ?_⟩, ?_, ?_⟩
    · simp only [build, top_ok hstk, kidsOf_ok w, s1, Option.bind_some, Option.map_some]
    · refine ⟨i, is, n, a, k, rows, l', K', G, rfl, ⟨c', ?_, d', ?_, by simpa using x'⟩, wk, ?_, rfl⟩
      · exact w.name.move bk (kne n (by simp)) (c'.child b' (by simp [Obj.held, Ref.ptrs]))
      · exact w.rows.move bk fun j hj => ⟨kne j (by simp [hj]), d'.child b' hj⟩
      · exact wr.move b' bk (fun j hj => il j (by simp [hj])) fun j hj => kne j (by simp [hj])
    · intro j
      have h1 := on j
      have h2 := oK' j
      rw [List.count_append, List.count_append]
      by_cases hj : j ∈ K'
      · rcases hK' j hj with hh | hh
        · have := pos hh; omega
        · have z1 : (cells i n a k rows).count j = 0 := by rw [List.count_eq_zero]; intro q; have := w.lt j q; omega
          have z2 : G.count j = 0 := by rw [List.count_eq_zero]; intro q; have := wr.lt j q; omega
          omega
      · have : K'.count j = 0 := by rw [List.count_eq_zero]; exact hj
        omega
    · intro j hj
      rcases List.mem_append.mp hj with hj | hj
      · rcases List.mem_append.mp hj with hj | hj
        · exact habove j (by simp [hj])
        · rcases hK' j hj with hh | hh
          · exact habove j (by simp [hh])
          · exact Nat.lt_of_lt_of_le hstk.lt hh
      · exact habove j (by simp [hj])

/-! ## The end of an element -/

theorem elemend_ok {b b' : Xml.Builder} {v : Vars} {h : Heap} {ids F : List Nat} {s : Bytes} (sm : Sim b v h ids F) (ha : b.attr = none)
    (hb : Xml.build b .elemend s = some b') : ∃ v' h' ids' F', build v h .elemend s = some (v', h') ∧ Sim b' v' h' ids' F' := by
  obtain ⟨root, stack, attr⟩ := v
  obtain ⟨started, done, bst, battr⟩ := b
  subst ha
  cases bst with
  | nil => simp [Xml.build, Xml.closeFrame] at hb
  | cons f fs =>
    have hbal := sm.bal
    have hstk := sm.stk
    have htree := sm.tree
    have honce := sm.once
    have habove := sm.above
    have hattr := sm.attr
    simp only [Attr] at hattr
    subst hattr
    simp only at hbal hstk htree habove
    simp only [Tree] at htree
    obtain ⟨hst, ⟨r, hr, rfl⟩, i, is, n, a, k, rows, l, K, G, rfl, w, ws, wr, rfl⟩ := htree
    subst hst
    obtain ⟨h1, s1, b1, x1, t1, kk1⟩ := store_has (mv := []) (dr := [i]) hbal hstk (.list (is.reverse.map .ptr))
      (by intro j; simp [Obj.held, List.count_append, Ref.ptrs]) (by simp)
    obtain ⟨h2, s2, b2, kk2, t2⟩ := release_ok (.ptr i) b1
    have si : stack < i := habove i (by simp [cells])
    have x2 : Has h2 stack (.list (is.reverse.map .ptr)) := has_take (t2 (stack + 1) (by simp only [Ref.ptrs, List.mem_singleton]; rintro x rfl; exact si)) x1
    have bk : Bk [stack] h h2 := ((Bk.of t1 kk1).trans kk2.bk).mono (by simp)
    have il := list_live b2 x2
    have rl : Live h2 r := b2.live (by simp [Ref.ptrs])
    have sne : ∀ j ∈ cells i n a k rows ++ K ++ G, j ∉ [stack] := fun j hj => by have := habove j hj; simp; omega
    have op : build ⟨.ptr r, stack, null⟩ h .elemend s = some (⟨.ptr r, stack, null⟩, h2) := by
      have gl : ((i :: is).reverse.map Ref.ptr).getLast? = some (.ptr i) := by simp
      have dl : ((i :: is).reverse.map Ref.ptr).dropLast = is.reverse.map Ref.ptr := by simp
      simp only [build, removeLast, listOf_has hstk, Option.bind_some, gl, dl, s1, s2, Option.map_some]
    cases fs with
    | nil =>
      obtain ⟨rfl, rfl⟩ := wr
      simp only [Xml.build, Xml.closeFrame, Option.some.injEq] at hb
      subst hb
      simp at hr; subst hr
      refine ⟨_, h2, [], cells i n a k rows ++ K, op, b2, x2, rfl, ⟨rfl, ?_⟩, by simpa using honce, fun j hj => habove j (by simpa using hj)⟩
      simp only [if_true]
      refine ⟨_, i, rfl, rfl, ?_⟩
      refine Foot.move (h := h) b2 bk ⟨n, a, k, rows, l, K, by simpa using w, ws, rfl⟩ rl fun j hj => sne j ?_
      simp only [List.append_nil]; exact hj
    | cons g fs =>
      obtain ⟨i2, is2, n2, a2, k2, rows2, l2, K2, G2, rfl, w2, ws2, wr2, rfl⟩ := wr
      simp only [Xml.build, Xml.closeFrame, Option.some.injEq] at hb
      subst hb
      have p2 := w2.move b2 bk (il i2 (by simp)) fun j hj => sne j (by simp [hj])
      have il' : Live h2 i := p2.list.child b2 (by simp [Obj.held, Ref.ptrs])
      refine ⟨_, h2, i2 :: is2, cells i2 n2 a2 k2 rows2 ++ (K2 ++ (cells i n a k rows ++ K)) ++ G2, op, b2, x2, rfl, ⟨rfl, ⟨r, by simpa using hr, rfl⟩, ?_⟩, ?_, ?_⟩
      · refine ⟨i2, is2, n2, a2, k2, rows2, l2 ++ [.ptr i], _, G2, rfl, by simpa using p2, ?_, ?_, rfl⟩
        · refine Foots.snoc (ws2.move b2 bk (fun j hj => p2.list.child b2 ?_) fun j hj => sne j (by simp [hj])) ?_
          · simp only [Obj.held, List.flatMap_append, List.mem_append] at hj ⊢; exact .inl hj
          · exact Foot.move (h := h) b2 bk ⟨n, a, k, rows, l, K, by simpa using w, ws, rfl⟩ il' fun j hj => sne j (by
              rcases List.mem_append.mp hj with hj | hj <;> simp [hj])
        · exact wr2.move b2 bk (fun j hj => il j (by simp [hj])) fun j hj => sne j (by simp [hj])
      · intro j
        have := honce j
        simp only [List.count_append] at this ⊢
        omega
      · intro j hj
        refine habove j ?_
        simp only [List.mem_append] at hj ⊢
        grind

/-! ## Attributes -/

theorem Tree.move {X : List Nat} {h h' : Heap} {R : List Nat} {b : Xml.Builder} {root : Ref} {ids F : List Nat} (b' : Bal h' R) (bk : Bk X h h')
    (t : Tree h b root ids F) (hi : ∀ i ∈ ids, Live h' i) (hr : ∀ i ∈ root.ptrs, Live h' i) (hx : ∀ j ∈ F, j ∉ X) : Tree h' b root ids F := by
  unfold Tree at t ⊢
  split at t
  · refine ⟨t.1, ?_⟩
    have t := t.2
    split at t
    · rename_i c
      rw [if_pos c]
      obtain ⟨n, r, e, rfl, w⟩ := t
      exact ⟨n, r, e, rfl, w.move b' bk (hr r (by simp [Ref.ptrs])) hx⟩
    · rename_i c
      rw [if_neg c]; exact t
  · exact ⟨t.1, t.2.1, t.2.2.move b' bk hi hx⟩

theorem Tree.lt {h : Heap} {b : Xml.Builder} {root : Ref} {ids F : List Nat} (t : Tree h b root ids F) : ∀ j ∈ F, j < h.length := by
  unfold Tree at t
  split at t
  · have t := t.2
    split at t
    · obtain ⟨n, r, e, rfl, w⟩ := t
      exact w.lt
    · rw [t.2]; simp
  · exact t.2.2.lt

theorem attrstart_ok {b b' : Xml.Builder} {v : Vars} {h : Heap} {ids F : List Nat} {s : Bytes} (sm : Sim b v h ids F) (ha : b.attr = none)
    (hb : Xml.build b .attrstart s = some b') : ∃ v' h' ids' F', build v h .attrstart s = some (v', h') ∧ Sim b' v' h' ids' F' := by
  obtain ⟨root, stack, attr⟩ := v
  obtain ⟨started, done, bst, battr⟩ := b
  subst ha
  have hattr := sm.attr
  simp only [Attr] at hattr
  subst hattr
  simp only [Xml.build, Option.some.injEq] at hb
  subst hb
  have hn0 : null.ptrs = [] := rfl
  have hbal := sm.bal
  simp only [hn0] at hbal
  have b1 := hbal.alloc (.leaf (.str [])) rfl
  have bk := bk_alloc h (.leaf (.str []))
  have b2 : Bal (alloc h (.leaf (.str []))) (root.ptrs ++ stack :: (Ref.ptr h.length).ptrs) := b1.perm (by
    intro j; simp only [Ref.ptrs, List.count_cons, List.count_append, List.count_nil]; omega)
  have st := sm.stk.move bk (by simp) (b2.live (by simp))
  refine ⟨⟨root, stack, .ptr h.length⟩, _, ids, F, rfl, b2, st, ?_, ?_, sm.once, sm.above⟩
  · exact ⟨h.length, rfl, ⟨1, by rw [get_alloc, if_pos rfl]⟩, sm.tree.lt⟩
  · exact Tree.move (b := ⟨started, done, bst, none⟩) b2 bk sm.tree (list_live b2 st) (fun i hi => b2.live (by simp [hi])) (by simp)

theorem attrval_ok {b b' : Xml.Builder} {v : Vars} {h : Heap} {ids F : List Nat} {s : Bytes} (sm : Sim b v h ids F)
    (hb : Xml.build b .attrval s = some b') : ∃ v' h' ids' F', build v h .attrval s = some (v', h') ∧ Sim b' v' h' ids' F' := by
  obtain ⟨root, stack, attr⟩ := v
  obtain ⟨started, done, bst, battr⟩ := b
  cases battr with
  | none => simp [Xml.build] at hb
  | some t =>
    simp only [Xml.build, Option.map_some, Option.some.injEq] at hb
    subst hb
    have hattr := sm.attr
    simp only [Attr] at hattr
    obtain ⟨i, rfl, e, hi⟩ := hattr
    obtain ⟨h', s1, b', x', bk⟩ := store_leaf sm.bal e (.str (t ++ s))
    have hsi : stack ≠ i := by
      rintro rfl
      have := sm.stk.eq e
      cases this
    have st := sm.stk.move bk (by simpa using hsi) (b'.live (by simp))
    refine ⟨⟨root, stack, .ptr i⟩, h', ids, F, ?_, b', st, ⟨i, rfl, x', hi⟩, ?_, sm.once, sm.above⟩
    · obtain ⟨m, e⟩ := e
      simp [build, appendAttr, e, s1]
    · exact Tree.move (b := ⟨started, done, bst, some t⟩) b' bk sm.tree (list_live b' st) (fun j hj => b'.live (by simp [hj]))
        fun j hj => by have := hi j hj; simp; omega

theorem ARows.set {h : Heap} {s t : Bytes} {e v : Nat} (he : Has h e (.leaf (.str s))) (hv : Has h v (.leaf (.str t))) :
    ∀ {rows : List (Bytes × Ref × Ref)} {as : List (Bytes × Bytes)}, ARows h rows as →
    (findRow s rows = none → ARows h (rows ++ [(s, .ptr e, .ptr v)]) (Xml.setAttr as s t)) ∧
      (∀ o, findRow s rows = some o → ARows h (setRow s (.ptr v) rows) (Xml.setAttr as s t))
  | [], [], _ => ⟨fun _ => ⟨⟨rfl, e, v, rfl, he, hv⟩, trivial⟩, fun o q => by simp [findRow] at q⟩
  | r :: rows, p :: as, w => by
    obtain ⟨⟨e1, i, j, e2, hi, hj⟩, w⟩ := w
    have ih := ARows.set he hv w
    by_cases c : r.1 = s
    · refine ⟨fun q => by simp [findRow, c] at q, fun o _ => ?_⟩
      have c' : p.1 = s := by rw [← e1]; exact c
      simp only [setRow, if_pos c, Xml.setAttr, if_pos c']
      exact ⟨⟨e1, i, v, by rw [e2], hi, hv⟩, w⟩
    · have c' : ¬ p.1 = s := by rw [← e1]; exact c
      refine ⟨fun q => ?_, fun o q => ?_⟩
      · simp only [findRow, if_neg c] at q
        simp only [Xml.setAttr, if_neg c', List.cons_append]
        exact ⟨⟨e1, i, j, e2, hi, hj⟩, ih.1 q⟩
      · simp only [findRow, if_neg c] at q
        simp only [setRow, if_neg c, Xml.setAttr, if_neg c']
        exact ⟨⟨e1, i, j, e2, hi, hj⟩, ih.2 o q⟩

theorem ARows.inserted {h : Heap} {s t : Bytes} {e v : Nat} {rows : List (Bytes × Ref × Ref)} {as : List (Bytes × Bytes)} (w : ARows h rows as)
    (he : Has h e (.leaf (.str s))) (hv : Has h v (.leaf (.str t))) : ARows h (inserted s (.ptr e) (.ptr v) rows) (Xml.setAttr as s t) := by
  unfold ParseOwn.inserted
  have := ARows.set he hv w
  cases q : findRow s rows with
  | none => exact this.1 q
  | some o => exact this.2 o q

theorem count_inserted (s : Bytes) (e v : Nat) (rows : List (Bytes × Ref × Ref)) (j : Nat) :
    (Obj.dict (inserted s (.ptr e) (.ptr v) rows)).held.count j ≤ (Obj.dict rows).held.count j + [e].count j + [v].count j := by
  unfold inserted
  cases q : findRow s rows with
  | none => simp [Obj.held, Ref.ptrs, List.count_append, List.count_cons]; omega
  | some o =>
    have := count_setRow s (.ptr v) j rows o q
    simp only [Ref.ptrs] at this
    simp only
    omega

theorem attrEnd_ok {b b' : Xml.Builder} {v : Vars} {h : Heap} {ids F : List Nat} {nm : Bytes} (sm : Sim b v h ids F)
    (hb : Xml.build b .attrend nm = some b') : ∃ v' h' ids' F', attrEnd v h nm = some (v', h') ∧ Sim b' v' h' ids' F' := by
  obtain ⟨root, stack, attr⟩ := v
  obtain ⟨started, done, bst, battr⟩ := b
  cases bst with
  | nil => simp [Xml.build] at hb
  | cons f fs =>
  cases battr with
  | none => simp [Xml.build] at hb
  | some val =>
    have hbal := sm.bal
    have hstk := sm.stk
    have htree := sm.tree
    have honce := sm.once
    have habove := sm.above
    have hattr := sm.attr
    simp only [Attr] at hattr
    obtain ⟨t, rfl, et, ht⟩ := hattr
    simp only at hbal hstk htree habove
    simp only [Tree] at htree
    obtain ⟨hst, ⟨r, hr, rfl⟩, i, is, n, a, k, rows, l, K, G, rfl, w, ws, wr, rfl⟩ := htree
    subst hst
    simp only [Xml.build, Option.some.injEq] at hb
    subst hb
    have hat : a < t := ht a (by simp [cells])
    have hah : a < h.length := w.dict.lt
    have b1 := hbal.alloc (.leaf (.str nm)) rfl
    have k1 := bk_alloc h (.leaf (.str nm))
    have e1 : Has (alloc h (.leaf (.str nm))) h.length (.leaf (.str nm)) := ⟨1, by rw [get_alloc, if_pos rfl]⟩
    have gr : (alloc h (.leaf (.str nm))).take h.length = h := by simp [alloc]
    obtain ⟨h2, s2, b2, kk2, t2⟩ := retain_ok b1 (.ptr h.length) (by simp only [Ref.ptrs, List.mem_singleton]; rintro x rfl; exact e1.live)
    have sub2 : h2.take h.length = (alloc h (.leaf (.str nm))).take h.length := t2 h.length (by simp [Ref.ptrs])
    have hs2 : ∀ {x o}, Has h x o → Has h2 x o := fun {x o} q => by
      have q1 := has_grow gr q
      obtain ⟨m, q1⟩ := q1
      exact ⟨m, by rw [get_take sub2 q.lt]; exact q1⟩
    obtain ⟨h3, s3, b3, x3, t3, kk3⟩ := insertRow_ok (s := nm) (v := .ptr t) b2 (hs2 w.dict)
      (by simp only [Ref.ptrs, List.mem_singleton]; rintro x rfl; exact hah)
      (by simp only [Ref.ptrs, List.mem_singleton]; rintro x rfl; exact ⟨hat, by simp⟩)
    obtain ⟨h4, s4, b4, kk4, t4⟩ := release_ok (.ptr h.length) b3
    have b4 : Bal h4 ((Ref.ptr r).ptrs ++ stack :: (Ref.ptr t).ptrs) := b4
    obtain ⟨h5, s5, b5, kk5, t5⟩ := release_ok (.ptr t) (R := (Ref.ptr r).ptrs ++ stack :: null.ptrs) (b4.perm (by
      intro j
      have : null.ptrs = [] := rfl
      rw [this]
      simp only [Ref.ptrs, List.cons_append, List.nil_append, List.count_append, List.count_cons, List.count_nil]; omega))
    have x5 := has_take (t5 (a + 1) (by simp only [Ref.ptrs, List.mem_singleton]; rintro x rfl; exact hat))
      (has_take (t4 (a + 1) (by simp only [Ref.ptrs, List.mem_singleton]; rintro x rfl; exact hah)) x3)
    have k15 : Bk [a] (alloc h (.leaf (.str nm))) h5 := (((kk2.bk.trans (Bk.of t3 kk3)).trans kk4.bk).trans kk5.bk).mono (by simp)
    have k05 : Bk [a] h h5 := (k1.trans k15).mono (by simp)
    have cnt := count_inserted nm h.length t rows
    have hF : ∀ j ∈ cells i n a k rows ++ K ++ G, j < h.length ∧ j < t := fun j hj => ⟨sm.tree.lt j hj, ht j hj⟩
    have on : ∀ j, (cells i n a k rows).count j + K.count j + G.count j ≤ 1 := fun j => by
      have := honce j; simpa only [List.count_append] using this
    have pos : ∀ {L : List Nat} {j}, j ∈ L → 0 < L.count j := fun h => List.count_pos_iff.mpr h
    have ane : ∀ j ∈ [i, n, k] ++ (Obj.dict rows).held ++ K ++ G, j ∉ [a] := by
      intro j hj hh
      have h1 := on j
      have h4 := pos hj
      have h2 := pos hh
      simp only [cells, List.count_append, List.count_cons, List.count_nil] at h1 h4 h2
      omega
    have sne : stack ∉ [a] := by
      have := habove a (by simp [cells]); simp; omega
    have st' := hstk.move k05 sne (b5.live (by simp))
    have il := list_live b5 st'
    have c' := w.cell.move k05 (ane i (by simp)) (il i (by simp))
    have l' := w.list.move k05 (ane k (by simp)) (c'.child b5 (by simp [Obj.held, Ref.ptrs]))
    have hmem : ∀ j ∈ (Obj.dict (inserted nm (.ptr h.length) (.ptr t) rows)).held, j ∈ (Obj.dict rows).held ∨ j = h.length ∨ j = t := by
      intro j hj
      have h1 := pos hj
      have h2 := cnt j
      by_cases c1 : j = h.length
      · exact .inr (.inl c1)
      · by_cases c2 : j = t
        · exact .inr (.inr c2)
        · have z1 : [h.length].count j = 0 := by rw [List.count_eq_zero]; simpa using c1
          have z2 : [t].count j = 0 := by rw [List.count_eq_zero]; simpa using c2
          exact .inl (List.count_pos_iff.mp (by omega))
    have hte : h.length ≠ t := by have := et.lt; omega
    have w1 : ARows (alloc h (.leaf (.str nm))) (inserted nm (.ptr h.length) (.ptr t) rows) (Xml.setAttr f.attrs nm val) :=
      ARows.inserted (w.rows.move k1 fun j hj => ⟨by simp, (w.dict.move k1 (by simp) (has_grow gr w.dict).live).child b1 hj⟩) e1 (has_grow gr et)
    refine ⟨⟨.ptr r, stack, null⟩, h5, i :: is, cells i n a k (inserted nm (.ptr h.length) (.ptr t) rows) ++ K ++ G, ?_, b5, st', rfl,
      ⟨rfl, ⟨r, hr, rfl⟩, ?_⟩, ?_, ?_⟩
    · have q : attrsOf h2 i = some a := by obtain ⟨m, e⟩ := hs2 w.cell; simp [attrsOf, e]
      simp only [attrEnd, top_ok hstk, s2, q, s3, s4, s5, Option.bind_some, Option.map_some]
    · refine ⟨i, is, n, a, k, _, l, K, G, rfl, ⟨c', ?_, x5, ?_, by simpa using l'⟩, ?_, ?_, rfl⟩
      · exact w.name.move k05 (ane n (by simp)) (c'.child b5 (by simp [Obj.held, Ref.ptrs]))
      · refine w1.move k15 fun j hj => ⟨?_, x5.child b5 hj⟩
        rcases hmem j hj with hh | rfl | rfl
        · exact ane j (by simp [hh])
        · simp; omega
        · simp; omega
      · exact ws.move b5 k05 (fun j hj => l'.child b5 (by simpa using hj)) fun j hj => ane j (by simp [hj])
      · exact wr.move b5 k05 (fun j hj => il j (by simp [hj])) fun j hj => ane j (by simp [hj])
    · intro j
      have h1 := on j
      have h2 := cnt j
      simp only [cells, List.count_append, List.count_cons, List.count_nil] at h1 h2 ⊢
      by_cases cj : j ∈ cells i n a k rows ++ K ++ G
      · have q := hF j cj
        have z1 : (h.length == j) = false := by simp; omega
        have z2 : (t == j) = false := by simp; omega
        simp only [z1, z2, Bool.false_eq_true, if_false] at h2
        omega
      · have q : (cells i n a k rows ++ K ++ G).count j = 0 := by rw [List.count_eq_zero]; exact cj
        simp only [cells, List.count_append, List.count_cons, List.count_nil] at q
        by_cases z : (h.length == j) = true
        · have z2 : (t == j) = false := by simp at z ⊢; omega
          simp only [z, z2, Bool.false_eq_true, if_false, if_true] at h2
          omega
        · simp only [Bool.not_eq_true] at z
          simp only [z, Bool.false_eq_true, if_false] at h2
          split at h2 <;> omega
    · intro j hj
      have hjj : j ∈ cells i n a k rows ++ K ++ G ∨ j = h.length ∨ j = t := by
        simp only [cells, List.mem_append] at hj ⊢
        rcases hj with ((hj | hj) | hj) | hj
        · exact .inl (.inl (.inl (.inl hj)))
        · rcases hmem j hj with hh | hh
          · exact .inl (.inl (.inl (.inr hh)))
          · exact .inr hh
        · exact .inl (.inl (.inr hj))
        · exact .inl (.inr hj)
      rcases hjj with hh | rfl | rfl
      · exact habove j hh
      · exact hstk.lt
      · have := habove a (by simp [cells]); show stack < j; omega

end ParseOwn
end Duck
