import Verif.Lemmas.Number
/-! C29 (numbers), C30 and C31. -/
namespace Duck
namespace Number

set_option exponentiation.threshold 2000

/-! What patterns stand for, on some patterns. -/
example : val .i8 0xff = .fin (-1 * scale) := by decide +kernel
example : val .u8 0xff = .fin (255 * scale) := by decide +kernel
example : val .f64 0x3ff0000000000000 = .fin scale := by decide +kernel
example : val .f32 0xbfc00000 = .fin (-(3 * scale / 2)) := by decide +kernel
example : val .f64 0x8000000000000000 = .fin 0 := by decide +kernel
example : val .f32 0x7f800000 = .inf false := by decide +kernel
example : val .f64 1 = .fin 1 := by decide +kernel
example : val .f64 0x7ff8000000000000 = .nan := by decide +kernel

/-! ### C30 -/

/-- C30.  Comparing two numbers of equal count orders them by the first elements whose values differ, by numeric value, for all
types, provided every element of the second is a value of the first's type and no element is a NaN: 1 when the first is
smaller, -1 when it is larger and 0 exactly when all values are equal.  Missing: values of the second number outside the
type of the first (refuted below) and NaNs (refuted below). -/
theorem C30_compare_partial (a b : Obj) (ha : a.Ok) (hb : b.Ok) (hc : a.enc.count = b.enc.count)
    (hfit : ∀ i, i < b.enc.count → Fits a.enc.ty (b.at i)) (hna : ∀ i, i < a.enc.count → a.at i ≠ .nan)
    (hnb : ∀ i, i < b.enc.count → b.at i ≠ .nan) :
    (compare a b = some 1 ∧ ∃ k, k < a.enc.count ∧ (∀ j, j < k → a.at j = b.at j) ∧ Less (a.at k) (b.at k)) ∨
    (compare a b = some (-1) ∧ ∃ k, k < a.enc.count ∧ (∀ j, j < k → a.at j = b.at j) ∧ Less (b.at k) (a.at k)) ∨
    (compare a b = some 0 ∧ ∀ j, j < a.enc.count → a.at j = b.at j) := by
  have h1 : compare a b = some (lexCmp a.at b.at b.enc.count 0) := by
    unfold compare
    rw [if_pos hc]
    refine cmpLoop_eq _ _ _ _ _ _ ?_ ?_ ?_
    · rw [ha, Nat.zero_add, ← hc, Enc.size, Nat.mul_comm]
    · rw [hb, Nat.zero_add, Enc.size, Nat.mul_comm]
    · intro j _ hj
      exact ⟨hfit j (by omega), hnb j (by omega)⟩
  rw [h1]
  rcases lexCmp_cases a.at b.at b.enc.count 0 (fun j _ hj => ⟨hna j (by omega), hnb j (by omega)⟩) with
    ⟨e, k, _, k2, k3, k4⟩ | ⟨e, k, _, k2, k3, k4⟩ | ⟨e, h⟩
  · exact .inl ⟨by rw [e], k, by omega, fun j hj => k3 j (by omega) hj, k4⟩
  · exact .inr (.inl ⟨by rw [e], k, by omega, fun j hj => k3 j (by omega) hj, k4⟩)
  · exact .inr (.inr ⟨by rw [e], fun j hj => h j (by omega) (by omega)⟩)

/-- Two vectors of different types: (3, -2.5) as doubles against (3, 7) as bytes. -/
def exA : Obj := ⟨vec .f64 2, leBytes 8 0x4008000000000000 ++ leBytes 8 0xc004000000000000⟩
def exB : Obj := ⟨vec .i8 2, leBytes 1 3 ++ leBytes 1 7⟩

example : exA.Ok ∧ exB.Ok ∧ exA.enc.count = exB.enc.count ∧ (∀ i, i < 2 → Fits .f64 (exB.at i)) ∧ (∀ i, i < 2 → exA.at i ≠ .nan) ∧
    (∀ i, i < 2 → exB.at i ≠ .nan) ∧ compare exA exB = some 1 := by
  refine ⟨rfl, rfl, rfl, ?_, by decide +kernel, by decide +kernel, by decide +kernel⟩
  intro i hi
  rcases (by omega : i = 0 ∨ i = 1) with rfl | rfl
  · exact ⟨0x4008000000000000, by decide, by decide +kernel⟩
  · exact ⟨0x401c000000000000, by decide, by decide +kernel⟩

/-- C30.  For numbers of one type and count, without NaNs, comparison is reflexive, antisymmetric and transitive.  Missing:
numbers of different types (refuted below). -/
theorem C30_order_partial (a b c : Obj) (ha : a.Ok) (hb : b.Ok) (hc : c.Ok) (hab : a.enc.count = b.enc.count)
    (hbc : b.enc.count = c.enc.count) (tab : a.enc.ty = b.enc.ty) (tbc : b.enc.ty = c.enc.ty)
    (hna : ∀ i, i < a.enc.count → a.at i ≠ .nan) (hnb : ∀ i, i < b.enc.count → b.at i ≠ .nan)
    (hnc : ∀ i, i < c.enc.count → c.at i ≠ .nan) :
    compare a a = some 0 ∧
    (∃ r, compare a b = some r ∧ compare b a = some (-r)) ∧
    (∃ r s t, compare a b = some r ∧ compare b c = some s ∧ compare a c = some t ∧
      (0 ≤ r → 0 ≤ s → 0 ≤ t ∧ (t = 0 → r = 0 ∧ s = 0))) := by
  have key : ∀ x y : Obj, x.Ok → y.Ok → x.enc.count = y.enc.count → x.enc.ty = y.enc.ty →
      (∀ i, i < y.enc.count → y.at i ≠ .nan) → compare x y = some (lexCmp x.at y.at y.enc.count 0) := by
    intro x y hx hy h1 h2 h3
    unfold compare
    rw [if_pos h1]
    refine cmpLoop_eq _ _ _ _ _ _ ?_ ?_ ?_
    · rw [hx, Nat.zero_add, ← h1, Enc.size, Nat.mul_comm]
    · rw [hy, Nat.zero_add, Enc.size, Nat.mul_comm]
    · intro j _ hj
      refine ⟨⟨elem y.enc.ty y.value j, ?_, by rw [h2]⟩, h3 j (by omega)⟩
      rw [h2]
      refine elem_lt (idx_le (n := y.enc.count) (by omega) ?_)
      rw [hy, Enc.size, Nat.mul_comm]
  have kaa := key a a ha ha rfl rfl hna
  have kab := key a b ha hb hab tab hnb
  have kba := key b a hb ha hab.symm tab.symm hna
  have kbc := key b c hb hc hbc tbc hnc
  have kac := key a c ha hc (hab.trans hbc) (tab.trans tbc) hnc
  rw [hab] at kba
  rw [← hbc] at kbc kac
  refine ⟨?_, ⟨_, kab, ?_⟩, ⟨_, _, _, kab, kbc, kac, ?_⟩⟩
  · have h := lexCmp_swap a.at a.at a.enc.count 0
    rw [kaa]; congr 1; omega
  · rw [kba, lexCmp_swap]
  · exact lexCmp_trans _ _ _ _ _ (fun j _ hj => ⟨hna j (by omega), hnb j (by omega), hnc j (by omega)⟩)

example : compare (scalar .f32 0xbfc00000) (scalar .f32 0x3f800000) = some 1 ∧
    compare (scalar .f32 0x3f800000) (scalar .f32 0xbfc00000) = some (-1) ∧
    compare (scalar .f32 0x80000000) (scalar .f32 0) = some 0 := by decide +kernel

/-- C30 is false between types: the 8-bit 0 equals the 32-bit 256, which does not equal it; the unsigned 200 comes before -1;
and the double 2^53 equals the integer 2^53+1, which comes after it. -/
theorem C30_types_fail :
    (compare (scalar .i8 0) (scalar .i32 256) = some 0 ∧ compare (scalar .i32 256) (scalar .i8 0) = some (-1)) ∧
    (compare (scalar .u8 200) (scalar .i8 0xff) = some 1 ∧ Less ((scalar .i8 0xff).at 0) ((scalar .u8 200).at 0)) ∧
    (compare (scalar .f64 0x4340000000000000) (scalar .i64 (2 ^ 53 + 1)) = some 0 ∧
      compare (scalar .i64 (2 ^ 53 + 1)) (scalar .f64 0x4340000000000000) = some (-1)) := by
  refine ⟨by decide +kernel, ⟨by decide +kernel, ?_⟩, by decide +kernel⟩
  exact (lt_iff _ _).1 (by decide +kernel)

/-- C30 is false of NaNs: one equals both 1.0 and 2.0, which differ. -/
theorem C30_nan_fails :
    compare (scalar .f64 0x3ff0000000000000) (scalar .f64 0x7ff8000000000000) = some 0 ∧
    compare (scalar .f64 0x7ff8000000000000) (scalar .f64 0x4000000000000000) = some 0 ∧
    compare (scalar .f64 0x3ff0000000000000) (scalar .f64 0x4000000000000000) = some 1 := by decide +kernel

/-! ### C31 -/

/-- C31.  Converting a value between any two number types, integer or floating point, preserves it whenever the target type
has that value. -/
theorem C31_value (xt yt : Ty) (b : Nat) (hb : b < 2 ^ xt.bits) (hn : val xt b ≠ .nan) (h : Fits yt (val xt b)) :
    ∃ c, cast xt yt b = some c ∧ c < 2 ^ yt.bits ∧ val yt c = val xt b := by
  obtain ⟨c, hc, hv⟩ := h
  exact cast_preserves xt yt hb hc hv hn

example : Fits .i16 (val .f64 0xc07f400000000000) ∧ (cast .f64 .i16 0xc07f400000000000).map (intVal .i16) = some (-500) :=
  ⟨⟨0xfe0c, by decide, by decide +kernel⟩, by decide +kernel⟩
example : cast .i64 .f32 (2 ^ 24 + 1) = some 0x4b800000 ∧ cast .f64 .f32 0x3ff0000010000000 = some 0x3f800000 := by decide +kernel

/-- C31.  Conversions between shapes that are not both matrices, or have as many elements, convert the first min(count) elements
in order and write nothing beyond them, when each conversion is defined (see C31_value and C31_defined). -/
theorem C31_vector (src dst : Mem) (se de : Enc) (hs : src.length = se.size) (hd : dst.length = de.size)
    (hm : de.count = se.count ∨ se.matrix = false ∨ de.matrix = false)
    (hdef : ∀ i, i < se.count → i < de.count → ∃ c, cast se.ty de.ty (elem se.ty src i) = some c) :
    ∃ dst', convert src se dst de = some (min se.count de.count, dst') ∧ dst'.length = dst.length ∧
      (∀ i, i < min se.count de.count → cast se.ty de.ty (elem se.ty src i) = some (elem de.ty dst' i)) ∧
      (∀ k, min se.count de.count * de.ty.size ≤ k → dst'[k]? = dst[k]?) := by
  have hs' : src.length = se.count * se.ty.size := by rw [hs, Enc.size, Nat.mul_comm]
  have hd' : dst.length = de.count * de.ty.size := by rw [hd, Enc.size, Nat.mul_comm]
  have l1 : min se.count de.count * se.ty.size ≤ src.length := by rw [hs']; exact Nat.mul_le_mul_right _ (Nat.min_le_left _ _)
  have l2 : min se.count de.count * de.ty.size ≤ dst.length := by rw [hd']; exact Nat.mul_le_mul_right _ (Nat.min_le_right _ _)
  obtain ⟨d, h1, h2, h3, h4⟩ := castLoop_spec se.ty de.ty src 0 0 (min se.count de.count) 0 dst (by simpa using l1) (by simpa using l2)
    (by
      intro j _ hj b hb
      rw [Nat.zero_add, read_elem (idx_le (n := min se.count de.count) (by omega) l1)] at hb
      cases hb
      exact hdef j (by omega) (by omega))
  refine ⟨d, ?_, h2, ?_, ?_⟩
  · unfold convert
    by_cases hc : de.count = se.count
    · rw [if_pos hc]
      rw [show min se.count de.count = de.count by omega] at h1 ⊢
      rw [h1]; rfl
    · rw [if_neg hc, if_neg]
      · rw [show (if se.count < de.count then se.count else de.count) = min se.count de.count by split <;> omega]
        simp only [h1, Option.map_some]
      · rcases hm with h | h | h
        · exact absurd h hc
        · simp [h]
        · simp [h]
  · intro i hi
    obtain ⟨b, c, q1, q2, q3⟩ := h3 i (by omega) (by omega)
    rw [Nat.zero_add, read_elem (idx_le hi l1)] at q1
    cases q1
    rw [Nat.zero_add, read_elem (idx_le hi (by rw [h2]; exact l2)), Nat.mod_eq_of_lt (cast_lt q2)] at q3
    rw [q2]; exact q3.symm
  · intro k hk
    exact h4 k (.inr (by simpa using hk))

/-- A conversion is defined unless it takes a floating-point value out of an integer type's range. -/
theorem C31_defined (xt yt : Ty) (b : Nat) : (∃ c, cast xt yt b = some c) ∨ (xt.fmt ≠ none ∧ yt.fmt = none) := by
  cases hx : xt.fmt <;> cases hy : yt.fmt <;> simp [cast, hx, hy]

example : convert (leBytes 4 7 ++ leBytes 4 0xffffffff ++ leBytes 4 300) (vec .i32 3) (List.replicate 4 0) (vec .i16 2) =
    some (2, [7, 0, 0xff, 0xff]) := by decide +kernel
example : convert [5] (vec .u8 1) [1, 2, 3, 4] (vec .i16 2) = some (1, [5, 0, 3, 4]) := by decide +kernel

/-- C31.  Between matrices whose element types have the same size, or of the same shape, the common sub-matrix is converted and
every other element of the destination is left alone.  Missing: matrices of different shapes with element types of different
sizes, or with as many elements (both refuted below). -/
theorem C31_matrix_partial (src dst : Mem) (se de : Enc) (hs : src.length = se.size) (hd : dst.length = de.size)
    (hsm : se.matrix = true) (hdm : de.matrix = true)
    (hm : (se.rows = de.rows ∧ se.cols = de.cols) ∨ (se.count ≠ de.count ∧ se.ty.size = de.ty.size))
    (hdef : ∀ i, i < se.count → ∃ c, cast se.ty de.ty (elem se.ty src i) = some c) :
    ∃ dst', convert src se dst de = some (min se.rows de.rows * min se.cols de.cols, dst') ∧ dst'.length = dst.length ∧
      ∀ r c, r < de.rows → c < de.cols →
        if r < se.rows ∧ c < se.cols then
          cast se.ty de.ty (elem se.ty src (r * se.cols + c)) = some (elem de.ty dst' (r * de.cols + c))
        else elem de.ty dst' (r * de.cols + c) = elem de.ty dst (r * de.cols + c) := by
  have idx : ∀ {r c R C : Nat}, r < R → c < C → r * C + c < R * C := by
    intro r c R C h1 h2
    have : (r + 1) * C ≤ R * C := Nat.mul_le_mul_right _ h1
    rw [Nat.add_mul] at this
    omega
  have hs' : src.length = se.count * se.ty.size := by rw [hs, Enc.size, Nat.mul_comm]
  have hd' : dst.length = de.count * de.ty.size := by rw [hd, Enc.size, Nat.mul_comm]
  by_cases hc : de.count = se.count
  · have hsh := hm.resolve_right (fun h => h.1 hc.symm)
    obtain ⟨d, h1, h2, h3, _⟩ := C31_vector src dst se de hs hd (.inl hc) (fun i hi _ => hdef i hi)
    refine ⟨d, ?_, h2, ?_⟩
    · rw [h1, hc, Nat.min_self, hsh.1, hsh.2, Nat.min_self, Nat.min_self, Enc.count, hsh.1, hsh.2]
    · intro r c hr hcc
      rw [if_pos ⟨by omega, by omega⟩, hsh.2]
      refine h3 _ ?_
      rw [hc, Nat.min_self, ← hc]
      exact idx hr hcc
  · have hsz : se.ty.size = de.ty.size := by
      rcases hm with h | h
      · exact absurd (by rw [Enc.count, Enc.count, h.1, h.2]) hc
      · exact h.2
    have er : (if se.rows < de.rows then se.rows else de.rows) = min se.rows de.rows := by split <;> omega
    have ec : (if se.cols < de.cols then se.cols else de.cols) = min se.cols de.cols := by split <;> omega
    have eS : ∀ i j, i * (se.ty.size * se.cols) + j * se.ty.size = (i * se.cols + j) * se.ty.size := by
      intro i j; rw [Nat.add_mul, Nat.mul_assoc, Nat.mul_comm se.cols]
    have eD : ∀ i j, i * (se.ty.size * de.cols) + j * de.ty.size = (i * de.cols + j) * de.ty.size := by
      intro i j; rw [hsz, Nat.add_mul, Nat.mul_assoc, Nat.mul_comm de.cols]
    obtain ⟨d, h1, h2, h3, h4⟩ := rowLoop_spec se.ty de.ty src (min se.cols de.cols) (se.ty.size * se.cols) (se.ty.size * de.cols)
      (by rw [hsz, Nat.mul_comm]; exact Nat.mul_le_mul_left _ (Nat.min_le_right _ _))
      (by rw [Nat.mul_comm]; exact Nat.mul_le_mul_left _ (Nat.min_le_left _ _))
      (min se.rows de.rows) 0 dst
      (by
        rw [Nat.zero_add, hs', Enc.count, Nat.mul_comm se.ty.size, ← Nat.mul_assoc]
        exact Nat.mul_le_mul_right _ (Nat.mul_le_mul_right _ (Nat.min_le_left _ _)))
      (by
        rw [Nat.zero_add, hd', Enc.count, Nat.mul_comm se.ty.size, ← Nat.mul_assoc, hsz]
        exact Nat.mul_le_mul_right _ (Nat.mul_le_mul_right _ (Nat.min_le_right _ _)))
      (by
        intro i _ hi j hj b hb
        rw [eS] at hb
        have hij : i * se.cols + j < se.count := idx (by omega) (by omega)
        rw [read_elem (idx_le hij (by rw [hs']))] at hb
        cases hb
        exact hdef _ hij)
    refine ⟨d, ?_, h2, ?_⟩
    · unfold convert
      rw [if_neg hc, hsm, hdm]
      simp only [Bool.and_self, if_true, er, ec]
      rw [Nat.zero_mul, Nat.zero_mul] at h1
      rw [h1]; rfl
    · intro r c hr hcc
      have hdi : (r * de.cols + c + 1) * de.ty.size ≤ dst.length := idx_le (idx hr hcc) (by rw [hd']; exact Nat.le_refl _)
      split
      · rename_i h
        obtain ⟨b, x, q1, q2, q3⟩ := h3 r (by omega) (by omega) c (by omega)
        rw [eS, read_elem (idx_le (idx h.1 h.2) (by rw [hs']; exact Nat.le_refl _))] at q1
        cases q1
        rw [eD, read_elem (by rw [h2]; exact hdi), Nat.mod_eq_of_lt (cast_lt q2)] at q3
        rw [q2]; exact q3.symm
      · rename_i h
        have e := read_eq_of_agree (m := dst) (m' := d) (off := (r * de.cols + c) * de.ty.size) (n := de.ty.size) h2 (by
          intro k k1 k2
          refine h4 k ?_
          intro i _ hi
          rw [show i * (se.ty.size * de.cols) = (i * de.cols) * de.ty.size by
            rw [hsz, Nat.mul_assoc, Nat.mul_comm de.cols], ← Nat.add_mul]
          by_cases hri : r < i
          · left
            have : (r * de.cols + c + 1) * de.ty.size ≤ (i * de.cols) * de.ty.size := by
              refine Nat.mul_le_mul_right _ ?_
              have : (r + 1) * de.cols ≤ i * de.cols := Nat.mul_le_mul_right _ hri
              rw [Nat.add_mul] at this
              omega
            rw [Nat.add_mul, Nat.one_mul] at this
            omega
          · right
            refine Nat.le_trans (Nat.mul_le_mul_right _ ?_) k1
            by_cases hir : i = r
            · subst hir
              have : se.cols ≤ c := by
                have : i < se.rows := by omega
                omega
              omega
            · have : (i + 1) * de.cols ≤ r * de.cols := Nat.mul_le_mul_right _ (by omega)
              rw [Nat.add_mul] at this
              omega)
        rw [read_elem (by rw [h2]; exact hdi), read_elem hdi] at e
        exact Option.some.inj e

example : convert [1, 2, 3, 4, 5, 6] ⟨.u8, true, 2, 3⟩ [9, 9, 9, 9, 9, 9, 9, 9] ⟨.i8, true, 4, 2⟩ =
    some (4, [1, 2, 4, 5, 9, 9, 9, 9]) := by decide +kernel

/-- C31 is false of matrices with element types of different sizes: narrowing writes past the end of the destination, and
widening makes the rows overlap. -/
theorem C31_matrix_fails :
    convert (List.replicate 72 0) ⟨.f64, true, 3, 3⟩ (List.replicate 16 0) ⟨.f32, true, 2, 2⟩ = none ∧
    convert [1, 2, 3, 4, 5, 6, 7, 8, 9] ⟨.u8, true, 3, 3⟩ (List.replicate 8 0) ⟨.u16, true, 2, 2⟩ = some (4, [1, 0, 4, 0, 5, 0, 0, 0]) := by
  decide +kernel

/-- C31 is false of matrices of different shapes with as many elements: the elements of a 2 by 3 matrix are copied in sequence
to a 3 by 2 matrix, so that its second row starts with the third element of the first row. -/
theorem C31_reshape_fails :
    convert [11, 12, 13, 21, 22, 23] ⟨.u8, true, 2, 3⟩ (List.replicate 6 0) ⟨.u8, true, 3, 2⟩ = some (6, [11, 12, 13, 21, 22, 23]) := by
  decide +kernel

/-- C31.  Reading a scalar as another type gives its value, if the type has it. -/
theorem C31_get (t u : Ty) (b : Nat) (hb : b < 2 ^ t.bits) (hn : val t b ≠ .nan) (h : Fits u (val t b)) :
    ∃ c, getScalar (scalar t b) u = some c ∧ val u c = val t b := by
  obtain ⟨c, h1, h2, h3⟩ := C31_value t u b hb hn h
  have he : elem t (leBytes t.size b) 0 = b := by
    unfold elem
    rw [Nat.zero_mul, List.drop_zero, List.take_of_length_le (by rw [leBytes_length]), leNat_leBytes, pow_bits, Nat.mod_eq_of_lt hb]
  obtain ⟨d, g1, g2, g3, _⟩ := C31_vector (leBytes t.size b) (List.replicate u.size 0) (vec t 1) (vec u 1)
    (by simp [leBytes_length, Enc.size, Enc.count, vec]) (by simp [Enc.size, Enc.count, vec]) (.inl rfl)
    (by
      intro i hi _
      have : i = 0 := by simp [Enc.count, vec] at hi; exact hi
      subst this
      simp only [vec]; rw [he]; exact ⟨c, h1⟩)
  have hmin : min (vec t 1).count (vec u 1).count = 1 := by simp [Enc.count, vec]
  rw [hmin] at g1 g3
  have g4 := g3 0 (by omega)
  simp only [vec] at g4
  rw [he, h1] at g4
  refine ⟨c, ?_, h3⟩
  unfold getScalar
  simp only [scalar]
  rw [g1]
  simp only [Option.bind_some, if_true]
  rw [show (0 : Nat) = 0 * u.size by simp, read_elem (by rw [g2]; simp)]
  rw [← Option.some.inj g4]

example : getScalar (scalar .u64 5000000000) .f64 = some 0x41f2a05f20000000 := by decide +kernel

/-- C31.  A number made from another with a new type has as many elements, with the same values if the type has them. -/
theorem C31_init (a : Obj) (t : Ty) (ha : a.Ok) (hn : ∀ i, i < a.enc.count → a.at i ≠ .nan)
    (hf : ∀ i, i < a.enc.count → Fits t (a.at i)) :
    ∃ b, initWithNumber a t = some b ∧ b.Ok ∧ b.enc.ty = t ∧ b.enc.count = a.enc.count ∧ ∀ i, i < a.enc.count → b.at i = a.at i := by
  have hc : ∀ n, (vec t n).count = n := by intro n; simp [vec, Enc.count]
  have hla : a.value.length = a.enc.count * a.enc.ty.size := by rw [ha, Enc.size, Nat.mul_comm]
  have hlt : ∀ i, i < a.enc.count → elem a.enc.ty a.value i < 2 ^ a.enc.ty.bits := fun i hi => elem_lt (idx_le hi (by rw [hla]))
  obtain ⟨d, g1, g2, g3, _⟩ := castLoop_spec a.enc.ty t a.value 0 0 a.enc.count 0 (List.replicate (vec t a.enc.count).size 0)
    (by rw [hla]; simp) (by simp [Enc.size, hc]; simp [vec, Nat.mul_comm])
    (by
      intro j _ hj b hb
      rw [Nat.zero_add, read_elem (idx_le (n := a.enc.count) (by omega) (by rw [hla]))] at hb
      cases hb
      obtain ⟨c, h1, _⟩ := C31_value _ t _ (hlt j (by omega)) (hn j (by omega)) (hf j (by omega))
      exact ⟨c, h1⟩)
  refine ⟨⟨vec t a.enc.count, d⟩, ?_, ?_, rfl, hc _, ?_⟩
  · unfold initWithNumber; rw [g1]; rfl
  · simp only [Obj.Ok]; rw [g2]; simp
  · intro i hi
    obtain ⟨b, c, q1, q2, q3⟩ := g3 i (by omega) (by omega)
    rw [Nat.zero_add, read_elem (idx_le hi (by rw [hla]))] at q1
    cases q1
    obtain ⟨c', h1, h2, h3⟩ := C31_value _ t _ (hlt i hi) (hn i hi) (hf i hi)
    rw [q2] at h1
    cases h1
    have hdl : (i + 1) * t.size ≤ d.length := idx_le hi (by rw [g2]; simp [Enc.size, hc]; simp [vec, Nat.mul_comm])
    rw [Nat.zero_add, read_elem hdl, Nat.mod_eq_of_lt h2] at q3
    unfold Obj.at
    simp only [vec]
    rw [Option.some.inj q3, h3]

example : (initWithNumber exB .f32).map (fun b => (b.enc, b.value)) = some (vec .f32 2, [0, 0, 64, 64, 0, 0, 224, 64]) := by decide +kernel

/-- DKNumberGetBool is false of some numbers that are not zero: 2^32 and 0.5. -/
theorem C31_bool_fails :
    getBool (scalar .i64 (2 ^ 32)) = some false ∧ getBool (scalar .f64 0x3fe0000000000000) = some false ∧
    getBool (scalar .i8 1) = some true := by decide +kernel

/-- C31.  Matrix enumeration visits the elements of a matrix row by row if it is square.  Missing: other matrices (refuted below). -/
theorem C31_enumerate_partial (e : Enc) (h : e.rows = e.cols) :
    matrixIndices e = (List.range e.rows).flatMap fun r => (List.range e.cols).map fun c => r * e.cols + c := by
  unfold matrixIndices; rw [h]

example : matrixIndices ⟨.f32, true, 2, 2⟩ = [0, 1, 2, 3] := by decide

/-- C31 is false of enumerating other matrices: with 2 rows of 3 an element is visited twice and the last never; with 3 rows of 2
elements past the end are visited (and written, by DKNumberSetEnumeratedMatrixValue). -/
theorem C31_enumerate_fails :
    matrixIndices ⟨.f32, true, 2, 3⟩ = [0, 1, 2, 2, 3, 4] ∧ matrixIndices ⟨.f32, true, 3, 2⟩ = [0, 1, 3, 4, 6, 7] := by decide

/-! ### C29, numbers -/

/-- The number is of an integer type, or none of its elements is zero (positive and negative zero are equal). -/
def NoZero (a : Obj) : Prop := a.enc.ty.fmt = none ∨ ∀ i, i < a.enc.count → a.at i ≠ .fin 0

/-- C29.  Numbers of one type, equal under DKEqual and without NaNs or floating-point zeros, have equal hashes.  Missing: numbers
of different types, zeros and NaNs (refuted below). -/
theorem C29_number_partial (a b : Obj) (ha : a.Ok) (hb : b.Ok) (hc : a.enc.count = b.enc.count) (ht : a.enc.ty = b.enc.ty)
    (hna : ∀ i, i < a.enc.count → a.at i ≠ .nan) (hnb : ∀ i, i < b.enc.count → b.at i ≠ .nan) (hz : NoZero a)
    (h : equal a b = some true) : hash a = hash b ∧ (hash a).isSome := by
  have hfit : ∀ i, i < b.enc.count → Fits a.enc.ty (b.at i) := by
    intro i hi
    refine ⟨elem b.enc.ty b.value i, ?_, by rw [ht]; rfl⟩
    rw [ht]
    exact elem_lt (idx_le hi (by rw [hb, Enc.size, Nat.mul_comm]))
  have hv : ∀ j, j < a.enc.count → a.at j = b.at j := by
    rcases C30_compare_partial a b ha hb hc hfit hna hnb with ⟨e, _⟩ | ⟨e, _⟩ | ⟨_, e⟩
    · rw [equal, e] at h; cases h
    · rw [equal, e] at h; cases h
    · exact e
  have hla : a.value.length = a.enc.count * a.enc.ty.size := by rw [ha, Enc.size, Nat.mul_comm]
  have hlb : b.value.length = a.enc.count * a.enc.ty.size := by rw [hb, Enc.size, Nat.mul_comm, ht, hc]
  have hel : ∀ j, j < a.enc.count → elem a.enc.ty a.value j = elem a.enc.ty b.value j := by
    intro j hj
    have h2 : val a.enc.ty (elem a.enc.ty a.value j) = val a.enc.ty (elem a.enc.ty b.value j) := by
      have := hv j hj
      unfold Obj.at at this
      rwa [← ht] at this
    refine val_inj (elem_lt (idx_le hj (by rw [hla]))) (elem_lt (idx_le hj (by rw [hlb])))
      h2 (hna j hj) ?_
    rcases hz with h3 | h3
    · exact .inl h3
    · exact .inr (h3 j hj)
  have hbytes : a.value = b.value := by
    apply List.ext_getElem?
    intro k
    by_cases hk : k < a.enc.count * a.enc.ty.size
    · have sp := size_pos a.enc.ty
      have hj : k / a.enc.ty.size < a.enc.count := (Nat.div_lt_iff_lt_mul sp).2 hk
      have h3 := hel _ hj
      unfold elem at h3
      have h4 := leNat_inj (by
        have := idx_le hj (show a.enc.count * a.enc.ty.size ≤ a.value.length by omega)
        simp only [List.length_take, List.length_drop]
        omega) h3
      have h5 := congrArg (fun l => l[k % a.enc.ty.size]?) h4
      simp only [List.getElem?_take, List.getElem?_drop] at h5
      rw [if_pos (Nat.mod_lt _ sp)] at h5
      have h6 : k / a.enc.ty.size * a.enc.ty.size + k % a.enc.ty.size = k := by rw [Nat.mul_comm]; exact Nat.div_add_mod _ _
      rwa [h6, if_pos (Nat.mod_lt _ sp)] at h5
    · rw [List.getElem?_eq_none (by omega), List.getElem?_eq_none (by omega)]
  constructor
  · unfold hash
    rw [hc, ht, hbytes]
  · unfold hash
    split
    · rename_i h1
      rw [show (0 : Nat) = 0 * a.enc.ty.size by simp, read_elem (by rw [hla, h1])]
      rfl
    · rfl

example : equal (scalar .i16 0xfffe) (scalar .i16 0xfffe) = some true ∧ hash (scalar .i16 0xfffe) = some (-2) ∧
    equal (⟨vec .f32 2, [0, 0, 128, 63, 0, 0, 0, 64]⟩ : Obj) ⟨⟨.f32, true, 2, 1⟩, [0, 0, 128, 63, 0, 0, 0, 64]⟩ = some true := by decide +kernel

/-- C29.  Scalars of any two integer types, equal under DKEqual and with the second a value of the first's type, have equal hashes. -/
theorem C29_integers_partial (t u : Ty) (ht : t.fmt = none) (hu : u.fmt = none) (x y : Nat) (hx : x < 2 ^ t.bits) (hy : y < 2 ^ u.bits)
    (hfit : Fits t (val u y)) (h : equal (scalar t x) (scalar u y) = some true) : hash (scalar t x) = hash (scalar u y) := by
  have he : ∀ (t : Ty) (b : Nat), b < 2 ^ t.bits → elem t (leBytes t.size b) 0 = b := by
    intro t b hb
    unfold elem
    rw [Nat.zero_mul, List.drop_zero, List.take_of_length_le (by rw [leBytes_length]), leNat_leBytes, pow_bits, Nat.mod_eq_of_lt hb]
  have hat : ∀ (t : Ty) (b : Nat), b < 2 ^ t.bits → (scalar t b).at 0 = val t b := by
    intro t b hb; unfold Obj.at scalar; simp only [vec]; rw [he t b hb]
  have h0 : ∀ {i t b}, i < (scalar t b).enc.count → i = 0 := by intro i t b hi; simp [scalar, Enc.count, vec] at hi; exact hi
  have hnn : ∀ (t : Ty) (b : Nat), t.fmt = none → val t b ≠ .nan := by intro t b h; simp [val, h]
  have hv : val t x = val u y := by
    rcases C30_compare_partial (scalar t x) (scalar u y) (by simp [Obj.Ok, scalar, leBytes_length, Enc.size, Enc.count, vec])
      (by simp [Obj.Ok, scalar, leBytes_length, Enc.size, Enc.count, vec]) rfl
      (by intro i hi; rw [h0 hi, hat u y hy]; exact hfit) (by intro i hi; rw [h0 hi, hat t x hx]; exact hnn _ _ ht)
      (by intro i hi; rw [h0 hi, hat u y hy]; exact hnn _ _ hu) with ⟨e, _⟩ | ⟨e, _⟩ | ⟨_, e⟩
    · rw [equal, e] at h; cases h
    · rw [equal, e] at h; cases h
    · have := e 0 (by simp [scalar, Enc.count, vec])
      rwa [hat t x hx, hat u y hy] at this
  simp only [val, ht, hu] at hv
  injection hv with hv
  have hv := mul_scale_inj hv
  have hh : ∀ (t : Ty) (b : Nat), t.fmt = none → b < 2 ^ t.bits → hash (scalar t b) = some (BitVec.ofInt 64 (intVal t b)) := by
    intro t b h1 h2
    unfold hash
    simp only [scalar, vec, Enc.count, Nat.mul_one, if_true, h1]
    rw [show read (leBytes t.size b) 0 t.size = some b by
      rw [show (0 : Nat) = 0 * t.size by simp, read_elem (by rw [leBytes_length]; omega), he t b h2]]
    rfl
  rw [hh t x ht hx, hh u y hu hy, hv]

example : equal (scalar .i32 0xffffffff) (scalar .i8 0xff) = some true ∧ hash (scalar .i32 0xffffffff) = hash (scalar .i8 0xff) := by
  decide +kernel

/-- C29 is false of numbers in general: the integer 1 equals the double 1.0, 0.0 equals -0.0, and a NaN equals 1.0, with
different hashes. -/
theorem C29_number_fails :
    (equal (scalar .i32 1) (scalar .f64 0x3ff0000000000000) = some true ∧
      equal (scalar .f64 0x3ff0000000000000) (scalar .i32 1) = some true ∧
      hash (scalar .i32 1) ≠ hash (scalar .f64 0x3ff0000000000000)) ∧
    (equal (scalar .f64 0) (scalar .f64 0x8000000000000000) = some true ∧
      hash (scalar .f64 0) ≠ hash (scalar .f64 0x8000000000000000)) ∧
    (equal (scalar .f64 0x7ff8000000000000) (scalar .f64 0x3ff0000000000000) = some true ∧
      hash (scalar .f64 0x7ff8000000000000) ≠ hash (scalar .f64 0x3ff0000000000000)) := by decide +kernel

end Number
end Duck
