import Verif.Spec.Cost
import Verif.Lemmas.SharedReads
/-! What each operation allocates. -/
namespace Duck
namespace Cost
open Memory

theorem allocated_append (a b : List Event) : allocated (a ++ b) = allocated a + allocated b := by simp [allocated]

theorem malloc_cost (m : Mem) (n : Nat) : allocated (m.malloc n).1.trace = allocated m.trace + n := by
  simp only [Mem.malloc, allocated_append]; rfl

theorem access_cost (m : Mem) (p : Option Ptr) (n : Nat) : allocated (m.access p n).trace = allocated m.trace := by
  simp only [Mem.access, allocated_append]; rfl

theorem accessIf_cost (m : Mem) (c : Bool) (p : Option Ptr) (n : Nat) : allocated (m.accessIf c p n).trace = allocated m.trace := by
  unfold Mem.accessIf; split
  · exact access_cost ..
  · rfl

theorem free_cost (m : Mem) (p : Option Ptr) : allocated (m.free p).trace = allocated m.trace := by
  cases p with
  | none => rfl
  | some p => simp only [Mem.free, allocated_append]; rfl

/-! ### Arrays -/

/-- A replacement allocates what ResizeArray allocates. -/
theorem arr_replace (m : Mem) (a : Arr) (loc len n : Nat) (h : ¬(len = 0 ∧ n = 0)) :
    allocated (Arr.replace m a loc len n).1.trace = allocated (Arr.resize m a (a.length + n - len)).1.trace ∧
    (Arr.replace m a loc len n).2 =
      { a with elements := (Arr.resize m a (a.length + n - len)).2.1, length := a.length + n - len,
               maxLength := (Arr.resize m a (a.length + n - len)).2.2 } := by
  unfold Arr.replace
  rw [if_neg h]
  refine ⟨?_, rfl⟩
  simp only [accessIf_cost]
  cases a.elements with
  | none => rfl
  | some p =>
    simp only
    split
    · simp only [free_cost, accessIf_cost]
    · simp only [accessIf_cost]

theorem arr_nothing (m : Mem) (a : Arr) (loc len n : Nat) (h : len = 0 ∧ n = 0) : Arr.replace m a loc len n = (m, a) := by
  unfold Arr.replace; rw [if_pos h]

/-- What is known of an array into which `N` elements have been put. -/
structure ArrInv (A N : Nat) (a : Arr) : Prop where
  length : a.length ≤ N
  cap : (a.maxLength = 0 ∧ A = 0) ∨ ∃ M : Nat, a.maxLength = M ∧ 32 ≤ M ∧ A ≤ 6 * M * a.esize ∧ (M = 32 ∨ 4 * M ≤ 5 * N)

theorem grown_cast (min old requested : Nat) : ∃ g : Nat, Arr.grown min old requested = g ∧ min ≤ g ∧ requested ≤ g ∧
    old + old / 4 ≤ g ∧ (g = min ∨ g = requested ∨ g = old + old / 4) := by
  refine ⟨(Arr.grown min old requested).toNat, ?_⟩
  unfold Arr.grown
  simp only
  split <;> split <;> omega

theorem arr_step {m : Mem} {A0 A N : Nat} {a : Arr} (hm : allocated m.trace = A0 + A) (h : ArrInv A N a) (loc len n : Nat) :
    ∃ A', allocated (Arr.replace m a loc len n).1.trace = A0 + A' ∧ ArrInv A' (N + n) (Arr.replace m a loc len n).2 ∧
      (Arr.replace m a loc len n).2.esize = a.esize := by
  by_cases h0 : len = 0 ∧ n = 0
  · rw [arr_nothing _ _ _ _ _ h0]
    refine ⟨A, hm, ⟨Nat.le_trans h.length (Nat.le_add_right ..), ?_⟩, rfl⟩
    rcases h.cap with h | ⟨M, h1, h2, h3, h4⟩
    · exact .inl h
    · exact .inr ⟨M, h1, h2, h3, by omega⟩
  · obtain ⟨e1, e2⟩ := arr_replace m a loc len n h0
    rw [e1, e2]
    have hl := h.length
    unfold Arr.resize
    split
    · refine ⟨A, hm, ⟨by show a.length + n - len ≤ N + n; omega, ?_⟩, rfl⟩
      rcases h.cap with h | ⟨M, h1, h2, h3, h4⟩
      · exact .inl h
      · exact .inr ⟨M, h1, h2, h3, by omega⟩
    · rename_i hlt
      simp only [malloc_cost]
      rcases h.cap with ⟨h1, h2⟩ | ⟨M, h1, h2, h3, h4⟩
      · obtain ⟨g, g1, g2, g3, _, g4⟩ := grown_cast 32 0 (a.length + n - len)
        have hg : Arr.grown 32 a.maxLength ((a.length + n - len : Nat) : Int) = g := by rw [h1]; exact g1
        refine ⟨g * a.esize, by rw [hm, h2, hg]; simp, ⟨by show a.length + n - len ≤ N + n; omega, .inr ⟨g, hg, g2, ?_, ?_⟩⟩, trivial⟩
        · exact Nat.mul_le_mul_right _ (by omega)
        · rw [h1] at hlt; omega
      · obtain ⟨g, g1, g2, g3, g5, g4⟩ := grown_cast 32 M (a.length + n - len)
        have hg : Arr.grown 32 a.maxLength ((a.length + n - len : Nat) : Int) = g := by rw [h1]; exact g1
        refine ⟨A + g * a.esize, by rw [hm, hg]; simp [Nat.add_assoc], ⟨by show a.length + n - len ≤ N + n; omega, .inr ⟨g, hg, g2, ?_, ?_⟩⟩, trivial⟩
        · have : (6 * M + g) * a.esize ≤ 6 * g * a.esize := Nat.mul_le_mul_right _ (by omega)
          rw [Nat.add_mul] at this
          show A + g * a.esize ≤ 6 * g * a.esize
          omega
        · rw [h1] at hlt; omega

theorem arr_run {A0 : Nat} : ∀ (es : List Edit) {m : Mem} {A N : Nat} {a : Arr}, allocated m.trace = A0 + A → ArrInv A N a →
    ∃ A', allocated (arrRun m a es).1.trace = A0 + A' ∧ ArrInv A' (N + put es) (arrRun m a es).2 ∧ (arrRun m a es).2.esize = a.esize
  | [], m, A, N, a, hm, h => ⟨A, hm, h, rfl⟩
  | e :: es, m, A, N, a, hm, h => by
    obtain ⟨A1, h1, h2, h3⟩ := arr_step hm h e.loc e.len e.n
    obtain ⟨A2, k1, k2, k3⟩ := arr_run es h1 h2
    refine ⟨A2, k1, ?_, k3.trans h3⟩
    have : N + put (e :: es) = N + e.n + put es := by simp [put]; omega
    rw [this]; exact k2

/-- An array with room enough is not moved. -/
theorem arr_within {cap : Nat} : ∀ (es : List Edit) {m : Mem} {a : Arr}, (cap : Int) ≤ a.maxLength → Within cap a.length es →
    allocated (arrRun m a es).1.trace = allocated m.trace ∧ (arrRun m a es).2.elements = a.elements
  | [], m, a, _, _ => ⟨rfl, rfl⟩
  | e :: es, m, a, hc, hw => by
    show allocated (arrRun (Arr.replace m a e.loc e.len e.n).1 (Arr.replace m a e.loc e.len e.n).2 es).1.trace = _ ∧
      (arrRun (Arr.replace m a e.loc e.len e.n).1 (Arr.replace m a e.loc e.len e.n).2 es).2.elements = _
    by_cases h0 : e.len = 0 ∧ e.n = 0
    · rw [arr_nothing _ _ _ _ _ h0]
      refine arr_within es hc ?_
      have : a.length + e.n - e.len = a.length := by omega
      rw [← this]; exact hw.2
    · obtain ⟨e1, e2⟩ := arr_replace m a e.loc e.len e.n h0
      have hr : Arr.resize m a (a.length + e.n - e.len) = (m, a.elements, a.maxLength) := by
        unfold Arr.resize; rw [if_pos (by have := hw.1; omega)]
      rw [hr] at e1 e2
      have := arr_within (m := (Arr.replace m a e.loc e.len e.n).1) es (a := (Arr.replace m a e.loc e.len e.n).2)
        (by rw [e2]; exact hc) (by rw [e2]; exact hw.2)
      rw [this.1, this.2, e1, e2]
      exact ⟨rfl, rfl⟩

/-! ### Bytes -/

theorem terminate_cost (m : Mem) (a : Bytes) : allocated (Bytes.terminate m a).trace = allocated m.trace := access_cost ..

theorem bytes_replace (m : Mem) (a : Bytes) (loc len n : Nat) (h : ¬(len = 0 ∧ n = 0)) :
    allocated (Bytes.replace m a loc len n).1.trace = allocated (Bytes.resize m a (a.length + n - len)).1.trace ∧
    (Bytes.replace m a loc len n).2 =
      ⟨(Bytes.resize m a (a.length + n - len)).2.1, a.length + n - len, (Bytes.resize m a (a.length + n - len)).2.2⟩ := by
  unfold Bytes.replace
  rw [if_neg h]
  refine ⟨?_, rfl⟩
  simp only [terminate_cost, accessIf_cost]
  split
  · split
    · simp only [free_cost, accessIf_cost]
    · simp only [accessIf_cost]
  · rfl

theorem accessIf_next (m : Mem) (c : Bool) (p : Option Ptr) (n : Nat) : (m.accessIf c p n).next = m.next := by
  unfold Mem.accessIf; split <;> rfl

theorem free_next (m : Mem) (p : Option Ptr) : (m.free p).next = m.next := by cases p <;> rfl

theorem bytes_next (m : Mem) (a : Bytes) (loc len n : Nat) (h : ¬(len = 0 ∧ n = 0)) :
    (Bytes.replace m a loc len n).1.next = (Bytes.resize m a (a.length + n - len)).1.next := by
  unfold Bytes.replace
  rw [if_neg h]
  show (Mem.access _ _ _).next = _
  show (Mem.accessIf _ _ _ _).next = _
  rw [accessIf_next]
  split
  · split
    · simp only [free_next, accessIf_next]
    · simp only [accessIf_next]
  · rfl

theorem bytes_nothing (m : Mem) (a : Bytes) (loc len n : Nat) (h : len = 0 ∧ n = 0) : Bytes.replace m a loc len n = (m, a) := by
  unfold Bytes.replace; rw [if_pos h]

/-- What is known of bytes into which `N` bytes have been put. -/
structure BytesInv (A N : Nat) (a : Bytes) : Prop where
  length : a.length ≤ N
  cap : (a.maxLength = 0 ∧ A = 0) ∨ ∃ M : Nat, a.maxLength = M ∧ 64 ≤ M ∧ A ≤ 7 * M ∧ (M = 64 ∨ 4 * M ≤ 5 * N)

theorem bytes_step {m : Mem} {A0 A N : Nat} {a : Bytes} (hm : allocated m.trace = A0 + A) (h : BytesInv A N a) (loc len n : Nat) :
    ∃ A', allocated (Bytes.replace m a loc len n).1.trace = A0 + A' ∧ BytesInv A' (N + n) (Bytes.replace m a loc len n).2 := by
  by_cases h0 : len = 0 ∧ n = 0
  · rw [bytes_nothing _ _ _ _ _ h0]
    refine ⟨A, hm, ⟨Nat.le_trans h.length (Nat.le_add_right ..), ?_⟩⟩
    rcases h.cap with h | ⟨M, h1, h2, h3, h4⟩
    · exact .inl h
    · exact .inr ⟨M, h1, h2, h3, by omega⟩
  · obtain ⟨e1, e2⟩ := bytes_replace m a loc len n h0
    rw [e1, e2]
    have hl := h.length
    unfold Bytes.resize
    split
    · refine ⟨A, hm, ⟨by show a.length + n - len ≤ N + n; omega, ?_⟩⟩
      rcases h.cap with h | ⟨M, h1, h2, h3, h4⟩
      · exact .inl h
      · exact .inr ⟨M, h1, h2, h3, by omega⟩
    · rename_i hlt
      simp only [malloc_cost]
      rcases h.cap with ⟨h1, h2⟩ | ⟨M, h1, h2, h3, h4⟩
      · obtain ⟨g, g1, g2, g3, _, g4⟩ := grown_cast 64 0 (a.length + n - len)
        have hg : Arr.grown 64 a.maxLength ((a.length + n - len : Nat) : Int) = g := by rw [h1]; exact g1
        refine ⟨g + 4, by rw [hm, h2, hg]; simp, ⟨by show a.length + n - len ≤ N + n; omega, .inr ⟨g, hg, g2, by omega, by omega⟩⟩⟩
      · obtain ⟨g, g1, g2, g3, g5, g4⟩ := grown_cast 64 M (a.length + n - len)
        have hg : Arr.grown 64 a.maxLength ((a.length + n - len : Nat) : Int) = g := by rw [h1]; exact g1
        rw [h1] at hlt
        refine ⟨A + (g + 4), by rw [hm, hg]; simp [Nat.add_assoc], ⟨by show a.length + n - len ≤ N + n; omega,
          .inr ⟨g, hg, g2, by omega, by omega⟩⟩⟩

theorem bytes_run {A0 : Nat} : ∀ (es : List Edit) {m : Mem} {A N : Nat} {a : Bytes}, allocated m.trace = A0 + A → BytesInv A N a →
    ∃ A', allocated (bytesRun m a es).1.trace = A0 + A' ∧ BytesInv A' (N + put es) (bytesRun m a es).2
  | [], m, A, N, a, hm, h => ⟨A, hm, h⟩
  | e :: es, m, A, N, a, hm, h => by
    obtain ⟨A1, h1, h2⟩ := bytes_step hm h e.loc e.len e.n
    obtain ⟨A2, k1, k2⟩ := bytes_run es h1 h2
    refine ⟨A2, k1, ?_⟩
    have : N + put (e :: es) = N + e.n + put es := by simp [put]; omega
    rw [this]; exact k2

/-- Bytes with room to spare are not moved. -/
theorem bytes_within {cap : Nat} : ∀ (es : List Edit) {m : Mem} {a : Bytes}, (cap : Int) < a.maxLength → Within cap a.length es →
    allocated (bytesRun m a es).1.trace = allocated m.trace ∧ (bytesRun m a es).2.bytes = a.bytes
  | [], m, a, _, _ => ⟨rfl, rfl⟩
  | e :: es, m, a, hc, hw => by
    show allocated (bytesRun (Bytes.replace m a e.loc e.len e.n).1 (Bytes.replace m a e.loc e.len e.n).2 es).1.trace = _ ∧
      (bytesRun (Bytes.replace m a e.loc e.len e.n).1 (Bytes.replace m a e.loc e.len e.n).2 es).2.bytes = _
    by_cases h0 : e.len = 0 ∧ e.n = 0
    · rw [bytes_nothing _ _ _ _ _ h0]
      refine bytes_within es hc ?_
      have : a.length + e.n - e.len = a.length := by omega
      rw [← this]; exact hw.2
    · obtain ⟨e1, e2⟩ := bytes_replace m a e.loc e.len e.n h0
      have hr : Bytes.resize m a (a.length + e.n - e.len) = (m, a.bytes, a.maxLength) := by
        unfold Bytes.resize; rw [if_pos (by have := hw.1; omega)]
      rw [hr] at e1 e2
      have := bytes_within (m := (Bytes.replace m a e.loc e.len e.n).1) es (a := (Bytes.replace m a e.loc e.len e.n).2)
        (by rw [e2]; exact hc) (by rw [e2]; exact hw.2)
      rw [this.1, this.2, e1, e2]
      exact ⟨rfl, rfl⟩

/-- Setting the length again and again. -/
theorem stretch_spec (m : Mem) (n : Nat) (hn : 64 ≤ n) : ∀ k, ∃ p, p ≠ Ptr.static ∧ (stretch m ⟨.block 0, n, n⟩ k).2 = ⟨p, n + k, (n + k : Nat)⟩ ∧
    2 * allocated (stretch m ⟨.block 0, n, n⟩ k).1.trace ≥ 2 * allocated m.trace + k * k
  | 0 => ⟨_, by simp, rfl, by simp [stretch]⟩
  | k + 1 => by
    obtain ⟨p, h1, h2, h3⟩ := stretch_spec m n hn k
    simp only [stretch, h2]
    unfold Bytes.setLength Bytes.reserve
    simp only
    have hc : (if n + k + 1 < 64 then 64 else n + k + 1) = n + k + 1 := if_neg (by omega)
    have ha : Bytes.allocated ⟨p, n + k, (n + k : Nat)⟩ = true := by
      simp only [Bytes.allocated, ne_eq, decide_eq_true_eq]; exact ⟨h1, by omega⟩
    rw [if_pos (by omega), hc, ha]
    simp only [if_true]
    refine ⟨_, ?_, rfl, ?_⟩
    · simp [Mem.malloc]
    · simp only [terminate_cost, free_cost, accessIf_cost, malloc_cost]
      have : (k + 1) * (k + 1) = k * k + 2 * k + 1 := by
        rw [Nat.add_mul, Nat.mul_add]; omega
      omega

/-! ### Hash tables -/

theorem visit_cost (m : Mem) (t : Table) : allocated (Table.visit m t).trace = allocated m.trace := accessIf_cost ..

theorem reinsert_cost (old : Option Ptr) (upto : Nat) : ∀ (k : Nat) (m : Mem) (t : Table) {m' t'},
    Table.reinsert old upto k m t = .ok (m', t') →
    allocated m'.trace = allocated m.trace ∧ t' = { t with active := t.active + k }
  | 0, m, t, m', t', h => by cases h; exact ⟨rfl, rfl⟩
  | k + 1, m, t, m', t', h => by
    simp only [Table.reinsert] at h
    split at h
    · obtain ⟨h1, h2⟩ := reinsert_cost old upto k _ _ h
      refine ⟨by rw [h1, visit_cost, access_cost], ?_⟩
      rw [h2]
      simp only [Table.mk.injEq]
      refine ⟨trivial, trivial, trivial, trivial, by omega, trivial⟩
    · cases h

/-- The largest number of rows in use right after a table of these dimensions has been built. -/
def base (s : Nat × Nat) : Nat := Nat.max (s.2 / 2) (((HTable.sizes.filter fun q => q.1 < s.1).map (·.2)).foldl Nat.max 0)

/-- The sizes of the whole table of sizes grow, and not too fast. -/
theorem sizes_good : ∀ s ∈ HTable.sizes, s.1 ≤ 16 * (s.2 - base s) ∧ 0 < s.2 ∧ base s ≤ s.2 ∧
    ∀ s', HTable.nextSize s.1 = some s' → s' ∈ HTable.sizes ∧ s'.1 ≤ 16 * (s.2 - base s) ∧ s.2 ≤ base s' := by
  have h : (HTable.sizes.all fun s => decide (s.1 ≤ 16 * (s.2 - base s)) && decide (0 < s.2) && decide (base s ≤ s.2) &&
    match HTable.nextSize s.1 with
    | none => true
    | some s' => decide (s' ∈ HTable.sizes) && decide (s'.1 ≤ 16 * (s.2 - base s)) && decide (s.2 ≤ base s')) = true := by
    decide +kernel
  intro s hs
  have := List.all_eq_true.mp h s hs
  simp only [Bool.and_eq_true, decide_eq_true_eq] at this
  refine ⟨this.1.1.1, this.1.1.2, this.1.2, fun s' h' => ?_⟩
  have h2 := this.2
  rw [h'] at h2
  simp only [Bool.and_eq_true, decide_eq_true_eq] at h2
  exact ⟨h2.1.1, h2.1.2, h2.2⟩

/-- What is known of a table after `k` insertions, with `B` rows allocated in total. -/
def TableInv (B k : Nat) (t : Table) : Prop :=
  (t.rows = none ∧ t.rowCount = 0 ∧ t.maxActive = 0 ∧ t.active = 0 ∧ t.deleted = 0 ∧ B = 0) ∨
  (t.rows ≠ none ∧ (t.rowCount, t.maxActive) ∈ HTable.sizes ∧ t.active + t.deleted < t.maxActive ∧
    B + 16 * (t.active + t.deleted - base (t.rowCount, t.maxActive)) ≤ 16 * k)

/-- ResizeAndRehash after an insertion. -/
theorem resize_step {m : Mem} {t : Table} {A0 B k : Nat} (hm : allocated m.trace = A0 + t.rowSize * B)
    (h1 : t.rows ≠ none) (h2 : (t.rowCount, t.maxActive) ∈ HTable.sizes) (h3 : t.active + t.deleted ≤ t.maxActive)
    (h4 : B + 16 * (t.active + t.deleted - base (t.rowCount, t.maxActive)) ≤ 16 * k) {m' t'} (h : Table.resize m t = .ok (m', t')) :
    ∃ B', allocated m'.trace = A0 + t.rowSize * B' ∧ TableInv B' k t' ∧ t'.rowSize = t.rowSize := by
  unfold Table.resize at h
  split at h
  · cases h; exact ⟨B, hm, .inr ⟨h1, h2, by assumption, h4⟩, rfl⟩
  · rename_i hfull
    obtain ⟨s1, s2, s3, s4⟩ := sizes_good _ h2
    have hrow : t.rowCount ≠ 0 := by
      intro e
      have : ∀ s ∈ HTable.sizes, s.1 ≠ 0 := by decide +kernel
      exact this _ h2 e
    generalize hsz : (if t.rowCount = 0 ∨ t.active > t.deleted then HTable.nextSize t.rowCount else some (t.rowCount, t.maxActive)) = sz at h
    cases sz with
    | none => cases h
    | some s =>
      -- the new dimensions
      have hs : s ∈ HTable.sizes ∧ s.1 ≤ 16 * (t.maxActive - base (t.rowCount, t.maxActive)) ∧ t.active ≤ base s := by
        split at hsz
        · obtain ⟨q1, q2, q3⟩ := s4 s hsz
          exact ⟨q1, q2, by simp only at q3; omega⟩
        · cases hsz
          refine ⟨h2, s1, ?_⟩
          have : t.maxActive / 2 ≤ base (t.rowCount, t.maxActive) := Nat.le_max_left ..
          omega
      obtain ⟨q1, q2, q3⟩ := hs
      simp only at h
      cases hrows : t.rows with
      | none => exact absurd hrows h1
      | some p =>
        rw [hrows] at h
        simp only at h
        generalize hre : Table.reinsert (some p) (t.rowSize * t.rowCount) t.active
          (Table.visit (Table.visit (m.malloc (t.rowSize * s.1)).1 ⟨some (m.malloc (t.rowSize * s.1)).2, t.rowSize, s.1, s.2, 0, 0⟩)
            t) ⟨some (m.malloc (t.rowSize * s.1)).2, t.rowSize, s.1, s.2, 0, 0⟩ = r at h
        cases r with
        | error e => cases h
        | ok r =>
          cases h
          obtain ⟨c1, c2⟩ := reinsert_cost _ _ _ _ _ (m' := r.1) (t' := r.2) hre
          have hb : B + 16 * (t.maxActive - base (t.rowCount, t.maxActive)) ≤ 16 * k := by
            have : t.active + t.deleted = t.maxActive := by omega
            rw [this] at h4; exact h4
          refine ⟨B + s.1, ?_, .inr ?_, by rw [c2]⟩
          · rw [free_cost, c1, visit_cost, visit_cost, malloc_cost, hm, Nat.mul_add, Nat.add_assoc]
          · rw [c2]
            refine ⟨by simp, q1, ?_, ?_⟩
            · show 0 + t.active + 0 < s.2
              have := (sizes_good s q1).1
              have h5 : s.1 ≠ 0 := by
                intro e
                have : ∀ s ∈ HTable.sizes, s.1 ≠ 0 := by decide +kernel
                exact this _ q1 e
              omega
            · show B + s.1 + 16 * (0 + t.active + 0 - base (s.1, s.2)) ≤ 16 * k
              have : base (s.1, s.2) = base s := rfl
              omega

theorem insert_step {m : Mem} {t : Table} {A0 B k : Nat} (hm : allocated m.trace = A0 + t.rowSize * B) (h : TableInv B k t)
    (o : Table.Outcome) {m' t'} (hr : Table.insert m t o = .ok (m', t')) :
    ∃ B', allocated m'.trace = A0 + t.rowSize * B' ∧ TableInv B' (k + 1) t' ∧ t'.rowSize = t.rowSize := by
  -- a table that has rows
  have main : ∀ {m : Mem} {u : Table} {B : Nat}, u.rowSize = t.rowSize → allocated m.trace = A0 + t.rowSize * B → u.rows ≠ none →
      (u.rowCount, u.maxActive) ∈ HTable.sizes → u.active + u.deleted < u.maxActive →
      B + 16 * (u.active + u.deleted - base (u.rowCount, u.maxActive)) ≤ 16 * (k + 1) →
      (o = .empty → B + 16 * (u.active + u.deleted + 1 - base (u.rowCount, u.maxActive)) ≤ 16 * (k + 1)) →
      (o = .deleted → B + 16 * (u.active + u.deleted + 1 - base (u.rowCount, u.maxActive)) ≤ 16 * (k + 1)) →
      (match o with
        | .stays => Except.ok (m.access u.rows (u.rowSize * u.rowCount), u)
        | .empty => Table.resize (m.access u.rows (u.rowSize * u.rowCount)) { u with active := u.active + 1 }
        | .deleted => Table.resize (m.access u.rows (u.rowSize * u.rowCount)) { u with active := u.active + 1, deleted := u.deleted - 1 }) = .ok (m', t') →
      ∃ B', allocated m'.trace = A0 + t.rowSize * B' ∧ TableInv B' (k + 1) t' ∧ t'.rowSize = t.rowSize := by
    intro m u B hu hm h1 h2 h3 h4 h5 h6 he
    cases o with
    | stays =>
      cases he
      exact ⟨B, by rw [access_cost, hm], .inr ⟨h1, h2, h3, h4⟩, hu⟩
    | empty =>
      have := resize_step (A0 := A0) (B := B) (k := k + 1) (t := { u with active := u.active + 1 })
        (by rw [access_cost, hm, ← hu]) h1 h2 (by show u.active + 1 + u.deleted ≤ u.maxActive; omega)
        (by have := h5 rfl
            show B + 16 * (u.active + 1 + u.deleted - base (u.rowCount, u.maxActive)) ≤ 16 * (k + 1)
            rw [show u.active + 1 + u.deleted = u.active + u.deleted + 1 by omega]; exact this) he
      simpa only [hu] using this
    | deleted =>
      have := resize_step (A0 := A0) (B := B) (k := k + 1) (t := { u with active := u.active + 1, deleted := u.deleted - 1 })
        (by rw [access_cost, hm, ← hu]) h1 h2 (by show u.active + 1 + (u.deleted - 1) ≤ u.maxActive; omega)
        (by have := h6 rfl
            show B + 16 * (u.active + 1 + (u.deleted - 1) - base (u.rowCount, u.maxActive)) ≤ 16 * (k + 1)
            omega) he
      simpa only [hu] using this
  unfold Table.insert at hr
  rcases h with ⟨h1, h2, h3, h4, h5, h6⟩ | ⟨h1, h2, h3, h4⟩
  · rw [if_pos h1] at hr
    have e : Table.resize m t = .ok (Table.visit (m.malloc (t.rowSize * 11)).1 ⟨some (m.malloc (t.rowSize * 11)).2, t.rowSize, 11, 5, 0, 0⟩,
        ⟨some (m.malloc (t.rowSize * 11)).2, t.rowSize, 11, 5, 0, 0⟩) := by
      unfold Table.resize
      rw [if_neg (by omega), if_pos (.inl h2), h1, h2]
      rfl
    rw [e] at hr
    refine main (u := ⟨some (m.malloc (t.rowSize * 11)).2, t.rowSize, 11, 5, 0, 0⟩) (B := 11) rfl ?_ (by simp)
      (show (11, 5) ∈ HTable.sizes by decide) (show 0 + 0 < 5 by decide) ?_ ?_ ?_ hr
    · rw [visit_cost, malloc_cost, hm, h6]; simp
    · show 11 + 16 * (0 + 0 - base (11, 5)) ≤ 16 * (k + 1); omega
    · intro _; show 11 + 16 * (0 + 0 + 1 - base (11, 5)) ≤ 16 * (k + 1)
      have : base (11, 5) = 2 := by decide +kernel
      omega
    · intro _; show 11 + 16 * (0 + 0 + 1 - base (11, 5)) ≤ 16 * (k + 1)
      have : base (11, 5) = 2 := by decide +kernel
      omega
  · rw [if_neg h1] at hr
    exact main (u := t) (B := B) rfl hm h1 h2 h3 (by omega) (fun _ => by omega) (fun _ => by omega) hr

theorem table_run {A0 rs : Nat} : ∀ (ops : List TOp) {m : Mem} {t : Table} {B k : Nat}, t.rowSize = rs → allocated m.trace = A0 + rs * B →
    TableInv B k t → ∀ {m' t'}, tableRun m t ops = .ok (m', t') →
    ∃ B', allocated m'.trace = A0 + rs * B' ∧ TableInv B' (k + inserts ops) t'
  | [], m, t, B, k, hs, hm, h, m', t', hr => by cases hr; exact ⟨B, hm, h⟩
  | .insert o :: ops, m, t, B, k, hs, hm, h, m', t', hr => by
    subst hs
    simp only [tableRun] at hr
    generalize hi : Table.insert m t o = r at hr
    cases r with
    | error e => cases hr
    | ok r =>
      obtain ⟨B1, h1, h2, h3⟩ := insert_step hm h o (m' := r.1) (t' := r.2) hi
      obtain ⟨B2, k1, k2⟩ := table_run ops h3 h1 h2 hr
      refine ⟨B2, k1, ?_⟩
      have : k + inserts (.insert o :: ops) = k + 1 + inserts ops := by simp only [inserts]; omega
      rw [this]; exact k2
  | .remove f :: ops, m, t, B, k, hs, hm, h, m', t', hr => by
    simp only [tableRun] at hr
    have key : allocated (Table.remove m t f).1.trace = allocated m.trace ∧ TableInv B k (Table.remove m t f).2 ∧
        (Table.remove m t f).2.rowSize = t.rowSize := by
      unfold Table.remove
      split
      · cases f with
        | false => exact ⟨access_cost .., h, rfl⟩
        | true =>
          refine ⟨access_cost .., ?_, rfl⟩
          rcases h with ⟨h1, h2, h3, h4, h5, h6⟩ | ⟨h1, h2, h3, h4⟩
          · rename_i hp; omega
          · rename_i hp
            refine .inr ⟨h1, h2, ?_, ?_⟩
            · show t.active - 1 + (t.deleted + 1) < t.maxActive; omega
            · show B + 16 * (t.active - 1 + (t.deleted + 1) - base (t.rowCount, t.maxActive)) ≤ 16 * k
              rw [show t.active - 1 + (t.deleted + 1) = t.active + t.deleted by omega]; exact h4
      · exact ⟨rfl, h, rfl⟩
    exact table_run ops (key.2.2.trans hs) (key.1.trans hm) key.2.1 hr
  | .removeAll :: ops, m, t, B, k, hs, hm, h, m', t', hr => by
    simp only [tableRun] at hr
    refine table_run (k := k) (B := B) ops (t := (Table.removeAll m t).2) hs (by rw [← hm]; exact visit_cost ..) ?_ hr
    rcases h with ⟨h1, h2, h3, h4, h5, h6⟩ | ⟨h1, h2, h3, h4⟩
    · exact .inl ⟨h1, h2, h3, rfl, rfl, h6⟩
    · refine .inr ⟨h1, h2, ?_, ?_⟩
      · show 0 + 0 < t.maxActive; omega
      · show B + 16 * (0 + 0 - base (t.rowCount, t.maxActive)) ≤ 16 * k; omega

end Cost
end Duck
