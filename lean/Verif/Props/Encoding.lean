import Verif.Spec.Encoding
import Mathlib.Tactic.IntervalCases
/-! Properties of encodings (C15) and byte order (C16). -/
namespace Duck
namespace Encoding

theorem small_bit {w : Nat} {x : BitVec w} {n : Nat} (h : x.toNat < 2 ^ n) {i : Nat} (hi : n ≤ i) : x.getLsbD i = false := by
  rw [BitVec.getLsbD]
  exact Nat.testBit_lt_two_pow (Nat.lt_of_lt_of_le h (Nat.pow_le_pow_right (by omega) hi))

theorem isMatrix_bit (e : BitVec 32) : isMatrix e = e.getLsbD 31 := by
  unfold isMatrix
  have : e &&& 0x80000000#32 = if e.getLsbD 31 then BitVec.twoPow 32 31 else 0#32 := by
    rw [← BitVec.and_twoPow]; rfl
  rw [this]
  cases e.getLsbD 31
  · rfl
  · decide

theorem isMatrix_encode (t c : BitVec 32) : isMatrix (encode t c) = false := by
  rw [isMatrix_bit]; unfold encode
  simp only [BitVec.getLsbD_or, BitVec.getLsbD_and]
  rw [show (0x7f000000#32).getLsbD 31 = false by decide, show (0x00ffffff#32).getLsbD 31 = false by decide]; simp

theorem isMatrix_encodeMatrix (t r c : BitVec 32) : isMatrix (encodeMatrix t r c) = true := by
  rw [isMatrix_bit]; unfold encodeMatrix
  simp only [BitVec.getLsbD_or, show (0x80000000#32).getLsbD 31 = true by decide, Bool.true_or]

/-- C15, vectors: type, count, rows and columns read back, for every type below 128 (26 exist) and count below 2^24. -/
theorem C15_vector (t c : BitVec 32) (ht : t.toNat < 128) (hc : c.toNat < 2 ^ 24) :
    getType (encode t c) = t ∧ getCount (encode t c) = c ∧ getRows (encode t c) = 1 ∧ getCols (encode t c) = c ∧
      isMatrix (encode t c) = false := by
  have hm := isMatrix_encode t c
  have hcount : encode t c &&& 0x00ffffff#32 = c := by
    apply BitVec.eq_of_getLsbD_eq
    intro i hi
    unfold encode
    simp only [BitVec.getLsbD_and, BitVec.getLsbD_or, BitVec.getLsbD_shiftLeft]
    by_cases h : 24 ≤ i
    · rw [small_bit hc h]
      have : (0x00ffffff#32).getLsbD i = false := by interval_cases i <;> decide
      rw [this]; simp
    · have : i < 24 := by omega
      interval_cases i <;> simp
  refine ⟨?_, ?_, ?_, ?_, hm⟩
  · apply BitVec.eq_of_getLsbD_eq
    intro i hi
    unfold getType encode
    simp only [BitVec.getLsbD_ushiftRight, BitVec.getLsbD_and, BitVec.getLsbD_or, BitVec.getLsbD_shiftLeft]
    by_cases h : 7 ≤ i
    · rw [small_bit (n := 7) ht h]
      have : (0x7f000000#32).getLsbD (24 + i) = false := by interval_cases i <;> decide
      rw [this]; simp
    · have : i < 7 := by omega
      interval_cases i <;> simp
  · unfold getCount; rw [hm]; exact hcount
  · unfold getRows; rw [hm]; rfl
  · unfold getCols; rw [hm]; exact hcount

/-- C15, matrices: type, rows, columns and the product as count read back, for rows and columns below 2^12. -/
theorem C15_matrix (t r c : BitVec 32) (ht : t.toNat < 128) (hr : r.toNat < 2 ^ 12) (hc : c.toNat < 2 ^ 12) :
    getType (encodeMatrix t r c) = t ∧ getRows (encodeMatrix t r c) = r ∧ getCols (encodeMatrix t r c) = c ∧
      (getCount (encodeMatrix t r c)).toNat = r.toNat * c.toNat ∧ isMatrix (encodeMatrix t r c) = true := by
  have hm := isMatrix_encodeMatrix t r c
  have hcols : encodeMatrix t r c &&& 0xfff#32 = c := by
    apply BitVec.eq_of_getLsbD_eq
    intro i hi
    unfold encodeMatrix
    simp only [BitVec.getLsbD_and, BitVec.getLsbD_or, BitVec.getLsbD_shiftLeft]
    by_cases h : 12 ≤ i
    · rw [small_bit hc h]
      have : (0xfff#32).getLsbD i = false := by interval_cases i <;> decide
      rw [this]; simp
    · have : i < 12 := by omega
      interval_cases i <;> simp
  have hrows : (encodeMatrix t r c >>> 12) &&& 0xfff#32 = r := by
    apply BitVec.eq_of_getLsbD_eq
    intro i hi
    unfold encodeMatrix
    simp only [BitVec.getLsbD_ushiftRight, BitVec.getLsbD_and, BitVec.getLsbD_or, BitVec.getLsbD_shiftLeft]
    by_cases h : 12 ≤ i
    · rw [small_bit hr h]
      have : (0xfff#32).getLsbD i = false := by interval_cases i <;> decide
      rw [this]; simp
    · have : i < 12 := by omega
      interval_cases i <;> simp
  refine ⟨?_, ?_, ?_, ?_, hm⟩
  · apply BitVec.eq_of_getLsbD_eq
    intro i hi
    unfold getType encodeMatrix
    simp only [BitVec.getLsbD_ushiftRight, BitVec.getLsbD_and, BitVec.getLsbD_or, BitVec.getLsbD_shiftLeft]
    by_cases h : 7 ≤ i
    · rw [small_bit (n := 7) ht h]
      have : (0x7f000000#32).getLsbD (24 + i) = false := by interval_cases i <;> decide
      rw [this]; simp
    · have : i < 7 := by omega
      interval_cases i <;> simp
  · unfold getRows; rw [hm]; exact hrows
  · unfold getCols; rw [hm]; exact hcols
  · unfold getCount; rw [hm]
    simp only [if_true]
    rw [hrows, hcols, BitVec.toNat_mul, Nat.mod_eq_of_lt]
    calc r.toNat * c.toNat < 2 ^ 12 * 2 ^ 12 := Nat.mul_lt_mul'' hr hc
      _ ≤ 2 ^ 32 := by decide

/-- C15: a vector encoding is never a matrix encoding. -/
theorem C15_no_collision (t c t' r' c' : BitVec 32) : encode t c ≠ encodeMatrix t' r' c' := by
  intro h
  have h1 := isMatrix_encode t c
  rw [h, isMatrix_encodeMatrix] at h1
  cases h1

/-- C15: distinct types or counts have distinct encodings. -/
theorem C15_injective (t c t' c' : BitVec 32) (ht : t.toNat < 128) (hc : c.toNat < 2 ^ 24) (ht' : t'.toNat < 128)
    (hc' : c'.toNat < 2 ^ 24) (h : encode t c = encode t' c') : t = t' ∧ c = c' := by
  have h1 := C15_vector t c ht hc
  have h2 := C15_vector t' c' ht' hc'
  rw [h] at h1
  exact ⟨h1.1.symm.trans h2.1, h1.2.1.symm.trans h2.2.1⟩

theorem typeInfo_le : ∀ n, typeInfo.getD n 0 ≤ 16 := by
  intro n
  by_cases h : n < 26
  · interval_cases n <;> decide
  · rw [List.getD_eq_getElem?_getD, List.getElem?_eq_none (by simp [typeInfo]; omega)]; decide

/-- C15: the size of an encoding is the size of its type times its count, without overflow. -/
theorem C15_size (e : BitVec 32) : (getSize e).toNat = typeGetSize (getType e) * (getCount e).toNat := by
  unfold getSize getTypeSize typeGetSize
  rw [BitVec.toNat_mul, BitVec.toNat_ofNat, BitVec.toNat_setWidth]
  have h1 := typeInfo_le (getType e).toNat
  have h0 := typeInfo_le 0
  have hc := (getCount e).isLt
  split
  · rw [Nat.mod_eq_of_lt (a := typeInfo.getD _ 0) (by omega), Nat.mod_eq_of_lt (a := (getCount e).toNat) (by omega), Nat.mod_eq_of_lt]
    calc typeInfo.getD (getType e).toNat 0 * (getCount e).toNat ≤ 16 * (getCount e).toNat := Nat.mul_le_mul_right _ h1
      _ < 2 ^ 64 := by omega
  · rw [Nat.mod_eq_of_lt (a := typeInfo.getD _ 0) (by omega), Nat.mod_eq_of_lt (a := (getCount e).toNat) (by omega), Nat.mod_eq_of_lt]
    calc typeInfo.getD 0 0 * (getCount e).toNat ≤ 16 * (getCount e).toNat := Nat.mul_le_mul_right _ h0
      _ < 2 ^ 64 := by omega

/-- C15: the whole table: each number type has its C size, and those are exactly the number types of non-zero size;
    the type computed from `sizeof` is the signed integer type of that size. -/
theorem C15_type_sizes :
    (∀ p ∈ numberSizes, typeGetSize (BitVec.ofNat 32 p.1) = p.2) ∧
    (∀ t : BitVec 32, 8 ≤ t.toNat → typeGetSize t ≠ 0 → ∃ p ∈ numberSizes, p.1 = t.toNat) ∧
    (∀ s ∈ [1, 2, 4, 8], typeGetSize (BitVec.ofNat 32 (integerType s)) = s) := by
  refine ⟨by decide, ?_, by decide⟩
  intro t ht hs
  by_cases h : t.toNat < 26
  · have e : t = BitVec.ofNat 32 t.toNat := by simp
    rw [e] at hs
    revert hs
    generalize t.toNat = n at ht h
    interval_cases n <;> decide
  · unfold typeGetSize maxTypes at hs
    rw [if_neg (by omega)] at hs
    exact absurd rfl hs

/-- C15: numbers are the integers and the reals, and nothing is both. -/
theorem C15_number_kinds (e : BitVec 32) : isNumber e = (isInteger e || isReal e) ∧ (isInteger e && isReal e) = false := by
  unfold isNumber isInteger isReal
  generalize (getType e).toNat = t
  generalize (getCount e).toNat = c
  constructor
  · rw [Bool.eq_iff_iff]; simp only [Bool.and_eq_true, Bool.or_eq_true, decide_eq_true_eq]; omega
  · rw [Bool.eq_false_iff]; intro h; simp only [Bool.and_eq_true, decide_eq_true_eq] at h; omega

example : getCount (encodeMatrix 24 3 4) = 12 ∧ getSize (encodeMatrix 24 3 4) = 48 ∧ (24#32).toNat < 128 := by decide

/-! ### Byte order -/

theorem swap16_eq (x : BitVec 16) : swapInt16 x = builtin16 x := by
  apply BitVec.eq_of_getLsbD_eq
  intro i hi
  unfold swapInt16 builtin16
  interval_cases i <;> (simp only [BitVec.getLsbD_cast, BitVec.getLsbD_append, BitVec.getLsbD_extractLsb']; simp)

theorem swap32_eq (x : BitVec 32) : swapInt32 x = builtin32 x := by
  apply BitVec.eq_of_getLsbD_eq
  intro i hi
  unfold swapInt32 builtin32
  interval_cases i <;> (simp only [BitVec.getLsbD_cast, BitVec.getLsbD_append, BitVec.getLsbD_extractLsb']; simp)

theorem builtin16_rev (x : BitVec 16) : BytesReversed 2 x (builtin16 x) := by
  intro k hk
  apply BitVec.eq_of_getLsbD_eq
  intro i hi
  unfold byte builtin16
  interval_cases k <;> interval_cases i <;> (simp only [BitVec.getLsbD_cast, BitVec.getLsbD_append, BitVec.getLsbD_extractLsb']; simp)

theorem builtin32_rev (x : BitVec 32) : BytesReversed 4 x (builtin32 x) := by
  intro k hk
  apply BitVec.eq_of_getLsbD_eq
  intro i hi
  unfold byte builtin32
  interval_cases k <;> interval_cases i <;> (simp only [BitVec.getLsbD_cast, BitVec.getLsbD_append, BitVec.getLsbD_extractLsb']; simp)

theorem builtin64_rev (x : BitVec 64) : BytesReversed 8 x (builtin64 x) := by
  intro k hk
  apply BitVec.eq_of_getLsbD_eq
  intro i hi
  unfold byte builtin64
  interval_cases k <;> interval_cases i <;> (simp only [BitVec.getLsbD_cast, BitVec.getLsbD_append, BitVec.getLsbD_extractLsb']; simp)

/-- Words of `n` bytes with equal bytes are equal. -/
theorem bytes_ext {w n : Nat} (hw : w = 8 * n) {x y : BitVec w} (h : ∀ k < n, byte x k = byte y k) : x = y := by
  apply BitVec.eq_of_getLsbD_eq
  intro i hi
  have := congrArg (fun b => BitVec.getLsbD b (i % 8)) (h (i / 8) (by omega))
  simp only [byte, BitVec.getLsbD_extractLsb'] at this
  rw [show 8 * (i / 8) + i % 8 = i by omega, decide_eq_true (by omega : i % 8 < 8)] at this
  simpa using this

theorem rev_rev {w n : Nat} (hw : w = 8 * n) {x y z : BitVec w} (h1 : BytesReversed n x y) (h2 : BytesReversed n y z) : z = x := by
  apply bytes_ext hw
  intro k hk
  rw [h2 k hk, h1 _ (by omega)]
  congr 1; omega

/-- C16, 16 bits: both implementations reverse the bytes and are their own inverse. -/
theorem C16_swap16 (x : BitVec 16) : BytesReversed 2 x (swapInt16 x) ∧ BytesReversed 2 x (builtin16 x) ∧
    swapInt16 (swapInt16 x) = x ∧ builtin16 (builtin16 x) = x := by
  refine ⟨by rw [swap16_eq]; exact builtin16_rev x, builtin16_rev x, ?_, rev_rev rfl (builtin16_rev x) (builtin16_rev _)⟩
  rw [swap16_eq, swap16_eq]; exact rev_rev rfl (builtin16_rev x) (builtin16_rev _)

/-- C16, 32 bits. -/
theorem C16_swap32 (x : BitVec 32) : BytesReversed 4 x (swapInt32 x) ∧ BytesReversed 4 x (builtin32 x) ∧
    swapInt32 (swapInt32 x) = x ∧ builtin32 (builtin32 x) = x := by
  refine ⟨by rw [swap32_eq]; exact builtin32_rev x, builtin32_rev x, ?_, rev_rev rfl (builtin32_rev x) (builtin32_rev _)⟩
  rw [swap32_eq, swap32_eq]; exact rev_rev rfl (builtin32_rev x) (builtin32_rev _)

/-- C16, 64 bits (partial): the compiler intrinsic reverses the bytes and is its own inverse.  Missing: the fallback
    implementation, which does not (`C16_swap64_fails`). -/
theorem C16_swap64_partial (x : BitVec 64) : BytesReversed 8 x (builtin64 x) ∧ builtin64 (builtin64 x) = x :=
  ⟨builtin64_rev x, rev_rev rfl (builtin64_rev x) (builtin64_rev _)⟩

/-- C16 fails of the fallback DKSwapInt64: it never moves anything to the upper half of the word, so no value whose
    lower half is not zero is swapped, and it is not injective. -/
theorem C16_swap64_fails : (∀ x, (swapInt64 x).toNat < 2 ^ 32) ∧ (∀ x : BitVec 64, x.setWidth 32 ≠ 0#32 → ¬ BytesReversed 8 x (swapInt64 x)) ∧
    swapInt64 1 = swapInt64 0x100000000 := by
  have hlt : ∀ x, (swapInt64 x).toNat < 2 ^ 32 := by
    intro x
    unfold swapInt64
    rw [BitVec.toNat_or, BitVec.toNat_setWidth, BitVec.toNat_setWidth]
    apply Nat.or_lt_two_pow
    · exact Nat.lt_of_le_of_lt (Nat.mod_le _ _) (BitVec.isLt _)
    · exact Nat.lt_of_le_of_lt (Nat.mod_le _ _) (BitVec.isLt _)
  refine ⟨hlt, ?_, by decide +kernel⟩
  intro x hx h
  apply hx
  apply bytes_ext (n := 4) rfl
  intro k hk
  have h1 := h (7 - k) (by omega)
  rw [show 8 - 1 - (7 - k) = k by omega] at h1
  have h2 : byte (swapInt64 x) (7 - k) = 0#8 := by
    apply BitVec.eq_of_getLsbD_eq
    intro i hi
    simp only [byte, BitVec.getLsbD_extractLsb', BitVec.getLsbD_zero]
    rw [small_bit (hlt x) (by omega)]; simp
  apply BitVec.eq_of_getLsbD_eq
  intro i hi
  have h3 := congrArg (fun b => BitVec.getLsbD b i) (h1.symm.trans h2)
  simp only [byte, BitVec.getLsbD_extractLsb', BitVec.getLsbD_setWidth, BitVec.getLsbD_zero] at h3 ⊢
  simp only [decide_eq_true hi, Bool.true_and] at h3
  rw [h3]; simp

/-- C16: after conversion to big (little) endian order the bytes lie in memory most (least) significant first, on either
    kind of host, and converting back gives the value. -/
theorem C16_host_order (x : BitVec 32) (h : Bool) :
    inMemory h (big32 h x) = [byte x 3, byte x 2, byte x 1, byte x 0] ∧
      inMemory h (little32 h x) = [byte x 0, byte x 1, byte x 2, byte x 3] ∧
      big32 h (big32 h x) = x ∧ little32 h (little32 h x) = x := by
  have hr := builtin32_rev x
  have h0 : byte (builtin32 x) 0 = byte x 3 := hr 0 (by omega)
  have h1 : byte (builtin32 x) 1 = byte x 2 := hr 1 (by omega)
  have h2 : byte (builtin32 x) 2 = byte x 1 := hr 2 (by omega)
  have h3 : byte (builtin32 x) 3 = byte x 0 := hr 3 (by omega)
  have hi := (C16_swap32 x).2.2.2
  cases h <;> simp [inMemory, big32, little32, h0, h1, h2, h3, hi]

example : swapInt32 0x01020304 = 0x04030201 ∧ builtin64 0x0102030405060708 = 0x0807060504030201 ∧
    swapInt64 0x0102030405060708 ≠ 0x0807060504030201 := by decide +kernel

end Encoding
end Duck
