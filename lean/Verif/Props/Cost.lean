import Verif.Lemmas.Cost
import Verif.Props.SharedReads
/-! C126: growing a container costs in proportion to what is put in, and reading a list in order costs the same for every object. -/
namespace Duck
namespace Cost
open Memory
variable {V P : Type}

/-- C126, arrays: whatever is inserted, appended, replaced and deleted, an array that was empty at first allocates in total less than
    eight times what has been put in, and 192 elements. -/
theorem C126_arrays (m : Mem) (esize : Nat) (es : List Edit) :
    2 * (allocated (arrRun m (Arr.init esize) es).1.trace - allocated m.trace) ≤ (15 * put es + 384) * esize := by
  obtain ⟨A, h1, h2, h3⟩ := arr_run (A0 := allocated m.trace) (A := 0) (N := 0) es (m := m) (a := Arr.init esize) rfl
    ⟨Nat.le_refl _, .inl ⟨rfl, rfl⟩⟩
  rw [h1, Nat.add_sub_cancel_left]
  rw [Nat.zero_add] at h2
  rcases h2.cap with ⟨_, rfl⟩ | ⟨M, _, _, hA, hM⟩
  · omega
  · rw [h3] at hA
    have : 2 * (6 * M) * esize ≤ (15 * put es + 384) * esize := Nat.mul_le_mul_right _ (by omega)
    have e : 2 * (6 * M) * esize = 2 * (6 * M * esize) := Nat.mul_assoc ..
    have hA' : A ≤ 6 * M * esize := hA
    omega

/-- C126, data and strings: the bytes allocated in total are less than nine times the bytes put in, and 448. -/
theorem C126_bytes (m : Mem) (es : List Edit) :
    4 * (allocated (bytesRun m Bytes.init es).1.trace - allocated m.trace) ≤ 35 * put es + 1792 := by
  obtain ⟨A, h1, h2⟩ := bytes_run (A0 := allocated m.trace) (A := 0) (N := 0) es (m := m) (a := Bytes.init) rfl
    ⟨Nat.le_refl _, .inl ⟨rfl, rfl⟩⟩
  rw [h1, Nat.add_sub_cancel_left]
  rw [Nat.zero_add] at h2
  rcases h2.cap with ⟨_, rfl⟩ | ⟨M, _, _, hA, hM⟩
  · omega
  · omega

/-- C126, hash tables: whatever is inserted and removed, the rows allocated in total are at most sixteen for each insertion. -/
theorem C126_tables (m : Mem) (rowSize : Nat) (ops : List TOp) {m' : Mem} {t : Table}
    (h : tableRun m (Table.init rowSize) ops = .ok (m', t)) :
    allocated m'.trace - allocated m.trace ≤ 16 * inserts ops * rowSize := by
  obtain ⟨B, h1, h2⟩ := table_run (A0 := allocated m.trace) (rs := rowSize) (B := 0) (k := 0) ops (t := Table.init rowSize) (m := m) rfl
    (by simp) (.inl ⟨rfl, rfl, rfl, rfl, rfl, rfl⟩) h
  rw [h1, Nat.add_sub_cancel_left, Nat.mul_comm]
  rw [Nat.zero_add] at h2
  refine Nat.mul_le_mul_right _ ?_
  rcases h2 with ⟨_, _, _, _, _, rfl⟩ | ⟨_, _, _, h⟩ <;> omega

/-- C126: an array for which room has been reserved is not moved and allocates nothing while its length stays within that room. -/
theorem C126_reserved (m : Mem) (esize cap : Nat) (es : List Edit) (h : Within cap 0 es) :
    let r := Arr.reserve m (Arr.init esize) cap
    allocated (arrRun r.1 r.2 es).1.trace = allocated r.1.trace ∧ (arrRun r.1 r.2 es).2.elements = r.2.elements := by
  simp only
  refine arr_within (cap := cap) es ?_ ?_
  · unfold Arr.reserve Arr.init
    simp only
    split
    · show (cap : Int) ≤ ((if cap < 32 then 32 else cap : Nat) : Int)
      split <;> omega
    · rename_i h; simp only at h ⊢; omega
  · have : (Arr.reserve m (Arr.init esize) cap).2.length = 0 := by
      unfold Arr.reserve; split <;> rfl
    rw [this]; exact h

/-- C126, data and strings made with a capacity: they are not moved while the length stays below the capacity.
    Missing: the length may not reach the capacity (`C126_reserved_fails`). -/
theorem C126_reserved_bytes_partial (m : Mem) (cap : Nat) (es : List Edit) (h : Within cap 0 es) :
    let r := Bytes.reserve m Bytes.init (cap + 1)
    allocated (bytesRun r.1 r.2 es).1.trace = allocated r.1.trace ∧ (bytesRun r.1 r.2 es).2.bytes = r.2.bytes := by
  simp only
  refine bytes_within (cap := cap) es ?_ ?_
  · unfold Bytes.reserve Bytes.init
    simp only
    rw [if_pos (by omega)]
    show (cap : Int) < ((if cap + 1 < 64 then 64 else cap + 1 : Nat) : Int)
    split <;> omega
  · have : (Bytes.reserve m Bytes.init (cap + 1)).2.length = 0 := by
      unfold Bytes.reserve; split <;> rfl
    rw [this]; exact h

/-- C126 fails for data and strings made with a capacity: filled exactly to the capacity, they are moved, though there is room. -/
theorem C126_reserved_fails (m : Mem) (cap : Nat) (h : 64 ≤ cap) :
    let r := Bytes.reserve m Bytes.init cap
    Within cap 0 [⟨0, 0, cap⟩] ∧ (bytesRun r.1 r.2 [⟨0, 0, cap⟩]).2.bytes ≠ r.2.bytes := by
  have e : Bytes.reserve m Bytes.init cap =
      (Bytes.terminate (m.malloc (cap + 4)).1 ⟨.block m.next, 0, cap⟩, ⟨.block m.next, 0, cap⟩) := by
    unfold Bytes.reserve Bytes.init
    simp only
    have hc : (if cap < 64 then 64 else cap) = cap := if_neg (by omega)
    rw [if_pos (by omega), hc]
    rfl
  simp only [e]
  refine ⟨⟨by show 0 + cap - 0 ≤ cap; omega, trivial⟩, ?_⟩
  simp only [bytesRun]
  rw [(bytes_replace _ _ _ _ _ (by omega)).2]
  unfold Bytes.resize
  rw [if_neg (by simp)]
  simp [Mem.malloc, Bytes.terminate, Mem.access]

/-- C126 fails: data or a string of 64 bytes or more that has been made of bytes is moved as a whole when one byte of it is overwritten. -/
theorem C126_overwrite_fails (m : Mem) (n : Nat) (h : 64 ≤ n) :
    let r := Bytes.replace m Bytes.init 0 0 n
    (Bytes.replace r.1 r.2 0 1 1).2.bytes ≠ r.2.bytes ∧
      allocated (Bytes.replace r.1 r.2 0 1 1).1.trace = allocated r.1.trace + (n + n / 4 + 4) := by
  have e : (Bytes.replace m Bytes.init 0 0 n).2 = ⟨.block m.next, n, n⟩ := by
    rw [(bytes_replace _ _ _ _ _ (by omega)).2]
    unfold Bytes.resize Bytes.init
    rw [if_neg (by simp)]
    have : Arr.grown 64 0 ((0 + n - 0 : Nat) : Int) = n := by
      unfold Arr.grown; simp only; split <;> split <;> omega
    simp only [this]
    simp [Mem.malloc]
  have hn : (Bytes.replace m Bytes.init 0 0 n).1.next = m.next + 1 := by
    rw [bytes_next _ _ _ _ _ (by omega)]
    unfold Bytes.resize Bytes.init
    rw [if_neg (by simp)]
    rfl
  simp only [e]
  obtain ⟨q1, q2⟩ := bytes_replace (Bytes.replace m Bytes.init 0 0 n).1 ⟨.block m.next, n, n⟩ 0 1 1 (by omega)
  rw [q1, q2]
  have hg : Arr.grown 64 (n : Int) ((n + 1 - 1 : Nat) : Int) = ((n + n / 4 : Nat) : Int) := by
    unfold Arr.grown; simp only; split <;> split <;> omega
  unfold Bytes.resize
  rw [if_neg (by simp)]
  simp only [hg, malloc_cost]
  refine ⟨?_, by omega⟩
  intro he
  have he : Ptr.block (Bytes.replace m Bytes.init 0 0 n).1.next = Ptr.block m.next := he
  rw [hn] at he
  injection he with he
  omega

/-- C126 fails for DKByteArraySetLength: enlarging by one byte each time allocates quadratically. -/
theorem C126_set_length_fails (m : Mem) (n k : Nat) (hn : 64 ≤ n) :
    2 * allocated (stretch m ⟨.block 0, n, n⟩ k).1.trace ≥ 2 * allocated m.trace + k * k := (stretch_spec m n hn k).choose_spec.2.2

/-- C126, linked lists: after the object at `c` has been read, reading the object at `i` takes at most seven steps more than there are
    objects between them, and at most seven more than half the length of the list. -/
theorem C126_list {l : LList.LinkedList V P} {xs : List V} (hl : Readers.Created l xs) (c i : Nat) (hc : c < xs.length)
    (hi : i < xs.length) :
    let r := Readers.alone l (l.count.toNat + 8) (Readers.cursorOf l, .enter (c : Int))
    Readers.result (Readers.alone l (7 + min ((i : Int) - c).natAbs (xs.length / 2)) (r.1, .enter (i : Int))).2 = xs[i]? := by
  obtain ⟨as, ys, hk, rfl, hlen, hcur⟩ := Readers.created hl
  rw [← hlen] at hc hi ⊢
  have hne : as ≠ [] := by rintro rfl; simp at hc
  obtain ⟨x, _, h1⟩ := Readers.alone_get hk (c := as.length - 1) (i := c) (by omega) hc
  rw [hcur hne, show (as.length - 1 : Int) = ((as.length - 1 : Nat) : Int) by omega]
  simp only [h1]
  obtain ⟨y, hy, h2⟩ := Readers.alone_walk hk hc hi (N := 7 + min ((i : Int) - c).natAbs (as.length / 2)) (by split <;> omega)
  rw [h2]
  simp [Readers.result, hy]

/-! ### Instances -/

/-- Memory of the C library. -/
def exMem : Mem := ⟨false, false, 0, []⟩

-- a hundred appends allocate arrays of 32, 40, 50, 62, 77, 96 and 120 elements
example : allocated (arrRun exMem (Arr.init 8) (List.replicate 100 ⟨0, 0, 1⟩)).1.trace = (32 + 40 + 50 + 62 + 77 + 96 + 120) * 8 ∧
    put (List.replicate 100 ⟨0, 0, 1⟩) = 100 := by decide +kernel

example : allocated (bytesRun exMem Bytes.init (List.replicate 100 ⟨0, 0, 1⟩)).1.trace = 68 + 84 + 104 + 129 ∧
    put (List.replicate 100 ⟨0, 0, 1⟩) = 100 := by decide +kernel

-- thirty insertions build tables of 11, 17, 25, 61 and 127 rows
example : ∃ r, tableRun exMem (Table.init 16) (List.replicate 30 (.insert .empty)) = .ok r ∧
    allocated r.1.trace = (11 + 17 + 25 + 61 + 127) * 16 ∧ inserts (List.replicate 30 (.insert .empty)) = 30 :=
  ⟨_, rfl, by decide +kernel, by decide +kernel⟩

-- insertions and removals in turn
example : ∃ r, tableRun exMem (Table.init 16) [.insert .empty, .insert .empty, .remove true, .insert .deleted, .removeAll, .insert .empty] = .ok r :=
  ⟨_, rfl⟩

example : Within 100 0 [⟨0, 0, 90⟩, ⟨10, 30, 20⟩, ⟨80, 0, 20⟩] := ⟨by decide, by decide, by decide, trivial⟩

example : Readers.Created Readers.exList [10, 20, 30] := Readers.exList_created

end Cost
end Duck
