import Verif.Spec.Data
import Verif.Props.Number
/-! C32, C29 (all objects with value equality) and C60. -/
namespace Duck
namespace Data

open Spec (splice)

/-! ### C32 -/

theorem setCursor_eq (d : Obj) (c : Int) : setCursor d c = ⟨d.bytes, clamp c d.bytes.length⟩ := by
  unfold setCursor clamp
  split
  · congr 1; omega
  · split
    · congr 1; omega
    · congr 1; omega

theorem available_eq (d : Obj) (n : Nat) : available d n = min n (d.bytes.length - d.cursor) := by
  unfold available; split <;> omega

theorem inRange_iff {loc len : Int} {n : Nat} : inRange loc len n = true ↔ 0 ≤ loc ∧ 0 ≤ len ∧ loc + len ≤ n := by
  simp [inRange, and_assoc]

/-- The file a data object stands for. -/
def Obj.file (d : Obj) : File := ⟨d.bytes, d.cursor⟩

theorem step_file (d : Obj) (op : Op) (h : op.NotBeforeEnd) (hd : op.Defined d.cursor) :
    (step d op).map (fun r => (r.1.file, r.2)) = d.file.step op := by
  cases op with
  | seek o w =>
    cases w with
    | set => simp [step, seek, File.step, Obj.file, setCursor_eq]
    | cur =>
      have hc : ¬ 2 ^ 63 ≤ (d.cursor : Int) + o := by simp only [Op.Defined] at hd; omega
      simp only [step, if_neg hc]
      simp [seek, File.step, Obj.file, setCursor_eq]
    | «end» =>
      simp only [Op.NotBeforeEnd] at h
      simp only [step, seek, File.step, Obj.file, setCursor_eq, Option.map_some]
      congr 3
      unfold clamp; omega
  | tell => rfl
  | read size count =>
    have hm : size * count % 2 ^ 64 = size * count := Nat.mod_eq_of_lt (Nat.lt_trans h (by decide))
    have hlt : ¬ 2 ^ 63 ≤ size * count := Nat.not_le.mpr h
    simp only [step, hm, if_neg hlt, readBytes, File.step, Obj.file, setCursor_eq, available_eq]
    split
    · rfl
    · simp only [Option.map_some, clamp, File.at, List.length_take, List.length_drop]
      congr 1
      have e : (d.cursor : Int).toNat = d.cursor := by simp
      rw [e]
      have e2 : (List.drop (min d.cursor d.bytes.length) d.bytes).take (min (size * count) (d.bytes.length - min d.cursor d.bytes.length))
          = (List.drop (min d.cursor d.bytes.length) d.bytes).take (size * count) := by
        rw [List.take_eq_take_iff, List.length_drop]; omega
      rw [e2]
      congr 2
      omega
  | write b count =>
    simp only [step, write, File.step, Obj.file, setCursor_eq, available_eq, Option.map_some, clamp, File.at, splice]
    have e : (d.cursor : Int).toNat = d.cursor := by simp
    rw [e]
    have hd : List.drop (min d.cursor d.bytes.length + min b.length (d.bytes.length - min d.cursor d.bytes.length)) d.bytes
        = List.drop (min d.cursor d.bytes.length + b.length) d.bytes := by
      by_cases hb : b.length ≤ d.bytes.length - min d.cursor d.bytes.length
      · rw [Nat.min_eq_left hb]
      · rw [List.drop_of_length_le (by omega), List.drop_of_length_le (by omega)]
    rw [hd]
    congr 3
    simp only [List.length_append, List.length_take, List.length_drop]
    omega
  | setLength n =>
    simp only [step, setLength, File.step, Obj.file, splice, Option.map_some]
    split
    · rename_i h1
      rw [List.take_of_length_le (Nat.le_refl _), List.drop_of_length_le (by omega), List.take_of_length_le (by omega), List.append_nil]
    · split
      · rename_i h1 h2
        rw [List.drop_of_length_le (by omega), show n - d.bytes.length = 0 by omega]; simp
      · rw [List.take_of_length_le (by omega), show n - d.bytes.length = 0 by omega]; simp
  | increaseLength n =>
    simp [step, increaseLength, File.step, Obj.file, splice]
  | append bs =>
    simp [step, append, File.step, Obj.file, splice]
  | replace loc len bs =>
    have ho : ¬ rangeOverflows loc len := fun ho => absurd (hd ⟨ho.1, ho.2.1⟩) (Int.not_lt.mpr ho.2.2)
    simp only [step, if_neg ho, replace, File.step, Obj.file, splice, Option.map_some]
    by_cases h1 : 0 ≤ loc ∧ 0 ≤ len ∧ loc + len ≤ d.bytes.length
    · simp only [if_pos (inRange_iff.2 h1)]; exact (if_pos h1).symm
    · simp only [if_neg (mt inRange_iff.1 h1)]; exact (if_neg h1).symm
  | getBytes loc len =>
    have ho : ¬ rangeOverflows loc len := fun ho => absurd (hd ⟨ho.1, ho.2.1⟩) (Int.not_lt.mpr ho.2.2)
    simp only [step, if_neg ho, getBytes, File.step, Obj.file, Option.map_some]
    by_cases h1 : 0 ≤ loc ∧ 0 ≤ len ∧ loc + len ≤ d.bytes.length ∧ loc < d.bytes.length
    · have h2 : (inRange loc len d.bytes.length && decide (loc < d.bytes.length)) = true := by
        rw [inRange_iff.2 ⟨h1.1, h1.2.1, h1.2.2.1⟩, decide_eq_true h1.2.2.2]; rfl
      simp only [if_pos h2, List.length_take, List.length_drop]
      rw [show min len.toNat (d.bytes.length - loc.toNat) = len.toNat by omega]
      exact (if_pos h1).symm
    · have h2 : ¬ (inRange loc len d.bytes.length && decide (loc < d.bytes.length)) = true := by
        rw [Bool.and_eq_true, decide_eq_true_eq]
        intro h3
        have h4 := inRange_iff.1 h3.1
        exact h1 ⟨h4.1, h4.2.1, h4.2.2, h3.2⟩
      simp only [if_neg h2]; exact (if_neg h1).symm

/-- C32.  A call answers exactly if no sum or number of bytes it is about leaves 64 bits (and the elements of a read are not empty). -/
theorem C32_defined (d : Obj) (op : Op) : (step d op).isSome = true ↔ op.Defined d.cursor := by
  cases op with
  | seek o w =>
    cases w with
    | cur =>
      simp only [step, Op.Defined]
      split
      · simp; omega
      · simp; omega
    | set => simp [step, Op.Defined]
    | «end» => simp [step, Op.Defined]
  | read size count =>
    simp only [step, Op.Defined, readBytes]
    split
    · simp; omega
    · split
      · simp; omega
      · simp; omega
  | replace loc len bs =>
    simp only [step, Op.Defined]
    split
    · rename_i ho
      simp only [Option.isSome_none, Bool.false_eq_true, false_iff]
      exact fun hd => absurd (hd ⟨ho.1, ho.2.1⟩) (Int.not_lt.mpr ho.2.2)
    · rename_i ho
      simp only [Option.isSome_some, true_iff]
      exact fun h => Int.not_le.mp fun h2 => ho ⟨h.1, h.2, h2⟩
  | getBytes loc len =>
    simp only [step, Op.Defined]
    split
    · rename_i ho
      simp only [Option.isSome_none, Bool.false_eq_true, false_iff]
      exact fun hd => absurd (hd ⟨ho.1, ho.2.1⟩) (Int.not_lt.mpr ho.2.2)
    · rename_i ho
      simp only [Option.isSome_some, true_iff]
      exact fun h => Int.not_le.mp fun h2 => ho ⟨h.1, h.2, h2⟩
  | tell | write | setLength | increaseLength | append => simp [step, Op.Defined]

/-- C32.  Every history of stream calls and other mutations of a data object, from any content and position, whose calls answer
(`C32_defined`) has the results and leaves the content and position that it does on a file.  Missing: seeking backwards from the end and
reads of 2^63 bytes or more (refuted below). -/
theorem C32_file_partial (ops : List Op) (h : ∀ op ∈ ops, op.NotBeforeEnd) (d d' : Obj) (outs : List Out) (hr : run d ops = some (d', outs)) :
    File.run ⟨d.bytes, d.cursor⟩ ops = some (⟨d'.bytes, d'.cursor⟩, outs) := by
  induction ops generalizing d outs with
  | nil => cases hr; rfl
  | cons op ops ih =>
    simp only [run] at hr
    cases hs : step d op with
    | none => rw [hs] at hr; cases hr
    | some r =>
      rw [hs] at hr
      have hd : op.Defined d.cursor := (C32_defined d op).mp (by rw [hs]; rfl)
      have h1 := step_file d op (h op (by simp)) hd
      rw [hs] at h1
      cases hq : run r.1 ops with
      | none => rw [Option.bind_some, hq] at hr; cases hr
      | some q =>
        rw [Option.bind_some, hq] at hr
        cases hr
        simp only [File.run]
        change (d.file.step op).bind _ = _
        rw [← h1]
        simp only [Option.map_some, Option.bind_some]
        change Option.map _ (File.run ⟨r.1.bytes, r.1.cursor⟩ ops) = _
        rw [ih (fun o ho => h o (by simp [ho])) r.1 q.2 hq]
        rfl

example : run ⟨[1, 2, 3], 1⟩ [.write [9, 8, 7] 3, .seek (-2) .cur, .read 1 5, .setLength 1, .read 1 1, .tell, .write [5] 1] =
    some (⟨[1, 5], 2⟩, [.count 3, .none, .bytes [8, 7] 2, .none, .bytes [] 0, .pos 1, .count 1]) := by decide

/-- C32.  Writing, seeking back to where the write began and reading as many bytes returns the bytes written. -/
theorem C32_write_read (d : Obj) (bs : List UInt8) (hb : bs.length < 2 ^ 63) :
    ∃ d' outs, run d [.write bs bs.length, .seek (min d.cursor d.bytes.length : Nat) .set, .read 1 bs.length] =
      some (d', outs ++ [.bytes bs bs.length]) := by
  have hm : 1 * bs.length % 2 ^ 64 = bs.length := by rw [Nat.one_mul]; exact Nat.mod_eq_of_lt (Nat.lt_trans hb (by decide))
  obtain ⟨r, hr⟩ : ∃ r, run d [.write bs bs.length, .seek (min d.cursor d.bytes.length : Nat) .set, .read 1 bs.length] = some r := by
    simp only [run, step, hm, if_neg (Nat.not_le.mpr hb), readBytes, Nat.one_ne_zero, if_false, Option.bind_some, Option.map_some]
    exact ⟨_, rfl⟩
  have h := C32_file_partial [.write bs bs.length, .seek (min d.cursor d.bytes.length : Nat) .set, .read 1 bs.length]
    (by intro op hop; simp at hop; rcases hop with rfl | rfl | rfl
        · trivial
        · trivial
        · show 1 * bs.length < 2 ^ 63; omega) d r.1 r.2 hr
  simp only [File.run, File.step, Option.bind_some, Option.map_some, File.at, clamp, Nat.one_mul, Nat.one_ne_zero, if_false] at h
  generalize hA : min d.cursor d.bytes.length = p at h hr ⊢
  have hp : p ≤ d.bytes.length := by omega
  have e1 : min (min (p : Int).toNat (d.bytes.take p ++ bs ++ d.bytes.drop (p + bs.length)).length)
      (d.bytes.take p ++ bs ++ d.bytes.drop (p + bs.length)).length = p := by
    simp only [List.length_append, List.length_take, List.length_drop]; omega
  rw [e1] at h
  have e2 : (List.drop p (d.bytes.take p ++ bs ++ d.bytes.drop (p + bs.length))).take bs.length = bs := by
    have hl : (d.bytes.take p).length = p := by simp; omega
    rw [List.append_assoc, List.drop_append_of_le_length (by omega), List.drop_of_length_le (by omega), List.nil_append]
    simp
  rw [e2] at h
  simp only [Option.some.injEq, Prod.mk.injEq, Nat.div_one] at h
  refine ⟨r.1, [.count bs.length, .none], ?_⟩
  rw [hr, ← Prod.eta r, ← h.2]
  simp

/-- C32 is false of reading "all there is" by asking for the largest number of bytes: memcpy is given the huge number.  Nor does a read
whose number of bytes is a multiple of 2^64 read anything. -/
theorem C32_read_fails (d : Obj) : step d (.read 1 (2 ^ 64 - 1)) = none ∧ (File.step ⟨d.bytes, d.cursor⟩ (.read 1 (2 ^ 64 - 1))).isSome = true ∧
    (∃ d', step d (.read (2 ^ 32) (2 ^ 32)) = some (d', .bytes [] 0)) ∧
    (∀ b, d.bytes[d.cursor]? = some b → ∃ f bs n, File.step ⟨d.bytes, d.cursor⟩ (.read (2 ^ 32) (2 ^ 32)) = some (f, .bytes (b :: bs) n)) := by
  refine ⟨rfl, rfl, ?_, fun b hb => ?_⟩
  · have e : 2 ^ 32 * 2 ^ 32 % 2 ^ 64 = 0 := by decide
    simp only [step, e]
    rw [if_neg (by decide), readBytes, if_neg (by decide)]
    simp only [available, Option.map_some, if_neg (Nat.not_lt_zero _)]
    exact ⟨_, rfl⟩
  · obtain ⟨hlt, he⟩ := List.getElem?_eq_some_iff.mp hb
    have hat : File.at ⟨d.bytes, d.cursor⟩ = d.cursor := by simp only [File.at]; omega
    simp only [File.step]
    rw [if_neg (by decide), hat, List.drop_eq_getElem_cons hlt, he]
    exact ⟨_, _, _, rfl⟩

example : run ⟨[1, 2, 3], 2⟩ [.write [7, 8] 2, .seek 2 .set, .read 1 2] = some (⟨[1, 2, 7, 8], 4⟩, [.count 2, .none, .bytes [7, 8] 2]) := by
  decide

/-- C32 is false of seeking backwards from the end: the offset is ignored and the position is the end. -/
theorem C32_seek_end_fails (d : Obj) (o : Int) : (seek d o .end).cursor = d.bytes.length := by
  simp only [seek, setCursor_eq, clamp]; omega

/-- ... for example, one byte before the end of three. -/
example : (File.step ⟨[1, 2, 3], 0⟩ (.seek (-1) .end)).map (·.1.pos) = some 2 ∧ (seek ⟨[1, 2, 3], 0⟩ (-1) .end).cursor = 3 := by decide

/-! ### C60: string equality is equality of texts -/

/-- Nothing cached, or what would be computed. -/
def Str.Fresh (s : Str) : Prop := s.hashCode = 0 ∨ s.hashCode = strhash s.data.bytes

theorem strhash_nil : strhash [] = 0 := rfl

theorem hash_fresh {s : Str} (h : s.Fresh) : (updateHash s).hashCode = strhash s.data.bytes := by
  unfold updateHash
  rcases h with h | h
  · rw [if_pos h]
    split
    · rfl
    · rename_i hl
      have : s.data.bytes = [] := List.eq_nil_of_length_eq_zero (by omega)
      rw [h, this]; rfl
  · split
    · split
      · rfl
      · exact h
    · exact h

theorem updateHash_fresh {s : Str} (h : s.Fresh) : (updateHash s).Fresh := by
  right
  rw [hash_fresh h]
  unfold updateHash
  split
  · split <;> rfl
  · rfl

/-- What a history has done to a string, as far as its cached hash goes: nothing since its last change (`plain`), a hash may have
been taken since (`hashed`), and its bytes or length have been changed in place after that (`stale`). -/
inductive Mark where
  | plain
  | hashed
  | stale
deriving DecidableEq

/-- A hash is taken: by DKStringHash or by comparing the string. -/
def Mark.taken : Mark → Mark
  | .plain => .hashed
  | m => m

/-- DKStringSetByteLength, or a store through DKStringGetMutableBytePtr. -/
def Mark.inPlace : Mark → Mark
  | .plain => .plain
  | _ => .stale

/-- The marks after one call.  A call that replaces part of the text starts afresh, if its range is one (judged by `len`, the
lengths of the strings); a copy is in the state of its original. -/
def marks (len : Nat → Nat) (m : Nat → Mark) : SOp → (Nat → Mark)
  | .set i _ | .append i _ | .write i _ => fun k => if k = i then .plain else m k
  | .replace i loc l _ => fun k => if k = i then (if inRange loc l (len i) then .plain else m i) else m k
  | .seek _ _ _ => m
  | .setByteLength i _ => fun k => if k = i then (m i).inPlace else m k
  | .poke i _ _ => fun k => if k = i then (m i).inPlace else m k
  | .hash i => fun k => if k = i then (m i).taken else m k
  | .equal i j => fun k => if k = i ∨ k = j then (m k).taken else m k
  | .copy i j => fun k => if k = j then m i else m k

/-- The marks after a history. -/
def marked (ops : List SOp) : (Nat → Str) × (Nat → Mark) :=
  ops.foldl (fun s op => (sstep s.1 op, marks (fun i => (s.1 i).data.bytes.length) s.2 op)) (fun _ => ⟨⟨[], 0⟩, 0⟩, fun _ => .plain)

theorem marked_fst (ops : List SOp) : (marked ops).1 = srun ops := by
  have key : ∀ (ops : List SOp) (s : (Nat → Str) × (Nat → Mark)),
      (ops.foldl (fun s op => (sstep s.1 op, marks (fun i => (s.1 i).data.bytes.length) s.2 op)) s).1 = ops.foldl sstep s.1 := by
    intro ops
    induction ops with
    | nil => intro s; rfl
    | cons op ops ih => intro s; simp only [List.foldl_cons]; rw [ih]
  exact key ops _

/-- What the marks mean. -/
def MarkOk (s : Str) : Mark → Prop
  | .plain => s.hashCode = 0
  | .hashed => s.Fresh
  | .stale => True

theorem MarkOk.taken {s : Str} {m : Mark} (h : MarkOk s m) : MarkOk (updateHash s) m.taken := by
  cases m with
  | plain => exact updateHash_fresh (.inl h)
  | hashed => exact updateHash_fresh h
  | stale => trivial

theorem MarkOk.inPlace {s t : Str} {m : Mark} (h : MarkOk s m) (e : t.hashCode = s.hashCode) : MarkOk t m.inPlace := by
  cases m with
  | plain => exact e.trans h
  | hashed => trivial
  | stale => trivial

theorem sstep_marks {p : Nat → Str} {m : Nat → Mark} (hp : ∀ i, MarkOk (p i) (m i)) (op : SOp) :
    ∀ i, MarkOk (sstep p op i) (marks (fun i => (p i).data.bytes.length) m op i) := by
  have upd' : ∀ {i : Nat} {s : Str} {a : Mark}, MarkOk s a → ∀ k, MarkOk (upd p i s k) (if k = i then a else m k) := by
    intro i s a h k
    unfold upd
    by_cases e : k = i
    · rw [if_pos e, if_pos e]; exact h
    · rw [if_neg e, if_neg e]; exact hp k
  cases op with
  | set i bs => exact upd' (a := .plain) rfl
  | append i bs => exact upd' (a := .plain) rfl
  | replace i loc len bs =>
    simp only [sstep, marks]
    refine upd' ?_
    unfold replaceSubstring
    split
    · exact rfl
    · exact hp i
  | write i bs => exact upd' (a := .plain) rfl
  | seek i o w =>
    intro k
    have hb : (seek (p i).data o w).bytes = (p i).data.bytes := by cases w <;> simp [seek, setCursor_eq]
    simp only [sstep, marks, upd]
    by_cases e : k = i
    · subst e
      rw [if_pos rfl]
      have := hp k
      cases hm : m k with
      | plain => rw [hm] at this; exact this
      | hashed =>
        rw [hm] at this
        rcases this with h1 | h1
        · exact .inl h1
        · exact .inr (by simp only [hb]; exact h1)
      | stale => trivial
    · rw [if_neg e]; exact hp k
  | setByteLength i n => exact upd' ((hp i).inPlace rfl)
  | poke i k b =>
    refine upd' ((hp i).inPlace ?_)
    unfold poke
    split <;> rfl
  | hash i => exact upd' (hp i).taken
  | equal i j =>
    intro k
    simp only [sstep, marks, upd]
    by_cases e : k = j
    · subst e; simp only [if_true, or_true]; exact (hp k).taken
    · by_cases e' : k = i
      · subst e'; simp only [if_true, true_or, if_neg e]; exact (hp k).taken
      · simp only [if_neg e, if_neg e', e, e', or_self, if_false]; exact hp k
  | copy i j =>
    refine upd' ?_
    cases hm : m i with
    | plain => have := hp i; rw [hm] at this; exact this
    | hashed => have := hp i; rw [hm] at this; exact this
    | stale => trivial

theorem marked_ok (ops : List SOp) : ∀ i, MarkOk ((marked ops).1 i) ((marked ops).2 i) := by
  have key : ∀ (ops : List SOp) (s : (Nat → Str) × (Nat → Mark)), (∀ i, MarkOk (s.1 i) (s.2 i)) →
      ∀ i, MarkOk ((ops.foldl (fun s op => (sstep s.1 op, marks (fun i => (s.1 i).data.bytes.length) s.2 op)) s).1 i)
        ((ops.foldl (fun s op => (sstep s.1 op, marks (fun i => (s.1 i).data.bytes.length) s.2 op)) s).2 i) := by
    intro ops
    induction ops with
    | nil => intro s h; exact h
    | cons op ops ih => intro s h; exact ih _ (sstep_marks h op)
  exact key ops _ (fun _ => rfl)

theorem srun_fresh {ops : List SOp} {i : Nat} (h : (marked ops).2 i ≠ .stale) : (srun ops i).Fresh := by
  have := marked_ok ops i
  rw [marked_fst] at this
  cases hm : (marked ops).2 i with
  | plain => rw [hm] at this; exact .inl this
  | hashed => rw [hm] at this; exact this
  | stale => exact absurd hm h

/-- C60.  After every history of string calls, two strings are equal exactly if their texts are.  Missing: strings whose length was set
(DKStringSetByteLength), or that were written to through DKStringGetMutableBytePtr, after a hash of them was taken and without
another change afterwards (refuted below). -/
theorem C60_equal_partial (ops : List SOp) (i j : Nat) (hi : (marked ops).2 i ≠ .stale) (hj : (marked ops).2 j ≠ .stale) :
    testEquality (srun ops i) (srun ops j) = true ↔ cstr (srun ops i).data.bytes = cstr (srun ops j).data.bytes := by
  have hi := hash_fresh (srun_fresh hi)
  have hj := hash_fresh (srun_fresh hj)
  unfold testEquality
  rw [hi, hj]
  constructor
  · split
    · intro h; cases h
    · intro h; simpa using h
  · intro h
    rw [if_neg (by simp [strhash, h])]
    simp [h]

/-- Strings that are shortened and written to and yet not stale: before any hash, or changed again afterwards. -/
example : (marked [.set 0 [65, 66], .setByteLength 0 1, .poke 0 0 67, .hash 0, .poke 0 0 68, .append 0 [69], .set 1 [68, 69], .equal 0 1]).2 0 ≠ .stale ∧
    (marked [.set 0 [65, 66], .setByteLength 0 1, .poke 0 0 67, .hash 0, .poke 0 0 68, .append 0 [69], .set 1 [68, 69], .equal 0 1]).2 1 ≠ .stale ∧
    testEquality (srun [.set 0 [65, 66], .setByteLength 0 1, .poke 0 0 67, .hash 0, .poke 0 0 68, .append 0 [69], .set 1 [68, 69], .equal 0 1] 0)
      (srun [.set 0 [65, 66], .setByteLength 0 1, .poke 0 0 67, .hash 0, .poke 0 0 68, .append 0 [69], .set 1 [68, 69], .equal 0 1] 1) = true := by decide

/-- A history with cached hashes. -/
example : testEquality (srun [.set 0 [65, 66], .hash 0, .append 0 [67], .set 1 [65], .append 1 [66, 67], .equal 0 1] 0)
    (srun [.set 0 [65, 66], .hash 0, .append 0 [67], .set 1 [65], .append 1 [66, 67], .equal 0 1] 1) = true := by decide

/-- C60 is false with DKStringSetByteLength: "ab", hashed, then shortened to "a", does not equal "a". -/
theorem C60_shortened_fails :
    let p := srun [.set 0 [97, 98], .hash 0, .setByteLength 0 1, .set 1 [97]]
    cstr (p 0).data.bytes = cstr (p 1).data.bytes ∧ testEquality (p 0) (p 1) = false := by decide

/-- C60 is false with DKStringGetMutableBytePtr: "ab", hashed, then made "cb" in place, equals neither "cb" nor "ab". -/
theorem C60_poked_fails :
    let p := srun [.set 0 [97, 98], .hash 0, .poke 0 0 99, .set 1 [99, 98], .set 2 [97, 98]]
    cstr (p 0).data.bytes = cstr (p 1).data.bytes ∧ testEquality (p 0) (p 1) = false ∧ testEquality (p 0) (p 2) = false := by decide

/-! ### C29 -/

/-- C29.  Strings: after every history (with DKStringSetByteLength too), strings that are equal have equal hashes. -/
theorem C29_string (ops : List SOp) (i j : Nat) (h : testEquality (srun ops i) (srun ops j) = true) :
    strHash (srun ops i) = strHash (srun ops j) := by
  unfold testEquality at h
  split at h
  · cases h
  · rename_i h1
    simpa [strHash] using h1

example : testEquality (srun [.set 0 [97, 98], .hash 0, .copy 0 1] 0) (srun [.set 0 [97, 98], .hash 0, .copy 0 1] 1) = true := by decide

theorem memcmp_eq : ∀ (n : Nat) (a b : List UInt8), n ≤ a.length → n ≤ b.length → memcmp n a b = 0 → a.take n = b.take n := by
  intro n
  induction n with
  | zero => intros; simp
  | succ n ih =>
    intro a b ha hb h
    cases a with
    | nil => simp at ha
    | cons x a => cases b with
      | nil => simp at hb
      | cons y b =>
        simp only [memcmp] at h
        split at h
        · rename_i hxy
          subst hxy
          simp only [List.take_succ_cons]
          rw [ih a b (by simpa using ha) (by simpa using hb) h]
        · rename_i hxy
          exact absurd (UInt8.toNat_inj.1 (by omega)) hxy

theorem memcmp_self : ∀ (n : Nat) (a : List UInt8), memcmp n a a = 0 := by
  intro n
  induction n with
  | zero => intro a; cases a <;> rfl
  | succ n ih => intro a; cases a <;> simp [memcmp, ih]

/-- C29.  Data objects are equal exactly if their bytes are. -/
theorem C29_data (a b : List UInt8) : (equal a b = true ↔ a = b) ∧ (equal a b = true → hash a = hash b) := by
  have key : equal a b = true ↔ a = b := by
    unfold equal compare
    constructor
    · intro h
      simp only [beq_iff_eq] at h
      by_cases hl : a.length = b.length
      · simp only [hl, Nat.lt_irrefl, gt_iff_lt, if_false] at h
        have h1 : memcmp b.length a b = 0 := by
          split at h
          · exact h
          · rename_i h2; exact Decidable.not_not.1 h2
        have := memcmp_eq _ a b (by omega) (by omega) h1
        rwa [List.take_of_length_le (by omega), List.take_of_length_le (by omega)] at this
      · exfalso
        generalize memcmp (if a.length < b.length then a.length else b.length) a b = m at h
        split at h
        · rename_i h1; exact h1 h
        · split at h
          · cases h
          · split at h
            · cases h
            · omega
    · intro h
      subst h
      simp [memcmp_self]
  exact ⟨key, fun h => by rw [key.1 h]⟩

example : equal [1, 200, 3] [1, 200, 3] = true ∧ equal [1, 2] [1, 2, 0] = false := by decide

/-- The numbers inside an object. -/
def V.numbers : V → List Number.Obj
  | .num n => [n]
  | .pair a b => a.numbers ++ b.numbers
  | _ => []

/-- C29.  For NULL, strings, data, numbers, pairs and structs, nested to any depth: equal objects have equal hashes, if that
holds of the numbers inside them.  Missing: that numbers have equal hashes (Props/Number.lean says which do). -/
theorem C29_objects_partial (a b : V)
    (hnum : ∀ x ∈ a.numbers, ∀ y ∈ b.numbers, Number.equal x y = some true → Number.hash x = Number.hash y)
    (h : Eqv a b) : hashV a = hashV b := by
  induction h with
  | same v => rfl
  | @str a b h =>
    unfold testEquality at h
    split at h
    · cases h
    · rename_i h1
      simp only [hashV, strHash]
      congr 1
      simpa using h1
  | @data a b h => simp only [hashV]; rw [(C29_data a b).2 h]
  | @num a b h => exact hnum a (by simp [V.numbers]) b (by simp [V.numbers]) h
  | @pair a b c d h1 h2 ih1 ih2 =>
    simp only [hashV]
    rw [ih1 (fun x hx y hy => hnum x (by simp [V.numbers, hx]) y (by simp [V.numbers, hy])),
      ih2 (fun x hx y hy => hnum x (by simp [V.numbers, hx]) y (by simp [V.numbers, hy]))]
  | @struct s a t b h =>
    unfold structEqual at h
    split at h
    · split at h
      · rename_i hl
        have := memcmp_eq a.length a b (by omega) (by omega) (by simpa using h)
        rw [List.take_of_length_le (by omega), List.take_of_length_le (by omega)] at this
        simp only [hashV, this]
      · cases h
    · cases h

example : Eqv (.pair (.str [97]) (.pair (.num (Number.scalar .i32 7)) .null)) (.pair (.str [97, 0, 98]) (.pair (.num (Number.scalar .i8 7)) .null)) :=
  .pair (.str (by decide)) (.pair (.num (by decide +kernel)) (.same _))
example : hashV (.pair (.str [97]) (.num (Number.scalar .i32 7))) = some (97 ^^^ 7) := by decide +kernel

end Data
end Duck
