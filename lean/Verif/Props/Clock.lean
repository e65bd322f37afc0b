import Verif.Model.Clock
import Verif.Spec.Clock
import Verif.Props.Encoding
/-! C91: clocks.  C92: identifiers. -/
namespace Duck
namespace Clock

/-! ## C91 -/

theorem ticks_2001 : ticksBetween 1970 2001 = absoluteTimeSince1970 * second := by decide
theorem ticks_1970 : ticksBetween 1601 1970 = 11644473600000 * 10000 := by decide

/-- C91 on POSIX: the date read is the time since the start of 2001 in ticks, if the clock shows the instant `i` ticks after
    the start of 1970. -/
theorem C91_date (t : TimeVal) (i : Int) (h : t.sec * 10000000 + t.usec * 10 = i) :
    date (some t) = i - ticksBetween 1970 2001 := by
  rw [ticks_2001]
  simp only [date, second]
  omega

/-- A second after the start of 2001. -/
example : date (some ⟨978307201, 500000⟩) = 15000000 ∧ ticksBetween 1970 2001 = 9783072000000000 := by decide

/-- C91 on POSIX: the dates are ordered as the instants. -/
theorem C91_order (t u : TimeVal) (ht : 0 ≤ t.usec ∧ t.usec < 1000000) (hu : 0 ≤ u.usec ∧ u.usec < 1000000) :
    date (some t) < date (some u) ↔ t.sec < u.sec ∨ (t.sec = u.sec ∧ t.usec < u.usec) := by
  simp only [date, second]
  omega

example : date (some ⟨5, 999999⟩) < date (some ⟨6, 0⟩) := by decide

/-- The property is false of the local time on POSIX: it is the time of the clocks of the zone exactly for Greenwich itself.
    The offset has the wrong sign. -/
theorem C91_local_fails (t : TimeVal) (west : Int) :
    localTime (some (t, west)) = behind (date (some t)) west ↔ west = 0 := by
  simp only [localTime, date, behind, second]
  omega

/-- In New York, five hours behind Greenwich, the local time read is five hours ahead. -/
example : localTime (some (⟨978307200, 0⟩, 300)) = 300 * 60 * 10000000 ∧ behind (date (some ⟨978307200, 0⟩)) 300 = -(300 * 60 * 10000000) := by
  decide

theorem since1970_toNat {f : BitVec 64} {i : Nat} (h : f.toNat = 116444736000000000 + i) : (since1970 f).toNat = i := by
  have hi : i < 2 ^ 64 := by have := f.isLt; omega
  have hf : f = BitVec.ofNat 64 (11644473600000 * 10000) + BitVec.ofNat 64 i := by
    apply BitVec.eq_of_toNat_eq
    rw [BitVec.toNat_add, h, BitVec.toNat_ofNat, BitVec.toNat_ofNat]
    have := f.isLt
    omega
  have h2 : since1970 f = BitVec.ofNat 64 i := by
    rw [since1970, hf, BitVec.add_comm, BitVec.add_sub_cancel]
  rw [h2, BitVec.toNat_ofNat]
  omega

/-- What the code computes on Windows, for every instant `i` ticks after the start of 1970. -/
theorem C91_windows_exact (f : BitVec 64) (i : Nat) (h : (f.toNat : Int) = ticksBetween 1601 1970 + i) :
    dateWindows f = ((i : Int) - ticksBetween 1970 2001) + (i / 10000000 : Nat) * (10000000 - 1) := by
  rw [ticks_1970] at h
  have h' : f.toNat = 116444736000000000 + i := by omega
  have hn := since1970_toNat h'
  have hq : ((since1970 f) / 10000000#64).toNat = i / 10000000 := by
    rw [BitVec.toNat_udiv, hn]
    rfl
  have hs : ((since1970 f) - (since1970 f) / 10000000#64).toNat = i - i / 10000000 := by
    rw [BitVec.toNat_sub, hq, hn]
    have : i < 2 ^ 64 := hn ▸ (since1970 f).isLt
    omega
  rw [ticks_2001]
  simp only [dateWindows, hq, hs, second]
  omega

/-- The property is false of Windows: the date is right in the first second of 1970 only, and runs at twice the rate of
    time.  The seconds subtracted are not counted in ticks. -/
theorem C91_windows_fails (f : BitVec 64) (i : Nat) (h : (f.toNat : Int) = ticksBetween 1601 1970 + i) :
    dateWindows f = (i : Int) - ticksBetween 1970 2001 ↔ i < 10000000 := by
  rw [C91_windows_exact f i h]
  omega

/-- At the start of 2001 the date read is 31 years, instead of 0. -/
example : (126227808000000000#64).toNat = ticksBetween 1601 2001 ∧ dateWindows 126227808000000000#64 = 978307200 * 9999999 := by
  decide

/-- On Windows the local time differs from the date by the bias, with the wrong sign. -/
theorem C91_windows_local_fails (f : BitVec 64) (bias : Int) :
    localTimeWindows f (some bias) = behind (dateWindows f) bias ↔ bias = 0 := by
  simp only [localTimeWindows, behind, second]
  omega

example : localTimeWindows 126227808000000000#64 (some 60) ≠ behind (dateWindows 126227808000000000#64) 60 := by decide

/-- The FILETIME is put together from its halves. -/
theorem C91_fileTime (high low : BitVec 32) : (fileTime high low).toNat = high.toNat * 2 ^ 32 + low.toNat := by
  have hl := low.isLt
  have hh := high.isLt
  rw [fileTime, BitVec.toNat_or, BitVec.toNat_shiftLeft, BitVec.toNat_setWidth, BitVec.toNat_setWidth, Nat.shiftLeft_eq,
    Nat.mod_eq_of_lt (by omega : high.toNat < 2 ^ 64), Nat.mod_eq_of_lt (by omega : low.toNat < 2 ^ 64),
    Nat.mod_eq_of_lt (by omega), Nat.mul_comm, ← Nat.two_pow_add_eq_or_of_lt hl]

end Clock

namespace Uuid
open Number (leBytes)

/-! ## C92 -/

theorem digit_hex {n : Nat} {c : UInt8} (h : Hex n c) : digit c = some (UInt8.ofNat n) ∧ n < 16 := by
  have key : ∀ (a b : Nat), c.toNat = a → a < 128 → asciiToHex[a]? = some (UInt8.ofNat b) → digit c = some (UInt8.ofNat b) := by
    intro a b h1 h2 h3
    have : (c &&& 0x7F).toNat = a := by
      rw [UInt8.toNat_and, h1]
      show a &&& 127 = a
      rw [show (127 : Nat) = 2 ^ 7 - 1 from rfl, Nat.and_two_pow_sub_one_eq_mod]
      omega
    rw [digit, this, h3]
  cases h with
  | decimal h1 h2 =>
    refine ⟨key _ _ h2 (by omega) ?_, by omega⟩
    have : n = 0 ∨ n = 1 ∨ n = 2 ∨ n = 3 ∨ n = 4 ∨ n = 5 ∨ n = 6 ∨ n = 7 ∨ n = 8 ∨ n = 9 := by omega
    rcases this with h | h | h | h | h | h | h | h | h | h <;> subst h <;> rfl
  | lower h0 h1 h2 =>
    refine ⟨key _ _ h2 (by omega) ?_, h1⟩
    have : n = 10 ∨ n = 11 ∨ n = 12 ∨ n = 13 ∨ n = 14 ∨ n = 15 := by omega
    rcases this with h | h | h | h | h | h <;> subst h <;> rfl
  | upper h0 h1 h2 =>
    refine ⟨key _ _ h2 (by omega) ?_, h1⟩
    have : n = 10 ∨ n = 11 ∨ n = 12 ∨ n = 13 ∨ n = 14 ∨ n = 15 := by omega
    rcases this with h | h | h | h | h | h <;> subst h <;> rfl

theorem nibbles : ∀ b : UInt8, UInt8.ofNat (b.toNat / 16) <<< 4 ||| UInt8.ofNat (b.toNat % 16) = b := by
  intro b
  have h : ∀ k : Fin 256, UInt8.ofNat (k.val / 16) <<< 4 ||| UInt8.ofNat (k.val % 16) = UInt8.ofNat k.val := by decide +kernel
  have := h ⟨b.toNat, b.toNat_lt⟩
  simpa using this

theorem readByte_pair {b x y : UInt8} {buffer : List UInt8} {i : Nat} (hp : Pair b [x, y]) (hx : buffer[i]? = some x)
    (hy : buffer[i + 1]? = some y) : readByte buffer i = some b := by
  cases hp with
  | mk h1 h2 =>
    simp only [readByte, hx, hy, Option.bind_some, (digit_hex h1).1, (digit_hex h2).1, Option.map_some, nibbles]

theorem hexes_cons {b : UInt8} {bs t : List UInt8} (h : Hexes (b :: bs) t) : ∃ x y t', t = x :: y :: t' ∧ Pair b [x, y] ∧ Hexes bs t' := by
  cases h with
  | cons hp hr =>
    cases hp with
    | mk h1 h2 => exact ⟨_, _, _, rfl, .mk h1 h2, hr⟩

theorem hexes_nil {t : List UInt8} (h : Hexes [] t) : t = [] := by cases h; rfl

theorem list2 {a : List UInt8} (h : a.length = 2) : ∃ x y, a = [x, y] := by
  match a, h with
  | [x, y], _ => exact ⟨x, y, rfl⟩

theorem list4 {a : List UInt8} (h : a.length = 4) : ∃ x y z w, a = [x, y, z, w] := by
  match a, h with
  | [x, y, z, w], _ => exact ⟨x, y, z, w, rfl⟩

theorem list6 {a : List UInt8} (h : a.length = 6) : ∃ x y z w u v, a = [x, y, z, w, u, v] := by
  match a, h with
  | [x, y, z, w, u, v], _ => exact ⟨x, y, z, w, u, v, rfl⟩

/-- C92 on Android: the identifier is the one whose text, in digits of either case, the kernel's file begins with. -/
theorem C92_android (id text rest : List UInt8) (h : Text id text) : generateAndroid (some (text ++ rest)) = some id := by
  cases h with
  | mk ha hb hc hd he hs ht hu hv hw =>
    obtain ⟨a1, a2, a3, a4, rfl⟩ := list4 ha
    obtain ⟨b1, b2, rfl⟩ := list2 hb
    obtain ⟨c1, c2, rfl⟩ := list2 hc
    obtain ⟨d1, d2, rfl⟩ := list2 hd
    obtain ⟨e1, e2, e3, e4, e5, e6, rfl⟩ := list6 he
    obtain ⟨_, _, _, rfl, p1, hs⟩ := hexes_cons hs
    obtain ⟨_, _, _, rfl, p2, hs⟩ := hexes_cons hs
    obtain ⟨_, _, _, rfl, p3, hs⟩ := hexes_cons hs
    obtain ⟨_, _, _, rfl, p4, hs⟩ := hexes_cons hs
    obtain ⟨_, _, _, rfl, p5, ht⟩ := hexes_cons ht
    obtain ⟨_, _, _, rfl, p6, ht⟩ := hexes_cons ht
    obtain ⟨_, _, _, rfl, p7, hu⟩ := hexes_cons hu
    obtain ⟨_, _, _, rfl, p8, hu⟩ := hexes_cons hu
    obtain ⟨_, _, _, rfl, p9, hv⟩ := hexes_cons hv
    obtain ⟨_, _, _, rfl, p10, hv⟩ := hexes_cons hv
    obtain ⟨_, _, _, rfl, p11, hw⟩ := hexes_cons hw
    obtain ⟨_, _, _, rfl, p12, hw⟩ := hexes_cons hw
    obtain ⟨_, _, _, rfl, p13, hw⟩ := hexes_cons hw
    obtain ⟨_, _, _, rfl, p14, hw⟩ := hexes_cons hw
    obtain ⟨_, _, _, rfl, p15, hw⟩ := hexes_cons hw
    obtain ⟨_, _, _, rfl, p16, hw⟩ := hexes_cons hw
    cases hexes_nil hs
    cases hexes_nil ht
    cases hexes_nil hu
    cases hexes_nil hv
    cases hexes_nil hw
    simp only [generateAndroid, Option.bind_some, List.cons_append, List.nil_append, List.take_succ_cons, List.take_zero,
      List.length_cons, List.length_nil, if_true, offsets, List.mapM_cons, List.mapM_nil]
    rw [readByte_pair p1 rfl rfl, readByte_pair p2 rfl rfl, readByte_pair p3 rfl rfl, readByte_pair p4 rfl rfl,
      readByte_pair p5 rfl rfl, readByte_pair p6 rfl rfl, readByte_pair p7 rfl rfl, readByte_pair p8 rfl rfl,
      readByte_pair p9 rfl rfl, readByte_pair p10 rfl rfl, readByte_pair p11 rfl rfl, readByte_pair p12 rfl rfl,
      readByte_pair p13 rfl rfl, readByte_pair p14 rfl rfl, readByte_pair p15 rfl rfl, readByte_pair p16 rfl rfl]
    rfl

/-- A text of the kernel. -/
example : generateAndroid (some "6fd2c4a0-0b1E-4ff3-9A10-00e1f2030405\n".toUTF8.toList) =
    some [0x6f, 0xd2, 0xc4, 0xa0, 0x0b, 0x1e, 0x4f, 0xf3, 0x9a, 0x10, 0x00, 0xe1, 0xf2, 0x03, 0x04, 0x05] := by decide +kernel

/-- Every identifier has such a text. -/
theorem exists_hexes : ∀ bs : List UInt8, ∃ t, Hexes bs t := by
  have hex : ∀ n, n < 16 → ∃ c, Hex n c := by
    intro n hn
    by_cases h : n < 10
    · exact ⟨UInt8.ofNat (48 + n), .decimal h (by rw [UInt8.toNat_ofNat']; omega)⟩
    · exact ⟨UInt8.ofNat (97 + (n - 10)), .lower (by omega) hn (by rw [UInt8.toNat_ofNat']; omega)⟩
  intro bs
  induction bs with
  | nil => exact ⟨[], .nil⟩
  | cons b bs ih =>
    obtain ⟨t, ht⟩ := ih
    have := b.toNat_lt
    obtain ⟨x, hx⟩ := hex (b.toNat / 16) (by omega)
    obtain ⟨y, hy⟩ := hex (b.toNat % 16) (by omega)
    exact ⟨_, .cons (.mk hx hy) ht⟩

/-- The hypothesis of C92_android can be met for every identifier. -/
theorem C92_all (id : List UInt8) (h : id.length = 16) : ∃ text, Text id text ∧ generateAndroid (some text) = some id := by
  obtain ⟨s, hs⟩ := exists_hexes (id.take 4)
  obtain ⟨t, ht⟩ := exists_hexes ((id.drop 4).take 2)
  obtain ⟨u, hu⟩ := exists_hexes ((id.drop 6).take 2)
  obtain ⟨v, hv⟩ := exists_hexes ((id.drop 8).take 2)
  obtain ⟨w, hw⟩ := exists_hexes (id.drop 10)
  have he : id = id.take 4 ++ (id.drop 4).take 2 ++ (id.drop 6).take 2 ++ (id.drop 8).take 2 ++ id.drop 10 := by
    have e1 : id.drop 4 = (id.drop 4).take 2 ++ id.drop 6 := by rw [← List.drop_drop (i := 2) (j := 4), List.take_append_drop]
    have e2 : id.drop 6 = (id.drop 6).take 2 ++ id.drop 8 := by rw [← List.drop_drop (i := 2) (j := 6), List.take_append_drop]
    have e3 : id.drop 8 = (id.drop 8).take 2 ++ id.drop 10 := by rw [← List.drop_drop (i := 2) (j := 8), List.take_append_drop]
    rw [List.append_assoc, List.append_assoc, List.append_assoc, ← e3, ← e2, ← e1, List.take_append_drop]
  have hT := Text.mk (by simp [h]) (by simp [h]) (by simp [h]) (by simp [h]) (by simp [h]) hs ht hu hv hw
  rw [← he] at hT
  exact ⟨_, hT, by simpa using C92_android id _ [] hT⟩

/-- C92 on Windows: the identifier has the fields of the GUID in the order of RFC 4122, the most significant byte first. -/
theorem C92_windows (g : Guid) : generateWindows (some g) =
    bigEndian 4 g.data1.toNat ++ bigEndian 2 g.data2.toNat ++ bigEndian 2 g.data3.toNat ++ g.data4 := by
  have hb : ∀ {w : Nat} (x : BitVec w) (k : Nat), UInt8.ofBitVec (Encoding.byte x k) = UInt8.ofNat (x.toNat / 256 ^ k) := by
    intro w x k
    show UInt8.ofBitVec (BitVec.ofNat 8 (x.toNat >>> (8 * k))) = _
    rw [Nat.shiftRight_eq_div_pow, Nat.pow_mul]
    rfl
  have h4 : ∀ x : BitVec 32, stored 4 (Encoding.swapInt32 x).toNat = bigEndian 4 x.toNat := by
    intro x
    have hr := (Encoding.C16_swap32 x).1
    have e : stored 4 (Encoding.swapInt32 x).toNat = (List.range 4).map fun k => UInt8.ofBitVec (Encoding.byte (Encoding.swapInt32 x) k) := by
      simp only [List.range, List.range.loop, List.map, hb, stored, leBytes, Nat.pow_zero, Nat.pow_one, Nat.div_one, Nat.div_div_eq_div_mul]
      rfl
    rw [e]
    simp only [List.range, List.range.loop, List.map, hr 0 (by omega), hr 1 (by omega), hr 2 (by omega), hr 3 (by omega)]
    simp only [hb]
    rfl
  have h2 : ∀ x : BitVec 16, stored 2 (Encoding.swapInt16 x).toNat = bigEndian 2 x.toNat := by
    intro x
    have hr := (Encoding.C16_swap16 x).1
    have e : stored 2 (Encoding.swapInt16 x).toNat = (List.range 2).map fun k => UInt8.ofBitVec (Encoding.byte (Encoding.swapInt16 x) k) := by
      simp only [List.range, List.range.loop, List.map, hb, stored, leBytes, Nat.pow_zero, Nat.pow_one, Nat.div_one]
      rfl
    rw [e]
    simp only [List.range, List.range.loop, List.map, hr 0 (by omega), hr 1 (by omega)]
    simp only [hb]
    rfl
  simp only [generateWindows, Option.getD_some, h4, h2]

example : generateWindows (some ⟨0x6fd2c4a0, 0x0b1e, 0x4ff3, [0x9a, 0x10, 0x00, 0xe1, 0xf2, 0x03, 0x04, 0x05]⟩) =
    [0x6f, 0xd2, 0xc4, 0xa0, 0x0b, 0x1e, 0x4f, 0xf3, 0x9a, 0x10, 0x00, 0xe1, 0xf2, 0x03, 0x04, 0x05] := by decide +kernel

/-- The property is false where the kernel's file cannot be opened or is too short: undefined behaviour, or an indeterminate
    identifier. -/
theorem C92_file_fails (file : Option (List UInt8)) (h : ∀ f, file = some f → f.length < 36) : generateAndroid file = none := by
  cases file with
  | none => rfl
  | some f =>
    have := h f rfl
    simp only [generateAndroid, Option.bind_some, List.length_take]
    rw [if_neg (by omega)]

example : generateAndroid none = none ∧ generateAndroid (some [54, 102]) = none := by decide

/-- Without a GUID the identifier on Windows is zero. -/
theorem C92_zero : generateWindows none = List.replicate 16 0 := by decide

end Uuid
end Duck
