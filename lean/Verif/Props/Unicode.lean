import Verif.Lemmas.UnicodePrev
import Verif.Lemmas.Text
/-! C33-C35: characters of strings.  `String.utf8EncodeChar` is Lean's own UTF-8 encoder, `Char` a Unicode scalar value. -/
namespace Duck
namespace Unicode

/-! ## C33 writing and scanning single characters -/

/-- **C33.** Writing any scalar value into a buffer with room for it and a terminator stores exactly its UTF-8 bytes
    and a terminator, leaves the rest of the buffer alone and returns the number of bytes. -/
theorem C33_write (c : Char) (buf : List UInt8) (h31 : buf.length ≤ 2 ^ 31)
    (hfit : (String.utf8EncodeChar c).length < buf.length) :
    ustrwrite (c.toNat : Int) buf =
      some (String.utf8EncodeChar c ++ 0 :: buf.drop ((String.utf8EncodeChar c).length + 1), (String.utf8EncodeChar c).length) := by
  have hs := char_scalar c
  have hu : ((c.toNat : Int) % 2 ^ 32).toNat = c.toNat := by unfold Scalar at hs; omega
  have hcap : (buf.length + (2 ^ 32 - 1)) % 2 ^ 32 = buf.length - 1 := by omega
  have hpos := encNat_length_pos c.toNat
  rw [enc_eq] at hfit ⊢
  rw [ustrwrite, hcap, hu, appendBytes_scalar (by omega) hs (by omega)]
  simp only [store, if_pos (Nat.le_of_lt hfit), Option.bind_some]
  rw [if_pos (by simp; omega)]
  have hd : buf.drop (encNat c.toNat).length = buf[(encNat c.toNat).length] :: buf.drop ((encNat c.toNat).length + 1) :=
    List.drop_eq_getElem_cons hfit
  rw [hd, List.set_append_right _ _ (Nat.le_refl _), Nat.sub_self, List.set_cons_zero]

/-- **C33.** A value that is not a Unicode scalar value (negative, a surrogate, or above U+10FFFF), or whose bytes do
    not fit before the terminator, is refused: zero is returned and the buffer is unchanged. -/
theorem C33_write_refused (ch : Int) (buf : List UInt8) (h1 : 1 ≤ buf.length) (h31 : buf.length ≤ 2 ^ 31)
    (hch : -(2 ^ 31) ≤ ch ∧ ch < 2 ^ 31)
    (h : (∀ c : Char, (c.toNat : Int) ≠ ch) ∨
         (∃ c : Char, (c.toNat : Int) = ch ∧ c.toNat ≥ 128 ∧ buf.length ≤ (String.utf8EncodeChar c).length)) :
    ustrwrite ch buf = some (buf, 0) := by
  have hcap : (buf.length + (2 ^ 32 - 1)) % 2 ^ 32 = buf.length - 1 := by omega
  rw [ustrwrite, hcap, appendBytes_refused (by omega)]
  rcases h with h | ⟨c, rfl, h128, h⟩
  · refine Or.inl fun hs => ?_
    obtain ⟨c, hc⟩ := scalar_char hs
    refine h c ?_
    unfold Scalar at hs
    omega
  · have hs := char_scalar c
    have hu : ((c.toNat : Int) % 2 ^ 32).toNat = c.toNat := by unfold Scalar at hs; omega
    rw [enc_eq] at h
    have h2 : 2 ≤ (encNat c.toNat).length := by
      unfold encNat
      rw [if_neg (by omega)]
      split
      · simp
      · split <;> simp
    rw [hu]
    exact Or.inr (by omega)

/-- **C33.** The round trip: writing a scalar value other than U+0000 and scanning the buffer gives back the value and
    the number of bytes written. -/
theorem C33_write_scan (c : Char) (hc : c ≠ '\x00') (buf : List UInt8) (h31 : buf.length ≤ 2 ^ 31)
    (hfit : (String.utf8EncodeChar c).length < buf.length) :
    ∃ buf' n, ustrwrite (c.toNat : Int) buf = some (buf', n) ∧ ustrscan buf' = some ((c.toNat : Int), n) := by
  refine ⟨_, _, C33_write c buf h31 hfit, ?_⟩
  exact ustrscan_char hc _

/-- A four-byte character in a buffer of five bytes, and one in a buffer one byte too small. -/
example : ustrwrite 0x1f600 [1, 2, 3, 4, 5] = some ([0xf0, 0x9f, 0x98, 0x80, 0], 4) ∧
    ustrwrite 0x1f600 [1, 2, 3, 4] = some ([1, 2, 3, 4], 0) ∧ ustrwrite 0xd800 [1, 2, 3, 4] = some ([1, 2, 3, 4], 0) := by
  decide

/-- **C33.** Scanning always makes progress and never steps over the terminator, and reads nothing beyond it: on every
    nonempty C string the scan consumes between one byte and all of them. -/
theorem C33_scan_progress (s : List UInt8) (hs : s ≠ []) (hf : NulFree s) :
    ∃ c k, ustrscan (s ++ [0]) = some (c, k) ∧ 1 ≤ k ∧ k ≤ s.length := by
  obtain ⟨⟨c, k⟩, hr⟩ := next_some (closed_append_zero s) (by simp)
  match s, hs with
  | b :: s, hs =>
    have hb : b ≠ 0 := fun e => hf (by simp [e])
    refine ⟨c, k, ?_, next_nul hs hr⟩
    rw [List.cons_append, ustrscan_eq_next hb]; exact hr

/-- **C33.** A malformed sequence never swallows an ASCII byte (nor a lead byte): all bytes consumed after the first
    are in the range 0x80 to 0xbf. -/
theorem C33_scan_keeps_ascii (m : List UInt8) (c : Int) (k : Nat) (h : ustrscan m = some (c, k)) :
    ∀ (j : Nat) (b : UInt8), 1 ≤ j → j < k → m[j]? = some b → IsTrailByte b := by
  intro j b j1 j2 hb
  unfold ustrscan at h
  cases h0 : rd m 0 with
  | none => rw [h0] at h; cases h
  | some a =>
    rw [h0] at h
    simp only [Option.bind_some] at h
    split at h
    · simp only [Option.some.injEq, Prod.mk.injEq] at h; omega
    · obtain ⟨v, hv, h1, h2⟩ := (next_trail h).2 j j1 j2
      obtain ⟨u, hu, rfl⟩ := rd_eq hv
      rw [hb] at hu; cases hu
      exact ⟨h1, by omega⟩

/-- **C33.** What is scanned is either reported as malformed (-1) or is a Unicode scalar value together with exactly its
    UTF-8 bytes: no overlong form, surrogate or value above U+10FFFF is accepted. -/
theorem C33_scan_wellformed (m : List UInt8) (c : Int) (k : Nat) (h : ustrscan m = some (c, k)) (hk : 0 < k) :
    c = -1 ∨ ∃ ch : Char, c = ch.toNat ∧ m.take k = String.utf8EncodeChar ch := by
  unfold ustrscan at h
  cases h0 : rd m 0 with
  | none => rw [h0] at h; cases h
  | some a =>
    rw [h0] at h
    simp only [Option.bind_some] at h
    split at h
    · simp only [Option.some.injEq, Prod.mk.injEq] at h; omega
    · rcases next_spec h with ⟨v, rfl, hs, ht, -⟩ | ⟨rfl, -⟩
      · obtain ⟨ch, hch⟩ := scalar_char hs
        exact Or.inr ⟨ch, by rw [hch], by rw [ht, enc_eq, hch]⟩
      · exact Or.inl rfl

/-- **C33.** Stepping backwards from the end of a character returns that character and its first byte. -/
theorem C33_step_back (c : Char) (before after : List UInt8) :
    prev (before ++ (String.utf8EncodeChar c ++ after)) (before.length + (String.utf8EncodeChar c).length)
      = some ((c.toNat : Int), before.length) := prev_char c before after

/-- Malformed input: a lead byte with an ASCII byte after it, an overlong form, and a surrogate. -/
example : ustrscan [0xe2, 0x82, 0x41, 0] = some (-1, 2) ∧ ustrscan [0xc0, 0xaf, 0] = some (-1, 2) ∧
    ustrscan [0xed, 0xa0, 0x80, 0] = some (-1, 3) ∧ ustrscan [0xe2, 0x82, 0xac, 0] = some (0x20ac, 3) := by decide

end Unicode

namespace Text
open Unicode

/-! ## C34 indices and substrings -/

/-- Every C string scans as some sequence of characters, exactly one, made of all its bytes. -/
theorem C34_characters_exist (s : List UInt8) (hf : NulFree s) :
    ∃ cs, Scans s cs ∧ (∀ ds, Scans s ds → ds = cs) ∧ s = cs.flatMap (·.2) := by
  obtain ⟨cs, h⟩ := scans_total s.length s (Nat.le_refl _) hf
  exact ⟨cs, h, fun ds hd => scans_unique hd h, scans_bytes h⟩

/-- Text scans as its characters. -/
theorem C34_text (cs : List Char) (h : '\x00' ∉ cs) :
    Scans (utf8 cs) (cs.map fun c => ((c.toNat : Int), String.utf8EncodeChar c)) := scans_utf8 h

/-- **C34.** The length is the number of scanned characters. -/
theorem C34_length (s : List UInt8) (cs) (h : Scans s cs) : getLength s = some cs.length := getLength_scans h

/-- **C34.** The character at an index is the scanned character with its bytes; outside it is zero and empty. -/
theorem C34_char_at (s : List UInt8) (cs) (h : Scans s cs) (index : Int) :
    charAt s index = some (if 0 ≤ index then cs[index.toNat]?.getD (0, []) else (0, [])) := charAt_scans h index

/-- **C34.** A substring is made of the characters of the range; outside the string the result is NULL. -/
theorem C34_substring (s : List UInt8) (cs) (h : Scans s cs) (loc len : Nat) (hl : loc < 2 ^ 63) (hn : len < 2 ^ 63)
    (hpos : 0 < len) : substring s loc len =
      some (if loc + len ≤ cs.length then some (((cs.drop loc).take len).flatMap (·.2)) else none) :=
  substring_scans h loc len (by omega) (by omega) hpos

/-- **C34.** Cutting a nonempty string at any character index gives two strings that concatenate to it. -/
theorem C34_cut (s : List UInt8) (cs) (h : Scans s cs) (hs : s ≠ []) (n : Nat) (h63 : n < 2 ^ 63) (hn : n ≤ cs.length) :
    ∃ a b, substringToIndex s n = some (some a) ∧ substringFromIndex s n = some (some b) ∧ a ++ b = s ∧
      getLength a = some n ∧ getLength b = some (cs.length - n) := by
  have h1 := substringToIndex_scans h hs n (by omega)
  have h2 := substringFromIndex_scans h hs n (by omega)
  rw [if_pos hn] at h1 h2
  refine ⟨_, _, h1, h2, ?_, ?_, ?_⟩
  · rw [← List.flatMap_append, List.take_append_drop]; exact (scans_bytes h).symm
  · obtain ⟨ds, hd⟩ : ∃ ds, Scans ((cs.take n).flatMap (·.2)) ds := scans_total _ _ (Nat.le_refl _) (by
      intro hz; refine scans_nulfree h ?_
      rw [scans_bytes h, ← List.take_append_drop n cs, List.flatMap_append]
      exact List.mem_append_left _ hz)
    have : ds.length = n := by
      have := prefix_scans h n
      rw [scans_unique hd this, List.length_take]; omega
    rw [getLength_scans hd, this]
  · rw [getLength_scans (scans_drop h n), List.length_drop]

/-- Three characters of one, two and three bytes and a malformed one. -/
example : getLength [0x61, 0xc3, 0xa9, 0xe2, 0x82, 0xac, 0xff] = some 4 ∧
    charAt [0x61, 0xc3, 0xa9, 0xe2, 0x82, 0xac, 0xff] 2 = some (0x20ac, [0xe2, 0x82, 0xac]) ∧
    substring [0x61, 0xc3, 0xa9, 0xe2, 0x82, 0xac, 0xff] 1 2 = some (some [0xc3, 0xa9, 0xe2, 0x82, 0xac]) := by decide

/-- **C34 (violated).** On the empty string both halves of the cut at index zero are NULL, not empty strings. -/
theorem C34_cut_empty_fails : substringToIndex [] 0 = some none ∧ substringFromIndex [] 0 = some none := by decide

end Text
end Duck
