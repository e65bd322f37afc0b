import Verif.Lemmas.Text
import Verif.Lemmas.UnicodePrev
/-! # C35 search, C61 comparison of strings -/
namespace Duck
namespace Text
open Unicode

/-! ## C35 search -/

/-- What `firstAt` means: the least position at which the needle is a prefix of the rest. -/
theorem C35_first_occurrence {α : Type} [DecidableEq α] (needle hay : List α) (hne : needle ≠ []) :
    (∀ k, firstAt needle hay = some k ↔ needle <+: hay.drop k ∧ ∀ j, j < k → ¬ needle <+: hay.drop j) ∧
    (firstAt needle hay = none ↔ ∀ j, ¬ needle <+: hay.drop j) := firstAt_spec needle hne hay

/-- **C35.** In texts, the range found from character index `n` is the first occurrence there, as a character index and
    a number of characters; otherwise the result is "not found". -/
theorem C35_range_partial (cs ds : List Char) (hc : '\x00' ∉ cs) (hd : '\x00' ∉ ds) (hne : ds ≠ []) (n : Nat)
    (hn : n ≤ cs.length) (h63 : n < 2 ^ 63) :
    (∀ k, firstAt ds (cs.drop n) = some k →
      rangeOfString (utf8 cs) (utf8 ds) n = some (((n + k : Nat) : Int), (ds.length : Int))) ∧
    (firstAt ds (cs.drop n) = none → rangeOfString (utf8 cs) (utf8 ds) n = some (-1, 0)) := by
  have h := rangeOfString_text hc hd hne n hn (by omega)
  exact ⟨fun k hk => by rw [h, hk], fun hk => by rw [h, hk]⟩

/-- **C35.** The same in terms of scanned characters, malformed bytes included. -/
theorem C35_range_scanned (s pat : List UInt8) (cs ds) (h : Scans s cs) (hd : Scans pat ds) (hne : pat ≠ []) (n : Nat)
    (hn : n ≤ cs.length) (h63 : n < 2 ^ 63) :
    (∀ k, firstAt (ds.map (·.1)) ((cs.map (·.1)).drop n) = some k →
      rangeOfString s pat n = some (((n + k : Nat) : Int), (ds.length : Int))) ∧
    (firstAt (ds.map (·.1)) ((cs.map (·.1)).drop n) = none → rangeOfString s pat n = some (-1, 0)) := by
  have h' := rangeOfString_scans h hd hne n hn (by omega)
  have e : codes (cs.drop n) = (cs.map (·.1)).drop n := by simp [codes, List.map_drop]
  rw [e] at h'
  exact ⟨fun k hk => by rw [h', show codes ds = ds.map (·.1) from rfl, hk],
    fun hk => by rw [h', show codes ds = ds.map (·.1) from rfl, hk]⟩

/-- **C35.** Has-prefix, has-suffix and has-substring are what they say, for texts and nonempty patterns. -/
theorem C35_tests_partial (cs ds : List Char) (hc : '\x00' ∉ cs) (hd : '\x00' ∉ ds) (hne : ds ≠ []) (h63 : cs.length < 2 ^ 63) :
    hasPrefix (utf8 cs) (utf8 ds) = some (decide (ds <+: cs)) ∧
    hasSuffix (utf8 cs) (utf8 ds) = some (decide (ds <:+ cs)) ∧
    hasSubstring (utf8 cs) (utf8 ds) = some (decide (ds <:+: cs)) := by
  obtain ⟨hf1, hf2⟩ := firstAt_spec ds hne cs
  have h0 := rangeOfString_text hc hd hne 0 (Nat.zero_le _) (by omega)
  rw [List.drop_zero] at h0
  refine ⟨?_, ?_, ?_⟩
  · rw [hasPrefix, show (0 : Int) = ((0 : Nat) : Int) from rfl, h0, Option.map_some]
    congr 1
    cases hk : firstAt ds cs with
    | none =>
      have := hf2.mp hk 0
      simp only [List.drop_zero] at this
      simp [this]
    | some k =>
      obtain ⟨hp, hmin⟩ := (hf1 k).mp hk
      cases k with
      | zero => rw [List.drop_zero] at hp; simp [hp]
      | succ k =>
        have := hmin 0 (by omega)
        simp only [List.drop_zero] at this
        simp [this]; omega
  · rw [hasSuffix, getLength_scans (scans_text hc), getLength_scans (scans_text hd)]
    simp only [Option.bind_some, chunks, List.length_map]
    by_cases hl : cs.length ≥ ds.length
    · rw [if_pos hl, show (cs.length : Int) - (ds.length : Int) = ((cs.length - ds.length : Nat) : Int) by omega,
        rangeOfString_text hc hd hne _ (by omega) (by omega), Option.map_some]
      congr 1
      have hiff : ds <:+ cs ↔ cs.drop (cs.length - ds.length) = ds :=
        ⟨fun h => (List.suffix_iff_eq_drop.mp h).symm, fun h => h ▸ List.drop_suffix _ _⟩
      obtain ⟨hg1, hg2⟩ := firstAt_spec ds hne (cs.drop (cs.length - ds.length))
      have hlen : (cs.drop (cs.length - ds.length)).length = ds.length := by rw [List.length_drop]; omega
      cases hk : firstAt ds (cs.drop (cs.length - ds.length)) with
      | none =>
        have := hg2.mp hk 0
        rw [List.drop_zero] at this
        have : ¬ ds <:+ cs := fun h => this (by rw [hiff.mp h]; exact List.prefix_refl _)
        simp [this]
      | some k =>
        obtain ⟨hp, -⟩ := (hg1 k).mp hk
        have hk0 : k = 0 := by
          have := hp.length_le
          rw [List.length_drop, hlen] at this
          have : ds.length ≠ 0 := fun e => hne (List.length_eq_zero_iff.mp e)
          omega
        subst hk0
        rw [List.drop_zero] at hp
        have : ds <:+ cs := hiff.mpr (hp.eq_of_length hlen.symm).symm
        simp [this]
    · rw [if_neg hl]
      have : ¬ ds <:+ cs := fun h => hl h.length_le
      simp [this]
  · rw [hasSubstring, show (0 : Int) = ((0 : Nat) : Int) from rfl, h0, Option.map_some]
    congr 1
    cases hk : firstAt ds cs with
    | none =>
      have : ¬ ds <:+: cs := by
        rintro ⟨a, b, e⟩
        refine hf2.mp hk a.length ?_
        rw [← e, List.append_assoc, List.drop_left' rfl]
        exact List.prefix_append _ _
      simp [this]
    | some k =>
      have hp := ((hf1 k).mp hk).1
      have : ds <:+: cs := hp.isInfix.trans (List.drop_suffix k cs).isInfix
      simp [this]

/-- "naïve" contains "ï" at 2 and "ve" at 3 from 2 on. -/
example : rangeOfString (utf8 ['n', 'a', 'ï', 'v', 'e']) (utf8 ['ï']) 0 = some (2, 1) ∧
    rangeOfString (utf8 ['n', 'a', 'ï', 'v', 'e']) (utf8 ['v', 'e']) 2 = some (3, 2) ∧
    rangeOfString (utf8 ['n', 'a', 'ï', 'v', 'e']) (utf8 ['n']) 1 = some (-1, 0) ∧
    hasSuffix (utf8 ['n', 'a', 'ï', 'v', 'e']) (utf8 ['ï', 'v', 'e']) = some true ∧
    hasPrefix (utf8 ['n', 'a', 'ï', 'v', 'e']) (utf8 ['n', 'a', 'ï']) = some true := by decide +kernel

/-- **C35.** Searching a text backwards for a character gives the byte offset of its last occurrence, or NULL. -/
theorem C35_backwards (cs : List Char) (h : '\x00' ∉ cs) (ch : Char) :
    (∀ a b, cs = a ++ ch :: b → ch ∉ b → ustrrchr (mem (utf8 cs)) ch.toNat = some (some (utf8 a).length)) ∧
    (ch ∉ cs → ustrrchr (mem (utf8 cs)) ch.toNat = some none) := by
  have hs : strlen (mem (utf8 cs)) = some (utf8 cs).length := strlen_eq (utf8_nulfree h) [0, 0, 0]
  have hlen : cs.length ≤ (utf8 cs).length := by
    have := scans_length (scans_text h); simpa [chunks] using this
  have hr : ustrrchr (mem (utf8 cs)) ch.toNat =
      some ((firstAt [ch] cs.reverse).map fun k => (utf8 (cs.take (cs.length - 1 - k))).length) := by
    rw [ustrrchr, hs]
    exact ustrrchrGo_text ch cs.length cs _ rfl hlen _
  obtain ⟨h1, h2⟩ := firstAt_spec [ch] (by simp) cs.reverse
  refine ⟨fun a b e hb => ?_, fun hn => ?_⟩
  · have : firstAt [ch] cs.reverse = some b.length := by
      rw [h1]
      have er : cs.reverse = b.reverse ++ ch :: a.reverse := by rw [e]; simp
      rw [er]
      refine ⟨?_, fun j hj hp => ?_⟩
      · rw [List.drop_left' (by simp)]; exact ⟨a.reverse, rfl⟩
      · rw [List.drop_append_of_le_length (by simp; omega)] at hp
        obtain ⟨t, ht⟩ := hp
        have hb' : (b.reverse.drop j) ≠ [] := by
          intro e0; have := congrArg List.length e0; simp at this; omega
        have : ch ∈ b.reverse.drop j := by
          match hd : b.reverse.drop j, hb' with
          | x :: xs, _ => rw [hd] at ht; simp at ht; rw [ht.1]; simp
        exact hb (List.mem_reverse.mp (List.mem_of_mem_drop this))
    rw [hr, this, Option.map_some]
    congr 4
    rw [e]
    simp
  · rw [hr]
    have : firstAt [ch] cs.reverse = none := by
      rw [h2]
      intro j hp
      obtain ⟨t, ht⟩ := hp
      have : ch ∈ cs.reverse.drop j := by rw [← ht]; simp
      exact hn (List.mem_reverse.mp (List.mem_of_mem_drop this))
    rw [this]; rfl

example : ustrrchr (mem (utf8 ['ï', 'a', 'ï', 'b'])) ('ï').toNat = some (some 3) := by decide +kernel

/-- **C35 (violated).** Searching forwards for a character never returns its position: whenever the character occurs,
    the result is the byte offset just after the first occurrence. -/
theorem C35_forwards_fails (a b : List Char) (ch : Char) (h : '\x00' ∉ a ++ ch :: b) (ha : ch ∉ a) :
    ustrchr (mem (utf8 (a ++ ch :: b))) ch.toNat = some (some ((utf8 a).length + (String.utf8EncodeChar ch).length)) ∧
    (utf8 a).length < (utf8 a).length + (String.utf8EncodeChar ch).length := by
  have hlen := scans_length (scans_text h)
  have hr := ustrchrGo_scans (scans_text h) ch.toNat (mem (utf8 (a ++ ch :: b))) [0, 0, 0] (mem (utf8 (a ++ ch :: b))).length
    0 rfl (by simp [mem]; omega)
  refine ⟨?_, ?_⟩
  · rw [ustrchr, hr]
    have : firstAt [(ch.toNat : Int)] (codes (chunks (a ++ ch :: b))) = some a.length := by
      rw [codes_chunks, show [(ch.toNat : Int)] = [ch].map (fun c : Char => (c.toNat : Int)) from rfl, firstAt_map toInt_inj]
      rw [(firstAt_spec [ch] (by simp) _).1]
      refine ⟨by rw [List.drop_left' rfl]; exact ⟨b, rfl⟩, fun j hj hp => ?_⟩
      rw [List.drop_append_of_le_length (by omega)] at hp
      obtain ⟨t, ht⟩ := hp
      have hb' : a.drop j ≠ [] := by
        intro e0; have := congrArg List.length e0; simp at this; omega
      have : ch ∈ a.drop j := by
        match hd : a.drop j, hb' with
        | x :: xs, _ => rw [hd] at ht; simp at ht; rw [ht.1]; simp
      exact ha (List.mem_of_mem_drop this)
    rw [this, Option.map_some]
    have e : (chunks (a ++ ch :: b)).take (a.length + 1) = chunks (a ++ [ch]) := by
      rw [show a ++ ch :: b = (a ++ [ch]) ++ b by simp]
      simp only [chunks]
      rw [List.map_append, List.take_left' (by simp)]
    rw [e, flat_chunks]
    simp [utf8]
  · have : (String.utf8EncodeChar ch).length ≠ 0 := fun e => enc_ne_nil ch (List.length_eq_zero_iff.mp e)
    omega

example : ustrchr (mem (utf8 ['a', 'b', 'c'])) ('b').toNat = some (some 2) := by decide +kernel

/-- **C35 (violated).** A search starting beyond the end of the string reads through NULL. -/
theorem C35_start_fails : rangeOfString (utf8 ['a', 'b']) (utf8 ['b']) 3 = none := by decide +kernel

/-- **C35 (violated).** A negative start is accepted and shifts the reported location. -/
theorem C35_negative_start_fails : rangeOfString (utf8 ['a', 'b']) (utf8 ['b']) (-1) = some (0, 1) := by decide +kernel

/-- **C35 (violated).** All malformed bytes match each other: 0xfe is found in a string that holds only 0xff. -/
theorem C35_malformed_fails : rangeOfString [0xff] [0xfe] 0 = some (0, 1) := by decide +kernel

/-- **C35 (violated).** The empty string is a prefix, suffix and substring of no string. -/
theorem C35_empty_fails (s : List UInt8) : hasPrefix s [] = some false ∧ hasSubstring s [] = some false := by
  have : rangeOfString s [] 0 = some (-1, 0) := by
    rw [rangeOfString]
    split
    · simp [rangeStart, rd, mem]
    · rfl
  rw [hasPrefix, hasSubstring, this]
  exact ⟨rfl, rfl⟩

/-! ## C61 comparison -/

/-- **C61.** Comparing two texts orders them by code points: zero exactly for equal texts, positive exactly when the
    first comes before the second in the lexicographic order, negative exactly when it comes after. -/
theorem C61_order_partial (a b : List Char) (ha : '\x00' ∉ a) (hb : '\x00' ∉ b) :
    ∃ v, compareString (utf8 a) (utf8 b) = some v ∧ (v = 0 ↔ a = b) ∧ (v > 0 ↔ a < b) ∧ (v < 0 ↔ b < a) :=
  compare_text ha hb

/-- **C61.** Malformed strings too are compared without leaving their memory, by the scanned code points. -/
theorem C61_defined (a b : List UInt8) (cs ds) (ha : Scans a cs) (hb : Scans b ds) :
    ∃ v, compareString a b = some v ∧ (v = 0 ↔ cs.map (·.1) = ds.map (·.1)) := by
  obtain ⟨v, hv, hz, -⟩ := ustrcmpGo_scans ha b _ hb (mem a).length [0, 0, 0] [0, 0, 0]
    (by have := scans_length ha; simp [mem]; omega)
  exact ⟨v, hv, hz⟩

/-- Not the byte order of the first difference alone: a prefix comes first, "é" comes after "z". -/
example : (∃ v, compareString (utf8 ['a']) (utf8 ['a', 'b']) = some v ∧ v > 0) ∧
    (∃ v, compareString (utf8 ['z']) (utf8 ['é']) = some v ∧ v > 0) :=
  ⟨⟨98, by decide +kernel, by decide⟩, ⟨111, by decide +kernel, by decide⟩⟩

/-- **C61 (violated).** Different malformed strings compare as equal. -/
theorem C61_malformed_fails : compareString [0xff] [0xfe] = some 0 := by decide +kernel

end Text
end Duck
