import Verif.Lemmas.JsonSafe
/-! # C40-C42, C63 and C90: JSON -/
namespace Duck
namespace Json
open Unicode Num

/-- **C63, partial.** Every text of the JSON grammar is parsed as the value it denotes, whatever white space surrounds it
    and whatever lies in memory after its terminator, and with no undefined behaviour on the way.  With the vector syntax
    extension (`x`) vectors are part of the grammar.  Missing from the grammar: exponents with a sign, numbers out of range (C43), surrogate pairs and `\u0000` (false, below). -/
theorem C63_accepts_partial (x : Option Bool) (t : List UInt8) (v : Json) (h : Val x t v) (a b : List UInt8) (ha : Ws a) (hb : Ws b) (r : List UInt8) :
    parse (strict x) (a ++ t ++ b ++ 0 :: r) = some v := by
  have hd : Delim b := by
    intro y hy
    have : y ∈ b := List.mem_of_mem_head? hy
    rcases hb y this with rfl | rfl | rfl | rfl <;> decide
  rw [parse, parse_val (strict x) h ha hd r _ (by simp; omega)]
  rfl

/-- `{ "a\n" : [1, -2.5, true], "b":"€" }` is such a text. -/
example (x : Option Bool) : Val x ([0x7b] ++ [0x20, 0x22, 0x61, 0x5c, 0x6e, 0x22, 0x20, 0x3a, 0x20, 0x5b, 0x31, 0x2c, 0x20, 0x2d, 0x32, 0x2e, 0x35, 0x5d, 0x2c,
      0x22, 0x62, 0x22, 0x3a, 0x22, 0x5c, 0x75, 0x32, 0x30, 0x61, 0x63, 0x22, 0x20] ++ [0x7d])
    (.dict [([0x61, 0x0a], .list [.num (.int 1), .num (.dbl true 2 [5] none)]), ([0x62], .str [0xe2, 0x82, 0xac])]) := by
  have sp : Ws [0x20] := by intro b hb; left; simpa using hb
  have v1 : Val x [0x31] (.num (.int 1)) :=
    .num _ _ (.mk false [0x31] none none (by unfold Digits; decide) (by simp) (by decide) (by simp) (by simp))
  have v2 : Val x [0x2d, 0x32, 0x2e, 0x35] (.num (.dbl true 2 [5] none)) :=
    .num _ _ (.mk true [0x32] (some [0x35]) none (by unfold Digits; decide) (by simp) (by decide)
      (by intro fs h; cases h; exact ⟨by unfold Digits; decide, by decide⟩) (by simp))
  have l1 := Val.list _ _ (.cons [] _ [] _ _ _ ws_nil ws_nil v1 (.one [0x20] _ [] _ sp ws_nil v2))
  have k1 : StrBody [0x61, 0x5c, 0x6e] [0x61, 0x0a] := .raw _ _ _ (by decide) (by decide) (by decide) (.esc 0x6e 0x0a _ _ (by decide) .nil)
  have k2 : StrBody [0x62] [0x62] := .raw _ _ _ (by decide) (by decide) (by decide) .nil
  have s1 : StrBody [0x5c, 0x75, 0x32, 0x30, 0x61, 0x63] [0xe2, 0x82, 0xac] := by
    have := StrBody.uni 0x32 0x30 0x61 0x63 2 0 10 12 '€' [] [] (by unfold Hex; decide) (by unfold Hex; decide) (by unfold Hex; decide)
      (by unfold Hex; decide) (by decide) (by decide) .nil
    exact this
  exact .dict _ _ (.cons [0x20] _ _ [0x20] [0x20] _ [] _ _ _ sp sp sp ws_nil k1 l1 (.one [] _ _ [] [] _ [0x20] _ ws_nil ws_nil ws_nil sp k2 (.str _ _ s1)))

/-- **C63 (violated).** Malformed texts are accepted: `[1,]`, `7 x`, `"a` (unterminated), `trueish`. -/
theorem C63_malformed_fails : ∀ H : Host,
    parse H [0x5b, 0x31, 0x2c, 0x5d, 0] = some (.list [.num (.int 1)]) ∧ parse H [0x37, 0x20, 0x78, 0] = some (.num (.int 7)) ∧
    parse H [0x22, 0x61, 0] = some (.str [0x61]) ∧ parse H [0x74, 0x72, 0x75, 0x65, 0x69, 0x73, 0x68, 0] = some (.bool true) :=
  fun _ => ⟨rfl, rfl, rfl, rfl⟩

/-- **C63 (violated).** Valid texts are not understood: `1e-5` is read as 1.0, and the surrogate pair `"😀"`
    (U+1F600) is undefined behaviour. -/
theorem C63_valid_fails (x : Option Bool) : parse (strict x) [0x31, 0x65, 0x2d, 0x35, 0] = some (.num (.dbl false 1 [] (some 0))) ∧
    parse (strict x) [0x22, 0x5c, 0x75, 0x64, 0x38, 0x33, 0x64, 0x5c, 0x75, 0x64, 0x65, 0x30, 0x30, 0x22, 0] = none := ⟨rfl, rfl⟩

/-- **C40.** A string written as a literal and parsed gives the same bytes, for every string without NUL, well-formed or
    not, in either style. -/
theorem C40 (real : Num → List UInt8) (pretty : Bool) (x : Option Bool) (s : List UInt8) (hs : NulFree s) (r : List UInt8) :
    ∃ t, write real pretty x.isSome (.str s) = some t ∧ parse (strict x) (t ++ 0 :: r) = some (.str s) := by
  obtain ⟨t, h1, h2⟩ := write_val real pretty x (.str s hs) 0
  have hc : writeComma pretty 0 false = [] := rfl
  cases pretty with
  | false =>
    refine ⟨t, by rw [write, h2, hc]; rfl, ?_⟩
    have := C63_accepts_partial x t _ h1 [] [] ws_nil ws_nil r
    simpa using this
  | true =>
    refine ⟨t ++ [0x0a], by rw [write, h2, hc]; rfl, ?_⟩
    exact C63_accepts_partial x t _ h1 [] [0x0a] ws_nil (ws_newline 0) r

/-- **C40.** What is written is a literal of the JSON grammar for the string. -/
theorem C40_literal (s : List UInt8) (hs : NulFree s) : ∃ t, writeString s = some (0x22 :: t ++ [0x22]) ∧ StrBody t s :=
  writeString_eq hs

/-- `a"\` newline and a malformed byte: `"a\"\\\n<ff>"` -/
example : write (fun _ => []) false false (.str [0x61, 0x22, 0x5c, 0x0a, 0xff]) =
    some [0x22, 0x61, 0x5c, 0x22, 0x5c, 0x5c, 0x5c, 0x6e, 0xff, 0x22] ∧ NulFree [0x61, 0x22, 0x5c, 0x0a, 0xff] := by
  refine ⟨rfl, ?_⟩; unfold NulFree; decide

/-- **C41, partial.** A tree written in either style and parsed gives an equal tree.  Missing: keys with quotation marks
    or backslashes and the integer -2^63 (false, below), floating point numbers, and numbers of several elements without
    the vector syntax extension (false, C90). -/
theorem C41_partial (real : Num → List UInt8) (pretty : Bool) (x : Option Bool) (v : Json) (h : Plain x v) (r : List UInt8) :
    ∃ t, write real pretty x.isSome v = some t ∧ parse (strict x) (t ++ 0 :: r) = some v := by
  obtain ⟨t, h1, h2⟩ := write_val real pretty x h 0
  have hc : writeComma pretty 0 false = [] := rfl
  cases pretty with
  | false =>
    refine ⟨t, by rw [write, h2, hc]; rfl, ?_⟩
    have := C63_accepts_partial x t _ h1 [] [] ws_nil ws_nil r
    simpa using this
  | true =>
    refine ⟨t ++ [0x0a], by rw [write, h2, hc]; rfl, ?_⟩
    exact C63_accepts_partial x t _ h1 [] [0x0a] ws_nil (ws_newline 0) r

/-- **C41.** What is written is a text of the JSON grammar denoting the tree. -/
theorem C41_valid_partial (real : Num → List UInt8) (pretty : Bool) (x : Option Bool) (v : Json) (h : Plain x v) :
    ∃ t w, Ws w ∧ Val x t v ∧ write real pretty x.isSome v = some (t ++ w) := by
  obtain ⟨t, h1, h2⟩ := write_val real pretty x h 0
  have hc : writeComma pretty 0 false = [] := rfl
  cases pretty with
  | false => exact ⟨t, [], ws_nil, h1, by rw [write, h2, hc]; simp⟩
  | true => exact ⟨t, [0x0a], ws_newline 0, h1, by rw [write, h2, hc]; simp⟩

/-- `{"k":[null,-12,"x"],"":{}}` -/
example (x : Option Bool) : Plain x (.dict [([0x6b], .list [.null, .num (.int (-12)), .str [0x78]]), ([], .dict [])]) ∧
    write (fun _ => []) false false (.dict [([0x6b], .list [.null, .num (.int (-12)), .str [0x78]]), ([], .dict [])]) =
      some [0x7b, 0x22, 0x6b, 0x22, 0x3a, 0x5b, 0x6e, 0x75, 0x6c, 0x6c, 0x2c, 0x2d, 0x31, 0x32, 0x2c, 0x22, 0x78, 0x22, 0x5d, 0x2c,
        0x22, 0x22, 0x3a, 0x7b, 0x7d, 0x7d] := by
  refine ⟨.dict _ (by decide) (.cons _ _ _ (by decide) (by decide) (by decide) (.list _ (.cons _ _ .null (.cons _ _ (.int _ (by decide))
    (.cons _ _ (.str _ (by unfold NulFree; decide)) .nil)))) (.cons _ _ _ (by decide) (by decide) (by decide) (.dict _ (by simp) .nil) .nil)), rfl⟩

/-- **C41 (violated).** Keys are not escaped: `{a"b: 1}` is written as `{"a"b":1}` and parsed as NULL, and a key ending in
    a backslash swallows the rest of the text. -/
theorem C41_key_fails : ∀ H : Host,
    write (fun _ => []) false false (.dict [([0x61, 0x22, 0x62], .num (.int 1))]) = some [0x7b, 0x22, 0x61, 0x22, 0x62, 0x22, 0x3a, 0x31, 0x7d] ∧
    parse H [0x7b, 0x22, 0x61, 0x22, 0x62, 0x22, 0x3a, 0x31, 0x7d, 0] = some .null ∧
    write (fun _ => []) false false (.dict [([0x5c], .num (.int 1))]) = some [0x7b, 0x22, 0x5c, 0x22, 0x3a, 0x31, 0x7d] ∧
    parse H [0x7b, 0x22, 0x5c, 0x22, 0x3a, 0x31, 0x7d, 0] = some .null := fun _ => ⟨rfl, rfl, rfl, rfl⟩

/-- **C41 (violated).** The least 64-bit integer is written correctly but overflows when parsed. -/
theorem C41_min_fails (real : Num → List UInt8) : ∀ H : Host, ∃ t, write real false false (.num (.int (-(2 ^ 63)))) = some t ∧
    parse H (t ++ [0]) = some (.num .overflow) := fun _ => ⟨_, rfl, rfl⟩

/-! ## C42 -/

/-- **C42, partial.** When every `\u` is followed by at least four bytes, parsing any text ends and reads nothing beyond
    the terminator: with `[0]` the end of the readable memory there is a result, provided only that the C library's
    `isspace` answers for characters from 256 up and that reading an uninitialised array gives some string, with or without
    the vector syntax extension.  Missing:
    a `\u` with less than four bytes after it (false, below). -/
theorem C42_bounds_partial (H : Host) (hw : ∀ ch, ∃ b, H.wide ch = some b) (hj : ∃ u, H.junk = some u) (s : List UInt8) (hs : NulFree s)
    (hu : ∀ t, (0x5c :: 0x75 :: t) <:+ s → 4 ≤ t.length) : ∃ v, parse H (s ++ [0]) = some v := by
  refine fine_parse ⟨hs, fun t _ c k _ => ?_, fun t ht => ⟨hu t ht, ?_⟩⟩
  · unfold isspace
    split
    · exact ⟨_, rfl⟩
    · exact hw c
  · have := hu t ht
    obtain ⟨r, hr⟩ := ustrwrite_eight (strtol16 ((t ++ [0]).take 4))
    rw [unicodePoint, if_pos (by simp; omega), hr, Option.bind_some]
    split
    · exact hj
    · exact ⟨_, rfl⟩

/-- **C42, partial.** Without those provisos parsing has no undefined behaviour when moreover every `\u` is followed by
    four hexadecimal digits that are not a surrogate, and no character from U+0100 up occurs (no byte from 0xc4 up).
    (Valid JSON texts may contain such characters in strings, C63.) -/
theorem C42_defined_partial (x : Option Bool) (s : List UInt8) (hs : NulFree s) (hb : ∀ b ∈ s, b.toNat < 0xc4)
    (hu : ∀ t, (0x5c :: 0x75 :: t) <:+ s → ∃ h3 h2 h1 h0 d3 d2 d1 d0 t', t = h3 :: h2 :: h1 :: h0 :: t' ∧ Hex h3 d3 ∧ Hex h2 d2 ∧
      Hex h1 d1 ∧ Hex h0 d0 ∧ ∃ ch : Char, ch.toNat = d3 * 4096 + d2 * 256 + d1 * 16 + d0) :
    ∃ v, parse (strict x) (s ++ [0]) = some v := by
  refine fine_parse ⟨hs, fun t ht c k hk => ?_, fun t ht => ?_⟩
  · have hc : -1 ≤ c ∧ c < 256 := by
      rcases Nat.eq_zero_or_pos k with rfl | hpos
      · match t, ht, hk with
        | [], _, hk => cases hk; omega
        | b :: t, ht, hk =>
          have hb0 : NulFree (b :: t) := fun e => hs (ht.subset e)
          obtain ⟨c', k', e, -⟩ := scan_text hb0
          rw [e] at hk; cases hk
      · rcases C33_scan_wellformed _ c k hk hpos with rfl | ⟨ch, rfl, h2⟩
        · omega
        · have hv := char_scalar ch
          rw [enc_eq] at h2
          match t, ht, hk, h2 with
          | [], _, hk, _ => simp [ustrscan_zero] at hk; omega
          | b :: t, ht, hk, h2 =>
            have hlt := hb b (ht.subset (by simp))
            obtain ⟨k, rfl⟩ : ∃ k', k = k' + 1 := ⟨k - 1, by omega⟩
            rw [List.cons_append, List.take_succ_cons] at h2
            generalize ch.toNat = v at h2 hv ⊢
            unfold encNat at h2
            repeat' split at h2
            · omega
            · simp only [List.cons.injEq] at h2
              have := congrArg UInt8.toNat h2.1
              rw [UInt8.toNat_ofNat'] at this
              omega
            · simp only [List.cons.injEq] at h2
              have := congrArg UInt8.toNat h2.1
              rw [UInt8.toNat_ofNat'] at this
              omega
            · simp only [List.cons.injEq] at h2
              have := congrArg UInt8.toNat h2.1
              rw [UInt8.toNat_ofNat'] at this
              omega
    exact ⟨_, by rw [isspace, if_pos hc]⟩
  · obtain ⟨h3, h2, h1, h0, d3, d2, d1, d0, t', rfl, e3, e2, e1, e0, ch, hch⟩ := hu t ht
    refine ⟨by simp, ?_⟩
    have hl := enc_length_le ch
    have hw := C33_write ch (List.replicate 8 0) (by simp) (by rw [List.length_replicate]; omega)
    rw [unicodePoint, if_pos (by simp), show List.take 4 (h3 :: h2 :: h1 :: h0 :: t' ++ [0]) = [h3, h2, h1, h0] from rfl,
      strtol16_eq e3 e2 e1 e0, ← hch, hw, Option.bind_some]
    have hp : (String.utf8EncodeChar ch).length ≠ 0 := by
      have := encNat_length_pos ch.toNat
      rw [enc_eq]; omega
    exact ⟨_, by rw [if_neg hp]⟩

/-- The malformed text `{"é":]é` meets the hypotheses of both. -/
example : ∃ s : List UInt8, s = [0x7b, 0x22, 0x5c, 0x75, 0x30, 0x30, 0x65, 0x39, 0x22, 0x3a, 0x5d, 0xc3, 0xa9] ∧ NulFree s ∧
    (∀ b ∈ s, b.toNat < 0xc4) ∧
    (∀ t, (0x5c :: 0x75 :: t) <:+ s → ∃ h3 h2 h1 h0 d3 d2 d1 d0 t', t = h3 :: h2 :: h1 :: h0 :: t' ∧ Hex h3 d3 ∧ Hex h2 d2 ∧
      Hex h1 d1 ∧ Hex h0 d0 ∧ ∃ ch : Char, ch.toNat = d3 * 4096 + d2 * 256 + d1 * 16 + d0) := by
  refine ⟨_, rfl, by unfold NulFree; decide, by decide, fun t ht => ?_⟩
  simp [List.suffix_cons_iff] at ht
  subst ht
  exact ⟨0x30, 0x30, 0x65, 0x39, 0, 0, 14, 9, _, rfl, by unfold Hex; decide, by unfold Hex; decide, by unfold Hex; decide,
    by unfold Hex; decide, 'é', by decide⟩

/-- **C42 (violated).** `"\u` is read beyond its terminator, also when three more zero bytes follow the terminator. -/
theorem C42_bounds_fails : ∀ H : Host, parse H [0x22, 0x5c, 0x75, 0] = none ∧ parse H [0x22, 0x5c, 0x75, 0, 0, 0, 0] = none := by
  intro H
  exact ⟨rfl, rfl⟩

/-- **C42 (violated).** A `€` outside a string reads beyond the table of `isspace`; `"\ud800"` uses an uninitialised
    array. -/
theorem C42_defined_fails (x : Option Bool) : parse (strict x) [0xe2, 0x82, 0xac, 0] = none ∧
    parse (strict x) [0x22, 0x5c, 0x75, 0x64, 0x38, 0x30, 0x30, 0x22, 0] = none := ⟨rfl, rfl⟩

/-! ## C90 -/

/-- **C90, partial.** With the vector syntax extension `#[`, numbers separated by commas, `]` is read as the number with these
    elements: of integers if all are, else of floating point numbers; of 32 bits when asked for.  Missing: the restrictions
    of C43 on numerals, 32 bit vectors with larger integers, 2^24 elements and more, and the vector without elements (false,
    below). -/
theorem C90_read_partial (narrow : Bool) (t : List UInt8) (l : List Num) (h : Nums t l) (h24 : l.length < 2 ^ 24) (hf : Fit narrow l)
    (a b : List UInt8) (ha : Ws a) (hb : Ws b) (r : List UInt8) :
    parse (strict (some narrow)) (a ++ (0x23 :: 0x5b :: t ++ [0x5d]) ++ b ++ 0 :: r) = some (vector narrow l) :=
  C63_accepts_partial (some narrow) _ _ (.vec narrow t l rfl h h24 hf) a b ha hb r

/-- **C90, partial.** Writing a number of two or more integers and reading it gives the number again.  Missing: as above, and
    floating point numbers. -/
theorem C90_round_trip_partial (real : Num → List UInt8) (pretty narrow : Bool) (l : List Int) (h2 : 2 ≤ l.length) (h24 : l.length < 2 ^ 24)
    (h63 : ∀ i ∈ l, i.natAbs < 2 ^ 63) (h31 : narrow = true → ∀ i ∈ l, -2 ^ 31 ≤ i ∧ i < 2 ^ 31) (r : List UInt8) :
    ∃ t, write real pretty true (.vec narrow false (l.map .int)) = some t ∧
      parse (strict (some narrow)) (t ++ 0 :: r) = some (.vec narrow false (l.map .int)) :=
  C41_partial real pretty (some narrow) _ (.vec narrow l rfl h2 h24 h63 h31) r

/-- `#[1, -2.5]`, and the vector 7, -8 -/
example : Nums [0x31, 0x2c, 0x20, 0x2d, 0x32, 0x2e, 0x35] [.int 1, .dbl true 2 [5] none] ∧
    vector false [.int 1, .dbl true 2 [5] none] = .vec false true [.int 1, .dbl true 2 [5] none] ∧
    write (fun _ => []) false true (.vec true false ([7, -8].map .int)) = some [0x23, 0x5b, 0x37, 0x2c, 0x20, 0x2d, 0x38, 0x5d] := by
  refine ⟨?_, rfl, rfl⟩
  have sp : Ws [0x20] := by intro b hb; left; simpa using hb
  have v1 : Numeral [0x31] (.int 1) := .mk false [0x31] none none (by unfold Digits; decide) (by simp) (by decide) (by simp) (by simp)
  have v2 : Numeral [0x2d, 0x32, 0x2e, 0x35] (.dbl true 2 [5] none) :=
    .mk true [0x32] (some [0x35]) none (by unfold Digits; decide) (by simp) (by decide)
      (by intro fs h; cases h; exact ⟨by unfold Digits; decide, by decide⟩) (by simp)
  exact .cons [] _ [] _ _ _ ws_nil ws_nil v1 (.one [0x20] _ [] _ sp ws_nil v2)

/-- **C90.** Incomplete vectors are refused: `#[1`, `#[1,]`, `#[1 2]`, `#[x]`, `#1`, `#[#[1]]`. -/
theorem C90_refused : ∀ H : Host, H.vec.isSome → ∀ t ∈ ([[0x23, 0x5b, 0x31], [0x23, 0x5b, 0x31, 0x2c, 0x5d], [0x23, 0x5b, 0x31, 0x20, 0x32, 0x5d],
      [0x23, 0x5b, 0x78, 0x5d], [0x23, 0x31], [0x23, 0x5b, 0x23, 0x5b, 0x31, 0x5d, 0x5d]] : List (List UInt8)),
    parse H (t ++ [0]) = some .null := by
  rintro ⟨w, j, _ | _ | _⟩ h t ht
  · cases h
  all_goals
    simp only [List.mem_cons, List.not_mem_nil, or_false] at ht
    rcases ht with rfl | rfl | rfl | rfl | rfl | rfl <;> rfl

/-- **C90 (violated).** The vector without elements is refused; a malformed number is accepted: `#[1x]` is 1. -/
theorem C90_empty_fails : parse (strict (some false)) [0x23, 0x5b, 0x5d, 0] = some .null ∧
    parse (strict (some false)) [0x23, 0x5b, 0x31, 0x78, 0x5d, 0] = some (.num (.int 1)) := ⟨rfl, rfl⟩

/-- **C90 (violated).** Read as 32 bit numbers, larger integers wrap around, even when the vector is one of floating point
    numbers: `#[3000000000, 0.5]` is -1294967296 and 0.5, while `#[0.5, 3000000000]` is right. -/
theorem C90_narrow_fails :
    parse (strict (some true)) ([0x23, 0x5b, 0x33, 0x30, 0x30, 0x30, 0x30, 0x30, 0x30, 0x30, 0x30, 0x30, 0x2c, 0x30, 0x2e, 0x35, 0x5d, 0]) =
      some (.vec true true [.int (-1294967296), .dbl false 0 [5] none]) ∧
    parse (strict (some true)) ([0x23, 0x5b, 0x30, 0x2e, 0x35, 0x2c, 0x33, 0x30, 0x30, 0x30, 0x30, 0x30, 0x30, 0x30, 0x30, 0x30, 0x5d, 0]) =
      some (.vec true true [.dbl false 0 [5] none, .int 3000000000]) := ⟨rfl, rfl⟩

/-- **C90 (violated).** A vector of 2^24 elements is read as a number without elements. -/
theorem C90_count_fails (t : List UInt8) (l : List Num) (h : Nums t l) (h24 : l.length = 2 ^ 24) (r : List UInt8) :
    parse (strict (some false)) ((0x23 :: 0x5b :: t ++ [0x5d]) ++ 0 :: r) = some (.vec false (l.any isReal) []) := by
  have hs := scanToken_vec (strict (some false)) rfl (w := []) ws_nil h [] r
  rw [List.nil_append, List.append_nil, List.nil_append] at hs
  obtain ⟨f, hf⟩ : ∃ f, 2 * ((0x23 :: 0x5b :: t ++ [0x5d]) ++ 0 :: r).length = f + 1 := ⟨_, by simp; rfl⟩
  rw [parse, hf, parseObject, hs, Option.bind_some]
  have e : ((strict (some false)).vec == some true) = false := rfl
  rw [e, push_all false _ (nums_real h) (fun h => by cases h)]
  simp [Buf.number, h24, Res.object]

/-- There are such vectors. -/
example : ∃ t l, Nums t l ∧ l.length = 2 ^ 24 := by
  have v1 : Numeral [0x31] (.int 1) := .mk false [0x31] none none (by unfold Digits; decide) (by simp) (by decide) (by simp) (by simp)
  have key : ∀ n, ∃ t, Nums t (List.replicate (n + 1) (.int 1)) := by
    intro n
    induction n with
    | zero => exact ⟨_, .one [] _ [] _ ws_nil ws_nil v1⟩
    | succ n ih =>
      obtain ⟨t, ht⟩ := ih
      exact ⟨_, .cons [] _ [] _ t _ ws_nil ws_nil v1 ht⟩
  obtain ⟨t, ht⟩ := key (2 ^ 24 - 1)
  exact ⟨t, _, ht, by rw [List.length_replicate]⟩

/-- **C90 (violated).** Without the extension a number of several elements becomes a string, and `#[1]` is not read. -/
theorem C90_string_fails (real : Num → List UInt8) : write real false false (.vec false false [.int 1, .int 2]) = some [0x22, 0x31, 0x20, 0x32, 0x22] ∧
    parse (strict none) [0x22, 0x31, 0x20, 0x32, 0x22, 0] = some (.str [0x31, 0x20, 0x32]) ∧
    parse (strict none) [0x23, 0x5b, 0x31, 0x5d, 0] = some .null := ⟨rfl, rfl, rfl⟩

end Json
end Duck
