import Verif.Lemmas.TextWrap
/-! # C75 trimming, C76 filtering, C77 wrapping of strings -/
namespace Duck
namespace Text
open Unicode

/-! ## C75 -/

/-- What `Trimmed` means: there is at most one such part. -/
theorem C75_spec {α : Type} {code : α → Int} {s t t' : List α} (h : Trimmed code s t) (h' : Trimmed code s t') : t = t' :=
  trimmed_unique h h'

/-- **C75, partial.** A text of characters below U+0100 is trimmed on both sides and nowhere else; the result is a text.
    Missing: other characters, where the behaviour is undefined (below). -/
theorem C75_text_partial (cs t : List Char) (hz : '\x00' ∉ cs) (hn : ∀ c ∈ cs, c.toNat < 256)
    (h : Trimmed (fun c : Char => (c.toNat : Int)) cs t) : trim (utf8 cs) = some (utf8 t) := by
  obtain ⟨t', ht', e⟩ := trim_scans (scans_text hz) (by
    intro x hx
    obtain ⟨c, hc, rfl⟩ := List.mem_map.mp hx
    have := hn c hc; simp only; omega)
  have hc : Trimmed (fun x : Int × List UInt8 => x.1) (chunks cs) (chunks t) := by
    obtain ⟨a, b, e, ha, hb, h1, h2⟩ := h
    refine ⟨chunks a, chunks b, by rw [e]; simp [chunks], ?_, ?_, ?_, ?_⟩
    · intro x hx; obtain ⟨c, hc, rfl⟩ := List.mem_map.mp hx; exact ha c hc
    · intro x hx; obtain ⟨c, hc, rfl⟩ := List.mem_map.mp hx; exact hb c hc
    · intro x hx
      rw [chunks, List.head?_map, Option.map_eq_some_iff] at hx
      obtain ⟨c, hc, rfl⟩ := hx; exact h1 c hc
    · intro x hx
      rw [chunks, List.getLast?_map, Option.map_eq_some_iff] at hx
      obtain ⟨c, hc, rfl⟩ := hx; exact h2 c hc
  rw [e, trimmed_unique ht' hc]
  exact congrArg some (flat_chunks t)

/-- **C75, partial.** The same for any bytes, split into the units the scanner sees (a malformed sequence has code -1
    and is not white). -/
theorem C75_bytes_partial (s : List UInt8) (cs : List (Int × List UInt8)) (h : Scans s cs) (hn : ∀ x ∈ cs, x.1 < 256) :
    ∃ t, Trimmed (·.1) cs t ∧ trim s = some (t.flatMap (·.2)) := trim_scans h hn

/-- **C75, partial.** Trimming again changes nothing. -/
theorem C75_again_partial (cs t : List Char) (hz : '\x00' ∉ cs) (hn : ∀ c ∈ cs, c.toNat < 256)
    (h : Trimmed (fun c : Char => (c.toNat : Int)) cs t) : (trim (utf8 cs)).bind trim = some (utf8 t) := by
  rw [C75_text_partial cs t hz hn h, Option.bind_some]
  obtain ⟨a, b, e, -, -, h1, h2⟩ := h
  have hm : ∀ c ∈ t, c ∈ cs := fun c hc => by rw [e]; simp [hc]
  exact C75_text_partial t t (fun hc => hz (hm _ hc)) (fun c hc => hn c (hm c hc))
    ⟨[], [], by simp, by simp, by simp, h1, h2⟩

/-- White space at both ends and inside, a text of white space only, and one with "é" at the end. -/
example : Trimmed (fun c : Char => (c.toNat : Int)) [' ', '\n', 'a', ' ', 'b', '\t'] ['a', ' ', 'b'] ∧
    trim (utf8 [' ', '\n', 'a', ' ', 'b', '\t']) = some (utf8 ['a', ' ', 'b']) ∧
    trim (utf8 [' ', ' ']) = some [] ∧ trim (utf8 [' ', 'a', 'é']) = some (utf8 ['a', 'é']) :=
  ⟨⟨[' ', '\n'], ['\t'], rfl, by decide +kernel, by decide +kernel, by intro x hx; cases hx; decide +kernel,
    by intro x hx; cases hx; decide +kernel⟩, by decide +kernel, by decide +kernel, by decide +kernel⟩

example : Scans [0x20, 0xff, 0x20] [(32, [0x20]), (-1, [0xff]), (32, [0x20])] ∧ trim [0x20, 0xff, 0x20] = some [0xff] :=
  ⟨.cons 32 [0x20] _ _ (by simp) (by decide +kernel) (.cons (-1) [0xff] _ _ (by simp) (by decide +kernel)
    (.cons 32 [0x20] _ _ (by simp) (by decide +kernel) .nil)), by decide +kernel⟩

/-- **C75 (violated).** A text with a character from U+0100 on, wherever it is, is passed to `isspace`, which is
    undefined for it. -/
theorem C75_wide_fails (cs : List Char) (hz : '\x00' ∉ cs) (hw : ∃ c ∈ cs, 256 ≤ c.toNat) : trim (utf8 cs) = none := by
  obtain ⟨c, hc, h⟩ := hw
  refine trim_wide (scans_text hz) ⟨_, List.mem_map.mpr ⟨c, hc, rfl⟩, ?_⟩
  simp only; omega

example : trim (utf8 [' ', 'π']) = none := C75_wide_fails _ (by decide) ⟨'π', by simp, by decide⟩

/-! ## C76 -/

/-- **C76.** For every string (any bytes but the terminator) and every filter function: the function is asked about
    the characters of the string in order, with the right positions, bytes and code, until it answers "stop"; the
    result holds exactly the bytes of the characters it kept and the context is the one the function left. -/
theorem C76_filter {σ : Type} (f : Filter σ) (s : List UInt8) (hs : (0 : UInt8) ∉ s) (x : σ) :
    ∃ cs, Scans s cs ∧ filter f s x = some ((select f 0 0 x cs).1.flatten, (select f 0 0 x cs).2) := by
  obtain ⟨cs, h⟩ := scans_total s.length s (Nat.le_refl _) hs
  exact ⟨cs, h, filter_scans f h x⟩

/-- **C76.** A filter that looks at the characters only, and never stops. -/
theorem C76_text (p : Char → Bool) (cs : List Char) (hz : '\x00' ∉ cs) :
    (filter (fun _ _ _ c (_ : Unit) => ⟨p (Char.ofNat c.toNat), false, ()⟩) (utf8 cs) ()).map (·.1) = some (utf8 (cs.filter p)) := by
  rw [filter_scans _ (scans_text hz)]
  simp only [Option.map_some, Option.some.injEq]
  generalize (0 : Nat) = i
  have : ∀ (cs : List Char) (i j : Nat), (select (fun _ _ _ c (_ : Unit) => (⟨p (Char.ofNat c.toNat), false, ()⟩ : Verdict Unit)) i j () (chunks cs)).1.flatten =
      utf8 (cs.filter p) := by
    intro cs
    induction cs with
    | nil => intro i j; rfl
    | cons c cs ih =>
      intro i j
      have e : chunks (c :: cs) = ((c.toNat : Int), String.utf8EncodeChar c) :: chunks cs := rfl
      rw [e, select]
      simp only [Int.toNat_natCast, Char.ofNat_toNat, Bool.false_eq_true, if_false, List.filter_cons]
      cases hp : p c
      · simp only [Bool.false_eq_true, if_false]; exact ih _ _
      · simp only [if_true, List.flatten_cons]
        rw [ih]
        simp [utf8]
  exact this cs i i

/-- **C76.** After "stop" nothing else is looked at: a filter that keeps characters and stops at the first that is not
    wanted, counting the characters it is asked about. -/
theorem C76_stop (p : Char → Bool) (cs : List Char) (hz : '\x00' ∉ cs) :
    filter (fun _ _ _ c (n : Nat) => ⟨p (Char.ofNat c.toNat), !p (Char.ofNat c.toNat), n + 1⟩) (utf8 cs) 0 =
      some (utf8 (cs.takeWhile p), min cs.length ((cs.takeWhile p).length + 1)) := by
  rw [filter_scans _ (scans_text hz)]
  have : ∀ (cs : List Char) (i j n : Nat),
      (select (fun _ _ _ c (n : Nat) => (⟨p (Char.ofNat c.toNat), !p (Char.ofNat c.toNat), n + 1⟩ : Verdict Nat)) i j n (chunks cs)).1.flatten =
        utf8 (cs.takeWhile p) ∧
      (select (fun _ _ _ c (n : Nat) => (⟨p (Char.ofNat c.toNat), !p (Char.ofNat c.toNat), n + 1⟩ : Verdict Nat)) i j n (chunks cs)).2 =
        n + min cs.length ((cs.takeWhile p).length + 1) := by
    intro cs
    induction cs with
    | nil => intro i j n; exact ⟨rfl, by simp [chunks, select]⟩
    | cons c cs ih =>
      intro i j n
      have e : chunks (c :: cs) = ((c.toNat : Int), String.utf8EncodeChar c) :: chunks cs := rfl
      rw [e, select]
      simp only [Int.toNat_natCast, Char.ofNat_toNat, List.takeWhile_cons]
      cases hp : p c
      · refine ⟨rfl, ?_⟩
        simp
      · simp only [Bool.not_true, Bool.false_eq_true, if_false, if_true, List.flatten_cons]
        obtain ⟨h1, h2⟩ := ih (i + 1) (j + 1) (n + 1)
        refine ⟨by rw [h1]; simp [utf8], ?_⟩
        rw [h2]; simp only [List.length_cons]; omega
  obtain ⟨h1, h2⟩ := this cs 0 0 0
  rw [h1, h2, Nat.zero_add]

/-- **C76.** The positions: with a filter that keeps every other character and writes down what it is given. -/
theorem C76_positions (cs : List Char) (hz : '\x00' ∉ cs) :
    (filter (fun i j bytes c (log : List (Nat × Nat × List UInt8 × Int)) => ⟨i % 2 == 0, false, log ++ [(i, j, bytes, c)]⟩) (utf8 cs) []).map (·.2) =
      some (cs.mapIdx fun i c => (i, (i + 1) / 2, String.utf8EncodeChar c, (c.toNat : Int))) := by
  rw [filter_scans _ (scans_text hz)]
  simp only [Option.map_some, Option.some.injEq]
  have : ∀ (cs : List Char) (i : Nat) (log : List (Nat × Nat × List UInt8 × Int)),
      (select (fun i j bytes c (log : List (Nat × Nat × List UInt8 × Int)) => (⟨i % 2 == 0, false, log ++ [(i, j, bytes, c)]⟩ : Verdict _))
        i ((i + 1) / 2) log (chunks cs)).2 = log ++ cs.mapIdx fun k c => (i + k, (i + k + 1) / 2, String.utf8EncodeChar c, (c.toNat : Int)) := by
    intro cs
    induction cs with
    | nil => intro i log; simp [chunks, select]
    | cons c cs ih =>
      intro i log
      have e : chunks (c :: cs) = ((c.toNat : Int), String.utf8EncodeChar c) :: chunks cs := rfl
      rw [e, select]
      simp only [Bool.false_eq_true, if_false]
      have hj : (if (i % 2 == 0) = true then (i + 1) / 2 + 1 else (i + 1) / 2) = (i + 1 + 1) / 2 := by
        split
        · next h => have : i % 2 = 0 := by simpa using h
                    omega
        · next h => have : ¬ i % 2 = 0 := by simpa using h
                    omega
      rw [hj, ih (i + 1), List.mapIdx_cons]
      simp only [List.append_assoc, List.singleton_append, Nat.add_zero]
      congr 3
      funext k c
      simp only [show i + 1 + k = i + (k + 1) by omega]
  have h := this cs 0 []
  simpa using h

/-- Keeping the letters up to the first "!". -/
example : filter (fun _ _ _ c (n : Nat) => ⟨decide (97 ≤ c), decide (c = 33), n + 1⟩) (utf8 ['a', ' ', 'é', '!', 'z']) 0 =
    some (utf8 ['a', 'é'], 4) ∧ '\x00' ∉ ['a', ' ', 'é', '!', 'z'] := ⟨by decide +kernel, by decide⟩

example : ∃ cs, Scans [0x61, 0xff, 0x62] cs ∧ filter (fun _ _ _ c (_ : Unit) => ⟨decide (c ≠ -1), false, ()⟩) [0x61, 0xff, 0x62] () =
    some ([0x61, 0x62], ()) :=
  ⟨[(97, [0x61]), (-1, [0xff]), (98, [0x62])], .cons 97 [0x61] _ _ (by simp) (by decide +kernel) (.cons (-1) [0xff] _ _ (by simp) (by decide +kernel)
    (.cons 98 [0x62] _ _ (by simp) (by decide +kernel) .nil)), by decide +kernel⟩

/-! ## C77 -/

/-- **C77, partial.** Wrapping an ASCII text keeps its words, in order: they are the words of the lines.  Missing: other
    characters, lone carriage returns, vertical tabs and form feeds, where it is false (below). -/
theorem C77_words_partial (s : List UInt8) (limit : Nat) (hp : Plain s) (hc : CrLf s) :
    ∃ lines, wrap s limit = some lines ∧ lines.flatMap words = words s := by
  refine ⟨_, wrap_ascii hp.ascii limit, ?_⟩
  rw [outLines_words limit s.length [] s (Nat.le_refl _) (fun x hx => by cases hx) hp hc (Or.inl rfl)]
  simp [words]

/-- **C77, partial.** No line is longer than the limit unless it is a single word. -/
theorem C77_width_partial (s : List UInt8) (limit : Nat) (hp : Plain s) :
    ∃ lines, wrap s limit = some lines ∧ ∀ l ∈ lines, l.length ≤ limit ∨ words l = [l] := by
  refine ⟨_, wrap_ascii hp.ascii limit, ?_⟩
  refine outLines_width limit s.length [] s (Nat.le_refl _) (fun x hx => by cases hx) hp (Or.inl ?_)
  have := btrim_length (s := []) (fun x hx => by cases hx)
  exact Nat.le_trans this (Nat.zero_le _)

/-- **C77, partial.** A line feed always ends a line: the text before it and the text after it are wrapped separately,
    with an empty line in between. -/
theorem C77_newline_partial (a b : List UInt8) (limit : Nat) (ha : AsciiBytes a) (hb : AsciiBytes b) :
    ∃ la lb, wrap a limit = some la ∧ wrap b limit = some lb ∧ wrap (a ++ 0x0a :: b) limit = some (la ++ [] :: lb) := by
  refine ⟨_, _, wrap_ascii ha limit, wrap_ascii hb limit, ?_⟩
  have hab : AsciiBytes (a ++ 0x0a :: b) := ha.append (by
    intro x hx
    rcases List.mem_cons.mp hx with rfl | hx
    · decide
    · exact hb x hx)
  rw [wrap_ascii hab, ← outLines_lf limit b a.length [] a (Nat.le_refl _)]
  congr 2
  simp; omega

/-- **C77, partial.** Words separated by single spaces are filled greedily. -/
theorem C77_fill_partial (ws : List (List UInt8)) (limit : Nat)
    (hw : ∀ w ∈ ws, w ≠ [] ∧ ∀ b ∈ w, 32 < b.toNat ∧ b.toNat < 128) : wrap ([0x20].intercalate ws) limit = some (fill limit ws) := by
  have hws : ∀ w ∈ ws, Word w := by
    intro w h
    refine ⟨(hw w h).1, ?_, ?_⟩
    · intro b hb; have := (hw w h).2 b hb; exact ⟨by omega, by omega, by rintro rfl; revert this; decide, by rintro rfl; revert this; decide⟩
    · intro b hb
      have := (hw w h).2 b hb
      simp only [Sep, Bool.or_eq_false_iff, beq_eq_false_iff_ne, ne_eq]
      refine ⟨⟨⟨?_, ?_⟩, ?_⟩, ?_⟩ <;> (rintro rfl; revert this; decide)
  have hp : Plain ([0x20].intercalate ws) := by
    intro b hb
    rw [List.intercalate, List.mem_flatten] at hb
    obtain ⟨l, hl, hb⟩ := hb
    have : l ∈ ws ∨ l = [0x20] := by
      clear hws hw
      induction ws with
      | nil => simp at hl
      | cons w ws ih =>
        cases ws with
        | nil => simp at hl; exact Or.inl (by simp [hl])
        | cons w2 ws =>
          rw [List.intersperse_cons_cons] at hl
          rcases List.mem_cons.mp hl with rfl | hl
          · simp
          · rcases List.mem_cons.mp hl with rfl | hl
            · exact Or.inr rfl
            · rcases ih hl with h | h
              · exact Or.inl (List.mem_cons_of_mem _ h)
              · exact Or.inr h
    rcases this with h | rfl
    · exact (hws l h).plain b hb
    · exact plain_space b hb
  rw [wrap_ascii hp.ascii, outLines_fill_start limit ws hws _ (Nat.le_refl _)]

/-- "aaa bb  cccc d" in lines of six. -/
example : (∀ b ∈ [0x61, 0x61, 0x61, 0x20, 0x62, 0x62, 0x20, 0x20, 0x0d, 0x0a, 0x63, 0x63, 0x63, 0x63, 0x20, (0x64 : UInt8)],
      0 < b.toNat ∧ b.toNat < 128 ∧ b ≠ 0x0b ∧ b ≠ 0x0c) ∧
    CrLf [0x61, 0x61, 0x61, 0x20, 0x62, 0x62, 0x20, 0x20, 0x0d, 0x0a, 0x63, 0x63, 0x63, 0x63, 0x20, 0x64] ∧
    wrap [0x61, 0x61, 0x61, 0x20, 0x62, 0x62, 0x20, 0x20, 0x0d, 0x0a, 0x63, 0x63, 0x63, 0x63, 0x20, 0x64] 5 =
      some [[0x61, 0x61, 0x61], [0x62, 0x62], [], [0x63, 0x63, 0x63, 0x63], [0x64]] ∧
    wrap [0x61, 0x61, 0x61, 0x20, 0x62, 0x62, 0x20, 0x20, 0x0d, 0x0a, 0x63, 0x63, 0x63, 0x63, 0x20, 0x64] 6 =
      some [[0x61, 0x61, 0x61, 0x20, 0x62, 0x62], [], [0x63, 0x63, 0x63, 0x63, 0x20, 0x64]] :=
  ⟨by decide +kernel, by simp [CrLf], by decide +kernel, by decide +kernel⟩

example : fill 5 [[0x61, 0x61], [0x62, 0x62], [0x63], [0x64, 0x64, 0x64, 0x64, 0x64, 0x64]] =
    [[0x61, 0x61, 0x20, 0x62, 0x62], [0x63], [0x64, 0x64, 0x64, 0x64, 0x64, 0x64]] ∧
    wrap [0x61, 0x61, 0x20, 0x62, 0x62, 0x20, 0x63, 0x20, 0x64, 0x64, 0x64, 0x64, 0x64, 0x64] 5 =
      some [[0x61, 0x61, 0x20, 0x62, 0x62], [0x63], [0x64, 0x64, 0x64, 0x64, 0x64, 0x64]] := ⟨by decide +kernel, by decide +kernel⟩

/-- **C77 (violated).** The number of characters of a word is used as its number of bytes: "éa" is cut after its
    second byte, and "éé" in lines of one is cut inside a character, so that the lines are not texts. -/
theorem C77_multibyte_fails : wrap (utf8 ['é', 'a']) 2 = some [utf8 ['é'], utf8 ['a']] ∧
    wrap (utf8 ['é', 'é']) 1 = some [utf8 ['é'], [0xc3], [0xa9]] ∧ ∀ cs, utf8 cs ≠ [0xc3] := by
  refine ⟨by decide +kernel, by decide +kernel, ?_⟩
  intro cs e
  match cs with
  | [] => cases e
  | c :: cs =>
    have e' : String.utf8EncodeChar c ++ utf8 cs = [0xc3] := e
    have hl := congrArg List.length e'
    rw [List.length_append] at hl
    have hc : String.utf8EncodeChar c = [0xc3] := by
      cases hE : String.utf8EncodeChar c with
      | nil => exact absurd hE (enc_ne_nil c)
      | cons b l =>
        rw [hE] at e' hl
        simp only [List.length_cons] at hl
        have : l = [] := List.length_eq_zero_iff.mp (by simp at hl; omega)
        subst this
        have := List.cons.inj e'
        rw [this.1]
    have h := next_char c [0]
    rw [hc] at h
    have h2 : next ([0xc3] ++ [0]) = some (-1, 1) := by decide +kernel
    rw [h2] at h
    simp only [Option.some.injEq, Prod.mk.injEq] at h
    omega

/-- **C77 (violated).** A carriage return that is not followed by a line feed joins two words. -/
theorem C77_return_fails : wrap [0x61, 0x0d, 0x62] 10 = some [[0x61, 0x62]] ∧ words [0x61, 0x0d, 0x62] = [[0x61], [0x62]] :=
  ⟨by decide +kernel, by decide +kernel⟩

/-- **C77 (violated).** Blanks at the start of a line that leave no place for the first word make an empty line. -/
theorem C77_indent_fails : wrap [0x20, 0x20, 0x20, 0x61, 0x62] 4 = some [[], [0x61, 0x62]] ∧
    words [0x20, 0x20, 0x20, 0x61, 0x62] = [[0x61, 0x62]] := ⟨by decide +kernel, by decide +kernel⟩

/-- **C77 (violated).** Vertical tabs and form feeds are not separators but are trimmed away from the lines. -/
theorem C77_formfeed_fails : wrap [0x61, 0x0c] 10 = some [[0x61]] ∧ words [0x61, 0x0c] = [[0x61, 0x0c]] :=
  ⟨by decide +kernel, by decide +kernel⟩

end Text
end Duck
