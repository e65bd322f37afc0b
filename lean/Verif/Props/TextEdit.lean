import Verif.Lemmas.TextEdit
/-! # C36 replacing occurrences, C37 splitting and combining -/
namespace Duck
namespace Text
open Unicode

/-! ## C36 -/

/-- What `Replaced` means: it exists and is unique. -/
theorem C36_spec {α : Type} [DecidableEq α] (pat rep s : List α) (hne : pat ≠ []) :
    ∃ out, Replaced pat rep s out ∧ ∀ out', Replaced pat rep s out' → out' = out := by
  obtain ⟨out, h⟩ := replaced_exists hne rep s.length s (Nat.le_refl _)
  exact ⟨out, h, fun _ h' => replaced_unique h h'⟩

/-- **C36, partial.** When the string and the replacement are ASCII (the pattern any text), replacing all occurrences
    ends after at most one round per character and replaces exactly the left-to-right non-overlapping occurrences.
    Missing: non-ASCII strings and replacements, where it is false (below). -/
theorem C36_ascii_partial (s pat rep out : List Char) (hs : ∀ c ∈ s, c.toNat < 128) (hr : ∀ c ∈ rep, c.toNat < 128)
    (hsz : '\x00' ∉ s) (hpz : '\x00' ∉ pat) (hrz : '\x00' ∉ rep) (hne : pat ≠ []) (h : Replaced pat rep s out)
    (h63 : out.length < 2 ^ 63) (fuel : Nat) (hf : s.length ≤ fuel) :
    replaceAll fuel (utf8 s) (utf8 pat) (utf8 rep) = some (utf8 out) := by
  have hg := replaceGo_ascii hpz hne hrz hr h [] fuel (fun _ h => by cases h) hs (by simp) hsz (by simpa using h63) hf
  rw [List.nil_append, List.nil_append] at hg
  rw [replaceAll, getLength_scans (scans_text hrz)]
  simpa [chunks] using hg

/-- **C36, partial.** A string without an occurrence of the pattern is left alone, whatever its characters. -/
theorem C36_absent_partial (s pat rep : List Char) (hsz : '\x00' ∉ s) (hpz : '\x00' ∉ pat) (hrz : '\x00' ∉ rep) (hne : pat ≠ [])
    (h : ∀ k, ¬ pat <+: s.drop k) (fuel : Nat) : replaceAll fuel (utf8 s) (utf8 pat) (utf8 rep) = some (utf8 s) := by
  have hn : firstAt pat s = none := (firstAt_spec pat hne s).2.mpr h
  have hr := rangeOfString_text hsz hpz hne 0 (Nat.zero_le _) (by omega)
  rw [List.drop_zero, hn] at hr
  rw [replaceAll, show (0 : Int) = ((0 : Nat) : Int) from rfl, hr, getLength_scans (scans_text hrz)]
  simp only [Option.bind_some]
  rw [replaceGo.eq_def, if_neg (by simp)]

/-- Overlapping and adjacent occurrences, a replacement that contains the pattern, and a shrinking one. -/
example : Replaced ['a', 'a'] ['b', 'a', 'a'] ['a', 'a', 'a', 'x', 'a', 'a'] ['b', 'a', 'a', 'a', 'x', 'b', 'a', 'a'] ∧
    replaceAll 6 (utf8 ['a', 'a', 'a', 'x', 'a', 'a']) (utf8 ['a', 'a']) (utf8 ['b', 'a', 'a']) =
      some (utf8 ['b', 'a', 'a', 'a', 'x', 'b', 'a', 'a']) ∧
    replaceAll 4 (utf8 ['a', 'b', 'a', 'b']) (utf8 ['a', 'b']) (utf8 []) = some [] :=
  ⟨.hit [] ['a', 'x', 'a', 'a'] _ (by decide +kernel) (.hit ['a', 'x'] [] _ (by decide +kernel) (.done [] (by decide +kernel))),
    by decide +kernel, by decide +kernel⟩

/-- **C36 (violated).** The character position found is applied to the bytes: replacing "a" by "b" in "éa" destroys the
    "é" and keeps the "a" position's neighbour instead of giving "éb". -/
theorem C36_corrupts_fails : ∃ fuel, replaceAll fuel (utf8 ['é', 'a']) (utf8 ['a']) (utf8 ['b']) = some [0xc3, 0x62, 0x62] ∧
    utf8 ['é', 'b'] = [0xc3, 0xa9, 0x62] := ⟨5, by decide +kernel, by decide +kernel⟩

/-- **C36 (violated).** Replacing "a" by "é" in "éa" does not end: after any number of rounds (short of the address
    space) it is still running, on an ever longer string. -/
theorem C36_terminates_fails (rounds : Nat) (h : rounds + 2 < 2 ^ 64) :
    replaceAll rounds (utf8 ['é', 'a']) (utf8 ['a']) (utf8 ['é']) = none := by
  have hr : rangeOfString (utf8 ['é', 'a']) (utf8 ['a']) 0 = some (((0 + 1 : Nat) : Int), 1) := by decide +kernel
  have hl : getLength (utf8 ['é']) = some 1 := by decide +kernel
  rw [replaceAll, hr, Option.bind_some, hl, Option.bind_some]
  have := replaceGo_c3 rounds 0 (by omega)
  have e1 : utf8 ['é', 'a'] = List.replicate 0 0xc3 ++ [0xc3, 0xa9, 0x61] := by decide +kernel
  have e2 : utf8 ['a'] = [0x61] := by decide +kernel
  have e3 : utf8 ['é'] = [0xc3, 0xa9] := by decide +kernel
  rw [e1, e2, e3]
  exact this

/-! ## C37 -/

/-- Combining with a separator is the concatenation with the separator in between. -/
theorem C37_combine (xs : List (List UInt8)) (sep : List UInt8) : combine xs (some sep) = sep.intercalate xs := combine_eq xs sep

theorem combineGo_none : ∀ (xs : List (List UInt8)) (acc : List UInt8), combineGo none xs acc = acc ++ xs.flatten
  | [], acc => by simp [combineGo]
  | [x], acc => by simp [combineGo]
  | x :: y :: xs, acc => by rw [combineGo, combineGo_none (y :: xs)] <;> simp

/-- Without a separator it is the concatenation. -/
theorem C37_combine_none (xs : List (List UInt8)) : combine xs none = xs.flatten := by rw [combine, combineGo_none]; rfl

/-- **C37, partial.** Splitting a text gives components that, combined with the separator, give back the text, except
    that a separator at the very end is lost.  All components are nonempty; all but the last are free of the separator,
    and the last one is too unless it starts with it.
    Missing: empty components, where splitting stops early or drops a trailing separator (below). -/
theorem C37_join_partial (cs ds : List Char) (hc : '\x00' ∉ cs) (hd : '\x00' ∉ ds) (hne : ds ≠ []) :
    ∃ parts : List (List Char), split (utf8 cs) (utf8 ds) = some (parts.map utf8) ∧
      (combine (parts.map utf8) (some (utf8 ds)) = utf8 cs ∨ combine (parts.map utf8) (some (utf8 ds)) ++ utf8 ds = utf8 cs) ∧
      (∀ p ∈ parts, p ≠ []) ∧ (∀ p ∈ parts.dropLast, ¬ ds <:+: p) ∧ (∀ p ∈ parts.getLast?, ds <:+: p → ds <+: p) := by
  obtain ⟨parts, r, h⟩ := splitsC_exists hne cs.length cs (Nat.le_refl _)
  have hs := split_text hd hne h hc
  have he := splitsC_eq h
  have hflat : ∀ ps : List (List Char), utf8 (ps.flatMap (· ++ ds)) = (ps.map utf8).flatMap (· ++ utf8 ds) := by
    intro ps
    induction ps with
    | nil => rfl
    | cons p ps ih => simp only [List.flatMap_cons, List.map_cons, utf8_append, ih]
  have hparts : ∀ p ∈ parts, p ≠ [] ∧ ¬ ds <:+: p := by
    clear hs he hc
    induction h with
    | stop => intro p hp; cases hp
    | step p rest parts r hp hf _ ih =>
      intro q hq
      rcases List.mem_cons.mp hq with rfl | hq
      · refine ⟨hp, ?_⟩
        rintro ⟨a, b, e⟩
        have := (((firstAt_spec ds hne _).1 _).mp hf).2 a.length (by
          have := congrArg List.length e
          have : ds.length ≠ 0 := fun e => hne (List.length_eq_zero_iff.mp e)
          simp only [List.length_append] at *; omega)
        apply this
        rw [← e]
        simp only [List.append_assoc]
        rw [List.drop_left]
        exact List.prefix_append _ _
      · exact ih q hq
  have hr : ds <:+: r → ds <+: r := by
    clear hs he hc hparts
    induction h with
    | stop cs hst =>
      rintro ⟨a, b, e⟩
      rcases hst with hst | hst
      · refine absurd ?_ ((firstAt_spec ds hne cs).2.mp hst a.length)
        rw [← e, List.append_assoc, List.drop_left]
        exact List.prefix_append _ _
      · exact (((firstAt_spec ds hne cs).1 0).mp hst).1
    | step p rest parts r _ _ _ ih => exact ih
  by_cases hre : r = []
  · subst hre
    refine ⟨parts, by simpa using hs, ?_, fun p hp => (hparts p hp).1, fun p hp => (hparts p (List.dropLast_subset _ hp)).2,
      fun p hp hi => absurd hi (hparts p (List.mem_of_getLast? hp)).2⟩
    rcases List.eq_nil_or_concat parts with hp | ⟨ps, p, hp⟩
    · subst hp; left; simp at he; subst he; rfl
    · right
      subst hp
      rw [combine_eq, he]
      simp only [List.map_append, List.map_cons, List.map_nil, List.concat_eq_append]
      rw [intercalate_snoc]
      simp [utf8_append, hflat]
  · refine ⟨parts ++ [r], by rw [hs]; simp [hre], Or.inl ?_, ?_, ?_, ?_⟩
    · rw [combine_eq, he]
      simp only [List.map_append, List.map_cons, List.map_nil]
      rw [intercalate_snoc]
      simp [utf8_append, hflat]
    · intro p hp
      rcases List.mem_append.mp hp with hp | hp
      · exact (hparts p hp).1
      · rw [List.mem_singleton.mp hp]; exact hre
    · intro p hp
      rw [List.dropLast_concat] at hp
      exact (hparts p hp).2
    · intro p hp
      simp at hp
      subst hp; exact hr

/-- **C37, partial.** Splitting inverts combining for nonempty lists of (nonempty) components. -/
theorem C37_split_partial (ds : List Char) (parts : List (List Char)) (hd : '\x00' ∉ ds) (hne : ds ≠ [])
    (hz : ∀ p ∈ parts, '\x00' ∉ p) (hp : ∀ p ∈ parts, Component ds p) :
    split (combine (parts.map utf8) (some (utf8 ds))) (utf8 ds) = some (parts.map utf8) := by
  rcases List.eq_nil_or_concat parts with rfl | ⟨ps, l, rfl⟩
  · have := split_text hd hne (SplitsC.stop [] (by simp [firstAt, hne])) (by simp)
    simpa [combine_eq, utf8] using this
  · simp only [List.concat_eq_append] at *
    have hl := hp l (by simp)
    have hlast : firstAt ds l = none := by
      rw [(firstAt_spec ds hne l).2]
      intro j hj
      rcases Nat.lt_or_ge j l.length with hlt | hge
      · refine (((firstAt_spec ds hne _).1 _).mp hl.2).2 j hlt ?_
        rw [List.drop_append_of_le_length (by omega)]
        exact hj.trans (List.prefix_append _ _)
      · rw [List.drop_of_length_le hge] at hj
        exact hne (List.prefix_nil.mp hj)
    have hsp : ∀ qs : List (List Char), (∀ p ∈ qs, Component ds p) → SplitsC ds (qs.flatMap (· ++ ds) ++ l) qs l := by
      intro qs
      induction qs with
      | nil => intro _; exact .stop l (Or.inl hlast)
      | cons q qs ih =>
        intro hq
        have hq1 := hq q (by simp)
        have e : (q :: qs).flatMap (· ++ ds) ++ l = q ++ ds ++ (qs.flatMap (· ++ ds) ++ l) := by simp
        rw [e]
        refine .step q _ qs l hq1.1 ?_ (ih (fun p h => hq p (by simp [h])))
        obtain ⟨hq2, hq3⟩ := ((firstAt_spec ds hne _).1 _).mp hq1.2
        refine ((firstAt_spec ds hne _).1 _).mpr ⟨?_, fun j hj hpre => hq3 j hj ?_⟩
        · rw [List.append_assoc, List.drop_left]; exact List.prefix_append _ _
        · rw [List.drop_append_of_le_length (by simp; omega)] at hpre
          exact List.prefix_of_prefix_length_le hpre (List.prefix_append _ _) (by simp; omega)
    have hflat : ∀ ps : List (List Char), utf8 (ps.flatMap (· ++ ds)) = (ps.map utf8).flatMap (· ++ utf8 ds) := by
      intro ps
      induction ps with
      | nil => rfl
      | cons p ps ih => simp only [List.flatMap_cons, List.map_cons, utf8_append, ih]
    have h := hsp ps (fun p h => hp p (by simp [h]))
    have hcz : '\x00' ∉ ps.flatMap (· ++ ds) ++ l := by
      intro hm
      rcases List.mem_append.mp hm with hm | hm
      · obtain ⟨p, hp1, hp2⟩ := List.mem_flatMap.mp hm
        rcases List.mem_append.mp hp2 with h1 | h1
        · exact hz p (by simp [hp1]) h1
        · exact hd h1
      · exact hz l (by simp) hm
    have hs := split_text hd hne h hcz
    rw [if_neg hl.1] at hs
    rw [combine_eq, List.map_append, List.map_cons, List.map_nil, intercalate_snoc, ← hflat, ← utf8_append, hs]

/-- "é", "b", "c" and a separator of two characters; a component that ends with half a separator. -/
example : Component [':', ':'] ['é'] ∧ ¬ Component [':', ':'] ['a', ':'] ∧
    combine [utf8 ['é'], utf8 ['b'], utf8 ['c']] (some (utf8 [':', ':'])) = utf8 ['é', ':', ':', 'b', ':', ':', 'c'] ∧
    split (utf8 ['é', ':', ':', 'b', ':', ':', 'c']) (utf8 [':', ':']) = some [utf8 ['é'], utf8 ['b'], utf8 ['c']] := by
  simp only [Component]; decide +kernel

/-- **C37 (violated).** Splitting stops at the first empty component: the last component of "a,,b" is ",b", and ",a" is
    not split at all. -/
theorem C37_empty_component_fails : split (utf8 ['a', ',', ',', 'b']) (utf8 [',']) = some [utf8 ['a'], utf8 [',', 'b']] ∧
    split (utf8 [',', 'a']) (utf8 [',']) = some [utf8 [',', 'a']] := by decide +kernel

/-- **C37 (violated).** A separator at the end is lost. -/
theorem C37_trailing_fails : split (utf8 ['a', ',']) (utf8 [',']) = some [utf8 ['a']] ∧
    combine [utf8 ['a']] (some (utf8 [','])) ≠ utf8 ['a', ','] := by decide +kernel

/-- **C37 (violated).** With malformed strings the separator's byte length is skipped although other bytes matched: the
    search continues outside the string. -/
theorem C37_malformed_fails : split [0x61, 0xff] [0xf8, 0x80, 0x80, 0x80, 0x80] = none := by decide +kernel

end Text
end Duck
