import Verif.Lemmas.Path
/-! # C38 paths, C62 path extensions -/
namespace Duck
namespace Path
open Unicode Text

/-! ## C38 -/

/-- **C38.** Standardizing a path writes its components, unchanged and in order, with single slashes in between, and
    keeps a leading slash. -/
theorem C38_standardize (s : List UInt8) (h : NulFree s) : standardize s = some (build (abs s) (comps s)) := standardize_build h

/-- What the standard spelling means: it has the same components, is absolute exactly if the path was, contains no
    doubled slash, and ends with a slash only if it is the root. -/
theorem C38_spelling (s : List UInt8) :
    comps (build (abs s) (comps s)) = comps s ∧ abs (build (abs s) (comps s)) = abs s ∧
    (¬ [0x2f, 0x2f] <:+: build (abs s) (comps s)) ∧
    ((build (abs s) (comps s)).getLast? = some 0x2f → build (abs s) (comps s) = [0x2f]) := by
  have hok := comps_ok s
  refine ⟨comps_build hok, abs_build hok, ?_, ?_⟩
  · rintro ⟨x, y, e⟩
    exact build_no_double hok x y (by rw [← e]; simp)
  · intro hl
    obtain ⟨x, e⟩ := List.getLast?_eq_some_iff.mp hl
    have := build_no_trailing hok x e
    rw [e, this]; rfl

/-- **C38.** Standardizing is idempotent. -/
theorem C38_idempotent (s : List UInt8) (h : NulFree s) :
    ∃ t, standardize s = some t ∧ standardize t = some t := by
  refine ⟨_, standardize_build h, ?_⟩
  rw [standardize_build (build_nulfree (comps_nulfree h)), comps_build (comps_ok s), abs_build (comps_ok s)]

/-- **C38.** Appending a path appends its components. -/
theorem C38_append (s c : List UInt8) (hs : NulFree s) (hc : NulFree c) :
    appendComponent s c = some (build (if s = [] then abs c else abs s) (comps s ++ comps c)) := by
  rw [appendComponent]
  match s with
  | [] => simpa [comps_nil] using standardize_build hc
  | b :: s =>
    have hl : (b :: s).length > 0 := by simp
    have hf : NulFree ((b :: s) ++ [slash] ++ c) := by
      simp only [NulFree, List.mem_append] at *
      rintro ((h | h) | h)
      · exact hs h
      · simp [slash] at h
      · exact hc h
    rw [if_pos hl, standardize_build hf]
    have e : (b :: s) ++ [slash] ++ c = (b :: s) ++ 0x2f :: c := by simp [slash]
    rw [e, comps_append]
    simp [abs]

/-- **C38.** Deleting the last component keeps the others. -/
theorem C38_delete (s : List UInt8) (h : NulFree s) : deleteLast s = some (build (abs s) (comps s).dropLast) := deleteLast_build h

/-- **C38.** Appending one component and deleting the last gives back the standardized path. -/
theorem C38_append_delete (s c : List UInt8) (hs : NulFree s) (hc : NulFree c) (hne : c ≠ []) (hf : (0x2f : UInt8) ∉ c) :
    ∃ t, appendComponent s c = some t ∧ deleteLast t = standardize s ∧ lastComponent t = some c := by
  have ha := C38_append s c hs hc
  rw [comps_single hf hne] at ha
  have hok : ∀ p ∈ comps s ++ [c], p ≠ [] ∧ (0x2f : UInt8) ∉ p := by
    intro p hp
    rcases List.mem_append.mp hp with hp | hp
    · exact comps_ok s p hp
    · rw [List.mem_singleton.mp hp]; exact ⟨hne, hf⟩
  have hz : ∀ p ∈ comps s ++ [c], NulFree p := by
    intro p hp
    rcases List.mem_append.mp hp with hp | hp
    · exact comps_nulfree hs p hp
    · rw [List.mem_singleton.mp hp]; exact hc
  have habs : (if s = [] then abs c else abs s) = abs s := by
    split
    · next h =>
      subst h
      match c, hne with
      | b :: c, _ => simp [abs]; intro e; exact hf (by simp [e])
    · rfl
  rw [habs] at ha
  refine ⟨_, ha, ?_, ?_⟩
  · rw [deleteLast_build (build_nulfree hz), comps_build hok, abs_build hok, List.dropLast_concat, standardize_build hs]
  · rcases path_cases (build (abs s) (comps s ++ [c])) with ⟨k, e⟩ | ⟨x, d, k, e, h1, h2, h3⟩
    · have := comps_build (a := abs s) hok
      rw [e, comps_slashes] at this
      simp at this
    · have hl := comps_last (k := k) h1 h2 h3
      rw [← e, comps_build hok] at hl
      simp at hl
      subst hl
      rw [e]; exact lastComponent_eq h1 h2 h3

/-- **C38, partial.** The last component of a path is its last component, or the empty string if it has none; excluded
    are paths of two or more slashes only (below). -/
theorem C38_last_partial (s : List UInt8) (h : comps s ≠ [] ∨ s.length ≤ 1) :
    lastComponent s = some ((comps s).getLast?.getD []) := by
  rcases path_cases s with ⟨k, rfl⟩ | ⟨x, c, k, rfl, h1, h2, h3⟩
  · rw [comps_slashes] at h ⊢
    simp at h
    match k, h with
    | 0, _ => decide
    | 1, _ => decide
  · rw [lastComponent_eq h1 h2 h3, comps_last h1 h2 h3]
    rfl

/-- "//usr///é/" -/
example : comps [0x2f, 0x2f, 0x75, 0x73, 0x72, 0x2f, 0x2f, 0x2f, 0xc3, 0xa9, 0x2f] = [[0x75, 0x73, 0x72], [0xc3, 0xa9]] ∧
    standardize [0x2f, 0x2f, 0x75, 0x73, 0x72, 0x2f, 0x2f, 0x2f, 0xc3, 0xa9, 0x2f] = some [0x2f, 0x75, 0x73, 0x72, 0x2f, 0xc3, 0xa9] ∧
    lastComponent [0x2f, 0x2f, 0x75, 0x73, 0x72, 0x2f, 0x2f, 0x2f, 0xc3, 0xa9, 0x2f] = some [0xc3, 0xa9] ∧
    deleteLast [0x2f, 0x2f, 0x75, 0x73, 0x72] = some [0x2f] := by decide +kernel

/-- **C38 (violated).** The last component of "//" is "//". -/
theorem C38_last_fails : lastComponent [0x2f, 0x2f] = some [0x2f, 0x2f] ∧ comps [0x2f, 0x2f] = [] := by decide +kernel

/-! ## C62 -/

/-- Every path has a name after its last slash, with or without a dot. -/
theorem C62_cases (s : List UInt8) :
    (∃ x e, s = x ++ 0x2e :: e ∧ (0x2e : UInt8) ∉ e ∧ (0x2f : UInt8) ∉ e) ∨
    (∃ x y, s = x ++ y ∧ (0x2e : UInt8) ∉ y ∧ (x = [] ∨ ∃ x', x = x' ++ [0x2f])) := by
  rcases last_split 0x2e s with h | ⟨x, e, rfl, h⟩
  · exact Or.inr ⟨[], s, rfl, h, Or.inl rfl⟩
  · rcases last_split 0x2f e with hs | ⟨a, b, rfl, hs⟩
    · exact Or.inl ⟨x, e, rfl, h, hs⟩
    · exact Or.inr ⟨x ++ 0x2e :: (a ++ [0x2f]), b, by simp, by simp at h; exact h.2, Or.inr ⟨x ++ 0x2e :: a, by simp⟩⟩

/-- **C62.** The extension is what follows the last dot of the last component; a name without a dot has none. -/
theorem C62_get (s : List UInt8) (h : NulFree s) :
    (∀ x e, s = x ++ 0x2e :: e → (0x2e : UInt8) ∉ e → (0x2f : UInt8) ∉ e → getExtension s = some e) ∧
    (∀ x y, s = x ++ y → (0x2e : UInt8) ∉ y → (x = [] ∨ ∃ x', x = x' ++ [0x2f]) → getExtension s = some []) := by
  refine ⟨fun x e hs hd hsl => ?_, fun x y hs hd hx => ?_⟩
  · subst hs
    rw [getExtension, extension_some h hd hsl, Option.bind_some]
    simp only [copySubstring]
    split
    · next hl => simp at hl; rw [List.length_eq_zero_iff.mp (by omega : e.length = 0)]
    · rw [if_pos (by simp [mem])]
      have e1 : (mem (x ++ 0x2e :: e)).drop (x.length + 1) = e ++ [0, 0, 0, 0] := by
        rw [mem, show x ++ 0x2e :: e ++ [0, 0, 0, 0] = (x ++ [0x2e]) ++ (e ++ [0, 0, 0, 0]) by simp]
        exact List.drop_left' (by simp)
      rw [e1, show (x ++ 0x2e :: e).length - (x.length + 1) = e.length by simp; omega, List.take_left]
  · subst hs
    rw [getExtension, extension_none h hd hx]
    rfl

/-- **C62.** Has-extension compares with that extension. -/
theorem C62_has (s e : List UInt8) (h : NulFree s) : hasExtension s e = (getExtension s).map (· == e) := by
  rcases C62_cases s with ⟨x, f, rfl, hd, hs⟩ | ⟨x, y, rfl, hd, hx⟩
  · rw [(C62_get _ h).1 x f rfl hd hs, hasExtension, extension_some h hd hs, Option.bind_some]
    simp only
    have e1 : (mem (x ++ 0x2e :: f)).drop x.length = 0x2e :: f ++ [0, 0, 0, 0] := by rw [mem, List.append_assoc, List.drop_left]
    have e2 : ustrscan (0x2e :: f ++ [0, 0, 0, 0]) = some (46, 1) := by simp [ustrscan, next, rd]
    rw [e1, e2, Option.map_some, Option.map_some]
    congr 2
    rw [show x ++ 0x2e :: f = (x ++ [0x2e]) ++ f by simp]
    exact List.drop_left' (by simp)
  · rw [(C62_get _ h).2 x y rfl hd hx, hasExtension, extension_none h hd hx, Option.bind_some]
    cases e <;> simp

/-- **C62.** On a path with a last component, appending an extension (without dot or slash) makes it the extension, and
    deleting the extension gives back the standardized path. -/
theorem C62_append (s e : List UInt8) (hs : NulFree s) (he : NulFree e) (hd : (0x2e : UInt8) ∉ e) (hsl : (0x2f : UInt8) ∉ e)
    (hc : comps s ≠ []) :
    ∃ t, appendExtension s e = some t ∧ getExtension t = some e ∧ hasExtension t e = some true ∧
      deleteExtension t = standardize s ∧ comps t = (comps s).dropLast ++ [(comps s).getLast hc ++ 0x2e :: e] := by
  have ht : appendExtension s e = some (build (abs s) (comps s) ++ 0x2e :: e) := by
    rw [appendExtension, standardize_build hs, Option.map_some, emptyOrRoot_build (comps_ok s)]
    simp [hc, dot]
  have hf : NulFree (build (abs s) (comps s) ++ 0x2e :: e) := by
    have := build_nulfree (a := abs s) (comps_nulfree hs)
    simp only [NulFree] at *
    simp [this, he]
  have hg := (C62_get _ hf).1 _ e rfl hd hsl
  refine ⟨_, ht, hg, ?_, ?_, ?_⟩
  · rw [C62_has _ _ hf, hg]; simp
  · rw [deleteExtension, standardize_ext hs he hsl hc, Option.bind_some, extension_some hf hd hsl, standardize_build hs]
    simp
  · have hok := comps_ok s
    have hq := List.dropLast_concat_getLast hc
    conv => lhs; rw [← hq]
    rw [build_snoc_append, comps_build]
    intro p hp
    rcases List.mem_append.mp hp with hp | hp
    · exact hok p (List.dropLast_subset _ hp)
    · rw [List.mem_singleton.mp hp]
      have := hok _ (List.getLast_mem hc)
      simp [this.2, hsl]

/-- **C62.** On the empty path and the root nothing is appended. -/
theorem C62_append_empty (s e : List UInt8) (hs : NulFree s) (hc : comps s = []) : appendExtension s e = standardize s := by
  rw [appendExtension, standardize_build hs, Option.map_some, emptyOrRoot_build (comps_ok s)]
  simp [hc]

/-- **C62.** Deleting the extension cuts the standardized path before the last dot of the last component, and leaves a
    path without one alone. -/
theorem C62_delete (s t : List UInt8) (hs : NulFree s) (ht : standardize s = some t) :
    (∀ x e, t = x ++ 0x2e :: e → (0x2e : UInt8) ∉ e → (0x2f : UInt8) ∉ e → deleteExtension s = some x) ∧
    (∀ x y, t = x ++ y → (0x2e : UInt8) ∉ y → (x = [] ∨ ∃ x', x = x' ++ [0x2f]) → deleteExtension s = some t) := by
  have hf : NulFree t := by
    rw [standardize_build hs] at ht
    cases ht
    exact build_nulfree (comps_nulfree hs)
  refine ⟨fun x e hx hd hsl => ?_, fun x y hx hd hsl => ?_⟩
  · subst hx
    rw [deleteExtension, ht, Option.bind_some, extension_some hf hd hsl]
    simp
  · subst hx
    rw [deleteExtension, ht, Option.bind_some, extension_none hf hd hsl]
    rfl

/-- "a.b/c.tar" + "gz" -/
example : appendExtension [0x61, 0x2e, 0x62, 0x2f, 0x63, 0x2e, 0x74, 0x2f] [0x67, 0x7a] =
      some [0x61, 0x2e, 0x62, 0x2f, 0x63, 0x2e, 0x74, 0x2e, 0x67, 0x7a] ∧
    getExtension [0x61, 0x2e, 0x62, 0x2f, 0x63] = some [] ∧
    deleteExtension [0x61, 0x2e, 0x62, 0x2f, 0x63, 0x2e, 0x74] = some [0x61, 0x2e, 0x62, 0x2f, 0x63] := by decide +kernel

/-- **C62 (violated).** Deleting the "extension" of a dot file leaves a trailing slash: "a/.b" gives "a/". -/
theorem C62_dotfile_fails : deleteExtension [0x61, 0x2f, 0x2e, 0x62] = some [0x61, 0x2f] ∧
    standardize [0x61, 0x2f] = some [0x61] := by decide +kernel

end Path
end Duck
