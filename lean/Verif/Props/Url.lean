import Verif.Lemmas.Url
/-! # C39 URL escapes -/
namespace Duck
namespace Url
open Unicode Text

/-- The table of the program is the table of the specification. -/
theorem C39_table : table = chars.map entry := table_chars

/-- **C39 (violated).** Whatever the order in which the table is enumerated, there is a string (namely " " or "%20") that
    removing the escapes after adding them does not give back: "%20" or " " results. -/
theorem C39_fails (order : List (Char × List Char)) (h : order.Perm chars) :
    ∃ s t : List Char, s ≠ t ∧ (s = [' '] ∨ s = ['%', '2', '0']) ∧
      (escape 1 (order.map entry) (utf8 s)).bind (unescape 1 (order.map entry)) = some (utf8 t) := by
  have hn : (order.map (·.1)).Nodup := (h.map _).nodup_iff.mpr chars_keys
  have hs : (' ', ['%', '2', '0']) ∈ order := h.mem_iff.mpr (by simp [chars])
  have hp : ('%', ['%', '2', '5']) ∈ order := h.mem_iff.mpr (by simp [chars])
  have split : ∀ (u v : Char × List Char) (A L : List (Char × List Char)), order = A ++ u :: L → v ∈ L →
      (u.1 = ' ' ∧ v.1 = '%' ∨ u.1 = '%' ∧ v.1 = ' ') →
      ∃ B C, order = A ++ u :: (B ++ v :: C) ∧ ∀ e, e ∈ A ∨ e ∈ B ∨ e ∈ C → e ∈ chars ∧ e.1 ≠ ' ' ∧ e.1 ≠ '%' := by
    intro u v A L e hv huv
    obtain ⟨B, C, rfl⟩ := List.append_of_mem hv
    refine ⟨B, C, e, fun x hx => ?_⟩
    have hmem : x ∈ chars := h.mem_iff.mp (by rw [e]; rcases hx with hx | hx | hx <;> simp [hx])
    rw [e] at hn
    simp only [List.map_append, List.map_cons, List.nodup_append, List.nodup_cons, List.mem_append, List.mem_cons, List.mem_map] at hn
    obtain ⟨-, ⟨hu, -, ⟨hv1, -⟩, hBv⟩, hA⟩ := hn
    have hxu : x.1 ≠ u.1 := by
      rcases hx with hx | hx | hx
      · exact hA _ ⟨x, hx, rfl⟩ _ (Or.inl rfl)
      · exact fun he => hu (Or.inl ⟨x, hx, he⟩)
      · exact fun he => hu (Or.inr (Or.inr ⟨x, hx, he⟩))
    have hxv : x.1 ≠ v.1 := by
      rcases hx with hx | hx | hx
      · exact hA _ ⟨x, hx, rfl⟩ _ (Or.inr (Or.inr (Or.inl rfl)))
      · exact hBv _ ⟨x, hx, rfl⟩ _ (Or.inl rfl)
      · exact fun he => hv1 ⟨x, hx, he⟩
    rcases huv with ⟨h1, h2⟩ | ⟨h1, h2⟩
    · exact ⟨hmem, h1 ▸ hxu, h2 ▸ hxv⟩
    · exact ⟨hmem, h2 ▸ hxv, h1 ▸ hxu⟩
  obtain ⟨A, L, e⟩ := List.append_of_mem hs
  rw [e] at hp
  rcases List.mem_append.mp hp with hp | hp
  · obtain ⟨A1, A2, rfl⟩ := List.append_of_mem hp
    obtain ⟨B, C, e2, hall⟩ := split ('%', ['%', '2', '5']) (' ', ['%', '2', '0']) A1 (A2 ++ (' ', ['%', '2', '0']) :: L)
      (by rw [e]; simp) (by simp) (Or.inr ⟨rfl, rfl⟩)
    refine ⟨['%', '2', '0'], [' '], by decide, Or.inr rfl, ?_⟩
    rw [e2]
    exact percent_first (fun e h => hall e (Or.inl h)) (fun e h => hall e (Or.inr (Or.inl h))) (fun e h => hall e (Or.inr (Or.inr h)))
  · rcases List.mem_cons.mp hp with hp | hp
    · exact absurd hp (by decide)
    · obtain ⟨B, C, e2, hall⟩ := split (' ', ['%', '2', '0']) ('%', ['%', '2', '5']) A L e hp (Or.inl ⟨rfl, rfl⟩)
      refine ⟨[' '], ['%', '2', '0'], by decide, Or.inl rfl, ?_⟩
      rw [e2]
      exact space_first (fun e h => hall e (Or.inl h)) (fun e h => hall e (Or.inr (Or.inl h))) (fun e h => hall e (Or.inr (Or.inr h)))

/-- **C39, partial.** If the escape of '%' is enumerated before those of all escaped characters of the string, and the
    string is ASCII without '%', removing the escapes after adding them gives it back.  Missing: strings with '%', strings
    with characters enumerated before '%' (false, above), non-ASCII strings. -/
theorem C39_partial (A C : List (Char × List Char)) (h : (A ++ ('%', ['%', '2', '5']) :: C).Perm chars) (s : List Char)
    (hs : ∀ c ∈ s, c.toNat < 128 ∧ c ≠ '\x00' ∧ c ≠ '%' ∧ ∀ e ∈ A, e.1 ≠ c) (hl : 3 * s.length < 2 ^ 63) (fuel : Nat)
    (hf : 3 * s.length ≤ fuel) :
    let order := (A ++ ('%', ['%', '2', '5']) :: C).map entry
    (escape fuel order (utf8 s)).bind (unescape fuel order) = some (utf8 s) := by
  have ha : Ascii s := fun c hc => (hs c hc).1
  have hz : '\x00' ∉ s := fun hc => (hs _ hc).2.1 rfl
  have hp : '%' ∉ s := fun hc => (hs _ hc).2.2.1 rfl
  have hn : ((A ++ ('%', ['%', '2', '5']) :: C).map (·.1)).Nodup := (h.map _).nodup_iff.mpr chars_keys
  have hn2 : ((A ++ ('%', ['%', '2', '5']) :: C).map (·.2)).Nodup := (h.map _).nodup_iff.mpr chars_objs
  have hm : ∀ e ∈ A ++ ('%', ['%', '2', '5']) :: C, e ∈ chars := fun e he => h.mem_iff.mp he
  have hA : ∀ e ∈ A ++ [('%', ['%', '2', '5'])], e.1 ∉ s := by
    intro e he hes
    rcases List.mem_append.mp he with he | he
    · exact (hs _ hes).2.2.2 e he rfl
    · simp at he; subst he; exact hp hes
  have e1 : A ++ ('%', ['%', '2', '5']) :: C = (A ++ [('%', ['%', '2', '5'])]) ++ C := by simp
  have hn' := hn
  simp only [List.map_append, List.map_cons, List.nodup_append, List.nodup_cons] at hn'
  have hCp : ∀ e ∈ C, e.1 ≠ '%' := fun e he hc => hn'.2.1.1 (List.mem_map.mpr ⟨e, he, hc⟩)
  have hn2' := hn2
  simp only [List.map_append, List.map_cons, List.nodup_append, List.nodup_cons] at hn2'
  simp only
  rw [e1] at hn hn2 hm ⊢
  rw [List.map_append, escape_skip hz _ _ (fun e he => hm e (by simp at he ⊢; rcases he with he | rfl <;> simp [*])) hA]
  have he := escape_enc ha hz hl hf C [] (fun e he => ⟨hm e (by simp [show e ∈ C from he]), hCp e he⟩) hn'.2.1.2
  rw [enc_nil, List.nil_append] at he
  rw [he, Option.bind_some, ← List.map_append, unescape_skip ha hz hp hl hf C _ hm hn hn2 hA]
  exact unescape_enc ha hz hp hl hf C (fun e he => hm e (by simp [he])) hn'.2.1.2 hn2'.2.1.2

/-- With '%' first, "a b?c" round-trips; the escaped text is "a%20b%3Fc". -/
example : let order := (('%', ['%', '2', '5']) :: chars.erase ('%', ['%', '2', '5'])).map entry
    (('%', ['%', '2', '5']) :: chars.erase ('%', ['%', '2', '5'])).Perm chars ∧
    escape 15 order (utf8 ['a', ' ', 'b', '?', 'c']) = some (utf8 ['a', '%', '2', '0', 'b', '%', '3', 'F', 'c']) ∧
    unescape 15 order (utf8 ['a', '%', '2', '0', 'b', '%', '3', 'F', 'c']) = some (utf8 ['a', ' ', 'b', '?', 'c']) := by
  refine ⟨?_, by decide +kernel, by decide +kernel⟩
  exact (List.perm_cons_erase (by simp [chars])).symm

end Url
end Duck
