import Verif.Lemmas.JsonLooseParse
import Verif.Props.Json
/-! # C63, the converse: exactly which JSON texts are answered -/
namespace Duck
namespace Json
open Unicode Num

/-- **C63, exact.** The object a text is parsed as: `DKJSONParse` returns the object `v` precisely for the texts of
    `Spec/JsonLoose.lean`, whose comments name everything beyond RFC 8259.  (`null` is parsed as no object, just like a text that is
    refused: next theorem.) -/
theorem C63_exact (s : List UInt8) (hs : NulFree s) (v : Json) (hv : v ≠ .null) :
    parse (strict none) (s ++ [0]) = some v ↔ Answered s v := by
  constructor
  · intro h
    rw [parse, Option.map_eq_some_iff] at h
    obtain ⟨⟨r, m⟩, h1, h2⟩ := h
    have := (parse_sound _).1 hs h1
    match r, h2, this with
    | .ok v', h2, ⟨rest, _, h3, _⟩ => cases h2; exact ⟨rest, h3⟩
    | .closeList, h2, _ => exact absurd h2.symm hv
    | .closeDict, h2, _ => exact absurd h2.symm hv
    | .error, h2, _ => exact absurd h2.symm hv
  · rintro ⟨rest, h⟩
    rw [parse, lval_parse h hs _ (by simp; omega)]
    rfl

/-- **C63, exact.** A text is read as one value at most, and what remains of it is determined. -/
theorem C63_unambiguous (s : List UInt8) (hs : NulFree s) (v v' : Json) (rest rest' : List UInt8) (h : LVal s v rest) (h' : LVal s v' rest') :
    v = v' ∧ rest = rest' := by
  have a := lval_parse h hs _ (Nat.le_refl _)
  have b := lval_parse h' hs _ (Nat.le_refl _)
  rw [a] at b
  simp only [Option.some.injEq, Prod.mk.injEq, Res.ok.injEq] at b
  exact ⟨b.1, List.append_cancel_right b.2⟩

/-- **C63, exact.** No object is returned precisely for the texts that are not answered with an object, where parsing is defined
    (C42_defined_partial). -/
theorem C63_refused (s : List UInt8) (hs : NulFree s) (hd : ∃ v, parse (strict none) (s ++ [0]) = some v) :
    parse (strict none) (s ++ [0]) = some .null ↔ ∀ v, v ≠ .null → ¬ Answered s v := by
  constructor
  · intro h v hv ha
    rw [(C63_exact s hs v hv).mpr ha] at h
    exact hv (Option.some.inj h)
  · intro h
    obtain ⟨v, hd⟩ := hd
    by_cases hv : v = .null
    · rw [hd, hv]
    · exact absurd ((C63_exact s hs v hv).mp hd) (h v hv)

/-- **C63, exact.** The texts of the JSON grammar (without the exceptions of C63_accepts_partial) are among those answered, with the
    same value. -/
theorem C63_legal_answered (t : List UInt8) (v : Json) (h : Val none t v) (hs : NulFree t) (hv : v ≠ .null) : Answered t v := by
  refine (C63_exact t hs v hv).mp ?_
  have := C63_accepts_partial none t v h [] [] ws_nil ws_nil []
  simpa using this

/-- `[-,"a\q",]x` is answered with zero and `a`, and the rest is `x`. -/
example : LVal [0x5b, 0x2d, 0x2c, 0x22, 0x61, 0x5c, 0x71, 0x22, 0x2c, 0x5d, 0x78] (.list [.num (.int 0), .str [0x61]]) [0x78] := by
  have w : LVal ([] ++ [0x2d] ++ [0x2c, 0x22, 0x61, 0x5c, 0x71, 0x22, 0x2c, 0x5d, 0x78]) (.num (.int 0))
      [0x2c, 0x22, 0x61, 0x5c, 0x71, 0x22, 0x2c, 0x5d, 0x78] := by
    refine .word _ _ _ _ (by simp [Blanks]) (LWord.num true [] none none [] (.inl rfl) (by simp [Digits]) (by simp) (by simp) ?_) ?_ ?_
    · intro b hb; cases hb
    · exact word_ascii (by decide) (by unfold Blank Punct; decide) word_nil
    · intro b hb; cases hb; right; simp [Punct]
  have s1 : LVal ([] ++ 0x22 :: [0x61, 0x5c, 0x71, 0x22, 0x2c, 0x5d, 0x78]) (.str [0x61]) [0x2c, 0x5d, 0x78] :=
    .str _ _ _ _ (by simp [Blanks]) (.raw _ _ _ _ (by decide) (by decide) (.drop _ _ _ _ (by decide) (by decide) (by decide) (.close _)))
  exact .list [] _ _ _ (by simp [Blanks]) (.cons _ _ [] _ _ _ w (by simp [Blanks])
    (.cons _ _ [] _ _ _ s1 (by simp [Blanks]) (.nil [] _ (by simp [Blanks]))))

/-- `[1 2]`, `{"a",1}`, `[` and the empty text are refused. -/
example (v : Json) (hv : v ≠ .null) : ¬ Answered [0x5b, 0x31, 0x20, 0x32, 0x5d] v ∧ ¬ Answered [0x7b, 0x22, 0x61, 0x22, 0x2c, 0x31, 0x7d] v ∧
    ¬ Answered [0x5b] v ∧ ¬ Answered [] v := by
  refine ⟨?_, ?_, ?_, ?_⟩ <;>
  · refine (C63_refused _ (by unfold NulFree; decide) ⟨.null, rfl⟩).mp rfl v hv

end Json
end Duck
