import Verif.Spec.WString
import Verif.Lemmas.Query
/-! C93: wide strings. -/
namespace Duck
namespace WString
open Unicode (utf8)

/-- C93, from wide strings (partial): a string made from the wide string of a text has that text. -/
theorem C93_init_partial (h : Host) (hr : h.Right) (cs : List Char) (hz : '\x00' ∉ cs) :
    initWithWString h (utf16 cs ++ [0]) = some (utf8 cs) := by
  have hn : (0 : UInt8) ∉ utf8 cs := Unicode.utf8_nulfree hz
  have hc : Data.cstr (utf8 cs ++ [0]) = utf8 cs := by
    rw [Data.cstr, List.takeWhile_append_of_pos]
    · simp
    · intro b hb
      have : b ≠ 0 := fun e => hn (e ▸ hb)
      simpa using this
  simp only [initWithWString, hr.utf8 cs hz, convert, if_true, Option.bind_some]
  rw [if_neg (by simp), if_neg (by simp), if_pos (by simp)]
  simp [hc]

/-- Such a host exists: one that looks for the text. -/
noncomputable def someHost : Host where
  toWide := fun s => by
    classical
    exact if h : ∃ cs : List Char, '\x00' ∉ cs ∧ utf8 cs = s then some (utf16 h.choose ++ [0]) else none
  toUtf8 := fun w => by
    classical
    exact if h : ∃ cs : List Char, '\x00' ∉ cs ∧ utf16 cs ++ [0] = w then some (utf8 h.choose ++ [0]) else none

/-- UTF-16 determines the text. -/
theorem units_inj {c d : Char} {x y : List Unit16} (h : units c ++ x = units d ++ y) : c = d ∧ x = y := by
  have hv : ∀ c : Char, c.toNat < 0x110000 ∧ ¬ (0xD800 ≤ c.toNat ∧ c.toNat < 0xE000) := by
    intro c
    have := c.valid
    simp only [UInt32.isValidChar, Nat.isValidChar] at this
    simp only [Char.toNat]
    omega
  have hc := hv c
  have hd := hv d
  have inj : ∀ a b : Nat, a < 65536 → b < 65536 → BitVec.ofNat 16 a = BitVec.ofNat 16 b → a = b := by
    intro a b ha hb e
    have := congrArg BitVec.toNat e
    simp only [BitVec.toNat_ofNat] at this
    omega
  have key : ∀ {a b : Nat}, a = b → ∀ {c d : Char}, c.toNat = a → d.toNat = b → c = d := by
    intro a b e c d e1 e2
    exact Char.ext (UInt32.toNat_inj.mp (show c.toNat = d.toNat by omega))
  simp only [units] at h
  split at h <;> split at h
  · simp only [List.cons_append, List.nil_append, List.cons.injEq] at h
    exact ⟨key (inj _ _ (by omega) (by omega) h.1) rfl rfl, h.2⟩
  · simp only [List.cons_append, List.nil_append, List.cons.injEq] at h
    have := inj _ _ (by omega) (by omega) h.1
    omega
  · simp only [List.cons_append, List.nil_append, List.cons.injEq] at h
    have := inj _ _ (by omega) (by omega) h.1
    omega
  · simp only [List.cons_append, List.nil_append, List.cons.injEq] at h
    have h1 := inj _ _ (by omega) (by omega) h.1
    have h2 := inj _ _ (by omega) (by omega) h.2.1
    exact ⟨key (show c.toNat = d.toNat by omega) rfl rfl, h.2.2⟩

theorem units_ne_nil (c : Char) : ∃ u us, units c = u :: us := by
  simp only [units]
  split
  · exact ⟨_, _, rfl⟩
  · exact ⟨_, _, rfl⟩

theorem utf16_inj : ∀ {cs ds : List Char}, utf16 cs = utf16 ds → cs = ds
  | [], [], _ => rfl
  | [], d :: ds, h => by
    obtain ⟨u, us, e⟩ := units_ne_nil d
    simp [utf16, e] at h
  | c :: cs, [], h => by
    obtain ⟨u, us, e⟩ := units_ne_nil c
    simp [utf16, e] at h
  | c :: cs, d :: ds, h => by
    simp only [utf16, List.flatMap_cons] at h
    obtain ⟨rfl, h2⟩ := units_inj h
    rw [utf16_inj (cs := cs) (ds := ds) h2]

/-- The hypothesis of C93_init_partial can be met. -/
theorem someHost_right : someHost.Right where
  wide := by
    intro cs hz
    have h : ∃ ds : List Char, '\x00' ∉ ds ∧ utf8 ds = utf8 cs := ⟨cs, hz, rfl⟩
    simp only [someHost, dif_pos h]
    rw [Query.utf8_inj h.choose_spec.1 hz h.choose_spec.2]
  utf8 := by
    intro cs hz
    have h : ∃ ds : List Char, '\x00' ∉ ds ∧ utf16 ds ++ [0] = utf16 cs ++ [0] := ⟨cs, hz, rfl⟩
    simp only [someHost, dif_pos h]
    rw [utf16_inj (List.append_cancel_right h.choose_spec.2)]

/-- A character of the basic plane and one beyond. -/
example : utf16 ['a', '𝄞'] = [0x61, 0xD834, 0xDD1E] := by decide +kernel
example : initWithWString someHost (utf16 ['a', '𝄞'] ++ [0]) = some (utf8 ['a', '𝄞']) :=
  C93_init_partial _ someHost_right _ (by decide)

/-- The property is false to wide strings: whatever the string and whatever Windows does, no data comes out and the wide string
    is empty.  The data made to hold the wide string has memory but no bytes, so its byte pointer is NULL. -/
theorem C93_wide_fails (h : Host) (s : List UInt8) : asData h s = some none ∧ getWString h s = some (some [0, 0]) := by
  have ha : asData h s = some none := by
    simp only [asData]
    split
    · rfl
    · cases hw : h.toWide (Data.cstr s) with
      | none => rfl
      | some w =>
        simp only [convert, if_true, Option.bind_some]
        split
        · rfl
        · rename_i h0
          simp [bytePtr, dataWithCapacity, Ne.symm h0]
  exact ⟨ha, by rw [getWString, ha]; rfl⟩

/-- So only the empty text is converted to wide characters. -/
theorem C93_only_empty (h : Host) (cs : List Char) : getWString h (utf8 cs) = some (some (wideBytes cs)) ↔ cs = [] := by
  rw [(C93_wide_fails h (utf8 cs)).2]
  constructor
  · intro e
    cases cs with
    | nil => rfl
    | cons c cs =>
      obtain ⟨u, us, hu⟩ := units_ne_nil c
      simp [wideBytes, utf16, hu] at e
  · rintro rfl
    rfl

example : getWString someHost (utf8 ['a']) = some (some [0, 0]) ∧ wideBytes ['a'] = [0x61, 0, 0, 0] :=
  ⟨(C93_wide_fails _ _).2, by decide +kernel⟩

/-- A wide string Windows cannot convert: undefined behaviour, memory that was never written is read. -/
theorem C93_unconverted_fails (h : Host) (w : List Unit16) (hw : h.toUtf8 w = none) : initWithWString h w = none := by
  simp [initWithWString, convert, hw]

example : initWithWString ⟨fun _ => none, fun _ => none⟩ [0xD800, 0] = none := rfl

end WString
end Duck
