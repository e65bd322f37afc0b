import Verif.Lemmas.Text
import Verif.Lemmas.UnicodePrev
import Verif.Spec.Text
/-! Helper lemmas for C36 and C37. -/
namespace Duck
namespace Text
open Unicode

theorem utf8_append (a b : List Char) : utf8 (a ++ b) = utf8 a ++ utf8 b := by simp [utf8]

def Ascii (cs : List Char) : Prop := ∀ c ∈ cs, c.toNat < 128

theorem enc_ascii_length {c : Char} (h : c.toNat < 128) : (String.utf8EncodeChar c).length = 1 := by
  rw [enc_eq, encNat, if_pos (by omega)]; rfl

theorem utf8_ascii_length : ∀ {cs : List Char}, Ascii cs → (utf8 cs).length = cs.length
  | [], _ => rfl
  | c :: cs, h => by
    have e : utf8 (c :: cs) = String.utf8EncodeChar c ++ utf8 cs := rfl
    rw [e, List.length_append, enc_ascii_length (h c (by simp)), utf8_ascii_length (fun x hx => h x (by simp [hx]))]
    simp; omega

theorem Ascii.append {a b : List Char} (ha : Ascii a) (hb : Ascii b) : Ascii (a ++ b) := by
  intro c hc; rcases List.mem_append.mp hc with h | h
  · exact ha c h
  · exact hb c h

theorem Ascii.left {a b : List Char} (h : Ascii (a ++ b)) : Ascii a := fun c hc => h c (by simp [hc])
theorem Ascii.right {a b : List Char} (h : Ascii (a ++ b)) : Ascii b := fun c hc => h c (by simp [hc])

section Generic
variable {α : Type} [DecidableEq α]

theorem firstAt_split {pat s : List α} (hne : pat ≠ []) {k : Nat} (h : firstAt pat s = some k) :
    ∃ a rest, s = a ++ pat ++ rest ∧ a.length = k := by
  obtain ⟨⟨t, ht⟩, -⟩ := ((firstAt_spec pat hne s).1 k).mp h
  have hk : k ≤ s.length := by
    rcases Nat.lt_or_ge s.length k with hlt | hge
    · rw [List.drop_of_length_le (by omega)] at ht
      exact absurd (List.append_eq_nil_iff.mp ht).1 hne
    · exact hge
  refine ⟨s.take k, t, ?_, by rw [List.length_take]; omega⟩
  rw [List.append_assoc, ht, List.take_append_drop]

theorem replaced_exists {pat : List α} (hne : pat ≠ []) (rep : List α) : ∀ (n : Nat) (s : List α), s.length ≤ n →
    ∃ out, Replaced pat rep s out
  | n, s, hn => by
    cases h : firstAt pat s with
    | none => exact ⟨s, .done s h⟩
    | some k =>
      obtain ⟨a, rest, rfl, rfl⟩ := firstAt_split hne h
      have hpos : pat.length ≠ 0 := fun e => hne (List.length_eq_zero_iff.mp e)
      simp only [List.length_append] at hn
      match n, hn with
      | 0, hn => omega
      | n + 1, hn =>
        obtain ⟨out, ho⟩ := replaced_exists hne rep n rest (by omega)
        exact ⟨_, .hit a rest out h ho⟩

theorem replaced_unique {pat : List α} {rep s o1 : List α} (h1 : Replaced pat rep s o1) :
    ∀ {o2}, Replaced pat rep s o2 → o2 = o1 := by
  induction h1 with
  | done s hs =>
    intro o2 h2
    cases h2 with
    | done => rfl
    | hit a rest out hf ho => rw [hs] at hf; cases hf
  | hit a rest out hf ho ih =>
    intro o2 h2
    generalize hs : a ++ pat ++ rest = s at h2
    cases h2 with
    | done _ hf' => rw [hs, hf'] at hf; cases hf
    | hit a' rest' out' hf' ho' =>
      rw [hs, hf'] at hf
      simp only [Option.some.injEq] at hf
      rw [List.append_assoc, List.append_assoc] at hs
      obtain ⟨e1, e2⟩ := List.append_inj hs (by omega)
      have e3 := (List.append_inj e2 rfl).2
      subst e1 e3
      rw [ih ho']

end Generic

/-! ## C36 -/

theorem replaceGo_ascii {ds rs : List Char} (hd : '\x00' ∉ ds) (hne : ds ≠ []) (hrz : '\x00' ∉ rs) (hra : Ascii rs)
    {rest out : List Char} (h : Replaced ds rs rest out) : ∀ (A : List Char) (fuel : Nat), Ascii A → Ascii rest →
    '\x00' ∉ A → '\x00' ∉ rest → A.length + out.length < 2 ^ 63 → rest.length ≤ fuel →
    (rangeOfString (utf8 (A ++ rest)) (utf8 ds) (A.length : Nat)).bind
      (replaceGo (utf8 ds) (utf8 rs) rs.length fuel (utf8 (A ++ rest))) = some (utf8 (A ++ out)) := by
  induction h with
  | done s hs =>
    intro A fuel hA hs' hAz hsz hlen hf
    rw [rangeOfString_text (by simp [hAz, hsz]) hd hne A.length (by simp) (by omega), List.drop_left' rfl, hs]
    simp only [Option.bind_some]
    rw [replaceGo.eq_def, if_neg (by simp)]
  | hit a rest out hf ho ih =>
    intro A fuel hA hs hAz hsz hlen hfu
    simp only [List.length_append] at hlen hfu
    have hpos : ds.length ≠ 0 := fun e => hne (List.length_eq_zero_iff.mp e)
    have ha : Ascii a := hs.left.left
    have hda : Ascii ds := hs.left.right
    have hr : Ascii rest := hs.right
    have haz : '\x00' ∉ a := fun e => hsz (by simp [e])
    have hrz' : '\x00' ∉ rest := fun e => hsz (by simp [e])
    rw [rangeOfString_text (by simp [hAz, haz, hd, hrz']) hd hne A.length (by simp) (by omega), List.drop_left' rfl, hf]
    simp only [Option.bind_some]
    match fuel, hfu with
    | 0, hfu => omega
    | fuel + 1, hfu =>
      rw [replaceGo.eq_def, if_pos (by simp only [ne_eq]; omega)]
      simp only
      have e1 : replaceSubstring (utf8 (A ++ (a ++ ds ++ rest))) ((A.length + a.length : Nat) : Int) (ds.length : Int) (utf8 rs) =
          utf8 ((A ++ a ++ rs) ++ rest) := by
        have l1 : (utf8 (A ++ a)).length = A.length + a.length := by
          rw [utf8_ascii_length (hA.append ha), List.length_append]
        have l2 : (utf8 ds).length = ds.length := utf8_ascii_length hda
        have e : utf8 (A ++ (a ++ ds ++ rest)) = utf8 (A ++ a) ++ utf8 ds ++ utf8 rest := by simp [utf8_append]
        rw [e, replaceSubstring, if_pos (by refine ⟨by omega, by omega, ?_⟩; simp only [List.length_append]; omega)]
        have t1 : ((A.length + a.length : Nat) : Int).toNat = (utf8 (A ++ a)).length := by omega
        have t2 : (((A.length + a.length : Nat) : Int) + (ds.length : Int)).toNat = (utf8 (A ++ a) ++ utf8 ds).length := by
          simp only [List.length_append]; omega
        rw [t1, t2, List.drop_left, List.append_assoc (utf8 (A ++ a)), List.take_left]
        simp [utf8_append]
      rw [e1]
      have := ih (A ++ a ++ rs) fuel ((hA.append ha).append hra) hr (by simp [hAz, haz, hrz]) hrz'
        (by simp only [List.length_append]; omega) (by omega)
      have e2 : ((A ++ a ++ rs).length : Int) = ((A.length + a.length : Nat) : Int) + (rs.length : Int) := by
        simp only [List.length_append]; omega
      rw [e2] at this
      rw [this]
      simp

/-! The diverging replacement. -/

theorem scan_c3 (r : Mem) : ustrscan (0xc3 :: 0xc3 :: r) = some (-1, 1) := by
  simp [ustrscan, rd, next, next2, trail, nextSlow, countTrail, body, body1, maskLead, skip, isTrail]

theorem scans_c3 : ∀ n : Nat, Scans (List.replicate n 0xc3 ++ [0xc3, 0xa9, 0x61])
    (List.replicate n (-1, [0xc3]) ++ [(0xe9, [0xc3, 0xa9]), (0x61, [0x61])])
  | 0 => Scans.cons 0xe9 [0xc3, 0xa9] [0x61] _ (by simp) (by decide +kernel)
      (Scans.cons 0x61 [0x61] [] _ (by simp) (by decide +kernel) .nil)
  | n + 1 => by
    refine Scans.cons (-1) [0xc3] (List.replicate n 0xc3 ++ [0xc3, 0xa9, 0x61]) _ (by simp) ?_ (scans_c3 n)
    match n with
    | 0 => exact scan_c3 _
    | n + 1 => exact scan_c3 _

theorem firstAt_drop {α : Type} [DecidableEq α] (x : α) : firstAt [x] [x] = some 0 := by simp [firstAt]

theorem range_c3 (n : Nat) (h : n + 1 < 2 ^ 64) :
    rangeOfString (List.replicate n 0xc3 ++ [0xc3, 0xa9, 0x61]) [0x61] ((n + 1 : Nat) : Int) = some (((n + 1 : Nat) : Int), 1) := by
  have hp : Scans [0x61] [(0x61, [0x61])] := Scans.cons 0x61 [0x61] [] _ (by simp) (by decide +kernel) .nil
  rw [rangeOfString_scans (scans_c3 n) hp (by simp) (n + 1) (by simp) h]
  have : (List.replicate n ((-1 : Int), [(0xc3 : UInt8)]) ++ [(0xe9, [0xc3, 0xa9]), (0x61, [0x61])]).drop (n + 1) = [(0x61, [0x61])] := by
    rw [show List.replicate n ((-1 : Int), [(0xc3 : UInt8)]) ++ [(0xe9, [0xc3, 0xa9]), (0x61, [0x61])] =
      (List.replicate n ((-1 : Int), [(0xc3 : UInt8)]) ++ [(0xe9, [0xc3, 0xa9])]) ++ [(0x61, [0x61])] by simp]
    exact List.drop_left' (by simp)
  rw [this]
  simp [codes, firstAt]

theorem replace_c3 (n : Nat) : replaceSubstring (List.replicate n 0xc3 ++ [0xc3, 0xa9, 0x61]) ((n + 1 : Nat) : Int) 1 [0xc3, 0xa9] =
    List.replicate (n + 1) 0xc3 ++ [0xc3, 0xa9, 0x61] := by
  rw [replaceSubstring, if_pos (by simp; omega)]
  have e : List.replicate n (0xc3 : UInt8) ++ [0xc3, 0xa9, 0x61] = List.replicate (n + 1) 0xc3 ++ [0xa9] ++ [0x61] := by
    rw [List.replicate_succ']; simp
  rw [show (((n + 1 : Nat) : Int)).toNat = (List.replicate (n + 1) (0xc3 : UInt8)).length by simp,
    show (((n + 1 : Nat) : Int) + 1).toNat = (List.replicate (n + 1) (0xc3 : UInt8) ++ [0xa9]).length by simp; omega, e,
    List.drop_left, List.append_assoc (List.replicate (n + 1) (0xc3 : UInt8)), List.take_left]
  simp

theorem replaceGo_c3 : ∀ (fuel n : Nat), n + fuel + 2 < 2 ^ 64 →
    replaceGo [0x61] [0xc3, 0xa9] 1 fuel (List.replicate n 0xc3 ++ [0xc3, 0xa9, 0x61]) (((n + 1 : Nat) : Int), 1) = none
  | 0, n, _ => by rw [replaceGo.eq_def, if_pos (by simp only [ne_eq]; omega)]
  | fuel + 1, n, h => by
    rw [replaceGo.eq_def, if_pos (by simp only [ne_eq]; omega)]
    simp only
    rw [replace_c3, show ((n + 1 : Nat) : Int) + ((1 : Nat) : Int) = ((n + 1 + 1 : Nat) : Int) by omega, range_c3 _ (by omega)]
    exact replaceGo_c3 fuel (n + 1) (by omega)

/-! ## C37 -/

/-- The splitting loop on characters. -/
inductive SplitsC (ds : List Char) : List Char → List (List Char) → List Char → Prop
  | stop (cs : List Char) : (firstAt ds cs = none ∨ firstAt ds cs = some 0) → SplitsC ds cs [] cs
  | step (p rest : List Char) (parts : List (List Char)) (r : List Char) : p ≠ [] →
      firstAt ds (p ++ ds ++ rest) = some p.length → SplitsC ds rest parts r → SplitsC ds (p ++ ds ++ rest) (p :: parts) r

theorem splitsC_exists {ds : List Char} (hne : ds ≠ []) : ∀ (n : Nat) (cs : List Char), cs.length ≤ n →
    ∃ parts r, SplitsC ds cs parts r
  | n, cs, hn => by
    cases h : firstAt ds cs with
    | none => exact ⟨[], cs, .stop cs (Or.inl h)⟩
    | some k =>
      rcases Nat.eq_zero_or_pos k with rfl | hk
      · exact ⟨[], cs, .stop cs (Or.inr h)⟩
      · obtain ⟨a, rest, rfl, rfl⟩ := firstAt_split hne h
        have ha : a ≠ [] := fun e => by subst e; simp at hk
        simp only [List.length_append] at hn
        match n, hn with
        | 0, hn => omega
        | n + 1, hn =>
          obtain ⟨parts, r, hp⟩ := splitsC_exists hne n rest (by omega)
          exact ⟨_, _, .step a rest parts r ha h hp⟩

theorem splitsC_eq {ds cs : List Char} {parts r} (h : SplitsC ds cs parts r) : cs = parts.flatMap (· ++ ds) ++ r := by
  induction h with
  | stop cs _ => simp
  | step p rest parts r _ _ _ ih => rw [ih]; simp

theorem mem_drop_text (A cs : List Char) : (mem (utf8 (A ++ cs))).drop (utf8 A).length = utf8 cs ++ 0 :: [0, 0, 0] := by
  rw [mem, utf8_append, List.append_assoc, List.drop_left]

theorem ustrstr_text {cs ds : List Char} (hc : '\x00' ∉ cs) (hd : '\x00' ∉ ds) (hne : ds ≠ []) :
    ustrstr (utf8 cs ++ 0 :: [0, 0, 0]) (mem (utf8 ds)) = some ((firstAt ds cs).map fun k => (utf8 (cs.take k)).length) := by
  rw [ustrstr, show mem (utf8 ds) = utf8 ds ++ 0 :: [0, 0, 0] from rfl,
    search_scans (scans_text hc) (scans_text hd) (by simpa [chunks] using hne), codes_chunks, codes_chunks, firstAt_map toInt_inj,
    Option.map_some, Option.map_map]
  congr 2
  funext k
  simp only [Function.comp]
  rw [show (chunks cs).take k = chunks (cs.take k) by simp [chunks, List.map_take], flat_chunks]

theorem splitGo_text {ds : List Char} (hd : '\x00' ∉ ds) (hne : ds ≠ []) {cs : List Char} {parts r} (h : SplitsC ds cs parts r) :
    ∀ (A : List Char) (fuel : Nat), '\x00' ∉ cs → cs.length ≤ fuel →
      ∃ B, A ++ cs = B ++ r ∧ splitGo (mem (utf8 (A ++ cs))) (mem (utf8 ds)) (utf8 ds).length fuel (utf8 A).length =
        some (parts.map utf8, (utf8 B).length) := by
  induction h with
  | stop cs hs =>
    intro A fuel hz hf
    refine ⟨A, rfl, ?_⟩
    rw [splitGo.eq_def, mem_drop_text, ustrstr_text hz hd hne]
    rcases hs with hs | hs <;> rw [hs] <;> simp [utf8]
  | step p rest parts r hp hf _ ih =>
    intro A fuel hz hfu
    simp only [List.length_append] at hfu
    have hpl : p.length ≠ 0 := fun e => hp (List.length_eq_zero_iff.mp e)
    have hpu : (utf8 p).length ≠ 0 := fun e => utf8_ne hp (List.length_eq_zero_iff.mp e)
    match fuel, hfu with
    | 0, hfu => omega
    | fuel + 1, hfu =>
      obtain ⟨B, hB, hi⟩ := ih (A ++ p ++ ds) fuel (fun e => hz (by simp [e])) (by omega)
      refine ⟨B, by rw [← hB]; simp, ?_⟩
      rw [splitGo.eq_def, mem_drop_text, ustrstr_text hz hd hne, hf]
      simp only [Option.map_some, Option.bind_some]
      have ht : (p ++ ds ++ rest).take p.length = p := by rw [List.append_assoc, List.take_left]
      rw [ht, if_pos (by omega)]
      have e1 : copySubstring (utf8 (p ++ ds ++ rest) ++ 0 :: [0, 0, 0]) 0 (utf8 p).length = some (utf8 p) := by
        rw [copySubstring, if_neg hpu, if_pos (by simp [utf8_append])]
        simp [utf8_append]
      have e2 : (utf8 A).length + (utf8 p).length + (utf8 ds).length = (utf8 (A ++ p ++ ds)).length := by
        simp [utf8_append]
        omega
      have e3 : A ++ (p ++ ds ++ rest) = A ++ p ++ ds ++ rest := by simp
      rw [e1, e2, e3, Option.bind_some, hi]
      simp

theorem split_text {ds : List Char} (hd : '\x00' ∉ ds) (hne : ds ≠ []) {cs : List Char} {parts r} (h : SplitsC ds cs parts r)
    (hz : '\x00' ∉ cs) : split (utf8 cs) (utf8 ds) = some (parts.map utf8 ++ if r = [] then [] else [utf8 r]) := by
  have hlen : cs.length ≤ (utf8 cs).length := by
    have := scans_length (scans_text hz); simpa [chunks] using this
  obtain ⟨B, hB, hg⟩ := splitGo_text hd hne h [] (utf8 cs).length hz hlen
  have hs : strlen (mem (utf8 ds)) = some (utf8 ds).length := strlen_eq (utf8_nulfree hd) [0, 0, 0]
  rw [List.nil_append] at hB hg
  have hrz : '\x00' ∉ r := fun e => hz (by rw [hB]; simp [e])
  have hg' : splitGo (mem (utf8 cs)) (mem (utf8 ds)) (utf8 ds).length (utf8 cs).length 0 = some (parts.map utf8, (utf8 B).length) := hg
  rw [split, hs, Option.bind_some, hg', Option.bind_some, hB]
  simp only
  have hdrop := mem_drop_text B r
  have hrd : rd (mem (utf8 (B ++ r))) (utf8 B).length = rd (utf8 r ++ 0 :: [0, 0, 0]) 0 := by
    rw [← hdrop, rd_drop, Nat.add_zero]
  rw [hrd, hdrop]
  by_cases hr : r = []
  · subst hr
    simp [utf8, rd]
  · have hnz : ∃ b, rd (utf8 r ++ 0 :: [0, 0, 0]) 0 = some b ∧ b ≠ 0 := by
      have hf := utf8_nulfree hrz
      match hu : utf8 r, utf8_ne hr with
      | b :: bs, _ =>
        rw [hu] at hf
        refine ⟨b.toNat, by simp [rd], fun e => hf ?_⟩
        have : b = 0 := UInt8.toNat_inj.mp (by simpa using e)
        rw [this]; simp
    obtain ⟨b, hb, hb0⟩ := hnz
    rw [hb, Option.bind_some, if_pos hb0, strlen_eq (utf8_nulfree hrz), Option.bind_some, copySubstring,
      if_neg (fun e => utf8_ne hr (List.length_eq_zero_iff.mp e)), if_pos (by simp)]
    simp [hr]

theorem combineGo_eq (sep : List UInt8) : ∀ (xs : List (List UInt8)) (acc : List UInt8),
    combineGo (some sep) xs acc = acc ++ sep.intercalate xs
  | [], acc => by simp [combineGo]
  | [x], acc => by simp [combineGo]
  | x :: y :: xs, acc => by
    rw [combineGo, combineGo_eq sep (y :: xs)]
    simp [List.intercalate, List.intersperse]
    simp

theorem combine_eq (xs : List (List UInt8)) (sep : List UInt8) : combine xs (some sep) = sep.intercalate xs := by
  rw [combine, combineGo_eq, List.nil_append]

theorem intercalate_snoc {α : Type} (sep : List α) (r : List α) : ∀ xs : List (List α),
    sep.intercalate (xs ++ [r]) = xs.flatMap (· ++ sep) ++ r
  | [] => by simp
  | [x] => by simp [List.intercalate, List.intersperse]
  | x :: y :: xs => by
    have := intercalate_snoc sep r (y :: xs)
    simp [List.intercalate, List.intersperse] at this ⊢
    rw [this]

end Text
end Duck
