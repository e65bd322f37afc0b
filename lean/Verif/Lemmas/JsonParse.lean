import Verif.Lemmas.JsonScan
/-! Lemmas for C41 and C63: texts of the grammar are parsed, and the writer writes such texts. -/
namespace Duck
namespace Json
open Unicode Num

theorem setEntry_eq (k : List UInt8) (v : Json) : ∀ {d : List (List UInt8 × Json)}, (d.map (·.1)).Nodup → setEntry k v d = assign d (k, v) := by
  intro d
  induction d with
  | nil => intro _; rfl
  | cons e d ih =>
    intro hn
    simp only [List.map_cons, List.nodup_cons] at hn
    rw [setEntry, assign]
    by_cases h : e.1 = k
    · rw [if_pos h, if_pos (by simp [h])]
      rw [List.map_cons, if_pos h]
      have : d.map (fun x => if x.1 = k then (k, v) else x) = d := by
        refine (List.map_congr_left (g := id) ?_).trans (List.map_id d)
        intro x hx
        rw [if_neg]; · rfl
        rintro rfl
        exact hn.1 (by rw [h]; exact List.mem_map_of_mem hx)
      simp only
      rw [this, h]
    · rw [if_neg h, ih hn.2, assign]
      simp only [List.map_cons, List.mem_cons]
      by_cases hk : k ∈ d.map (·.1)
      · rw [if_pos hk, if_pos (Or.inr hk), if_neg h]
      · rw [if_neg hk, if_neg (fun h' => h'.elim (fun h' => h h'.symm) hk)]; rfl

theorem assign_nodup {d : List (List UInt8 × Json)} (h : (d.map (·.1)).Nodup) (e : List UInt8 × Json) : ((assign d e).map (·.1)).Nodup := by
  unfold assign
  split
  · rw [List.map_map]
    have : ((fun x : List UInt8 × Json => x.1) ∘ fun x => if x.1 = e.1 then e else x) = fun x => x.1 := by
      funext x; simp only [Function.comp]; split
      · next h => exact h.symm
      · rfl
    rw [this]; exact h
  · next hk =>
    rw [List.map_append, List.nodup_append]
    refine ⟨h, by simp, ?_⟩
    intro a ha b hb
    simp at hb; subst hb
    rintro rfl; exact hk ha

theorem foldl_assign_nodup : ∀ {l d : List (List UInt8 × Json)}, ((d ++ l).map (·.1)).Nodup → l.foldl assign d = d ++ l := by
  intro l
  induction l with
  | nil => intro d _; simp
  | cons e l ih =>
    intro d h
    have h1 : e.1 ∉ d.map (·.1) := by
      rw [List.map_append, List.nodup_append] at h
      intro hm
      exact h.2.2 e.1 hm e.1 (by simp) rfl
    rw [List.foldl_cons, show assign d e = d ++ [e] by rw [assign, if_neg h1], ih (by simpa using h)]
    simp

/-! ## Delimiters -/

theorem delim_ws {w : List UInt8} (hw : Ws w) {c : UInt8} (hc : c ∈ ([0x2c, 0x3a, 0x5b, 0x5d, 0x7b, 0x7d] : List UInt8)) (rest : List UInt8) :
    Delim (w ++ c :: rest) := by
  intro b hb
  match w, hw with
  | [], _ => simp at hb; subst hb; simp at hc ⊢; exact Or.inr (Or.inr (Or.inr (Or.inr hc)))
  | x :: w, hw =>
    simp at hb; subst hb
    rcases hw x (by simp) with rfl | rfl | rfl | rfl <;> decide

theorem digit_word {b : UInt8} (h : 48 ≤ b.toNat ∧ b.toNat ≤ 57) : WordByte b := by
  have key : ∀ n : Nat, n < 58 → 48 ≤ n → UInt8.ofNat n ≠ 0 ∧ (UInt8.ofNat n).toNat < 128 ∧ isSpace (UInt8.ofNat n) = false ∧
      isToken (UInt8.ofNat n) = false ∧ UInt8.ofNat n ≠ 0x22 ∧ UInt8.ofNat n ≠ 0x23 := by
    decide +kernel
  have := key b.toNat (by omega) h.1
  rwa [UInt8.ofNat_toNat] at this

theorem numeral_word {neg : Bool} {ds : List UInt8} {frac : Option (List UInt8)} {exp : Option (Bool × List UInt8)} (hd : Digits ds)
    (hf : ∀ fs, frac = some fs → Digits fs) (hx : ∀ e, exp = some e → Digits e.2) :
    ∀ b ∈ numeral neg false ds frac exp, WordByte b := by
  intro b hb
  simp only [numeral, List.mem_append] at hb
  rcases hb with ((hb | hb) | hb) | hb
  · cases neg with
    | false => simp [signText] at hb
    | true => simp [signText] at hb; subst hb; unfold WordByte; decide
  · exact digit_word (hd b hb)
  · cases frac with
    | none => simp at hb
    | some fs =>
      simp only [Option.elim_some, List.mem_cons] at hb
      rcases hb with rfl | hb
      · unfold WordByte; decide
      · exact digit_word (hf fs rfl b hb)
  · cases exp with
    | none => simp at hb
    | some e =>
      simp only [Option.elim_some, List.mem_cons] at hb
      rcases hb with rfl | hb
      · cases e.1 <;> (unfold WordByte; decide)
      · exact digit_word (hx e rfl b hb)

theorem delim_ends {frac : Option (List UInt8)} {exp : Option (Bool × List UInt8)} {rest : List UInt8} (h : Delim rest) : Ends frac exp rest := by
  intro b hb
  have := h b hb
  simp only [List.mem_cons, List.not_mem_nil, or_false] at this
  rcases this with rfl | rfl | rfl | rfl | rfl | rfl | rfl | rfl | rfl | rfl <;>
    exact ⟨by decide, fun _ => ⟨by decide, by decide, fun _ => by decide⟩⟩

/-! ## Parsing texts of the grammar -/

theorem parse_word (H : Host) {w : List UInt8} (hw : Ws w) {x : UInt8} {u : List UInt8} (hx : WordByte x) (hu : ∀ b ∈ u, WordByte b)
    (h1 : x ≠ 0x2d) (h2 : isDigit x = false) {rest : List UInt8} (hd : Delim rest) (r : Mem) (fuel : Nat) :
    parseObject H (fuel + 1) (w ++ x :: (u ++ rest ++ 0 :: r)) =
      (parseWord (x :: (u ++ rest ++ 0 :: r))).map fun res => (res, rest ++ 0 :: r) := by
  have q : ∀ c, isToken c = true → x ≠ c := by rintro c hc rfl; rw [hx.2.2.2.1] at hc; cases hc
  rw [parseObject, scanToken_word H hw hx hu hd r, Option.bind_some]
  simp only
  rw [if_neg (by decide), List.head?_cons, Option.bind_some, if_neg (q _ (by decide)), if_neg (q _ (by decide)), if_neg (q _ (by decide)),
    if_neg (q _ (by decide)), if_neg (by simp [h1, h2])]

/-- A numeral is scanned as a token and read as its number. -/
theorem numeral_token (H : Host) (vec) (obj : Bool) {w : List UInt8} (hw : Ws w) {t : List UInt8} {n : Num} (h : Numeral t n)
    {rest : List UInt8} (hd : Delim rest) (r : Mem) : ∃ x u, t = x :: u ∧ (x = 0x2d ∨ isDigit x = true) ∧ WordByte x ∧
    tokenWith H vec obj (w ++ t ++ rest ++ 0 :: r) = some ⟨x :: (u ++ rest ++ 0 :: r), rest ++ 0 :: r, false, none⟩ ∧
    strtonum (x :: (u ++ rest ++ 0 :: r)) = some (n, rest ++ 0 :: r) := by
  obtain ⟨neg, ds, frac, exp, hds, hne, h63, hf, hx⟩ := h
  have hnum := C43_numeral_partial [] (by simp) neg false ds hds hne h63 frac hf exp hx rest (delim_ends hd) r
  have hword := numeral_word (neg := neg) hds (fun fs h => (hf fs h).1) (fun e h => (hx e h).1)
  have hhead : ∃ x u, numeral neg false ds frac exp = x :: u ∧ (x = 0x2d ∨ isDigit x = true) := by
    cases neg with
    | true => exact ⟨0x2d, _, rfl, Or.inl rfl⟩
    | false =>
      match ds, hne, hds with
      | d :: ds, _, hds => exact ⟨d, _, rfl, Or.inr ((isDigit_iff d).mpr (hds d (by simp)))⟩
  obtain ⟨x, u, he, hhx⟩ := hhead
  rw [he] at hword hnum ⊢
  have hxw := hword x (by simp)
  refine ⟨x, u, rfl, hhx, hxw, ?_, ?_⟩
  · have e1 : w ++ x :: u ++ rest ++ 0 :: r = w ++ x :: (u ++ rest ++ 0 :: r) := by simp
    rw [e1, tokenWith_word H vec obj hw hxw (fun b hb => hword b (by simp [hb])) hd r]
  · rw [show x :: (u ++ rest ++ 0 :: r) = [] ++ x :: u ++ rest ++ 0 :: r by simp, hnum]

theorem parse_num (H : Host) {w : List UInt8} (hw : Ws w) {t : List UInt8} {n : Num} (h : Numeral t n)
    {rest : List UInt8} (hd : Delim rest) (r : Mem) (fuel : Nat) :
    parseObject H (fuel + 1) (w ++ t ++ rest ++ 0 :: r) = some (.ok (.num n), rest ++ 0 :: r) := by
  obtain ⟨x, u, -, hhx, hxw, e1, e2⟩ := numeral_token H (vectorAt H (w ++ t ++ rest ++ 0 :: r).length) true hw h hd r
  have q : ∀ c, isToken c = true → x ≠ c := by rintro c hc rfl; rw [hxw.2.2.2.1] at hc; cases hc
  rw [parseObject, scanToken, e1, Option.bind_some]
  simp only
  rw [if_neg (by decide), List.head?_cons, Option.bind_some, if_neg (q _ (by decide)), if_neg (q _ (by decide)), if_neg (q _ (by decide)),
    if_neg (q _ (by decide)), if_pos (by simpa using hhx), e2]
  rfl

theorem numeral_pos {t : List UInt8} {n : Num} (h : Numeral t n) : 0 < t.length := by
  obtain ⟨neg, ds, frac, exp, hds, hne, h63, hf, hx⟩ := h
  have : 0 < ds.length := List.length_pos_iff.mpr hne
  simp [numeral]; omega

/-! ## Vectors -/

theorem wrap32_eq {i : Int} (h1 : -2 ^ 31 ≤ i) (h2 : i < 2 ^ 31) : wrap32 i = i := by
  rw [wrap32, BitVec.toInt_ofInt, Int.bmod_eq_of_le] <;> omega

theorem numeral_real {t : List UInt8} {n : Num} (h : Numeral t n) : n ≠ .overflow := by
  obtain ⟨neg, ds, frac, exp, hds, hne, h63, hf, hx⟩ := h
  unfold meaning
  intro h
  split at h <;> cases h

theorem nums_real {t : List UInt8} {l : List Num} (h : Nums t l) : Num.overflow ∉ l := by
  induction h with
  | one a t b n ha hb hn => simpa using (numeral_real hn).symm
  | cons a t b n t' l ha hb hn _ ih => simpa using ⟨(numeral_real hn).symm, ih⟩

theorem push_all (narrow : Bool) : ∀ {l : List Num} (v : Buf), Num.overflow ∉ l → Fit narrow l →
    l.foldl (Buf.push narrow) v = ⟨v.real || l.any isReal, v.elems ++ l⟩ := by
  intro l
  induction l with
  | nil => intro v _ _; simp
  | cons n l ih =>
    intro v h1 h2
    simp only [List.mem_cons, not_or] at h1
    have h3 : Fit narrow l := fun hn i hi => h2 hn i (by simp [hi])
    rw [List.foldl_cons, ih _ h1.2 h3]
    cases n with
    | overflow => exact absurd rfl h1.1
    | dbl a b c d => simp [Buf.push, isReal]
    | int i =>
      have : (if v.real then i else if narrow then wrap32 i else i) = i := by
        split
        · rfl
        · split
          · next hn => exact wrap32_eq (h2 hn i (by simp)).1 (h2 hn i (by simp)).2
          · rfl
      simp [Buf.push, isReal, this]

theorem loop_nums (H : Host) {t : List UInt8} {l : List Num} (h : Nums t l) : ∀ rest r fuel obj v, l.length ≤ fuel →
    vectorLoop H fuel obj (t ++ 0x5d :: rest ++ 0 :: r) v =
      some (if obj then some ((l.foldl (Buf.push (H.vec == some true)) v).number (H.vec == some true)) else none, rest ++ 0 :: r) := by
  induction h with
  | one a t b n ha hb hn =>
    intro rest r fuel obj v hf
    obtain ⟨fuel, rfl⟩ : ∃ f, fuel = f + 1 := ⟨fuel - 1, by simp at hf; omega⟩
    obtain ⟨x, u, -, hhx, -, e1, e2⟩ := numeral_token H (vectorAt H fuel) false ha hn (delim_ws hb (by decide : (0x5d : UInt8) ∈ _) rest) r
    have e : a ++ t ++ b ++ 0x5d :: rest ++ 0 :: r = a ++ t ++ (b ++ 0x5d :: rest) ++ 0 :: r := by simp
    rw [e, vectorLoop, e1, Option.bind_some]
    simp only [List.head?_cons, Option.bind_some]
    rw [if_pos hhx, e2, Option.bind_some]
    simp only [List.append_assoc, List.cons_append]
    rw [tokenWith_char H _ false hb (by decide) (by decide), Option.bind_some]
    simp
  | cons a t b n t' l ha hb hn _ ih =>
    intro rest r fuel obj v hf
    obtain ⟨fuel, rfl⟩ : ∃ f, fuel = f + 1 := ⟨fuel - 1, by simp at hf; omega⟩
    obtain ⟨x, u, -, hhx, -, e1, e2⟩ := numeral_token H (vectorAt H fuel) false ha hn
      (delim_ws hb (by decide : (0x2c : UInt8) ∈ _) (t' ++ 0x5d :: rest)) r
    have e : a ++ t ++ b ++ 0x2c :: t' ++ 0x5d :: rest ++ 0 :: r = a ++ t ++ (b ++ 0x2c :: (t' ++ 0x5d :: rest)) ++ 0 :: r := by simp
    have hr := ih rest r fuel obj (v.push (H.vec == some true) n) (by simp at hf; omega)
    rw [e, vectorLoop, e1, Option.bind_some]
    simp only [List.head?_cons, Option.bind_some]
    rw [if_pos hhx, e2, Option.bind_some]
    simp only [List.append_assoc, List.cons_append] at hr ⊢
    rw [tokenWith_char H _ false hb (by decide) (by decide), Option.bind_some]
    simp only [List.head?_cons, Option.bind_some, if_true]
    rw [hr, List.foldl_cons]

theorem nums_length {t : List UInt8} {l : List Num} (h : Nums t l) : l.length ≤ t.length := by
  induction h with
  | one a t b n ha hb hn => have := numeral_pos hn; simp; omega
  | cons a t b n t' l ha hb hn _ ih => have := numeral_pos hn; simp; omega

/-- A vector is scanned as a token. -/
theorem scanToken_vec (H : Host) (hx : H.vec.isSome) {w : List UInt8} (hw : Ws w) {t : List UInt8} {l : List Num} (h : Nums t l) (rest r : Mem) :
    scanToken H true (w ++ (0x23 :: 0x5b :: t ++ [0x5d]) ++ rest ++ 0 :: r) =
      some ⟨(0x23 :: 0x5b :: t ++ [0x5d]) ++ rest ++ 0 :: r, rest ++ 0 :: r, false,
        some ((l.foldl (Buf.push (H.vec == some true)) ⟨false, []⟩).number (H.vec == some true))⟩ := by
  have hl := nums_length h
  have e : w ++ (0x23 :: 0x5b :: t ++ [0x5d]) ++ rest ++ 0 :: r = w ++ 0x23 :: (0x5b :: (t ++ 0x5d :: rest ++ 0 :: r)) := by simp
  rw [e, scanToken, tokenWith, skipSpace_eq H hw (by decide) (by decide) (by decide) _ _ (by simp), Option.bind_some]
  simp only
  rw [if_neg (by decide), if_pos ⟨by decide, hx⟩, List.drop_succ_cons, List.drop_zero]
  obtain ⟨f, hf⟩ : ∃ f, (w ++ 0x23 :: 0x5b :: (t ++ 0x5d :: rest ++ 0 :: r)).length = f + 1 := ⟨_, by simp; rfl⟩
  rw [hf, vectorAt, scan_ascii (by decide) (by decide), Option.bind_some]
  simp only
  rw [if_pos (by decide), List.drop_succ_cons, List.drop_zero, loop_nums H h rest r f true _ (by simp at hf; omega)]
  simp

theorem number_eq (narrow : Bool) {l : List Num} (h : l.length < 2 ^ 24) : (Buf.mk (l.any isReal) l).number narrow = vector narrow l := by
  unfold Buf.number vector
  simp only
  rw [Nat.mod_eq_of_lt h, List.take_length]
  cases narrow with
  | true => rfl
  | false =>
    match l with
    | [] => rfl
    | [_] => rfl
    | _ :: _ :: _ => rfl

theorem vector_many (narrow : Bool) {l : List Num} (h : 2 ≤ l.length) : vector narrow l = .vec narrow (l.any isReal) l := by
  cases narrow with
  | true => rfl
  | false =>
    match l, h with
    | _ :: _ :: _, _ => rfl

theorem parse_vec (H : Host) {narrow : Bool} (hx : H.vec = some narrow) {w : List UInt8} (hw : Ws w) {t : List UInt8} {l : List Num}
    (h : Nums t l) (h24 : l.length < 2 ^ 24) (hfit : Fit narrow l) (rest r : Mem) (fuel : Nat) :
    parseObject H (fuel + 1) (w ++ (0x23 :: 0x5b :: t ++ [0x5d]) ++ rest ++ 0 :: r) = some (.ok (vector narrow l), rest ++ 0 :: r) := by
  rw [parseObject, scanToken_vec H (by simp [hx]) hw h rest r, Option.bind_some]
  have e : (H.vec == some true) = narrow := by rw [hx]; cases narrow <;> rfl
  rw [e, push_all narrow _ (nums_real h) hfit]
  simp [number_eq narrow h24]

theorem parse_str (H : Host) {w : List UInt8} (hw : Ws w) {lit s : List UInt8} (h : StrBody lit s) (rest r : Mem) (fuel : Nat) :
    parseObject H (fuel + 1) (w ++ 0x22 :: (lit ++ 0x22 :: rest ++ 0 :: r)) = some (.ok (.str s), rest ++ 0 :: r) := by
  rw [parseObject, scanToken_string H hw h rest r, Option.bind_some]
  simp

theorem parse_bracket (H : Host) {w : List UInt8} (hw : Ws w) (m : Mem) (fuel : Nat) :
    parseObject H (fuel + 1) (w ++ 0x5b :: m) = parseList H fuel m [] ∧
    parseObject H (fuel + 1) (w ++ 0x5d :: m) = some (.closeList, m) ∧
    parseObject H (fuel + 1) (w ++ 0x7b :: m) = parseDict H fuel m [] ∧
    parseObject H (fuel + 1) (w ++ 0x7d :: m) = some (.closeDict, m) := by
  refine ⟨?_, ?_, ?_, ?_⟩ <;>
  · rw [parseObject, scanToken_char H true hw (by decide) (by decide), Option.bind_some]
    rfl

mutual
theorem parse_val (H : Host) {t : List UInt8} {v : Json} (h : Val H.vec t v) : ∀ {w : List UInt8}, Ws w → ∀ {rest : List UInt8}, Delim rest →
    ∀ r fuel, 2 * t.length ≤ fuel → parseObject H fuel (w ++ t ++ rest ++ 0 :: r) = some (.ok v, rest ++ 0 :: r) := by
  intro w hw rest hd r fuel hf
  match h with
  | .null =>
    obtain ⟨fuel, rfl⟩ : ∃ f, fuel = f + 1 := ⟨fuel - 1, by simp at hf; omega⟩
    have := parse_word H hw (x := 0x6e) (u := [0x75, 0x6c, 0x6c]) (by unfold WordByte; decide)
      (by unfold WordByte; decide) (by decide) (by decide) hd r fuel
    rw [List.append_assoc, List.append_assoc]; refine this.trans ?_; simp [parseWord, startsWith]
  | .true =>
    obtain ⟨fuel, rfl⟩ : ∃ f, fuel = f + 1 := ⟨fuel - 1, by simp at hf; omega⟩
    have := parse_word H hw (x := 0x74) (u := [0x72, 0x75, 0x65]) (by unfold WordByte; decide)
      (by unfold WordByte; decide) (by decide) (by decide) hd r fuel
    rw [List.append_assoc, List.append_assoc]; refine this.trans ?_; simp [parseWord, startsWith]
  | .false =>
    obtain ⟨fuel, rfl⟩ : ∃ f, fuel = f + 1 := ⟨fuel - 1, by simp at hf; omega⟩
    have := parse_word H hw (x := 0x66) (u := [0x61, 0x6c, 0x73, 0x65]) (by unfold WordByte; decide)
      (by unfold WordByte; decide) (by decide) (by decide) hd r fuel
    rw [List.append_assoc, List.append_assoc]; refine this.trans ?_; simp [parseWord, startsWith]
  | .num t n hn =>
    have := numeral_pos hn
    obtain ⟨fuel, rfl⟩ : ∃ f, fuel = f + 1 := ⟨fuel - 1, by omega⟩
    exact parse_num H hw hn hd r fuel
  | .vec narrow t l hx hn h24 hfit =>
    obtain ⟨fuel, rfl⟩ : ∃ f, fuel = f + 1 := ⟨fuel - 1, by simp at hf; omega⟩
    exact parse_vec H hx hw hn h24 hfit rest r fuel
  | .str t s hb =>
    obtain ⟨fuel, rfl⟩ : ∃ f, fuel = f + 1 := ⟨fuel - 1, by simp at hf; omega⟩
    have := parse_str H hw hb rest r fuel
    simpa using this
  | .emptyList w' hw' =>
    obtain ⟨fuel, rfl⟩ : ∃ f, fuel = f + 1 + 1 + 1 := ⟨fuel - 3, by simp at hf; omega⟩
    have e : w ++ (0x5b :: w' ++ [0x5d]) ++ rest ++ 0 :: r = w ++ 0x5b :: (w' ++ 0x5d :: (rest ++ 0 :: r)) := by simp
    rw [e, (parse_bracket H hw _ _).1, parseList, (parse_bracket H hw' _ _).2.1]
    rfl
  | .list t l he =>
    obtain ⟨fuel, rfl⟩ : ∃ f, fuel = f + 1 := ⟨fuel - 1, by simp at hf; omega⟩
    have e : w ++ (0x5b :: t ++ [0x5d]) ++ rest ++ 0 :: r = w ++ 0x5b :: (t ++ 0x5d :: rest ++ 0 :: r) := by simp
    rw [e, (parse_bracket H hw _ _).1, parse_elems H he rest r fuel [] (by simp at hf; omega)]
    rfl
  | .emptyDict w' hw' =>
    obtain ⟨fuel, rfl⟩ : ∃ f, fuel = f + 1 + 1 + 1 := ⟨fuel - 3, by simp at hf; omega⟩
    have e : w ++ (0x7b :: w' ++ [0x7d]) ++ rest ++ 0 :: r = w ++ 0x7b :: (w' ++ 0x7d :: (rest ++ 0 :: r)) := by simp
    rw [e, (parse_bracket H hw _ _).2.2.1, parseDict, (parse_bracket H hw' _ _).2.2.2]
    rfl
  | .dict t l hm =>
    obtain ⟨fuel, rfl⟩ : ∃ f, fuel = f + 1 := ⟨fuel - 1, by simp at hf; omega⟩
    have e : w ++ (0x7b :: t ++ [0x7d]) ++ rest ++ 0 :: r = w ++ 0x7b :: (t ++ 0x7d :: rest ++ 0 :: r) := by simp
    rw [e, (parse_bracket H hw _ _).2.2.1, parse_members H hm rest r fuel [] (by simp) (by simp at hf; omega)]
theorem parse_elems (H : Host) {t : List UInt8} {l : List Json} (h : Elems H.vec t l) : ∀ rest r fuel acc, 2 * t.length + 1 ≤ fuel →
    parseList H fuel (t ++ 0x5d :: rest ++ 0 :: r) acc = some (.ok (.list (acc ++ l)), rest ++ 0 :: r) := by
  intro rest r fuel acc hf
  obtain ⟨fuel, rfl⟩ : ∃ f, fuel = f + 1 := ⟨fuel - 1, by omega⟩
  match h with
  | .one a t b v ha hb hv =>
    have e : a ++ t ++ b ++ 0x5d :: rest ++ 0 :: r = a ++ t ++ (b ++ 0x5d :: rest) ++ 0 :: r := by simp
    rw [e, parseList, parse_val H hv ha (delim_ws hb (by decide) rest) r fuel (by simp at hf; omega), Option.bind_some]
    simp only [List.append_assoc, List.cons_append]
    rw [scanToken_char H false hb (by decide) (by decide), Option.bind_some]
    rfl
  | .cons a t b v t' l ha hb hv he =>
    have e : a ++ t ++ b ++ 0x2c :: t' ++ 0x5d :: rest ++ 0 :: r = a ++ t ++ (b ++ 0x2c :: (t' ++ 0x5d :: rest)) ++ 0 :: r := by simp
    have hr := parse_elems H he rest r fuel (acc ++ [v]) (by simp at hf; omega)
    rw [e, parseList, parse_val H hv ha (delim_ws hb (by decide) _) r fuel (by simp at hf; omega), Option.bind_some]
    simp only [List.append_assoc, List.cons_append] at hr ⊢
    rw [scanToken_char H false hb (by decide) (by decide), Option.bind_some]
    simp only [List.head?_cons, Option.bind_some]
    rw [if_neg (by decide), if_pos trivial, hr]
    rfl
theorem parse_members (H : Host) {t : List UInt8} {l : List (List UInt8 × Json)} (h : Members H.vec t l) : ∀ rest r fuel acc,
    (acc.map (·.1)).Nodup → 2 * t.length + 1 ≤ fuel →
    parseDict H fuel (t ++ 0x7d :: rest ++ 0 :: r) acc = some (.ok (.dict (l.foldl assign acc)), rest ++ 0 :: r) := by
  intro rest r fuel acc hn hf
  obtain ⟨fuel, rfl⟩ : ∃ f, fuel = f + 1 + 1 := ⟨fuel - 2, by match h with | .one .. => simp at hf; omega | .cons .. => simp at hf; omega⟩
  match h with
  | .one a k s b c t d v ha hb hc hd hk hv =>
    have e : a ++ 0x22 :: k ++ [0x22] ++ b ++ [0x3a] ++ c ++ t ++ d ++ 0x7d :: rest ++ 0 :: r =
      a ++ 0x22 :: (k ++ 0x22 :: (b ++ 0x3a :: (c ++ t ++ (d ++ 0x7d :: rest))) ++ 0 :: r) := by simp
    rw [e, parseDict, parse_str H ha hk, Option.bind_some]
    simp only
    rw [List.append_assoc, List.cons_append, scanToken_char H false hb (by decide) (by decide), Option.bind_some]
    simp only [List.head?_cons, Option.bind_some, if_true]
    rw [parse_val H hv hc (delim_ws hd (by decide) rest) r (fuel + 1) (by simp at hf; omega), Option.bind_some]
    simp only [List.append_assoc, List.cons_append]
    rw [scanToken_char H false hd (by decide) (by decide), Option.bind_some]
    simp only [List.head?_cons, Option.bind_some, if_true, setEntry_eq s v hn]
    rfl
  | .cons a k s b c t d v t' l ha hb hc hd hk hv hm =>
    have e : a ++ 0x22 :: k ++ [0x22] ++ b ++ [0x3a] ++ c ++ t ++ d ++ 0x2c :: t' ++ 0x7d :: rest ++ 0 :: r =
      a ++ 0x22 :: (k ++ 0x22 :: (b ++ 0x3a :: (c ++ t ++ (d ++ 0x2c :: (t' ++ 0x7d :: rest)))) ++ 0 :: r) := by simp
    have hr := parse_members H hm rest r (fuel + 1) (assign acc (s, v)) (assign_nodup hn _) (by simp at hf; omega)
    rw [e, parseDict, parse_str H ha hk, Option.bind_some]
    simp only
    rw [List.append_assoc, List.cons_append, scanToken_char H false hb (by decide) (by decide), Option.bind_some]
    simp only [List.head?_cons, Option.bind_some, if_true]
    rw [parse_val H hv hc (delim_ws hd (by decide) _) r (fuel + 1) (by simp at hf; omega), Option.bind_some]
    simp only [List.append_assoc, List.cons_append] at hr ⊢
    rw [scanToken_char H false hd (by decide) (by decide), Option.bind_some]
    simp only [List.head?_cons, Option.bind_some, setEntry_eq s v hn]
    rw [if_neg (by decide), if_pos trivial, hr]
    rfl
end

/-! ## The writer writes texts of the grammar -/

theorem value_snoc (ds : List UInt8) (b : UInt8) : value (ds ++ [b]) = value ds * 10 + (b.toNat - 48) := by
  simp [value]

theorem decimal_eq : ∀ (fuel n : Nat), n < 10 ^ (fuel + 1) → Digits (decimal fuel n) ∧ decimal fuel n ≠ [] ∧ value (decimal fuel n) = n := by
  have one : ∀ d, d < 10 → Digits [UInt8.ofNat (48 + d)] ∧ value [UInt8.ofNat (48 + d)] = d := by
    intro d hd
    have : (UInt8.ofNat (48 + d)).toNat = 48 + d := by rw [UInt8.toNat_ofNat']; omega
    refine ⟨fun b hb => ?_, ?_⟩
    · rw [List.mem_singleton.mp hb, this]; omega
    · simp only [value, List.foldl_cons, List.foldl_nil, this]; omega
  intro fuel
  induction fuel with
  | zero =>
    intro n hn
    have h := one n (by omega)
    rw [decimal, Nat.mod_eq_of_lt (by omega)]
    exact ⟨h.1, by simp, h.2⟩
  | succ fuel ih =>
    intro n hn
    rw [decimal]
    split
    · next h => exact ⟨(one n h).1, by simp, (one n h).2⟩
    · next h =>
      obtain ⟨h1, h2, h3⟩ := ih (n / 10) (by rw [Nat.pow_succ] at hn; omega)
      obtain ⟨h4, h5⟩ := one (n % 10) (by omega)
      refine ⟨fun b hb => ?_, by simp, ?_⟩
      · rw [List.mem_append] at hb
        rcases hb with hb | hb
        · exact h1 b hb
        · exact h4 b hb
      · rw [value_snoc, h3]
        have : (UInt8.ofNat (48 + n % 10)).toNat = 48 + n % 10 := by rw [UInt8.toNat_ofNat']; omega
        rw [this]; omega

theorem numeral_int (real : Num → List UInt8) {i : Int} (hi : i.natAbs < 2 ^ 63) : Numeral (writeNum real (.int i)) (.int i) := by
  have h20 : (2 : Nat) ^ 63 < 10 ^ (19 + 1) := by decide
  obtain ⟨h1, h2, h3⟩ := decimal_eq 19 i.natAbs (by omega)
  have hv := fun neg => Numeral.mk neg (decimal 19 i.natAbs) none none h1 h2 (by rw [h3]; exact hi) (by simp) (by simp)
  unfold writeNum
  by_cases hneg : i < 0
  · simp only [if_pos hneg]
    have := hv true
    simp only [numeral, signText, meaning, if_true, h3, Option.elim_none, List.append_nil, List.singleton_append] at this
    rw [show -(i.natAbs : Int) = i by omega] at this
    exact this
  · simp only [if_neg hneg]
    have := hv false
    simp only [numeral, signText, meaning, h3, Option.elim_none, List.append_nil, List.nil_append, Bool.false_eq_true, if_false] at this
    rw [show (i.natAbs : Int) = i by omega] at this
    exact this

theorem ws_spaces (n : Nat) : Ws (spaces n) := by
  intro b hb; left; exact List.eq_of_mem_replicate hb

theorem ws_nil : Ws [] := by intro b hb; simp at hb

theorem ws_newline (n : Nat) : Ws (0x0a :: spaces n) := by
  intro b hb
  rcases List.mem_cons.mp hb with rfl | hb
  · simp
  · exact ws_spaces n b hb

theorem ws_append {a b : List UInt8} (ha : Ws a) (hb : Ws b) : Ws (a ++ b) := by
  intro x hx
  rcases List.mem_append.mp hx with h | h
  · exact ha x h
  · exact hb x h

/-- The comma is followed by white space only. -/
theorem writeComma_eq (p : Bool) (i : Nat) : ∃ w, Ws w ∧ writeComma p i true = 0x2c :: w ∧ writeComma p i false = [] := by
  cases p with
  | false => exact ⟨[], ws_nil, rfl, rfl⟩
  | true => exact ⟨_, ws_newline i, rfl, rfl⟩

theorem group_eq (p : Bool) (i : Nat) (c c' : UInt8) : ∃ a b, Ws a ∧ Ws b ∧ beginGroup p i c = c :: a ∧ endGroup p i c' = b ++ [c'] := by
  cases p with
  | false => exact ⟨[], [], ws_nil, ws_nil, rfl, rfl⟩
  | true => exact ⟨_, _, ws_newline _, ws_newline _, rfl, rfl⟩

theorem key_eq (p : Bool) (k : List UInt8) : ∃ b c, Ws b ∧ Ws c ∧ writeKey p k = 0x22 :: k ++ [0x22] ++ b ++ [0x3a] ++ c := by
  have h20 : Ws [0x20] := by intro x hx; simp at hx; left; exact hx
  cases p with
  | false => exact ⟨[], [], ws_nil, ws_nil, by simp [writeKey]⟩
  | true => exact ⟨[0x20], [0x20], h20, h20, by simp [writeKey]⟩

theorem write_nums (real : Num → List UInt8) {l : List Int} (h2 : 2 ≤ l.length) (h63 : ∀ i ∈ l, i.natAbs < 2 ^ 63) :
    ∃ out, Nums out (l.map .int) ∧ writeVec real true false (l.map .int) = some (0x23 :: 0x5b :: out ++ [0x5d]) := by
  have h20 : Ws [0x20] := by intro x hx; simp at hx; left; exact hx
  have key : ∀ (l : List Int) (i : Int) (a : List UInt8), Ws a → i.natAbs < 2 ^ 63 → (∀ i ∈ l, i.natAbs < 2 ^ 63) →
      Nums (a ++ writeNum real (.int i) ++ writeRest real false [0x2c, 0x20] (l.map .int)) (.int i :: l.map .int) := by
    intro l
    induction l with
    | nil =>
      intro i a ha hi _
      exact .one a _ [] _ ha ws_nil (numeral_int real hi)
    | cons j l ih =>
      intro i a ha hi hl
      have := Nums.cons a _ [] _ _ _ ha ws_nil (numeral_int real hi) (ih j [0x20] h20 (hl j (by simp)) fun k hk => hl k (by simp [hk]))
      simpa [writeRest, writeElem] using this
  match l, h2 with
  | i :: j :: l, _ =>
    refine ⟨_, key (j :: l) i [] ws_nil (h63 i (by simp)) fun k hk => h63 k (by simp [hk]), ?_⟩
    simp [writeVec, writeElem]

mutual
theorem write_val (real : Num → List UInt8) (p : Bool) (x : Option Bool) {v : Json} (h : Plain x v) : ∀ i, ∃ t, Val x t v ∧
    ∀ comma, writeObject real p x.isSome i comma v = some (writeComma p i comma ++ t) := by
  intro i
  match h with
  | .null => exact ⟨_, .null, fun _ => by rw [writeObject]⟩
  | .bool true => exact ⟨_, .true, fun _ => by rw [writeObject]⟩
  | .bool false => exact ⟨_, .false, fun _ => by rw [writeObject]⟩
  | .int n hn => exact ⟨_, .num _ _ (numeral_int real hn), fun _ => by rw [writeObject]⟩
  | .vec narrow l hx h2 h24 h63 h31 =>
    obtain ⟨out, h1, h3⟩ := write_nums real h2 h63
    have hfit : Fit narrow (l.map .int) := fun hn i hi => by
      obtain ⟨j, hj, e⟩ := List.mem_map.mp hi
      cases e; exact h31 hn _ hj
    have hv : vector narrow (l.map .int) = .vec narrow false (l.map .int) := by
      have ha : (l.map Num.int).any isReal = false := by rw [List.any_map]; simp [Function.comp_def, isReal]
      rw [vector_many narrow (by simpa using h2), ha]
    refine ⟨_, hv ▸ Val.vec narrow _ _ hx h1 (by simpa using h24) hfit, fun comma => ?_⟩
    rw [writeObject, hx, Option.isSome_some, h3]; rfl
  | .str s hs =>
    obtain ⟨out, h1, h2⟩ := writeString_eq hs
    exact ⟨_, .str out s h2, fun _ => by rw [writeObject, h1]; rfl⟩
  | .list l hl =>
    obtain ⟨a, b, ha, hb, e1, e2⟩ := group_eq p i 0x5b 0x5d
    match l, hl with
    | [], _ =>
      refine ⟨_, .emptyList (a ++ b) (ws_append ha hb), fun comma => ?_⟩
      rw [writeObject, writeElems, e1, e2]; simp
    | z :: l, hl =>
      obtain ⟨out, h1, h2⟩ := write_elems real p x hl (by simp) (i + 1)
      refine ⟨_, .list _ _ (h2 a b ha hb), fun comma => ?_⟩
      rw [writeObject, h1, e1, e2]
      simp [writeComma]
  | .dict l hn hl =>
    obtain ⟨a, b, ha, hb, e1, e2⟩ := group_eq p i 0x7b 0x7d
    match l, hn, hl with
    | [], _, _ =>
      refine ⟨_, .emptyDict (a ++ b) (ws_append ha hb), fun comma => ?_⟩
      rw [writeObject, writeMembers, e1, e2]; simp
    | z :: l, hn, hl =>
      obtain ⟨out, h1, h2⟩ := write_members real p x hl (by simp) (i + 1)
      have hv := Val.dict _ _ (h2 a b ha hb)
      rw [foldl_assign_nodup (by simpa using hn), List.nil_append] at hv
      refine ⟨_, hv, fun comma => ?_⟩
      rw [writeObject, h1, e1, e2]
      simp [writeComma]
theorem write_elems (real : Num → List UInt8) (p : Bool) (x : Option Bool) {l : List Json} (h : PlainList x l) : l ≠ [] → ∀ i, ∃ out,
    (∀ comma, writeElems real p x.isSome i comma l = some (writeComma p i comma ++ out)) ∧
    ∀ a b, Ws a → Ws b → Elems x (a ++ out ++ b) l := by
  intro hne i
  match h with
  | .nil => exact absurd rfl hne
  | .cons z l hx hl =>
    obtain ⟨t, hv, ht⟩ := write_val real p x hx i
    match l, hl with
    | [], _ =>
      refine ⟨t, fun comma => ?_, fun a b ha hb => .one a t b z ha hb hv⟩
      rw [writeElems, ht, writeElems]; simp
    | y :: l', hl =>
      obtain ⟨out, h1, h2⟩ := write_elems real p x hl (by simp) i
      obtain ⟨w, hw, ew, -⟩ := writeComma_eq p i
      refine ⟨t ++ writeComma p i true ++ out, fun comma => ?_, fun a b ha hb => ?_⟩
      · rw [writeElems, ht, Option.bind_some, h1]; simp
      · have := Elems.cons a t [] z _ _ ha ws_nil hv (h2 w b hw hb)
        rw [ew]
        simpa using this
theorem write_members (real : Num → List UInt8) (p : Bool) (x : Option Bool) {l : List (List UInt8 × Json)} (h : PlainDict x l) :
    l ≠ [] → ∀ i, ∃ out, (∀ comma, writeMembers real p x.isSome i comma l = some (writeComma p i comma ++ out)) ∧
    ∀ a b, Ws a → Ws b → Members x (a ++ out ++ b) l := by
  intro hne i
  match h with
  | .nil => exact absurd rfl hne
  | .cons k v l h0 h22 h5c hx hl =>
    obtain ⟨t, hv, ht⟩ := write_val real p x hx i
    obtain ⟨b1, c1, hb1, hc1, ek⟩ := key_eq p k
    have hk := strBody_raw h0 h22 h5c
    obtain ⟨w, hw, ew, ef⟩ := writeComma_eq p i
    match l, hl with
    | [], _ =>
      refine ⟨writeKey p k ++ t, fun comma => ?_, fun a b ha hb => ?_⟩
      · rw [writeMembers, ht, Option.bind_some, writeMembers, ef]; simp
      · have := Members.one a k k b1 c1 t b v ha hb1 hc1 hb hk hv
        rw [ek]
        simpa using this
    | y :: l', hl =>
      obtain ⟨out, h1, h2⟩ := write_members real p x hl (by simp) i
      refine ⟨writeKey p k ++ t ++ writeComma p i true ++ out, fun comma => ?_, fun a b ha hb => ?_⟩
      · rw [writeMembers, ht, Option.bind_some, h1, ef]; simp
      · have := Members.cons a k k b1 c1 t [] v _ _ ha hb1 hc1 ws_nil hk hv (h2 w b hw hb)
        rw [ek, ew]
        simpa using this
end

end Json
end Duck
