import Verif.Spec.Shell
import Verif.Lemmas.Printf
import Verif.Props.Unicode
import Verif.Props.Printf
import Mathlib.Tactic.IntervalCases
namespace Duck
namespace Shell
open Unicode Printf

variable {α σ : Type}

/-! ## The layout -/

/-- What follows the headers. -/
def body (annotation bytes : List UInt8) : List UInt8 := (if annotation = [] then [] else annotation ++ [0x0a, 0x0a]) ++ bytes

theorem layout_eq (ct ds ann bs : List UInt8) : layout ct ds ann bs =
    headerString ++ 0x0a :: ((typeField ++ 0x20 :: ct) ++ 0x0a :: ((lengthField ++ 0x20 :: ds) ++ 0x0a :: 0x0a :: body ann bs)) := by
  have e1 : "SHELL-Version 1.0\n".toUTF8.data.toList = headerString ++ [0x0a] := by decide +kernel
  have e2 : "Content-Type: ".toUTF8.data.toList = typeField ++ [0x20] := by decide +kernel
  have e3 : "\nContent-Length: ".toUTF8.data.toList = 0x0a :: (lengthField ++ [0x20]) := by decide +kernel
  have e4 : "\n\n".toUTF8.data.toList = [0x0a, 0x0a] := by decide +kernel
  rw [layout, e1, e2, e3, e4, body]
  simp

/-! ## Writing -/

section
variable {write : Write σ} {libc : Libc} {γ : Type} {content : σ → γ} {app : γ → List UInt8 → γ}

theorem putc_acts (A : Acts write content app) (s : σ) : content (putc write s 0x0a).1 = app (content s) [0x0a] := A.content s _

theorem printf_line (A : Acts write content app) (s : σ) (t : List UInt8) :
    ∃ r, printf write libc s [0x25, 0x73, 0x0a] [.cstr (some t)] = some r ∧ content r.1 = app (content s) (t ++ [0x0a]) := by
  have hw : Outputs libc [.str [] (some t), .text ['\n']] [t, utf8 ['\n']] := .cons rfl (.cons rfl .nil)
  obtain ⟨s', h1, h2⟩ := printf_pieces A hw (by intro p hp; simp at hp; rcases hp with rfl | rfl <;> simp [Piece.Ok]) s []
  refine ⟨_, h1, ?_⟩
  rw [h2]
  congr 1

theorem printf_type (A : Acts write content app) (s : σ) (t : List UInt8) :
    ∃ r, printf write libc s (typeField ++ [0x20, 0x25, 0x73, 0x0a]) [.cstr (some t)] = some r ∧
      content r.1 = app (content s) (typeField ++ 0x20 :: t ++ [0x0a]) := by
  have hw : Outputs libc [.text "Content-Type: ".toList, .str [] (some t), .text ['\n']] [utf8 "Content-Type: ".toList, t, utf8 ['\n']] :=
    .cons rfl (.cons rfl (.cons rfl .nil))
  obtain ⟨s', h1, h2⟩ := printf_pieces A hw (by
    intro p hp
    simp only [List.mem_cons, List.not_mem_nil, or_false] at hp
    rcases hp with rfl | rfl | rfl <;> simp only [Piece.Ok] <;> decide) s []
  have e : utf8 "Content-Type: ".toList = typeField ++ [0x20] := by decide +kernel
  refine ⟨_, h1, ?_⟩
  rw [h2, e]
  congr 1

theorem printf_length (A : Acts write content app) (s : σ) (v : BitVec 64) {ds : List UInt8} (h : libc [0x25, 0x7a, 0x75] (.long v) = some ds)
    (hl : ds.length < 120) :
    ∃ r, printf write libc s (lengthField ++ [0x20, 0x25, 0x7a, 0x75, 0x0a]) [.long v] = some r ∧
      content r.1 = app (content s) (lengthField ++ 0x20 :: ds ++ [0x0a]) := by
  have hw : Outputs libc [.text "Content-Length: ".toList, .long [] .z 0x75 v, .text ['\n']] [utf8 "Content-Length: ".toList, ds, utf8 ['\n']] :=
    .cons rfl (.cons ⟨h, hl⟩ (.cons rfl .nil))
  obtain ⟨s', h1, h2⟩ := printf_pieces A hw (by
    intro p hp
    simp only [List.mem_cons, List.not_mem_nil, or_false] at hp
    rcases hp with rfl | rfl | rfl <;> simp only [Piece.Ok] <;> decide) s []
  have e : utf8 "Content-Length: ".toList = lengthField ++ [0x20] := by decide +kernel
  refine ⟨_, h1, ?_⟩
  rw [h2, e]
  congr 1

theorem writeHeader_eq (A : Acts write content app) (s : σ) (ct : List UInt8) (n : Nat) {ds : List UInt8}
    (h : libc [0x25, 0x7a, 0x75] (.long (BitVec.ofNat 64 n)) = some ds) (hl : ds.length < 120) :
    ∃ s', writeHeader write libc s ct n = some s' ∧ content s' = app (content s)
      (headerString ++ 0x0a :: ((typeField ++ 0x20 :: ct) ++ 0x0a :: ((lengthField ++ 0x20 :: ds) ++ [0x0a, 0x0a]))) := by
  obtain ⟨r1, e1, c1⟩ := printf_line (libc := libc) A s headerString
  obtain ⟨r2, e2, c2⟩ := printf_type (libc := libc) A r1.1 ct
  obtain ⟨r3, e3, c3⟩ := printf_length A r2.1 _ h hl
  refine ⟨_, by rw [writeHeader, e1, Option.bind_some, e2, Option.bind_some, e3, Option.map_some], ?_⟩
  rw [putc_acts A, c3, c2, c1, A.assoc, A.assoc, A.assoc]
  congr 1
  simp

theorem writeAnnotation_eq (A : Acts write content app) (s : σ) (ann : List UInt8) :
    ∃ s', writeAnnotation write libc s ann = some s' ∧ content s' = app (content s) (if ann = [] then [] else ann ++ [0x0a, 0x0a]) := by
  by_cases h : ann = []
  · exact ⟨s, by simp [writeAnnotation, h], by simp [h, A.nil]⟩
  · obtain ⟨r1, e1, c1⟩ := printf_line (libc := libc) A s ann
    refine ⟨(putc write r1.1 0x0a).1, by rw [writeAnnotation, if_pos h, e1, Option.map_some], ?_⟩
    rw [putc_acts A, c1, A.assoc, if_neg h]
    congr 1
    simp

theorem cstr_eq {s : List UInt8} (h : (0 : UInt8) ∉ s) : Data.cstr s = s := by
  induction s with
  | nil => rfl
  | cons b s ih =>
    have hb : b ≠ 0 := fun e => h (by simp [e])
    have := ih fun h' => h (by simp [h'])
    simp only [Data.cstr] at this ⊢
    simp [hb, this]

theorem write_eq (A : Acts write content app) (hd : Decimal libc) (reg : Registry α) (raw : Bool) (s : σ) (object : Obj α) (ct ann : List UInt8)
    {e : Obj α} {bs : List UInt8} (hc : (0 : UInt8) ∉ ct) (ha : (0 : UInt8) ∉ ann) (hr : (0x0d : UInt8) ∉ ann) (hn : (0x0a : UInt8) ∉ ann)
    (he : encoded reg raw (some ct) object = some e) (hb : buffer e = some bs) (hl : bs.length < 2 ^ 64) :
    ∃ s' ds, Shell.write write libc reg raw s object (some ct) ann = some (s', 1) ∧ content s' = app (content s) (layout ct ds ann bs) ∧
      Num.Digits ds ∧ ds ≠ [] ∧ Num.value ds = bs.length ∧ ds.length < 120 := by
  obtain ⟨ds, h1, h2, h3, h4, h5⟩ := hd (BitVec.ofNat 64 bs.length)
  obtain ⟨s1, e1, c1⟩ := writeHeader_eq A s ct bs.length h1 h5
  obtain ⟨s2, e2, c2⟩ := writeAnnotation_eq (libc := libc) A s1 ann
  have hv : Num.value ds = bs.length := by rw [h4, BitVec.toNat_ofNat, Nat.mod_eq_of_lt hl]
  have hw : Shell.write write libc reg raw s object (some ct) ann = some (writeContent write s2 bs) := by
    have hany : ((Data.cstr ann).any fun b => b == 0x0d || b == 0x0a) = false := by
      rw [cstr_eq ha, List.any_eq_false]
      intro b hb
      simp only [Bool.or_eq_true, beq_iff_eq, not_or]
      exact ⟨fun e => hr (e ▸ hb), fun e => hn (e ▸ hb)⟩
    rw [Shell.write, hany]
    simp only [Bool.false_eq_true, if_false, he, Option.bind_some, hb, Option.getD_some, cstr_eq hc, cstr_eq ha, e1, e2, Option.map_some]
  refine ⟨_, ds, by rw [hw, writeContent, if_pos (A.count s2 bs)], ?_, h2, h3, hv, h5⟩
  rw [A.content, c2, c1, A.assoc, A.assoc, layout_eq, body]
  congr 1
  simp

end

/-! ## Reading -/

theorem gets_at {d : Data.Obj} {line rest : List UInt8} (h : d.bytes.drop d.cursor = line ++ 0x0a :: rest) (hl : (0x0a : UInt8) ∉ line)
    (h0 : (0 : UInt8) ∉ line) :
    gets d = some (⟨d.bytes, d.cursor + line.length + 1⟩, line) ∧ d.bytes.drop (d.cursor + line.length + 1) = rest := by
  refine ⟨C79_line_partial d line rest h hl h0, ?_⟩
  rw [Nat.add_assoc, ← List.drop_drop, h, ← List.drop_drop]
  simp

theorem getLength_pos {s : List UInt8} (hs : s ≠ []) (h0 : (0 : UInt8) ∉ s) : ∃ n, Text.getLength s = some n ∧ 0 < n := by
  obtain ⟨cs, hc⟩ := Text.C34_characters_exist s h0
  refine ⟨cs.length, Text.C34_length s cs hc.1, ?_⟩
  cases hc.1 with
  | nil => exact absurd rfl hs
  | cons => simp

theorem dropWhile_head {p : UInt8 → Bool} {s : List UInt8} (h : ∀ b, s.head? = some b → p b = false) : s.dropWhile p = s := by
  cases s with
  | nil => rfl
  | cons b s => rw [List.dropWhile_cons, h b rfl]; rfl

theorem value_type {ct : List UInt8} (h : ∀ b, ct.head? = some b → Num.isSpace b = false) : headerValue (typeField ++ 0x20 :: ct) 13 = ct := by
  have e : (typeField ++ 0x20 :: ct).drop 13 = 0x20 :: ct := rfl
  rw [headerValue, e, List.dropWhile_cons, if_pos (by decide), dropWhile_head h]

theorem digit_facts {b : UInt8} (h : 48 ≤ b.toNat ∧ b.toNat ≤ 57) : Num.isSpace b = false ∧ Num.isDigit b = true ∧ b ≠ 0x2d ∧ b ≠ 0x2b ∧ b ≠ 0 ∧ b ≠ 0x0a := by
  have hb : b = UInt8.ofNat b.toNat := by simp
  obtain ⟨h1, h2⟩ := h
  generalize b.toNat = n at *
  subst hb
  interval_cases n <;> decide

theorem digits_head {ds : List UInt8} (h : Num.Digits ds) : ∀ b, ds.head? = some b → Num.isSpace b = false ∧ b ≠ 0x2d ∧ b ≠ 0x2b := by
  intro b hb
  have := digit_facts (h b (List.mem_of_mem_head? hb))
  exact ⟨this.1, this.2.2.1, this.2.2.2.1⟩

theorem strtoul_eq {ds : List UInt8} (h : Num.Digits ds) (hv : Num.value ds < 2 ^ 64) : strtoul ds = Num.value ds := by
  have h1 : ds.dropWhile Num.isSpace = ds := dropWhile_head fun b hb => (digits_head h b hb).1
  have h2 : ds.takeWhile Num.isDigit = ds := by
    clear hv h1
    induction ds with
    | nil => rfl
    | cons b s ih =>
      rw [List.takeWhile_cons, (digit_facts (h b (by simp))).2.1, if_pos rfl, ih fun x hx => h x (by simp [hx])]
  simp only [strtoul, h1]
  rw [if_neg fun e => (digits_head h _ e).2.1 rfl, if_neg fun e => (digits_head h _ e).2.2 rfl, h2, digitValue]
  rw [Num.value] at hv ⊢
  omega

theorem value_length {ds : List UInt8} (h : Num.Digits ds) : headerValue (lengthField ++ 0x20 :: ds) 15 = ds := by
  have e : (lengthField ++ 0x20 :: ds).drop 15 = 0x20 :: ds := rfl
  rw [headerValue, e, List.dropWhile_cons, if_pos (by decide), dropWhile_head fun b hb => (digits_head h b hb).1]

theorem prefix_type (t : List UInt8) : typeField.isPrefixOf (typeField ++ t) = true := by simp [List.isPrefixOf_iff_prefix]
theorem prefix_length (t : List UInt8) : lengthField.isPrefixOf (lengthField ++ t) = true := by simp [List.isPrefixOf_iff_prefix]
theorem prefix_other (t : List UInt8) : typeField.isPrefixOf (lengthField ++ t) = false := by rfl

/-- The headers of a segment. -/
theorem readHeaders_eq {d : Data.Obj} {ct ds rest : List UInt8} (fuel : Nat)
    (h : d.bytes.drop d.cursor = (typeField ++ 0x20 :: ct) ++ 0x0a :: ((lengthField ++ 0x20 :: ds) ++ 0x0a :: 0x0a :: rest))
    (hc : OneLine ct) (hb : ∀ b, ct.head? = some b → Num.isSpace b = false) (hd : Num.Digits ds) (hv : Num.value ds < 2 ^ 64) :
    ∃ k, readHeaders (fuel + 3) d none 0 = some (⟨d.bytes, k⟩, some ct, Num.value ds) ∧ d.bytes.drop k = rest := by
  have ht0 : (0 : UInt8) ∉ typeField ++ 0x20 :: ct := by
    simp only [List.mem_append, List.mem_cons, not_or]; exact ⟨by decide, by decide, hc.1⟩
  have ht1 : (0x0a : UInt8) ∉ typeField ++ 0x20 :: ct := by
    simp only [List.mem_append, List.mem_cons, not_or]; exact ⟨by decide, by decide, hc.2⟩
  have hl0 : (0 : UInt8) ∉ lengthField ++ 0x20 :: ds := by
    simp only [List.mem_append, List.mem_cons, not_or]
    exact ⟨by decide, by decide, fun e => (digit_facts (hd _ e)).2.2.2.2.1 rfl⟩
  have hl1 : (0x0a : UInt8) ∉ lengthField ++ 0x20 :: ds := by
    simp only [List.mem_append, List.mem_cons, not_or]
    exact ⟨by decide, by decide, fun e => (digit_facts (hd _ e)).2.2.2.2.2 rfl⟩
  obtain ⟨g1, r1⟩ := gets_at h ht1 ht0
  obtain ⟨g2, r2⟩ := gets_at (d := ⟨d.bytes, d.cursor + (typeField ++ 0x20 :: ct).length + 1⟩) r1 hl1 hl0
  obtain ⟨g3, r3⟩ := gets_at (d := ⟨d.bytes, d.cursor + (typeField ++ 0x20 :: ct).length + 1 + (lengthField ++ 0x20 :: ds).length + 1⟩) (line := []) r2
    (by simp) (by simp)
  refine ⟨_, ?_, r3⟩
  rw [readHeaders, g1, Option.bind_some, if_neg (by simp [typeField]), prefix_type, if_pos rfl, readHeaders, g2, Option.bind_some,
    if_neg (by simp [lengthField]), prefix_other, prefix_length, if_neg (by simp), if_pos rfl, readHeaders, g3, Option.bind_some, if_pos rfl]
  dsimp only
  rw [value_type hb, value_length hd, strtoul_eq hd hv]

/-- Reading from the cursor on. -/
theorem read_bytes {d : Data.Obj} {bs rest : List UInt8} (h : d.bytes.drop d.cursor = bs ++ rest) (hb : bs ≠ []) :
    Data.read d 1 bs.length = some (⟨d.bytes, d.cursor + bs.length⟩, bs, bs.length) := by
  have hlen := congrArg List.length h
  have hp : 0 < bs.length := by cases bs with | nil => exact absurd rfl hb | cons => simp
  rw [List.length_drop, List.length_append] at hlen
  have hc : Data.setCursor d d.cursor = d := by
    unfold Data.setCursor
    rw [if_neg (by omega), if_neg (by omega)]
    rfl
  simp only [Data.read, Data.readBytes, hc, Nat.one_mul, Data.available, if_neg (show ¬ bs.length > d.bytes.length - d.cursor by omega), Nat.succ_ne_zero, if_false,
    Nat.div_one, h, List.take_left, Option.some.injEq, Prod.mk.injEq, and_true]
  unfold Data.setCursor
  rw [if_neg (by omega), if_neg (by omega)]
  rfl

theorem read_short {d : Data.Obj} {n : Nat} (h : (d.bytes.drop d.cursor).length < n) :
    ∃ k bs m, Data.read d 1 n = some (⟨d.bytes, k⟩, bs, m) ∧ m ≠ n := by
  rw [List.length_drop] at h
  have hc : (Data.setCursor d d.cursor).bytes = d.bytes ∧ (Data.setCursor d d.cursor).cursor = min d.cursor d.bytes.length := by
    unfold Data.setCursor
    split
    · omega
    · split <;> refine ⟨rfl, ?_⟩ <;> simp <;> omega
  have ha : Data.available (Data.setCursor d d.cursor) n = d.bytes.length - min d.cursor d.bytes.length := by
    rw [Data.available, hc.1, hc.2, if_pos (by omega)]
  have hs : ∀ (x : Data.Obj) (i : Int), ∃ k, Data.setCursor x i = ⟨x.bytes, k⟩ := by
    intro x i
    unfold Data.setCursor
    split
    · exact ⟨_, rfl⟩
    · split <;> exact ⟨_, rfl⟩
  simp only [Data.read, Data.readBytes, Nat.one_mul, Nat.succ_ne_zero, if_false, ha, Nat.div_one]
  obtain ⟨k, hk⟩ := hs (Data.setCursor d d.cursor) (((Data.setCursor d d.cursor).cursor : Int) + ((d.bytes.length - min d.cursor d.bytes.length : Nat) : Int))
  rw [hk, hc.1]
  exact ⟨k, _, _, rfl, by omega⟩

theorem readContent_eq {reg : Registry α} {raw : Bool} {d : Data.Obj} {ct : Option (List UInt8)} {ann : Option (List UInt8)} {bs rest : List UInt8}
    (h : d.bytes.drop d.cursor = bs ++ rest) (hb : bs.length < 2 ^ 63) :
    ∃ k, readContent reg raw d ct bs.length ann =
      some (⟨d.bytes, k⟩, ⟨1, if bs = [] then none else decoded reg raw ct (container ct bs), ct, ann⟩) ∧ d.bytes.drop k = rest := by
  by_cases he : bs = []
  · subst he
    exact ⟨d.cursor, rfl, by simpa using h⟩
  · refine ⟨d.cursor + bs.length, ?_, by rw [← List.drop_drop, h, List.drop_left]⟩
    rw [readContent, if_neg (by simpa using he), if_neg (by omega), read_bytes h he, Option.map_some, if_neg (by simp), if_neg he]

/-- A segment with an annotation. -/
theorem readAnnotation_eq {reg : Registry α} {raw : Bool} {d : Data.Obj} {ct : Option (List UInt8)} {ann bs rest : List UInt8}
    (h : d.bytes.drop d.cursor = ann ++ 0x0a :: 0x0a :: (bs ++ rest)) (ha : OneLine ann) (hne : ann ≠ []) (hb : bs.length < 2 ^ 63) :
    ∃ k, readAnnotation reg raw d ct bs.length =
      some (⟨d.bytes, k⟩, ⟨1, if bs = [] then none else decoded reg raw ct (container ct bs), ct, some ann⟩) ∧ d.bytes.drop k = rest := by
  obtain ⟨g1, r1⟩ := gets_at h ha.2 ha.1
  obtain ⟨n, hn, hpos⟩ := getLength_pos hne ha.1
  have g2 : getc ⟨d.bytes, d.cursor + ann.length + 1⟩ = some (⟨d.bytes, d.cursor + ann.length + 1 + 1⟩, 0x0a) := by
    rw [getc, read_one]
    dsimp only
    rw [r1]
    rfl
  have r2 : d.bytes.drop (d.cursor + ann.length + 1 + 1) = bs ++ rest := by rw [← List.drop_drop, r1]; rfl
  obtain ⟨k, e, hk⟩ := readContent_eq (reg := reg) (raw := raw) (ct := ct) (ann := some ann)
    (d := ⟨d.bytes, d.cursor + ann.length + 1 + 1⟩) r2 hb
  refine ⟨k, ?_, hk⟩
  rw [readAnnotation, g1, Option.bind_some, hn, Option.bind_some, if_pos hpos, g2, Option.bind_some, if_neg (by simp)]
  exact e

/-- The headers of a segment and what they lead to. -/
theorem read_headers {reg : Registry α} {raw : Bool} {d : Data.Obj} {ct ds ann bs rest : List UInt8}
    (h : d.bytes.drop d.cursor = layout ct ds ann bs ++ rest) (hc : OneLine ct) (hb : ∀ b, ct.head? = some b → Num.isSpace b = false)
    (hd : Num.Digits ds) (hv : Num.value ds < 2 ^ 64) :
    ∃ k, read reg raw d = readAnnotation reg raw ⟨d.bytes, k⟩ (some ct) (Num.value ds) ∧ d.bytes.drop k = body ann bs ++ rest := by
  rw [layout_eq] at h
  obtain ⟨g1, r1⟩ := gets_at (d := d) (line := headerString) (rest := (typeField ++ 0x20 :: ct) ++ 0x0a :: ((lengthField ++ 0x20 :: ds) ++ 0x0a :: 0x0a ::
    (body ann bs ++ rest))) (by rw [h]; simp) (by decide) (by decide)
  obtain ⟨n, hn, hpos⟩ := getLength_pos (s := headerString) (by decide) (by decide)
  have hlen : 3 ≤ d.bytes.length + 1 := by
    have := congrArg List.length h
    simp only [List.length_drop, List.length_append, List.length_cons] at this
    omega
  obtain ⟨k, e, hk⟩ := readHeaders_eq (d := ⟨d.bytes, d.cursor + headerString.length + 1⟩) (d.bytes.length + 1 - 3) r1 hc hb hd hv
  rw [Nat.sub_add_cancel hlen] at e
  refine ⟨k, ?_, hk⟩
  rw [read, g1, Option.bind_some, hn, Option.bind_some, if_neg (by omega), if_neg (by simp), e, Option.bind_some]

/-- A segment with an annotation. -/
theorem read_layout {reg : Registry α} {raw : Bool} {d : Data.Obj} {ct ds ann bs rest : List UInt8}
    (h : d.bytes.drop d.cursor = layout ct ds ann bs ++ rest) (hc : OneLine ct) (hb : ∀ b, ct.head? = some b → Num.isSpace b = false)
    (hd : Num.Digits ds) (hv : Num.value ds = bs.length) (ha : OneLine ann) (hne : ann ≠ []) (hl : bs.length < 2 ^ 63) :
    ∃ k, read reg raw d =
      some (⟨d.bytes, k⟩, ⟨1, if bs = [] then none else decoded reg raw (some ct) (container (some ct) bs), some ct, some ann⟩) ∧ d.bytes.drop k = rest := by
  obtain ⟨k, e, hk⟩ := read_headers (reg := reg) (raw := raw) h hc hb hd (by omega)
  rw [e, hv]
  exact readAnnotation_eq (d := ⟨d.bytes, k⟩) (by rw [hk, body, if_neg hne]; simp) ha hne hl

/-! ## Reading anything -/

theorem split_line : ∀ s : List UInt8, (∃ l r, s = l ++ 0x0a :: r ∧ (0x0a : UInt8) ∉ l) ∨ (0x0a : UInt8) ∉ s := by
  intro s
  induction s with
  | nil => exact Or.inr (by simp)
  | cons b s ih =>
    by_cases hb : b = 0x0a
    · exact Or.inl ⟨[], s, by simp [hb], by simp⟩
    · rcases ih with ⟨l, r, h1, h2⟩ | h
      · exact Or.inl ⟨b :: l, r, by simp [h1], by simp only [List.mem_cons, not_or]; exact ⟨fun e => hb e.symm, h2⟩⟩
      · exact Or.inr (by simp only [List.mem_cons, not_or]; exact ⟨fun e => hb e.symm, h⟩)

/-- DKGets always returns. -/
theorem gets_total (d : Data.Obj) : ∃ k l, gets d = some (⟨d.bytes, k⟩, l.filter (· != 0)) ∧ (0x0a : UInt8) ∉ l ∧
    (d.bytes.drop d.cursor = l ++ 0x0a :: d.bytes.drop k ∨ d.bytes.drop d.cursor = l ∧ k = d.bytes.length) := by
  rcases split_line (d.bytes.drop d.cursor) with ⟨l, r, h1, h2⟩ | h
  · have hlen := congrArg List.length h1
    rw [List.length_drop, List.length_append, List.length_cons] at hlen
    refine ⟨d.cursor + l.length + 1, l, ?_, h2, Or.inl ?_⟩
    · exact gets_line d l r d.bytes.length d.cursor [] h1 h2 (by omega)
    · rw [h1]
      congr 2
      rw [Nat.add_assoc, ← List.drop_drop, h1, ← List.drop_drop]
      simp
  · refine ⟨_, _, gets_end d _ d.bytes.length d.cursor [] rfl h (by rw [List.length_drop]; omega), h, Or.inr ⟨rfl, rfl⟩⟩

theorem nulFree_filter (l : List UInt8) : (0 : UInt8) ∉ l.filter (· != 0) := by simp

theorem getLength_some {s : List UInt8} (h0 : (0 : UInt8) ∉ s) : ∃ n, Text.getLength s = some n := by
  obtain ⟨cs, hc, _⟩ := Text.C34_characters_exist s h0
  exact ⟨cs.length, Text.C34_length s cs hc⟩

/-- What is left of the stream gets shorter with every line. -/
theorem gets_progress {d : Data.Obj} {k : Nat} {l : List UInt8} (h : d.bytes.drop d.cursor = l ++ 0x0a :: d.bytes.drop k ∨
    d.bytes.drop d.cursor = l ∧ k = d.bytes.length) (hne : d.bytes.drop d.cursor ≠ []) : (d.bytes.drop k).length < (d.bytes.drop d.cursor).length := by
  rcases h with h | ⟨h1, h2⟩
  · rw [h, List.length_append, List.length_cons]; omega
  · rw [h2, List.drop_length]
    exact List.length_pos_iff.mpr hne

theorem gets_suffix {d : Data.Obj} {k : Nat} {l : List UInt8} (h : d.bytes.drop d.cursor = l ++ 0x0a :: d.bytes.drop k ∨
    d.bytes.drop d.cursor = l ∧ k = d.bytes.length) : d.bytes.drop k <:+ d.bytes.drop d.cursor := by
  rcases h with h | ⟨h1, h2⟩
  · exact ⟨l ++ [0x0a], by rw [h]; simp⟩
  · rw [h2, List.drop_length]; exact List.nil_suffix

/-- An empty annotation that was not written: the first line of the content is taken for it, and the content is too short. -/
theorem readAnnotation_short {reg : Registry α} {raw : Bool} {d : Data.Obj} {ct : Option (List UInt8)} {bs : List UInt8}
    (h : d.bytes.drop d.cursor = bs) (hne : bs ≠ []) (hl : bs.length < 2 ^ 63) :
    ∃ k ann, readAnnotation reg raw d ct bs.length = some (⟨d.bytes, k⟩, ⟨0, none, ct, ann⟩) := by
  obtain ⟨k, l, g, _, hd⟩ := gets_total d
  have hp := gets_progress hd (by rw [h]; exact hne)
  obtain ⟨n, hn⟩ := getLength_some (nulFree_filter l)
  have hshort : ∀ k ann, (d.bytes.drop k).length < bs.length →
      ∃ k' ann', readContent reg raw ⟨d.bytes, k⟩ ct bs.length ann = some (⟨d.bytes, k'⟩, ⟨0, none, ct, ann'⟩) := by
    intro k ann hk
    obtain ⟨k', x, m, e, hm⟩ := read_short (d := ⟨d.bytes, k⟩) hk
    refine ⟨k', ann, ?_⟩
    rw [readContent, if_neg (by simpa using hne), if_neg (by omega), e, Option.map_some, if_pos hm]
  rw [h] at hp
  rw [readAnnotation, g, Option.bind_some, hn, Option.bind_some]
  split
  · rw [getc, read_one]
    dsimp only
    cases hdk : d.bytes.drop k with
    | nil => exact ⟨d.bytes.length, none, by simp⟩
    | cons b t =>
      simp only [Option.map_some, Option.bind_some, if_true]
      split
      · exact ⟨_, _, rfl⟩
      · refine hshort (k + 1) _ ?_
        rw [← List.drop_drop, hdk]
        rw [hdk] at hp
        simp at hp ⊢
        omega
  · exact hshort k none hp

theorem readHeaders_total : ∀ (fuel : Nat) (d : Data.Obj) (ct : Option (List UInt8)) (len : Nat), (d.bytes.drop d.cursor).length < fuel →
    SmallLengths (d.bytes.drop d.cursor) → len < 2 ^ 63 →
    ∃ k ct' len', readHeaders fuel d ct len = some (⟨d.bytes, k⟩, ct', len') ∧ len' < 2 ^ 63 := by
  intro fuel
  induction fuel with
  | zero => intro d ct len h; omega
  | succ fuel ih =>
    intro d ct len hf hs hl
    obtain ⟨k, l, g, hnl, hd⟩ := gets_total d
    rw [readHeaders, g, Option.bind_some]
    dsimp only
    by_cases he : l.filter (· != 0) = []
    · rw [if_pos he]; exact ⟨k, ct, len, rfl, hl⟩
    · have hne : d.bytes.drop d.cursor ≠ [] := by
        rcases hd with h | ⟨h, _⟩
        · rw [h]; simp
        · rw [h]; intro e; exact he (by rw [e]; rfl)
      have hp := gets_progress hd hne
      have hs' : SmallLengths (d.bytes.drop k) := by
        obtain ⟨pre, e⟩ := gets_suffix hd
        intro a b c hb h1 h2
        exact hs (pre ++ a) b c (by rw [← e, hb]; simp) h1 h2
      have next := fun ct len hl => ih ⟨d.bytes, k⟩ ct len (by show (d.bytes.drop k).length < fuel; omega) hs' hl
      rw [if_neg he]
      split
      · exact next _ _ hl
      · split
        · rename_i hpre
          refine next _ _ ?_
          rcases hd with h | ⟨h, _⟩
          · exact hs [] l (0x0a :: d.bytes.drop k) (by rw [h]; simp) hnl (List.isPrefixOf_iff_prefix.mp hpre)
          · exact hs [] l [] (by rw [h]; simp) hnl (List.isPrefixOf_iff_prefix.mp hpre)
        · exact next _ _ hl

theorem setCursor_bytes (x : Data.Obj) (i : Int) : ∃ k, Data.setCursor x i = ⟨x.bytes, k⟩ := by
  unfold Data.setCursor
  split
  · exact ⟨_, rfl⟩
  · split <;> exact ⟨_, rfl⟩

/-- What holds of every result. -/
def Sound (bytes : List UInt8) (raw : Bool) (r : Data.Obj × Result α) : Prop :=
  r.1.bytes = bytes ∧ (r.2.returned = 0 ∧ r.2.object = none ∨ r.2.returned = 1) ∧
    ∀ o, raw = true → r.2.object = some o → ∃ bs, Bytes o bs ∧ bs ≠ [] ∧ bs <:+ bytes.take r.1.cursor

theorem readContent_total {reg : Registry α} {raw : Bool} {d : Data.Obj} {ct ann : Option (List UInt8)} {len : Nat} (hl : len < 2 ^ 63) :
    ∃ r, readContent reg raw d ct len ann = some r ∧ Sound d.bytes raw r := by
  rw [readContent]
  split
  · exact ⟨_, rfl, rfl, Or.inr rfl, fun o _ h => by simp at h⟩
  · rename_i h0
    rw [if_neg (by omega)]
    by_cases hlen : (d.bytes.drop d.cursor).length < len
    · obtain ⟨k, bs, m, e, hm⟩ := read_short hlen
      rw [e, Option.map_some, if_pos hm]
      exact ⟨_, rfl, rfl, Or.inl ⟨rfl, rfl⟩, fun o _ h => by simp at h⟩
    · have hb : ((d.bytes.drop d.cursor).take len).length = len := by rw [List.length_take]; omega
      have e := read_bytes (d := d) (bs := (d.bytes.drop d.cursor).take len) (rest := (d.bytes.drop d.cursor).drop len) (by rw [List.take_append_drop])
        (by intro e; rw [e] at hb; exact h0 hb.symm)
      rw [hb] at e
      rw [e, Option.map_some, if_neg (by simp)]
      refine ⟨_, rfl, rfl, Or.inr rfl, fun o hr h => ?_⟩
      subst hr
      simp only [decoded, if_true, Option.some.injEq] at h
      subst h
      refine ⟨(d.bytes.drop d.cursor).take len, ?_, ?_, ?_⟩
      · simp only [container]; split <;> exact rfl
      · intro e; rw [e] at hb; exact h0 hb.symm
      · refine ⟨d.bytes.take d.cursor, ?_⟩
        show _ = List.take (d.cursor + len) d.bytes
        rw [List.take_add]

theorem readAnnotation_total {reg : Registry α} {raw : Bool} {d : Data.Obj} {ct : Option (List UInt8)} {len : Nat} (hl : len < 2 ^ 63) :
    ∃ r, readAnnotation reg raw d ct len = some r ∧ Sound d.bytes raw r := by
  obtain ⟨k, l, g, _, _⟩ := gets_total d
  obtain ⟨n, hn⟩ := getLength_some (nulFree_filter l)
  rw [readAnnotation, g, Option.bind_some, hn, Option.bind_some]
  split
  · rw [getc, read_one]
    dsimp only
    cases hdk : d.bytes.drop k with
    | nil => exact ⟨_, rfl, rfl, Or.inl ⟨rfl, rfl⟩, fun o _ h => by simp at h⟩
    | cons b t =>
      simp only [Option.map_some, Option.bind_some, if_true]
      split
      · exact ⟨_, rfl, rfl, Or.inl ⟨rfl, rfl⟩, fun o _ h => by simp at h⟩
      · exact readContent_total (d := ⟨d.bytes, k + 1⟩) hl
  · exact readContent_total (d := ⟨d.bytes, k⟩) hl

theorem read_total (reg : Registry α) (raw : Bool) (d : Data.Obj) (hs : SmallLengths (d.bytes.drop d.cursor)) :
    ∃ r, read reg raw d = some r ∧ Sound d.bytes raw r := by
  obtain ⟨k, l, g, _, hd⟩ := gets_total d
  obtain ⟨n, hn⟩ := getLength_some (nulFree_filter l)
  rw [read, g, Option.bind_some, hn, Option.bind_some]
  split
  · exact ⟨_, rfl, rfl, Or.inl ⟨rfl, rfl⟩, fun o _ h => by simp at h⟩
  · split
    · exact ⟨_, rfl, rfl, Or.inl ⟨rfl, rfl⟩, fun o _ h => by simp at h⟩
    · have hs' : SmallLengths (d.bytes.drop k) := by
        obtain ⟨pre, e⟩ := gets_suffix hd
        intro a b c hb h1 h2
        exact hs (pre ++ a) b c (by rw [← e, hb]; simp) h1 h2
      obtain ⟨k', ct, len, e, hl⟩ := readHeaders_total (d.bytes.length + 1) ⟨d.bytes, k⟩ none 0 (by show (d.bytes.drop k).length < _; rw [List.length_drop]; omega)
        hs' (by decide)
      dsimp only
      rw [e, Option.bind_some]
      exact readAnnotation_total (d := ⟨d.bytes, k'⟩) hl

end Shell
end Duck
