import Verif.Lemmas.Printf
/-!
C78: formatted output writes every part of the format in order.  C79: lines and characters of streams.
-/
namespace Duck
namespace Printf
open Unicode

/-! ## C78 -/

/-- Everything the parts of a format write arrives in the stream, in order, for every library and every stream.  Without `%c` the
    result is the number of bytes written, and the `%n` directives store the number of bytes written before them. -/
theorem C78_format_partial {σ : Type} {write : Write σ} {content : σ → List UInt8} (A : Appends write content) (libc : Libc) (ps : List Piece)
    (outs : List (List UInt8)) (hok : ∀ p ∈ ps, p.Ok) (hw : Outputs libc ps outs) (s : σ) (more : List Arg) :
    ∃ s' n st, printf write libc s (ps.flatMap Piece.format) (ps.flatMap Piece.args ++ more) = some (s', n, st) ∧
      content s' = content s ++ outs.flatten ∧
      ((∀ p ∈ ps, ∀ v, p ≠ .chr v) → outs.flatten.length < 2 ^ 31 → n = outs.flatten.length ∧ st = stores 0 ps outs) := by
  obtain ⟨s', h1, h2⟩ := printf_pieces A.acts hw hok s more
  refine ⟨s', _, _, h1, h2, fun hc hl => ?_⟩
  obtain ⟨e1, e2⟩ := weights_eq hw hc
  refine ⟨?_, e2 0⟩
  rw [e1, BitVec.toInt_eq_toNat_of_lt (by rw [BitVec.toNat_ofNat]; omega), BitVec.toNat_ofNat]
  omega

/-- On a data object or a string: the output is put at the cursor and replaces as many bytes after it. -/
theorem C78_data_partial (libc : Libc) (ps : List Piece) (outs : List (List UInt8)) (hok : ∀ p ∈ ps, p.Ok) (hw : Outputs libc ps outs)
    (d : Data.Obj) (more : List Arg) :
    ∃ d' n st, printf writeData libc d (ps.flatMap Piece.format) (ps.flatMap Piece.args ++ more) = some (d', n, st) ∧
      d'.bytes = d.bytes.take d.cursor ++ outs.flatten ++ d.bytes.drop (d.cursor + outs.flatten.length) ∧
      ((∀ p ∈ ps, ∀ v, p ≠ .chr v) → outs.flatten.length < 2 ^ 31 → n = outs.flatten.length ∧ st = stores 0 ps outs) := by
  obtain ⟨d', h1, h2⟩ := printf_pieces acts_data hw hok d more
  refine ⟨d', _, _, h1, ?_, fun hc hl => ?_⟩
  · injection h2 with e1 e2
    rw [← List.take_append_drop d'.cursor d'.bytes, e1, e2, List.drop_drop]
  · obtain ⟨e1, e2⟩ := weights_eq hw hc
    refine ⟨?_, e2 0⟩
    rw [e1, BitVec.toInt_eq_toNat_of_lt (by rw [BitVec.toNat_ofNat]; omega), BitVec.toNat_ofNat]
    omega

/-- What is left of a number formatted with `%f` is determined: `Pretty` gives one result for every input. -/
theorem C78_pretty (s : List UInt8) : ∃ t, Pretty s t ∧ ∀ t', Pretty s t' → t' = t :=
  ⟨trimZeroes s, pretty_trim s, fun _ h => pretty_unique h (pretty_trim s)⟩

/-- A library for the examples: "%d" of 42, "%f" of some double, "%.3f" of the same. -/
def exampleLibc : Libc
  | [0x25, 0x64], .int v => if v = 42 then some "42".toUTF8.data.toList else none
  | [0x25, 0x66], .dbl _ => some "2.500000".toUTF8.data.toList
  | [0x25, 0x2e, 0x33, 0x66], .dbl _ => some "2.500".toUTF8.data.toList
  | _, _ => none

/-- `"ä%%%d %f%n %.3f%s"`. -/
def examplePieces : List Piece :=
  [.text ['ä'], .percent, .int [] .none 0x64 42, .text [' '], .dbl [] false 0x66 7, .count .l, .text [' '], .dbl [0x2e, 0x33] false 0x66 7,
    .str [] (some [0x61, 0x62])]

/-- The hypotheses hold for `"ä%%%d %f%n %.3f%s"`. -/
example : (∀ p ∈ examplePieces, p.Ok) ∧ Outputs exampleLibc examplePieces
    [utf8 ['ä'], [0x25], "42".toUTF8.data.toList, utf8 [' '], "2.5".toUTF8.data.toList, [], utf8 [' '], "2.500".toUTF8.data.toList, [0x61, 0x62]] := by
  refine ⟨?_, ?_⟩
  · intro p hp
    simp only [examplePieces, List.mem_cons, List.not_mem_nil, or_false] at hp
    rcases hp with rfl | rfl | rfl | rfl | rfl | rfl | rfl | rfl | rfl <;> simp only [Piece.Ok] <;> decide
  · have h5 : Piece.Writes exampleLibc (.dbl [] false 0x66 7) "2.5".toUTF8.data.toList := by
      refine ⟨"2.500000".toUTF8.data.toList, rfl, by decide, ?_⟩
      rw [if_pos ⟨rfl, rfl⟩, Pretty, if_pos (by decide)]
      exact ⟨5, by decide, [0x32], [0x35], by decide, by decide, Or.inr (by decide), Or.inl (by decide)⟩
    have h8 : Piece.Writes exampleLibc (.dbl [0x2e, 0x33] false 0x66 7) "2.500".toUTF8.data.toList := by
      refine ⟨"2.500".toUTF8.data.toList, rfl, by decide, ?_⟩
      rw [if_neg (by simp)]
    exact .cons rfl (.cons rfl (.cons ⟨rfl, by decide⟩ (.cons rfl (.cons h5 (.cons rfl (.cons rfl (.cons h8 (.cons rfl .nil))))))))

example : (printf writeData exampleLibc ⟨[0x61], 1⟩ "%d, %f%n".toUTF8.data.toList [.int 42, .dbl 0, .counter]).map (fun r => (r.1.bytes, r.2)) =
    some ([0x61] ++ "42, 2.5".toUTF8.data.toList, 7, [(32, 7)]) := by decide +kernel

/-- `%c` writes one byte but does not count it, unless the byte is 'c'. -/
theorem C78_char_fails {σ : Type} {write : Write σ} {content : σ → List UInt8} (A : Appends write content) (libc : Libc) (v : BitVec 32) (h : v ≠ 0x63)
    (s : σ) (more : List Arg) :
    ∃ s', printf write libc s [0x25, 0x63] (.int v :: more) = some (s', 0, []) ∧ content s' = content s ++ [UInt8.ofBitVec (v.setWidth 8)] := by
  obtain ⟨s', h1, h2⟩ := printf_pieces A.acts (libc := libc) (ps := [.chr v]) (outs := [[UInt8.ofBitVec (v.setWidth 8)]]) (.cons rfl .nil)
    (by simp [Piece.Ok]) s more
  refine ⟨s', ?_, by simpa using h2⟩
  have e : weights [Piece.chr v] [[UInt8.ofBitVec (v.setWidth 8)]] = 0 := by
    simp only [weights, weight, if_neg h]
  rw [e] at h1
  exact h1

example : (0x41 : BitVec 32) ≠ 0x63 := by decide

/-- `%p` reads an `int` argument: a pointer passed for it is never printed. -/
theorem C78_pointer_fails {σ : Type} (write : Write σ) (libc : Libc) (s : σ) (p : BitVec 64) (more : List Arg) :
    printf write libc s [0x25, 0x70] (.ptr p :: more) = none := by
  rfl

/-- A directive of eight bytes, `%+10.5ld`, is copied beyond the end of a buffer. -/
theorem C78_directive_fails {σ : Type} (write : Write σ) (libc : Libc) (s : σ) (args : List Arg) :
    printf write libc s "%+10.5ld".toUTF8.data.toList args = none := by
  have e : "%+10.5ld".toUTF8.data.toList = [0x25, 0x2b, 0x31, 0x30, 0x2e, 0x35, 0x6c, 0x64] := by decide +kernel
  rw [e]
  rfl

/-- A number for which the library needs 120 bytes or more, such as `%f` of 1e200 or `%150d` of anything, is written beyond the end of a buffer. -/
theorem C78_number_fails {σ : Type} (write : Write σ) (libc : Libc) (s : σ) (v : BitVec 64) (out : List UInt8)
    (h : libc [0x25, 0x66] (.dbl v) = some out) (hl : 120 ≤ out.length) (more : List Arg) :
    printf write libc s [0x25, 0x66] (.dbl v :: more) = none := by
  have e : (St.floating write libc [0x25, 0x66, 0] 0 1 ({ stream := s, count := 0, args := .dbl v :: more, stores := [] } : St σ)) = none := by
    have e1 : (copyFormat [0x25, 0x66, 0] 0 2) = some [0x25, 0x66] := by decide
    have e2 : (floatSize (([0x25, 0x66, 0] : List UInt8).drop 0) 2) = some 8 := by decide
    simp only [St.floating, e1, e2, Option.bind_some, if_true, St.popDbl, h, St.float]
    rw [if_neg (by omega)]
  have e3 : printf write libc s [0x25, 0x66] (.dbl v :: more) =
      (((St.floating write libc [0x25, 0x66, 0] 0 1 ({ stream := s, count := 0, args := .dbl v :: more, stores := [] } : St σ)).map fun st => (st, 2, 0)).bind
        fun d => go write libc [0x25, 0x66, 0] 1 2 d.2.1 d.2.2 d.1).map fun st => (st.stream, (BitVec.ofNat 32 st.count).toInt, st.stores) := rfl
  rw [e3, e]
  rfl

example : ∃ libc : Libc, ∃ out, libc [0x25, 0x66] (.dbl 0x6974e718d7d7625a) = some out ∧ 120 ≤ out.length :=
  ⟨fun _ _ => some ((0x31 :: List.replicate 200 0x30) ++ (0x2e :: List.replicate 6 0x30)), _, rfl,
    by rw [List.length_append, List.length_cons, List.length_replicate]; omega⟩

/-- A format that ends with `%` is read beyond its end. -/
theorem C78_percent_fails {σ : Type} (write : Write σ) (libc : Libc) (s : σ) (args : List Arg) : printf write libc s [0x61, 0x25] args = none := by
  rfl

/-- The width of `%5c` is ignored: only one byte is written. -/
theorem C78_width_fails {σ : Type} {write : Write σ} {content : σ → List UInt8} (A : Appends write content) (libc : Libc) (v : BitVec 32) (s : σ)
    (more : List Arg) :
    ∃ s' n, printf write libc s [0x25, 0x35, 0x63] (.int v :: more) = some (s', n, []) ∧ content s' = content s ++ [UInt8.ofBitVec (v.setWidth 8)] :=
  ⟨_, _, rfl, A.content _ _⟩

/-! ## C79 -/

/-- DKGets returns the bytes up to the next line feed and moves behind it. -/
theorem C79_line_partial (d : Data.Obj) (line rest : List UInt8) (h : d.bytes.drop d.cursor = line ++ 0x0a :: rest) (hl : (0x0a : UInt8) ∉ line)
    (h0 : (0 : UInt8) ∉ line) : gets d = some (⟨d.bytes, d.cursor + line.length + 1⟩, line) := by
  have hlen := congrArg List.length h
  simp at hlen
  have := gets_line d line rest d.bytes.length d.cursor [] h hl (by omega)
  rw [gets, this, List.nil_append, List.filter_eq_self.mpr]
  intro b hb
  have : b ≠ 0 := fun e => h0 (e ▸ hb)
  simpa using this

example : gets ⟨"one\ntwo\n".toUTF8.data.toList, 4⟩ = some (⟨"one\ntwo\n".toUTF8.data.toList, 8⟩, "two".toUTF8.data.toList) := by decide +kernel

/-- Without a further line feed it returns everything that is left. -/
theorem C79_rest_partial (d : Data.Obj) (hl : (0x0a : UInt8) ∉ d.bytes.drop d.cursor) (h0 : (0 : UInt8) ∉ d.bytes.drop d.cursor) :
    gets d = some (⟨d.bytes, d.bytes.length⟩, d.bytes.drop d.cursor) := by
  have := gets_end d _ d.bytes.length d.cursor [] rfl hl (by rw [List.length_drop]; omega)
  rw [gets, this, List.nil_append, List.filter_eq_self.mpr]
  intro b hb
  have : b ≠ 0 := fun e => h0 (e ▸ hb)
  simpa using this

example : gets ⟨"one\ntwo".toUTF8.data.toList, 4⟩ = some (⟨"one\ntwo".toUTF8.data.toList, 7⟩, "two".toUTF8.data.toList) := by decide +kernel

/-- Writing lines: DKPuts of each line and of a line feed. -/
def putLines : Data.Obj → List (List UInt8) → Data.Obj × List Int
  | d, [] => (d, [])
  | d, l :: ls =>
    let p := puts writeData d l
    let q := puts writeData p.1 [0x0a]
    let r := putLines q.1 ls
    (r.1, p.2 :: q.2 :: r.2)

/-- Reading `n` lines. -/
def getLines : Nat → Data.Obj → Option (Data.Obj × List (List UInt8))
  | 0, d => some (d, [])
  | n + 1, d => (gets d).bind fun r => (getLines n r.1).map fun q => (q.1, r.2 :: q.2)

theorem putLines_eq (ls : List (List UInt8)) : ∀ d : Data.Obj,
    ((putLines d ls).1.bytes.take (putLines d ls).1.cursor, (putLines d ls).1.bytes.drop (putLines d ls).1.cursor) =
      (d.bytes.take d.cursor ++ ls.flatMap (· ++ [0x0a]), d.bytes.drop (d.cursor + (ls.flatMap (· ++ [0x0a])).length)) ∧
      ∀ r ∈ (putLines d ls).2, r = 0 := by
  induction ls with
  | nil => simp [putLines]
  | cons l ls ih =>
    intro d
    obtain ⟨h1, h2⟩ := ih (puts writeData (puts writeData d l).1 [0x0a]).1
    refine ⟨?_, ?_⟩
    · simp only [putLines]
      rw [h1]
      have e1 := acts_data.content d l
      have e2 := acts_data.content (writeData d l).1 [0x0a]
      simp only [Prod.mk.injEq] at e1 e2
      simp only [puts]
      rw [e2.1, e1.1, ← List.drop_drop, e2.2, e1.2]
      simp only [List.drop_drop, List.flatMap_cons, List.length_append, List.append_assoc, Prod.mk.injEq, true_and, List.length_singleton]
      congr 1
      omega
    · intro r hr
      simp only [putLines, List.mem_cons] at hr
      rcases hr with rfl | rfl | hr
      · simp [puts, writeData, Data.write]
      · simp [puts, writeData, Data.write]
      · exact h2 r hr

theorem getLines_eq (ls : List (List UInt8)) : ∀ (d : Data.Obj) (rest : List UInt8), d.bytes.drop d.cursor = ls.flatMap (· ++ [0x0a]) ++ rest →
    (∀ l ∈ ls, (0x0a : UInt8) ∉ l ∧ (0 : UInt8) ∉ l) → ∃ d', getLines ls.length d = some (d', ls) ∧ d'.bytes = d.bytes ∧ d'.bytes.drop d'.cursor = rest := by
  induction ls with
  | nil => intro d rest h _; exact ⟨d, rfl, rfl, by simpa using h⟩
  | cons l ls ih =>
    intro d rest h hl
    have h1 : d.bytes.drop d.cursor = l ++ 0x0a :: (ls.flatMap (· ++ [0x0a]) ++ rest) := by rw [h]; simp
    have h2 := C79_line_partial d l _ h1 (hl l (by simp)).1 (hl l (by simp)).2
    have h3 : d.bytes.drop (d.cursor + l.length + 1) = ls.flatMap (· ++ [0x0a]) ++ rest := by
      rw [Nat.add_assoc, ← List.drop_drop, h1, show l ++ 0x0a :: (ls.flatMap (· ++ [0x0a]) ++ rest) = (l ++ [0x0a]) ++ (ls.flatMap (· ++ [0x0a]) ++ rest) by simp,
        show l.length + 1 = (l ++ [0x0a]).length by simp, List.drop_left]
    obtain ⟨d', e1, e2, e3⟩ := ih ⟨d.bytes, d.cursor + l.length + 1⟩ rest h3 fun x hx => hl x (by simp [hx])
    exact ⟨d', by simp [getLines, h2, e1], e2, e3⟩

/-- Lines written with DKPuts are read back by DKGets, for all lists of lines without NUL and line feed. -/
theorem C79_lines_partial (ls : List (List UInt8)) (hl : ∀ l ∈ ls, (0x0a : UInt8) ∉ l ∧ (0 : UInt8) ∉ l) :
    (∀ r ∈ (putLines ⟨[], 0⟩ ls).2, r = 0) ∧
      ∃ d', getLines ls.length (Data.seek (putLines ⟨[], 0⟩ ls).1 0 .set) = some (d', ls) ∧ d'.bytes.drop d'.cursor = [] := by
  obtain ⟨h1, h2⟩ := putLines_eq ls ⟨[], 0⟩
  refine ⟨h2, ?_⟩
  have hb : (putLines ⟨[], 0⟩ ls).1.bytes = ls.flatMap (· ++ [0x0a]) := by
    rw [← List.take_append_drop (putLines ⟨[], 0⟩ ls).1.cursor (putLines ⟨[], 0⟩ ls).1.bytes]
    injection h1 with e1 e2
    rw [e1, e2]; simp
  have hs : Data.seek (putLines ⟨[], 0⟩ ls).1 0 .set = ⟨ls.flatMap (· ++ [0x0a]), 0⟩ := by
    simp [Data.seek, Data.setCursor, hb]
    omega
  rw [hs]
  obtain ⟨d', e1, e2, e3⟩ := getLines_eq ls ⟨ls.flatMap (· ++ [0x0a]), 0⟩ [] (by simp) hl
  exact ⟨d', e1, e3⟩

example : ∀ l ∈ ["one".toUTF8.data.toList, [], "zwölf".toUTF8.data.toList], (0x0a : UInt8) ∉ l ∧ (0 : UInt8) ∉ l := by decide +kernel

/-- A NUL byte in a line is dropped. -/
theorem C79_nul_fails : gets ⟨[0x61, 0, 0x62, 0x0a], 0⟩ = some (⟨[0x61, 0, 0x62, 0x0a], 4⟩, [0x61, 0x62]) := by decide +kernel

/-- At the end of the stream DKGets returns what it returns for an empty line. -/
theorem C79_end_fails (bs : List UInt8) : gets ⟨bs, bs.length⟩ = some (⟨bs, bs.length⟩, []) ∧ gets ⟨bs ++ [0x0a], bs.length⟩ = some (⟨bs ++ [0x0a], bs.length + 1⟩, []) := by
  refine ⟨?_, ?_⟩
  · have := C79_rest_partial ⟨bs, bs.length⟩ (by simp) (by simp)
    simpa using this
  · exact C79_line_partial ⟨bs ++ [0x0a], bs.length⟩ [] [] (by simp) (by simp) (by simp)

/-- What DKPutc writes at the cursor, DKGetc reads, for the characters up to 127. -/
theorem C79_char_partial (d : Data.Obj) (c : Nat) (h : c < 128) :
    (putc writeData d c).2 = c ∧ getc (Data.seek (putc writeData d c).1 (-1) .cur) = some ((putc writeData d c).1, (c : Int)) := by
  refine ⟨by simp [putc, writeData, Data.write], ?_⟩
  have hb : (BitVec.ofInt 8 (c : Int)).toInt = c := by
    rw [BitVec.toInt_ofInt]
    simp only [Int.bmod]
    omega
  simp only [putc, writeData_eq]
  generalize hp : d.bytes.take d.cursor = pre
  generalize d.bytes.drop (d.cursor + _) = post
  have hs : ∀ b : UInt8, Data.seek ⟨pre ++ [b] ++ post, pre.length + 1⟩ (-1) .cur = ⟨pre ++ [b] ++ post, pre.length⟩ := by
    intro b
    simp only [Data.seek, Data.setCursor]
    rw [if_neg (by omega), if_neg (by simp; omega)]
    congr 1; omega
  have hd : ∀ b : UInt8, (pre ++ [b] ++ post).drop pre.length = b :: post := by intro b; simp
  rw [show ([UInt8.ofBitVec (BitVec.ofInt 8 (c : Int))] : List UInt8).length = 1 from rfl, hs, getc, read_one]
  simp only [hd, Option.map_some, if_true, hb]

example : (65 : Nat) < 128 := by decide

/-- DKGetc returns a negative number for bytes from 0x80 up. -/
theorem C79_byte_fails (d : Data.Obj) (b : UInt8) (rest : List UInt8) (h : d.bytes.drop d.cursor = b :: rest) (hb : 0x80 ≤ b) :
    getc d = some (⟨d.bytes, d.cursor + 1⟩, (b.toNat : Int) - 256) := by
  rw [getc, read_one, h]
  simp only [Option.map_some, if_true]
  have h1 : 128 ≤ b.toNat := hb
  have h2 := b.toNat_lt
  have h3 : b.toBitVec.toInt = (b.toNat : Int) - 256 := by
    rw [BitVec.toInt_eq_toNat_bmod]
    simp only [UInt8.toNat_toBitVec, Int.bmod]
    omega
  rw [h3]

/-- In particular it returns EOF (-1) for the byte 0xFF, in the middle of the stream. -/
theorem C79_eof_fails (d : Data.Obj) (rest : List UInt8) (h : d.bytes.drop d.cursor = 0xff :: rest) :
    getc d = some (⟨d.bytes, d.cursor + 1⟩, -1) := C79_byte_fails d 0xff rest h (by decide)

example : (⟨[0x61, 0xff, 0x62], 1⟩ : Data.Obj).bytes.drop (⟨[0x61, 0xff, 0x62], 1⟩ : Data.Obj).cursor = 0xff :: [0x62] := rfl

end Printf
end Duck
