import Verif.Lemmas.Shell
import Verif.Lemmas.JsonParse
/-!
C86: segments written to a stream are read back.  C87: reading segments from any stream is safe.
-/
namespace Duck
namespace Shell
open Printf

variable {α : Type}

/-! ## C86 -/

/-- DKShellWrite of one segment after the other, with the results. -/
def writeAll (libc : Libc) (reg : Registry α) : Data.Obj → List (Segment α) → Option (Data.Obj × List Nat)
  | d, [] => some (d, [])
  | d, seg :: segs => (write writeData libc reg seg.raw d seg.object (some seg.contentType) seg.annotation).bind fun r =>
    (writeAll libc reg r.1 segs).map fun q => (q.1, r.2 :: q.2)

/-- DKShellRead, again and again, each time with the given option. -/
def readAll (reg : Registry α) : Data.Obj → List Bool → Option (Data.Obj × List (Result α))
  | d, [] => some (d, [])
  | d, raw :: raws => (read reg raw d).bind fun r => (readAll reg r.1 raws).map fun q => (q.1, r.2 :: q.2)

/-- The text of segments. -/
inductive Laid (reg : Registry α) : List (Segment α) → List UInt8 → Prop
  | nil : Laid reg [] []
  | cons {seg segs e bs ds rest} : Encodes reg seg e → Fits seg.contentType e → Bytes e bs → bs ≠ [] → bs.length < 2 ^ 63 → Num.Digits ds →
      Num.value ds = bs.length → Laid reg segs rest → Laid reg (seg :: segs) (layout seg.contentType ds seg.annotation bs ++ rest)

theorem encodes_encoded {reg : Registry α} {seg : Segment α} {e : Obj α} (h : Encodes reg seg e) :
    encoded reg seg.raw (some seg.contentType) seg.object = some e ∧ decoded reg seg.raw (some seg.contentType) e = some seg.object := by
  rcases h with ⟨h1, h2⟩ | ⟨h1, h2⟩ | ⟨h1, enc, h2, h3, h4⟩
  · simp [encoded, decoded, h1, h2]
  · simp [encoded, decoded, encoderFor, h1, h2]
  · simp [encoded, decoded, encoderFor, h1, h2, h3, h4]

theorem bytes_buffer {e : Obj α} {bs : List UInt8} (h : Bytes e bs) : buffer e = some bs := by
  cases e with
  | text b => exact congrArg some (Eq.symm h)
  | data b => exact congrArg some (Eq.symm h)
  | other x => exact absurd h id

theorem fits_container {ct : List UInt8} {e : Obj α} {bs : List UInt8} (h : Fits ct e) (hb : Bytes e bs) : container (some ct) bs = e := by
  cases e with
  | text b =>
    have h' : textPrefix.isPrefixOf ct = true := List.isPrefixOf_iff_prefix.mpr h
    have hb' : bs = b := hb
    simp [container, h', hb']
  | data b =>
    have h' : textPrefix.isPrefixOf ct = false := by
      rw [Bool.eq_false_iff]
      exact fun e => h (List.isPrefixOf_iff_prefix.mp e)
    have hb' : bs = b := hb
    simp [container, h', hb']
  | other x => exact absurd hb id

theorem writeAll_eq {libc : Libc} (hd : Decimal libc) {reg : Registry α} : ∀ (segs : List (Segment α)) (d : Data.Obj), (∀ seg ∈ segs, Good reg seg) →
    ∃ d' L, writeAll libc reg d segs = some (d', List.replicate segs.length 1) ∧ Laid reg segs L ∧
      (segs = [] → d' = d) ∧ d'.bytes.take d'.cursor = d.bytes.take d.cursor ++ L ∧ d'.bytes.drop d'.cursor = (d.bytes.drop d.cursor).drop L.length := by
  intro segs
  induction segs with
  | nil => intro d _; exact ⟨d, [], rfl, .nil, fun _ => rfl, by simp, by simp⟩
  | cons seg segs ih =>
    intro d hg
    have g := hg seg (by simp)
    obtain ⟨e, bs, he, hf, hb, hne, hl⟩ := g.content
    obtain ⟨d1, ds, h1, h2, h3, _, h5, _⟩ := write_eq acts_data hd reg seg.raw d seg.object seg.contentType seg.annotation g.type.1 g.annotation.1 g.noReturn
      g.annotation.2 (encodes_encoded he).1 (bytes_buffer hb) (by omega)
    injection h2 with ht hr
    obtain ⟨d2, L, k1, k2, _, k4, k5⟩ := ih d1 fun s hs => hg s (by simp [hs])
    refine ⟨d2, layout seg.contentType ds seg.annotation bs ++ L, ?_, .cons he hf hb hne hl h3 h5 k2, (fun h => by simp at h), ?_, ?_⟩
    · rw [writeAll, h1, Option.bind_some, k1, Option.map_some]; rfl
    · rw [k4, ht, List.append_assoc]
    · rw [k5, hr, List.drop_drop, List.length_append]

theorem readAll_eq {reg : Registry α} {segs : List (Segment α)} {L : List UInt8} (h : Laid reg segs L) : ∀ (d : Data.Obj) (rest : List UInt8),
    (∀ seg ∈ segs, Good reg seg) → d.bytes.drop d.cursor = L ++ rest →
    ∃ k, readAll reg d (segs.map (·.raw)) =
      some (⟨d.bytes, k⟩, segs.map fun seg => ⟨1, some seg.object, some seg.contentType, some seg.annotation⟩) ∧ d.bytes.drop k = rest := by
  induction h with
  | nil => intro d rest _ h; exact ⟨d.cursor, rfl, by simpa using h⟩
  | @cons seg segs e bs ds more he hf hb hne hl hds hv _ ih =>
    intro d rest hg h
    have g := hg seg (by simp)
    obtain ⟨k, h1, h2⟩ := read_layout (reg := reg) (raw := seg.raw) (d := d) (rest := more ++ rest) (by rw [h]; simp) g.type g.noBlank hds hv g.annotation
      g.notEmpty hl
    obtain ⟨k', h3, h4⟩ := ih ⟨d.bytes, k⟩ rest (fun s hs => hg s (by simp [hs])) h2
    refine ⟨k', ?_, h4⟩
    rw [List.map_cons, readAll, h1, Option.bind_some, h3, Option.map_some]
    rw [fits_container hf hb, (encodes_encoded he).2, if_neg hne]
    rfl

/-- Any number of segments written one after the other at the cursor of a data object or string are read back from there: the same objects,
    content types and annotations, in the same order.  What was before is unchanged.  If nothing was behind, the next read says that
    there is no further segment. -/
theorem C86_round_trip_partial (libc : Libc) (hlibc : Decimal libc) (reg : Registry α) (segs : List (Segment α)) (hg : ∀ seg ∈ segs, Good reg seg)
    (d : Data.Obj) (hc : d.cursor ≤ d.bytes.length) :
    ∃ d' k, writeAll libc reg d segs = some (d', List.replicate segs.length 1) ∧ d'.bytes.take d.cursor = d.bytes.take d.cursor ∧
      readAll reg ⟨d'.bytes, d.cursor⟩ (segs.map (·.raw)) =
        some (⟨d'.bytes, k⟩, segs.map fun seg => ⟨1, some seg.object, some seg.contentType, some seg.annotation⟩) ∧
      (d.cursor = d.bytes.length → ∀ raw, read reg raw ⟨d'.bytes, k⟩ = some (⟨d'.bytes, d'.bytes.length⟩, ⟨0, none, none, none⟩)) := by
  obtain ⟨d', L, h1, h2, _, h4, h5⟩ := writeAll_eq hlibc segs d hg
  have hlen : (d.bytes.take d.cursor).length = d.cursor := by rw [List.length_take]; omega
  have hb : d'.bytes = d.bytes.take d.cursor ++ (L ++ (d.bytes.drop d.cursor).drop L.length) := by
    rw [← List.take_append_drop d'.cursor d'.bytes, h4, h5, List.append_assoc]
  have hdrop : d'.bytes.drop d.cursor = L ++ (d.bytes.drop d.cursor).drop L.length := by
    rw [hb, List.drop_left' hlen]
  obtain ⟨k, h6, h7⟩ := readAll_eq h2 ⟨d'.bytes, d.cursor⟩ _ hg hdrop
  refine ⟨d', k, h1, ?_, h6, fun he raw => ?_⟩
  · rw [hb, List.take_left' hlen]
  · have hk : d'.bytes.drop k = [] := by rw [h7, he, List.drop_length, List.drop_nil]
    have hge := C79_rest_partial ⟨d'.bytes, k⟩ (by simp [hk]) (by simp [hk])
    dsimp only at hge
    rw [hk] at hge
    rw [read, hge, Option.bind_some]
    rfl

/-- What one segment looks like in any stream that adds what is written to its content. -/
theorem C86_layout_partial {σ : Type} {wr : Write σ} {content : σ → List UInt8} (A : Appends wr content) (libc : Libc) (hlibc : Decimal libc)
    (reg : Registry α) (seg : Segment α) (hg : Good reg seg) (s : σ) :
    ∃ s' e bs ds, write wr libc reg seg.raw s seg.object (some seg.contentType) seg.annotation = some (s', 1) ∧ Encodes reg seg e ∧ Bytes e bs ∧
      Num.Digits ds ∧ Num.value ds = bs.length ∧ content s' = content s ++ layout seg.contentType ds seg.annotation bs := by
  obtain ⟨e, bs, he, _, hb, _, hl⟩ := hg.content
  obtain ⟨s', ds, h1, h2, h3, _, h5, _⟩ := write_eq A.acts hlibc reg seg.raw s seg.object seg.contentType seg.annotation hg.type.1 hg.annotation.1 hg.noReturn
    hg.annotation.2 (encodes_encoded he).1 (bytes_buffer hb) (by omega)
  exact ⟨s', e, bs, ds, h1, he, hb, h3, h5, h2⟩

/-- Nothing is written if the annotation has a line feed or carriage return. -/
theorem C86_refused {σ : Type} (wr : Write σ) (libc : Libc) (reg : Registry α) (raw : Bool) (s : σ) (object : Obj α) (ct : Option (List UInt8)) (ann : List UInt8)
    (h0 : (0 : UInt8) ∉ ann) (h : (0x0a : UInt8) ∈ ann ∨ (0x0d : UInt8) ∈ ann) : write wr libc reg raw s object ct ann = some (s, 0) := by
  have : ((Data.cstr ann).any fun b => b == 0x0d || b == 0x0a) = true := by
    rw [cstr_eq h0, List.any_eq_true]
    rcases h with h | h
    · exact ⟨_, h, by simp⟩
    · exact ⟨_, h, by simp⟩
  rw [write, this, if_pos rfl]

/-- Nothing is written if the object has no bytes and is not encoded: there is no encoder for the content type, or none is wanted. -/
theorem C86_refused_object {σ : Type} (wr : Write σ) (libc : Libc) (reg : Registry α) (raw : Bool) (s : σ) (x : α) (ct : Option (List UInt8)) (ann : List UInt8)
    (h : raw = true ∨ encoderFor reg ct = none) : write wr libc reg raw s (.other x) ct ann = some (s, 0) := by
  have he : encoded reg raw ct (.other x) = some (.other x) := by
    rcases h with h | h
    · simp [encoded, h]
    · simp [encoded, h]
  rw [write, he]
  simp [buffer]

example : encoderFor (builtIn (α := Unit) ⟨some, some⟩ ⟨some, some⟩ some) (some textPrefix) = none := by decide

/-- The last encoder registered for a content type is the one that is used; other content types keep theirs. -/
theorem C86_register (reg : Registry α) (ct : List UInt8) (enc : Encoder α) (t : List UInt8) :
    encoderFor (register reg ct enc) (some ct) = some enc ∧ (t ≠ ct → encoderFor (register reg ct enc) (some t) = encoderFor reg (some t)) := by
  refine ⟨by simp [encoderFor, register], fun h => by simp [encoderFor, register, h]⟩

/-- The C library of the examples. -/
def exampleLibc : Libc
  | [0x25, 0x7a, 0x75], .long v => some (Json.decimal 19 v.toNat)
  | _, _ => none

theorem decimal_length : ∀ fuel n, (Json.decimal fuel n).length ≤ fuel + 1 := by
  intro fuel
  induction fuel with
  | zero => intro n; simp [Json.decimal]
  | succ fuel ih =>
    intro n
    rw [Json.decimal]
    split
    · simp
    · rw [List.length_append]
      have := ih (n / 10)
      simp; omega

theorem exampleLibc_decimal : Decimal exampleLibc := by
  intro v
  obtain ⟨h1, h2, h3⟩ := Json.decimal_eq 19 v.toNat (by have := v.isLt; omega)
  exact ⟨_, rfl, h1, h2, h3, by have := decimal_length 19 v.toNat; omega⟩

/-- Numbers are encoded as one byte, as an example of a user's content type. -/
def exampleEncoder : Encoder (Fin 256) where
  encode
    | .other n => some (.data [UInt8.ofNat n.val])
    | _ => none
  decode
    | .data [b] => some (.other ⟨b.toNat, b.toNat_lt⟩)
    | _ => none

/-- "n" -/
def exampleType : List UInt8 := [0x6e]

/-- A text, data and an encoded number. -/
def exampleSegments : List (Segment (Fin 256)) :=
  [⟨.text "a\n\nb".toUTF8.data.toList, "text".toUTF8.data.toList, "first part".toUTF8.data.toList, false⟩,
   ⟨.data [0, 10, 255], [], "ä".toUTF8.data.toList, true⟩,
   ⟨.other 42, exampleType, [0x78], false⟩]

def exampleRegistry : Registry (Fin 256) := register (fun _ => none) exampleType exampleEncoder

/-- The hypotheses hold for these segments. -/
example : ∀ seg ∈ exampleSegments, Good exampleRegistry seg := by
  intro seg h
  simp only [exampleSegments, List.mem_cons, List.not_mem_nil, or_false] at h
  rcases h with rfl | rfl | rfl
  · refine ⟨⟨?_, ?_⟩, ?_, ⟨?_, ?_⟩, ?_, ?_, _, _, Or.inr (Or.inl ⟨?_, rfl⟩), ?_, rfl, ?_, ?_⟩
    · decide +kernel
    · decide +kernel
    · intro b hb
      have : "text".toUTF8.data.toList.head? = some 0x74 := by decide +kernel
      rw [this] at hb; injection hb with hb; subst hb; decide
    · decide +kernel
    · decide +kernel
    · decide +kernel
    · decide +kernel
    · have h : ¬ "text".toUTF8.data.toList = exampleType := by decide +kernel
      simp only [exampleRegistry, register, if_neg h]
    · show _ <+: _
      decide +kernel
    · decide +kernel
    · decide +kernel
  · refine ⟨⟨by simp, by simp⟩, by simp, ⟨?_, ?_⟩, ?_, ?_, _, _, Or.inl ⟨rfl, rfl⟩, ?_, rfl, by simp, by simp⟩
    · decide +kernel
    · decide +kernel
    · decide +kernel
    · decide +kernel
    · show ¬ _ <+: _
      decide +kernel
  · refine ⟨⟨by decide, by decide⟩, ?_, ⟨by simp, by simp⟩, by simp, by simp, .data [42], [42], Or.inr (Or.inr ⟨rfl, exampleEncoder, ?_, ?_, ?_⟩), ?_, rfl, ?_, ?_⟩
    · intro b hb; simp [exampleType] at hb; subst hb; decide
    · simp [exampleRegistry, register]
    · rfl
    · rfl
    · show ¬ _ <+: _
      decide
    · simp
    · simp

/-- Their text. -/
example : (writeAll exampleLibc exampleRegistry ⟨[], 0⟩ (exampleSegments.take 1)).map (fun r => (r.1.bytes, r.2)) =
    some ("SHELL-Version 1.0\nContent-Type: text\nContent-Length: 4\n\nfirst part\n\na\n\nb".toUTF8.data.toList, [1]) := by decide +kernel

/-- Without an annotation no segment with a content is read back when it is the last of the stream: DKShellWrite leaves out the annotation
    and its empty line, and DKShellRead takes the first line of the content for the annotation. -/
theorem C86_annotation_fails (libc : Libc) (hlibc : Decimal libc) (reg : Registry α) (seg : Segment α) (ht : OneLine seg.contentType)
    (hb : ∀ b, seg.contentType.head? = some b → Num.isSpace b = false) (ha : seg.annotation = [])
    (hc : ∃ e bs, Encodes reg seg e ∧ Bytes e bs ∧ bs ≠ [] ∧ bs.length < 2 ^ 63) (d : Data.Obj) (hd : d.cursor = d.bytes.length) :
    ∃ d' r, write writeData libc reg seg.raw d seg.object (some seg.contentType) seg.annotation = some (d', 1) ∧
      read reg seg.raw ⟨d'.bytes, d.cursor⟩ = some r ∧ r.2.returned = 0 ∧ r.2.object = none := by
  obtain ⟨e, bs, he, hbs, hne, hl⟩ := hc
  rw [ha]
  obtain ⟨d', ds, h1, h2, h3, _, h5, _⟩ := write_eq acts_data hlibc reg seg.raw d seg.object seg.contentType [] ht.1 (by simp) (by simp) (by simp)
    (encodes_encoded he).1 (bytes_buffer hbs) (by omega)
  injection h2 with h2 h2'
  have hb' : d'.bytes = d.bytes ++ layout seg.contentType ds [] bs := by
    rw [← List.take_append_drop d'.cursor d'.bytes, h2, h2', hd]; simp
  have hdrop : d'.bytes.drop d.cursor = layout seg.contentType ds [] bs ++ [] := by rw [hb', hd, List.drop_left, List.append_nil]
  obtain ⟨k, e1, e2⟩ := read_headers (reg := reg) (raw := seg.raw) (d := ⟨d'.bytes, d.cursor⟩) hdrop ht hb h3 (by omega)
  obtain ⟨k', ann, e3⟩ := readAnnotation_short (reg := reg) (raw := seg.raw) (d := ⟨d'.bytes, k⟩) (ct := some seg.contentType) (bs := bs)
    (by rw [e2, body]; simp) hne hl
  rw [h5] at e1
  exact ⟨d', _, h1, e1.trans e3, rfl, rfl⟩

/-- For example the text "hello". -/
example : ((write writeData exampleLibc exampleRegistry true ⟨[], 0⟩ (.text "hello".toUTF8.data.toList) (some "text".toUTF8.data.toList) []).bind fun r =>
    read exampleRegistry true ⟨r.1.bytes, 0⟩).map (fun r => (r.2.returned, r.2.object)) = some (0, none) := by decide +kernel

/-- With a content that starts with an empty line and another segment behind it, the wrong content is read, and the following segment is lost. -/
theorem C86_shifted_fails : ((writeAll (α := Unit) exampleLibc (fun _ => none) ⟨[], 0⟩ [⟨.text [0x0a, 0x61], [], [], true⟩, ⟨.data [1], [], [0x78], true⟩] :
      Option (Data.Obj × List Nat)).bind fun r => readAll (α := Unit) (fun _ => none) ⟨r.1.bytes, 0⟩ [true, true]).map (fun r => r.2.map fun x => (x.returned, x.object)) =
    some [(1, some (.data [0x61, 0x53])), (0, none)] := by decide +kernel

/-- An empty content is read back as no object. -/
theorem C86_empty_fails (libc : Libc) (hlibc : Decimal libc) (reg : Registry α) (ct ann : List UInt8) (ht : OneLine ct)
    (hb : ∀ b, ct.head? = some b → Num.isSpace b = false) (ha : OneLine ann) (hr : (0x0d : UInt8) ∉ ann) (hne : ann ≠ []) :
    ∃ d' k, write writeData libc reg true ⟨[], 0⟩ (.data []) (some ct) ann = some (d', 1) ∧
      read reg true ⟨d'.bytes, 0⟩ = some (⟨d'.bytes, k⟩, ⟨1, none, some ct, some ann⟩) := by
  obtain ⟨d', ds, h1, h2, h3, _, h5, _⟩ := write_eq acts_data hlibc reg true ⟨[], 0⟩ (.data []) ct ann ht.1 ha.1 hr ha.2 (e := .data []) (bs := []) rfl rfl
    (by decide)
  injection h2 with h2 h2'
  have hb' : d'.bytes = layout ct ds ann [] := by
    rw [← List.take_append_drop d'.cursor d'.bytes, h2, h2']; simp
  obtain ⟨k, e, _⟩ := read_layout (reg := reg) (raw := true) (d := ⟨d'.bytes, 0⟩) (rest := []) (by simp [hb']) ht hb h3 h5 ha hne (by decide)
  exact ⟨d', k, h1, e⟩

/-- A content type that starts with a blank loses it; one with line feeds ends the headers, so that the rest of it is taken for the annotation. -/
theorem C86_type_fails :
    ((write (α := Unit) writeData exampleLibc (fun _ => none) true ⟨[], 0⟩ (.data [1]) (some [0x20, 0x62]) [0x78]).bind fun r =>
      read (α := Unit) (fun _ => none) true ⟨r.1.bytes, 0⟩).map (fun r => r.2) = some ⟨1, some (.data [1]), some [0x62], some [0x78]⟩ ∧
    ((write (α := Unit) writeData exampleLibc (fun _ => none) true ⟨[], 0⟩ (.data [1]) (some [0x62, 0x0a, 0x0a, 0x63, 0x0a]) [0x78]).bind fun r =>
      read (α := Unit) (fun _ => none) true ⟨r.1.bytes, 0⟩).map (fun r => r.2) = some ⟨1, none, some [0x62], some [0x63]⟩ := by
  constructor <;> decide +kernel

/-! ## C87 -/

/-- Reading a segment from a stream with any content is defined, if no header gives a length from 2^63 up.  It does not change the content, it
    returns 0 without an object or 1, and an object that is not decoded consists of the bytes right before the new position. -/
theorem C87_read_partial (reg : Registry α) (raw : Bool) (d : Data.Obj) (hs : SmallLengths (d.bytes.drop d.cursor)) :
    ∃ d' r, read reg raw d = some (d', r) ∧ d'.bytes = d.bytes ∧ (r.returned = 0 ∧ r.object = none ∨ r.returned = 1) ∧
      ∀ o, raw = true → r.object = some o → ∃ bs, Bytes o bs ∧ bs ≠ [] ∧ bs <:+ d.bytes.take d'.cursor := by
  obtain ⟨⟨d', r⟩, h1, h2, h3, h4⟩ := read_total reg raw d hs
  exact ⟨d', r, h1, h2, h3, h4⟩

/-- The hypothesis holds for a stream without the letter "C". -/
example : SmallLengths "SHELL-Version 1.0\nX: 1\n\n".toUTF8.data.toList := by
  intro a l b h _ hp
  have hc : (0x43 : UInt8) ∉ "SHELL-Version 1.0\nX: 1\n\n".toUTF8.data.toList := by decide +kernel
  have : (0x43 : UInt8) ∈ l := (List.mem_filter.mp (hp.subset (by decide : (0x43 : UInt8) ∈ lengthField))).1
  rw [h] at hc
  simp [this] at hc

theorem bad_length (reg : Registry α) (raw : Bool) {bytes : List UInt8} {k1 k2 k3 len : Nat} (g1 : gets ⟨bytes, 0⟩ = some (⟨bytes, k1⟩, headerString))
    (g2 : readHeaders (bytes.length + 1) ⟨bytes, k1⟩ none 0 = some (⟨bytes, k2⟩, none, len)) (g3 : gets ⟨bytes, k2⟩ = some (⟨bytes, k3⟩, []))
    (h : 2 ^ 63 ≤ len) : read reg raw ⟨bytes, 0⟩ = none := by
  obtain ⟨n, hn, hpos⟩ := getLength_pos (s := headerString) (by decide) (by decide)
  have h0 : Text.getLength [] = some 0 := by decide
  rw [read, g1, Option.bind_some, hn, Option.bind_some, if_neg (by omega), if_neg (by simp)]
  dsimp only
  rw [g2, Option.bind_some, readAnnotation, g3, Option.bind_some, h0, Option.bind_some, if_neg (by decide), readContent, if_neg (show ¬ len = 0 by omega), if_pos h]

/-- A stream with a length of 2^64 - 1, also written as -1, makes DKShellRead use a negative length. -/
theorem C87_length_fails (reg : Registry α) (raw : Bool) :
    read reg raw ⟨"SHELL-Version 1.0\nContent-Length: 18446744073709551615\n\n\n".toUTF8.data.toList, 0⟩ = none ∧
    read reg raw ⟨"SHELL-Version 1.0\nContent-Length: -1\n\n\n".toUTF8.data.toList, 0⟩ = none := by
  constructor
  · exact bad_length reg raw (k1 := 18) (k2 := 56) (k3 := 57) (len := 2 ^ 64 - 1) (by decide +kernel) (by decide +kernel) (by decide +kernel) (by decide)
  · exact bad_length reg raw (k1 := 18) (k2 := 38) (k3 := 39) (len := 2 ^ 64 - 1) (by decide +kernel) (by decide +kernel) (by decide +kernel) (by decide)

end Shell
end Duck
