import Verif.Lemmas.TextTrim
namespace Duck
namespace Text
open Unicode

/-! ## ASCII strings -/

abbrev byteCode (b : UInt8) : Int := (b.toNat : Int)

theorem AsciiBytes.scan {b : UInt8} (h0 : 0 < b.toNat) (h1 : b.toNat < 128) (r : Mem) : ustrscan (b :: r) = some ((b.toNat : Int), 1) := by
  rw [ustrscan]
  simp only [rd, List.getElem?_cons_zero, Option.map_some, Option.bind_some]
  rw [if_neg (by omega), next]
  simp only [rd, List.getElem?_cons_zero, Option.map_some, Option.bind_some]
  rw [if_neg (by omega)]

theorem AsciiBytes.scans : ∀ {s : List UInt8}, AsciiBytes s → Scans s (s.map fun b => (byteCode b, [b]))
  | [], _ => .nil
  | b :: s, h => by
    have hb := h b (by simp)
    exact Scans.cons (byteCode b) [b] s _ (by simp) (by rw [List.cons_append, List.nil_append, List.cons_append]; exact scan hb.1 hb.2 _)
      (AsciiBytes.scans fun x hx => h x (by simp [hx]))

theorem flat_map_single (s : List UInt8) : flat (s.map fun b => (byteCode b, [b])) = s := by
  induction s with
  | nil => rfl
  | cons b s ih => simp only [flat, List.map_cons, List.flatMap_cons] at *; rw [ih]; rfl

def btrim (s : List UInt8) : List UInt8 := (trim s).getD []

theorem trimmed_map {β α : Type} {code : α → Int} {g : β → α} {s : List β} {t : List α} (h : Trimmed code (s.map g) t) :
    ∃ u, t = u.map g ∧ Trimmed (fun b => code (g b)) s u := by
  obtain ⟨a, b, e, ha, hb, h1, h2⟩ := h
  obtain ⟨ab, b', rfl, eab, rfl⟩ := List.map_eq_append_iff.mp e
  obtain ⟨a', u, rfl, rfl, rfl⟩ := List.map_eq_append_iff.mp eab
  refine ⟨u, rfl, a', b', rfl, fun x hx => ha _ (List.mem_map_of_mem hx), fun x hx => hb _ (List.mem_map_of_mem hx), ?_, ?_⟩
  · intro x hx; exact h1 _ (by simp [hx])
  · intro x hx; exact h2 _ (by simp [hx])

theorem trim_ascii {s : List UInt8} (h : AsciiBytes s) : trim s = some (btrim s) ∧ Trimmed byteCode s (btrim s) := by
  obtain ⟨t, ht, hs⟩ := trim_scans h.scans (by
    intro x hx; obtain ⟨b, hb, rfl⟩ := List.mem_map.mp hx; have := h b hb; simp only [byteCode]; omega)
  obtain ⟨u, rfl, hu⟩ := trimmed_map ht
  rw [flat_map_single] at hs
  have : btrim s = u := by rw [btrim, hs]; rfl
  rw [this]; exact ⟨hs, hu⟩

theorem Plain.ascii {s : List UInt8} (h : Plain s) : AsciiBytes s := fun b hb => ⟨(h b hb).1, (h b hb).2.1⟩

theorem Plain.white {b : UInt8} {s : List UInt8} (h : Plain s) (hb : b ∈ s) : White (byteCode b) ↔ Sep b = true := by
  have := h b hb
  have h1 : b.toNat ≠ 0x0b := fun e => this.2.2.1 (UInt8.toNat_inj.mp (by simpa using e))
  have h2 : b.toNat ≠ 0x0c := fun e => this.2.2.2 (UInt8.toNat_inj.mp (by simpa using e))
  have e : ∀ k : UInt8, (b == k) = true ↔ b.toNat = k.toNat := fun k => by rw [beq_iff_eq, UInt8.toNat_inj]
  simp only [White, Sep, byteCode, Bool.or_eq_true, e, UInt8.reduceToNat]
  omega

/-! ## The lines of a string -/

def nonsep (b : UInt8) : Bool := !Sep b
def blank (b : UInt8) : Bool := b == 0x20 || b == 0x09

/-- A line that ends here. -/
def ended (line : List UInt8) : List (List UInt8) := if line = [] then [] else [btrim line]

/-- Does the word not fit? -/
abbrev Over (limit : Nat) (line w : List UInt8) : Prop := 0 < line.length ∧ limit < line.length + w.length

def after (k : List UInt8 → List UInt8 → List (List UInt8)) (line : List UInt8) : List UInt8 → List (List UInt8)
  | [] => k line []
  | b :: r =>
    if b = 0x0d then k line r
    else if b = 0x0a then ended line ++ [] :: k [] r
    else k (line ++ (b :: r).takeWhile blank) ((b :: r).dropWhile blank)

def outLines (limit : Nat) : Nat → List UInt8 → List UInt8 → List (List UInt8)
  | 0, line, _ => ended line
  | fuel + 1, line, rest =>
    if rest = [] then ended line
    else
      let w := rest.takeWhile nonsep
      (if Over limit line w then [btrim line] else []) ++
        after (outLines limit fuel) (if Over limit line w then w else line ++ w) (rest.dropWhile nonsep)

theorem AsciiBytes.append {a b : List UInt8} (ha : AsciiBytes a) (hb : AsciiBytes b) : AsciiBytes (a ++ b) := by
  intro x hx; rcases List.mem_append.mp hx with h | h
  · exact ha x h
  · exact hb x h

theorem AsciiBytes.sub {a b : List UInt8} (hb : AsciiBytes b) (h : ∀ x ∈ a, x ∈ b) : AsciiBytes a := fun x hx => hb x (h x hx)

theorem _root_.List.mem_of_mem_takeWhile' {α : Type} {p : α → Bool} {l : List α} {x : α} (h : x ∈ l.takeWhile p) : x ∈ l :=
  (List.takeWhile_sublist p).mem h

theorem _root_.List.mem_of_mem_dropWhile' {α : Type} {p : α → Bool} {l : List α} {x : α} (h : x ∈ l.dropWhile p) : x ∈ l :=
  (List.dropWhile_sublist p).mem h

theorem wordSpan_ascii {rest r : List UInt8} (h : AsciiBytes rest) :
    wordSpan (rest ++ 0 :: r) = some (rest.takeWhile nonsep).length := by
  rw [wordSpan, if_pos (by simp)]
  congr 1
  have : ∀ {s : List UInt8}, AsciiBytes s → ((s ++ 0 :: r).takeWhile fun b => b != 0 && b != 0x20 && b != 0x0a && b != 0x0d && b != 0x09) =
      s.takeWhile nonsep := by
    intro s
    induction s with
    | nil => intro _; simp
    | cons b s ih =>
      intro hs
      have hb : b ≠ 0 := by intro e; have := hs b (by simp); rw [e] at this; simp at this
      have hc : (b != 0 && b != 0x20 && b != 0x0a && b != 0x0d && b != 0x09) = nonsep b := by
        simp only [nonsep, Sep, Bool.not_or, bne, show (b == 0) = false by simpa using hb]
        cases b == 0x20 <;> cases b == 0x09 <;> cases b == 0x0a <;> cases b == 0x0d <;> rfl
      rw [List.cons_append, List.takeWhile_cons, List.takeWhile_cons, hc]
      split
      · rw [ih fun x hx => hs x (by simp [hx])]
      · rfl
  rw [this h]

theorem blankSpan_eq (rest r : List UInt8) : blankSpan (rest ++ 0 :: r) = some (rest.takeWhile blank).length := by
  rw [blankSpan, if_pos (by simp)]
  congr 1
  induction rest with
  | nil => simp
  | cons b s ih =>
    rw [List.cons_append, List.takeWhile_cons, List.takeWhile_cons]
    by_cases hb : blank b = true
    · rw [if_pos hb, if_pos (by simpa [blank] using hb), List.length_cons, List.length_cons, ih]
    · rw [if_neg hb, if_neg (by simpa [blank] using hb)]

theorem ustrnlenGo_ascii : ∀ (n : Nat) (rest r : List UInt8) (off len fuel : Nat), AsciiBytes rest → n ≤ rest.length → n ≤ fuel →
    ustrnlenGo (off + n) fuel (rest ++ 0 :: r) off len = some (len + n)
  | 0, rest, r, off, len, fuel, _, _, _ => by
    rw [ustrnlenGo.eq_def]
    cases rest with
    | nil => simp [rd]
    | cons b s => simp [rd]
  | n + 1, rest, r, off, len, fuel, h, hn, hf => by
    match rest, fuel, hn, hf with
    | b :: s, fuel + 1, hn, hf =>
      have hb := h b (by simp)
      rw [ustrnlenGo.eq_def]
      simp only [List.cons_append, rd, List.getElem?_cons_zero, Option.map_some, Option.bind_some]
      rw [if_pos ⟨by omega, by omega⟩, AsciiBytes.scan hb.1 hb.2]
      simp only [Option.bind_some, List.drop_succ_cons, List.drop_zero]
      rw [show off + (n + 1) = (off + 1) + n by omega, ustrnlenGo_ascii n s r (off + 1) (len + 1) fuel
        (fun x hx => h x (by simp [hx])) (by simpa using hn) (by omega)]
      congr 1; omega

theorem ustrnlen_ascii {rest r : List UInt8} (h : AsciiBytes rest) {n : Nat} (hn : n ≤ rest.length) :
    ustrnlen (rest ++ 0 :: r) n = some n := by
  have := ustrnlenGo_ascii n rest r 0 0 (rest ++ 0 :: r).length h hn (by simp; omega)
  rwa [Nat.zero_add] at this

/-- What the end of the function makes of the loop's result. -/
def finish (w : Wrap) : Option (List (List UInt8)) := if 0 < w.len then w.flush.map (·.lines) else some w.lines

theorem finish_eq {w : Wrap} (hl : w.len = w.line.length) (ha : AsciiBytes w.line) : finish w = some (w.lines ++ ended w.line) := by
  rw [finish, hl, ended]
  by_cases h : w.line = []
  · simp [h]
  · rw [if_pos (List.length_pos_iff.mpr h), if_neg h, Wrap.flush, (trim_ascii ha).1]; rfl

theorem takeWhile_len (p : UInt8 → Bool) (s : List UInt8) : (s.takeWhile p).length ≤ s.length := by
  have := congrArg List.length (List.takeWhile_append_dropWhile (p := p) (l := s))
  rw [List.length_append] at this; omega

theorem Wrap.take_eq {w : Wrap} {m r rest : Mem} (hd : m.drop w.cur = rest ++ 0 :: r) (p : UInt8 → Bool) :
    w.take m (rest.takeWhile p).length = some { w with
      cur := w.cur + (rest.takeWhile p).length, line := w.line ++ rest.takeWhile p, len := w.len + (rest.takeWhile p).length } ∧
    m.drop (w.cur + (rest.takeWhile p).length) = rest.dropWhile p ++ 0 :: r := by
  have hsplit : rest = rest.takeWhile p ++ rest.dropWhile p := (List.takeWhile_append_dropWhile).symm
  have hlen : w.cur + (rest.takeWhile p).length ≤ m.length := by
    have := congrArg List.length hd
    have := takeWhile_len p rest
    simp only [List.length_drop, List.length_append, List.length_cons] at *; omega
  constructor
  · rw [Wrap.take, if_pos hlen, hd]
    have : (rest ++ 0 :: r).take (rest.takeWhile p).length = rest.takeWhile p := by
      conv => lhs; arg 2; rw [hsplit, List.append_assoc]
      rw [List.take_left]
    rw [this]
  · rw [← List.drop_drop, hd]
    conv => lhs; arg 2; rw [hsplit, List.append_assoc]
    rw [List.drop_left]

theorem Wrap.word_eq {w : Wrap} {m r rest : Mem} (limit : Nat) (hd : m.drop w.cur = rest ++ 0 :: r) (hl : w.len = w.line.length)
    (ha : AsciiBytes w.line) (hr : AsciiBytes rest) :
    w.word m limit = some {
      cur := w.cur + (rest.takeWhile nonsep).length
      line := if Over limit w.line (rest.takeWhile nonsep) then rest.takeWhile nonsep else w.line ++ rest.takeWhile nonsep
      len := (if Over limit w.line (rest.takeWhile nonsep) then rest.takeWhile nonsep else w.line ++ rest.takeWhile nonsep).length
      lines := w.lines ++ if Over limit w.line (rest.takeWhile nonsep) then [btrim w.line] else [] } := by
  rw [Wrap.word, hd, wordSpan_ascii hr, Option.bind_some, ustrnlen_ascii hr (takeWhile_len _ _), Option.bind_some, hl]
  by_cases ho : Over limit w.line (rest.takeWhile nonsep)
  · simp only [if_pos ho]
    rw [Wrap.flush, (trim_ascii ha).1, Option.map_some, Option.bind_some]
    rw [(Wrap.take_eq (w := { w with line := [], len := 0, lines := w.lines ++ [btrim w.line] }) hd nonsep).1]
    simp
  · simp only [if_neg ho]
    rw [Option.bind_some, (Wrap.take_eq hd nonsep).1]
    simp [hl]

theorem wrapGo_ascii (limit : Nat) : ∀ (fuel : Nat) (w : Wrap) (m r rest : Mem), m.drop w.cur = rest ++ 0 :: r →
    w.len = w.line.length → AsciiBytes w.line → AsciiBytes rest → rest.length ≤ fuel →
    (wrapGo m limit fuel w).bind finish = some (w.lines ++ outLines limit fuel w.line rest)
  | fuel, w, m, r, [], hd, hl, ha, hr, hf => by
    have h0 : rd m w.cur = some 0 := by rw [← Nat.add_zero w.cur, ← rd_drop, hd]; rfl
    rw [wrapGo.eq_def, h0]
    simp only [Option.bind_some, if_true]
    rw [finish_eq hl ha]
    cases fuel <;> simp [outLines]
  | 0, w, m, r, b :: rest, hd, hl, ha, hr, hf => by simp at hf
  | fuel + 1, w, m, r, b :: rest, hd, hl, ha, hr, hf => by
    have hb := hr b (by simp)
    have h0 : rd m w.cur = some b.toNat := by rw [← Nat.add_zero w.cur, ← rd_drop, hd]; rfl
    rw [wrapGo.eq_def, h0]
    simp only [Option.bind_some]
    rw [if_neg (by omega), Wrap.word_eq limit hd hl ha hr]
    simp only [Option.bind_some]
    generalize hs : b :: rest = s at *
    have hse : s ≠ [] := by rw [← hs]; simp
    rw [outLines, if_neg hse]
    simp only
    have hd1 := (Wrap.take_eq (w := w) hd nonsep).2
    have hsub : ∀ x ∈ s.takeWhile nonsep, x ∈ s := fun x hx => List.mem_of_mem_takeWhile' hx
    have hsub2 : ∀ x ∈ s.dropWhile nonsep, x ∈ s := fun x hx => List.mem_of_mem_dropWhile' hx
    have hline : AsciiBytes (if Over limit w.line (s.takeWhile nonsep) then s.takeWhile nonsep else w.line ++ s.takeWhile nonsep) := by
      split
      · exact hr.sub hsub
      · exact ha.append (hr.sub hsub)
    have hlen : (s.dropWhile nonsep).length ≤ s.length := by
      have := congrArg List.length (List.takeWhile_append_dropWhile (p := nonsep) (l := s))
      rw [List.length_append] at this; omega
    have hdrop : AsciiBytes (s.dropWhile nonsep) := hr.sub hsub2
    have hstart : s.dropWhile nonsep ≠ s → (s.dropWhile nonsep).length < s.length := by
      intro hne
      have h1 := congrArg List.length (List.takeWhile_append_dropWhile (p := nonsep) (l := s))
      rw [List.length_append] at h1
      have h2 : (s.takeWhile nonsep).length ≠ 0 := by
        intro e
        have e := List.length_eq_zero_iff.mp e
        have h3 := List.takeWhile_append_dropWhile (p := nonsep) (l := s)
        rw [e, List.nil_append] at h3
        exact hne h3
      omega
    have hheadsep : ∀ c u, s.dropWhile nonsep = c :: u → Sep c = true := by
      intro c u e
      have := List.head?_dropWhile_not nonsep s
      rw [e] at this
      simpa [nonsep] using this
    clear hd1
    have hd1 := (Wrap.take_eq (w := w) hd nonsep).2
    generalize (if Over limit w.line (s.takeWhile nonsep) then s.takeWhile nonsep else w.line ++ s.takeWhile nonsep) = line at *
    generalize (if Over limit w.line (s.takeWhile nonsep) then [btrim w.line] else []) = pre at *
    generalize w.cur + (s.takeWhile nonsep).length = cur at *
    generalize s.dropWhile nonsep = t at *
    rw [Wrap.space]
    simp only
    cases t with
    | nil =>
      rw [show rd m cur = some 0 by rw [← Nat.add_zero cur, ← rd_drop, hd1]; rfl]
      simp only [Option.bind_some]
      rw [if_neg (by decide), if_neg (by decide), hd1, blankSpan_eq, Option.bind_some]
      have htake := (Wrap.take_eq (w := { cur := cur, line := line, len := line.length, lines := w.lines ++ pre }) (rest := []) hd1 blank).1
      rw [htake, Option.bind_some]
      have := wrapGo_ascii limit fuel { cur := cur, line := line, len := line.length, lines := w.lines ++ pre } m r [] hd1 rfl hline
        (fun x hx => by cases hx) (by simp)
      simp only [after, List.takeWhile_nil, List.length_nil, Nat.add_zero, List.append_nil] at *
      rw [this]; simp
    | cons c t =>
      rw [show rd m cur = some c.toNat by rw [← Nat.add_zero cur, ← rd_drop, hd1]; rfl]
      simp only [Option.bind_some]
      have hd2 : m.drop (cur + 1) = t ++ 0 :: r := by rw [← List.drop_drop, hd1]; rfl
      have ht : AsciiBytes t := fun x hx => hdrop x (by simp [hx])
      have htl : t.length ≤ fuel := by simp at hlen; omega
      by_cases h1 : c = 0x0d
      · subst h1
        rw [if_pos (by decide), Option.bind_some]
        have := wrapGo_ascii limit fuel { cur := cur + 1, line := line, len := line.length, lines := w.lines ++ pre } m r t hd2 rfl hline ht htl
        rw [this]
        simp [after]
      · have h1' : c.toNat ≠ 0x0d := fun e => h1 (UInt8.toNat_inj.mp (by simpa using e))
        rw [if_neg h1']
        by_cases h2 : c = 0x0a
        · subst h2
          rw [if_pos (by decide)]
          by_cases hle : line = []
          · subst hle
            rw [if_neg (by simp), Option.map_some, Option.bind_some]
            have := wrapGo_ascii limit fuel { cur := cur + 1, line := [], len := 0, lines := w.lines ++ pre ++ [[]] } m r t hd2 rfl
              (fun x hx => by cases hx) ht htl
            simp only [List.length_nil] at *
            rw [this]
            simp [after, ended]
          · rw [if_pos (List.length_pos_iff.mpr hle), Wrap.flush, (trim_ascii hline).1, Option.map_some, Option.map_some, Option.bind_some]
            have := wrapGo_ascii limit fuel { cur := cur + 1, line := [], len := 0, lines := w.lines ++ pre ++ [btrim line] ++ [[]] } m r t hd2 rfl
              (fun x hx => by cases hx) ht htl
            rw [this]
            simp [after, ended, hle]
        · have h2' : c.toNat ≠ 0x0a := fun e => h2 (UInt8.toNat_inj.mp (by simpa using e))
          rw [if_neg h2', hd1, blankSpan_eq, Option.bind_some]
          have htake := Wrap.take_eq (w := { cur := cur, line := line, len := line.length, lines := w.lines ++ pre }) (rest := c :: t) hd1 blank
          rw [htake.1, Option.bind_some]
          have hbl : blank c = true := by
            have := hheadsep c t rfl
            simp only [Sep, blank, Bool.or_eq_true, beq_iff_eq] at *
            rcases this with ((h | h) | h) | h
            · exact Or.inl h
            · exact Or.inr h
            · exact absurd h h2
            · exact absurd h h1
          have hsh : ((c :: t).dropWhile blank).length ≤ fuel := by
            rw [List.dropWhile_cons, if_pos hbl]
            have := congrArg List.length (List.takeWhile_append_dropWhile (p := blank) (l := t))
            rw [List.length_append] at this; omega
          have := wrapGo_ascii limit fuel { cur := cur + ((c :: t).takeWhile blank).length, line := line ++ ((c :: t).takeWhile blank), len := line.length + ((c :: t).takeWhile blank).length, lines := w.lines ++ pre } m r ((c :: t).dropWhile blank) htake.2
            (by simp) (hline.append (hdrop.sub fun x hx => List.mem_of_mem_takeWhile' hx))
            (hdrop.sub fun x hx => List.mem_of_mem_dropWhile' hx) hsh
          rw [this]
          simp only [after, if_neg h1, if_neg h2, List.append_assoc]

theorem wrap_ascii {s : List UInt8} (h : AsciiBytes s) (limit : Nat) : wrap s limit = some (outLines limit s.length [] s) := by
  have := wrapGo_ascii limit s.length { cur := 0, line := [], len := 0, lines := [] } (mem s) [0, 0, 0] s (by rw [List.drop_zero, mem_eq]) rfl
    (fun x hx => by cases hx) h (Nat.le_refl _)
  rw [List.nil_append] at this
  exact this

/-! ## Line feeds -/

theorem takeWhile_lf {p : UInt8 → Bool} (hp : p 0x0a = false) (a b : List UInt8) :
    (a ++ 0x0a :: b).takeWhile p = a.takeWhile p ∧ (a ++ 0x0a :: b).dropWhile p = a.dropWhile p ++ 0x0a :: b := by
  induction a with
  | nil => simp [hp]
  | cons x a ih =>
    simp only [List.cons_append, List.takeWhile_cons, List.dropWhile_cons]
    split
    · exact ⟨by rw [ih.1], ih.2⟩
    · exact ⟨rfl, rfl⟩

theorem mem_takeWhile_imp' {p : UInt8 → Bool} : ∀ {s : List UInt8} {x : UInt8}, x ∈ s.takeWhile p → p x = true
  | [], x, h => by cases h
  | b :: s, x, h => by
    rw [List.takeWhile_cons] at h
    split at h
    · next hb =>
      rcases List.mem_cons.mp h with rfl | h
      · exact hb
      · exact mem_takeWhile_imp' h
    · cases h

theorem dropWhile_len (p : UInt8 → Bool) (s : List UInt8) : (s.dropWhile p).length ≤ s.length := by
  have := congrArg List.length (List.takeWhile_append_dropWhile (p := p) (l := s))
  rw [List.length_append] at this; omega

/-- After a separator that is not a line end, white space follows. -/
theorem dropWhile_sep {s : List UInt8} {c : UInt8} {u : List UInt8} (e : s.dropWhile nonsep = c :: u) : Sep c = true := by
  have := List.head?_dropWhile_not nonsep s
  rw [e] at this
  simpa [nonsep] using this

theorem sep_blank {c : UInt8} (h : Sep c = true) (h1 : c ≠ 0x0d) (h2 : c ≠ 0x0a) : blank c = true := by
  simp only [Sep, blank, Bool.or_eq_true, beq_iff_eq] at *
  rcases h with ((h | h) | h) | h
  · exact Or.inl h
  · exact Or.inr h
  · exact absurd h h2
  · exact absurd h h1

theorem dropWhile_blank_lt {c : UInt8} {u : List UInt8} (h : blank c = true) : ((c :: u).dropWhile blank).length ≤ u.length := by
  rw [List.dropWhile_cons, if_pos h]; exact dropWhile_len _ _

/-- The parts of one round. -/
theorem round_length {s : List UInt8} (hs : s ≠ []) : (s.dropWhile nonsep).length < s.length ∨
    ∃ c u, s = c :: u ∧ s.dropWhile nonsep = c :: u := by
  match s, hs with
  | c :: u, _ =>
    by_cases hc : nonsep c
    · left
      rw [List.dropWhile_cons, if_pos hc]
      have := dropWhile_len nonsep u
      simp; omega
    · right
      exact ⟨c, u, rfl, by rw [List.dropWhile_cons, if_neg hc]⟩

theorem after_congr {k k' : List UInt8 → List UInt8 → List (List UInt8)} {n : Nat} {t : List UInt8} (line : List UInt8)
    (ht : t.length ≤ n + 1) (hsep : ∀ c u, t = c :: u → Sep c = true) (h : ∀ l r, r.length ≤ n → k l r = k' l r) :
    after k line t = after k' line t := by
  cases t with
  | nil => exact h _ _ (Nat.zero_le _)
  | cons c u =>
    have hu : u.length ≤ n := by simpa using ht
    simp only [after]
    split
    · exact h _ _ hu
    · split
      · rw [h _ _ hu]
      · next h1 h2 => exact h _ _ (Nat.le_trans (dropWhile_blank_lt (sep_blank (hsep c u rfl) h1 h2)) hu)

theorem outLines_fuel (limit : Nat) : ∀ (n m : Nat) (line s : List UInt8), s.length ≤ n → s.length ≤ m →
    outLines limit n line s = outLines limit m line s
  | n, m, line, [], _, _ => by cases n <;> cases m <;> simp [outLines]
  | 0, m, line, c :: s, h, _ => by simp at h
  | n, 0, line, c :: s, _, h => by simp at h
  | n + 1, m + 1, line, c :: s, h1, h2 => by
    rw [outLines, outLines, if_neg (by simp), if_neg (by simp)]
    simp only
    congr 1
    have hl : ((c :: s).dropWhile nonsep).length ≤ (c :: s).length := dropWhile_len _ _
    refine after_congr (n := s.length) _ (by simpa using hl) (fun _ _ e => dropWhile_sep e) ?_
    intro l r hr
    exact outLines_fuel limit n m l r (by simp at h1; omega) (by simp at h2; omega)

theorem outLines_lf (limit : Nat) (b : List UInt8) : ∀ (n : Nat) (line a : List UInt8), a.length ≤ n →
    outLines limit (n + 1 + b.length) line (a ++ 0x0a :: b) = outLines limit n line a ++ [] :: outLines limit b.length [] b
  | n, line, [], _ => by
    have e : outLines limit n line [] = ended line := by cases n <;> simp [outLines]
    rw [e, show n + 1 + b.length = (n + b.length) + 1 by omega, outLines, if_neg (by simp)]
    have h1 : ([] ++ 0x0a :: b : List UInt8).takeWhile nonsep = [] := rfl
    have h2 : ([] ++ 0x0a :: b : List UInt8).dropWhile nonsep = 0x0a :: b := rfl
    simp only [h1, h2]
    have h3 : ∀ l, after (outLines limit (n + b.length)) l (0x0a :: b) = ended l ++ [] :: outLines limit b.length [] b := by
      intro l
      rw [after, if_neg (by decide), if_pos rfl, outLines_fuel limit (n + b.length) b.length [] b (by omega) (by omega)]
    rw [h3]
    by_cases ho : Over limit line []
    · have : line ≠ [] := by intro e; rw [e] at ho; simp [Over] at ho
      rw [if_pos ho, if_pos ho, ended, ended, if_pos rfl, if_neg this]; rfl
    · rw [if_neg ho, if_neg ho, List.append_nil]; rfl
  | 0, line, c :: a, h => by simp at h
  | n + 1, line, c :: a, h => by
    rw [show n + 1 + 1 + b.length = (n + 1 + b.length) + 1 by omega, outLines, outLines, if_neg (by simp), if_neg (by simp)]
    simp only
    obtain ⟨e1, e2⟩ := takeWhile_lf (p := nonsep) (by decide) (c :: a) b
    rw [e1, e2]
    have hl : ((c :: a).dropWhile nonsep).length ≤ n + 1 := Nat.le_trans (dropWhile_len _ _) h
    have hsep := fun x u (e : (c :: a).dropWhile nonsep = x :: u) => dropWhile_sep e
    rw [List.append_assoc]
    congr 1
    generalize (if Over limit line ((c :: a).takeWhile nonsep) then (c :: a).takeWhile nonsep else line ++ (c :: a).takeWhile nonsep) = line1
    generalize (c :: a).dropWhile nonsep = t at *
    cases t with
    | nil =>
      rw [List.nil_append, after, after, if_neg (by decide), if_pos rfl,
        outLines_fuel limit (n + 1 + b.length) b.length [] b (by omega) (by omega)]
      have e : outLines limit n line1 [] = ended line1 := by cases n <;> simp [outLines]
      rw [e]
    | cons x u =>
      have hu : u.length ≤ n := by simpa using hl
      rw [List.cons_append, after, after]
      split
      · exact outLines_lf limit b n _ u hu
      · split
        · rw [outLines_lf limit b n _ u hu]; simp
        · next h1 h2 =>
          obtain ⟨e3, e4⟩ := takeWhile_lf (p := blank) (by decide) (x :: u) b
          rw [List.cons_append] at e3 e4
          rw [e3, e4]
          exact outLines_lf limit b n _ _ (Nat.le_trans (dropWhile_blank_lt (sep_blank (hsep x u rfl) h1 h2)) hu)

/-! ## Words -/

theorem words_sep_cons {b : UInt8} (h : Sep b = true) (s : List UInt8) : words (b :: s) = words s := by
  rw [words, if_pos h]

/-- Words of two parts that meet at a separator. -/
theorem words_append : ∀ (a b : List UInt8), (a = [] ∨ b = [] ∨ (∃ x, a.getLast? = some x ∧ Sep x = true) ∨
    (∃ x, b.head? = some x ∧ Sep x = true)) → words (a ++ b) = words a ++ words b
  | [], b, _ => by simp [words]
  | x :: a, b, h => by
    by_cases hb : b = []
    · subst hb; simp [words]
    · cases a with
      | nil =>
        by_cases hx : Sep x = true
        · rw [List.cons_append, List.nil_append, words_sep_cons hx, words_sep_cons hx]; simp [words]
        · have : ∃ y, b.head? = some y ∧ Sep y = true := by
            rcases h with h | h | ⟨y, h1, h2⟩ | h
            · cases h
            · exact absurd h hb
            · simp at h1; subst h1; exact absurd h2 hx
            · exact h
          obtain ⟨y, h1, h2⟩ := this
          rw [List.cons_append, List.nil_append, words, if_neg hx, h1]
          simp only [if_pos h2]
          simp [words, hx]
      | cons y a =>
        have ih := words_append (y :: a) b (by
          rcases h with h | h | ⟨z, h1, h2⟩ | h
          · cases h
          · exact Or.inr (Or.inl h)
          · rw [List.getLast?_cons_cons] at h1; exact Or.inr (Or.inr (Or.inl ⟨z, h1, h2⟩))
          · exact Or.inr (Or.inr (Or.inr h)))
        by_cases hx : Sep x = true
        · rw [List.cons_append, words_sep_cons hx, words_sep_cons hx, ih]
        · rw [List.cons_append, words, if_neg hx, words, if_neg hx]
          simp only [List.cons_append, List.head?_cons] at ih ⊢
          by_cases hy : Sep y = true
          · simp only [if_pos hy, ih, List.cons_append]
          · simp only [if_neg hy]
            rw [ih]
            have hne : words (y :: a) ≠ [] := by
              rw [words, if_neg hy]
              split
              · simp
              · split
                · simp
                · split <;> simp
            cases hw : words (y :: a) with
            | nil => exact absurd hw hne
            | cons w ws => rfl

theorem words_seps : ∀ {s : List UInt8}, (∀ b ∈ s, Sep b = true) → words s = []
  | [], _ => rfl
  | b :: s, h => by rw [words_sep_cons (h b (by simp)), words_seps fun x hx => h x (by simp [hx])]

theorem words_word : ∀ {w : List UInt8}, w ≠ [] → (∀ b ∈ w, Sep b = false) → words w = [w]
  | [b], _, h => by simp [words, h b (by simp)]
  | b :: c :: w, _, h => by
    rw [words, if_neg (by simp [h b (by simp)])]
    simp only [List.head?_cons]
    rw [if_neg (by simp [h c (by simp)]), words_word (by simp) fun x hx => h x (by simp [hx])]

theorem words_surround {a t b : List UInt8} (ha : ∀ x ∈ a, Sep x = true) (hb : ∀ x ∈ b, Sep x = true) :
    words (a ++ t ++ b) = words t := by
  have h1 : words (a ++ t ++ b) = words (a ++ t) ++ words b := by
    refine words_append _ _ ?_
    cases b with
    | nil => exact Or.inr (Or.inl rfl)
    | cons y b => exact Or.inr (Or.inr (Or.inr ⟨y, rfl, hb y (by simp)⟩))
  have h2 : words (a ++ t) = words a ++ words t := by
    refine words_append _ _ ?_
    rcases List.eq_nil_or_concat a with rfl | ⟨a', y, rfl⟩
    · exact Or.inl rfl
    · exact Or.inr (Or.inr (Or.inl ⟨y, by simp, ha y (by simp)⟩))
  rw [h1, h2, words_seps ha, words_seps hb]; simp

theorem Plain.sub {a b : List UInt8} (hb : Plain b) (h : ∀ x ∈ a, x ∈ b) : Plain a := fun x hx => hb x (h x hx)

theorem words_btrim {s : List UInt8} (h : Plain s) : words (btrim s) = words s := by
  obtain ⟨a, b, e, ha, hb, -⟩ := (trim_ascii h.ascii).2
  conv => rhs; rw [e]
  refine (words_surround ?_ ?_).symm
  · intro x hx; exact (h.white (by rw [e]; simp [hx])).mp (ha x hx)
  · intro x hx; exact (h.white (by rw [e]; simp [hx])).mp (hb x hx)

theorem Plain.append {a b : List UInt8} (ha : Plain a) (hb : Plain b) : Plain (a ++ b) := by
  intro x hx; rcases List.mem_append.mp hx with h | h
  · exact ha x h
  · exact hb x h

theorem words_ended {line : List UInt8} (h : Plain line) : (ended line).flatMap words = words line := by
  unfold ended
  split
  · next e => rw [e]; rfl
  · simp [words_btrim h]

theorem CrLf.tail {b : UInt8} {s : List UInt8} (h : CrLf (b :: s)) : CrLf s := h.2

theorem CrLf.drop (p : UInt8 → Bool) : ∀ {s : List UInt8}, CrLf s → CrLf (s.dropWhile p)
  | [], h => h
  | b :: s, h => by
    rw [List.dropWhile_cons]
    split
    · exact CrLf.drop p h.2
    · exact h

/-- Where a line may be continued. -/
def Joint (line rest : List UInt8) : Prop :=
  line = [] ∨ rest = [] ∨ (∃ x, line.getLast? = some x ∧ Sep x = true) ∨ (∃ x, rest.head? = some x ∧ Sep x = true)

theorem outLines_words (limit : Nat) : ∀ (n : Nat) (line s : List UInt8), s.length ≤ n → Plain line → Plain s → CrLf s → Joint line s →
    (outLines limit n line s).flatMap words = words line ++ words s
  | n, line, [], _, hl, _, _, _ => by
    have e : outLines limit n line [] = ended line := by cases n <;> simp [outLines]
    rw [e, words_ended hl]; simp [words]
  | 0, line, c :: s, h, _, _, _, _ => by simp at h
  | n + 1, line, c :: s, h, hl, hs, hc, hj => by
    rw [outLines, if_neg (by simp)]
    simp only
    rw [← words_append line (c :: s) hj]
    have hsplit : c :: s = (c :: s).takeWhile nonsep ++ (c :: s).dropWhile nonsep := (List.takeWhile_append_dropWhile).symm
    have hdl : ((c :: s).dropWhile nonsep).length ≤ n + 1 := Nat.le_trans (dropWhile_len _ _) h
    have hsep := fun x u (e : (c :: s).dropWhile nonsep = x :: u) => dropWhile_sep e
    have hw : Plain ((c :: s).takeWhile nonsep) := hs.sub fun x hx => List.mem_of_mem_takeWhile' hx
    have ht : Plain ((c :: s).dropWhile nonsep) := hs.sub fun x hx => List.mem_of_mem_dropWhile' hx
    have hct : CrLf ((c :: s).dropWhile nonsep) := hc.drop _
    -- the words so far and the line after the word
    have hpre : (if Over limit line ((c :: s).takeWhile nonsep) then [btrim line] else []).flatMap words ++
        words ((if Over limit line ((c :: s).takeWhile nonsep) then (c :: s).takeWhile nonsep else line ++ (c :: s).takeWhile nonsep) ++
          (c :: s).dropWhile nonsep) = words (line ++ c :: s) := by
      by_cases ho : Over limit line ((c :: s).takeWhile nonsep)
      · simp only [if_pos ho, List.flatMap_cons, List.flatMap_nil, List.append_nil, words_btrim hl]
        rw [← hsplit, words_append line (c :: s) hj]
      · simp only [if_neg ho, List.flatMap_nil, List.nil_append]
        rw [List.append_assoc, ← hsplit]
    rw [List.flatMap_append, ← hpre]
    congr 1
    have hline : Plain (if Over limit line ((c :: s).takeWhile nonsep) then (c :: s).takeWhile nonsep else line ++ (c :: s).takeWhile nonsep) := by
      split
      · exact hw
      · exact hl.append hw
    clear hpre
    generalize (if Over limit line ((c :: s).takeWhile nonsep) then (c :: s).takeWhile nonsep else line ++ (c :: s).takeWhile nonsep) = line1 at *
    generalize (c :: s).dropWhile nonsep = t at *
    cases t with
    | nil =>
      rw [after, outLines_words limit n line1 [] (Nat.zero_le _) hline (fun x hx => by cases hx) trivial (Or.inr (Or.inl rfl))]
      simp [words]
    | cons x u =>
      have hu : u.length ≤ n := by simpa using hdl
      have hup : Plain u := ht.sub fun y hy => by simp [hy]
      have hx := hsep x u rfl
      rw [words_append line1 (x :: u) (Or.inr (Or.inr (Or.inr ⟨x, rfl, hx⟩))), words_sep_cons hx, after]
      split
      · next h1 =>
        refine outLines_words limit n line1 u hu hline hup hct.tail (Or.inr (Or.inr (Or.inr ⟨0x0a, hct.1 h1, rfl⟩)))
      · split
        · rw [List.flatMap_append, words_ended hline, List.flatMap_cons,
            outLines_words limit n [] u hu (fun x hx => by cases hx) hup hct.tail (Or.inl rfl)]
          simp [words]
        · next h1 h2 =>
          have hb := sep_blank hx h1 h2
          have hbs : ∀ y ∈ (x :: u).takeWhile blank, Sep y = true := by
            intro y hy
            have := mem_takeWhile_imp' hy
            simp only [blank, Sep, Bool.or_eq_true, beq_iff_eq] at *
            rcases this with h | h
            · exact Or.inl (Or.inl (Or.inl h))
            · exact Or.inl (Or.inl (Or.inr h))
          have hbp : Plain ((x :: u).takeWhile blank) := ht.sub fun y hy => List.mem_of_mem_takeWhile' hy
          rw [outLines_words limit n _ _ (Nat.le_trans (dropWhile_blank_lt hb) hu) (hline.append hbp)
            (ht.sub fun y hy => List.mem_of_mem_dropWhile' hy) (hct.drop _) (Or.inr (Or.inr (Or.inl ?_)))]
          · have e1 : words (line1 ++ (x :: u).takeWhile blank) = words line1 := by
              have := words_surround (a := []) (t := line1) (b := (x :: u).takeWhile blank) (by simp) hbs
              simpa using this
            have e2 : words u = words ((x :: u).dropWhile blank) := by
              rw [← words_sep_cons hx u]
              conv => lhs; rw [← List.takeWhile_append_dropWhile (p := blank) (l := x :: u)]
              have := words_surround (a := (x :: u).takeWhile blank) (t := (x :: u).dropWhile blank) (b := []) hbs (by simp)
              simpa using this
            rw [e1, e2]
          · have hne : (x :: u).takeWhile blank ≠ [] := by rw [List.takeWhile_cons, if_pos hb]; simp
            obtain ⟨y, hy⟩ : ∃ y, ((x :: u).takeWhile blank).getLast? = some y := by
              cases hg : ((x :: u).takeWhile blank).getLast? with
              | none => exact absurd (List.getLast?_eq_none_iff.mp hg) hne
              | some y => exact ⟨y, rfl⟩
            exact ⟨y, by rw [List.getLast?_append, hy]; rfl, hbs y (List.mem_of_getLast? hy)⟩

/-! ## Widths -/

theorem btrim_of_trimmed {s t : List UInt8} (h : AsciiBytes s) (ht : Trimmed byteCode s t) : btrim s = t :=
  trimmed_unique (trim_ascii h).2 ht

theorem btrim_length {s : List UInt8} (h : AsciiBytes s) : (btrim s).length ≤ s.length := by
  obtain ⟨a, b, e, -⟩ := (trim_ascii h).2
  have := congrArg List.length e
  simp only [List.length_append] at this; omega

theorem btrim_blanks {s b : List UInt8} (h : Plain s) (hb : Plain b) (hs : ∀ x ∈ b, Sep x = true) : btrim (s ++ b) = btrim s := by
  refine btrim_of_trimmed (h.append hb).ascii ?_
  obtain ⟨a, b', e, ha, hb', h1, h2⟩ := (trim_ascii h.ascii).2
  refine ⟨a, b' ++ b, ?_, ha, ?_, h1, h2⟩
  · conv => lhs; rw [e]
    simp
  · intro x hx
    rcases List.mem_append.mp hx with hx | hx
    · exact hb' x hx
    · exact (hb.white hx).mpr (hs x hx)

theorem btrim_word {w : List UInt8} (h : Plain w) (hs : ∀ x ∈ w, Sep x = false) : btrim w = w := by
  refine btrim_of_trimmed h.ascii ⟨[], [], by simp, by simp, by simp, ?_, ?_⟩
  · intro x hx hw
    have hm := List.mem_of_head? hx
    have := (h.white hm).mp hw
    rw [hs x hm] at this; cases this
  · intro x hx hw
    have hm := List.mem_of_getLast? hx
    have := (h.white hm).mp hw
    rw [hs x hm] at this; cases this

/-- A line that is not too long, or is a single word. -/
def Fits (limit : Nat) (l : List UInt8) : Prop := l.length ≤ limit ∨ words l = [l]

theorem outLines_width (limit : Nat) : ∀ (n : Nat) (line s : List UInt8), s.length ≤ n → Plain line → Plain s → Fits limit (btrim line) →
    ∀ l ∈ outLines limit n line s, Fits limit l
  | n, line, [], _, _, _, hf => by
    have e : outLines limit n line [] = ended line := by cases n <;> simp [outLines]
    rw [e, ended]
    split
    · simp
    · intro l hl; rw [List.mem_singleton.mp hl]; exact hf
  | 0, line, c :: s, h, _, _, _ => by simp at h
  | n + 1, line, c :: s, h, hl, hs, hf => by
    rw [outLines, if_neg (by simp)]
    simp only
    have hdl : ((c :: s).dropWhile nonsep).length ≤ n + 1 := Nat.le_trans (dropWhile_len _ _) h
    have hsep := fun x u (e : (c :: s).dropWhile nonsep = x :: u) => dropWhile_sep e
    have hw : Plain ((c :: s).takeWhile nonsep) := hs.sub fun x hx => List.mem_of_mem_takeWhile' hx
    have hws : ∀ x ∈ (c :: s).takeWhile nonsep, Sep x = false := by
      intro x hx; simpa [nonsep] using mem_takeWhile_imp' hx
    have ht : Plain ((c :: s).dropWhile nonsep) := hs.sub fun x hx => List.mem_of_mem_dropWhile' hx
    have hline : Plain (if Over limit line ((c :: s).takeWhile nonsep) then (c :: s).takeWhile nonsep else line ++ (c :: s).takeWhile nonsep) := by
      split
      · exact hw
      · exact hl.append hw
    have hwf : Fits limit (btrim ((c :: s).takeWhile nonsep)) := by
      rw [btrim_word hw hws]
      by_cases he : (c :: s).takeWhile nonsep = []
      · left; rw [he]; simp
      · exact Or.inr (words_word he hws)
    have hf1 : Fits limit (btrim (if Over limit line ((c :: s).takeWhile nonsep) then (c :: s).takeWhile nonsep else line ++ (c :: s).takeWhile nonsep)) := by
      by_cases ho : Over limit line ((c :: s).takeWhile nonsep)
      · rw [if_pos ho]; exact hwf
      · rw [if_neg ho]
        by_cases he : line = []
        · rw [he, List.nil_append]; exact hwf
        · left
          have := List.length_pos_iff.mpr he
          have hle : line.length + ((c :: s).takeWhile nonsep).length ≤ limit := by
            rcases Nat.lt_or_ge limit (line.length + ((c :: s).takeWhile nonsep).length) with h | h
            · exact absurd ⟨this, h⟩ ho
            · exact h
          refine Nat.le_trans (btrim_length (hl.append hw).ascii) ?_
          rw [List.length_append]; exact hle
    intro l hl0
    rcases List.mem_append.mp hl0 with hl' | hl'
    · split at hl'
      · rw [List.mem_singleton.mp hl']; exact hf
      · cases hl'
    · clear hl0
      revert l hl'
      generalize (if Over limit line ((c :: s).takeWhile nonsep) then (c :: s).takeWhile nonsep else line ++ (c :: s).takeWhile nonsep) = line1 at *
      generalize (c :: s).dropWhile nonsep = t at *
      cases t with
      | nil =>
        exact fun l hl' => outLines_width limit n line1 [] (Nat.zero_le _) hline (fun x hx => by cases hx) hf1 l hl'
      | cons x u =>
        have hu : u.length ≤ n := by simpa using hdl
        have hup : Plain u := ht.sub fun y hy => by simp [hy]
        have hx := hsep x u rfl
        rw [after]
        split
        · exact outLines_width limit n line1 u hu hline hup hf1
        · split
          · intro l hl'
            rcases List.mem_append.mp hl' with hl' | hl'
            · rw [ended] at hl'
              split at hl'
              · cases hl'
              · rw [List.mem_singleton.mp hl']; exact hf1
            · rcases List.mem_cons.mp hl' with rfl | hl'
              · left; simp
              · exact outLines_width limit n [] u hu (fun x hx => by cases hx) hup (Or.inl (by
                  have := btrim_length (s := []) (fun x hx => by cases hx); simp at this; simp [this])) l hl'
          · next h1 h2 =>
            have hb := sep_blank hx h1 h2
            have hbs : ∀ y ∈ (x :: u).takeWhile blank, Sep y = true := by
              intro y hy
              have := mem_takeWhile_imp' hy
              simp only [blank, Sep, Bool.or_eq_true, beq_iff_eq] at *
              rcases this with h | h
              · exact Or.inl (Or.inl (Or.inl h))
              · exact Or.inl (Or.inl (Or.inr h))
            have hbp : Plain ((x :: u).takeWhile blank) := ht.sub fun y hy => List.mem_of_mem_takeWhile' hy
            refine outLines_width limit n _ _ (Nat.le_trans (dropWhile_blank_lt hb) hu) (hline.append hbp)
              (ht.sub fun y hy => List.mem_of_mem_dropWhile' hy) ?_
            rw [btrim_blanks hline hbp hbs]; exact hf1

/-! ## Words separated by single spaces -/

theorem takeWhile_word {w r : List UInt8} (hs : ∀ x ∈ w, Sep x = false) (hr : ∀ x, r.head? = some x → Sep x = true) :
    (w ++ r).takeWhile nonsep = w ∧ (w ++ r).dropWhile nonsep = r := by
  induction w with
  | nil =>
    cases r with
    | nil => exact ⟨rfl, rfl⟩
    | cons x r => simp [nonsep, hr x rfl]
  | cons x w ih =>
    have := ih fun y hy => hs y (by simp [hy])
    simp [nonsep, hs x (by simp)] at *
    exact this

theorem btrim_self {l : List UInt8} (h : Plain l) (h1 : ∀ x, l.head? = some x → Sep x = false) (h2 : ∀ x, l.getLast? = some x → Sep x = false) :
    btrim l = l := by
  refine btrim_of_trimmed h.ascii ⟨[], [], by simp, by simp, by simp, ?_, ?_⟩
  · intro x hx hw
    have := (h.white (List.mem_of_head? hx)).mp hw
    rw [h1 x hx] at this; cases this
  · intro x hx hw
    have := (h.white (List.mem_of_getLast? hx)).mp hw
    rw [h2 x hx] at this; cases this

/-- A line of a filled text. -/
structure Line (l : List UInt8) : Prop where
  ne : l ≠ []
  plain : Plain l
  head : ∀ x, l.head? = some x → Sep x = false
  last : ∀ x, l.getLast? = some x → Sep x = false

/-- A word of a filled text. -/
structure Word (w : List UInt8) : Prop where
  ne : w ≠ []
  plain : Plain w
  nosep : ∀ x ∈ w, Sep x = false

theorem Word.line {w : List UInt8} (h : Word w) : Line w :=
  ⟨h.ne, h.plain, fun x hx => h.nosep x (List.mem_of_head? hx), fun x hx => h.nosep x (List.mem_of_getLast? hx)⟩

theorem plain_space : Plain [0x20] := by intro x hx; rw [List.mem_singleton.mp hx]; decide

theorem Line.join {l w : List UInt8} (h : Line l) (hw : Word w) : Line (l ++ [0x20] ++ w) := by
  refine ⟨by simp [h.ne], (h.plain.append plain_space).append hw.plain, ?_, ?_⟩
  · intro x hx
    rw [List.append_assoc, List.head?_append_of_ne_nil' h.ne] at hx
    exact h.head x hx
  · intro x hx
    rw [List.getLast?_append] at hx
    cases hg : w.getLast? with
    | none => exact absurd (List.getLast?_eq_none_iff.mp hg) hw.ne
    | some y =>
      rw [hg] at hx
      simp at hx; subst hx
      exact hw.line.last y hg

theorem outLines_fill (limit : Nat) : ∀ (ws : List (List UInt8)) (n : Nat) (cur w : List UInt8), Line cur → Word w → (∀ w ∈ ws, Word w) →
    ([0x20].intercalate (w :: ws)).length ≤ n →
    outLines limit n (cur ++ [0x20]) ([0x20].intercalate (w :: ws)) = fillFrom limit cur (w :: ws)
  | ws, 0, cur, w, _, hw, _, hn => by
    have := List.length_pos_iff.mpr hw.ne
    cases ws <;> simp [List.intercalate, List.intersperse] at hn <;> simp_all
  | [], n + 1, cur, w, hc, hw, _, hn => by
    have e : [0x20].intercalate [w] = w ++ [] := by simp
    obtain ⟨e1, e2⟩ := takeWhile_word (w := w) (r := []) hw.nosep (by simp)
    rw [outLines, if_neg (by simp [hw.ne])]
    simp only
    rw [e, e1, e2, after]
    have e3 : ∀ l, outLines limit n l [] = ended l := by intro l; cases n <;> simp [outLines]
    rw [e3]
    have hb : btrim (cur ++ [0x20]) = cur := by
      rw [btrim_blanks hc.plain plain_space (by simp [Sep])]
      exact btrim_self hc.plain hc.head hc.last
    by_cases ho : cur.length + 1 + w.length ≤ limit
    · have hno : ¬ Over limit (cur ++ [0x20]) w := by simp [Over]; omega
      have hl := hc.join hw
      rw [if_neg hno, if_neg hno, fillFrom, if_pos ho, fillFrom, ended, if_neg hl.ne, btrim_self hl.plain hl.head hl.last]; rfl
    · have hov : Over limit (cur ++ [0x20]) w := by simp [Over]; omega
      rw [if_pos hov, if_pos hov, fillFrom, if_neg ho, fillFrom, hb, ended, if_neg hw.ne, btrim_self hw.plain hw.line.head hw.line.last]; rfl
  | w2 :: ws, n + 1, cur, w, hc, hw, hws, hn => by
    have hw2 := hws w2 (by simp)
    have e : [0x20].intercalate (w :: w2 :: ws) = w ++ (0x20 :: [0x20].intercalate (w2 :: ws)) := by
      simp [List.intercalate, List.intersperse]
    obtain ⟨e1, e2⟩ := takeWhile_word (w := w) (r := 0x20 :: [0x20].intercalate (w2 :: ws)) hw.nosep (by
      intro x hx; simp at hx; subst hx; rfl)
    have hstart : ∃ b v, [0x20].intercalate (w2 :: ws) = b :: v ∧ Sep b = false := by
      have hne := hw2.ne
      match w2, hne with
      | b :: w2, _ =>
        cases ws with
        | nil => exact ⟨b, w2, by simp, hw2.nosep b (by simp)⟩
        | cons w3 ws => exact ⟨b, w2 ++ (0x20 :: [0x20].intercalate (w3 :: ws)), by simp [List.intercalate, List.intersperse], hw2.nosep b (by simp)⟩
    obtain ⟨b, v, hbv, hbs⟩ := hstart
    have hbb : blank b = false := by
      simp only [Sep, blank, Bool.or_eq_false_iff] at *
      exact hbs.1.1
    have hlen : ([0x20].intercalate (w2 :: ws)).length ≤ n := by
      have := List.length_pos_iff.mpr hw.ne
      rw [e] at hn; simp only [List.length_append, List.length_cons] at hn; omega
    rw [outLines, if_neg (by rw [e]; simp)]
    simp only
    have e6 : ∀ k l, after k l (0x20 :: [0x20].intercalate (w2 :: ws)) =
        k (l ++ (0x20 :: [0x20].intercalate (w2 :: ws)).takeWhile blank) ((0x20 :: [0x20].intercalate (w2 :: ws)).dropWhile blank) := by
      intro k l
      rw [after, if_neg (by decide), if_neg (by decide)]
    rw [e, e1, e2, e6]
    have e4 : (0x20 :: [0x20].intercalate (w2 :: ws)).takeWhile blank = [0x20] := by
      rw [List.takeWhile_cons, if_pos (by rfl), hbv, List.takeWhile_cons, if_neg (by simp [hbb])]
    have e5 : (0x20 :: [0x20].intercalate (w2 :: ws)).dropWhile blank = [0x20].intercalate (w2 :: ws) := by
      rw [List.dropWhile_cons, if_pos (by rfl), hbv, List.dropWhile_cons, if_neg (by simp [hbb])]
    rw [e4, e5]
    have hb : btrim (cur ++ [0x20]) = cur := by
      rw [btrim_blanks hc.plain plain_space (by simp [Sep])]
      exact btrim_self hc.plain hc.head hc.last
    have hws' : ∀ w ∈ ws, Word w := fun x hx => hws x (by simp [hx])
    by_cases ho : cur.length + 1 + w.length ≤ limit
    · have hno : ¬ Over limit (cur ++ [0x20]) w := by simp [Over]; omega
      rw [if_neg hno, if_neg hno, fillFrom, if_pos ho, List.nil_append]
      exact outLines_fill limit ws n _ w2 (hc.join hw) hw2 hws' hlen
    · have hov : Over limit (cur ++ [0x20]) w := by simp [Over]; omega
      rw [if_pos hov, if_pos hov, fillFrom, if_neg ho, hb, outLines_fill limit ws n w w2 hw.line hw2 hws' hlen]; rfl

theorem outLines_fill_start (limit : Nat) (ws : List (List UInt8)) (hws : ∀ w ∈ ws, Word w) (n : Nat) (hn : ([0x20].intercalate ws).length ≤ n) :
    outLines limit n [] ([0x20].intercalate ws) = fill limit ws := by
  match ws, n with
  | [], n =>
    have e3 : ∀ l, outLines limit n l [] = ended l := by intro l; cases n <;> simp [outLines]
    have : [0x20].intercalate ([] : List (List UInt8)) = [] := rfl
    rw [this, e3]; rfl
  | w :: ws, 0 =>
    have := List.length_pos_iff.mpr (hws w (by simp)).ne
    cases ws <;> simp [List.intercalate, List.intersperse] at hn <;> simp_all
  | [w], n + 1 =>
    have hw := hws w (by simp)
    have e : [0x20].intercalate [w] = w ++ [] := by simp
    obtain ⟨e1, e2⟩ := takeWhile_word (w := w) (r := []) hw.nosep (by simp)
    rw [outLines, if_neg (by simp [hw.ne])]
    simp only
    rw [e, e1, e2, after]
    have e3 : ∀ l, outLines limit n l [] = ended l := by intro l; cases n <;> simp [outLines]
    have hno : ¬ Over limit [] w := by simp [Over]
    rw [e3, if_neg hno, if_neg hno, List.nil_append, List.nil_append, ended, if_neg hw.ne, btrim_self hw.plain hw.line.head hw.line.last]
    rfl
  | w :: w2 :: ws, n + 1 =>
    have hw := hws w (by simp)
    have hw2 := hws w2 (by simp)
    have e : [0x20].intercalate (w :: w2 :: ws) = w ++ (0x20 :: [0x20].intercalate (w2 :: ws)) := by
      simp [List.intercalate, List.intersperse]
    obtain ⟨e1, e2⟩ := takeWhile_word (w := w) (r := 0x20 :: [0x20].intercalate (w2 :: ws)) hw.nosep (by
      intro x hx; simp at hx; subst hx; rfl)
    have hstart : ∃ b v, [0x20].intercalate (w2 :: ws) = b :: v ∧ Sep b = false := by
      have hne := hw2.ne
      match w2, hne with
      | b :: w2, _ =>
        cases ws with
        | nil => exact ⟨b, w2, by simp, hw2.nosep b (by simp)⟩
        | cons w3 ws => exact ⟨b, w2 ++ (0x20 :: [0x20].intercalate (w3 :: ws)), by simp [List.intercalate, List.intersperse], hw2.nosep b (by simp)⟩
    obtain ⟨b, v, hbv, hbs⟩ := hstart
    have hbb : blank b = false := by
      simp only [Sep, blank, Bool.or_eq_false_iff] at *
      exact hbs.1.1
    have hlen : ([0x20].intercalate (w2 :: ws)).length ≤ n := by
      have := List.length_pos_iff.mpr hw.ne
      rw [e] at hn; simp only [List.length_append, List.length_cons] at hn; omega
    rw [outLines, if_neg (by rw [e]; simp)]
    simp only
    have e6 : ∀ k l, after k l (0x20 :: [0x20].intercalate (w2 :: ws)) =
        k (l ++ (0x20 :: [0x20].intercalate (w2 :: ws)).takeWhile blank) ((0x20 :: [0x20].intercalate (w2 :: ws)).dropWhile blank) := by
      intro k l
      rw [after, if_neg (by decide), if_neg (by decide)]
    rw [e, e1, e2, e6]
    have e4 : (0x20 :: [0x20].intercalate (w2 :: ws)).takeWhile blank = [0x20] := by
      rw [List.takeWhile_cons, if_pos (by rfl), hbv, List.takeWhile_cons, if_neg (by simp [hbb])]
    have e5 : (0x20 :: [0x20].intercalate (w2 :: ws)).dropWhile blank = [0x20].intercalate (w2 :: ws) := by
      rw [List.dropWhile_cons, if_pos (by rfl), hbv, List.dropWhile_cons, if_neg (by simp [hbb])]
    have hno : ¬ Over limit [] w := by simp [Over]
    rw [e4, e5, if_neg hno, if_neg hno, List.nil_append, List.nil_append,
      outLines_fill limit ws n w w2 hw.line hw2 (fun x hx => hws x (by simp [hx])) hlen]
    rfl

end Text
end Duck
