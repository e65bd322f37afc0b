import Verif.Spec.File
namespace Duck
namespace File
open Data (Origin)

theorem getElem?_put (b : List UInt8) (o : Nat) (bs : List UInt8) (i : Nat) :
    (put b o bs)[i]? = if i < max b.length (o + bs.length) then some (if o ≤ i ∧ i < o + bs.length then bs.getD (i - o) 0 else b.getD i 0) else none := by
  unfold put
  rw [List.getElem?_map]
  split
  · next h => rw [List.getElem?_range h]; rfl
  · next h => rw [List.getElem?_eq_none (by simpa using h)]; rfl

theorem length_put (b : List UInt8) (o : Nat) (bs : List UInt8) : (put b o bs).length = max b.length (o + bs.length) := by
  simp [put]

theorem getD_put (b : List UInt8) (o : Nat) (bs : List UInt8) (i : Nat) :
    (put b o bs).getD i 0 = if o ≤ i ∧ i < o + bs.length then bs.getD (i - o) 0 else b.getD i 0 := by
  rw [List.getD_eq_getElem?_getD, getElem?_put]
  split
  · rfl
  · next h =>
    rw [if_neg (by omega), Option.getD_none, List.getD_eq_getElem?_getD, List.getElem?_eq_none (by omega)]; rfl

/-- Two lists of bytes with the same length and bytes. -/
theorem eq_of_getD {a b : List UInt8} (hl : a.length = b.length) (h : ∀ i, i < a.length → a.getD i 0 = b.getD i 0) : a = b := by
  apply List.ext_getElem hl
  intro i h1 h2
  have := h i h1
  rw [List.getD_eq_getElem?_getD, List.getD_eq_getElem?_getD, List.getElem?_eq_getElem h1, List.getElem?_eq_getElem h2] at this
  exact this

theorem overwrite_put (b : List UInt8) (o : Nat) (bs : List UInt8) : overwrite b o bs = put b o bs := by
  have hl : (overwrite b o bs).length = max b.length (o + bs.length) := by
    simp only [overwrite, List.length_append, List.length_take, List.length_replicate, List.length_drop]; omega
  refine eq_of_getD (by rw [hl, length_put]) fun i hi => ?_
  rw [getD_put, overwrite]
  rw [hl] at hi
  simp only [List.getD_eq_getElem?_getD]
  have ht : ((b ++ List.replicate (o - b.length) 0).take o).length = o := by
    simp only [List.length_take, List.length_append, List.length_replicate]; omega
  by_cases h1 : i < o
  · rw [if_neg (by omega), List.append_assoc, List.getElem?_append_left (by rw [ht]; exact h1), List.getElem?_take_of_lt h1]
    by_cases h2 : i < b.length
    · rw [List.getElem?_append_left h2]
    · rw [List.getElem?_append_right (by omega), List.getElem?_eq_none (by omega : b.length ≤ i),
        List.getElem?_replicate]
      split <;> rfl
  · by_cases h2 : i < o + bs.length
    · rw [if_pos ⟨by omega, h2⟩, List.append_assoc, List.getElem?_append_right (by rw [ht]; omega), ht,
        List.getElem?_append_left (by omega)]
    · rw [if_neg (by omega), List.getElem?_append_right (by rw [List.length_append, ht]; omega), List.length_append, ht,
        List.getElem?_drop, show o + bs.length + (i - (o + bs.length)) = i by omega]

theorem put_put (b : List UInt8) (o : Nat) (p q : List UInt8) : put (put b o p) (o + p.length) q = put b o (p ++ q) := by
  refine eq_of_getD (by simp [length_put]; omega) fun i _ => ?_
  simp only [getD_put, List.length_append]
  by_cases h1 : o + p.length ≤ i ∧ i < o + p.length + q.length
  · rw [if_pos h1, if_pos (by omega)]
    simp only [List.getD_eq_getElem?_getD]
    rw [List.getElem?_append_right (by omega), show i - o - p.length = i - (o + p.length) by omega]
  · rw [if_neg h1]
    by_cases h2 : o ≤ i ∧ i < o + p.length
    · rw [if_pos h2, if_pos (by omega)]
      simp only [List.getD_eq_getElem?_getD]
      rw [List.getElem?_append_left (by omega)]
    · rw [if_neg h2, if_neg (by omega)]

theorem put_end (b q : List UInt8) : put b b.length q = b ++ q := by
  refine eq_of_getD (by simp [length_put]) fun i hi => ?_
  rw [length_put] at hi
  rw [getD_put]
  simp only [List.getD_eq_getElem?_getD]
  split
  · next h => rw [List.getElem?_append_right h.1]
  · next h => rw [List.getElem?_append_left (by omega)]

theorem put_nil_end (q : List UInt8) : put [] 0 q = q := put_end [] q

/-- Where buffered output goes. -/
def place (d : Disk) (s : Stream) (o : Nat) : Nat := if s.mode.appends then (d.bytes s.path).length else o

/-- The content of an open file: the disk and the buffer. -/
def logical (d : Disk) (s : Stream) : List UInt8 :=
  match s.pending with
  | none => d.bytes s.path
  | some (o, p) => put (d.bytes s.path) (place d s o) p

/-- The stream stands for the abstract file. -/
structure Holds (d : Disk) (s : Stream) (a : Abs) : Prop where
  mode : a.mode = s.mode
  error : a.error = s.error
  pos : a.pos = s.pos
  file : ∃ b, d s.path = some (.file b)
  content : a.content = logical d s
  pend : ∀ o p, s.pending = some (o, p) → s.last = .output ∧ s.pos = o + p.length ∧ place d s o = o

theorem bytes_set (d : Disk) (p : List UInt8) (b : List UInt8) : (d.set p (.file b)).bytes p = b := by
  simp [Disk.bytes, Disk.set]

theorem set_other (d : Disk) {p q : List UInt8} (n : Node) (h : q ≠ p) : d.set p n q = d q := by
  simp [Disk.set, h]

theorem flush_holds {d : Disk} {s : Stream} {a : Abs} (h : Holds d s a) :
    Holds (flush d s).1 (flush d s).2 a ∧ (flush d s).2.pending = none ∧ (flush d s).2.path = s.path ∧ (flush d s).2.last = s.last ∧
      ∀ q, q ≠ s.path → (flush d s).1 q = d q := by
  unfold flush
  cases hp : s.pending with
  | none => exact ⟨h, hp, rfl, rfl, fun _ _ => rfl⟩
  | some r =>
    obtain ⟨o, p⟩ := r
    refine ⟨⟨h.mode, h.error, h.pos, ⟨_, by simp [Disk.set]; rfl⟩, ?_, fun _ _ hh => by simp at hh⟩, rfl, rfl, rfl, fun q hq => set_other d _ hq⟩
    rw [h.content]
    simp only [logical, hp]
    rw [bytes_set, overwrite_put]; rfl

theorem goal_eq {d : Disk} {s : Stream} {a : Abs} (h : Holds d s a) (hp : s.pending = none) (offset : Int) (o : Origin) :
    a.goal offset o = target d s offset o := by
  have hc := h.content
  simp only [logical, hp] at hc
  cases o <;> simp [Abs.goal, target, h.pos, hc]

/-- One operation on an open file. -/
theorem step_holds {d : Disk} {f : Obj} {s : Stream} {a : Abs} (hf : f.file = some s) (h : Holds d s a) {op : Op} {d' : Disk} {f' : Obj} {out : Out}
    (hs : step d f op = some (d', f', out)) :
    ∃ s', f'.file = some s' ∧ s'.path = s.path ∧ Holds d' s' (a.step op).1 ∧ out = (a.step op).2 ∧ ∀ q, q ≠ s.path → d' q = d q := by
  unfold step at hs
  rw [hf] at hs
  cases op with
  | seek offset o =>
    simp only [Option.some.injEq, Prod.mk.injEq] at hs
    obtain ⟨rfl, rfl, rfl⟩ := hs
    obtain ⟨h1, h2, h3, h4, h5⟩ := flush_holds h
    refine ⟨_, rfl, ?_⟩
    have hg := goal_eq h1 h2 offset o
    unfold fseek
    simp only [Abs.step, hg]
    split
    · exact ⟨h3, h1, rfl, h5⟩
    · refine ⟨h3, ⟨h1.mode, h1.error, rfl, h1.file, h1.content, fun o p hh => ?_⟩, rfl, h5⟩
      simp only [h2] at hh; cases hh
  | tell =>
    simp only [Option.some.injEq, Prod.mk.injEq] at hs
    obtain ⟨rfl, rfl, rfl⟩ := hs
    exact ⟨s, hf, rfl, h, by simp only [Abs.step, h.pos], fun _ _ => rfl⟩
  | status =>
    simp only [Option.some.injEq, Prod.mk.injEq] at hs
    obtain ⟨rfl, rfl, rfl⟩ := hs
    exact ⟨s, hf, rfl, h, by simp only [Abs.step, h.error], fun _ _ => rfl⟩
  | read size count =>
    obtain ⟨⟨s', bs, n⟩, h1, h2⟩ := Option.map_eq_some_iff.mp hs
    simp only [Prod.mk.injEq] at h2
    obtain ⟨rfl, rfl, rfl⟩ := h2
    refine ⟨s', rfl, ?_⟩
    unfold fread at h1
    simp only [Abs.step, h.mode]
    split at h1
    · next hz => cases h1; rw [if_pos hz]; exact ⟨rfl, h, rfl, fun _ _ => trivial⟩
    · next hz =>
      rw [if_neg hz]
      split at h1
      · next hm =>
        cases h1; rw [if_pos hm]
        exact ⟨rfl, ⟨rfl, rfl, h.pos, h.file, h.content, h.pend⟩, rfl, fun _ _ => trivial⟩
      · next hm =>
        rw [if_neg hm]
        split at h1
        · cases h1
        · next hl =>
          obtain ⟨b, hb⟩ := h.file
          rw [hb] at h1
          have hpn : s.pending = none := by
            cases hp : s.pending with
            | none => rfl
            | some r => exact absurd (h.pend r.1 r.2 hp).1 hl
          have hc := h.content
          simp only [logical, hpn] at hc
          simp only [Option.some.injEq, Prod.mk.injEq] at h1
          obtain ⟨rfl, rfl, rfl⟩ := h1
          refine ⟨rfl, ⟨rfl, h.error, ?_, h.file, ?_, fun o p hh => ?_⟩, ?_, fun _ _ => trivial⟩
          · rw [hc, h.pos]
          · simp only [logical, hpn]; exact hc
          · simp only [hpn] at hh; cases hh
          · rw [hc, h.pos]
  | write buf size count now =>
    obtain ⟨⟨d2, s', n⟩, h1, h2⟩ := Option.map_eq_some_iff.mp hs
    simp only [Prod.mk.injEq] at h2
    obtain ⟨rfl, rfl, rfl⟩ := h2
    refine ⟨s', rfl, ?_⟩
    unfold fwrite at h1
    simp only [Abs.step, h.mode]
    split at h1
    · cases h1
    split at h1
    · next hz => cases h1; rw [if_pos hz]; exact ⟨rfl, h, rfl, fun _ _ => rfl⟩
    next hz =>
    rw [if_neg hz]
    split at h1
    · next hm =>
      cases h1; rw [if_pos hm]
      exact ⟨rfl, ⟨rfl, rfl, h.pos, h.file, h.content, h.pend⟩, rfl, fun _ _ => rfl⟩
    next hm =>
    rw [if_neg hm]
    split at h1
    · cases h1
    next hl =>
    -- the stream with the new output in its buffer
    have hh : Holds d { s with pending := some (buffered d s buf), pos := (buffered d s buf).1 + (buffered d s buf).2.length, last := .output }
        { mode := s.mode, content := put a.content (if s.mode.appends then a.content.length else a.pos) buf,
          pos := (if s.mode.appends then a.content.length else a.pos) + buf.length, error := a.error } := by
      cases hp : s.pending with
      | none =>
        have hc := h.content
        simp only [logical, hp] at hc
        refine ⟨rfl, h.error, ?_, h.file, ?_, ?_⟩
        · simp only [buffered, hp, hc, h.pos]
        · simp only [logical, buffered, hp, hc, h.pos, place]
          cases s.mode.appends <;> rfl
        · intro o p ho
          simp only [buffered, hp, Option.some.injEq, Prod.mk.injEq] at ho
          obtain ⟨rfl, rfl⟩ := ho
          refine ⟨rfl, by simp only [buffered, hp], ?_⟩
          simp only [place]
          cases s.mode.appends <;> rfl
      | some r =>
        obtain ⟨o, p⟩ := r
        obtain ⟨_, g2, g3⟩ := h.pend o p hp
        have hc := h.content
        simp only [logical, hp, g3] at hc
        have hat : (if s.mode.appends then a.content.length else a.pos) = o + p.length := by
          split
          · next ha =>
            rw [hc, length_put]
            simp only [place, ha, if_true] at g3
            omega
          · rw [h.pos, g2]
        rw [hat]
        refine ⟨rfl, h.error, ?_, h.file, ?_, ?_⟩
        · simp only [buffered, hp, List.length_append]; omega
        · simp only [logical, buffered, hp]
          rw [hc, put_put]
          congr 1
          exact g3.symm
        · intro o' p' ho
          simp only [buffered, hp, Option.some.injEq, Prod.mk.injEq] at ho
          obtain ⟨rfl, rfl⟩ := ho
          exact ⟨rfl, by simp only [buffered, hp], g3⟩
    cases now with
    | false =>
      simp only [Bool.false_eq_true, if_false, Option.some.injEq, Prod.mk.injEq] at h1
      obtain ⟨rfl, rfl, rfl⟩ := h1
      exact ⟨rfl, hh, rfl, fun _ _ => rfl⟩
    | true =>
      simp only [if_true, Option.some.injEq, Prod.mk.injEq] at h1
      obtain ⟨rfl, rfl, rfl⟩ := h1
      obtain ⟨g1, _, g3, _, g5⟩ := flush_holds hh
      exact ⟨g3, g1, rfl, g5⟩

theorem run_holds {f : Obj} {s : Stream} {a : Abs} {d : Disk} (hf : f.file = some s) (h : Holds d s a) : ∀ {ops : List Op} {d' : Disk} {f' : Obj}
    {outs : List Out}, run d f ops = some (d', f', outs) →
    ∃ s', f'.file = some s' ∧ s'.path = s.path ∧ Holds d' s' (a.run ops).1 ∧ outs = (a.run ops).2 ∧ ∀ q, q ≠ s.path → d' q = d q := by
  intro ops
  induction ops generalizing d f s a with
  | nil => intro d' f' outs hr; cases hr; exact ⟨s, hf, rfl, h, rfl, fun _ _ => rfl⟩
  | cons op ops ih =>
    intro d' f' outs hr
    rw [run] at hr
    obtain ⟨⟨d1, f1, o1⟩, h1, h2⟩ := Option.bind_eq_some_iff.mp hr
    obtain ⟨⟨d2, f2, o2⟩, h3, h4⟩ := Option.map_eq_some_iff.mp h2
    simp only [Prod.mk.injEq] at h4
    obtain ⟨rfl, rfl, rfl⟩ := h4
    obtain ⟨s1, e1, e2, e3, e4, e5⟩ := step_holds hf h h1
    obtain ⟨s2, g1, g2, g3, g4, g5⟩ := ih e1 e3 h3
    refine ⟨s2, g1, g2.trans e2, g3, ?_, fun q hq => ?_⟩
    · rw [g4]; simp only [Abs.run]; rw [e4]
    · rw [g5 q (by rw [e2]; exact hq), e5 q hq]

theorem open_holds {d : Disk} {p : List UInt8} {m : Mode} (hd : ∀ n, d p ≠ some (.dir n)) {d' : Disk} {s : Stream} (h : fopen d p m = (d', some s)) :
    s.path = p ∧ s.pending = none ∧ s.last = .none ∧ Holds d' s (Abs.start d p m) ∧ ∀ q, q ≠ p → d' q = d q := by
  unfold fopen at h
  cases hp : d p with
  | none =>
    cases m <;> simp only [hp, Prod.mk.injEq, reduceCtorEq, and_false, Option.some.injEq] at h
    all_goals
      obtain ⟨rfl, rfl⟩ := h
      refine ⟨rfl, rfl, rfl, ⟨rfl, rfl, rfl, ⟨[], by simp [Disk.set]⟩, ?_, nofun⟩, fun q hq => set_other d _ hq⟩
      simp [Abs.start, logical, bytes_set, hp]
  | some n =>
    cases n with
    | dir n => exact absurd hp (hd n)
    | file b =>
      cases m <;> simp only [hp, Prod.mk.injEq, Option.some.injEq] at h
      all_goals
        obtain ⟨rfl, rfl⟩ := h
      all_goals first
        | exact ⟨rfl, rfl, rfl, ⟨rfl, rfl, rfl, ⟨b, hp⟩, by simp [Abs.start, logical, Disk.bytes, hp], nofun⟩, fun _ _ => rfl⟩
        | exact ⟨rfl, rfl, rfl, ⟨rfl, rfl, rfl, ⟨[], by simp [Disk.set]⟩, by simp [Abs.start, logical, bytes_set], nofun⟩,
            fun q hq => set_other d _ hq⟩

theorem close_holds {d : Disk} {f : Obj} {s : Stream} {a : Abs} (hf : f.file = some s) (h : Holds d s a) :
    (closeFile d f).1 s.path = some (.file a.content) ∧ (closeFile d f).2 = ({ f with file := none }, 0) ∧
      ∀ q, q ≠ s.path → (closeFile d f).1 q = d q := by
  obtain ⟨h1, h2, h3, _, h5⟩ := flush_holds h
  unfold closeFile
  rw [hf]
  refine ⟨?_, rfl, h5⟩
  obtain ⟨b, hb⟩ := h1.file
  have hc := h1.content
  simp only [logical, h2] at hc
  show (flush d s).1 s.path = _
  rw [h3] at hb hc
  rw [hb, hc]
  simp [Disk.bytes, hb]

/-! ## Data -/

theorem setCursor_inside (x : Data.Obj) (c : Nat) (h : c ≤ x.bytes.length) : Data.setCursor x c = { x with cursor := c } := by
  unfold Data.setCursor
  rw [if_neg (by omega), if_neg (by omega)]
  simp

/-- The data stands for the abstract file. -/
def Same (x : Data.Obj) (a : Abs) : Prop :=
  x.bytes = a.content ∧ x.cursor = a.pos ∧ a.pos ≤ a.content.length ∧ a.mode.reads = true ∧ a.mode.writes = true ∧ a.mode.appends = false ∧ a.error = false

theorem splice_put (b : List UInt8) (o : Nat) (bs : List UInt8) (ho : o ≤ b.length) :
    Spec.splice b o (if bs.length > b.length - o then b.length - o else bs.length) bs = put b o bs := by
  rw [← overwrite_put]
  unfold overwrite Spec.splice
  rw [show o - b.length = 0 by omega, List.replicate_zero, List.append_nil]
  congr 1
  split
  · rw [List.drop_of_length_le (by omega), List.drop_of_length_le (by omega)]
  · rfl

theorem dataStep_same {x : Data.Obj} {a : Abs} (h : Same x a) {op : Op} (hi : a.Inside op)
    (hw : ∀ buf size count now, op = .write buf size count now → buf.length = size * count) :
    ∃ x', dataStep x op = some (x', (a.step op).2) ∧ Same x' (a.step op).1 := by
  obtain ⟨h1, h2, h3, h4, h5, h6, h7⟩ := h
  have hx : Data.setCursor x x.cursor = x := by
    rw [setCursor_inside x x.cursor (by rw [h1, h2]; exact h3)]
  cases op with
  | seek offset o =>
    have hgo : 0 ≤ a.goal offset o ∧ a.goal offset o ≤ a.content.length ∧ Data.seek x offset o = { x with cursor := (a.goal offset o).toNat } := by
      cases o with
      | set =>
        obtain ⟨i1, i2⟩ := hi
        refine ⟨i1, i2, ?_⟩
        simp only [Data.seek, Abs.goal] at *
        obtain ⟨n, rfl⟩ := Int.eq_ofNat_of_zero_le i1
        exact setCursor_inside x n (by rw [h1]; omega)
      | cur =>
        obtain ⟨i1, i2⟩ := hi
        refine ⟨i1, i2, ?_⟩
        simp only [Data.seek, Abs.goal, h2] at *
        obtain ⟨n, hn⟩ := Int.eq_ofNat_of_zero_le i1
        rw [hn] at i2 ⊢
        exact setCursor_inside x n (by rw [h1]; omega)
      | «end» =>
        simp only [Abs.Inside] at hi
        subst hi
        refine ⟨by simp [Abs.goal], by simp [Abs.goal], ?_⟩
        simp only [Data.seek, Abs.goal, Data.setCursor]
        rw [if_neg (by omega)]
        split
        · rw [h1]; simp
        · next hc =>
          have : x.cursor = 0 := by omega
          rw [this, h1]; simp
    refine ⟨{ x with cursor := (a.goal offset o).toNat }, ?_, ?_⟩
    · simp only [dataStep, hgo.2.2, Abs.step, if_neg (show ¬ a.goal offset o < 0 by omega)]
    · simp only [Abs.step, if_neg (show ¬ a.goal offset o < 0 by omega)]
      exact ⟨h1, rfl, by simp only; omega, h4, h5, h6, h7⟩
  | tell => exact ⟨x, by simp only [dataStep, Abs.step, h2], h1, h2, h3, h4, h5, h6, h7⟩
  | status => exact ⟨x, by simp only [dataStep, Abs.step, h7]; rfl, h1, h2, h3, h4, h5, h6, h7⟩
  | read size count =>
    have hsz : 0 < size := hi
    have hlen : ((a.content.drop a.pos).take (size * count)).length = Data.available x (size * count) := by
      simp only [Data.available, List.length_take, List.length_drop, h1, h2]
      split <;> omega
    have hbs : (x.bytes.drop x.cursor).take (Data.available x (size * count)) = (a.content.drop a.pos).take (size * count) := by
      rw [← hlen, h1, h2]
      generalize a.content.drop a.pos = l
      simp [List.take_eq_take_iff]
    have hav : a.pos + Data.available x (size * count) ≤ a.content.length := by
      simp only [Data.available, h1, h2]
      split <;> omega
    refine ⟨{ x with cursor := a.pos + Data.available x (size * count) }, ?_, ?_⟩
    · simp only [dataStep, Data.read, Data.readBytes, hx, if_neg (show size ≠ 0 by omega), Option.map_some, hbs]
      rw [show ((x.cursor : Int) + (Data.available x (size * count) : Nat)) = ((a.pos + Data.available x (size * count) : Nat) : Int) by rw [h2]; simp]
      rw [setCursor_inside x _ (by rw [h1]; exact hav)]
      simp only [Abs.step]
      by_cases hz : size * count = 0
      · rw [if_pos hz]
        have : Data.available x (size * count) = 0 := by simp only [Data.available, hz]; split <;> omega
        rw [this, hz, List.take_zero, Nat.zero_div]
      · rw [if_neg hz, if_neg (by rw [h4]; decide), hlen]
    · simp only [Abs.step]
      by_cases hz : size * count = 0
      · rw [if_pos hz]
        have : Data.available x (size * count) = 0 := by simp only [Data.available, hz]; split <;> omega
        exact ⟨h1, by simp [this], h3, h4, h5, h6, h7⟩
      · rw [if_neg hz, if_neg (by rw [h4]; decide)]
        exact ⟨h1, by rw [hlen], by simp only [hlen]; exact hav, h4, h5, h6, h7⟩
  | write buf size count now =>
    have hsz : 0 < size := hi
    have hb := hw buf size count now rfl
    have hput : Spec.splice x.bytes x.cursor (Data.available x buf.length) buf = put a.content a.pos buf := by
      simp only [Data.available]
      rw [← splice_put _ _ _ h3, h1, h2]
    refine ⟨{ x with bytes := put a.content a.pos buf, cursor := a.pos + buf.length }, ?_, ?_⟩
    · simp only [dataStep, if_pos hb, Data.write, hx, hput]
      rw [show ((x.cursor : Int) + (buf.length : Nat)) = ((a.pos + buf.length : Nat) : Int) by rw [h2]; simp]
      rw [setCursor_inside _ _ (by simp only [length_put]; omega)]
      simp only [Abs.step]
      by_cases hz : size * count = 0
      · rw [if_pos hz]
        rcases Nat.mul_eq_zero.mp hz with hz | hz
        · omega
        · rw [hz]
      · rw [if_neg hz, if_neg (by rw [h5]; decide)]
    · simp only [Abs.step]
      by_cases hz : size * count = 0
      · rw [if_pos hz]
        have hnil : buf = [] := List.eq_nil_of_length_eq_zero (by rw [hb, hz])
        refine ⟨?_, by simp [hnil], h3, h4, h5, h6, h7⟩
        rw [hnil]
        show put a.content a.pos [] = a.content
        rw [← splice_put _ _ _ h3]
        simp [Spec.splice]
      · rw [if_neg hz, if_neg (by rw [h5]; decide)]
        simp only [h6]
        refine ⟨rfl, rfl, ?_, h4, h5, h6, h7⟩
        simp only [Bool.false_eq_true, if_false, length_put]
        omega

end File
end Duck
