import Verif.Spec.External
import Verif.Lemmas.ByteArray
namespace Duck
namespace External
open BArray (Rep)

/-! ### Blocks -/

def Mem.blk (m : Mem) (b : Nat) : Option (Block UInt8) := (m.heap[b]?).join

theorem blk_push (m : Mem) (x : Block UInt8) (b : Nat) : (m.push x).blk b = if b = m.heap.length then some x else m.blk b := by
  unfold Mem.blk Mem.push
  by_cases h : b = m.heap.length
  · subst h; simp
  · rw [if_neg h]
    by_cases h2 : b < m.heap.length
    · rw [List.getElem?_append_left h2]
    · rw [List.getElem?_eq_none (by simp; omega), List.getElem?_eq_none (by omega)]

theorem blk_lt {m : Mem} {b : Nat} {x : Block UInt8} (h : m.blk b = some x) : b < m.heap.length := by
  unfold Mem.blk at h
  by_cases h2 : b < m.heap.length
  · exact h2
  · rw [List.getElem?_eq_none (by omega)] at h; cases h

theorem blk_length (m : Mem) : m.blk m.heap.length = none := by
  unfold Mem.blk; rw [List.getElem?_eq_none (Nat.le_refl _)]; rfl

theorem blk_set (m : Mem) (b c : Nat) (x : Option (Block UInt8)) (h : b < m.heap.length) :
    ({ m with heap := m.heap.set b x } : Mem).blk c = if c = b then x else m.blk c := by
  unfold Mem.blk
  by_cases e : c = b
  · subst e; simp [h]
  · rw [if_neg e]
    show ((m.heap.set b x)[c]?).join = _
    rw [List.getElem?_set_ne (fun h => e h.symm)]

theorem store_eq {m : Mem} {b : Nat} {x : Block UInt8} (h : m.blk b = some x) (y : Block UInt8) :
    m.store (.own b) y = some { m with heap := m.heap.set b (some y) } := by
  unfold Mem.store; unfold Mem.blk at h; simp only [h, Option.map_some]

theorem free_eq {m : Mem} {b : Nat} {x : Block UInt8} (h : m.blk b = some x) :
    m.free (.own b) = some { m with heap := m.heap.set b none } := by
  unfold Mem.free; unfold Mem.blk at h; simp only [h, Option.map_some]

theorem cells_own {m : Mem} {b : Nat} : m.cells (.own b) = m.blk b := rfl

theorem write_own {m : Mem} {b : Nat} {x y : Block UInt8} {off : Nat} {cs : List (Option UInt8)} (h : m.blk b = some x) (hw : x.write off cs = some y) :
    m.write (.own b) off cs = some { m with heap := m.heap.set b (some y) } := by
  unfold Mem.write
  rw [cells_own, h, Option.bind_some, hw, Option.bind_some, store_eq h]

/-- The block of an array. -/
def Arr.block (a : Arr) : Option Nat := match a.bytes with
  | .own b => some b
  | _ => none

/-- Only block `old` changed, to block `new`, which is the same or a new one. -/
structure Upd (m : Mem) (old : Option Nat) (m' : Mem) (new : Option Nat) : Prop where
  lent : m'.lent = m.lent
  same : ∀ b, some b ≠ old → some b ≠ new → m'.blk b = m.blk b
  fresh : ∀ b, new = some b → old = some b ∨ m.blk b = none
  gone : ∀ b, old = some b → new ≠ some b → m'.blk b = none

theorem Upd.refl (m : Mem) (o : Option Nat) : Upd m o m o := ⟨rfl, fun _ _ _ => rfl, fun _ h => .inl h, fun _ h h2 => absurd h h2⟩

theorem Upd.set {m : Mem} {b : Nat} {x : Block UInt8} (h : m.blk b = some x) (y : Block UInt8) :
    Upd m (some b) { m with heap := m.heap.set b (some y) } (some b) :=
  ⟨rfl, fun c h1 _ => by rw [blk_set _ _ _ _ (blk_lt h), if_neg (fun e => h1 (by rw [e]))], fun _ h => .inl h, fun _ h h2 => absurd h h2⟩

theorem Upd.trans {m m' m'' : Mem} {a b c : Option Nat} (h1 : Upd m a m' b) (h2 : Upd m' b m'' c) (hbc : b = c) : Upd m a m'' c := by
  subst hbc
  exact ⟨h2.lent.trans h1.lent, fun d hd hd' => (h2.same d hd' hd').trans (h1.same d hd hd'), h1.fresh,
    fun d hd hd' => (h2.same d (Ne.symm hd') (Ne.symm hd')).trans (h1.gone d hd hd')⟩

theorem Upd.push (m : Mem) (x : Block UInt8) : Upd m none (m.push x) (some m.heap.length) :=
  ⟨rfl, fun b _ h => by rw [blk_push, if_neg (fun e => h (by rw [e]))], fun b h => .inr (by cases h; exact blk_length m), fun b h => by cases h⟩

theorem Upd.free {m : Mem} {b : Nat} {x : Block UInt8} (h : m.blk b = some x) : Upd m (some b) { m with heap := m.heap.set b none } none :=
  ⟨rfl, fun c h1 _ => by rw [blk_set _ _ _ _ (blk_lt h), if_neg (fun e => h1 (by rw [e]))], (fun c h => by cases h),
    fun c h _ => by cases h; rw [blk_set _ _ _ _ (blk_lt ‹_›), if_pos rfl]⟩

theorem Upd.move {m : Mem} {b : Nat} {x : Block UInt8} (h : m.blk b = some x) (y : Block UInt8) :
    Upd m (some b) (({ m with heap := m.heap.set b none } : Mem).push y) (some m.heap.length) := by
  have hl : ({ m with heap := m.heap.set b none } : Mem).heap.length = m.heap.length := by simp
  refine ⟨rfl, fun c h1 h2 => ?_, fun c h => .inr (by cases h; exact blk_length m), fun c h1 h2 => ?_⟩
  · rw [blk_push, hl, if_neg (fun e => h2 (by rw [e])), blk_set _ _ _ _ (blk_lt h), if_neg (fun e => h1 (by rw [e]))]
  · cases h1
    rw [blk_push, hl, if_neg (fun e => h2 (by rw [e])), blk_set _ _ _ _ (blk_lt h), if_pos rfl]

/-! ### Arrays that own their storage -/

/-- The array and the model of one array. -/
def Link (m : Mem) (a : Arr) (A : BArray) : Prop :=
  a.length = A.length ∧ a.max = (A.maxLength : Int) ∧
  match A.bytes with
  | none => a.bytes = .null
  | some x => ∃ b, a.bytes = .own b ∧ m.blk b = some x

theorem resize_eq (old req : Nat) (h : ¬ req < old) : resizeLength (old : Int) req = BArray.resizeLength old req := by
  unfold resizeLength BArray.resizeLength BArray.minSize
  rw [if_neg h]
  simp only []
  repeat' split
  all_goals omega

/-- The end of ReplaceBytes. -/
theorem insert_eq {m : Mem} {p L mx loc n : Nat} {src : Src} {zs : List UInt8} {x : Block UInt8} {A' : BArray} {keep : Bool} (hx : m.blk p = some x)
    (hn : zs.length = n) (hs : srcCells m src n = some (zs.map some))
    (h : ((if n > 0 then (BArray.srcCells (.ext zs) loc n keep x).bind (fun cs => x.write loc cs) else some x).bind fun blk =>
      BArray.setNullTerminator { bytes := some blk, length := L, maxLength := mx }) = some A') :
    ∃ m', insert m ⟨.own p, L, mx⟩ loc src n = some (m', ⟨.own p, L, mx⟩) ∧ Link m' ⟨.own p, L, mx⟩ A' ∧ Upd m (some p) m' (some p) := by
  have fin : ∀ (m1 : Mem) (y : Block UInt8), m1.blk p = some y → BArray.setNullTerminator ⟨some y, L, mx⟩ = some A' →
      ∃ m', (terminate m1 ⟨.own p, L, mx⟩).map (fun m => (m, (⟨.own p, L, mx⟩ : Arr))) = some (m', ⟨.own p, L, mx⟩) ∧ Link m' ⟨.own p, L, mx⟩ A' ∧
        Upd m1 (some p) m' (some p) := by
    intro m1 y hy hA
    unfold BArray.setNullTerminator at hA
    simp only [Option.map_eq_some_iff] at hA
    obtain ⟨z, hz, rfl⟩ := hA
    refine ⟨{ m1 with heap := m1.heap.set p (some z) }, ?_, ⟨rfl, rfl, p, rfl, ?_⟩, Upd.set hy z⟩
    · unfold terminate; rw [write_own hy hz]; rfl
    · rw [blk_set _ _ _ _ (blk_lt hy), if_pos rfl]
  unfold insert
  by_cases h0 : n > 0
  · rw [if_pos h0] at h ⊢
    have hc : BArray.srcCells (.ext zs) loc n keep x = some (zs.map some) := by
      unfold BArray.srcCells; simp only [hn, Nat.le_refl, if_true, Option.some.injEq]; rw [← hn, List.take_length]
    rw [hc, Option.bind_some, Option.bind_eq_some_iff] at h
    obtain ⟨y, hy, hA⟩ := h
    rw [hs, Option.bind_some]
    simp only [write_own hx hy, Option.bind_some]
    obtain ⟨m', h1, h2, h3⟩ := fin { m with heap := m.heap.set p (some y) } y (by rw [blk_set _ _ _ _ (blk_lt hx), if_pos rfl]) hA
    exact ⟨m', h1, h2, (Upd.set hx y).trans h3 rfl⟩
  · rw [if_neg h0] at h ⊢
    rw [Option.bind_some] at h
    simp only [Option.bind_some]
    exact fin m x hx h

/-- What the source is as long as other blocks do not change. -/
def Steady (m : Mem) (old : Option Nat) (src : Src) (zs : List UInt8) : Prop :=
  ∀ m' new, Upd m old m' new → srcCells m' src zs.length = some (zs.map some)

theorem replace_link {m : Mem} {a : Arr} {A A' : BArray} {loc len : Nat} {src : Src} {zs : List UInt8} (hL : Link m a A)
    (h0 : ¬ (len = 0 ∧ zs.length = 0)) (hs : Steady m a.block src zs) (h : A.replaceBytes loc len (.ext zs) zs.length = some A')
    (hnull : A.bytes = none → A.maxLength = 0) :
    ∃ m' a', replaceBytes m a loc len src zs.length = some (m', a') ∧ Link m' a' A' ∧ Upd m a.block m' a'.block := by
  obtain ⟨h1, h2, h3⟩ := hL
  unfold replaceBytes
  unfold BArray.replaceBytes at h
  rw [if_neg h0] at h ⊢
  simp only [] at h ⊢
  rw [h1, h2]
  cases hA : A.bytes with
  | none =>
    rw [hA] at h h3
    have hz := hnull hA
    have hk : ¬ (A.length + zs.length - len < A.maxLength) := by omega
    simp only [decide_eq_false hk, Bool.false_eq_true, if_false] at h
    rw [if_neg (by omega), resize_eq _ _ hk]
    have hb : a.block = none := by unfold Arr.block; simp only [] at h3; rw [h3]
    rw [hb] at hs ⊢
    simp only [grow, h3, if_true, Option.bind_some]
    have hl : (m.push (malloc UInt8 (BArray.resizeLength A.maxLength (A.length + zs.length - len) + BArray.termSize))).heap.length - 1 = m.heap.length := by
      simp [Mem.push]
    rw [hl]
    have hU := Upd.push m (malloc UInt8 (BArray.resizeLength A.maxLength (A.length + zs.length - len) + BArray.termSize))
    obtain ⟨m', g1, g2, g3⟩ := insert_eq (by rw [blk_push, if_pos rfl]) rfl (hs _ _ hU) h
    exact ⟨m', _, g1, g2, hU.trans g3 rfl⟩
  | some x =>
    rw [hA] at h h3
    obtain ⟨b, hb, hx⟩ := h3
    have hbk : a.block = some b := by unfold Arr.block; rw [hb]
    rw [hbk] at hs ⊢
    by_cases hk : A.length + zs.length - len < A.maxLength
    · simp only [decide_eq_true hk, if_true] at h
      rw [if_pos (by omega)]
      have hr : BArray.resizeLength A.maxLength (A.length + zs.length - len) = A.maxLength := by unfold BArray.resizeLength; rw [if_pos hk]
      rw [hr] at h
      unfold shift
      rw [hb, cells_own, hx, Option.bind_some]
      cases hc : x.copyIf (loc + zs.length) x (loc + len) (A.length - (loc + len)) with
      | none => rw [hc] at h; simp at h
      | some y =>
        rw [hc] at h
        simp only [Option.map_some] at h
        simp only [Option.bind_some, store_eq hx]
        have hU := Upd.set hx y
        obtain ⟨m', g1, g2, g3⟩ := insert_eq (by rw [blk_set _ _ _ _ (blk_lt hx), if_pos rfl]) rfl (hs _ _ hU) h
        exact ⟨m', _, g1, g2, hU.trans g3 rfl⟩
    · simp only [decide_eq_false hk, Bool.false_eq_true, if_false] at h
      rw [if_neg (by omega), resize_eq _ _ hk]
      unfold grow
      rw [if_neg (by rw [hb]; exact nofun), hb, cells_own, hx, Option.bind_some]
      cases hc : ((malloc UInt8 (BArray.resizeLength A.maxLength (A.length + zs.length - len) + BArray.termSize)).copyIf 0 x 0 loc).bind
          fun block => block.copyIf (loc + zs.length) x (loc + len) (A.length - (loc + len)) with
      | none => rw [hc] at h; simp at h
      | some y =>
        rw [hc] at h
        simp only [Option.map_some] at h
        simp only [Option.bind_some, free_eq hx, Option.map_some]
        have hl : ((⟨m.lent, m.heap.set b none⟩ : Mem).push y).heap.length - 1 = m.heap.length := by simp [Mem.push]
        rw [hl]
        have hU := Upd.move hx y
        have hfresh : ((⟨m.lent, m.heap.set b none⟩ : Mem).push y).blk m.heap.length = some y := by
          rw [blk_push]; simp
        obtain ⟨m', g1, g2, g3⟩ := insert_eq hfresh rfl (hs _ _ hU) h
        exact ⟨m', _, g1, g2, hU.trans g3 rfl⟩

/-! ### Objects and their contents -/
open Plain (Content Thing World)

/-- An array with storage of its own, and these bytes. -/
def Stored (m : Mem) (a : Arr) (xs : List UInt8) : Prop := ∃ A, Rep A (xs.map some) ∧ Link m a A

/-- The object has the content. -/
def Holds (m : Mem) (o : Obj) : Content → Prop
  | .own xs => (o.inner = none ∧ Stored m o.arr xs) ∨
      (o.isMutable = false ∧ o.arr.max = -1 ∧ o.arr.length = xs.length ∧
        ((xs = [] ∧ o.arr.bytes = .null ∧ o.inner = none) ∨
          ∃ b, o.inner = some b ∧ o.arr.bytes = .own b ∧ m.blk b = some (xs.map some ++ List.replicate 4 (some 0))))
  | .lent k n => o.isMutable = false ∧ o.inner = none ∧ o.arr = ⟨.lent k, n, -1⟩ ∧ ∃ xs, (m.lent[k]?).join = some xs ∧ n ≤ xs.length

theorem Link.frame {m m' : Mem} {a : Arr} {A : BArray} (h : Link m a A) (hb : ∀ b, a.block = some b → m'.blk b = m.blk b) : Link m' a A := by
  obtain ⟨h1, h2, h3⟩ := h
  refine ⟨h1, h2, ?_⟩
  cases hA : A.bytes with
  | none => rw [hA] at h3; exact h3
  | some x =>
    rw [hA] at h3
    obtain ⟨b, h4, h5⟩ := h3
    exact ⟨b, h4, by rw [hb b (by unfold Arr.block; rw [h4]), h5]⟩

theorem Holds.frame {m m' : Mem} {o : Obj} {c : Content} (h : Holds m o c) (hb : ∀ b, o.arr.block = some b → m'.blk b = m.blk b)
    (hl : ∀ k n xs, c = .lent k n → (m.lent[k]?).join = some xs → ∃ ys, (m'.lent[k]?).join = some ys ∧ xs.length ≤ ys.length) : Holds m' o c := by
  cases c with
  | own xs =>
    rcases h with ⟨h1, A, h2, h3⟩ | ⟨h1, h2, h3, h4⟩
    · exact .inl ⟨h1, A, h2, h3.frame hb⟩
    · refine .inr ⟨h1, h2, h3, ?_⟩
      rcases h4 with h4 | ⟨b, h4, h5, h6⟩
      · exact .inl h4
      · exact .inr ⟨b, h4, h5, by rw [hb b (by unfold Arr.block; rw [h5]), h6]⟩
  | lent k n =>
    obtain ⟨h1, h2, h3, xs, h4, h5⟩ := h
    obtain ⟨ys, h6, h7⟩ := hl k n xs rfl h4
    exact ⟨h1, h2, h3, ys, h6, by omega⟩

theorem Holds.live {m : Mem} {o : Obj} {c : Content} (h : Holds m o c) {b : Nat} (hb : o.arr.block = some b) : ∃ x, m.blk b = some x := by
  cases c with
  | own xs =>
    rcases h with ⟨_, A, _, _, _, h3⟩ | ⟨_, _, _, h4⟩
    · cases hA : A.bytes with
      | none => rw [hA] at h3; unfold Arr.block at hb; rw [h3] at hb; cases hb
      | some x =>
        rw [hA] at h3
        obtain ⟨b', h4, h5⟩ := h3
        unfold Arr.block at hb; rw [h4] at hb; cases hb
        exact ⟨x, h5⟩
    · rcases h4 with ⟨_, h4, _⟩ | ⟨b', _, h5, h6⟩
      · unfold Arr.block at hb; rw [h4] at hb; cases hb
      · unfold Arr.block at hb; rw [h5] at hb; cases hb
        exact ⟨_, h6⟩
  | lent k n =>
    rw [h.2.2.1] at hb; cases hb

theorem read_take {x : Block UInt8} {cs : List (Option UInt8)} (h : x.take cs.length = cs) : x.read 0 cs.length = some cs := by
  have hl : cs.length ≤ x.length := by
    have := congrArg List.length h
    rw [List.length_take] at this
    omega
  unfold Block.read
  rw [if_pos (by omega), List.drop_zero, h]

/-- What is read through the pointer of an object. -/
theorem Holds.cells {m : Mem} {o : Obj} {c : Content} {w : World} (h : Holds m o c) (hw : m.lent = w.lent) :
    o.arr.length = (w.bytes c).length ∧ srcCells m (.storage o.arr.bytes) o.arr.length = some ((w.bytes c).map some) := by
  unfold srcCells
  cases c with
  | own xs =>
    simp only [World.bytes]
    rcases h with ⟨_, A, h1, h2, _, h3⟩ | ⟨_, _, h2, h4⟩
    · have hl : o.arr.length = xs.length := by rw [h2, h1.1, List.length_map]
      refine ⟨hl, ?_⟩
      cases hA : A.bytes with
      | none =>
        rw [hA] at h3
        have := h1.2; rw [hA] at this
        have hx : xs = [] := by simpa using this.1
        subst hx
        rw [hl, h3]; rfl
      | some x =>
        rw [hA] at h3
        obtain ⟨b, h4, h5⟩ := h3
        rw [h4, cells_own, h5, Option.bind_some]
        have := h1.take hA
        rw [show o.arr.length = (xs.map some).length by rw [hl, List.length_map]]
        exact read_take this
    · refine ⟨h2, ?_⟩
      rcases h4 with ⟨rfl, h4, _⟩ | ⟨b, _, h5, h6⟩
      · rw [h2, h4]; rfl
      · rw [h5, cells_own, h6, Option.bind_some, h2, show xs.length = (xs.map some).length by rw [List.length_map]]
        exact read_take (List.take_left' rfl)
  | lent k n =>
    obtain ⟨_, _, h3, xs, h4, h5⟩ := h
    rw [h3]
    simp only [World.bytes, ← hw, h4, Option.getD_some, Mem.cells, Option.map_some, Option.bind_some]
    refine ⟨by rw [List.length_take]; omega, ?_⟩
    have e : n = ((xs.take n).map some).length := by rw [List.length_map, List.length_take]; omega
    conv => lhs; rw [e]
    exact read_take (by rw [← e, List.map_take])

theorem mapM_id_some (xs : List UInt8) : (xs.map some).mapM id = some xs := by
  induction xs with
  | nil => rfl
  | cons x xs ih => simp [List.mapM_cons, ih]

theorem Holds.read {m : Mem} {o : Obj} {c : Content} {w : World} (h : Holds m o c) (hw : m.lent = w.lent) : readBytes m o.arr = some (w.bytes c) := by
  have := (h.cells hw).2
  unfold srcCells at this
  unfold readBytes
  simp only [] at this
  rw [this, Option.bind_some, mapM_id_some]

/-! ### The invariant -/

def Same (m : Mem) : Option Obj → Option Thing → Prop
  | none, none => True
  | some o, some t => o.isString = t.isString ∧ o.isMutable = t.isMutable ∧ o.rc = t.rc ∧ Holds m o t.content
  | _, _ => False

structure Inv (s : State) (w : World) : Prop where
  lent : s.mem.lent = w.lent
  length : s.objs.length = w.things.length
  same : ∀ i, Same s.mem (s.live i) (w.live i)
  distinct : ∀ i j o p b, s.live i = some o → s.live j = some p → o.arr.block = some b → p.arr.block = some b → i = j
  owned : ∀ b x, s.mem.blk b = some x → ∃ i o, s.live i = some o ∧ o.arr.block = some b

theorem live_lt {s : State} {i : Nat} {o : Obj} (h : s.live i = some o) : i < s.objs.length := by
  unfold State.live at h
  by_cases h2 : i < s.objs.length
  · exact h2
  · rw [List.getElem?_eq_none (by omega)] at h; cases h

theorem set_live {α : Type} (l : List (Option α)) (i j : Nat) (x : Option α) (h : i < l.length) :
    ((l.set i x)[j]?).join = if j = i then x else (l[j]?).join := by
  by_cases e : j = i
  · subst e; simp [h]
  · rw [if_neg e, List.getElem?_set_ne (fun h => e h.symm)]

theorem push_live {α : Type} (l : List (Option α)) (j : Nat) (x : Option α) :
    ((l ++ [x])[j]?).join = if j = l.length then x else (l[j]?).join := by
  by_cases e : j = l.length
  · subst e; simp
  · rw [if_neg e]
    by_cases h : j < l.length
    · rw [List.getElem?_append_left h]
    · rw [List.getElem?_eq_none (by simp; omega), List.getElem?_eq_none (by omega)]

theorem Inv.get {s : State} {w : World} (h : Inv s w) {i : Nat} {t : Thing} (ht : w.live i = some t) :
    ∃ o, s.live i = some o ∧ o.isString = t.isString ∧ o.isMutable = t.isMutable ∧ o.rc = t.rc ∧ Holds s.mem o t.content := by
  have := h.same i
  rw [ht] at this
  cases ho : s.live i with
  | none => rw [ho] at this; cases this
  | some o => rw [ho] at this; exact ⟨o, rfl, this⟩

/-- The block of an object. -/
def blockOf (o : Option Obj) : Option Nat := o.bind fun o => o.arr.block

theorem Inv.other {s : State} {w : World} (h : Inv s w) {m' : Mem} {old new : Option Nat} (hu : Upd s.mem old m' new) {j : Nat}
    (hold : ∀ o b, s.live j = some o → o.arr.block = some b → old ≠ some b) : Same m' (s.live j) (w.live j) := by
  have hj := h.same j
  cases ho : s.live j with
  | none => rw [ho] at hj; cases ht : w.live j with
    | none => trivial
    | some t => rw [ht] at hj; cases hj
  | some o =>
    rw [ho] at hj
    cases ht : w.live j with
    | none => rw [ht] at hj; cases hj
    | some t =>
      rw [ht] at hj
      obtain ⟨h1, h2, h3, h4⟩ := hj
      refine ⟨h1, h2, h3, h4.frame (fun b hb => ?_) (fun k n xs _ hk => ⟨xs, by rw [hu.lent]; exact hk, Nat.le_refl _⟩)⟩
      have hne := hold o b ho hb
      refine hu.same b (Ne.symm hne) (fun e => ?_)
      rcases hu.fresh b e.symm with e2 | e2
      · exact hne e2
      · obtain ⟨x, hx⟩ := h4.live hb
        rw [hx] at e2; cases e2

theorem Inv.put {s : State} {w : World} (h : Inv s w) {i : Nat} {o : Obj} (ho : s.live i = some o) {m' : Mem} {o' : Option Obj} {t' : Option Thing}
    (hu : Upd s.mem o.arr.block m' (blockOf o')) (hs : Same m' o' t') : Inv (s.put i m' o') (w.put i t') := by
  have hi := live_lt ho
  have hlive : ∀ j, (s.put i m' o').live j = if j = i then o' else s.live j := fun j => set_live s.objs i j o' hi
  have hlive' : ∀ j, (w.put i t').live j = if j = i then t' else w.live j := fun j => set_live w.things i j t' (by rw [← h.length]; exact hi)
  refine ⟨hu.lent.trans h.lent, by simp [State.put, World.put, h.length], fun j => ?_, ?_, ?_⟩
  · rw [hlive, hlive']
    by_cases e : j = i
    · rw [if_pos e, if_pos e]; exact hs
    · rw [if_neg e, if_neg e]
      exact h.other hu (fun p b hp hb hold => e (h.distinct j i p o b hp ho hb hold))
  · have key : ∀ j p b, j ≠ i → s.live j = some p → p.arr.block = some b → blockOf o' ≠ some b := by
      intro j p b hj hp hb hn
      rcases hu.fresh b hn with e | e
      · exact hj (h.distinct j i p o b hp ho hb e)
      · have := h.same j
        rw [hp] at this
        cases ht : w.live j with
        | none => rw [ht] at this; cases this
        | some t =>
          rw [ht] at this
          obtain ⟨x, hx⟩ := this.2.2.2.live hb
          rw [hx] at e; cases e
    intro j k p q b hp hq hb1 hb2
    rw [hlive] at hp hq
    by_cases ej : j = i
    · rw [if_pos ej] at hp
      by_cases ek : k = i
      · rw [ej, ek]
      · rw [if_neg ek] at hq
        exact absurd (by rw [hp]; exact hb1) (key k q b ek hq hb2)
    · rw [if_neg ej] at hp
      by_cases ek : k = i
      · rw [if_pos ek] at hq
        exact absurd (by rw [hq]; exact hb2) (key j p b ej hp hb1)
      · rw [if_neg ek] at hq
        exact h.distinct j k p q b hp hq hb1 hb2
  · intro b x hx
    by_cases en : blockOf o' = some b
    · cases o' with
      | none => cases en
      | some p => exact ⟨i, p, by rw [hlive, if_pos rfl], en⟩
    · by_cases eo : o.arr.block = some b
      · have := hu.gone b eo en
        have hx' : m'.blk b = some x := hx
        rw [hx'] at this; cases this
      · have hx' : m'.blk b = some x := hx
        rw [hu.same b (Ne.symm eo) (Ne.symm en)] at hx'
        obtain ⟨j, p, hp, hb⟩ := h.owned b x hx'
        refine ⟨j, p, ?_, hb⟩
        rw [hlive, if_neg (fun e => by subst e; rw [ho] at hp; cases hp; exact eo hb)]
        exact hp

theorem Inv.add {s : State} {w : World} (h : Inv s w) {m' : Mem} {o' : Obj} {t' : Thing} (hu : Upd s.mem none m' o'.arr.block)
    (hs : Same m' (some o') (some t')) : Inv (s.add m' o').1 (w.add t').1 ∧ (s.add m' o').2 = (w.add t').2 := by
  have hlive : ∀ j, (s.add m' o').1.live j = if j = s.objs.length then some o' else s.live j := fun j => push_live s.objs j (some o')
  have hlive' : ∀ j, (w.add t').1.live j = if j = w.things.length then some t' else w.live j := fun j => push_live w.things j (some t')
  refine ⟨⟨hu.lent.trans h.lent, by simp [State.add, World.add, h.length], fun j => ?_, ?_, ?_⟩, by simp [State.add, World.add, h.length]⟩
  · rw [hlive, hlive', h.length]
    by_cases e : j = w.things.length
    · rw [if_pos e, if_pos e]; exact hs
    · rw [if_neg e, if_neg e]
      exact h.other hu (fun p b hp hb hold => nomatch hold)
  · have key : ∀ j p b, s.live j = some p → p.arr.block = some b → o'.arr.block ≠ some b := by
      intro j p b hp hb hn
      rcases hu.fresh b hn with e | e
      · cases e
      · have := h.same j
        rw [hp] at this
        cases ht : w.live j with
        | none => rw [ht] at this; cases this
        | some t =>
          rw [ht] at this
          obtain ⟨x, hx⟩ := this.2.2.2.live hb
          rw [hx] at e; cases e
    intro j k p q b hp hq hb1 hb2
    rw [hlive] at hp hq
    by_cases ej : j = s.objs.length
    · rw [if_pos ej] at hp; cases hp
      by_cases ek : k = s.objs.length
      · rw [ej, ek]
      · rw [if_neg ek] at hq
        exact absurd hb1 (key k q b hq hb2)
    · rw [if_neg ej] at hp
      by_cases ek : k = s.objs.length
      · rw [if_pos ek] at hq; cases hq
        exact absurd hb2 (key j p b hp hb1)
      · rw [if_neg ek] at hq
        exact h.distinct j k p q b hp hq hb1 hb2
  · intro b x hx
    have hx' : m'.blk b = some x := hx
    by_cases en : o'.arr.block = some b
    · exact ⟨s.objs.length, o', by rw [hlive, if_pos rfl], en⟩
    · rw [hu.same b nofun (Ne.symm en)] at hx'
      obtain ⟨j, p, hp, hb⟩ := h.owned b x hx'
      refine ⟨j, p, ?_, hb⟩
      have := live_lt hp
      rw [hlive, if_neg (by omega)]
      exact hp

/-! ### The calls -/

theorem stored_init (m : Mem) : Stored m .init [] := ⟨.init, BArray.Rep_init, rfl, rfl, rfl⟩

theorem stored_replace {m : Mem} {a : Arr} {xs zs : List UInt8} {loc len : Nat} {src : Src} (h : Stored m a xs) (hr : loc + len ≤ xs.length)
    (hs : Steady m a.block src zs) : ∃ m' a', replaceBytes m a loc len src zs.length = some (m', a') ∧ Stored m' a' (Duck.Spec.splice xs loc len zs) ∧
      Upd m a.block m' a'.block := by
  obtain ⟨A, hA, hL⟩ := h
  by_cases h0 : len = 0 ∧ zs.length = 0
  · refine ⟨m, a, by unfold replaceBytes; rw [if_pos h0], ?_, Upd.refl _ _⟩
    obtain ⟨h1, h2⟩ := h0
    have : zs = [] := List.eq_nil_of_length_eq_zero h2
    subst this; subst h1
    have e : Duck.Spec.splice xs loc 0 [] = xs := by simp [Duck.Spec.splice]
    rw [e]; exact ⟨A, hA, hL⟩
  · obtain ⟨A', h1, h2⟩ := BArray.replace_rep hA (loc := loc) (len := len) (n := zs.length) (src := .ext zs) (ys := zs.map some)
      (by rw [List.length_map]; exact hr) (by simp [BArray.srcValue])
    obtain ⟨m', a', g1, g2, g3⟩ := replace_link hL h0 hs h1 (fun hb => by have := hA.2; rw [hb] at this; exact this.2)
    refine ⟨m', a', g1, ⟨A', ?_, g2⟩, g3⟩
    have e : (Duck.Spec.splice xs loc len zs).map some = Duck.Spec.splice (xs.map some) loc len (zs.map some) := by
      simp [Duck.Spec.splice, List.map_take, List.map_drop]
    rw [e]; exact h2

theorem steady_bytes (m : Mem) (old : Option Nat) (zs : List UInt8) : Steady m old (.bytes zs) zs := by
  intro m' new _
  simp [srcCells]

theorem steady_null (m : Mem) (old : Option Nat) (n : Nat) : Steady m old .null (List.replicate n 0) := by
  intro m' new _
  simp [srcCells]

theorem steady_storage {m : Mem} {o : Obj} {c : Content} {w : World} (h : Holds m o c) (hw : m.lent = w.lent) {old : Option Nat}
    (hne : ∀ b, o.arr.block = some b → old ≠ some b) : Steady m old (.storage o.arr.bytes) (w.bytes c) := by
  intro m' new hu
  have h' : Holds m' o c := by
    refine h.frame (fun b hb => ?_) (fun k n xs _ hk => ⟨xs, by rw [hu.lent]; exact hk, Nat.le_refl _⟩)
    refine hu.same b (Ne.symm (hne b hb)) (fun e => ?_)
    rcases hu.fresh b e.symm with e2 | e2
    · exact hne b hb e2
    · obtain ⟨x, hx⟩ := h.live hb
      rw [hx] at e2; cases e2
  have := h'.cells (w := w) (hu.lent.trans hw)
  rw [← this.1]; exact this.2

/-- A mutable object has its own bytes. -/
theorem Holds.stored {m : Mem} {o : Obj} {c : Content} (h : Holds m o c) (hm : o.isMutable = true) : ∃ xs, c = .own xs ∧ o.inner = none ∧ Stored m o.arr xs := by
  cases c with
  | own xs =>
    rcases h with ⟨h1, h2⟩ | ⟨h1, _⟩
    · exact ⟨xs, rfl, h1, h2⟩
    · rw [hm] at h1; cases h1
  | lent k n => rw [h.1] at hm; cases hm

theorem inv_edit {s : State} {w : World} (h : Inv s w) {i : Nat} {g : List UInt8 → List UInt8} {f : Obj → Option (Mem × Arr)} {r : World × Out}
    (hr : w.edit i g = some r)
    (hf : ∀ o xs, s.live i = some o → Stored s.mem o.arr xs → ∃ m' a', f o = some (m', a') ∧ Stored m' a' (g xs) ∧ Upd s.mem o.arr.block m' a'.block) :
    ∃ s', edit s i f = some (s', r.2) ∧ Inv s' r.1 := by
  unfold World.edit at hr
  rw [Option.map_eq_some_iff] at hr
  obtain ⟨t, ht, rfl⟩ := hr
  obtain ⟨o, ho, h1, h2, h3, h4⟩ := h.get ht
  unfold edit
  rw [ho, Option.bind_some]
  by_cases hm : t.isMutable = true
  · rw [if_pos (by rw [h2]; exact hm), if_pos hm]
    obtain ⟨xs, hc, hin, hst⟩ := h4.stored (by rw [h2]; exact hm)
    obtain ⟨m', a', g1, g2, g3⟩ := hf o xs ho hst
    rw [g1, Option.map_some]
    refine ⟨_, rfl, h.put ho (o' := some { o with arr := a' }) g3 ⟨h1, h2, h3, ?_⟩⟩
    rw [hc]
    exact .inl ⟨hin, g2⟩
  · rw [if_neg (by rw [h2]; exact hm), if_neg hm]
    exact ⟨s, rfl, h⟩

theorem inv_newBytes {s : State} {w : World} (h : Inv s w) (isString isMutable : Bool) {src : Src} {zs : List UInt8} (hs : Steady s.mem none src zs) :
    ∃ s', newBytes s isString isMutable src zs.length = some (s', (w.add ⟨isString, isMutable, 1, .own zs⟩).2) ∧
      Inv s' (w.add ⟨isString, isMutable, 1, .own zs⟩).1 := by
  obtain ⟨m', a', g1, g2, g3⟩ := stored_replace (stored_init s.mem) (loc := 0) (len := 0) (Nat.le_refl _) hs
  unfold newBytes
  rw [g1, Option.map_some]
  have e : Duck.Spec.splice [] 0 0 zs = zs := by simp [Duck.Spec.splice]
  rw [e] at g2
  obtain ⟨k1, k2⟩ := h.add (o' := ⟨isString, isMutable, 1, a', none⟩) (t' := ⟨isString, isMutable, 1, .own zs⟩) g3 ⟨rfl, rfl, rfl, .inl ⟨rfl, g2⟩⟩
  exact ⟨_, by rw [← k2], k1⟩

theorem inv_newString {s : State} {w : World} (h : Inv s w) {src : Src} {zs : List UInt8} (hs : srcCells s.mem src zs.length = some (zs.map some)) :
    ∃ s', newString s src zs.length = some (s', (w.add ⟨true, false, 1, .own zs⟩).2) ∧ Inv s' (w.add ⟨true, false, 1, .own zs⟩).1 := by
  unfold newString
  by_cases h0 : zs.length = 0
  · rw [if_pos h0]
    have hz : zs = [] := List.eq_nil_of_length_eq_zero h0
    obtain ⟨k1, k2⟩ := h.add (m' := s.mem) (o' := ⟨true, false, 1, .external .null 0, none⟩) (t' := ⟨true, false, 1, .own zs⟩) (Upd.refl _ _)
      ⟨rfl, rfl, rfl, .inr ⟨rfl, rfl, by rw [hz]; rfl, .inl ⟨hz, rfl, rfl⟩⟩⟩
    exact ⟨_, by rw [← k2], k1⟩
  · rw [if_neg h0, hs, Option.bind_some]
    have w1 : (malloc UInt8 (zs.length + 4)).write 0 (zs.map some) = some (zs.map some ++ List.replicate 4 none) := by
      unfold Block.write malloc
      rw [if_pos (by simp)]
      simp
    have w2 : Block.write (zs.map some ++ List.replicate 4 none) zs.length [some 0, some 0, some 0, some 0] = some (zs.map some ++ List.replicate 4 (some 0)) := by
      unfold Block.write
      rw [if_pos (by simp)]
      have e1 : (zs.map some ++ List.replicate 4 (none : Option UInt8)).take zs.length = zs.map some := List.take_left' (by simp)
      have e2 : (zs.map some ++ List.replicate 4 (none : Option UInt8)).drop (zs.length + [some (0 : UInt8), some 0, some 0, some 0].length) = [] := by
        apply List.drop_eq_nil_of_le; simp
      rw [e1, e2, List.append_nil]; rfl
    have b1 : (s.mem.push (malloc UInt8 (zs.length + 4))).blk s.mem.heap.length = some (malloc UInt8 (zs.length + 4)) := by rw [blk_push, if_pos rfl]
    simp only [write_own b1 w1, Option.bind_some]
    have b2 : ({ s.mem.push (malloc UInt8 (zs.length + 4)) with
        heap := (s.mem.push (malloc UInt8 (zs.length + 4))).heap.set s.mem.heap.length (some (zs.map some ++ List.replicate 4 none)) } : Mem).blk s.mem.heap.length =
        some (zs.map some ++ List.replicate 4 none) := by rw [blk_set _ _ _ _ (blk_lt b1), if_pos rfl]
    simp only [write_own b2 w2, Option.map_some]
    have hu := ((Upd.push s.mem (malloc UInt8 (zs.length + 4))).trans (Upd.set b1 (zs.map some ++ List.replicate 4 none)) rfl).trans
      (Upd.set b2 (zs.map some ++ List.replicate 4 (some 0))) rfl
    obtain ⟨k1, k2⟩ := h.add (o' := ⟨true, false, 1, .external (.own s.mem.heap.length) zs.length, some s.mem.heap.length⟩) (t' := ⟨true, false, 1, .own zs⟩) hu
      ⟨rfl, rfl, rfl, .inr ⟨rfl, rfl, rfl, .inr ⟨s.mem.heap.length, rfl, rfl, by rw [blk_set _ _ _ _ (blk_lt b2), if_pos rfl]⟩⟩⟩
    exact ⟨_, by rw [← k2], k1⟩

theorem inv_lent {s : State} {w : World} (h : Inv s w) (l : List (Option (List UInt8)))
    (hl : ∀ i t k n xs, w.live i = some t → t.content = .lent k n → (s.mem.lent[k]?).join = some xs → ∃ ys, (l[k]?).join = some ys ∧ xs.length ≤ ys.length) :
    Inv ⟨{ s.mem with lent := l }, s.objs⟩ ⟨l, w.things⟩ := by
  refine ⟨rfl, h.length, fun i => ?_, h.distinct, h.owned⟩
  have hi := h.same i
  show Same _ (s.live i) (w.live i)
  cases ho : s.live i with
  | none => rw [ho] at hi; cases ht : w.live i with
    | none => trivial
    | some t => rw [ht] at hi; cases hi
  | some o =>
    rw [ho] at hi
    cases ht : w.live i with
    | none => rw [ht] at hi; cases hi
    | some t =>
      rw [ht] at hi
      obtain ⟨h1, h2, h3, h4⟩ := hi
      exact ⟨h1, h2, h3, h4.frame (fun _ _ => rfl) (fun k n xs hc hk => hl i t k n xs ht hc hk)⟩

theorem inv_poke {m : Mem} {a : Arr} {xs : List UInt8} (h : Stored m a xs) (off : Nat) (x : UInt8) :
    ∃ m' a', (if off < a.length then (m.write a.bytes off [some x]).map fun m => (m, a) else some (m, a)) = some (m', a') ∧ Stored m' a' (xs.set off x) ∧
      Upd m a.block m' a'.block := by
  obtain ⟨A, hA, h1, h2, h3⟩ := h
  have hl : a.length = xs.length := by rw [h1, hA.1, List.length_map]
  by_cases ho : off < a.length
  · rw [if_pos ho]
    cases hb : A.bytes with
    | none =>
      have := hA.2; rw [hb] at this
      have : xs = [] := by simpa using this.1
      subst this; simp at hl; omega
    | some y =>
      rw [hb] at h3
      obtain ⟨b, h4, h5⟩ := h3
      have hR := hA.2; rw [hb] at hR
      obtain ⟨r1, r2, r3, r4⟩ := hR
      have hy : off < y.length := by simp at r2; omega
      have hw : y.write off [some x] = some (y.set off (some x)) := by
        unfold Block.write
        rw [if_pos (by simp; omega), List.set_eq_take_append_cons_drop, if_pos hy]
        simp
      have hbk : a.block = some b := by unfold Arr.block; rw [h4]
      rw [h4, write_own h5 hw, Option.map_some]
      refine ⟨_, _, rfl, ⟨⟨some (y.set off (some x)), A.length, A.maxLength⟩, ⟨?_, ?_⟩, h1, h2, b, h4, ?_⟩, ?_⟩
      · simp [hA.1]
      · simp only [List.length_map, List.length_set] at r1 r2 r4 ⊢
        refine ⟨r1, r2, r3, ?_⟩
        rw [List.take_set, r4, List.set_append_left _ _ (by simp; omega), List.map_set]
      · rw [blk_set _ _ _ _ (blk_lt h5), if_pos rfl]
      · rw [hbk]; exact Upd.set h5 _
  · rw [if_neg ho]
    refine ⟨m, a, rfl, ?_, Upd.refl _ _⟩
    have : xs.set off x = xs := List.set_eq_of_length_le (by omega)
    rw [this]; exact ⟨A, hA, h1, h2, h3⟩

/-- Giving up an object. -/
theorem drop_eq {m : Mem} {o : Obj} {c : Content} (h : Holds m o c) :
    ∃ m' m'', finalize m o.arr = some m' ∧ dealloc m' o.inner = some m'' ∧ Upd m o.arr.block m'' none := by
  cases c with
  | own xs =>
    rcases h with ⟨hin, A, hA, h1, h2, h3⟩ | ⟨_, h2, h3, h4⟩
    · rw [hin]
      cases hb : A.bytes with
      | none =>
        rw [hb] at h3
        have hbk : o.arr.block = none := by unfold Arr.block; simp only [] at h3; rw [h3]
        rw [hbk]
        exact ⟨m, m, by unfold finalize Arr.allocated; simp only [] at h3; simp [h3], rfl, Upd.refl _ _⟩
      | some y =>
        rw [hb] at h3
        obtain ⟨b, h4, h5⟩ := h3
        have hR := hA.2; rw [hb] at hR
        have hbk : o.arr.block = some b := by unfold Arr.block; rw [h4]
        rw [hbk]
        refine ⟨{ m with heap := m.heap.set b none }, { m with heap := m.heap.set b none }, ?_, rfl, Upd.free h5⟩
        unfold finalize Arr.allocated
        rw [if_pos (by rw [h4, h2]; simp only [Bool.and_eq_true, decide_eq_true_eq]; exact ⟨rfl, by omega⟩), h4, free_eq h5]
    · have hf : finalize m o.arr = some m := by unfold finalize Arr.allocated; simp [h2]
      rcases h4 with ⟨_, h5, h6⟩ | ⟨b, h5, h6, h7⟩
      · rw [h6]
        have hbk : o.arr.block = none := by unfold Arr.block; rw [h5]
        rw [hbk]
        exact ⟨m, m, hf, rfl, Upd.refl _ _⟩
      · rw [h5]
        have hbk : o.arr.block = some b := by unfold Arr.block; rw [h6]
        rw [hbk]
        exact ⟨m, { m with heap := m.heap.set b none }, hf, free_eq h7, Upd.free h7⟩
  | lent k n =>
    obtain ⟨_, hin, h3, _⟩ := h
    rw [hin, h3]
    exact ⟨m, m, rfl, rfl, Upd.refl _ _⟩

theorem reserve_init (m : Mem) (n : Nat) : ∃ m' a', reserve m .init n = some (m', a') ∧ Stored m' a' [] ∧ Upd m none m' a'.block := by
  unfold reserve
  by_cases h : 0 < n
  · rw [if_pos (show Arr.init.max < (n : Int) by show (0 : Int) < n; omega)]
    simp only [moveTo]
    generalize hs : (if n < BArray.minSize then BArray.minSize else n) = size
    have hsz : 0 < size := by rw [← hs]; unfold BArray.minSize; split <;> omega
    rw [if_neg (by decide), Option.bind_some]
    have hl : (m.push (malloc UInt8 (size + BArray.termSize))).heap.length - 1 = m.heap.length := by simp [Mem.push]
    rw [hl]
    have b1 : (m.push (malloc UInt8 (size + BArray.termSize))).blk m.heap.length = some (malloc UInt8 (size + BArray.termSize)) := by rw [blk_push, if_pos rfl]
    have hw : (malloc UInt8 (size + BArray.termSize)).write 0 [some 0, some 0, some 0, some 0] =
        some (List.replicate 4 (some 0) ++ List.replicate size none) := by
      unfold Block.write malloc BArray.termSize
      rw [if_pos (by simp)]
      simp [List.replicate]
    simp only [terminate, Arr.init, write_own b1 hw, Option.map_some]
    refine ⟨_, _, rfl, ⟨⟨some (List.replicate 4 (some 0) ++ List.replicate size none), 0, size⟩, ⟨rfl, ?_, Nat.zero_le _, hsz, ?_⟩, rfl, rfl, _, rfl, ?_⟩,
      (Upd.push m _).trans (Upd.set b1 _) rfl⟩
    · simp
    · exact List.take_left' (by simp)
    · rw [blk_set _ _ _ _ (blk_lt b1), if_pos rfl]
  · rw [if_neg (show ¬ Arr.init.max < (n : Int) by show ¬ (0 : Int) < n; omega)]
    exact ⟨m, .init, rfl, stored_init m, Upd.refl _ _⟩

theorem inv_step {s : State} {w : World} (h : Inv s w) (op : Op) {r : World × Out} (hr : Plain.step w op = some r) :
    ∃ s', step s op = some (s', r.2) ∧ Inv s' r.1 := by
  cases op with
  | callerNew xs =>
    simp only [Plain.step, Option.some.injEq] at hr
    subst hr
    refine ⟨_, rfl, ?_⟩
    rw [h.lent]
    refine inv_lent h _ (fun i t k n ys _ _ hk => ⟨ys, ?_, Nat.le_refl _⟩)
    rw [push_live, if_neg (fun e => ?_), ← h.lent]; exact hk
    rw [h.lent, e, List.getElem?_eq_none (Nat.le_refl _)] at hk; cases hk
  | callerWrite k off xs =>
    simp only [Plain.step, Option.bind_eq_some_iff] at hr
    obtain ⟨old, h1, h2⟩ := hr
    by_cases hle : off + xs.length ≤ old.length
    · rw [if_pos hle, Option.some.injEq] at h2
      subst h2
      simp only [step, h.lent, h1, Option.bind_some, if_pos hle]
      refine ⟨_, rfl, inv_lent h _ (fun i t j n ys _ _ hj => ?_)⟩
      rw [h.lent] at hj
      have hk : k < w.lent.length := by
        by_cases hk : k < w.lent.length
        · exact hk
        · rw [List.getElem?_eq_none (by omega)] at h1; cases h1
      rw [set_live _ _ _ _ hk]
      by_cases e : j = k
      · subst e
        rw [if_pos rfl]
        rw [h1] at hj; cases hj
        exact ⟨_, rfl, by simp; omega⟩
      · rw [if_neg e]; exact ⟨ys, hj, Nat.le_refl _⟩
    · rw [if_neg hle] at h2; cases h2
  | callerFree k =>
    simp only [Plain.step, Option.bind_eq_some_iff] at hr
    obtain ⟨old, h1, h2⟩ := hr
    by_cases hsh : w.shown k = true
    · rw [if_pos hsh] at h2; cases h2
    · rw [if_neg hsh, Option.some.injEq] at h2
      subst h2
      simp only [step, h.lent, h1, Option.map_some]
      refine ⟨_, rfl, inv_lent h _ (fun i t j n ys ht hc hj => ?_)⟩
      rw [h.lent] at hj
      have hk : k < w.lent.length := by
        by_cases hk : k < w.lent.length
        · exact hk
        · rw [List.getElem?_eq_none (by omega)] at h1; cases h1
      rw [set_live _ _ _ _ hk, if_neg]
      · exact ⟨ys, hj, Nat.le_refl _⟩
      · intro e
        subst e
        apply hsh
        unfold World.shown
        rw [List.any_eq_true]
        refine ⟨some t, ?_, by simp [hc, Content.shows]⟩
        unfold World.live at ht
        have : w.things[i]? = some (some t) := by
          cases hi : w.things[i]? with
          | none => rw [hi] at ht; cases ht
          | some z => rw [hi] at ht; simp only [Option.join_some] at ht; rw [ht]
        exact List.mem_of_getElem? this
  | data isMutable xs =>
    simp only [Plain.step, Option.some.injEq] at hr
    subst hr
    exact inv_newBytes h false isMutable (steady_bytes _ _ xs)
  | dataLength isMutable n =>
    simp only [Plain.step, Option.some.injEq] at hr
    subst hr
    have := inv_newBytes h false isMutable (steady_null s.mem none n)
    rw [List.length_replicate] at this
    exact this
  | capacity isString n =>
    simp only [Plain.step, Option.some.injEq] at hr
    subst hr
    obtain ⟨m', a', g1, g2, g3⟩ := reserve_init s.mem n
    simp only [step, g1, Option.map_some]
    obtain ⟨k1, k2⟩ := h.add (o' := ⟨isString, true, 1, a', none⟩) (t' := ⟨isString, true, 1, .own []⟩) g3 ⟨rfl, rfl, rfl, .inl ⟨rfl, g2⟩⟩
    exact ⟨_, by rw [← k2], k1⟩
  | dataNoCopy isMutable k n =>
    simp only [Plain.step, Option.bind_eq_some_iff] at hr
    obtain ⟨xs, h1, h2⟩ := hr
    by_cases hc : isMutable = false ∧ n ≤ xs.length
    · rw [if_pos hc, Option.some.injEq] at h2
      subst h2
      obtain ⟨rfl, hn⟩ := hc
      simp only [step]
      obtain ⟨k1, k2⟩ := h.add (m' := s.mem) (o' := ⟨false, false, 1, .external (.lent k) n, none⟩) (t' := ⟨false, false, 1, .lent k n⟩) (Upd.refl _ _)
        ⟨rfl, rfl, rfl, rfl, rfl, rfl, xs, by rw [h.lent]; exact h1, hn⟩
      exact ⟨_, by rw [← k2], k1⟩
    · rw [if_neg hc] at h2; cases h2
  | string isMutable xs =>
    simp only [Plain.step, Option.some.injEq] at hr
    subst hr
    simp only [step]
    cases isMutable with
    | true => exact inv_newBytes h true true (steady_bytes _ _ xs)
    | false => exact inv_newString h (steady_bytes s.mem none xs s.mem none (Upd.refl _ _))
  | stringNoCopy k =>
    simp only [Plain.step, Option.bind_eq_some_iff] at hr
    obtain ⟨xs, h1, h2⟩ := hr
    by_cases hc : 0 ∈ xs
    · rw [if_pos hc, Option.some.injEq] at h2
      subst h2
      simp only [step, h.lent, h1, Option.bind_some, strlen, if_pos hc, Option.map_some]
      obtain ⟨k1, k2⟩ := h.add (m' := s.mem) (o' := ⟨true, false, 1, .external (.lent k) (xs.takeWhile (· ≠ 0)).length, none⟩)
        (t' := ⟨true, false, 1, .lent k (xs.takeWhile (· ≠ 0)).length⟩) (Upd.refl _ _)
        ⟨rfl, rfl, rfl, rfl, rfl, rfl, xs, by rw [h.lent]; exact h1, (List.takeWhile_prefix _).length_le⟩
      exact ⟨_, by rw [← k2], k1⟩
    · rw [if_neg hc] at h2; cases h2
  | retain i =>
    simp only [Plain.step, Option.map_eq_some_iff] at hr
    obtain ⟨t, ht, rfl⟩ := hr
    obtain ⟨o, ho, h1, h2, h3, h4⟩ := h.get ht
    simp only [step, ho, Option.map_some]
    exact ⟨_, rfl, h.put ho (o' := some { o with rc := o.rc + 1 }) (t' := some { t with rc := t.rc + 1 }) (Upd.refl _ _)
      ⟨h1, h2, by rw [h3], h4.frame (fun _ _ => rfl) (fun k n xs _ hk => ⟨xs, hk, Nat.le_refl _⟩)⟩⟩
  | release i =>
    simp only [Plain.step, Option.map_eq_some_iff] at hr
    obtain ⟨t, ht, rfl⟩ := hr
    obtain ⟨o, ho, h1, h2, h3, h4⟩ := h.get ht
    simp only [step, ho, Option.bind_some]
    by_cases hrc : t.rc > 1
    · rw [if_pos (by rw [h3]; exact hrc), if_pos hrc]
      exact ⟨_, rfl, h.put ho (o' := some { o with rc := o.rc - 1 }) (t' := some { t with rc := t.rc - 1 }) (Upd.refl _ _)
        ⟨h1, h2, by rw [h3], h4.frame (fun _ _ => rfl) (fun k n xs _ hk => ⟨xs, hk, Nat.le_refl _⟩)⟩⟩
    · rw [if_neg (by rw [h3]; exact hrc), if_neg hrc]
      obtain ⟨m', m'', g1, g2, g3⟩ := drop_eq h4
      simp only [g1, Option.bind_some, g2, Option.map_some]
      exact ⟨_, rfl, h.put ho (o' := none) (t' := none) g3 trivial⟩
  | copy i =>
    simp only [Plain.step, Option.map_eq_some_iff] at hr
    obtain ⟨t, ht, rfl⟩ := hr
    obtain ⟨o, ho, h1, h2, h3, h4⟩ := h.get ht
    simp only [step, ho, Option.bind_some]
    by_cases hm : t.isMutable = true
    · rw [if_pos (by rw [h2]; exact hm), if_pos hm]
      have hst := steady_storage h4 h.lent (old := none) (fun _ _ => nofun)
      have hlen := (h4.cells h.lent).1
      unfold copyOf
      rw [hlen, h1]
      cases hs : t.isString with
      | true => exact inv_newString h (hst s.mem none (Upd.refl _ _))
      | false => exact inv_newBytes h false true hst
    · rw [if_neg (by rw [h2]; exact hm), if_neg hm]
      exact ⟨_, rfl, h.put ho (o' := some { o with rc := o.rc + 1 }) (t' := some { t with rc := t.rc + 1 }) (Upd.refl _ _)
        ⟨h1, h2, by rw [h3], h4.frame (fun _ _ => rfl) (fun k n xs _ hk => ⟨xs, hk, Nat.le_refl _⟩)⟩⟩
  | mutableCopy i =>
    simp only [Plain.step, Option.map_eq_some_iff] at hr
    obtain ⟨t, ht, rfl⟩ := hr
    obtain ⟨o, ho, h1, h2, h3, h4⟩ := h.get ht
    simp only [step, ho, Option.bind_some]
    have hst := steady_storage h4 h.lent (old := none) (fun _ _ => nofun)
    have hlen := (h4.cells h.lent).1
    unfold copyOf
    rw [hlen, h1, if_neg (by simp)]
    exact inv_newBytes h t.isString true hst
  | makeImmutable i =>
    simp only [Plain.step, Option.map_eq_some_iff] at hr
    obtain ⟨t, ht, rfl⟩ := hr
    obtain ⟨o, ho, h1, h2, h3, h4⟩ := h.get ht
    simp only [step, ho, Option.map_some]
    refine ⟨_, rfl, h.put ho (o' := some { o with isMutable := false }) (t' := some { t with isMutable := false }) (Upd.refl _ _) ⟨h1, rfl, h3, ?_⟩⟩
    cases hc : t.content with
    | own xs =>
      rw [hc] at h4
      rcases h4 with h4 | ⟨_, h4⟩
      · exact .inl h4
      · exact .inr ⟨rfl, h4⟩
    | lent k n =>
      rw [hc] at h4
      exact ⟨rfl, h4.2⟩
  | replace i loc len xs =>
    simp only [Plain.step] at hr
    refine inv_edit h hr (fun o ys ho hst => ?_)
    have hl : o.arr.length = ys.length := by obtain ⟨A, hA, h1, _⟩ := hst; rw [h1, hA.1, List.length_map]
    by_cases hle : loc + len ≤ ys.length
    · rw [if_pos (by rw [hl]; exact hle), if_pos hle]
      exact stored_replace hst hle (steady_bytes _ _ xs)
    · rw [if_neg (by rw [hl]; exact hle), if_neg hle]
      exact ⟨_, _, rfl, hst, Upd.refl _ _⟩
  | appendData i j =>
    simp only [Plain.step] at hr
    by_cases hij : i = j
    · rw [if_pos hij] at hr; cases hr
    · rw [if_neg hij, Option.bind_eq_some_iff] at hr
      obtain ⟨t, ht, hr⟩ := hr
      obtain ⟨d, hd, h1, h2, h3, h4⟩ := h.get ht
      simp only [step, hd, Option.bind_some]
      refine inv_edit h hr (fun o ys ho hst => ?_)
      have hl : o.arr.length = ys.length := by obtain ⟨A, hA, h1, _⟩ := hst; rw [h1, hA.1, List.length_map]
      have hss := steady_storage h4 h.lent (old := o.arr.block) (fun b hb hb' => hij (h.distinct i j o d b ho hd hb' hb))
      have := stored_replace hst (loc := ys.length) (len := 0) (Nat.le_refl _) hss
      rw [hl, (h4.cells h.lent).1]
      have e : Duck.Spec.splice ys ys.length 0 (w.bytes t.content) = ys ++ w.bytes t.content := by simp [Duck.Spec.splice]
      rw [e] at this
      exact this
  | setLength i n =>
    simp only [Plain.step] at hr
    refine inv_edit h hr (fun o ys ho hst => ?_)
    have hl : o.arr.length = ys.length := by obtain ⟨A, hA, h1, _⟩ := hst; rw [h1, hA.1, List.length_map]
    rw [hl]
    by_cases h1 : ys.length < n
    · rw [if_pos h1]
      have := stored_replace hst (loc := ys.length) (len := 0) (Nat.le_refl _) (steady_null s.mem o.arr.block (n - ys.length))
      have e : Duck.Spec.splice ys ys.length 0 (List.replicate (n - ys.length) 0) = ys.take n ++ List.replicate (n - ys.length) 0 := by
        simp [Duck.Spec.splice, List.take_of_length_le (show ys.length ≤ n by omega)]
      rw [List.length_replicate, e] at this
      exact this
    · rw [if_neg h1]
      by_cases h2 : n < ys.length
      · rw [if_pos h2]
        have := stored_replace hst (loc := n) (len := ys.length - n) (by omega) (steady_null s.mem o.arr.block 0)
        have e : Duck.Spec.splice ys n (ys.length - n) (List.replicate 0 0) = ys.take n ++ List.replicate (n - ys.length) 0 := by
          have e1 : n - ys.length = 0 := by omega
          have e2 : n + (ys.length - n) = ys.length := by omega
          simp [Duck.Spec.splice, e1, e2]
        rw [e] at this
        exact this
      · rw [if_neg h2]
        have e : ys.take n ++ List.replicate (n - ys.length) 0 = ys := by
          have e1 : n = ys.length := by omega
          subst e1; simp
        rw [e]
        exact ⟨_, _, rfl, hst, Upd.refl _ _⟩
  | poke i off x =>
    simp only [Plain.step] at hr
    exact inv_edit h hr (fun o ys ho hst => inv_poke hst off x)
  | read i =>
    simp only [Plain.step, Option.map_eq_some_iff] at hr
    obtain ⟨t, ht, rfl⟩ := hr
    obtain ⟨o, ho, h1, h2, h3, h4⟩ := h.get ht
    simp only [step, ho, Option.bind_some, h4.read h.lent, Option.map_some]
    exact ⟨s, rfl, h⟩

theorem inv_start : Inv start Plain.start :=
  ⟨rfl, rfl, fun _ => trivial, (fun _ _ _ _ _ h => by cases h), (fun b x h => by cases h)⟩

theorem inv_run : ∀ (ops : List Op) {s : State} {w : World} {q : World × List Out}, Inv s w → Plain.run w ops = some q →
    ∃ s', run s ops = some (s', q.2) ∧ Inv s' q.1
  | [], s, w, q, h, hq => by
    simp only [Plain.run, Option.some.injEq] at hq
    subst hq
    exact ⟨s, rfl, h⟩
  | op :: ops, s, w, q, h, hq => by
    simp only [Plain.run, Option.bind_eq_some_iff, Option.map_eq_some_iff] at hq
    obtain ⟨r, h1, p, h2, rfl⟩ := hq
    obtain ⟨s1, g1, g2⟩ := inv_step h op h1
    obtain ⟨s2, g3, g4⟩ := inv_run ops g2 h2
    exact ⟨s2, by simp only [run, g1, Option.bind_some, g3, Option.map_some], g4⟩

end External
end Duck
