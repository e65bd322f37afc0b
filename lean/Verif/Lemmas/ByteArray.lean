import Verif.Spec.ByteArray
import Verif.Lemmas.GenericArray
namespace Duck
namespace BArray
open GArray (read_eq write_eq length_write take_write)

/-- Internal representation relation on exact cells. -/
def Rep (a : BArray) (cs : List (Option UInt8)) : Prop :=
  a.length = cs.length ∧
  match a.bytes with
  | none => cs = [] ∧ a.maxLength = 0
  | some b => b.length = a.maxLength + 4 ∧ cs.length ≤ a.maxLength ∧ 0 < a.maxLength ∧
      b.take (cs.length + 4) = cs ++ List.replicate 4 (some 0)

theorem Rep_init : Rep init [] := by simp [Rep, init]

theorem Rep.take {a : BArray} {cs} (h : Rep a cs) {b} (hb : a.bytes = some b) : b.take cs.length = cs := by
  obtain ⟨_, h⟩ := h; rw [hb] at h
  have := congrArg (List.take cs.length) h.2.2.2
  rw [List.take_take] at this
  simpa using this

theorem Rep.byteAt {a : BArray} {cs} (h : Rep a cs) (i : Nat) (hi : i < cs.length + 4) :
    a.byteAt i = ((cs ++ List.replicate 4 (some 0))[i]?).join := by
  obtain ⟨hl, h⟩ := h
  unfold BArray.byteAt
  cases hb : a.bytes with
  | none =>
    rw [hb] at h; obtain ⟨rfl, -⟩ := h
    have : i < 4 := by simpa using hi
    have h2 : ([] ++ List.replicate 4 (some (0 : UInt8)))[i]? = some (some 0) := by
      rw [List.nil_append, List.getElem?_replicate, if_pos this]
    rw [h2]; simp [termSize, this]
  | some b =>
    rw [hb] at h
    rw [← h.2.2.2, List.getElem?_take_of_lt hi]

theorem copyIf_cells {α : Type} {d s : Block α} {doff soff n : Nat} (h1 : soff + n ≤ s.length) (h2 : doff + n ≤ d.length) :
    ∃ d', d.copyIf doff s soff n = some d' ∧ d'.length = d.length ∧
      d'.take doff = d.take doff ∧ (d'.drop doff).take n = (s.drop soff).take n := by
  unfold Block.copyIf
  by_cases hn : n > 0
  · simp only [hn, if_true]
    rw [read_eq h1]
    simp only [Option.bind_some]
    have hlen : ((s.drop soff).take n).length = n := by simp; omega
    rw [write_eq (by rw [hlen]; exact h2)]
    refine ⟨_, rfl, by simp; omega, ?_, ?_⟩
    · rw [List.append_assoc, List.take_append_of_le_length (by simp; omega), List.take_take]; simp
    · have e : doff = (d.take doff).length := by simp; omega
      rw [List.append_assoc]
      conv => lhs; rhs; lhs; rw [e]
      rw [List.drop_left, List.take_append_of_le_length (by omega), List.take_of_length_le (by omega)]
  · have : n = 0 := by omega
    subst this
    exact ⟨d, by simp, rfl, rfl, by simp⟩

theorem setNull_rep {b : Block UInt8} {cs : List (Option UInt8)} {L mx : Nat} (hb : b.length = mx + 4)
    (hL : L = cs.length) (hx : cs.length ≤ mx) (hmx : 0 < mx) (ht : b.take cs.length = cs) :
    ∃ a', setNullTerminator ⟨some b, L, mx⟩ = some a' ∧ Rep a' cs ∧ a'.maxLength = mx := by
  subst hL
  unfold setNullTerminator
  have hw := write_eq (b := b) (off := cs.length) (src := [some 0, some 0, some 0, some 0]) (by simp; omega)
  simp only [hw, Option.map_some]
  refine ⟨_, rfl, ⟨rfl, ?_, hx, hmx, ?_⟩, rfl⟩
  · rw [length_write hw, hb]
  · have := take_write hw
    change List.take (cs.length + 4) _ = _ at this
    rw [this, ht]; rfl

theorem reserve_rep {a : BArray} {cs} (h : Rep a cs) (n : Nat) :
    ∃ a', a.reserve n = some a' ∧ Rep a' cs ∧ n ≤ a'.maxLength := by
  have hR := h
  obtain ⟨hl, h⟩ := h
  unfold reserve
  by_cases hn : a.maxLength < n
  · simp only [hn, if_true]
    have hm : n ≤ (if n < minSize then minSize else n) := by split <;> omega
    generalize (if n < minSize then minSize else n) = m at hm ⊢
    cases he : a.bytes with
    | none =>
      rw [he] at h; obtain ⟨rfl, h0⟩ := h
      simp only [Option.bind_some]
      obtain ⟨a', h1, h2, h3⟩ := setNull_rep (b := malloc UInt8 (m + termSize)) (cs := []) (L := a.length) (mx := m)
        (by simp [malloc, termSize]) hl (by simp) (by omega) (by simp)
      exact ⟨a', h1, h2, by omega⟩
    | some b =>
      have ht := hR.take he
      rw [he] at h; obtain ⟨hb, hx, hpos, -⟩ := h
      obtain ⟨d', hd, hdl, -, hdc⟩ := copyIf_cells (d := malloc UInt8 (m + termSize)) (s := b) (doff := 0) (soff := 0)
        (n := cs.length) (by omega) (by simp [malloc]; omega)
      simp only [gt_iff_lt, hpos, if_true, hl, hd, Option.bind_some]
      obtain ⟨a', h1, h2, h3⟩ := setNull_rep (b := d') (cs := cs) (L := cs.length) (mx := m)
        (by rw [hdl]; simp [malloc, termSize]) rfl (by omega) (by omega) (by
          simp only [List.drop_zero] at hdc
          rw [hdc, ht])
      exact ⟨a', h1, h2, by omega⟩
  · simp only [hn, if_false]
    exact ⟨a, rfl, hR, by omega⟩

theorem setLength_rep {a : BArray} {cs} (h : Rep a cs) (n : Nat) :
    ∃ a' cs', a.setLength n = some a' ∧ Rep a' cs' ∧ cs'.length = n ∧ ∀ i, i < cs.length → i < n → cs'[i]? = cs[i]? := by
  obtain ⟨a1, h1, h2, h3⟩ := reserve_rep h n
  unfold setLength
  rw [h1]; simp only [Option.bind_some]
  have hR := h2
  obtain ⟨hl, h2⟩ := h2
  cases he : a1.bytes with
  | none =>
    rw [he] at h2; obtain ⟨rfl, h0⟩ := h2
    have : n = 0 := by omega
    subst this
    exact ⟨⟨none, 0, a1.maxLength⟩, [], by simp [setNullTerminator], ⟨by simp, by simp [h0]⟩, by simp, by simp⟩
  | some b =>
    have ht := hR.take he
    rw [he] at h2; obtain ⟨hb, hx, hpos, -⟩ := h2
    obtain ⟨a', g1, g2, g3⟩ := setNull_rep (b := b) (cs := b.take n) (L := n) (mx := a1.maxLength) hb
      (by simp; omega) (by simp; omega) hpos (by simp)
    refine ⟨a', b.take n, by simpa using g1, g2, by simp; omega, ?_⟩
    intro i hi hin
    rw [← ht, List.getElem?_take_of_lt hin, List.getElem?_take_of_lt hi]

theorem le_resizeLength (m n : Nat) : n ≤ resizeLength m n ∧ 0 < resizeLength m n := by
  unfold resizeLength minSize; split
  · constructor <;> omega
  · simp only []; split <;> split <;> omega

/-- The value of the bytes argument when it does not alias the array. -/
def srcValue (n : Nat) : GArray.Src UInt8 → Option (List (Option UInt8))
  | .null => some (List.replicate n (some 0))
  | .ext xs => if n ≤ xs.length then some ((xs.take n).map some) else none
  | .self _ => none

theorem replace_rep {a : BArray} {cs} (h : Rep a cs) {loc len n : Nat} {src : GArray.Src UInt8}
    {ys} (hr : loc + len ≤ cs.length) (hs : srcValue n src = some ys) :
    ∃ a', a.replaceBytes loc len src n = some a' ∧ Rep a' (Spec.splice cs loc len ys) := by
  have hyl : ys.length = n := by
    cases src <;> simp [srcValue] at hs
    · subst hs; simp
    · obtain ⟨h1, rfl⟩ := hs; simp; omega
  have hR := h
  obtain ⟨hl, h⟩ := h
  unfold replaceBytes
  by_cases h00 : len = 0 ∧ n = 0
  · simp only [h00, and_self, if_true]
    refine ⟨a, rfl, ?_⟩
    obtain ⟨rfl, rfl⟩ := h00
    have : ys = [] := List.eq_nil_of_length_eq_zero hyl
    subst this
    have : Spec.splice cs loc 0 [] = cs := by simp [Spec.splice]
    rw [this]; exact hR
  · simp only [h00, if_false]
    have hsl : (Spec.splice cs loc len ys).length = cs.length + n - len := by
      simp [Spec.splice]; omega
    have hcells : ∀ (keep : Bool) (blk : Block UInt8), srcCells src loc n keep blk = some ys := by
      intro keep blk
      unfold srcCells
      cases src with
      | null => simp [srcValue] at hs; subst hs; simp
      | ext zs => simp [srcValue] at hs; obtain ⟨h1, rfl⟩ := hs; simp [h1]
      | self o => simp [srcValue] at hs
    have finish : ∀ (blk : Block UInt8) (keep : Bool) (mx : Nat), blk.length = mx + 4 → cs.length + n - len ≤ mx → 0 < mx →
        blk.take loc = cs.take loc →
        (blk.drop (loc + n)).take (cs.length - (loc + len)) = cs.drop (loc + len) →
        ∃ a', ((if n > 0 then (srcCells src loc n keep blk).bind (fun cs => blk.write loc cs)
          else some blk).bind fun blk => setNullTerminator
            { bytes := some blk, length := cs.length + n - len, maxLength := mx }) = some a' ∧
          Rep a' (Spec.splice cs loc len ys) := by
      intro blk keep mx hbl hmx hpos hp hsuf
      by_cases hn : n > 0
      · simp only [hn, if_true]
        rw [hcells keep blk, Option.bind_some, write_eq (by omega), Option.bind_some]
        obtain ⟨a', g1, g2, -⟩ := setNull_rep (b := blk.take loc ++ ys ++ blk.drop (loc + ys.length))
          (cs := Spec.splice cs loc len ys) (L := cs.length + n - len) (mx := mx) (by simp; omega) hsl.symm
          (by omega) hpos (by
          rw [hsl]
          have e1 : cs.length + n - len = (blk.take loc ++ ys).length + (cs.length - (loc + len)) := by
            simp; omega
          rw [e1, List.take_length_add_append, hyl, hsuf, hp]
          simp [Spec.splice])
        exact ⟨a', g1, g2⟩
      · simp only [hn, if_false, Option.bind_some]
        have hn0 : n = 0 := by omega
        subst hn0
        have : ys = [] := List.eq_nil_of_length_eq_zero hyl
        subst this
        obtain ⟨a', g1, g2, -⟩ := setNull_rep (b := blk)
          (cs := Spec.splice cs loc len []) (L := cs.length + 0 - len) (mx := mx) hbl hsl.symm
          (by omega) hpos (by
          rw [hsl]
          have e1 : cs.length + 0 - len = (blk.take loc).length + (cs.length - (loc + len)) := by
              simp; omega
          have e2 : blk = blk.take loc ++ blk.drop (loc + 0) := by simp
          conv => lhs; rw [e1]; rhs; rw [e2]
          rw [List.take_length_add_append, hsuf, hp]
          simp [Spec.splice])
        exact ⟨a', g1, g2⟩
    have hmx := le_resizeLength a.maxLength (a.length + n - len)
    rw [hl] at hmx ⊢
    cases he : a.bytes with
    | none =>
      rw [he] at h; obtain ⟨rfl, hm0⟩ := h
      simp at hr; obtain ⟨rfl, rfl⟩ := hr
      have hk : decide (([] : List (Option UInt8)).length + n - 0 < a.maxLength) = false := by simp; omega
      simp only [hk]
      simp only [Bool.false_eq_true, if_false]
      exact finish _ false _ (by simp [malloc, termSize]) (by simpa using hmx.1) hmx.2 (by simp) (by simp)
    | some b =>
      have ht := hR.take he
      rw [he] at h; obtain ⟨hb, hx, hpos, -⟩ := h
      have hpre : b.take loc = cs.take loc := by
        conv => rhs; rw [← ht]
        rw [List.take_take]; congr 1; omega
      have hsufx : (b.drop (loc + len)).take (cs.length - (loc + len)) = cs.drop (loc + len) := by
        conv => rhs; rw [← ht]
        rw [List.drop_take]
      by_cases hk : cs.length + n - len < a.maxLength
      · have hk' : resizeLength a.maxLength (cs.length + n - len) = a.maxLength := by
          simp [resizeLength, hk]
        have hk'' : decide (cs.length + n - len < a.maxLength) = true := by simpa using hk
        simp only [hk', hk'', if_true]
        obtain ⟨d', hd, hdl, hdp, hdc⟩ := copyIf_cells (d := b) (s := b) (doff := loc + n) (soff := loc + len)
          (n := cs.length - (loc + len)) (by omega) (by omega)
        simp only [hd, Option.map_some]
        apply finish _ true _ (by omega) (by omega) hpos
        · have : d'.take loc = (d'.take (loc + n)).take loc := by rw [List.take_take]; congr 1; omega
          rw [this, hdp, List.take_take, ← hpre]; congr 1; omega
        · rw [hdc, hsufx]
      · have hk'' : decide (cs.length + n - len < a.maxLength) = false := by simpa using hk
        simp only [hk'']
        simp only [Bool.false_eq_true, if_false]
        generalize hM : resizeLength a.maxLength (cs.length + n - len) = M at hmx ⊢
        obtain ⟨f1, hf1, hf1l, -, hf1c⟩ := copyIf_cells (d := malloc UInt8 (M + termSize)) (s := b) (doff := 0) (soff := 0)
          (n := loc) (by omega) (by simp [malloc]; omega)
        simp only [malloc, termSize, List.length_replicate] at hf1l
        obtain ⟨d', hd, hdl, hdp, hdc⟩ := copyIf_cells (d := f1) (s := b) (doff := loc + n) (soff := loc + len)
          (n := cs.length - (loc + len)) (by omega) (by omega)
        simp only [hf1, Option.bind_some, hd, Option.map_some]
        apply finish _ false _ (by omega) hmx.1 hmx.2
        · have : d'.take loc = (d'.take (loc + n)).take loc := by rw [List.take_take]; congr 1; omega
          rw [this, hdp, List.take_take]
          have : min loc (loc + n) = loc := by omega
          rw [this]
          simp only [List.drop_zero] at hf1c
          rw [hf1c, hpre]
        · rw [hdc, hsufx]

theorem append_rep {a : BArray} {cs} (h : Rep a cs) {n : Nat} {src : GArray.Src UInt8}
    {ys} (hs : srcValue n src = some ys) :
    ∃ a', a.append src n = some a' ∧ Rep a' (cs ++ ys) := by
  obtain ⟨a', h1, h2⟩ := replace_rep h (loc := a.length) (len := 0) (by have := h.1; omega) hs
  refine ⟨a', h1, ?_⟩
  have : Spec.splice cs a.length 0 ys = cs ++ ys := by simp [Spec.splice, h.1]
  rwa [this] at h2

theorem align_rep {a : BArray} {cs} (h : Rep a cs) {n : Nat} (hn : n ≠ 0) :
    ∃ a', a.alignLength n = some (a', if cs.length % n = 0 then 0 else n - cs.length % n) ∧
      Rep a' (cs ++ List.replicate (if cs.length % n = 0 then 0 else n - cs.length % n) (some 0)) := by
  unfold alignLength
  rw [if_neg hn]
  by_cases hr : cs.length % n = 0
  · have : ¬ a.length % n > 0 := by rw [h.1]; omega
    simp only [this, if_false, hr, if_true]
    exact ⟨a, rfl, by simpa using h⟩
  · have : a.length % n > 0 := by rw [h.1]; omega
    simp only [this, if_true, hr, if_false]
    have hlt : cs.length % n < n := Nat.mod_lt _ (by omega)
    obtain ⟨a', h1, h2⟩ := append_rep h (n := n - a.length % n) (src := .null) rfl
    rw [h.1] at h1 h2 ⊢
    simp only [h1, Option.bind_some]
    have hR := h2
    obtain ⟨hl, h2⟩ := h2
    cases he : a'.bytes with
    | none =>
      rw [he] at h2
      have := congrArg List.length h2.1
      simp at this; omega
    | some b =>
      have ht := hR.take he
      rw [he] at h2; obtain ⟨hb, hx, hpos, ht4⟩ := h2
      simp only [List.length_append, List.length_replicate] at hx ht4 ht
      -- the extra memset rewrites the same zeros
      have hw := write_eq (b := b) (off := cs.length) (src := List.replicate (n - cs.length % n) (some 0))
        (by simp; omega)
      have hsame : b.take cs.length ++ List.replicate (n - cs.length % n) (some 0) ++
          b.drop (cs.length + (List.replicate (n - cs.length % n) (some (0 : UInt8))).length) = b := by
        have e : b.take (cs.length + (n - cs.length % n)) = b.take cs.length ++ List.replicate (n - cs.length % n) (some 0) := by
          rw [ht]
          have : b.take cs.length = (b.take (cs.length + (n - cs.length % n))).take cs.length := by
            rw [List.take_take]; congr 1; omega
          rw [this, ht]; simp
        rw [← e]; simp
      rw [hsame] at hw
      simp only [hw, Option.map_some]
      refine ⟨_, rfl, ?_⟩
      have : ({ a' with bytes := some b } : BArray) = a' := by cases a'; simp_all
      rw [this]; exact hR

/-- `cs` agrees with every specified byte of `xs`. -/
def Refines (cs xs : List (Option UInt8)) : Prop :=
  cs.length = xs.length ∧ ∀ (i : Nat) (b : UInt8), xs[i]? = some (some b) → cs[i]? = some (some b)

theorem Refines.refl (cs) : Refines cs cs := ⟨rfl, fun _ _ h => h⟩

theorem Refines.append {c1 x1 c2 x2} (h1 : Refines c1 x1) (h2 : Refines c2 x2) : Refines (c1 ++ c2) (x1 ++ x2) := by
  refine ⟨by simp [h1.1, h2.1], ?_⟩
  intro i b h
  by_cases hi : i < x1.length
  · rw [List.getElem?_append_left hi] at h
    rw [List.getElem?_append_left (by rw [h1.1]; exact hi)]
    exact h1.2 i b h
  · rw [List.getElem?_append_right (by omega)] at h
    rw [List.getElem?_append_right (by rw [h1.1]; omega), h1.1]
    exact h2.2 _ b h

theorem Refines.take {c x} (h : Refines c x) (n) : Refines (c.take n) (x.take n) := by
  refine ⟨by simp [h.1], ?_⟩
  intro i b hh
  rw [List.getElem?_take] at hh ⊢
  split at hh
  · next hi => simp only [hi, if_true]; exact h.2 i b hh
  · cases hh

theorem Refines.drop {c x} (h : Refines c x) (n) : Refines (c.drop n) (x.drop n) := by
  refine ⟨by simp [h.1], ?_⟩
  intro i b hh
  rw [List.getElem?_drop] at hh ⊢
  exact h.2 _ b hh

theorem Refines.splice {c x} (h : Refines c x) (loc len) (ys) :
    Refines (Spec.splice c loc len ys) (Spec.splice x loc len ys) :=
  ((h.take loc).append (.refl ys)).append (h.drop _)

theorem step_rep {a : BArray} {cs xs xs'} (h : Rep a cs) (hr : Refines cs xs) (op : Op)
    (hs : specStep xs op = some xs') : ∃ a' cs', step a op = some a' ∧ Rep a' cs' ∧ Refines cs' xs' := by
  cases op with
  | reserve n =>
    simp [specStep] at hs; subst hs
    obtain ⟨a', h1, h2, -⟩ := reserve_rep h n
    exact ⟨a', cs, h1, h2, hr⟩
  | setLength n =>
    simp [specStep] at hs; subst hs
    obtain ⟨a', cs', h1, h2, h3, h4⟩ := setLength_rep h n
    refine ⟨a', cs', h1, h2, by simp [h3]; omega, ?_⟩
    intro i b hb
    by_cases hi : i < (xs.take n).length
    · rw [List.getElem?_append_left hi] at hb
      simp only [List.length_take] at hi
      rw [List.getElem?_take_of_lt (by omega)] at hb
      rw [h4 i (by rw [hr.1]; omega) (by omega)]
      exact hr.2 i b hb
    · rw [List.getElem?_append_right (by omega), List.getElem?_replicate] at hb
      split at hb <;> simp at hb
  | replace loc len src n =>
    cases src with
    | null =>
      simp [specStep] at hs; obtain ⟨h1, rfl⟩ := hs
      obtain ⟨a', h3, h4⟩ := replace_rep h (loc := loc) (len := len) (n := n) (src := .null) (by rw [hr.1]; exact h1) rfl
      exact ⟨a', _, h3, h4, hr.splice _ _ _⟩
    | ext zs =>
      simp [specStep] at hs; obtain ⟨⟨h1, h2⟩, rfl⟩ := hs
      obtain ⟨a', h3, h4⟩ := replace_rep h (loc := loc) (len := len) (n := n) (src := .ext zs) (ys := (zs.take n).map some)
        (by rw [hr.1]; exact h1) (by simp [srcValue, h2])
      refine ⟨a', _, h3, h4, ?_⟩
      rw [← List.map_take]; exact hr.splice _ _ _
    | self o => simp [specStep] at hs
  | append src n =>
    cases src with
    | null =>
      simp [specStep] at hs; subst hs
      obtain ⟨a', h3, h4⟩ := append_rep h (n := n) (src := .null) rfl
      exact ⟨a', _, h3, h4, hr.append (.refl _)⟩
    | ext zs =>
      simp [specStep] at hs; obtain ⟨h2, rfl⟩ := hs
      obtain ⟨a', h3, h4⟩ := append_rep h (n := n) (src := .ext zs) (ys := (zs.take n).map some) (by simp [srcValue, h2])
      refine ⟨a', _, h3, h4, ?_⟩
      rw [← List.map_take]; exact hr.append (.refl _)
    | self o => simp [specStep] at hs
  | align n =>
    simp only [specStep] at hs
    by_cases hn : n = 0
    · simp [hn] at hs
    · simp only [hn, if_false, Option.some.injEq] at hs; subst hs
      obtain ⟨a', h3, h4⟩ := align_rep h hn
      refine ⟨a', _, by simp [step, h3], h4, ?_⟩
      rw [hr.1]; exact hr.append (.refl _)
  | finalize =>
    simp [specStep] at hs; subst hs
    exact ⟨_, [], rfl, Rep_init, .refl _⟩

theorem run_rep (ops : List Op) : ∀ {a : BArray} {cs xs xs'}, Rep a cs → Refines cs xs → specRun xs ops = some xs' →
    ∃ a' cs', run a ops = some a' ∧ Rep a' cs' ∧ Refines cs' xs' := by
  induction ops with
  | nil => intro a cs xs xs' h hr hs; simp [specRun] at hs; subst hs; exact ⟨a, cs, rfl, h, hr⟩
  | cons op ops ih =>
    intro a cs xs xs' h hr hs
    simp only [specRun, List.foldlM_cons] at hs
    cases hs1 : specStep xs op with
    | none => simp [hs1] at hs
    | some zs =>
      rw [hs1] at hs
      obtain ⟨a1, c1, ha1, hr1, hf1⟩ := step_rep h hr op hs1
      obtain ⟨a2, c2, ha2, hr2, hf2⟩ := ih hr1 hf1 hs
      exact ⟨a2, c2, by simp only [run, List.foldlM_cons, ha1]; exact ha2, hr2, hf2⟩

theorem Rep.observes {a : BArray} {cs xs} (h : Rep a cs) (hr : Refines cs xs) : Observes a xs ∧ Terminated a := by
  refine ⟨⟨by rw [h.1, hr.1], ?_⟩, ?_⟩
  · intro i b hb
    have hc := hr.2 i b hb
    have hi : i < cs.length := by
      rcases Nat.lt_or_ge i cs.length with h | h
      · exact h
      · rw [List.getElem?_eq_none h] at hc; cases hc
    rw [h.byteAt i (by omega), List.getElem?_append_left hi, hc]; rfl
  · intro k hk
    rw [h.1, h.byteAt _ (by omega), List.getElem?_append_right (by omega)]
    have : cs.length + k - cs.length = k := by omega
    rw [this, List.getElem?_replicate, if_pos hk]; rfl

end BArray
end Duck
