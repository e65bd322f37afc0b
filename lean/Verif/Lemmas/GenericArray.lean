import Verif.Model.GenericArray
import Verif.Spec.GenericArray
namespace Duck
namespace GArray
variable {α : Type}

/-- Internal representation relation: `a` holds exactly `xs`. -/
def Rep (a : GArray α) (xs : List α) : Prop :=
  a.length = xs.length ∧
  match a.elements with
  | none => xs = [] ∧ a.maxLength = 0
  | some b => b.length = a.maxLength ∧ xs.length ≤ a.maxLength ∧ b.take xs.length = xs.map some

theorem Rep_init : Rep (init : GArray α) [] := by simp [Rep, init]

theorem Rep.get_eq {a : GArray α} {xs : List α} (h : Rep a xs) (i : Nat) :
    a.get i = (xs[i]?).map some := by
  obtain ⟨hl, h⟩ := h
  unfold get
  by_cases hi : i < a.length
  · have hi' : i < xs.length := by omega
    simp only [hi, if_true]
    cases he : a.elements with
    | none => rw [he] at h; obtain ⟨rfl, -⟩ := h; simp at hi'
    | some b =>
      rw [he] at h; obtain ⟨hb, hx, ht⟩ := h
      have : (b.take xs.length)[i]? = (xs.map some)[i]? := by rw [ht]
      rw [List.getElem?_take_of_lt hi'] at this
      simp [this, hi']
  · have : ¬ i < xs.length := by omega
    simp [hi, List.getElem?_eq_none (Nat.le_of_not_lt this)]

theorem read_eq {b : Block α} {off n : Nat} (h : off + n ≤ b.length) :
    b.read off n = some ((b.drop off).take n) := by simp [Block.read, h]

theorem write_eq {b : Block α} {off : Nat} {src : List (Option α)} (h : off + src.length ≤ b.length) :
    b.write off src = some (b.take off ++ src ++ b.drop (off + src.length)) := by simp [Block.write, h]

theorem read_rep {b : Block α} {xs : List α} (ht : b.take xs.length = xs.map some)
    {off n : Nat} (h : off + n ≤ xs.length) (hb : xs.length ≤ b.length) :
    b.read off n = some (((xs.drop off).take n).map some) := by
  rw [read_eq (by omega)]
  have : (b.drop off).take n = ((b.take xs.length).drop off).take n := by
    rw [List.drop_take, List.take_take]; congr 1; omega
  rw [this, ht]; simp

theorem take_write {b b' : Block α} {off : Nat} {src : List (Option α)} (h : b.write off src = some b') :
    b'.take (off + src.length) = b.take off ++ src := by
  unfold Block.write at h; split at h
  · next hle =>
    cases h
    rw [List.take_append_of_le_length (by simp; omega)]
    apply List.take_of_length_le; simp; omega
  · cases h

theorem length_write {b b' : Block α} {off : Nat} {src : List (Option α)} (h : b.write off src = some b') :
    b'.length = b.length := by
  unfold Block.write at h; split at h
  · cases h; simp; omega
  · cases h

/-- Copying initialised cells: the copied region, the part before it, and the length. -/
theorem copyIf_rep {d s : Block α} {xs : List α} (ht : s.take xs.length = xs.map some) (hs : xs.length ≤ s.length)
    {doff soff n : Nat} (h1 : soff + n ≤ xs.length) (h2 : doff + n ≤ d.length) :
    ∃ d', d.copyIf doff s soff n = some d' ∧ d'.length = d.length ∧
      d'.take doff = d.take doff ∧ (d'.drop doff).take n = ((xs.drop soff).take n).map some := by
  unfold Block.copyIf
  by_cases hn : n > 0
  · simp only [hn, if_true]
    rw [read_rep ht h1 hs]
    simp only [Option.bind_some]
    have hlen : (((xs.drop soff).take n).map some).length = n := by simp; omega
    rw [write_eq (by rw [hlen]; exact h2)]
    refine ⟨_, rfl, by simp; omega, ?_, ?_⟩
    · rw [List.append_assoc, List.take_append_of_le_length (by simp; omega), List.take_take]; simp
    · have e : doff = (d.take doff).length := by simp; omega
      rw [List.append_assoc]
      conv => lhs; rhs; lhs; rw [e]
      rw [List.drop_left, List.take_append_of_le_length (by omega), List.take_of_length_le (by omega)]
  · have : n = 0 := by omega
    subst this
    exact ⟨d, by simp, rfl, rfl, by simp⟩

theorem reserve_rep {a : GArray α} {xs : List α} (h : Rep a xs) (n : Nat) :
    ∃ a', a.reserve n = some a' ∧ Rep a' xs ∧ n ≤ a'.maxLength := by
  obtain ⟨hl, h⟩ := h
  unfold reserve
  by_cases hn : a.maxLength < n
  · simp only [hn, if_true]
    have hm : n ≤ (if n < minSize then minSize else n) := by split <;> omega
    generalize (if n < minSize then minSize else n) = m at hm ⊢
    cases he : a.elements with
    | none =>
      rw [he] at h; obtain ⟨rfl, h0⟩ := h
      exact ⟨_, rfl, by simp [Rep, malloc]; simpa using hl, hm⟩
    | some b =>
      rw [he] at h; obtain ⟨hb, hx, ht⟩ := h
      obtain ⟨d', hd, hdl, -, hdc⟩ := copyIf_rep (d := malloc α m) ht (by omega) (doff := 0) (soff := 0) (n := xs.length)
        (by omega) (by simp [malloc]; omega)
      simp only [hl, hd, Option.map_some]
      refine ⟨_, rfl, ⟨rfl, ?_⟩, hm⟩
      simp only [malloc, List.length_replicate] at hdl
      refine ⟨hdl, by simp only []; omega, by simpa using hdc⟩
  · simp only [hn, if_false]
    exact ⟨a, rfl, ⟨hl, h⟩, by omega⟩

theorem le_resizeLength (m n : Nat) : n ≤ resizeLength m n := by
  unfold resizeLength; split
  · assumption
  · simp only []; split <;> split <;> omega

/-- The value of the `elements`/`length` arguments when they do not alias the array. -/
def Src.value (zero : α) (n : Nat) : Src α → Option (List α)
  | .null => some (List.replicate n zero)
  | .ext xs => if n ≤ xs.length then some (xs.take n) else none
  | .self _ => none

theorem Src.value_length {zero : α} {n : Nat} {s : Src α} {ys} (h : s.value zero n = some ys) : ys.length = n := by
  cases s <;> simp [Src.value] at h
  · subst h; simp
  · obtain ⟨h1, rfl⟩ := h; simp; omega

theorem replace_rep (zero : α) {a : GArray α} {xs : List α} (h : Rep a xs) {loc len n : Nat} {src : Src α}
    {ys : List α} (hr : loc + len ≤ xs.length) (hs : src.value zero n = some ys) :
    ∃ a', a.replaceElements zero loc len src n = some a' ∧ Rep a' (Spec.splice xs loc len ys) := by
  have hyl := Src.value_length hs
  obtain ⟨hl, h⟩ := h
  unfold replaceElements
  by_cases h00 : len = 0 ∧ n = 0
  · simp only [h00, and_self, if_true]
    refine ⟨a, rfl, ?_⟩
    obtain ⟨rfl, rfl⟩ := h00
    have : ys = [] := List.eq_nil_of_length_eq_zero hyl
    subst this
    have : Spec.splice xs loc 0 [] = xs := by simp [Spec.splice]
    rw [this]; exact ⟨hl, h⟩
  · simp only [h00, if_false]
    have hsl : (Spec.splice xs loc len ys).length = xs.length + n - len := by
      simp [Spec.splice]; omega
    -- cells to be written
    have hcells : ∀ (keep : Bool) (blk : Block α), srcCells zero src loc n keep blk = some (ys.map some) := by
      intro keep blk
      unfold srcCells
      cases src with
      | null => simp [Src.value] at hs; subst hs; simp
      | ext zs => simp [Src.value] at hs; obtain ⟨h1, rfl⟩ := hs; simp [h1]
      | self o => simp [Src.value] at hs
    -- final insertion step
    have finish : ∀ (blk : Block α) (keep : Bool) (mx : Nat), blk.length = mx → xs.length + n - len ≤ mx →
        blk.take loc = (xs.take loc).map some →
        (blk.drop (loc + n)).take (xs.length - (loc + len)) = (xs.drop (loc + len)).map some →
        ∃ a', (if n > 0 then
        ((srcCells zero src loc n keep blk).bind (fun cs => blk.write loc cs)).map fun blk =>
          { elements := some blk, length := xs.length + n - len, maxLength := mx }
        else some { elements := some blk, length := xs.length + n - len, maxLength := mx }) = some a' ∧
          Rep a' (Spec.splice xs loc len ys) := by
      intro blk keep mx hbl hmx hp hsuf
      by_cases hn : n > 0
      · simp only [hn, if_true]
        rw [hcells keep blk, Option.bind_some, write_eq (by simp; omega), Option.map_some]
        refine ⟨_, rfl, hsl.symm, ?_, ?_, ?_⟩
        · simp; omega
        · rw [hsl]; exact hmx
        · rw [hsl]
          have e1 : xs.length + n - len = (blk.take loc ++ ys.map some).length + (xs.length - (loc + len)) := by
            simp; omega
          have e2 : loc + (List.map some ys).length = loc + n := by simp; omega
          rw [e1, List.take_length_add_append, e2, hsuf, hp]
          simp [Spec.splice]
      · simp only [hn, if_false]
        have hn0 : n = 0 := by omega
        subst hn0
        have : ys = [] := List.eq_nil_of_length_eq_zero hyl
        subst this
        refine ⟨_, rfl, hsl.symm, hbl, by rw [hsl]; exact hmx, ?_⟩
        rw [hsl]
        have e1 : xs.length + 0 - len = (blk.take loc).length + (xs.length - (loc + len)) := by
            simp; omega
        have e2 : blk = blk.take loc ++ blk.drop (loc + 0) := by simp
        conv => lhs; rw [e1]; rhs; rw [e2]
        rw [List.take_length_add_append, hsuf, hp]
        simp [Spec.splice]
    have hmx := le_resizeLength a.maxLength (a.length + n - len)
    rw [hl] at hmx ⊢
    cases he : a.elements with
    | none =>
      rw [he] at h; obtain ⟨rfl, hm0⟩ := h
      simp at hr; obtain ⟨rfl, rfl⟩ := hr
      have hnpos : 0 < n := by omega
      have hk : decide (([] : List α).length + n - 0 ≤ a.maxLength) = false := by simp; omega
      simp only [hk]
      simp only [Bool.false_eq_true, if_false]
      exact finish _ false _ (by simp [malloc]) (by simpa using hmx) (by simp) (by simp)
    | some b =>
      rw [he] at h; obtain ⟨hb, hx, ht⟩ := h
      by_cases hk : xs.length + n - len ≤ a.maxLength
      · have hk' : resizeLength a.maxLength (xs.length + n - len) = a.maxLength := by
          simp [resizeLength, hk]
        have hk'' : decide (xs.length + n - len ≤ a.maxLength) = true := by simpa using hk
        simp only [hk', hk'', if_true]
        have hpre : b.take loc = (xs.take loc).map some := by
          have : b.take loc = (b.take xs.length).take loc := by rw [List.take_take]; congr 1; omega
          rw [this, ht]; simp
        obtain ⟨d', hd, hdl, hdp, hdc⟩ := copyIf_rep (d := b) ht (by omega) (doff := loc + n) (soff := loc + len)
          (n := xs.length - (loc + len)) (by omega) (by omega)
        simp only [hd, Option.map_some]
        apply finish _ true _ (by omega) hk
        · have : d'.take loc = (d'.take (loc + n)).take loc := by rw [List.take_take]; congr 1; omega
          rw [this, hdp, List.take_take, ← hpre]; congr 1; omega
        · rw [hdc, List.take_of_length_le (by simp)]
      · have hk'' : decide (xs.length + n - len ≤ a.maxLength) = false := by simpa using hk
        simp only [hk'']
        simp only [Bool.false_eq_true, if_false]
        generalize hM : resizeLength a.maxLength (xs.length + n - len) = M at hmx ⊢
        obtain ⟨f1, hf1, hf1l, -, hf1c⟩ := copyIf_rep (d := malloc α M) ht (by omega) (doff := 0) (soff := 0)
          (n := loc) (by omega) (by simp [malloc]; omega)
        simp only [malloc, List.length_replicate] at hf1l
        obtain ⟨d', hd, hdl, hdp, hdc⟩ := copyIf_rep (d := f1) ht (by omega) (doff := loc + n) (soff := loc + len)
          (n := xs.length - (loc + len)) (by omega) (by omega)
        simp only [hf1, Option.bind_some, hd, Option.map_some]
        apply finish _ false _ (by omega) hmx
        · have : d'.take loc = (d'.take (loc + n)).take loc := by rw [List.take_take]; congr 1; omega
          rw [this, hdp, List.take_take]
          have : min loc (loc + n) = loc := by omega
          rw [this]; simpa using hf1c
        · rw [hdc, List.take_of_length_le (by simp)]

theorem step_rep (zero : α) {a : GArray α} {xs ys : List α} (h : Rep a xs) (op : Op α)
    (hs : specStep zero xs op = some ys) : ∃ a', step zero a op = some a' ∧ Rep a' ys := by
  cases op with
  | reserve n =>
    simp [specStep] at hs; subst hs
    obtain ⟨a', h1, h2, -⟩ := reserve_rep h n
    exact ⟨a', h1, h2⟩
  | replace loc len src n =>
    cases src with
    | null =>
      simp [specStep] at hs; obtain ⟨h1, rfl⟩ := hs
      exact replace_rep zero h h1 rfl
    | ext zs =>
      simp [specStep] at hs; obtain ⟨⟨h1, h2⟩, rfl⟩ := hs
      exact replace_rep zero h h1 (by simp [Src.value, h2])
    | self o => simp [specStep] at hs
  | append src n =>
    have hl := h.1
    cases src with
    | null =>
      simp [specStep] at hs; subst hs
      have := replace_rep zero h (loc := a.length) (len := 0) (n := n) (src := .null) (by omega) rfl
      simpa [step, append, Spec.splice, hl] using this
    | ext zs =>
      simp [specStep] at hs; obtain ⟨h2, rfl⟩ := hs
      have := replace_rep zero h (loc := a.length) (len := 0) (n := n) (src := .ext zs) (ys := zs.take n) (by omega)
        (by simp only [Src.value, h2, if_true])
      simpa [step, append, Spec.splice, hl] using this
    | self o => simp [specStep] at hs
  | finalize =>
    simp [specStep] at hs; subst hs
    exact ⟨_, rfl, Rep_init⟩

theorem run_rep (zero : α) (xs : List α) (ops : List (Op α)) : ∀ (a : GArray α) (ys : List α), Rep a ys →
    specRun zero ys ops = some xs → ∃ a', run zero a ops = some a' ∧ Rep a' xs := by
  induction ops with
  | nil => intro a ys hr hs; simp [specRun] at hs; subst hs; exact ⟨a, rfl, hr⟩
  | cons op ops ih =>
    intro a ys hr hs
    simp only [specRun, List.foldlM_cons] at hs
    cases hs1 : specStep zero ys op with
    | none => simp [hs1] at hs
    | some zs =>
      rw [hs1] at hs
      obtain ⟨a1, ha1, hr1⟩ := step_rep zero hr op hs1
      obtain ⟨a2, ha2, hr2⟩ := ih a1 zs hr1 hs
      exact ⟨a2, by simp only [run, List.foldlM_cons, ha1]; exact ha2, hr2⟩

theorem self_append_rep (zero : α) {a : GArray α} {xs : List α} (h : Rep a xs)
    (room : 2 * xs.length ≤ a.maxLength) :
    ∃ a', a.append zero (.self 0) xs.length = some a' ∧ Rep a' (xs ++ xs) := by
  obtain ⟨hl, h⟩ := h
  by_cases hx : xs = []
  · subst hx
    refine ⟨a, ?_, hl, h⟩
    simp [append, replaceElements]
  · have hpos : 0 < xs.length := List.length_pos_iff.mpr hx
    cases he : a.elements with
    | none => rw [he] at h; exact absurd h.1 hx
    | some b =>
      rw [he] at h; obtain ⟨hb, hxm, ht⟩ := h
      have hk : xs.length + xs.length - 0 ≤ a.maxLength := by omega
      have hz : xs.length - (xs.length + 0) = 0 := by omega
      unfold append replaceElements
      rw [if_neg (by omega)]
      simp only [hl, he, hk, decide_true, if_true, hz, Block.copyIf, gt_iff_lt, Nat.lt_irrefl,
        if_false, Option.map_some, hpos]
      have hread : b.read 0 xs.length = some (xs.map some) := by
        rw [read_rep ht (by omega) (by omega)]; simp
      simp only [srcCells, Bool.true_and, Nat.zero_add, Nat.le_refl, decide_true, Bool.true_or, if_true, hread,
        Option.bind_some]
      rw [write_eq (by simp; omega), Option.map_some]
      refine ⟨_, rfl, by simp, ?_⟩
      have hr : resizeLength a.maxLength (xs.length + xs.length - 0) = a.maxLength := by simp [resizeLength]; omega
      simp only [hr]
      refine ⟨by simp; omega, by simp; omega, ?_⟩
      rw [List.take_append_of_le_length (by simp; omega), List.take_of_length_le (by simp; omega), ht]
      simp

end GArray
end Duck
