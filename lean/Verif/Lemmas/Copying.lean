import Verif.Spec.Copying
import Verif.Lemmas.PropertyRun
/-! Lemmas for C102. -/
namespace Duck
namespace Copying
open Property (Id Obj Heap Slot live retain retains release strongs held Own Same retain_ok retains_ok release_ok live_append live_lt live_set Own.append Own.set
  cellOwned owned count_erase)

/-- Every count is explained by the references of the program and of lists. -/
def Inv (s : State) : Prop := Own s.heap s.client

/-- What is seen of `x` is unchanged, if it is still there. -/
def Frame (s s' : State) (x : Id) : Prop :=
  x < s.heap.length → ∀ o', live s'.heap x = some o' → ∃ o, live s.heap x = some o ∧ o.cls = o'.cls ∧ o.fields = o'.fields ∧ s'.bytes x = s.bytes x

theorem start_inv : Inv start := by
  intro i
  simp [start, live, held]

theorem Usable.live {s : State} {i : Id} (hi : Inv s) (h : Usable s i) : ∃ o, live s.heap i = some o :=
  Own.live hi (by
    rcases h with h | h
    · have := List.count_pos_iff.mpr h; omega
    · have := List.count_pos_iff.mpr h; omega)

theorem frame_same {s : State} {h : Heap} {c : List Id} (hs : Same s.heap h) (x : Id) : Frame s { s with heap := h, client := c } x := by
  intro _ o' ho'
  obtain ⟨o, a, b, -, d⟩ := hs.2 x o' ho'
  exact ⟨o, a, b, d, rfl⟩

theorem strongs_map (objects : List (Option Id)) : strongs (objects.map slot) = objects.filterMap id := by
  induction objects with
  | nil => rfl
  | cons a l ih =>
    simp only [strongs, List.map_cons, List.flatMap_cons] at ih ⊢
    rw [ih]
    cases a <;> rfl

theorem strongs_append (a b : List Slot) : strongs (a ++ b) = strongs a ++ strongs b := by simp [strongs]

theorem alloc_ok {s : State} (hi : Inv s) (cls : Nat) (bytes : List UInt8) {fields : List Slot} (hf : ∀ x ∈ strongs fields, ∃ o, live s.heap x = some o) :
    ∃ s', alloc s cls bytes fields = some (s', s.heap.length) ∧ Inv s' ∧ s.heap.length < s'.heap.length ∧ live s'.heap s.heap.length = some ⟨cls, 0, 1, fields⟩ ∧
      s'.bytes s.heap.length = bytes ∧ s'.client = s.heap.length :: s.client ∧
      ∀ x, Frame s s' x ∧ ∀ o, live s.heap x = some o → ∃ o', live s'.heap x = some o' ∧ o.cls = o'.cls ∧ o.fields = o'.fields ∧ s'.bytes x = s.bytes x := by
  obtain ⟨h, h1, h2, h3, h4⟩ := retains_ok (strongs fields) hi hf
  have hl : h.length = s.heap.length := h3.1
  refine ⟨_, by rw [alloc, h1, Option.map_some, hl], Own.append (o := ⟨cls, 0, 1, fields⟩) (by simpa using h2) rfl |> fun w => ?_, by simp [hl], ?_, by simp,
    rfl, fun x => ⟨?_, ?_⟩⟩
  · rw [hl] at w; exact w
  · show live (h ++ _) _ = _
    rw [live_append, if_pos hl.symm]
  · intro hx o' ho'
    have hx' : x ≠ h.length := by rw [hl]; exact Nat.ne_of_lt hx
    change live (h ++ _) x = _ at ho'
    rw [live_append, if_neg hx'] at ho'
    obtain ⟨o, a, b, -, d⟩ := h3.2 x o' ho'
    exact ⟨o, a, b, d, if_neg (by rw [← hl]; exact hx')⟩
  · intro o ho
    have hx' : x ≠ h.length := by rw [hl]; exact Nat.ne_of_lt (live_lt ho)
    obtain ⟨o', a, b, -, d⟩ := h4.2 x o ho
    refine ⟨o', ?_, b.symm, d.symm, if_neg (by rw [← hl]; exact hx')⟩
    show live (h ++ _) x = _
    rw [live_append, if_neg hx']
    exact a

theorem held_mem {h : Heap} {i : Id} {o : Obj} (hl : live h i = some o) {x : Id} (hx : x ∈ strongs o.fields) : x ∈ held h := by
  rw [Property.held_eq]
  exact List.mem_flatMap.2 ⟨some o, List.mem_of_getElem? (Property.live_get hl), hx⟩

/-- What a copy is. -/
structure Copied (s s' : State) (i r : Id) (choose : Nat → Option Nat) : Prop where
  inv : Inv s'
  len : s.heap.length ≤ s'.heap.length
  client : s'.client = r :: s.client
  frame : ∀ x, Frame s s' x
  kept : ∀ x o, live s.heap x = some o → ∃ o', live s'.heap x = some o' ∧ o.cls = o'.cls ∧ o.fields = o'.fields ∧ s'.bytes x = s.bytes x
  made : ∃ o o', live s.heap i = some o ∧ live s'.heap r = some o' ∧ o'.fields = o.fields ∧ s'.bytes r = s.bytes i ∧
    ((choose o.cls = none ∧ r = i ∧ o'.cls = o.cls) ∨ (choose o.cls = some o'.cls ∧ r = s.heap.length))

theorem duplicate_ok {s : State} (hi : Inv s) {i : Id} (hu : ∃ o, live s.heap i = some o) (choose : Nat → Option Nat) :
    ∃ s' r, duplicate s i choose = some (s', r) ∧ Copied s s' i r choose := by
  obtain ⟨o, ho⟩ := hu
  simp only [duplicate, ho, Option.bind_some]
  cases hc : choose o.cls with
  | some c =>
    obtain ⟨s', h1, h2, h3, h4, h5, h6, h7⟩ := alloc_ok hi c (s.bytes i) (fields := o.fields) (fun x hx =>
      Own.live hi (by have := List.count_pos_iff.mpr (held_mem ho hx); omega))
    exact ⟨s', _, h1, h2, Nat.le_of_lt h3, h6, fun x => (h7 x).1, fun x => (h7 x).2, o, _, ho, h4, rfl, h5, .inr ⟨hc, rfl⟩⟩
  | none =>
    obtain ⟨h, h1, h2, h3, h4⟩ := retain_ok hi ⟨o, ho⟩
    obtain ⟨o', a, b, -, d⟩ := h4.2 i o ho
    refine ⟨{ s with heap := h, client := i :: s.client }, i, by simp only [h1, Option.map_some], h2, Nat.le_of_eq h3.1.symm, rfl, fun x => frame_same h3 x, ?_, o, o', ho, a, d, rfl, .inl ⟨hc, rfl, b⟩⟩
    intro x o ho
    obtain ⟨o', a, b, -, d⟩ := h4.2 x o ho
    exact ⟨o', a, b.symm, d.symm, rfl⟩

theorem count_splice (fields : List Slot) (location length : Nat) (objects : List (Option Id)) (j : Id) :
    (strongs (splice fields location length objects)).count j + (strongs ((fields.drop location).take length)).count j =
      (strongs fields).count j + (given objects).count j := by
  have e : fields = fields.take location ++ ((fields.drop location).take length ++ fields.drop (location + length)) := by
    rw [← List.drop_drop, List.take_append_drop, List.take_append_drop]
  have e2 : (strongs fields).count j = (strongs (fields.take location)).count j + ((strongs ((fields.drop location).take length)).count j +
      (strongs (fields.drop (location + length))).count j) := by
    conv => lhs; rw [e]
    rw [strongs_append, strongs_append, List.count_append, List.count_append]
  rw [splice, strongs_append, strongs_append, List.count_append, List.count_append, e2, given]
  omega

theorem change_ok {s : State} (hi : Inv s) {i : Id} (hc : i ∈ s.client) {objects : List (Option Id)} (ho : ∀ x, some x ∈ objects → Usable s x) (location length : Nat) :
    ∃ s', change s i location length objects = some s' ∧ Inv s' ∧ s'.heap.length = s.heap.length ∧ s'.client = s.client ∧
      (∀ x, (x = i → ¬ Mutable s x) → Frame s s' x) ∧
      ∀ o, live s.heap i = some o → isMutable o.cls = true → kind o.cls = .array ∨ kind o.cls = .list → location + length ≤ o.fields.length →
        ∃ o', live s'.heap i = some o' ∧ o'.cls = o.cls ∧ o'.fields = splice o.fields location length objects ∧ s'.bytes = s.bytes := by
  obtain ⟨o, hl⟩ := Own.mem hi hc
  simp only [change, hl, Option.bind_some]
  by_cases hm : isMutable o.cls = true ∧ (kind o.cls = .array ∨ kind o.cls = .list) ∧ location + length ≤ o.fields.length
  · rw [if_pos hm]
    have hg : ∀ x ∈ given objects, ∃ o, live s.heap x = some o := by
      intro x hx
      rw [given, strongs_map] at hx
      exact (ho x (by simpa using hx)).live hi
    obtain ⟨h, h1, h2, h3, h4⟩ := retains_ok (given objects) hi hg
    obtain ⟨o1, a1, a2, -, a4⟩ := h4.2 i o hl
    have hpos := h2 i
    rw [a1] at hpos
    have hset : Own (h.set i (some { o1 with fields := splice o.fields location length objects })) (strongs ((o.fields.drop location).take length) ++ s.client) := by
      refine h2.set a1 _ (fun j hj => ?_) ⟨?_, hpos.2⟩
      · have := count_splice o.fields location length objects j
        simp only [cellOwned, List.count_append, a4]
        omega
      · have := count_splice o.fields location length objects i
        simp only [List.count_append, a4]
        omega
    obtain ⟨h', b1, b2, b3⟩ := release_ok hset
    refine ⟨{ s with heap := h' }, by simp only [h1, Option.bind_some, a1, b1, Option.map_some], b2, by
      show h'.length = _
      rw [b3.1, List.length_set, h3.1], rfl, ?_, ?_⟩
    · intro x hx hlt o' ho'
      have hne : i ≠ x := fun e => hx e.symm ⟨o, by rw [← e]; exact hl, hm.1⟩
      obtain ⟨o2, c1, c2, -, c4⟩ := b3.2 x o' ho'
      rw [live_set _ _ _ _ (live_lt a1), if_neg hne] at c1
      obtain ⟨o3, d1, d2, -, d4⟩ := h3.2 x o2 c1
      exact ⟨o3, d1, d2.trans c2, d4.trans c4, rfl⟩
    · intro o2 ho2 _ _ _
      cases ho2
      obtain ⟨o', ho'⟩ := Own.mem b2 (i := i) hc
      obtain ⟨o2, c1, c2, -, c4⟩ := b3.2 i o' ho'
      rw [live_set _ _ _ _ (live_lt a1), if_pos rfl] at c1
      cases c1
      exact ⟨o', ho', c2.symm.trans a2, c4.symm, rfl⟩
  · rw [if_neg hm]
    refine ⟨s, rfl, hi, rfl, rfl, fun x _ _ o' h => ⟨o', h, rfl, rfl, rfl⟩, fun o2 ho2 h1 h2 h3 => ?_⟩
    cases ho2
    exact absurd ⟨h1, h2, h3⟩ hm

theorem setBytes_ok {s : State} (hi : Inv s) {i : Id} (hu : ∃ o, live s.heap i = some o) (bytes : List UInt8) :
    ∃ s', setBytes s i bytes = some s' ∧ Inv s' ∧ s'.heap = s.heap ∧ s'.client = s.client ∧ (∀ x, (x = i → ¬ Mutable s x) → Frame s s' x) ∧
      ∀ o, live s.heap i = some o → isMutable o.cls = true → kind o.cls = .string ∨ kind o.cls = .data → s'.bytes i = bytes := by
  obtain ⟨o, hl⟩ := hu
  simp only [setBytes, hl, Option.map_some]
  by_cases hm : isMutable o.cls = true ∧ (kind o.cls = .string ∨ kind o.cls = .data)
  · rw [if_pos hm]
    refine ⟨_, rfl, hi, rfl, rfl, fun x hx _ o' h => ?_, fun _ _ _ _ => by simp⟩
    have hne : ¬ x = i := fun e => hx e ⟨o, by rw [e]; exact hl, hm.1⟩
    exact ⟨o', h, rfl, rfl, by simp [hne]⟩
  · rw [if_neg hm]
    refine ⟨s, rfl, hi, rfl, rfl, fun x _ _ o' h => ⟨o', h, rfl, rfl, rfl⟩, fun o2 ho2 h1 h2 => ?_⟩
    cases ho2
    exact absurd ⟨h1, h2⟩ hm

/-- Every legal call works, keeps the counts right and leaves alone what it is not told to change. -/
theorem step_ok {s : State} (hi : Inv s) {op : Op} (hl : Legal s op) :
    ∃ s' r, step s op = some (s', r) ∧ Inv s' ∧ s.heap.length ≤ s'.heap.length ∧ ∀ x, (changes op = some x → ¬ Mutable s x) → Frame s s' x := by
  cases op with
  | new cls bytes items =>
    obtain ⟨s', h1, h2, h3, -, -, -, h7⟩ := alloc_ok hi cls bytes (fields := items.map slot) (fun x hx => by
      rw [strongs_map] at hx
      exact (hl x (by simpa using hx)).live hi)
    exact ⟨s', _, by rw [step, h1]; rfl, h2, Nat.le_of_lt h3, fun x _ => (h7 x).1⟩
  | retain i =>
    obtain ⟨h, h1, h2, h3, -⟩ := retain_ok hi (Usable.live hi hl)
    exact ⟨{ s with heap := h, client := i :: s.client }, _, by rw [step, h1]; rfl, h2, Nat.le_of_eq h3.1.symm, fun x _ => frame_same h3 x⟩
  | release i =>
    have hm : i ∈ s.client := hl
    obtain ⟨h, h1, h2, h3⟩ := release_ok (h := s.heap) (l := [i]) (ext := s.client.erase i) (Own.congr hi (fun j => by
      have := count_erase hm j
      rw [List.count_append, List.count_singleton]
      by_cases e : i = j
      · subst e; simp at this ⊢; omega
      · have e2 : ¬ (i == j) = true := by simpa using e
        simp [e] at this; simp [e, this]))
    exact ⟨{ s with heap := h, client := s.client.erase i }, _, by rw [step, h1]; rfl, h2, Nat.le_of_eq h3.1.symm, fun x _ => frame_same h3 x⟩
  | copy i =>
    obtain ⟨s', r, h1, h2⟩ := duplicate_ok hi (Usable.live hi hl) copyClass
    exact ⟨s', _, by rw [step, h1]; rfl, h2.inv, h2.len, fun x _ => h2.frame x⟩
  | mutableCopy i =>
    obtain ⟨s', r, h1, h2⟩ := duplicate_ok hi (Usable.live hi hl) mutableCopyClass
    exact ⟨s', _, by rw [step, h1]; rfl, h2.inv, h2.len, fun x _ => h2.frame x⟩
  | setBytes i bytes =>
    obtain ⟨s', h1, h2, h3, -, h5, -⟩ := setBytes_ok hi (Usable.live hi hl) bytes
    exact ⟨s', _, by rw [step, h1]; rfl, h2, by rw [h3]; exact Nat.le_refl _, fun x hx => h5 x (fun e => hx (by rw [e]; rfl))⟩
  | change i location length objects =>
    obtain ⟨s', h1, h2, h3, -, h5, -⟩ := change_ok hi hl.1 hl.2 location length
    exact ⟨s', _, by rw [step, h1]; rfl, h2, by rw [h3]; exact Nat.le_refl _, fun x hx => h5 x (fun e => hx (by rw [e]; rfl))⟩

theorem run_inv {s s' : State} {ops : List Op} (hr : Run s ops s') : Inv s → Inv s' ∧ s.heap.length ≤ s'.heap.length := by
  induction hr with
  | nil s => exact fun h => ⟨h, Nat.le_refl _⟩
  | cons hl hs _ ih =>
    intro hi
    obtain ⟨s', r, h1, h2, h3, -⟩ := step_ok hi hl
    rw [hs] at h1
    cases h1
    exact ⟨(ih h2).1, Nat.le_trans h3 (ih h2).2⟩

theorem reach_inv {s : State} (h : Reachable s) : Inv s := by
  obtain ⟨ops, hr⟩ := h
  exact (run_inv hr start_inv).1

/-- A history that does not change `x`, or cannot as it is immutable. -/
theorem run_frame {s s' : State} {ops : List Op} (hr : Run s ops s') {x : Id} : Inv s → x < s.heap.length →
    (Mutable s x → ∀ op ∈ ops, changes op ≠ some x) → Frame s s' x := by
  induction hr with
  | nil s => exact fun _ _ _ _ o' h => ⟨o', h, rfl, rfl, rfl⟩
  | @cons s s1 s2 op ops r hl hs hr ih =>
    intro hi hlt hn
    obtain ⟨s', r, h1, h2, h3, h4⟩ := step_ok hi hl
    rw [hs] at h1
    cases h1
    have hf : Frame s s1 x := h4 x (fun e hm => hn hm op List.mem_cons_self e)
    have hlt1 := Nat.lt_of_lt_of_le hlt h3
    have hf2 := ih h2 hlt1 (fun hm o ho => by
      obtain ⟨o1, a, b⟩ := hm
      obtain ⟨o0, c, d, -⟩ := hf hlt o1 a
      exact hn ⟨o0, c, by rw [d]; exact b⟩ o (List.mem_cons_of_mem _ ho))
    intro _ o' ho'
    obtain ⟨o1, a1, a2, a3, a4⟩ := hf2 hlt1 o' ho'
    obtain ⟨o0, b1, b2, b3, b4⟩ := hf hlt o1 a1
    exact ⟨o0, b1, b2.trans a2, b3.trans a3, a4.trans b4⟩

theorem frame_contents {s s' : State} {x : Id} (h : Frame s s' x) (hlt : x < s.heap.length) (he : Exists s' x) : contents s' x = contents s x := by
  obtain ⟨o', ho'⟩ := he
  obtain ⟨o, a, b, c, d⟩ := h hlt o' ho'
  simp only [contents, ho', a, Option.map_some, b, c, d]

end Copying
end Duck
