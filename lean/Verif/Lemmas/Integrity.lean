import Verif.Model.Integrity
import Verif.Lemmas.BinaryTree
import Verif.Lemmas.LinkedList
/-! Lemmas for Props/Integrity.lean. -/
namespace Duck

namespace BTree
open HTable (Policy)
variable {K V : Type} {cmp : K → K → Int}

theorem AA.isNull {t : Node K V} (h : AA t) : t.isNull = true ↔ t.level = 0 := by
  cases t with
  | nil => simp [Node.isNull]
  | node => have := h.pos; simp only [Node.isNull, level_node]; constructor
            · intro h; cases h
            · intro h; omega

theorem checkRec_ok : ∀ {t : Node K V}, AA t → checkRec t = some ((toList t).length : Int)
  | .nil, _ => rfl
  | .node l k v lev r, h => by
    have hp := h.pos
    have hl := h.1.isNull
    have hr := h.2.1.isNull
    have h1 := checkRec_ok h.1
    have h2 := checkRec_ok h.2.1
    obtain ⟨a1, a2, a3, a4, a5⟩ := h
    simp only [checkRec]
    rw [if_pos, h1, h2]
    · simp only [Option.bind_some, Option.map_some, toList_node, List.length_append, List.length_cons]
      congr 1; omega
    · refine ⟨fun _ => by omega, fun _ => a4, fun h => ⟨?_, ?_⟩, fun h => by omega⟩
      · cases e : l.isNull with
        | false => rfl
        | true => have := hl.mp e; omega
      · cases e : r.isNull with
        | false => rfl
        | true => have := hr.mp e; omega

/-- Insertion keeps the levels, whatever the comparison says. -/
theorem insert_aa (cmp : K → K → Int) (key : K) (object : V) (p : Policy) : ∀ t : Node K V, AA t →
    ∃ t' b, insertRec cmp key object p t = some (t', b) ∧ AA t' ∧
      (toList t').length = (toList t).length + (if b then 1 else 0) ∧
      (t'.level = t.level ∨ (t'.level = t.level + 1 ∧ t'.right.level = t.level ∧ (t = .nil ∨ t.right.level = t.level))) ∧
      (t ≠ .nil → t.right.level < t.level → t'.level = t.level)
  | .nil, _ => by
    unfold insertRec
    by_cases hp : p = .ifFound
    · simp [hp, AA]
    · simp only [if_neg hp]
      refine ⟨_, _, rfl, ?_⟩
      simp [AA]
  | .node l k v lev r, h => by
    obtain ⟨a1, a2, a3, a4, a5⟩ := h
    have hpos : 1 ≤ lev := by have := a1.nonneg; omega
    unfold insertRec
    by_cases h1 : cmp k key < 0
    · rw [if_pos h1]
      obtain ⟨l', b, e1, e2, e4, e5, _⟩ := insert_aa cmp key object p l a1
      rw [e1]
      obtain ⟨t, f1, f2, f3, f4⟩ := fix_left (k := k) (v := v) (lev := lev) e2 a2 (by omega) hpos a4 a5
      refine ⟨t, b, ?_, f2, ?_, ?_, ?_⟩
      · revert f1
        cases hsk : skew (.node l' k v lev r) with
        | none => intro f1; cases f1
        | some s => intro f1; simp only [Option.bind] at f1 ⊢; rw [hsk]; simp only [f1]; rfl
      · rw [f3]; simp only [toList_node, List.length_append, List.length_cons, e4]; omega
      · simp only [level_node, right_node]; omega
      · simp only [level_node, right_node]; intro _ hlt; omega
    · rw [if_neg h1]
      by_cases h2 : cmp k key > 0
      · rw [if_pos h2]
        obtain ⟨r', b, e1, e2, e4, e5, e6⟩ := insert_aa cmp key object p r a2
        rw [e1]
        have hle := e2.right_le
        have hr' : r'.level = lev - 1 ∨ r'.level = lev := by
          rcases a4 with a4 | a4
          · by_cases hn : r = .nil
            · subst hn; simp only [level_nil] at a4; omega
            · have := e6 hn (by omega); omega
          · omega
        obtain ⟨t, f1, f2, f3, f4⟩ := fix_right (k := k) (v := v) (lev := lev) a1 e2 (by omega) hpos hr'
        refine ⟨t, b, ?_, f2, ?_, ?_, ?_⟩
        · revert f1
          cases hsk : skew (.node l k v lev r') with
          | none => intro f1; cases f1
          | some s => intro f1; simp only [Option.bind] at f1 ⊢; rw [hsk]; simp only [f1]; rfl
        · rw [f3]; simp only [toList_node, List.length_append, List.length_cons, e4]; omega
        · simp only [level_node, right_node]
          have : r'.right.level = lev → r.level = lev := by
            intro hrr
            rcases a4 with a4 | a4
            · exact a4
            · omega
          rcases f4 with f4 | f4
          · left; omega
          · right; exact ⟨f4.1, f4.2.1, Or.inr (this f4.2.2)⟩
        · simp only [level_node, right_node]; intro _ hlt
          rcases f4 with f4 | f4
          · exact f4.1
          · exfalso; omega
      · rw [if_neg h2]
        by_cases hp : p = .ifNotFound
        · rw [if_pos hp]
          exact ⟨_, _, rfl, ⟨a1, a2, a3, a4, a5⟩, by simp, Or.inl rfl, fun _ _ => rfl⟩
        · rw [if_neg hp]
          exact ⟨_, _, rfl, ⟨a1, a2, a3, a4, a5⟩, by simp, Or.inl rfl, fun _ _ => rfl⟩

/-- Removal keeps the levels, whatever the comparison says. -/
theorem removeRec_aa (cmp : K → K → Int) (key : K) : ∀ (t : Node K V) (er : Option K), AA t →
    ∃ q, removeRec cmp key er t = some q ∧ (toList t).length = (toList q.tree).length + (if q.erased then 1 else 0) ∧ Shrinks t q.tree ∧ eraseOk cmp key t = true
  | .nil, er, _ => ⟨⟨.nil, false, none⟩, by simp [removeRec], rfl, ⟨trivial, Or.inl rfl, by simp⟩, rfl⟩
  | .node l k v lev r, er, h => by
    have same : Shrinks (.node l k v lev r) (.node l k v lev r) := ⟨h, Or.inl rfl, fun h _ => h⟩
    unfold removeRec eraseOk
    by_cases h1 : cmp k key < 0
    · rw [if_pos h1]
      simp only [if_pos h1]
      cases l with
      | nil =>
        have cut : Shrinks (.node .nil k v lev r) r := by
          obtain ⟨a1, a2, a3, a4, a5⟩ := h
          simp only [level_nil] at a3
          refine ⟨a2, by simpa using a4, ?_⟩
          simp only [right_node, level_node]; omega
        cases er with
        | none => exact ⟨_, rfl, by simp, same, rfl⟩
        | some e =>
          simp only
          by_cases he : cmp e key = 0
          · rw [if_pos he]; exact ⟨_, rfl, by simp, cut, rfl⟩
          · rw [if_neg he]; exact ⟨_, rfl, by simp, same, rfl⟩
      | node ll lk lv llev lr =>
        obtain ⟨q, e1, e4, e5, e6⟩ := removeRec_aa cmp key (.node ll lk lv llev lr) er h.1
        obtain ⟨t, f1, f2, f3⟩ := join_left (k' := k) (v' := v) h e5
        refine ⟨⟨t, q.erased, q.pending⟩, ?_, ?_, f3, e6⟩
        · simp only [e1, Option.bind_some, f1, Option.map]
        · simp only [f2]
          conv => lhs; rw [toList_node]
          simp only [List.length_append, e4, List.length_cons]; omega
    · rw [if_neg h1]
      simp only [if_neg h1]
      cases r with
      | nil =>
        by_cases h2 : cmp k key = 0
        · have hpos := h.pos
          obtain ⟨a1, a2, a3, a4, a5⟩ := h
          simp only [level_nil] at a4
          have hl : l = .nil := a1.eq_nil (by omega)
          subst hl
          refine ⟨⟨.nil, true, none⟩, by simp only [if_pos h2], by simp, ⟨trivial, ?_, ?_⟩, by simp [Node.isNull]⟩
          · simp only [level_nil, level_node] at *; omega
          · simp only [level_nil, level_node]; omega
        · exact ⟨⟨.node l k v lev .nil, false, none⟩, by simp only [if_neg h2], by simp, same, by simp [h2, Node.isNull]⟩
      | node rl rk rv rlev rr =>
        obtain ⟨q, e1, e4, e5, e6⟩ := removeRec_aa cmp key (.node rl rk rv rlev rr) (some k) h.2.1
        cases hp : q.pending with
        | none =>
          obtain ⟨t, f1, f2, f3⟩ := join_right (k' := k) (v' := v) h (by simp) e5
          refine ⟨⟨t, q.erased, none⟩, ?_, ?_, f3, e6⟩
          · simp only [e1, Option.bind_some, hp, f1, Option.map]
          · simp only [f2]
            conv => lhs; rw [toList_node]
            simp only [List.length_append, e4, List.length_cons]; omega
        | some x =>
          obtain ⟨t, f1, f2, f3⟩ := join_right (k' := x.1) (v' := x.2) h (by simp) e5
          refine ⟨⟨t, q.erased, none⟩, ?_, ?_, f3, e6⟩
          · simp only [e1, Option.bind_some, hp, f1, Option.map]
          · simp only [f2]
            conv => lhs; rw [toList_node]
            simp only [List.length_append, e4, List.length_cons]; omega

/-- The levels and the count are right. -/
structure Sound (t : Tree K V) : Prop where
  aa : AA t.root
  count : t.count = (toList t.root).length

theorem init_sound : Sound (init : Tree K V) := ⟨trivial, rfl⟩

theorem check_ok {t : Tree K V} (h : Sound t) : check t = some t := by
  unfold check
  rw [checkRec_ok h.aa, h.count, if_pos rfl]

theorem stepChecked_ok (cmp : K → K → Int) {t : Tree K V} (h : Sound t) (op : Op K V) :
    ∃ t' out, step cmp t op = some (t', out) ∧ stepChecked cmp t op = some (t', out) ∧ Sound t' := by
  cases op with
  | get k => exact ⟨t, _, rfl, rfl, h⟩
  | insert k v p =>
    obtain ⟨t', b, e1, e2, e3, _⟩ := insert_aa cmp k v p t.root h.aa
    have hs : Sound ⟨t', if b then t.count + 1 else t.count⟩ := ⟨e2, by simp only [e3, h.count]; cases b <;> simp⟩
    have hi : insert cmp t k v p = some ⟨t', if b then t.count + 1 else t.count⟩ := by simp only [insert, e1, Option.map_some]
    exact ⟨_, .done, by simp only [step, hi, Option.map_some], by simp only [stepChecked, hi, Option.bind_some, check_ok hs, Option.map_some], hs⟩
  | remove k =>
    obtain ⟨q, e1, e4, e5, e6⟩ := removeRec_aa cmp k t.root none h.aa
    have hs : Sound ⟨q.tree, if q.erased then t.count - 1 else t.count⟩ := ⟨e5.1, by simp only [h.count, e4]; cases q.erased <;> simp⟩
    have hi : remove cmp t k = some ⟨q.tree, if q.erased then t.count - 1 else t.count⟩ := by simp only [remove, e1, Option.map_some]
    exact ⟨_, .done, by simp only [step, hi, Option.map_some], by simp only [stepChecked, e6, if_true, hi, Option.bind_some, check_ok hs, Option.map_some], hs⟩
  | removeAll =>
    have hz : (removeAll t).count = 0 := by simp only [removeAll, freeAll_eq, h.count]; omega
    have hs : Sound (removeAll t) := ⟨trivial, hz⟩
    exact ⟨_, _, rfl, by simp only [stepChecked, if_pos hz, check_ok hs, Option.map_some], hs⟩
  | count => exact ⟨t, _, rfl, rfl, h⟩

theorem runChecked_ok (cmp : K → K → Int) : ∀ (ops : List (Op K V)) {t : Tree K V}, Sound t →
    ∃ t' outs, run cmp t ops = some (t', outs) ∧ runChecked cmp t ops = some (t', outs) ∧ Sound t'
  | [], t, h => ⟨t, [], rfl, rfl, h⟩
  | op :: ops, t, h => by
    obtain ⟨t1, o, e1, e2, h1⟩ := stepChecked_ok cmp h op
    obtain ⟨t2, os, f1, f2, h2⟩ := runChecked_ok cmp ops h1
    exact ⟨t2, o :: os, by simp only [run, e1, Option.bind_some, f1, Option.map_some], by simp only [runChecked, e2, Option.bind_some, f2, Option.map_some], h2⟩

end BTree

namespace LList
open HTable (Policy)
variable {V P : Type}

theorem checkWalk_ok {l : LinkedList V P} {as : List Nat} {xs : List (V × P)} (hl : Links l as xs) (hc : CursorOk l as) : ∀ (n i : Nat), i + n = as.length → ∀ fuel, n < fuel →
    checkWalk l fuel as[i]? i = some ()
  | 0, i, hi, fuel, _ => by
    rw [List.getElem?_eq_none (by omega)]
    have := hl.count
    cases fuel <;> simp only [checkWalk] <;> exact if_pos (by omega)
  | n + 1, i, hi, 0, hf => by omega
  | n + 1, i, hi, fuel + 1, hf => by
    have hlt : i < as.length := by omega
    obtain ⟨a, ha⟩ : ∃ a, as[i]? = some a := ⟨_, List.getElem?_eq_getElem hlt⟩
    obtain ⟨x, hx, hn⟩ := hl.seg.get ha
    have hcount := hl.count
    simp only [ha, checkWalk, hn, Option.bind_some, Option.or_none]
    rw [if_pos]
    · exact checkWalk_ok hl hc n (i + 1) (by omega) fuel (by omega)
    · refine ⟨by omega, ?_, ?_, ?_⟩
      · intro h
        by_cases hi0 : i = 0
        · rw [if_pos hi0] at h; exact absurd rfl h
        · rw [if_neg hi0]
          have hb : as[i - 1]? = some as[i - 1] := List.getElem?_eq_getElem (by omega)
          obtain ⟨y, _, hm⟩ := hl.seg.get hb
          rw [hb]
          show ((l.heap as[i - 1]).map (·.next)) = _
          rw [hm, Option.map_some, Option.or_none, show i - 1 + 1 = i by omega, ha]
      · intro h
        cases hb : as[i + 1]? with
        | none => rw [hb] at h; exact absurd rfl h
        | some b =>
          obtain ⟨y, _, hm⟩ := hl.seg.get hb
          show ((l.heap b).map (·.prev)) = _
          rw [hm, Option.map_some, if_neg (by omega), Nat.add_sub_cancel, ha]
      · intro h
        rcases hc with ⟨h0, _⟩ | ⟨j, hj, hji, hjc⟩
        · rw [h0] at hlt; cases hlt
        · rw [h] at hjc
          have : j = i := by
            exact (List.getElem?_inj hj hl.nodup).mp (hjc.symm.trans ha.symm)
          rw [hji, this]

theorem check_ok {l : LinkedList V P} {as : List Nat} {xs : List (V × P)} (hl : Links l as xs) (hc : CursorOk l as) : check l = some l := by
  unfold check
  rw [if_neg]
  · have := checkWalk_ok hl hc as.length 0 (by omega) (l.count.toNat + 1) (by have := hl.count; omega)
    rw [hl.first, List.head?_eq_getElem?]
    rw [show ((0 : Nat) : Int) = 0 from rfl] at this
    rw [this]; rfl
  · rintro ⟨h1, h2⟩
    apply h2
    have : as = [] := by
      rw [hl.first] at h1
      cases as with
      | nil => rfl
      | cons => cases h1
    subst this
    rcases hc with ⟨_, c1, c2⟩ | ⟨j, hj, _⟩
    · exact ⟨hl.last, c1, c2⟩
    · cases hj

theorem moveCursorChecked_ok {l : LinkedList V P} {as xs} (hl : Links l as xs) (hc : CursorOk l as) {i : Nat} (hi : i < as.length) : moveCursorChecked l i = moveCursor l i := by
  unfold moveCursorChecked
  rw [moveCursor_spec hl hc hi, Option.bind_some, check_ok (hl.withCursor as[i]? i) (Or.inr ⟨i, hi, rfl, rfl⟩)]; rfl

theorem removeLoopChecked_ok : ∀ (n i : Nat) {l : LinkedList V P} {as : List Nat} {xs : List (V × P)}, Links l as xs → i + n ≤ as.length → l.cursor = as[i]? → removeLoopChecked n l = removeLoop n l
  | 0, i, l, as, xs, hl, _, hc => rfl
  | n + 1, i, l, as, xs, hl, hi, hc => by
    have hlt : i < as.length := by omega
    have hlx : i < xs.length := by have := hl.seg.length; omega
    have ea := split_at (List.getElem?_eq_getElem hlt)
    have ex := split_at' (List.getElem?_eq_getElem hlx)
    have hl' := hl
    rw [ea, ex] at hl'
    obtain ⟨l1, r1, k1, c1, i1⟩ := removeStep_spec hl' (by simp [hl.seg.length]) (by rw [hc, List.getElem?_eq_getElem hlt])
    have hc1 : l1.cursor = (as.take i ++ as.drop (i + 1))[i]? := by
      rw [c1, List.head?_drop, List.getElem?_append_right (by simp; omega)]
      simp [Nat.min_eq_left (Nat.le_of_lt hlt)]
    have hcount := hl.count
    simp only [removeLoopChecked, removeLoop]
    rw [if_pos (by omega), r1, Option.bind_some, Option.bind_some]
    exact removeLoopChecked_ok n i k1 (by simp; omega) hc1

theorem removeRangeChecked_ok {l : LinkedList V P} {as : List Nat} {xs : List (V × P)} (hl : Links l as xs) (hc : CursorOk l as) {i n : Nat} (h : i + n ≤ as.length) :
    removeRangeChecked l i n = removeRange l i n := by
  obtain ⟨l', r, k, c⟩ := removeRange_spec hl hc h
  have hcount := hl.count
  rw [r]
  unfold removeRange at r
  unfold removeRangeChecked
  rw [if_pos (by omega)]
  by_cases hn : n = 0
  · rw [if_pos (by omega)] at r ⊢
    exact r
  · rw [if_neg (by omega)] at r ⊢
    rw [moveCursorChecked_ok hl hc (by omega)]
    rw [moveCursor_spec hl hc (by omega : i < as.length), Option.bind_some] at r ⊢
    simp only [Int.toNat_natCast] at r ⊢
    rw [removeLoopChecked_ok n i (hl.withCursor as[i]? i) h rfl]
    cases hr : removeLoop n { l with cursor := as[i]?, cursorIndex := i } with
    | none => rw [hr] at r; cases r
    | some l1 =>
      rw [hr, Option.map_some, Option.some.injEq] at r
      rw [Option.bind_some, r]
      exact check_ok k c

theorem insertObjectChecked_ok {zero : P} {pick : Nat → Heap V P → Nat} (hp : Fresh pick) {l : LinkedList V P} {as xs} (hl : Links l as xs) {i : Nat} (hi : i ≤ as.length)
    (hc : 0 < i → i < as.length → CursorOk l as) (v : V) : insertObjectChecked zero pick l i v = insertObject zero pick l i v := by
  obtain ⟨l', a, r, k, c, x, f⟩ := insert_spec (zero := zero) hp hl hi hc v
  have hcount := hl.count
  have hk := check_ok k (insertAt_cursor hi c x)
  have hfirst : l.first = none ↔ as.length = 0 := by
    rw [hl.first]
    cases as <;> simp
  unfold insertObjectChecked
  rw [if_pos ⟨by omega, by omega, fun h => by have := hfirst.mp h; omega⟩, r, Option.bind_some, hk]
  by_cases e : l.first = none ∨ (i : Int) = 0 ∨ (i : Int) = l.count
  · rw [if_pos e]
  · rw [if_neg e]
    have h1 : i < as.length := by
      have : ¬ (i : Int) = l.count := fun h => e (Or.inr (Or.inr h))
      omega
    have h0 : 0 < i := by
      have : ¬ (i : Int) = 0 := fun h => e (Or.inr (Or.inl h))
      omega
    rw [moveCursorChecked_ok hl (hc h0 h1) h1, moveCursor_spec hl (hc h0 h1) h1, Option.bind_some, if_neg]
    rw [List.getElem?_eq_getElem h1]; exact fun h => nomatch h

theorem insertAllChecked_ok {zero : P} {pick : Nat → Heap V P → Nat} (hp : Fresh pick) : ∀ (vs : List V) {l : LinkedList V P} {as xs} (_ : Links l as xs) (_ : CursorOk l as) {i : Nat} (_ : i ≤ as.length),
    insertAllChecked zero pick vs i l = insertAll zero pick vs i l
  | [], l, as, xs, hl, hc, i, hi => rfl
  | v :: vs, l, as, xs, hl, hc, i, hi => by
    obtain ⟨l1, a, r1, k1, c1, i1, _⟩ := insert_spec (zero := zero) hp hl hi (fun _ _ => hc) v
    simp only [insertAllChecked, insertAll]
    rw [insertObjectChecked_ok hp hl hi (fun _ _ => hc), r1, Option.bind_some, Option.bind_some]
    exact insertAllChecked_ok hp vs k1 (insertAt_cursor hi c1 i1) (i := i + 1) (by rw [insertAt_length]; omega)

theorem nodeAtChecked_ok {l : LinkedList V P} {as xs} (hl : Links l as xs) (hc : CursorOk l as) (i : Int) : nodeAtChecked l i = nodeAt l i := by
  unfold nodeAtChecked nodeAt
  split
  · rfl
  · rename_i h
    have := hl.count
    have e : i = (i.toNat : Nat) := by omega
    rw [e, moveCursorChecked_ok hl hc (by omega)]

theorem nodesFromChecked_ok {as : List Nat} {xs : List (V × P)} : ∀ (n i : Nat) {l : LinkedList V P}, Links l as xs → CursorOk l as → i + n ≤ as.length → nodesFromChecked n i l = nodesFrom n i l
  | 0, i, l, hl, hc, _ => rfl
  | n + 1, i, l, hl, hc, hi => by
    have hk : i < as.length := by omega
    simp only [nodesFromChecked, nodesFrom]
    rw [moveCursorChecked_ok hl hc hk, moveCursor_spec hl hc hk, Option.bind_some, Option.bind_some]
    have := nodesFromChecked_ok n (i + 1) (hl.withCursor as[i]? i) (Or.inr ⟨i, hk, rfl, rfl⟩) (by omega)
    rw [show ((i : Int) + 1) = ((i + 1 : Nat) : Int) from rfl, this]

theorem insertPriorityChecked_ok [DecidableEq V] {zero : P} {pick : Nat → Heap V P → Nat} (hp : Fresh pick) {gt : P → P → Bool} {l : LinkedList V P} {as xs} (hl : Links l as xs) (hc : CursorOk l as)
    (v : V) (p : P) (policy : Policy) : insertPriorityChecked zero pick gt l v p policy = insertPriority zero pick gt l v p policy := by
  have hlen := hl.seg.length
  have hcount := hl.count
  have hsc := scan_spec (gt := gt) (v := v) (p := p) (policy := policy) (as := as) (last := l.last) (A := []) (X := [])
    (fuel := l.count.toNat + 1) hl.seg rfl rfl (by omega)
  have i0 : insOf gt as l.last ([] : List (V × P)) p = (l.last, l.count) := by simp [insOf, slot, hcount]
  have r0 : remOf as ([] : List (V × P)) v = (none, -1) := by simp [remOf]
  rw [i0, r0, ← hl.first] at hsc
  simp only [List.length_nil, List.nil_append] at hsc
  unfold insertPriorityChecked insertPriority
  rw [hcount] at hsc ⊢
  rw [show ((0 : Nat) : Int) = 0 by rfl] at hsc
  rw [hsc]
  simp only [Option.bind_some]
  by_cases hnf : policy = .ifNotFound ∧ v ∈ xs.map (·.1)
  · rw [if_pos hnf]
  · rw [if_neg hnf]
    simp only
    unfold placeChecked
    by_cases hif : policy = .ifFound ∧ (remOf as xs v).1 = none
    · rw [if_pos hif, if_pos hif]
    · rw [if_neg hif, if_neg hif]
      have hsl := slot_le gt xs p
      generalize hS : slot gt xs p = s at hsl
      have hins2 : (insOf gt as l.last xs p).2 = (s : Nat) := by
        unfold insOf; rw [hS]; split
        · rfl
        · show (as.length : Int) = s; omega
      have hins : 0 < s → s < as.length →
          CursorOk { l with cursor := (insOf gt as l.last xs p).1, cursorIndex := (insOf gt as l.last xs p).2 } as := by
        intro _ hs
        right
        refine ⟨s, hs, hins2, ?_⟩
        show (insOf gt as l.last xs p).1 = _
        unfold insOf; rw [hS, if_pos (by omega)]
      have hk := insertObjectChecked_ok (zero := zero) hp (hl.withCursor (insOf gt as l.last xs p).1 (insOf gt as l.last xs p).2) (by omega : s ≤ as.length) hins v
      obtain ⟨l1, a, q1, k1, c1, x1, f1⟩ := insert_spec (zero := zero) hp
        (hl.withCursor (insOf gt as l.last xs p).1 (insOf gt as l.last xs p).2) (by omega : s ≤ as.length) hins v
      rw [hins2] at q1 hk ⊢
      simp only [hcount] at q1 hk ⊢
      rw [hk, q1]
      simp only [Option.bind_some]
      rw [c1]
      obtain ⟨h2, q2, k2⟩ := setPriority_spec k1 (insertAt_get (by omega) a) (insertAt_get (by omega) (v, zero)) p
      rw [q2]
      simp only [Option.bind_some]
      by_cases hm : (remOf as xs v).1 ≠ none
      · rw [if_pos hm, if_pos hm]
        have hmem : v ∈ xs.map (·.1) := by
          by_cases e : v ∈ xs.map (·.1)
          · exact e
          · exfalso; apply hm; unfold remOf; rw [if_neg e]
        have hold := oldIdx_lt xs v hmem
        have hrem : remOf as xs v = (as[oldIdx xs v]?, ((oldIdx xs v : Nat) : Int)) := by unfold remOf; rw [if_pos hmem]
        rw [hrem]
        generalize hO : oldIdx xs v = o at hold
        have hi : (if ((o : Nat) : Int) ≥ (s : Nat) then ((o : Nat) : Int) + 1 else (o : Nat)) =
            ((if o ≥ s then o + 1 else o : Nat) : Int) := by
          split <;> split <;> omega
        simp only [hi]
        have hget := insertAt_get_old (xs := as) (i := s) (k := o) (by omega) (by omega) a
        have hlt : (if o ≥ s then o + 1 else o) < (insertAt as s a).length := by
          rw [insertAt_length]; split <;> omega
        generalize (if o ≥ s then o + 1 else o) = j at hget hlt
        have kc : CursorOk { l1 with heap := h2, cursor := as[o]?, cursorIndex := ((j : Nat) : Int) } (insertAt as s a) :=
          Or.inr ⟨j, hlt, rfl, hget.symm⟩
        have := removeRangeChecked_ok (n := 1) (k2.withCursor as[o]? (j : Nat)) kc (by omega : j + 1 ≤ _)
        rw [show ((1 : Nat) : Int) = 1 from rfl] at this
        exact congrArg _ this
      · rw [if_neg hm, if_neg hm]

theorem stepChecked_ok [DecidableEq V] {zero : P} {pick : Nat → Heap V P → Nat} (hp : Fresh pick) {gt : P → P → Bool} {l : LinkedList V P} {as xs} (hl : Links l as xs) (hc : CursorOk l as)
    (op : Op V P) : stepChecked zero pick gt l op = step zero pick gt l op := by
  have hcount := hl.count
  cases op with
  | replace loc len objs =>
    simp only [stepChecked, step, replaceRange]
    by_cases h : rangeOk loc len l.count
    · rw [if_pos h, if_pos h]
      obtain ⟨h1, h2, h3⟩ := h
      obtain ⟨i, rfl⟩ := Int.eq_ofNat_of_zero_le h1
      obtain ⟨n, rfl⟩ := Int.eq_ofNat_of_zero_le h2
      have hin : i + n ≤ as.length := by omega
      obtain ⟨l1, r1, k1, c1⟩ := removeRange_spec hl hc hin
      rw [removeRangeChecked_ok hl hc hin, r1, Option.bind_some, Option.bind_some, insertAllChecked_ok hp objs k1 c1 (by simp; omega)]
    · rw [if_neg h, if_neg h]
      split <;> rfl
  | get i => simp only [stepChecked, step, nodeAtChecked_ok hl hc]
  | getRange loc len =>
    simp only [stepChecked, step, objectsInRange]
    by_cases h : rangeOk loc len l.count
    · rw [if_pos h, if_pos h]
      obtain ⟨h1, h2, h3⟩ := h
      obtain ⟨i, rfl⟩ := Int.eq_ofNat_of_zero_le h1
      obtain ⟨n, rfl⟩ := Int.eq_ofNat_of_zero_le h2
      rw [Int.toNat_natCast, nodesFromChecked_ok n i hl hc (by omega)]
    · rw [if_neg h, if_neg h]
      split <;> rfl
  | insertPriority v p pol => simp only [stepChecked, step, insertPriorityChecked_ok hp hl hc]
  | reverse => rfl
  | sort cmp => rfl
  | count => rfl

theorem runChecked_ok [DecidableEq V] {zero : P} {pick : Nat → Heap V P → Nat} (hp : Fresh pick) {gt : P → P → Bool} : ∀ (ops : List (Op V P)) {l : LinkedList V P} {as xs}, Links l as xs → CursorOk l as →
    (∀ op ∈ ops, OpOk op) → runChecked zero pick gt l ops = run zero pick gt l ops
  | [], l, as, xs, hl, hc, _ => rfl
  | op :: ops, l, as, xs, hl, hc, ho => by
    obtain ⟨l1, o1, as1, xs1, r1, s1, k1, c1⟩ := step_spec (zero := zero) hp (gt := gt) hl hc op (ho op (by simp))
    simp only [runChecked, run]
    rw [stepChecked_ok hp hl hc, r1, Option.bind_some, Option.bind_some, runChecked_ok hp ops k1 c1 (fun o h => ho o (by simp [h]))]

end LList
end Duck
