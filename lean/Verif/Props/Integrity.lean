import Verif.Lemmas.Integrity
import Verif.Props.LinkedList
import Verif.Props.BinaryTree
/-! # C121 Builds with integrity checks behave like builds without -/
namespace Duck

namespace BTree
open HTable (Policy)
variable {K V : Type}

/-- Binary trees: for every history of calls and every comparison function, also one that is no order, the build with checks does what the build without does; no check fails and no call corrupts the tree. -/
theorem C121_tree (cmp : K → K → Int) (ops : List (Op K V)) : ∃ t outs, run cmp init ops = some (t, outs) ∧ runChecked cmp init ops = some (t, outs) := by
  obtain ⟨t, outs, h1, h2, _⟩ := runChecked_ok cmp ops init_sound
  exact ⟨t, outs, h1, h2⟩

/-- The check finds faults: it fails on a tree whose count is wrong, and on a tree with a node whose left child is at its own level. -/
theorem C121_tree_finds (t : Tree K V) (n : Int) (hn : n ≠ 0) (ops : List (Op K V)) (cmp : K → K → Int) (outs : List (Out V)) (h : run cmp init ops = some (t, outs)) :
    check { t with count := t.count + n } = none ∧ ∀ (l : Node K V) (k : K) (v : V) (r : Node K V) (c : Int), l ≠ .nil → check ⟨.node l k v l.level r, c⟩ = none := by
  constructor
  · obtain ⟨t', outs', h1, _, h2⟩ := runChecked_ok cmp ops init_sound
    rw [h] at h1; cases h1
    unfold check
    rw [if_neg]
    show ¬ checkRec t.root = _
    rw [checkRec_ok h2.aa, h2.count]
    intro e
    have := Option.some.inj e
    simp only at this
    omega
  · intro l k v r c hl
    have hf : l.isNull = false := by
      cases l with
      | nil => exact absurd rfl hl
      | node => rfl
    have h0 : checkRec (.node l k v l.level r) = none := by
      simp only [checkRec]
      refine if_neg fun hh => ?_
      have := hh.1 hf
      omega
    exact if_neg fun e => by rw [h0] at e; cases e

/-- A comparison that is no order (everything comes before everything): insertions, a removal and the end of all objects. -/
example : (runChecked (K := Nat) (V := Nat) (fun _ _ => 1) init [.insert 1 1 .always, .insert 2 2 .always, .insert 1 3 .always, .insert 3 3 .always, .remove 2, .count]).map (·.2.getLast?) = some (some (.count 4)) := by decide +kernel
example : (runChecked (K := Int) (V := Nat) (fun a b => b - a) init [.insert 1 1 .always, .insert 2 2 .always, .insert 3 3 .always, .insert 4 3 .always, .remove 2, .count, .get 3]).map (·.2.drop 5) = some [.count 3, .value (some 3)] := by decide +kernel

end BTree

namespace LList
open HTable (Policy)
variable {V P : Type}

/-- Linked lists: for every history of calls, the build with checks does what the build without does; no check and no assertion fails. -/
theorem C121_list [DecidableEq V] {zero : P} {pick : Nat → Heap V P → Nat} (hp : Fresh pick) (gt : P → P → Bool) (ops : List (Op V P)) (ho : ∀ op ∈ ops, OpOk op) :
    ∃ l outs, run zero pick gt init ops = some (l, outs) ∧ runChecked zero pick gt init ops = some (l, outs) ∧ check l = some l := by
  have hc : CursorOk (init : LinkedList V P) [] := Or.inl ⟨rfl, rfl, rfl⟩
  obtain ⟨l, outs, as, xs, r, s, k, c⟩ := run_spec (zero := zero) hp (gt := gt) ops init_links hc ho
  exact ⟨l, outs, r, (runChecked_ok hp ops init_links hc ho).trans r, check_ok k c⟩

/-- The check finds faults: it fails on a list whose cursor has the wrong index. -/
theorem C121_list_finds [DecidableEq V] {zero : P} {pick : Nat → Heap V P → Nat} (hp : Fresh pick) (gt : P → P → Bool) (ops : List (Op V P)) (ho : ∀ op ∈ ops, OpOk op) {l : LinkedList V P} {outs : List (Out V P)}
    (h : run zero pick gt init ops = some (l, outs)) (n : Int) (hn : n ≠ 0) : check { l with cursorIndex := l.cursorIndex + n } = none := by
  have hc : CursorOk (init : LinkedList V P) [] := Or.inl ⟨rfl, rfl, rfl⟩
  obtain ⟨l', outs', as, xs, r, s, k, c⟩ := run_spec (zero := zero) hp (gt := gt) ops init_links hc ho
  rw [h] at r; cases r
  have hcount := k.count
  rcases c with ⟨h0, c1, c2⟩ | ⟨j, hj, hji, hjc⟩
  · subst h0
    unfold check
    rw [if_pos]
    refine ⟨k.first, fun hh => hn ?_⟩
    have := hh.2.2
    simp only at this
    omega
  · have walk : ∀ (m i : Nat), i + m = j → ∀ fuel, checkWalk { l with cursorIndex := l.cursorIndex + n } fuel as[i]? i = none := by
      intro m
      induction m with
      | zero =>
        intro i hi fuel
        have hi : i = j := by omega
        subst hi
        obtain ⟨a, ha⟩ : ∃ a, as[i]? = some a := ⟨_, List.getElem?_eq_getElem hj⟩
        rw [ha]
        cases fuel with
        | zero => rfl
        | succ f =>
          obtain ⟨x, _, hx⟩ := k.seg.get ha
          simp only [checkWalk, hx, Option.bind_some]
          rw [if_neg]
          intro hh
          have := hh.2.2.2 (hjc.trans ha)
          omega
      | succ m ih =>
        intro i hi fuel
        have hlt : i < as.length := by omega
        obtain ⟨a, ha⟩ : ∃ a, as[i]? = some a := ⟨_, List.getElem?_eq_getElem hlt⟩
        rw [ha]
        cases fuel with
        | zero => rfl
        | succ f =>
          obtain ⟨x, _, hx⟩ := k.seg.get ha
          simp only [checkWalk, hx, Option.bind_some, Option.or_none]
          have any : ∀ (c : Prop) [Decidable c] (x : Option Unit), x = none → (if c then x else none) = none := fun c _ x hx => by split <;> trivial
          exact any _ _ (ih (i + 1) (by omega) f)
    unfold check
    rw [if_neg]
    · have := walk j 0 (by omega) (l.count.toNat + 1)
      rw [← List.head?_eq_getElem?, ← k.first] at this
      exact congrArg (Option.map _) this
    · intro hh
      have h1 : l.first = none := hh.1
      rw [k.first] at h1
      cases as with
      | nil => cases hj
      | cons => cases h1

/-- A history with a removal at the end, an insertion in the middle and a priority. -/
example : (runChecked (V := Nat) (P := Nat) 0 bump (fun a b => decide (b < a)) init
    [.replace 0 0 [1, 2, 3, 4], .get 2, .replace 1 2 [5], .reverse, .replace 3 0 [6], .insertPriority 6 3 .always, .replace 0 9 [], .getRange 1 2]).bind (fun r => iterate r.1) = some [6, 4, 5, 1] := by decide +kernel

end LList
end Duck
