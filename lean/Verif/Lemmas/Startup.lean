import Verif.Spec.Startup
import Verif.Lemmas.Names
namespace Duck
namespace HTable
variable {K V : Type} {hash : K → Nat} {eqv : K → K → Bool}

/-- A table never gets smaller. -/
theorem insert_big (kc : KeyClass hash eqv) {t t' : Table K V} (hi : Inv hash eqv t) {k : K} {v : V} {p : Policy} {b : Bool} (h25 : 25 < t.rows.length)
    (h : insert hash eqv t k v p = .ok (t', b)) : 25 < t'.rows.length := by
  rcases hi with rfl | ⟨m, g, ho⟩
  · simp [init] at h25
  · unfold insert insertWith at h
    rw [if_neg (by simp; intro e; rw [e] at h25; simp at h25)] at h
    rcases insertAt_cases kc (resize hash eqv 2) g ho k v p with hc | hc | hc | hc
    · rw [hc.1] at h; cases h
    · obtain ⟨_, t1, h1, _, _, _, h3, h4⟩ := hc
      rw [h1] at h; cases h; omega
    · rw [hc.2.2] at h; cases h; omega
    · obtain ⟨_, _, t1, h1, g', h2, h3, _, _⟩ := hc
      rw [h1] at h
      rcases resize_ok kc 1 g' (by omega) with ⟨r1, _⟩ | ⟨t2, m2, r1, r2, r3, r4, r5, r6⟩
      · rw [r1] at h; cases h
      · rw [r1] at h; cases h
        rcases r6 with r6 | ⟨_, r7⟩
        · omega
        · have := (nextSize_some r7).2
          simp only at this
          omega

end HTable

namespace Names
open HTable Dict Enum

theorem step_big {s s' : State} {op : Op} {o : Out} (h : Ok s.table s.classes) (h25 : 25 < s.table.rows.length) (hs : step s op = .ok (s', o)) : 25 < s'.table.rows.length := by
  cases op with
  | create name =>
      cases name with
      | none => cases hs; exact h25
      | some m =>
          obtain ⟨r, h1, h2⟩ := mapOk hs
          simp only [create] at h1
          cases hins : HTable.insert hashKey eqKey s.table (some m) s.classes.length .ifNotFound with
          | error f => rw [hins] at h1; cases h1
          | ok q =>
              obtain ⟨t', b⟩ := q
              rw [hins] at h1
              simp only [lift] at h1
              cases b with
              | false => cases h1
              | true =>
                  cases h1
                  cases h2
                  exact insert_big keys h.inv h25 hins
  | drop i =>
      obtain ⟨r, h1, h2⟩ := mapOk hs
      cases h2
      simp only [drop] at h1
      split at h1
      · split at h1
        · cases h1; exact h25
        · cases h1
      · cases h1
  | finalize i =>
      obtain ⟨r, h1, h2⟩ := mapOk hs
      cases h2
      simp only [finalize] at h1
      split at h1
      · split at h1
        · obtain ⟨t', h3, h4⟩ := mapOk h1
          cases h4
          rename_i c _ _
          cases hc : c.name with
          | none =>
              rw [hc, removeName] at h3
              cases hm : meetsName s.table with
              | error f => rw [hm] at h3; cases h3
              | ok b =>
                  rw [hm] at h3
                  cases b with
                  | true => cases h3
                  | false => cases h3; exact h25
          | some m =>
              rw [hc, removeName] at h3
              cases hr : HTable.remove hashKey eqKey s.table (some m) with
              | error f => rw [hr] at h3; cases h3
              | ok t2 =>
                  rw [hr] at h3
                  cases h3
                  obtain ⟨e1, _⟩ := remove_small hr
                  simp only [e1]; exact h25
        · cases h1
      · cases h1
  | find name =>
      obtain ⟨r, _, h2⟩ := mapOk hs
      cases h2
      exact h25

theorem run_big : ∀ (ops : List Op) {s s' : State} {outs : List Out}, Ok s.table s.classes → 25 < s.table.rows.length → run s ops = .ok (s', outs) → 25 < s'.table.rows.length
  | [], _, _, _, _, h25, h => by cases h; exact h25
  | op :: ops, s, s', outs, hk, h25, h => by
      simp only [run] at h
      cases hs : step s op with
      | error e => rw [hs] at h; cases h
      | ok r =>
          obtain ⟨s1, o⟩ := r
          rw [hs] at h
          have h1 := step_ok hk op
          rw [hs] at h1
          simp only [Except.bind] at h
          obtain ⟨q, h2, h3⟩ := mapOk h
          obtain ⟨s2, outs2⟩ := q
          cases h3
          exact run_big ops h1.1 (step_big hk h25 hs) h2

/-- A big table finds what is in it, whatever is asked for. -/
theorem find_big {s : State} (hk : Ok s.table s.classes) (h25 : 25 < s.table.rows.length) (n : Name) : fromString s (some n) = .ok (s.classes.findIdx? (·.answers n)) := by
  have h1 := step_ok hk (.find (some n))
  simp only [step] at h1
  cases hf : fromString s (some n) with
  | ok r =>
      rw [hf] at h1
      have : some (s.classes, Out.found (s.classes.findIdx? (·.answers n))) = some (s.classes, Out.found r) := h1.2
      simp only [Option.some.injEq, Prod.mk.injEq, true_and, Out.found.injEq] at this
      rw [this]
  | error e =>
      exfalso
      simp only [fromString] at hf
      rcases hk.inv with h0 | ⟨m, g, ho⟩
      · rw [h0] at h25; simp [HTable.init] at h25
      · have hc := find_cases (hash := hashKey) (eqv := eqKey) s.table.rows (some n) g.size ho
        unfold HTable.get at hf
        split at hf
        · cases hr : HTable.find hashKey eqKey s.table.rows (some n) with
          | ok r => rw [hr] at hf; cases hf
          | error f => rw [hr] at hc; have := hc.2.1; omega
        · cases hf

end Names

namespace Startup
open Nested (Accessor)
open Names Enum

/-- The classes in the order in which they are named. -/
def order : List (String × Obj Root) :=
  [("DKRootClass", .static .DKRootClass), ("DKClass", .static .DKClassClass), ("DKSelector", .static .DKSelectorClass), ("DKInterface", .static .DKInterfaceClass),
   ("DKMsgHandler", .static .DKMsgHandlerClass), ("DKObject", .static .DKObjectClass), ("DKMetadata", .static .DKMetadataClass), ("DKZombie", .static .DKZombieClass),
   ("DKString", .made .DKStringClass), ("DKConstantString", .made .DKConstantStringClass), ("DKThread", .made .DKThreadClass),
   ("DKArray", .made .DKArrayClass), ("DKMutableArray", .made .DKMutableArrayClass), ("DKBinaryTree", .made .DKBinaryTreeClass),
   ("DKMutableBinaryTree", .made .DKMutableBinaryTreeClass), ("DKHashTable", .made .DKHashTableClass), misnamed,
   ("DKGraph", .made .DKGraphClass), ("DKGraphEdge", .made .DKGraphEdgeClass), ("DKLinkedList", .made .DKLinkedListClass),
   ("DKMutableLinkedList", .made .DKMutableLinkedListClass), ("DKNumber", .made .DKNumberClass), ("DKBoolean", .made .DKBooleanClass), ("DKData", .made .DKDataClass),
   ("DKMutableData", .made .DKMutableDataClass), ("DKPair", .made .DKPairClass), ("DKMutableString", .made .DKMutableStringClass), ("DKStruct", .made .DKStructClass),
   ("DKThreadPool", .made .DKThreadPoolClass), ("DKMutex", .made .DKMutexClass), ("DKCondition", .made .DKConditionClass),
   ("DKReadWriteLock", .made .DKReadWriteLockClass), ("DKSemaphore", .made .DKSemaphoreClass), ("DKEggArchiver", .made .DKEggArchiverClass),
   ("DKEggUnarchiver", .made .DKEggUnarchiverClass), ("DKEnum", .made .DKEnumClass), ("DKFile", .made .DKFileClass), ("DKPredicate", .made .DKPredicateClass)]

/-- The selectors. -/
def orderSel : List (String × Obj Static) :=
  [("Allocation", .static .Allocation), ("Comparison", .static .Comparison), ("Copying", .static .Copying), ("Conversion", .static .Conversion), ("Description", .static .Description),
   ("Buffer", .static .Buffer), ("Stream", .static .Stream), ("Egg", .static .Egg),
   ("Collection", .made .selCollection), ("List", .made .selList), ("Set", .made .selSet), ("KeyedCollection", .made .selKeyedCollection), ("Dictionary", .made .selDictionary),
   ("Property", .made .selProperty)]

/-- The database `db` is what it is when these names are inserted, one after the other. -/
def checkDb {α : Type} [DecidableEq α] (db : Option Names.State) (ids : List α) (l : List (String × α)) : Bool :=
  match db, Names.run Names.init (l.map fun x => .create (some (bytes x.1))) with
  | some d, .ok r => r.1.table == d.table && r.1.classes == d.classes && d.classes == (l.map fun x => ⟨some (bytes x.1), .live⟩) && decide (25 < d.table.rows.length) && ids == l.map (·.2)
  | _, _ => false

def check (x : Except Names.Error State) : Bool :=
  match x with
  | .ok s => checkDb s.classes s.classIds order && checkDb s.selectors s.selectorIds orderSel && s.flag && s.thread && s.metadata && usable s
  | .error _ => false

theorem checked (z : Bool) : check (body.foldlM exec { fresh with flag := true, zombies := z }) = true := by cases z <;> decide +kernel

/-- The state after DKRuntimeInit, with or without zombies. -/
def started (z : Bool) : State := (body.foldlM exec { fresh with flag := true, zombies := z }).toOption.getD fresh

theorem body_ok (z : Bool) : body.foldlM exec { fresh with flag := true, zombies := z } = .ok (started z) := by
  have h := checked z
  unfold started
  cases hr : body.foldlM exec { fresh with flag := true, zombies := z } with
  | ok s => rfl
  | error e => rw [hr] at h; cases h

attribute [irreducible] started

theorem init_ok (o : BitVec 32) : runtimeInit fresh o = .ok (started (o &&& 1 != 0)) := body_ok _

theorem eq_started {o : BitVec 32} {s : State} (h : runtimeInit fresh o = .ok s) : s = started (o &&& 1 != 0) := by
  have e := (init_ok o).symm.trans h
  exact (Except.ok.inj e).symm

theorem started_checked (z : Bool) : check (.ok (started z)) = true := by rw [← body_ok]; exact checked z

structure Holds {α : Type} (db : Option Names.State) (ids : List α) (l : List (String × α)) : Prop where
  ids : ids = l.map (·.2)
  db : ∃ d, db = some d ∧ Ok d.table d.classes ∧ 25 < d.table.rows.length ∧ d.classes = l.map fun x => ⟨some (bytes x.1), .live⟩

theorem holds_of {α : Type} [DecidableEq α] {db : Option Names.State} {ids : List α} {l : List (String × α)} (h : checkDb db ids l = true) : Holds db ids l := by
  unfold checkDb at h
  split at h
  · rename_i d r hr
    simp only [Bool.and_eq_true, beq_iff_eq, decide_eq_true_eq] at h
    obtain ⟨⟨⟨⟨h1, h2⟩, h3⟩, h4⟩, h5⟩ := h
    have hk := run_ok (l.map fun x => .create (some (bytes x.1))) Names.init ok_init
    rw [hr] at hk
    refine ⟨h5, d, rfl, ?_, h4, h3⟩
    rw [← h1, ← h2]
    exact hk.1
  · cases h

theorem started_all (z : Bool) : Holds (started z).classes (started z).classIds order ∧ Holds (started z).selectors (started z).selectorIds orderSel ∧ (started z).flag = true ∧
    (started z).thread = true ∧ (started z).metadata = true ∧ usable (started z) = true := by
  have h := started_checked z
  simp only [check, Bool.and_eq_true] at h
  obtain ⟨⟨⟨⟨⟨h1, h2⟩, h3⟩, h4⟩, h5⟩, h6⟩ := h
  exact ⟨holds_of h1, holds_of h2, h3, h4, h5, h6⟩

/-- A name is found exactly if it was inserted. -/
theorem Holds.find {α : Type} {db : Option Names.State} {ids : List α} {l : List (String × α)} (h : Holds db ids l) (hd : (l.map fun x => bytes x.1).Nodup) (n : Name) :
    ∃ d r, db = some d ∧ Names.fromString d (some n) = .ok r ∧ ∀ c, nth ids r = some c ↔ ∃ t, (t, c) ∈ l ∧ bytes t = n := by
  obtain ⟨d, h1, h2, h3, h4⟩ := h.db
  refine ⟨d, _, h1, find_big h2 h3 n, fun c => ?_⟩
  rw [h4, h.ids]
  clear h h1 h2 h3 h4
  induction l with
  | nil => simp [nth]
  | cons x l ih =>
      simp only [List.map_cons, List.nodup_cons] at hd
      simp only [List.map_cons, List.findIdx?_cons]
      by_cases hx : bytes x.1 = n
      · rw [if_pos (by simp [Cls.answers, hx])]
        simp only [nth, List.map_cons, List.getElem?_cons_zero, Option.some.injEq]
        constructor
        · rintro rfl; exact ⟨x.1, List.mem_cons_self, hx⟩
        · rintro ⟨t, ht, rfl⟩
          rcases List.mem_cons.mp ht with rfl | ht
          · rfl
          · exact absurd (hx ▸ List.mem_map.mpr ⟨_, ht, rfl⟩) hd.1
      · rw [if_neg (by simp [Cls.answers, hx])]
        have ih := ih hd.2
        have : ∀ r : Option Nat, nth (x.2 :: List.map (·.2) l) (r.map (· + 1)) = nth (l.map (·.2)) r := by rintro (_ | r) <;> rfl
        rw [this, ih]
        constructor
        · rintro ⟨t, ht, e⟩; exact ⟨t, List.mem_cons_of_mem _ ht, e⟩
        · rintro ⟨t, ht, e⟩
          rcases List.mem_cons.mp ht with rfl | ht
          · exact absurd e hx
          · exact ⟨t, ht, e⟩

theorem Holds.name {α : Type} [DecidableEq α] {db : Option Names.State} {ids : List α} {l : List (String × α)} (h : Holds db ids l) (c : α) :
    nameAt db (ids.findIdx? (· == c)) = (l.find? (·.2 == c)).map fun x => bytes x.1 := by
  obtain ⟨d, h1, -, -, h4⟩ := h.db
  rw [h1, h.ids]
  have hn : ∀ i, nameAt (some d) (some i) = (d.classes[i]?.map Cls.name).getD none := fun i => rfl
  rw [List.findIdx?_map]
  cases hf : l.findIdx? ((fun x => x == c) ∘ fun x => x.2) with
  | none =>
      rw [List.findIdx?_eq_none_iff] at hf
      rw [List.find?_eq_none.mpr fun x hx => by have := hf x hx; simpa using this]; rfl
  | some i =>
      rw [hn, h4]
      rw [List.findIdx?_eq_some_iff_getElem] at hf
      obtain ⟨hi, ha, hb⟩ := hf
      have : l.find? (·.2 == c) = some l[i] := by
        rw [List.find?_eq_some_iff_getElem]
        exact ⟨ha, i, hi, rfl, fun j hj => by simpa using hb j hj⟩
      rw [this]
      simp [List.getElem?_eq_getElem hi]

theorem order_nodup : (order.map fun x => bytes x.1).Nodup ∧ (order.map (·.2)).Nodup := by decide +kernel
theorem orderSel_nodup : (orderSel.map fun x => bytes x.1).Nodup ∧ (orderSel.map (·.2)).Nodup := by decide +kernel

/-- Once the runtime has started, no thread changes it. -/
theorem threadStep_started {p q : Par} {i : Nat} (hf : p.state.flag = true) (ht : ∀ x ∈ p.threads, x.2 = .test ∨ x.2 = .done) (h : threadStep p i = .ok q) :
    q.state = p.state ∧ ∀ x ∈ q.threads, x.2 = .test ∨ x.2 = .done := by
  unfold threadStep at h
  split at h
  · cases h
  · cases h
    refine ⟨rfl, fun x hx => ?_⟩
    rcases List.mem_or_eq_of_mem_set hx with hx | rfl
    · exact ht x hx
    · simp [hf]
  all_goals first
    | cases h; done
    | (rename_i hi; have := ht _ (List.mem_of_getElem? hi); simp at this)

theorem threadRun_started : ∀ (is : List Nat) {p q : Par}, p.state.flag = true → (∀ x ∈ p.threads, x.2 = .test ∨ x.2 = .done) → threadRun p is = .ok q → q.state = p.state
  | [], p, q, _, _, h => by cases h; rfl
  | i :: is, p, q, hf, ht, h => by
      rw [threadRun, List.foldlM_cons] at h
      cases hs : threadStep p i with
      | error e => rw [hs] at h; cases h
      | ok p1 =>
          rw [hs] at h
          obtain ⟨h1, h2⟩ := threadStep_started hf ht hs
          rw [← h1]
          exact threadRun_started is (by rw [h1]; exact hf) h2 h

theorem later {s : State} (hf : s.flag = true) : ∀ os : List (BitVec 32), os.foldlM runtimeInit s = .ok s
  | [] => rfl
  | o :: os => by
      rw [List.foldlM_cons]
      have : runtimeInit s o = .ok s := if_pos hf
      rw [this]
      exact later hf os

end Startup
end Duck
