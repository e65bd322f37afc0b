import Verif.Spec.Names
import Verif.Lemmas.Enum
namespace Duck
namespace Names
open HTable Dict Enum

/-- The table holds exactly the classes that can be found. -/
structure Ok (t : Table Key Nat) (cs : List Cls) : Prop where
  inv : Inv hashKey eqKey t
  mem : ∀ n i, (entry eqKey t (some n)).map (·.2) = some i ↔ ∃ c, cs[i]? = some c ∧ c.answers n = true

theorem ok_init : Ok HTable.init [] := ⟨Or.inl rfl, fun n i => by simp [entry, HTable.init, entries]⟩

theorem Ok.find {t cs} (h : Ok t cs) (n : Name) : cs.findIdx? (·.answers n) = (entry eqKey t (some n)).map (·.2) := by
  cases hf : cs.findIdx? (·.answers n) with
  | some i =>
      rw [List.findIdx?_eq_some_iff_getElem] at hf
      obtain ⟨hi, ha, _⟩ := hf
      exact ((h.mem n i).mpr ⟨_, List.getElem?_eq_getElem hi, ha⟩).symm
  | none =>
      rw [List.findIdx?_eq_none_iff] at hf
      cases he : (entry eqKey t (some n)).map (·.2) with
      | none => rfl
      | some i =>
          obtain ⟨c, hc, ha⟩ := (h.mem n i).mp he
          rw [hf c (List.mem_of_getElem? hc)] at ha
          exact absurd ha (by simp)

theorem Ok.any {t cs} (h : Ok t cs) (n : Name) : cs.any (·.answers n) = (entry eqKey t (some n)).isSome := by
  have h1 := h.find n
  cases he : entry eqKey t (some n) with
  | none =>
      rw [he, Option.map_none, List.findIdx?_eq_none_iff] at h1
      simp only [Option.isSome_none, List.any_eq_false]
      intro c hc; simp [h1 c hc]
  | some e =>
      rw [he, Option.map_some, List.findIdx?_eq_some_iff_getElem] at h1
      obtain ⟨hi, ha, _⟩ := h1
      simp only [Option.isSome_some, List.any_eq_true]
      exact ⟨_, List.getElem_mem hi, ha⟩

theorem answers_of {n n' : Name} {c : Cls} (h : c.answers n = true) (h' : c.answers n' = true) : n = n' := by
  simp only [Cls.answers, Bool.and_eq_true, beq_iff_eq] at h h'
  have := h.1.symm.trans h'.1
  simpa using this

theorem append_get {α : Type} {l : List α} {a x : α} {i : Nat} : (l ++ [a])[i]? = some x ↔ l[i]? = some x ∨ i = l.length ∧ x = a := by
  rcases Nat.lt_trichotomy i l.length with h | h | h
  · rw [List.getElem?_append_left h]; constructor
    · exact Or.inl
    · rintro (h' | ⟨h', _⟩)
      · exact h'
      · omega
  · subst h; simp [eq_comm]
  · rw [List.getElem?_eq_none (by simp; omega), List.getElem?_eq_none (by omega)]; simp; omega

theorem Ok.unnamed {t cs} (h : Ok t cs) : Ok t (cs ++ [⟨none, .live⟩]) := by
  refine ⟨h.inv, fun n i => (h.mem n i).trans ⟨fun ⟨c, h1, h2⟩ => ⟨c, append_get.mpr (Or.inl h1), h2⟩, ?_⟩⟩
  rintro ⟨c, h1, h2⟩
  rcases append_get.mp h1 with h1 | ⟨_, rfl⟩
  · exact ⟨c, h1, h2⟩
  · simp [Cls.answers] at h2

theorem Ok.named {t cs} (h : Ok t cs) {n : Name} {t' : Table Key Nat} {b : Bool}
    (hi : HTable.insert hashKey eqKey t (some n) cs.length .ifNotFound = .ok (t', b)) :
    b = !cs.any (·.answers n) ∧ (b = true → Ok t' (cs ++ [⟨some n, .live⟩])) := by
  have hk := HTable.insert_ok keys h.inv (some n) cs.length .ifNotFound
  rw [hi] at hk
  have hb : b = !cs.any (·.answers n) := by
    rw [hk.2.2, h.any, specInsert]
    have : has eqKey (entries t.rows) (some n) = (entry eqKey t (some n)).isSome := by
      rw [has, entry, Bool.eq_iff_iff, List.find?_isSome, List.any_eq_true]
    rw [this]
    cases (entry eqKey t (some n)).isSome <;> rfl
  refine ⟨hb, fun ht => ?_⟩
  obtain ⟨h3, h4⟩ := insert_entry keys h.inv hi
  have hn : cs.any (·.answers n) = false := by rw [ht] at hb; simpa using hb.symm
  have he : entry eqKey t (some n) = none := by
    rw [h.any] at hn
    simpa using hn
  refine ⟨h3, fun m i => ?_⟩
  rw [h4]
  by_cases hm : n = m
  · subst hm
    rw [if_pos (by simp [eqKey]), he]
    simp only [putRow, Option.map_some, Option.some.injEq]
    constructor
    · rintro rfl; exact ⟨_, append_get.mpr (Or.inr ⟨rfl, rfl⟩), by simp [Cls.answers]⟩
    · rintro ⟨c, h1, h2⟩
      rcases append_get.mp h1 with h1 | ⟨h1, _⟩
      · rw [List.any_eq_false] at hn
        exact absurd h2 (hn c (List.mem_of_getElem? h1))
      · exact h1.symm
  · rw [if_neg (by simpa [eqKey] using hm), h.mem]
    constructor
    · rintro ⟨c, h1, h2⟩; exact ⟨c, append_get.mpr (Or.inl h1), h2⟩
    · rintro ⟨c, h1, h2⟩
      rcases append_get.mp h1 with h1 | ⟨_, rfl⟩
      · exact ⟨c, h1, h2⟩
      · simp [Cls.answers, hm] at h2

theorem set_get {l : List Cls} {i j : Nat} {c c' x : Cls} (hi : l[i]? = some c) : (l.set i c')[j]? = some x ↔ (j = i ∧ x = c') ∨ (j ≠ i ∧ l[j]? = some x) := by
  by_cases h : i = j
  · subst h
    rw [List.getElem?_set_self (List.getElem?_eq_some_iff.mp hi).1]
    simp [eq_comm]
  · rw [List.getElem?_set_ne h]
    simp [Ne.symm h]

theorem Ok.drop {t cs} (h : Ok t cs) {i : Nat} {c : Cls} (hi : cs[i]? = some c) (hp : c.phase = .live) : Ok t (cs.set i ⟨c.name, .dying⟩) := by
  refine ⟨h.inv, fun n j => (h.mem n j).trans ⟨?_, ?_⟩⟩
  · rintro ⟨x, h1, h2⟩
    by_cases hj : j = i
    · subst hj
      rw [hi] at h1; cases h1
      refine ⟨⟨c.name, .dying⟩, (set_get hi).mpr (Or.inl ⟨rfl, rfl⟩), ?_⟩
      simp only [Cls.answers, hp] at h2 ⊢
      simpa using h2
    · exact ⟨x, (set_get hi).mpr (Or.inr ⟨hj, h1⟩), h2⟩
  · rintro ⟨x, h1, h2⟩
    rcases (set_get hi).mp h1 with ⟨rfl, rfl⟩ | ⟨_, h1⟩
    · refine ⟨c, hi, ?_⟩
      simp only [Cls.answers, hp] at h2 ⊢
      simpa using h2
    · exact ⟨x, h1, h2⟩

theorem Ok.gone_unnamed {t cs} (h : Ok t cs) {i : Nat} {c : Cls} (hi : cs[i]? = some c) (hn : c.name = none) : Ok t (cs.set i ⟨c.name, .gone⟩) := by
  refine ⟨h.inv, fun n j => (h.mem n j).trans ⟨?_, ?_⟩⟩
  · rintro ⟨x, h1, h2⟩
    by_cases hj : j = i
    · subst hj
      rw [hi] at h1; cases h1
      simp [Cls.answers, hn] at h2
    · exact ⟨x, (set_get hi).mpr (Or.inr ⟨hj, h1⟩), h2⟩
  · rintro ⟨x, h1, h2⟩
    rcases (set_get hi).mp h1 with ⟨rfl, rfl⟩ | ⟨_, h1⟩
    · simp [Cls.answers] at h2
    · exact ⟨x, h1, h2⟩

theorem Ok.gone {t cs} (h : Ok t cs) {i : Nat} {c : Cls} {n : Name} (hi : cs[i]? = some c) (hn : c.name = some n) (hp : c.phase = .dying)
    {t' : Table Key Nat} (hr : HTable.remove hashKey eqKey t (some n) = .ok t') : Ok t' (cs.set i ⟨c.name, .gone⟩) := by
  obtain ⟨h3, h4⟩ := remove_entry keys h.inv hr
  have ha : c.answers n = true := by simp [Cls.answers, hn, hp]
  refine ⟨h3, fun m j => ?_⟩
  rw [h4]
  by_cases hm : n = m
  · subst hm
    rw [if_pos (by simp [eqKey])]
    simp only [Option.map_none, reduceCtorEq, false_iff]
    rintro ⟨x, h1, h2⟩
    rcases (set_get hi).mp h1 with ⟨rfl, rfl⟩ | ⟨hj, h1⟩
    · simp [Cls.answers] at h2
    · have e1 := (h.mem n i).mpr ⟨c, hi, ha⟩
      have e2 := (h.mem n j).mpr ⟨x, h1, h2⟩
      rw [e1] at e2
      exact hj (by simpa using e2.symm)
  · rw [if_neg (by simpa [eqKey] using hm), h.mem]
    constructor
    · rintro ⟨x, h1, h2⟩
      by_cases hj : j = i
      · subst hj
        rw [hi] at h1; cases h1
        exact absurd (answers_of ha h2) hm
      · exact ⟨x, (set_get hi).mpr (Or.inr ⟨hj, h1⟩), h2⟩
    · rintro ⟨x, h1, h2⟩
      rcases (set_get hi).mp h1 with ⟨rfl, rfl⟩ | ⟨_, h1⟩
      · simp [Cls.answers] at h2
      · exact ⟨x, h1, h2⟩

/-- Why a call can fail. -/
def Why (s : State) (op : Op) (e : Error) : Prop :=
  ((e = .fatal ∨ e = .illegal) ∧ expected s.classes op = none) ∨ Unnamed s.classes op ∨ ∃ f, e = .table f ∧ BadState s.table f

theorem step_ok {s : State} (h : Ok s.table s.classes) (op : Op) :
    match step s op with
    | .ok (s', o) => Ok s'.table s'.classes ∧ expected s.classes op = some (s'.classes, o)
    | .error e => Why s op e := by
  cases op with
  | create name =>
      cases name with
      | none => exact ⟨h.unnamed, rfl⟩
      | some n =>
          have hk := HTable.insert_ok keys h.inv (some n) s.classes.length .ifNotFound
          simp only [step, create]
          cases hins : HTable.insert hashKey eqKey s.table (some n) s.classes.length .ifNotFound with
          | error f => rw [hins] at hk; exact Or.inr (Or.inr ⟨f, rfl, hk⟩)
          | ok r =>
              obtain ⟨t', b⟩ := r
              obtain ⟨h1, h2⟩ := h.named hins
              cases b with
              | true =>
                  refine ⟨h2 rfl, ?_⟩
                  have : s.classes.any (·.answers n) = false := by simpa using h1.symm
                  simp [expected, this]
              | false =>
                  have : s.classes.any (·.answers n) = true := by simpa using h1.symm
                  exact Or.inl ⟨Or.inl rfl, by rw [expected, if_pos this]⟩
  | drop i =>
      simp only [step, drop]
      cases hi : s.classes[i]? with
      | none => exact Or.inl ⟨Or.inr rfl, by rw [expected, hi]; rfl⟩
      | some c =>
          by_cases hp : c.phase = .live
          · simp only [hp, if_true]
            exact ⟨h.drop hi hp, by simp [expected, hi, hp]⟩
          · simp only [hp, if_false]
            exact Or.inl ⟨Or.inr rfl, by simp [expected, hi, hp]⟩
  | finalize i =>
      simp only [step, finalize]
      cases hi : s.classes[i]? with
      | none => exact Or.inl ⟨Or.inr rfl, by rw [expected, hi]; rfl⟩
      | some c =>
          by_cases hp : c.phase = .dying
          · simp only [hp, if_true]
            cases hn : c.name with
            | none =>
                have hu : Unnamed s.classes (.finalize i) := ⟨i, c.phase, rfl, by rw [hi, ← hn]⟩
                simp only [removeName]
                cases hm : meetsName s.table with
                | error f => exact Or.inr (Or.inl hu)
                | ok b =>
                    cases b with
                    | true => exact Or.inr (Or.inl hu)
                    | false => exact ⟨hn ▸ h.gone_unnamed hi hn, by simp [expected, hi, hp, hn]⟩
            | some n =>
                have hk := HTable.remove_ok keys h.inv (some n)
                simp only [removeName]
                cases hr : HTable.remove hashKey eqKey s.table (some n) with
                | error f => rw [hr] at hk; exact Or.inr (Or.inr ⟨f, rfl, hk⟩)
                | ok t' => exact ⟨hn ▸ h.gone hi hn hp hr, by simp [expected, hi, hp, hn]⟩
          · simp only [hp, if_false]
            exact Or.inl ⟨Or.inr rfl, by simp [expected, hi, hp]⟩
  | find name =>
      cases name with
      | none => exact ⟨h, rfl⟩
      | some n =>
          have hk := HTable.get_ok keys h.inv (some n)
          simp only [step, fromString]
          cases hg : HTable.get hashKey eqKey s.table (some n) with
          | error f => rw [hg] at hk; exact Or.inr (Or.inr ⟨f, rfl, hk⟩)
          | ok r =>
              refine ⟨h, ?_⟩
              simp only [expected, h.find n, get_entry keys h.inv hg]

theorem run_ok : ∀ (ops : List Op) (s : State), Ok s.table s.classes →
    match run s ops with
    | .ok (s', outs) => Ok s'.table s'.classes ∧ expectedRun s.classes ops = some (s'.classes, outs)
    | .error e => ∃ pre op post s' outs, ops = pre ++ op :: post ∧ run s pre = .ok (s', outs) ∧ expectedRun s.classes pre = some (s'.classes, outs) ∧
        step s' op = .error e ∧ Why s' op e
  | [], s, h => ⟨h, rfl⟩
  | op :: ops, s, h => by
      have h1 := step_ok h op
      simp only [run, expectedRun]
      cases hs : step s op with
      | error e =>
          rw [hs] at h1
          exact ⟨[], op, ops, s, [], rfl, rfl, rfl, hs, h1⟩
      | ok r =>
          obtain ⟨s1, o⟩ := r
          rw [hs] at h1
          obtain ⟨h2, h3⟩ := h1
          have h4 := run_ok ops s1 h2
          simp only [Except.bind, h3, Option.bind]
          cases hr : run s1 ops with
          | ok q =>
              obtain ⟨s', outs⟩ := q
              rw [hr] at h4
              exact ⟨h4.1, by rw [h4.2]; rfl⟩
          | error e =>
              rw [hr] at h4
              obtain ⟨pre, op', post, s', outs, e1, e2, e3, e4, e5⟩ := h4
              refine ⟨op :: pre, op', post, s', o :: outs, by rw [e1]; rfl, ?_, ?_, e4, e5⟩
              · simp only [run, hs, Except.bind, e2]; rfl
              · simp only [expectedRun, h3, Option.bind, e3]; rfl

/-- A class that is gone stays what it is. -/
theorem stays_step {cs cs' : List Cls} {op : Op} {o : Out} {i : Nat} {k : Key} (he : expected cs op = some (cs', o)) (h : cs[i]? = some ⟨k, .gone⟩) :
    cs'[i]? = some ⟨k, .gone⟩ := by
  cases op with
  | create name =>
      cases name with
      | none => cases he; exact append_get.mpr (Or.inl h)
      | some n =>
          simp only [expected] at he
          split at he
          · cases he
          · cases he; exact append_get.mpr (Or.inl h)
  | drop j =>
      simp only [expected] at he
      cases hj : cs[j]? with
      | none => rw [hj] at he; cases he
      | some c =>
          rw [hj] at he
          simp only [Option.bind] at he
          split at he
          · rename_i hp
            cases he
            refine (set_get hj).mpr (Or.inr ⟨?_, h⟩)
            rintro rfl
            rw [hj] at h; cases h; cases hp
          · cases he
  | finalize j =>
      simp only [expected] at he
      cases hj : cs[j]? with
      | none => rw [hj] at he; cases he
      | some c =>
          rw [hj] at he
          simp only [Option.bind] at he
          split at he
          · rename_i hp
            cases he
            refine (set_get hj).mpr (Or.inr ⟨?_, h⟩)
            rintro rfl
            rw [hj] at h; cases h; cases hp
          · cases he
  | find name => cases name <;> cases he <;> exact h

theorem stays : ∀ (ops : List Op) {cs cs' : List Cls} {outs : List Out} {i : Nat} {k : Key}, expectedRun cs ops = some (cs', outs) → cs[i]? = some ⟨k, .gone⟩ →
    ∃ c ∈ cs', c.name = k ∧ c.phase = .gone
  | [], cs, cs', outs, i, k, he, h => by cases he; exact ⟨_, List.mem_of_getElem? h, rfl, rfl⟩
  | op :: ops, cs, cs', outs, i, k, he, h => by
      simp only [expectedRun] at he
      cases hx : expected cs op with
      | none => rw [hx] at he; cases he
      | some r =>
          obtain ⟨cs1, o⟩ := r
          rw [hx] at he
          simp only [Option.bind] at he
          cases hy : expectedRun cs1 ops with
          | none => rw [hy] at he; cases he
          | some q =>
              rw [hy] at he
              cases he
              exact stays ops hy (stays_step hx h)

/-- Short histories do not meet the failure of the table. -/
theorem step_small {s s' : State} {op : Op} {o : Out} {n : Nat} (h : Ok s.table s.classes) (h25 : s.table.rows.length ≤ 25) (hn : occ s.table.rows ≤ n)
    (h10 : n ≤ 10) (hs : step s op = .ok (s', o)) :
    s'.table.rows.length ≤ 25 ∧ occ s'.table.rows ≤ n + creations [op] := by
  cases op with
  | create name =>
      cases name with
      | none => cases hs; exact ⟨h25, by simp [creations]; omega⟩
      | some m =>
          obtain ⟨r, h1, h2⟩ := mapOk hs
          simp only [create] at h1
          cases hins : HTable.insert hashKey eqKey s.table (some m) s.classes.length .ifNotFound with
          | error f => rw [hins] at h1; cases h1
          | ok q =>
              obtain ⟨t', b⟩ := q
              rw [hins] at h1
              simp only [lift] at h1
              cases b with
              | false => cases h1
              | true =>
                  cases h1
                  cases h2
                  exact insert_small keys h.inv h25 hn (by omega) hins
  | drop i =>
      obtain ⟨r, h1, h2⟩ := mapOk hs
      cases h2
      simp only [drop] at h1
      split at h1
      · split at h1
        · cases h1; exact ⟨h25, hn⟩
        · cases h1
      · cases h1
  | finalize i =>
      obtain ⟨r, h1, h2⟩ := mapOk hs
      cases h2
      simp only [finalize] at h1
      split at h1
      · split at h1
        · obtain ⟨t', h3, h4⟩ := mapOk h1
          cases h4
          rename_i c _ _
          cases hc : c.name with
          | none =>
              rw [hc, removeName] at h3
              cases hm : meetsName s.table with
              | error f => rw [hm] at h3; cases h3
              | ok b =>
                  rw [hm] at h3
                  cases b with
                  | true => cases h3
                  | false => cases h3; exact ⟨h25, hn⟩
          | some m =>
              rw [hc, removeName] at h3
              cases hr : HTable.remove hashKey eqKey s.table (some m) with
              | error f => rw [hr] at h3; cases h3
              | ok t2 =>
                  rw [hr] at h3
                  cases h3
                  obtain ⟨e1, e2⟩ := remove_small hr
                  exact ⟨by rw [e1]; exact h25, e2 n hn h.inv keys⟩
        · cases h1
      · cases h1
  | find name =>
      obtain ⟨r, _, h2⟩ := mapOk hs
      cases h2
      exact ⟨h25, hn⟩

theorem run_short : ∀ (ops : List Op) (s : State) (n : Nat) (cs : List Cls) (outs : List Out), Ok s.table s.classes → s.table.rows.length ≤ 25 →
    occ s.table.rows ≤ n → n + creations ops ≤ 10 → expectedRun s.classes ops = some (cs, outs) → (∀ c ∈ cs, c.name ≠ none ∨ c.phase ≠ .gone) →
    ∃ s', run s ops = .ok (s', outs) ∧ s'.classes = cs
  | [], s, n, cs, outs, _, _, _, _, he, _ => by cases he; exact ⟨s, rfl, rfl⟩
  | op :: ops, s, n, cs, outs, h, h25, hn, h10, he, hu => by
      have hc : creations (op :: ops) = creations [op] + creations ops := by
        have := List.countP_append (p := isNamed) (l₁ := [op]) (l₂ := ops)
        simpa [creations] using this
      have h1 := step_ok h op
      simp only [expectedRun] at he
      cases hx : expected s.classes op with
      | none => rw [hx] at he; cases he
      | some r =>
          obtain ⟨cs1, o⟩ := r
          rw [hx] at he
          simp only [Option.bind] at he
          cases hy : expectedRun cs1 ops with
          | none => rw [hy] at he; cases he
          | some q =>
              obtain ⟨cs2, outs2⟩ := q
              rw [hy] at he
              cases he
              cases hs : step s op with
              | error e =>
                  rw [hs] at h1
                  rcases h1 with ⟨_, h1⟩ | ⟨i, ph, rfl, h1⟩ | ⟨f, _, h1 | h1⟩
                  · rw [hx] at h1; cases h1
                  · exfalso
                    simp only [expected, h1, Option.bind] at hx
                    split at hx
                    · cases hx
                      have hg : (s.classes.set i ⟨none, .gone⟩)[i]? = some ⟨none, .gone⟩ := List.getElem?_set_self (List.getElem?_eq_some_iff.mp h1).1
                      obtain ⟨c, h2, h3, h4⟩ := stays ops hy hg
                      rcases hu c h2 with h5 | h5
                      · exact h5 h3
                      · exact h5 h4
                    · cases hx
                  · omega
                  · omega
              | ok r =>
                  obtain ⟨s1, o1⟩ := r
                  rw [hs] at h1
                  obtain ⟨h2, h3⟩ := h1
                  rw [hx] at h3
                  cases h3
                  obtain ⟨h4, h5⟩ := step_small h h25 hn (by omega) hs
                  obtain ⟨s', h6, h7⟩ := run_short ops s1 _ _ outs2 h2 h4 h5 (by omega) hy hu
                  exact ⟨s', by simp only [run, hs, Except.bind, h6]; rfl, h7⟩

end Names
end Duck
