import Verif.Lemmas.ConstString

/-!
# Properties of constant strings

C54: Two constant-string requests with equal text return the same pointer, on all threads.
-/

namespace Duck
namespace Const

/-- C54: Whatever the scheduling, two calls that have returned strings returned the same one exactly if they asked for the same text. -/
theorem C54_same {s : State} (h : Reach s) {i j : Nat} {c d : Call} {p q : Nat} (hi : s.calls[i]? = some c) (hj : s.calls[j]? = some d)
    (hc : c.pc = .done (some p)) (hd : d.pc = .done (some q)) : p = q ↔ c.text = d.text := by
  have inv := reach_inv h
  obtain ⟨h1, h2⟩ := (inv.ok i c hi).result p (by rw [hc]; rfl)
  obtain ⟨h3, h4⟩ := (inv.ok j d hj).result q (by rw [hd]; rfl)
  refine ⟨fun e => ?_, fun e => inv.texts p h1 q h3 (by rw [h2, h4, e])⟩
  subst e
  rw [h2] at h4; exact Option.some.inj h4

/-- C54: The string has the text asked for and is not freed; NULL is returned only by calls that do not insert. -/
theorem C54_text {s : State} (h : Reach s) {i : Nat} {c : Call} {r : Option Nat} (hi : s.calls[i]? = some c) (hc : c.pc = .done r) :
    (∀ p, r = some p → textOf s p = some c.text ∧ live s p = true) ∧ (r = none → c.insert = false) := by
  have inv := reach_inv h
  refine ⟨fun p hp => ?_, fun hr => (inv.ok i c hi).null (by rw [hc, hr])⟩
  subst hp
  obtain ⟨h1, h2⟩ := (inv.ok i c hi).result p (by rw [hc]; rfl)
  obtain ⟨x, h3, h4⟩ := inv.rows p h1
  exact ⟨h2, by unfold live; rw [h3]; simp [h4]⟩

/-- A series of steps. -/
inductive Run : State → List Action → State → Prop
  | nil (s) : Run s [] s
  | cons {s a s' as s''} : act s a = some (.ok s') → Run s' as s'' → Run s (a :: as) s''

/-- C54: A call that begins after another one with the same text has returned a string returns that string, also if it does not insert. -/
theorem C54_later {s s' : State} {as : List Action} (h : Reach s) (hr : Run s as s') {i j : Nat} {c d : Call} {p : Nat} {r : Option Nat}
    (hi : s.calls[i]? = some c) (hc : c.pc = .done (some p)) (hj : s.calls.length ≤ j) (hd : s'.calls[j]? = some d) (ht : d.text = c.text)
    (hdone : d.pc = .done r) : r = some p := by
  have inv := reach_inv h
  obtain ⟨h1, h2⟩ := (inv.ok i c hi).result p (by rw [hc]; rfl)
  -- `p` stays in the table, and every later call with that text is good
  have gen : ∀ {s s' : State} {as : List Action}, Run s as s' → Inv s → p ∈ s.rows → textOf s p = some c.text →
      (∀ d, s.calls[j]? = some d → d.text = c.text → Good p d) → ∀ d, s'.calls[j]? = some d → d.text = c.text → Good p d := by
    intro s s' as hr
    induction hr with
    | nil => intro _ _ _ hg; exact hg
    | @cons s a s1 as s2 ha _ ih =>
      intro inv hp htx hg
      obtain ⟨_, hs, hinv, hrows, htext, _⟩ := act_inv inv ha
      cases hs
      refine ih hinv (hrows p hp) (htext p _ htx) ?_
      intro d hd hdt
      by_cases hlt : s.calls.length ≤ j
      · have := new_call inv ha hd hlt
        exact ⟨(fun r hr => by rw [this] at hr; cases hr), (fun r hr => by rw [this] at hr; cases hr)⟩
      · have hfind : ∀ q, find s c.text = some q → q = p := by
          intro q hq
          obtain ⟨h3, h4⟩ := find_some hq
          exact inv.texts q h3 p hp (by rw [h4, htx])
        have hfind' : find s c.text ≠ none := fun hn => find_none hn p hp htx
        cases a with
        | call x ins =>
          simp only [act, Option.some.injEq, Res.ok.injEq] at ha
          subst ha
          rcases append_get hd with hd | ⟨he, _⟩
          · exact hg d hd hdt
          · omega
        | step k =>
          simp only [act, Option.bind_eq_some_iff] at ha
          obtain ⟨e, hk, ha⟩ := ha
          obtain ⟨s'', h5, _, _, pc', h6⟩ := step_inv inv hk ha
          cases h5
          rw [h6] at hd
          rcases get_set hk hd with ⟨rfl, rfl⟩ | ⟨_, hd⟩
          · -- the call itself makes the step
            have hge := hg e hk hdt
            have hok := hinv.ok j _ (by rw [h6]; exact get_self hk)
            have hstr : ∀ r, ({ e with pc := pc' } : Call).pc.resultOf = some r → r = p := by
              intro r hr
              obtain ⟨h7, h8⟩ := hok.result r hr
              exact hinv.texts r h7 p (hrows p hp) (by rw [h8, htext p _ htx, ← hdt])
            have hsame : ∀ {t : State} {x : Pc}, goto t j e x = .ok s1 → t.calls = s.calls → pc' = x := by
              intro t x hgt htc
              unfold goto at hgt
              injection hgt with hgt
              have h9 := congrArg (fun s : State => s.calls[j]?) hgt
              simp only [htc, h6] at h9
              rw [get_self hk, get_self hk] at h9
              exact (congrArg Call.pc (Option.some.inj h9)).symm
            have hnone : pc' ≠ .done none ∧ pc' ≠ .findUnlock none := by
              unfold step at ha
              cases hpc : e.pc with
              | test =>
                rw [hpc] at ha
                have := hsame (Option.some.inj ha) rfl
                rw [this]; split <;> exact ⟨nofun, nofun⟩
              | find =>
                rw [hpc] at ha
                simp only [Option.some.injEq] at ha
                split at ha
                · have := hsame ha rfl
                  rw [this]
                  refine ⟨nofun, fun hx => hfind' ?_⟩
                  rw [show c.text = e.text from hdt.symm]
                  simpa using hx
                · cases ha
              | findUnlock r =>
                rw [hpc] at ha
                have hr := hge.2 r hpc
                have := hsame (Option.some.inj ha) rfl
                rw [this, hr]
                simp
              | compare t =>
                rw [hpc] at ha
                simp only [Option.some.injEq, discardTable] at ha
                split at ha
                · rw [hsame ha rfl]; exact ⟨nofun, nofun⟩
                · split at ha
                  · rename_i s3 hf
                    have hc3 : s3.calls = s.calls := by
                      unfold freeTable at hf
                      split at hf
                      · split at hf
                        · cases hf
                        · cases hf; rfl
                      · cases hf
                    rw [hsame ha hc3]; exact ⟨nofun, nofun⟩
                  · cases ha
              | discard q r =>
                rw [hpc] at ha
                simp only [Option.some.injEq, discardString] at ha
                split at ha
                · rw [hsame ha rfl]; exact ⟨nofun, nofun⟩
                · split at ha
                  · rename_i s3 hf
                    have hc3 : s3.calls = s.calls := by
                      unfold freeString at hf
                      split at hf
                      · split at hf
                        · cases hf
                        · cases hf; rfl
                      · cases hf
                    rw [hsame ha hc3]; exact ⟨nofun, nofun⟩
                  · cases ha
              | insert q =>
                rw [hpc] at ha
                simp only [Option.some.injEq] at ha
                split at ha
                · split at ha
                  · rw [hsame ha rfl]; exact ⟨nofun, nofun⟩
                  · rw [hsame ha rfl]; exact ⟨nofun, nofun⟩
                · cases ha
              | tableLock t =>
                rw [hpc] at ha
                simp only at ha
                split at ha
                · rw [hsame (Option.some.inj ha) rfl]; exact ⟨nofun, nofun⟩
                · cases ha
              | findLock =>
                rw [hpc] at ha
                simp only at ha
                split at ha
                · rw [hsame (Option.some.inj ha) rfl]; exact ⟨nofun, nofun⟩
                · cases ha
              | insertLock t =>
                rw [hpc] at ha
                simp only at ha
                split at ha
                · rw [hsame (Option.some.inj ha) rfl]; exact ⟨nofun, nofun⟩
                · cases ha
              | done r => rw [hpc] at ha; cases ha
              | _ =>
                rw [hpc] at ha
                rw [hsame (Option.some.inj ha) rfl]; exact ⟨nofun, nofun⟩
            refine ⟨fun r hr => ?_, fun r hr => ?_⟩
            · cases r with
              | none => exact absurd hr hnone.1
              | some q => rw [hstr q (by rw [hr]; rfl)]
            · cases r with
              | none => exact absurd hr hnone.2
              | some q => rw [hstr q (by rw [hr]; rfl)]
          · exact hg d hd hdt
  have := gen hr inv h1 h2 (fun d hd => by have := (List.getElem?_eq_some_iff.mp hd).1; omega) d hd ht
  exact this.1 r hdone

/-- C54: No call uses a table or string that was freed, or the table before there is one. -/
theorem C54_safe {s : State} (h : Reach s) (a : Action) : act s a ≠ some .crash := by
  intro ha
  obtain ⟨_, h1, _⟩ := act_inv (reach_inv h) ha
  cases h1

/-- C54: When all calls have returned nothing is left over: all strings but those in the table and all tables but that one are freed, and there is one string
    for every text. -/
theorem C54_nothing_left {s : State} (h : Reach s) (hd : ∀ c ∈ s.calls, ∃ r, c.pc = .done r) :
    (∀ p, live s p = true → p ∈ s.rows) ∧ (∀ (t : Nat) (x : Table), s.tables[t]? = some x → x.freed = false → s.table = some t) ∧
    (∀ p q, live s p = true → live s q = true → textOf s p = textOf s q → p = q) := by
  have inv := reach_inv h
  have hrow : ∀ p, live s p = true → p ∈ s.rows := by
    intro p hp
    unfold live at hp
    cases hs : s.strings[p]? with
    | none => rw [hs] at hp; cases hp
    | some x =>
      rw [hs] at hp
      rcases inv.strings p x hs (by simpa using hp) with h1 | ⟨c, h1, h2⟩
      · exact h1
      · obtain ⟨r, hr⟩ := hd c (List.mem_of_getElem? h1)
        rw [hr] at h2; cases h2
  refine ⟨hrow, fun t x ht hf => ?_, fun p q hp hq => inv.texts p (hrow p hp) q (hrow q hq)⟩
  rcases inv.tables t x ht hf with h1 | ⟨c, h1, h2⟩
  · exact h1
  · obtain ⟨r, hr⟩ := hd c (List.mem_of_getElem? h1)
    rw [hr] at h2; cases h2

/-- C54: The calls do not block each other: as long as one has not returned, some call can go on. -/
theorem C54_progress {s : State} (h : Reach s) (hq : ∀ i, act s (.step i) = none) : ∀ c ∈ s.calls, ∃ r, c.pc = .done r := by
  have inv := reach_inv h
  have hl : s.lock = none := by
    cases hl : s.lock with
    | none => rfl
    | some i =>
      obtain ⟨c, hi, hin⟩ := inv.held i hl
      have := hq i
      simp only [act, hi, Option.bind_some, step] at this
      cases hpc : c.pc <;> rw [hpc] at hin this <;> simp [Pc.inside] at hin <;> simp at this
  intro c hc
  obtain ⟨i, hi⟩ := List.mem_iff_getElem?.mp hc
  have := hq i
  simp only [act, hi, Option.bind_some, step] at this
  cases hpc : c.pc <;> rw [hpc] at this <;> simp [hl] at this
  exact ⟨_, rfl⟩

def runs (s : State) : List Action → Option State
  | [] => some s
  | a :: as => match act s a with
    | some (.ok s') => runs s' as
    | _ => none

theorem runs_reach {s s' : State} {as : List Action} (h : Reach s) (hr : runs s as = some s') : Reach s' := by
  induction as generalizing s with
  | nil => cases hr; exact h
  | cons a as ih =>
    simp only [runs] at hr
    split at hr
    · exact ih (.step h (by assumption)) hr
    · cases hr

/-- Two threads ask for the same text at the same time: both make a table, both look in vain, both make a string; then a third call only looks. -/
def race : List Action :=
  [.call [65] true, .call [65] true, .step 0, .step 1, .step 0, .step 1] ++ List.replicate 4 (.step 1) ++ List.replicate 4 (.step 0) ++
  [.step 0, .step 0, .step 0, .step 1, .step 1, .step 1, .step 0, .step 1] ++ List.replicate 4 (.step 1) ++ List.replicate 4 (.step 0) ++
  [.call [65] false, .step 2, .step 2, .step 2, .step 2]

/-- The hypotheses of the theorems are met: all three get string 1, and string 0 and table 0 are freed. -/
example : ∃ s, Reach s ∧ s.calls = [⟨[65], true, .done (some 1)⟩, ⟨[65], true, .done (some 1)⟩, ⟨[65], false, .done (some 1)⟩] ∧
    s.strings = [⟨[65], 0, true⟩, ⟨[65], 1, false⟩] ∧ s.tables = [⟨0, true⟩, ⟨1, false⟩] :=
  ⟨⟨some 1, [1], none, [⟨0, true⟩, ⟨1, false⟩], [⟨[65], 0, true⟩, ⟨[65], 1, false⟩],
    [⟨[65], true, .done (some 1)⟩, ⟨[65], true, .done (some 1)⟩, ⟨[65], false, .done (some 1)⟩]⟩,
   runs_reach (as := race) .init (by decide), rfl, rfl, rfl⟩

end Const
end Duck
