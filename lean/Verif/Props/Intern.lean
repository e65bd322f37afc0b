import Verif.Lemmas.Intern
/-! C106: shared strings. -/
namespace Duck
namespace Intern

/-- **C106.**  Every program that keeps the rules of Spec/Intern.lean: all calls answer what they answer for plain texts (comparisons and hash codes depend only
    on the texts, literals and empty strings are shared by their text), and all strings have the classes and bytes they have there. -/
theorem C106_program_partial {ops : List Op} {w : Texts.World} {outs : List Out} (h : Texts.run [] ops = some (w, outs)) :
    ∃ s, run start ops = some (s, outs) ∧ s.objs.map (fun o => (o.cls, o.bytes)) = w.map fun x => (x.cls, x.bytes) := by
  obtain ⟨s, h1, h2⟩ := inv_run ops inv_start h
  refine ⟨s, h1, List.ext_getElem? fun i => ?_⟩
  rw [List.getElem?_map, List.getElem?_map]
  cases ho : s.objs[i]? with
  | none =>
    rw [List.getElem?_eq_none_iff, h2.len, ← List.getElem?_eq_none_iff] at ho
    rw [ho]; rfl
  | some o =>
    obtain ⟨x, hx, hg⟩ := h2.thing ho
    rw [hx, Option.map_some, Option.map_some, hg.cls, hg.bytes]

/-- A program with shared empty strings, copies and edits. -/
example : (Texts.run [] [.literal [97], .init .changeable [97, 98] 2, .setByteLength 1 1, .equal 0 1, .replace 1 0 1 [], .copy 1, .literal [], .equal 1 2,
    .substring 0 0 0, .literal [97], .hash 2]).map (·.2) =
    some [.obj 0, .obj 1, .nothing, .bool true, .nothing, .obj 2, .obj 2, .bool true, .obj 2, .obj 0, .hash 0] := by decide +kernel

/-- **C106.**  An immutable string, and a constant string, is never changed: in any program, whatever is called, it keeps its class and its bytes. -/
theorem C106_immutable {s s' : State} {ops : List Op} {outs : List Out} (h : run s ops = some (s', outs)) {i : Nat} {o : Obj} (ho : s.objs[i]? = some o)
    (hc : o.cls ≠ .changeable) : ∃ o', s'.objs[i]? = some o' ∧ o'.cls = o.cls ∧ o'.bytes = o.bytes := kept_run ops h i o ho hc

example : ∃ s outs, run ⟨[⟨.plain, [97], 0⟩], []⟩ [.hash 0, .replace 0 0 1 [98], .setByteLength 0 0, .makeImmutable 0, .equal 0 0] = some (s, outs) ∧
    s.objs = [⟨.plain, [97], 97⟩] := ⟨_, _, rfl, rfl⟩

/-- **C106.**  Two literals are the same object exactly if they are the same text, wherever they are in a program that keeps the rules. -/
theorem C106_literal_partial {ops ops' : List Op} {w : Texts.World} {outs : List Out} {t u : List UInt8}
    (h : Texts.run [] (ops ++ .literal t :: ops' ++ [.literal u]) = some (w, outs)) :
    ∃ (s s' : State) (i j : Nat) (outs1 outs2 : List Out), run start (ops ++ .literal t :: ops' ++ [.literal u]) = some (s', outs) ∧
      run start (ops ++ [.literal t]) = some (s, outs1 ++ [.obj i]) ∧ run s (ops' ++ [.literal u]) = some (s', outs2 ++ [.obj j]) ∧
      outs = outs1 ++ .obj i :: outs2 ++ [.obj j] ∧ (i = j ↔ t = u) := by
  have split : ∀ (as bs : List Op) {v v' : Texts.World} {os : List Out}, Texts.run v (as ++ bs) = some (v', os) →
      ∃ v1 o1 o2, Texts.run v as = some (v1, o1) ∧ Texts.run v1 bs = some (v', o2) ∧ os = o1 ++ o2 := by
    intro as
    induction as with
    | nil => exact fun bs v v' os h => ⟨v, [], os, rfl, h, rfl⟩
    | cons a as ih =>
      intro bs v v' os h
      simp only [List.cons_append, Texts.run] at h
      obtain ⟨r, hr, h⟩ := Option.bind_eq_some_iff.mp h
      obtain ⟨q, hq, h⟩ := Option.map_eq_some_iff.mp h
      obtain ⟨v1, o1, o2, h1, h2, h3⟩ := ih bs (v' := q.1) (os := q.2) hq
      simp only [Prod.mk.injEq] at h
      exact ⟨v1, r.2 :: o1, o2, by simp only [Texts.run, hr, Option.bind_some, h1, Option.map_some], by rw [← h.1]; exact h2,
        by rw [← h.2, h3]; rfl⟩
  have join : ∀ (as bs : List Op) {v v1 v' : State} {o1 o2 : List Out}, run v as = some (v1, o1) → run v1 bs = some (v', o2) →
      run v (as ++ bs) = some (v', o1 ++ o2) := by
    intro as
    induction as with
    | nil =>
      intro bs v v1 v' o1 o2 h1 h2
      simp only [run, Option.some.injEq, Prod.mk.injEq] at h1
      obtain ⟨rfl, rfl⟩ := h1
      exact h2
    | cons a as ih =>
      intro bs v v1 v' o1 o2 h1 h2
      simp only [run] at h1
      obtain ⟨r, hr, h1⟩ := Option.bind_eq_some_iff.mp h1
      obtain ⟨q, hq, h1⟩ := Option.map_eq_some_iff.mp h1
      simp only [Prod.mk.injEq] at h1
      have := ih bs (v := r.1) (v1 := v1) (o1 := q.2) (by rw [hq, ← h1.1]) h2
      simp only [List.cons_append, run, hr, Option.bind_some, this, Option.map_some, ← h1.2]
  have one : ∀ {v v' : Texts.World} {os : List Out} {x : List UInt8}, Texts.run v [.literal x] = some (v', os) →
      0 ∉ x ∧ v' = (Texts.literal v x).1 ∧ os = [.obj (Texts.literal v x).2] := by
    intro v v' os x h
    simp only [Texts.run, Texts.step] at h
    by_cases hx : 0 ∈ x
    · rw [if_pos hx] at h; cases h
    · rw [if_neg hx] at h
      simp only [Option.bind_some, Option.map_some, Texts.ofNew, Option.some.injEq, Prod.mk.injEq] at h
      exact ⟨hx, h.1.symm, h.2.symm⟩
  rw [show ops ++ .literal t :: ops' ++ [.literal u] = (ops ++ [.literal t]) ++ (ops' ++ [.literal u]) by simp] at h ⊢
  obtain ⟨w2, o2, o4, ha, hb, ho⟩ := split _ _ h
  obtain ⟨w1, o1, o1', ha1, ha2, ho1⟩ := split _ _ ha
  obtain ⟨w3, o3, o3', hb1, hb2, ho3⟩ := split _ _ hb
  obtain ⟨ht, ha3, ha4⟩ := one ha2
  obtain ⟨hu, hb3, hb4⟩ := one hb2
  obtain ⟨s1, r1, i1⟩ := inv_run ops inv_start ha1
  obtain ⟨i2, e2, c, hc, hcb⟩ := i1.literal ht
  have r2 : run s1 [.literal t] = some ((getConstant s1 t).1, [.obj (getConstant s1 t).2]) := rfl
  obtain ⟨s3, r3, i3⟩ := inv_run ops' i2 (by rw [← ha3]; exact hb1)
  obtain ⟨i4, e4, d, hd, hdb⟩ := i3.literal hu
  have r4 : run s3 [.literal u] = some ((getConstant s3 u).1, [.obj (getConstant s3 u).2]) := rfl
  have hcc : c.cls = .constant := by
    have : (getConstant s1 t).2 ∈ (getConstant s1 t).1.rows := by
      unfold getConstant
      split
      · rename_i p hp; exact List.mem_of_find?_eq_some hp
      · simp
    obtain ⟨c', hc', hcc⟩ := (i2.rows _).mp this
    rw [hc] at hc'; cases hc'; exact hcc
  have hdc : d.cls = .constant := by
    have : (getConstant s3 u).2 ∈ (getConstant s3 u).1.rows := by
      unfold getConstant
      split
      · rename_i p hp; exact List.mem_of_find?_eq_some hp
      · simp
    obtain ⟨c', hc', hcc⟩ := (i4.rows _).mp this
    rw [hd] at hc'; cases hc'; exact hcc
  have hkeep := kept_run (ops' ++ [.literal u]) (join _ _ r3 r4) _ c hc (by rw [hcc]; nofun)
  obtain ⟨c', hc', hcc', hcb'⟩ := hkeep
  refine ⟨(getConstant s1 t).1, (getConstant s3 u).1, (getConstant s1 t).2, (getConstant s3 u).2, o1, o3, ?_, join _ _ r1 r2, join _ _ r3 r4, ?_, ?_, ?_⟩
  · rw [join _ _ (join _ _ r1 r2) (join _ _ r3 r4), ho, ho1, ho3, ha4, hb4, e2, e4]
  · rw [ho, ho1, ho3, ha4, hb4, e2, e4]; simp
  · intro he
    rw [he, hd] at hc'
    cases hc'
    rw [← hcb, ← hdb, hcb']
  · intro he
    exact i4.uniq _ _ c' d hc' hd (hcc'.trans hcc) hdc (by rw [hcb', hcb, hdb, he])

example : (Texts.run [] ([.init .plain [97] 1] ++ .literal [97] :: [.hash 1] ++ [.literal [97]])).map (·.2) = some [.obj 0, .obj 1, .hash 97, .obj 1] := by
  decide +kernel

/-- **C106 (violated).**  A copy of a string that was hashed and then shortened to nothing is the shared empty string, which gets the hash code of the old text: for
    the rest of the program the empty string that others hold is not equal to empty strings, `DKSTR( "" )` is another object, and hashing it again does not help. -/
theorem C106_empty_fails :
    (run start [.literal [], .init .changeable [97, 98] 2, .hash 1, .setByteLength 1 0, .copy 1, .init .changeable [] 0, .equal 0 2, .literal [], .equal 0 3, .hash 0,
      .equal 0 2]).map (·.2) =
    some [.obj 0, .obj 1, .hash 3105, .nothing, .obj 0, .obj 2, .bool false, .obj 3, .bool false, .hash 3105, .bool false] := by decide +kernel

/-- **C106 (violated).**  A string made for the class of constant strings ignores the length it is given: if there is a constant string with the whole C string, that is
    the answer; and memory after the given bytes is read. -/
theorem C106_length_fails :
    (run start [.literal [97, 98, 99], .init .constant [97, 98, 99, 0] 2, .read 0]).map (·.2) = some [.obj 0, .obj 0, .bytes [97, 98, 99]] ∧
    run start [.init .constant [97, 98] 2] = none := by decide +kernel

end Intern
end Duck
