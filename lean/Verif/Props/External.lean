import Verif.Lemmas.External
/-! C105: memory given without copying. -/
namespace Duck
namespace External

/-- **C105.**  Every program that keeps the rules of Spec/External.lean runs without touching freed memory, memory outside of a block, or bytes never written;
    memory of the caller is never written and never freed by the library (that would be undefined); every call answers what it answers for plain sequences of
    bytes, objects made without copying show the memory of the caller as it is; and the memory of the caller is as the caller left it. -/
theorem C105_program_partial {ops : List Op} {w : Plain.World} {outs : List Out} (h : Plain.run Plain.start ops = some (w, outs)) :
    ∃ s, run start ops = some (s, outs) ∧ s.mem.lent = w.lent := by
  obtain ⟨s, h1, h2⟩ := inv_run ops inv_start h
  exact ⟨s, h1, h2.lent⟩

/-- A program with data on memory of the caller, which is changed and read, copied, the copy grown, and everything given back. -/
example : (Plain.run Plain.start [.callerNew [1, 2, 3, 4], .dataNoCopy false 0 3, .mutableCopy 0, .callerWrite 0 1 [9], .read 0, .appendData 1 0, .read 1,
    .release 0, .callerFree 0, .read 1]).map (·.2) =
    some [.nothing, .obj 0, .obj 1, .nothing, .bytes [1, 9, 3], .nothing, .bytes [1, 2, 3, 1, 9, 3], .nothing, .nothing, .bytes [1, 2, 3, 1, 9, 3]] := by decide +kernel

/-- **C105.**  When all objects are given up, the library has given back all of its memory. -/
theorem C105_no_leak {ops : List Op} {w : Plain.World} {outs : List Out} (h : Plain.run Plain.start ops = some (w, outs)) (hw : ∀ i, w.live i = none) :
    ∃ s, run start ops = some (s, outs) ∧ s.alive = [] ∧ s.blocks = [] := by
  obtain ⟨s, h1, h2⟩ := inv_run ops inv_start h
  have hlive : ∀ i, s.live i = none := by
    intro i
    have := h2.same i
    rw [hw i] at this
    cases hi : s.live i with
    | none => rfl
    | some o => rw [hi] at this; cases this
  refine ⟨s, h1, List.filterMap_eq_nil_iff.mpr fun o ho => ?_, List.filterMap_eq_nil_iff.mpr fun x hx => ?_⟩
  · obtain ⟨i, hi⟩ := List.mem_iff_getElem?.mp ho
    have := hlive i
    unfold State.live at this
    rw [hi] at this
    exact this
  · obtain ⟨b, hb⟩ := List.mem_iff_getElem?.mp hx
    cases x with
    | none => rfl
    | some x =>
      obtain ⟨i, o, ho, _⟩ := h2.owned b x (by unfold Mem.blk; rw [hb]; rfl)
      rw [hlive i] at ho; cases ho

example : ∃ w outs, Plain.run Plain.start [.data true [1, 2], .setLength 0 200, .string false [97], .copy 0, .release 0, .release 1, .release 2] = some (w, outs) ∧
    w.things = [none, none, none] := ⟨_, _, rfl, rfl⟩

/-- **C105 (violated).**  Making mutable data without copying is accepted in a release build; then every change that is not empty frees the memory of the
    caller. -/
theorem C105_mutable_fails {s : State} {i k n loc len : Nat} {o : Obj} {xs : List UInt8} (ho : s.live i = some o) (hm : o.isMutable = true)
    (ha : o.arr = .external (.lent k) n) (hr : loc + len ≤ n) (hne : ¬ (len = 0 ∧ xs = [])) : step s (.replace i loc len xs) = none := by
  have hl : o.arr.length = n := by rw [ha]; rfl
  have hfree : ∀ m : Mem, m.free (.lent k) = none := fun _ => rfl
  have hg : ∀ (loc rangeEnd sufAfter sufLen size : Nat), grow s.mem (.external (.lent k) n) loc rangeEnd sufAfter sufLen size = none := by
    intro loc rangeEnd sufAfter sufLen size
    unfold grow
    rw [if_neg nofun]
    simp only [Arr.external, hfree, Option.map_none]
    simp
  have hc : ¬ ((((Arr.external (.lent k) n).length + xs.length - len : Nat) : Int) < (Arr.external (.lent k) n).max) := by
    show ¬ (_ : Int) < -1
    omega
  have hx : ¬ (len = 0 ∧ xs.length = 0) := by rw [List.length_eq_zero_iff]; exact hne
  have hb : replaceBytes s.mem o.arr loc len (.bytes xs) xs.length = none := by
    unfold replaceBytes
    rw [if_neg hx, ha]
    simp only [hc, if_false, hg, Option.bind_none]
  simp only [step, edit, ho, Option.bind_some, hm, if_true, hl, hr, hb, Option.map_none]

/-- Such data. -/
example : ∃ s outs o, run start [.callerNew [1, 2, 3], .dataNoCopy true 0 3] = some (s, outs) ∧ s.live 0 = some o ∧ o.isMutable = true ∧
    o.arr = .external (.lent 0) 3 := ⟨_, _, _, rfl, rfl, rfl, rfl⟩

/-- **C105 (violated).**  A copy made by DKCopy, of a string or of data made without copying, is not a copy: when the caller has given up the original and its
    memory, the copy is read from freed memory. -/
theorem C105_copy_fails :
    run start [.callerNew [97, 0], .stringNoCopy 0, .copy 0, .release 0, .callerFree 0, .read 0] = none ∧
    run start [.callerNew [1, 2], .dataNoCopy false 0 2, .copy 0, .release 0, .callerFree 0, .read 0] = none ∧
    (run start [.callerNew [1, 2], .data false [1, 2], .copy 0, .release 0, .callerFree 0, .read 0]).map (·.2) =
      some [.nothing, .obj 0, .obj 0, .nothing, .nothing, .bytes [1, 2]] := by decide +kernel

end External
end Duck
