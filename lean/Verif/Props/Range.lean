import Verif.Model.RangeCalls
import Verif.Spec.Range
import Verif.Props.Array
import Verif.Props.LinkedList
import Verif.Props.Data
/-! C115. -/
namespace Duck
namespace Range

/-- C115 (partial): the check of a range answers exactly whether the range is inside.  Missing: ranges whose end is not a 64-bit number
    (`C115_check_fails`). -/
theorem C115_check_partial (loc len count : Int) (hf : loc + len < 2 ^ 63) : insideOrEnd loc len count = some (decide (Inside loc len count)) := by
  unfold insideOrEnd
  by_cases h1 : loc ≥ 0
  · by_cases h2 : len ≥ 0
    · rw [if_pos h1, if_pos h2, if_pos hf]
      exact congrArg some (decide_eq_decide.mpr ⟨fun h => ⟨h1, h2, h⟩, fun h => h.2.2⟩)
    · rw [if_pos h1, if_neg h2, decide_eq_false (fun h => h2 h.2.1)]
  · rw [if_neg h1, decide_eq_false (fun h => h1 h.1)]

/-- The same of the machine's instructions. -/
theorem C115_machine_partial (loc len count : BitVec 64) (hf : loc.toInt + len.toInt < 2 ^ 63) :
    insideOrEndMachine loc len count = decide (Inside loc.toInt len.toInt count.toInt) := by
  unfold insideOrEndMachine Inside
  have h0 : (0#64).toInt = 0 := rfl
  simp only [BitVec.sle, h0]
  by_cases h1 : 0 ≤ loc.toInt
  · by_cases h2 : 0 ≤ len.toInt
    · have e : (loc + len).toInt = loc.toInt + len.toInt := by
        rw [BitVec.toInt_add]
        exact Int.bmod_eq_of_le (by omega) (by omega)
      simp [h1, h2, e]
    · simp [h2]
  · simp [h1]

example : insideOrEnd 2 3 5 = some true ∧ insideOrEnd 2 4 5 = some false ∧ insideOrEnd 5 0 5 = some true ∧ insideOrEnd (-1) 2 5 = some false ∧
    insideOrEndMachine 2 3 5 = true ∧ insideOrEndMachine 2 4 5 = false := by decide

/-- C115 (partial): a call with a range that is not inside changes nothing and gives nothing, whatever else it is given: the objects and
    the replacement of arrays, of linked lists, the bytes and the replacement of data objects, the replacement of strings.  Missing:
    ranges whose end is not a 64-bit number (`C115_calls_fail`). -/
theorem C115_refused_partial {loc len : Int} (hf : loc + len < 2 ^ 63) :
    (∀ (h : Arr.Heap) (a : GArray Arr.Ref) (objects : List Arr.Ref), ¬ Inside loc len a.length →
      Arr.replaceCArray h a loc len objects = some (h, a) ∧ Arr.replaceCollection h a loc len (.other objects) = some (h, a) ∧
      Arr.replaceCollection h a loc len .null = some (h, a) ∧ Arr.replaceCollection h a loc len .self = some (h, a) ∧
      arrayObjects (insideOrEnd loc len a.length) a loc len = some []) ∧
    (∀ {V P : Type} (zero : P) (pick : Nat → LList.Heap V P → Nat) (l : LList.LinkedList V P) (objects : List V), ¬ Inside loc len l.count →
      LList.replaceRange zero pick l loc len objects = some l ∧ LList.objectsInRange l loc len = some (l, [])) ∧
    (∀ (d : Data.Obj) (bs : List UInt8), ¬ Inside loc len d.bytes.length →
      Data.step d (.replace loc len bs) = some (d, .none) ∧ Data.step d (.getBytes loc len) = some (d, .none)) ∧
    (∀ (s : Data.Str) (bs : List UInt8), ¬ Inside loc len s.data.bytes.length →
      stringReplace (insideOrEnd loc len s.data.bytes.length) s loc len bs = some s) := by
  have ho : ¬ rangeOverflows loc len := by unfold rangeOverflows; omega
  refine ⟨fun h a objects hn => ?_, fun zero pick l objects hn => ?_, fun d bs hn => ?_, fun s bs hn => ?_⟩
  · obtain ⟨h1, h2, h3⟩ := Arr.C26_out_of_range h a loc len objects hn hf
    refine ⟨h1, h2, (Arr.C26_out_of_range h a loc len [] hn hf).1, h3, ?_⟩
    rw [arrayObjects, C115_check_partial _ _ _ hf, decide_eq_false hn]; rfl
  · have hr : ¬ LList.rangeOk loc len l.count := hn
    unfold LList.replaceRange LList.objectsInRange
    rw [if_neg hr, if_neg hr, if_neg ho, if_neg ho]
    exact ⟨rfl, rfl⟩
  · have hr : Data.inRange loc len d.bytes.length = false := by
      cases hi : Data.inRange loc len d.bytes.length with
      | false => rfl
      | true => exact absurd (Data.inRange_iff.mp hi) hn
    simp [Data.step, ho, Data.replace, Data.getBytes, hr]
  · rw [stringReplace, C115_check_partial _ _ _ hf, decide_eq_false hn]; rfl

example : (3 : Int) + 4 < 2 ^ 63 ∧ ¬ Inside 3 4 ([1, 2, 3, 4, 5] : List UInt8).length ∧ Inside 3 2 ([1, 2, 3, 4, 5] : List UInt8).length := by decide

/-- C115 (partial): a range that is inside is not refused: the calls that read give the elements it covers. -/
theorem C115_accepted {loc len : Int} :
    (∀ (ops : List Arr.Op) (v : Arr.View) (h : Arr.Heap) (a : GArray Arr.Ref), Arr.specRun ops = some v → Arr.run ops = some (h, a) →
      v.xs.length < 2 ^ 63 → Inside loc len v.xs.length →
      arrayObjects (insideOrEnd loc len a.length) a loc len = some ((v.xs.drop loc.toNat).take len.toNat)) ∧
    (∀ d : Data.Obj, d.bytes.length < 2 ^ 63 → Inside loc len d.bytes.length → loc < d.bytes.length →
      Data.step d (.getBytes loc len) = some (d, .bytes ((d.bytes.drop loc.toNat).take len.toNat) len.toNat)) := by
  refine ⟨fun ops v h a hv hr hl hi => ?_, fun d hl hi hlt => ?_⟩
  · obtain ⟨⟨h', a'⟩, e1, rep, _⟩ := Arr.run_ok hv
    rw [e1] at hr
    obtain ⟨rfl, rfl⟩ : h' = h ∧ a' = a := by simpa using hr
    have hf : loc + len < 2 ^ 63 := by have := hi.2.2; omega
    have hlen : a'.length = v.xs.length := rep.1
    rw [arrayObjects, hlen, C115_check_partial _ _ _ hf, decide_eq_true hi]
    show objectsFrom a' len.toNat loc.toNat = _
    have key : ∀ n i, i + n ≤ v.xs.length → objectsFrom a' n i = some ((v.xs.drop i).take n) := by
      intro n
      induction n with
      | zero => intro i _; simp [objectsFrom]
      | succ n ih =>
        intro i hin
        rw [objectsFrom, Arr.rawGet_rep rep (show i < v.xs.length by omega), Option.bind_some, ih (i + 1) (by omega),
          List.drop_eq_getElem_cons (show i < v.xs.length by omega)]
        rfl
    exact key _ _ (by have := hi.1; have := hi.2.1; have := hi.2.2; omega)
  · have ho : ¬ rangeOverflows loc len := by
      have := hi.2.2; unfold rangeOverflows; omega
    have h2 : (Data.inRange loc len d.bytes.length && decide (loc < d.bytes.length)) = true := by
      rw [Data.inRange_iff.2 hi, decide_eq_true hlt]; rfl
    simp only [Data.step, if_neg ho, Data.getBytes, if_pos h2]
    have h3 := hi.1
    have h4 := hi.2.1
    have h5 := hi.2.2
    rw [show ((d.bytes.drop loc.toNat).take len.toNat).length = len.toNat by simp; omega]

example : arrayObjects (insideOrEnd 1 2 3) ⟨some [some (some 5), some none, some (some 7), none], 3, 4⟩ 1 2 = some [none, some 7] := by decide

/-- C115 (violated): when the sum of location and length does not fit, the check is undefined; as the machine computes it, it accepts
    the range, however short the sequence. -/
theorem C115_check_fails (loc len count : BitVec 64) (h1 : 0 ≤ loc.toInt) (h2 : 0 ≤ len.toInt) (hc : 0 ≤ count.toInt)
    (ho : 2 ^ 63 ≤ loc.toInt + len.toInt) :
    ¬ Inside loc.toInt len.toInt count.toInt ∧ insideOrEnd loc.toInt len.toInt count.toInt = none ∧ insideOrEndMachine loc len count = true := by
  have hb := BitVec.toInt_lt (x := count)
  have hb1 := BitVec.toInt_lt (x := loc)
  have hb2 := BitVec.toInt_lt (x := len)
  simp only [Nat.add_one_sub_one] at hb hb1 hb2
  refine ⟨fun h => by have := h.2.2; omega, ?_, ?_⟩
  · unfold insideOrEnd
    rw [if_pos h1, if_pos h2, if_neg (by omega)]
  · unfold insideOrEndMachine
    have h0 : (0#64).toInt = 0 := rfl
    have e : (loc + len).toInt = loc.toInt + len.toInt - 2 ^ 64 := by
      rw [BitVec.toInt_add, show loc.toInt + len.toInt = (loc.toInt + len.toInt - 2 ^ 64) + ((2 ^ 64 : Nat) : Int) by omega, Int.add_bmod_right]
      rw [Int.bmod_eq_of_le (by omega) (by omega)]
      omega
    simp only [BitVec.sle, h0, e, decide_eq_true h1, decide_eq_true h2, Bool.true_and, decide_eq_true_eq]
    omega

example : (0 : Int) ≤ (1#64).toInt ∧ 0 ≤ (BitVec.ofNat 64 (2 ^ 63 - 1)).toInt ∧ (0 : Int) ≤ (3#64).toInt ∧
    2 ^ 63 ≤ (1#64).toInt + (BitVec.ofNat 64 (2 ^ 63 - 1)).toInt := by decide

/-- C115 (violated): such a range is undefined behaviour in every one of the calls. -/
theorem C115_calls_fail {loc len : Int} (h1 : 0 ≤ loc) (h2 : 0 ≤ len) (ho : 2 ^ 63 ≤ loc + len) :
    (∀ (h : Arr.Heap) (a : GArray Arr.Ref) (objects : List Arr.Ref), (a.length : Int) < 2 ^ 63 →
      Arr.replaceCArray h a loc len objects = none ∧ Arr.replaceCollection h a loc len (.other objects) = none ∧
      Arr.replaceCollection h a loc len .self = none ∧ arrayObjects (insideOrEnd loc len a.length) a loc len = none) ∧
    (∀ {V P : Type} (zero : P) (pick : Nat → LList.Heap V P → Nat) (l : LList.LinkedList V P) (objects : List V), l.count < 2 ^ 63 →
      LList.replaceRange zero pick l loc len objects = none ∧ LList.objectsInRange l loc len = none) ∧
    (∀ (d : Data.Obj) (bs : List UInt8), Data.step d (.replace loc len bs) = none ∧ Data.step d (.getBytes loc len) = none) ∧
    (∀ (s : Data.Str) (bs : List UInt8), stringReplace (insideOrEnd loc len s.data.bytes.length) s loc len bs = none) := by
  have hov : rangeOverflows loc len := ⟨h1, h2, ho⟩
  have hck : ∀ n, insideOrEnd loc len n = none := fun n => by
    unfold insideOrEnd; rw [if_pos h1, if_pos h2, if_neg (by omega)]
  refine ⟨fun h a objects hn => ?_, fun zero pick l objects hn => ?_, fun d bs => ?_, fun s bs => ?_⟩
  · have hr : Arr.inRange loc len a.length = false := by
      cases hi : Arr.inRange loc len a.length with
      | false => rfl
      | true => have := (Arr.inRange_iff.mp hi).2.2; omega
    refine ⟨?_, ?_, ?_, by rw [arrayObjects, hck]; rfl⟩ <;> simp [Arr.replaceCArray, Arr.replaceCollection, hr, hov]
  · have hr : ¬ LList.rangeOk loc len l.count := fun hi => by have := hi.2.2; omega
    unfold LList.replaceRange LList.objectsInRange
    rw [if_neg hr, if_neg hr, if_pos hov, if_pos hov]
    exact ⟨rfl, rfl⟩
  · simp [Data.step, hov]
  · rw [stringReplace, hck]; rfl

/-- The loop that reads the objects of an array gets nowhere past the end of its memory. -/
theorem objectsFrom_outside {a : GArray Arr.Ref} {size : Nat} (hs : ∀ b, a.elements = some b → b.length ≤ size) :
    ∀ (n i : Nat), 0 < n → size < i + n → objectsFrom a n i = none
  | 0, _, h, _ => absurd h (Nat.lt_irrefl 0)
  | n + 1, i, _, h => by
    rw [objectsFrom]
    by_cases hi : size ≤ i
    · have : Arr.rawGet a i = none := by
        unfold Arr.rawGet
        cases hb : a.elements with
        | none => rfl
        | some b => rw [Option.bind_some, List.getElem?_eq_none (by have := hs b hb; omega)]; rfl
      rw [this]; rfl
    · rw [objectsFrom_outside hs n (i + 1) (by omega) (by omega)]
      cases Arr.rawGet a i <;> rfl

/-- C115 (violated): what happens on the machine.  The objects of such a range are read from whatever lies behind the array's memory. -/
theorem C115_reads_outside (a : GArray Arr.Ref) (hs : ∀ b, a.elements = some b → b.length < 2 ^ 60) (loc len : BitVec 64)
    (hn : a.length < 2 ^ 63) (h1 : 0 ≤ loc.toInt) (h2 : 0 ≤ len.toInt) (ho : 2 ^ 63 ≤ loc.toInt + len.toInt) :
    arrayObjects (some (insideOrEndMachine loc len (BitVec.ofNat 64 a.length))) a loc.toInt len.toInt = none := by
  have hc : (BitVec.ofNat 64 a.length).toInt = a.length := by
    rw [BitVec.toInt_ofNat']
    exact Int.bmod_eq_of_le (by omega) (by omega)
  rw [(C115_check_fails loc len _ h1 h2 (by rw [hc]; omega) ho).2.2]
  show objectsFrom a len.toInt.toNat loc.toInt.toNat = none
  have hb1 := BitVec.toInt_lt (x := loc)
  simp only [Nat.add_one_sub_one] at hb1
  exact objectsFrom_outside (size := 2 ^ 60) (fun b hb => Nat.le_of_lt (hs b hb)) _ _ (by omega) (by omega)

end Range
end Duck
