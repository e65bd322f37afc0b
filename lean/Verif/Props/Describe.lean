import Verif.Lemmas.Describe
/-! C107: descriptions of collections. -/
namespace Duck
namespace Describe

/-- **C107.**  What DKGetDescription returns for an object, if it returns, is the text that describes it, and it returns for every object that has such a text.
    For collections of less than 2^31 members. -/
theorem C107_description_partial (h : Heap) (hs : Small h) (i : Nat) (t : List UInt8) : (∃ depth, describe h depth (some i) = some t) ↔ Describes h i t :=
  ⟨fun ⟨k, e⟩ => describe_sound hs k i t e, describe_complete hs⟩

/-- **C107.**  It is the only text that describes it. -/
theorem C107_unique_partial (h : Heap) (hs : Small h) (i : Nat) (t t' : List UInt8) (d : Describes h i t) (d' : Describes h i t') : t = t' := by
  obtain ⟨k, e⟩ := describe_complete hs d
  obtain ⟨k', e'⟩ := describe_complete hs d'
  have a := describe_le (h := h) (k := k) (k' := max k k') (by omega) _ _ e
  have b := describe_le (h := h) (k := k') (k' := max k k') (by omega) _ _ e'
  rw [a] at b
  exact Option.some.inj b

/-- A list of a string, NULL and a dictionary with one number. -/
def exampleHeap : Heap
  | 0 => .list "DKArray".toUTF8.data.toList [some 1, none, some 2]
  | 1 => .string "a b".toUTF8.data.toList
  | 2 => .keyed "DKHashTable".toUTF8.data.toList [(some 1, some 3)]
  | _ => .plain "42".toUTF8.data.toList

example : Small exampleHeap := by
  intro i
  match i with
  | 0 => simp [exampleHeap]
  | 1 => simp [exampleHeap]
  | 2 => simp [exampleHeap]
  | _ + 3 => simp [exampleHeap]

example : describe exampleHeap 3 (some 0) =
    some "DKArray, 3 objects = (\n    \"a b\",\n    null,\n    DKHashTable, 1 objects = (\n    \"a b\" = 42\n)\n)".toUTF8.data.toList := by decide +kernel

/-- **C107.**  The call returns exactly for the objects from which there is no endless chain of members. -/
theorem C107_returns (h : Heap) (i : Nat) : (∃ depth t, describe h depth (some i) = some t) ↔ Acc (Member h) i :=
  ⟨fun ⟨_, _, e⟩ => returns_acc e, acc_returns⟩

/-- **C107 (violated).**  A collection that contains itself, directly or through others, has no description: the recursion does not end. -/
theorem C107_cycle_fails (h : Heap) (i : Nat) (hc : Relation.TransGen (Member h) i i) (depth : Nat) : describe h depth (some i) = none := by
  cases e : describe h depth (some i) with
  | none => rfl
  | some t =>
    have a := (returns_acc e).transGen
    exact absurd hc (a.rec fun x _ ih hx => ih x hx hx)

/-- A list that holds itself. -/
def cyclicHeap : Heap := fun _ => .list [] [some 0]

example : Relation.TransGen (Member cyclicHeap) 0 0 := .single (by simp [Member, cyclicHeap, Obj.members])

/-- **C107 (violated).**  A list of 2^31 NULLs (any number n of members is shown modulo 2^32, as a signed number) is said to have -2147483648 objects. -/
theorem C107_count_fails (name : List UInt8) :
    ∃ lines, describe (fun _ => .list name (List.replicate (2 ^ 31) none)) 2 (some 0) = some (layout name "-2147483648".toUTF8.data.toList lines) := by
  have H : ∀ n, linesOf (fun _ => .list name (List.replicate (2 ^ 31) none)) (describe (fun _ => .list name (List.replicate (2 ^ 31) none)) 1)
      (List.replicate n none) = some (List.replicate n nullText) := by
    intro n
    induction n with
    | zero => rfl
    | succ n ih => rw [List.replicate_succ, linesOf, ih]; rfl
  refine ⟨List.replicate (2 ^ 31) nullText, ?_⟩
  rw [describe_succ, plainly, H, List.length_replicate]
  have : countText (2 ^ 31) = "-2147483648".toUTF8.data.toList := by decide +kernel
  rw [this, Option.map_some]

/-- **C107 (violated).**  In ISO C the head of every description is undefined: it takes an `int` where a `long` was passed. -/
theorem C107_count_undefined (s : Data.Obj) (name : List UInt8) (n : BitVec 64) : put s fmtHead [.obj name, .long n] = none := by
  have hhead : fmtHead = [0x25, 0x40, 0x2c, 0x20, 0x25, 0x64, 0x20, 0x6f, 0x62, 0x6a, 0x65, 0x63, 0x74, 0x73, 0x20, 0x3d, 0x20, 0x28] := by decide +kernel
  rw [hhead]
  rfl

/-- Two lists of strings. -/
def ambiguousHeap : Heap
  | 0 => .list [] [some 2, some 3]
  | 1 => .list [] [some 4, some 5]
  | 2 => .string "a\",\n    \"b".toUTF8.data.toList
  | 3 => .string "c".toUTF8.data.toList
  | 4 => .string "a".toUTF8.data.toList
  | _ => .string "b\",\n    \"c".toUTF8.data.toList

/-- **C107 (violated).**  Lists of different strings can have the same description: quotation marks and line ends in strings are not marked. -/
theorem C107_ambiguous_fails : ∃ t, describe ambiguousHeap 2 (some 0) = some t ∧ describe ambiguousHeap 2 (some 1) = some t :=
  ⟨(describe ambiguousHeap 2 (some 0)).getD [], by decide +kernel, by decide +kernel⟩

end Describe
end Duck
