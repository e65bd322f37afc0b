import Verif.Lemmas.EggClasses
import Verif.Props.Egg
/-! Properties of the archives of the classes of Duck: C98.  `w` is the byte order of the machine that archives, `r` of the machine that reads. -/
namespace Duck
namespace Egg
open Encoding (encode getType getCount getTypeSize getSize isNumber typeGetSize)

/-- C98 (partial: no object refers to the root; texts, data, lists and tables have fewer than 2^24 elements, lists of several objects no NULLs, data with a
    type of numbers whole ones; the program that reads knows the classes; the archive is smaller than 4 GB).  Any structure of strings, numbers,
    booleans, data, arrays, linked lists, hash tables, trees, pairs, structures and predicates, with any sharing and any cycles that avoid the
    root, can be archived, and whatever the byte order of the machine that reads the archive, and whatever constant strings its program has, it
    gets a structure with the same value to any depth; distinct objects become distinct objects. -/
theorem C98_values_partial (H : Nat → Val) (known : List Cls) (U : List Nat) (root : Nat) (w r : Order) (consts : Bytes → Bool) (fuel fuel' : Nat)
    (hU : ∀ o ∈ U, (H o).Ok ∧ (H o).cls ∈ known ∧ root ∉ (H o).refs ∧ ∀ t ∈ (H o).refs, t ∈ U) (hroot : root ∈ U)
    (hf : U.length ≤ fuel) (hf' : U.length ≤ fuel') :
    ∃ s, archiveObject w (worldOf H) fuel root = some s ∧ (s.objs.length < 2 ^ 32 → (archivedData w s).length < 2 ^ 32 →
      ∃ u st id, initWithData r (archivedData w s) = some (some u) ∧ unarchive (readerOf known) u fuel' = some (st, some id) ∧
        (∀ n, tree r (rebuilt consts known st) n (some id) = tree w (fun o => some (H o)) n (some root)) ∧
        ∃ ψ : Nat → Option Nat, ψ root = some id ∧ (∀ a b i, ψ a = some i → ψ b = some i → a = b) ∧
          ∀ o ∈ U, ∀ i, ψ o = some i → ∀ n, tree r (rebuilt consts known st) n (some i) = tree w (fun o => some (H o)) n (some o)) := by
  have hA := world_archivable (known := known) (fun o ho => ⟨(hU o ho).1, (hU o ho).2.1, (hU o ho).2.2.2⟩)
  obtain ⟨s, e, hi, hg, hv⟩ := archiveObject_ok (w := w) hA hroot (fun o ho => world_avoids (hU o ho).2.2.1 _) hf
  refine ⟨s, e, fun h1 h2 => ?_⟩
  obtain ⟨u, hu, hr⟩ := (init_ok w r s h1 h2).1
  obtain ⟨st, id, e', hp, hinj, hcopy, hheap⟩ := unarchive_ok hr hA hi hg hroot hv hf'
  have hsame : ∀ o ∈ U, ∀ i, psi s st o = some i → (∃ v', rebuilt consts known st i = some v' ∧ Same w r (psi s st) (H o) v') ∧ ∀ t ∈ (H o).refs, t ∈ U := by
    intro o hoU i ho
    obtain ⟨gots, hl, hlen, hrb⟩ := hcopy o i ho
    have hgets : (readerOf known).gets ((worldOf H).cls o) = (H o).cls.gets := reader_gets (hU o hoU).2.1
    rw [hgets] at hlen hrb
    obtain ⟨v', hb, hs⟩ := build_same consts (hU o hoU).1 hlen hrb
    refine ⟨⟨v', ?_, hs⟩, (hU o hoU).2.2.2⟩
    simp only [rebuilt, hl, Option.bind_some, worldOf, find_known (hU o hoU).2.1, hb]
  have htree : ∀ o ∈ U, ∀ i, psi s st o = some i → ∀ n, tree r (rebuilt consts known st) n (some i) = tree w (fun o => some (H o)) n (some o) := by
    intro o hoU i ho n
    have := tree_same hsame n (some o) (fun o' e => by cases e; rw [ho]; exact ⟨hoU, rfl⟩)
    rwa [Option.bind_some, ho] at this
  exact ⟨u, st, id, hu, e', htree root hroot id hp, psi s st, hp, hinj, htree⟩

/-- A structure of most classes: an array of a string, a vector, a table from the string to a pair, typed data, and a structure; the string is shared. -/
def exVals : Nat → Val
  | 0 => .list (.array true) [some 1, some 2, some 3, some 5, some 6]
  | 1 => .str .constant [104, 105]
  | 2 => .num false (encode 9 2) [1, 2, 3, 4]
  | 3 => .table (.hashTable false) [(1, some 4)]
  | 4 => .pair (some 7) none
  | 5 => .data true 11 [1, 2, 3, 4, 5, 6, 7, 8]
  | 6 => .struct (some 1) [9, 0]
  | _ => .bool true

theorem exVals_ok : ∀ o ∈ [0, 1, 2, 3, 4, 5, 6, 7], (exVals o).Ok ∧ (exVals o).cls ∈ startup ∧ 0 ∉ (exVals o).refs ∧
    ∀ t ∈ (exVals o).refs, t ∈ [0, 1, 2, 3, 4, 5, 6, 7] := by
  intro o ho
  simp only [List.mem_cons, List.not_mem_nil, or_false] at ho
  rcases ho with h | h | h | h | h | h | h | h <;> subst h <;> refine ⟨?_, by decide, by decide, by decide⟩
  · exact ⟨⟨true, Or.inl rfl⟩, by decide, by decide⟩
  · exact ⟨Or.inr (Or.inl ⟨rfl, by decide⟩), by decide⟩
  · exact ⟨by decide, by decide, by decide⟩
  · exact ⟨⟨false, Or.inl rfl⟩, by decide⟩
  · trivial
  · exact ⟨by decide, 2, by decide, by decide, by decide⟩
  · exact ⟨by decide, by decide⟩
  · trivial

/-- The hypotheses of C98 hold of it; this is the array read on a machine of the other byte order by a program without constant strings. -/
example : ((saveLoad .big .little (worldOf exVals) (readerOf startup) 8 0).bind fun q => q.2.map fun id =>
      (rebuilt (fun _ => false) startup q.1 id, rebuilt (fun _ => false) startup q.1 1, rebuilt (fun _ => false) startup q.1 2,
        rebuilt (fun _ => false) startup q.1 3, rebuilt (fun _ => false) startup q.1 4)) =
    some (some (.list (.array true) [some 1, some 2, some 3, some 6, some 7]), some (.str .string [104, 105]), some (.num false (encode 9 2) [2, 1, 4, 3]),
      some (.table (.hashTable false) [(1, some 4)]), some (.pair (some 5) none)) := by decide +kernel

theorem read_root {o : Option (USt × Option Nat)} {f : USt → Option Val} {x : Val} (h : (o.bind fun q => if q.2 = some 0 then f q.1 else none) = some x) :
    ∃ st, o = some (st, some 0) ∧ f st = some x := by
  obtain ⟨⟨st, y⟩, h1, h2⟩ := Option.bind_eq_some_iff.mp h
  split at h2
  · rename_i e; cases e; exact ⟨st, h1, h2⟩
  · cases h2

/-- C98 fails for the number objects that can change: the class DKVariableNumber is not among those DKRuntimeInit makes known, so a program that has not used
    one itself reads NULL. -/
theorem C98_variable_fails : ∃ (H : Nat → Val) (st : USt) (id : Nat), H 0 = .list (.array false) [some 1] ∧ H 1 = .num true (encode 8 1) [5] ∧
    saveLoad .big .big (worldOf H) (readerOf startup) 2 0 = some (st, some id) ∧ rebuilt (fun _ => true) startup st id = some (.list (.array false) [none]) := by
  obtain ⟨st, h1, h3⟩ := read_root (o := saveLoad .big .big (worldOf fun o => if o = 0 then .list (.array false) [some 1] else .num true (encode 8 1) [5]) (readerOf startup) 2 0)
    (f := fun st => rebuilt (fun _ => true) startup st 0) (x := .list (.array false) [none]) (by decide +kernel)
  exact ⟨_, st, 0, rfl, rfl, h1, h3⟩

/-- The same program reads it if it knows the class. -/
example : ((saveLoad .big .big (worldOf fun o => if o = 0 then .list (.array false) [some 1] else .num true (encode 8 1) [5]) (readerOf Cls.all) 2 0).bind fun q =>
    rebuilt (fun _ => true) Cls.all q.1 1) = some (.num true (encode 8 1) [5]) := by decide +kernel

/-- C98 fails for data with a type of numbers whose length is not a multiple of their size: the rest is lost. -/
theorem C98_rest_fails : ∃ (st : USt) (id : Nat),
    saveLoad .big .big (worldOf fun _ => .data false 9 [1, 2, 3]) (readerOf startup) 1 0 = some (st, some id) ∧
    rebuilt (fun _ => true) startup st id = some (.data false 9 [1, 2]) := by
  obtain ⟨st, h1, h3⟩ := read_root (o := saveLoad .big .big (worldOf fun _ => .data false 9 [1, 2, 3]) (readerOf startup) 1 0)
    (f := fun st => rebuilt (fun _ => true) startup st 0) (x := .data false 9 [1, 2]) (by decide +kernel)
  exact ⟨st, 0, h1, h3⟩

/-- C98 fails for empty data with a type of numbers: the type is lost. -/
theorem C98_empty_fails : ∃ (st : USt) (id : Nat),
    saveLoad .big .big (worldOf fun _ => .data false 9 []) (readerOf startup) 1 0 = some (st, some id) ∧
    rebuilt (fun _ => true) startup st id = some (.data false 0 []) := by
  obtain ⟨st, h1, h3⟩ := read_root (o := saveLoad .big .big (worldOf fun _ => .data false 9 []) (readerOf startup) 1 0)
    (f := fun st => rebuilt (fun _ => true) startup st 0) (x := .data false 0 []) (by decide +kernel)
  exact ⟨st, 0, h1, h3⟩

/-- C98 fails for data of 2^24 numbers, whatever they are: the count does not fit, nothing is refused, and no byte is archived. -/
theorem C98_long_fails (m : Bool) (b : Bytes) (hb : b.length = 2 ^ 24) (s : Arch) : ∃ e,
    (Val.data m 8 b).puts = [.number (ascii "data") e b] ∧ isNumber e = false ∧ addEncoded s e b = some (s, s.data.length) := by
  refine ⟨encode 8 0, ?_, by decide, ?_⟩
  · have : b.length / typeGetSize 8 = 2 ^ 24 := by rw [hb]; decide
    simp only [Val.puts, putsData, show typeIsNumber 8 = true from by decide, if_true, this]
    congr 1
  · have h1 : getTypeSize (encode 8 0) = 1 := by decide
    have h0 : (getCount (encode 8 0)).toNat = 0 := by decide
    simp only [addEncoded, align, h1, h0, Nat.mod_one]
    simp

example : ∃ b : Bytes, b.length = 2 ^ 24 := ⟨List.replicate (2 ^ 24) 7, List.length_replicate⟩

/-- C98 fails for an array that contains itself: the array read contains NULL. -/
theorem C98_root_fails : ∃ (st : USt) (id : Nat),
    saveLoad .big .big (worldOf fun _ => .list (.array true) [some 0]) (readerOf startup) 1 0 = some (st, some id) ∧
    rebuilt (fun _ => true) startup st id = some (.list (.array true) [none]) := by
  obtain ⟨st, h1, h3⟩ := read_root (o := saveLoad .big .big (worldOf fun _ => .list (.array true) [some 0]) (readerOf startup) 1 0)
    (f := fun st => rebuilt (fun _ => true) startup st 0) (x := .list (.array true) [none]) (by decide +kernel)
  exact ⟨st, 0, h1, h3⟩

end Egg
end Duck
