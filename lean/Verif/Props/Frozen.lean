import Verif.Lemmas.Frozen
/-! # C127 immutable objects -/
namespace Duck
namespace Frozen

/-- **C127, partial.** Whatever sequence of calls a program makes, on whatever objects and with whatever effects, an
    object of an immutable class has the same class and the same contents after it, and nothing at all has changed of it
    if its encoding type was not set.  (Partial: in a library built without assertions the value of the object must not
    be set as that of a variable number, see `C127_number_fails`.  Writing through pointers to the bytes of a mutable
    object that are used after it has been made immutable, and initialising an object again, are not calls of the
    model.) -/
theorem C127_contents_partial {K : Type} (debug : Bool) (e : Effects K) (prog : List (Op K)) (h h' : List (Obj K))
    (as : List Answer) (hr : run debug e prog h = some (h', as)) (i : Nat) (o : Obj K) (ho : h[i]? = some o)
    (hi : Immutable o.cls) (hn : debug = true ∨ ∀ op ∈ prog, ¬ setsNumber i op) :
    ∃ o', h'[i]? = some o' ∧ o'.cls = o.cls ∧ o'.contents = o.contents ∧
      ((∀ op ∈ prog, ¬ setsEncoding i op) → o' = o) := run_keeps hr ho hi hn

/-- An effect under which every change shows: the number of the call is added to the contents. -/
def visible : Effects (List Nat) := fun _ n k => k ++ [n]

example : run false visible
    [.make ⟨.base .array, [1, 2], 0⟩, .make ⟨.base .mutableData, [7], 0⟩, .generic 0 .listAppendObject [9],
     .direct 0 (.array .sort) 3, .generic 0 .setRemoveObject [1, 2], .direct 1 (.data .appendBytes) 8, .makeImmutable 1,
     .direct 1 (.data .appendBytes) 9, .generic 1 .streamPuts [4], .replaceOccurrences 0 [5]] [] =
    some ([⟨.base .array, [1, 2], 0⟩, ⟨.base .data, [7, 8], 0⟩],
      [.done, .done, .refused, .refused, .refused, .done, .done, .refused, .unspecified, .refused]) := by decide +kernel

/-- **C127.** A call that names a class changes the objects of the mutable class (and of its subclasses), in every
    configuration: nothing is refused there. -/
theorem C127_changes {K : Type} (debug : Bool) (e : Effects K) (d : Direct) (n : Nat) (o : Obj K)
    (h : DescendsFrom (subject d) o.cls) :
    callDirect debug e d n o = some ({ o with contents := e (.direct d) n o.contents }, .done) := callDirect_subject h

example : callDirect true visible (.string .escape) 3 ⟨.sub (.base .mutableString), [1], 0⟩ =
    some (⟨.sub (.base .mutableString), [1, 3], 0⟩, .done) := C127_changes _ _ _ _ _ (.sub .self)

/-- **C127.** A call through an interface changes the mutable objects that have the interface, by the function it is
    named after, whatever their class. -/
theorem C127_changes_through {K : Type} (debug : Bool) (e : Effects K) (g : Generic) (b : Base) (hb : Offers (kinds g) b) :
    ∃ x ∈ means g, ∀ (n : Nat) (o : Obj K), DescendsFrom b o.cls →
      callSlot debug e g.slot n o = some ({ o with contents := e x n o.contents }, .done) := by
  obtain ⟨x, hx, hs⟩ := slotEdit_offers hb
  exact ⟨x, hx, fun n o h => callSlot_edit h hs⟩

example : ∃ x ∈ means .setMinus, ∀ (n : Nat) (o : Obj (List Nat)), DescendsFrom .mutableLinkedList o.cls →
    callSlot false visible Generic.setMinus.slot n o = some ({ o with contents := visible x n o.contents }, .done) :=
  C127_changes_through _ _ _ _ .linkedSet

/-- **C127.** A call that names a class and is made on an immutable object of any class is refused: an error is printed
    and NULL, zero, false or nothing is returned. -/
theorem C127_refused {K : Type} (debug : Bool) (e : Effects K) (d : Direct) (n : Nat) (o : Obj K) (hi : Immutable o.cls)
    (hd : ∀ c, d ≠ .number c) : callDirect debug e d n o = some (o, .refused) := callDirect_immutable hi hd

example : callDirect false visible (.hashTable .removeAllObjects) 3 ⟨.base .hashTable, [1], 0⟩ =
    some (⟨.base .hashTable, [1], 0⟩, .refused) := C127_refused _ _ _ _ _ .hashTable (by simp)

/-- **C127, partial.** A call through an interface on an immutable object that has the interface, however often it calls
    the slot, is refused.  (Partial: not the calls that return a pointer or a count, see `C127_result_fails`.) -/
theorem C127_refused_through_partial {K : Type} (debug : Bool) (e : Effects K) (g : Generic) (ns : List Nat) (hns : ns ≠ [])
    (o : Obj K) (hi : Immutable o.cls) (r : Obj K × Answer) (hr : repeated (callSlot debug e g.slot) ns o = some r)
    (hb : kinds g ≠ .bytes ∨ g = .bufferSetLength) : r = (o, .refused) := by
  have hres : hasResult g.slot = false := by
    revert hb
    cases g <;> decide
  refine repeated_answer (fun n r hr => ?_) ns hns r hr
  rw [callSlot_immutable hi hr, hres]
  rfl

example : repeated (callSlot false visible Generic.setUnion.slot) [1, 2, 3] ⟨.base .binaryTree, [5], 0⟩ =
    some (⟨.base .binaryTree, [5], 0⟩, .refused) := by decide +kernel

/-- **C127 (violated).** What DKWrite, DKPuts, DKPutc, DKSPrintf and DKBufferGetMutableBytePtr return for immutable data
    and strings is unspecified: the function called for the slot returns nothing, and the caller uses its result. -/
theorem C127_result_fails {K : Type} (debug : Bool) (e : Effects K) (g : Generic) (n : Nat) (o : Obj K)
    (ho : o.cls = .base .data ∨ o.cls = .base .string ∨ o.cls = .base .constantString) (hg : kinds g = .bytes)
    (hl : g ≠ .bufferSetLength) : callSlot debug e g.slot n o = some (o, .unspecified) := by
  have hs : slot o.cls g.slot = some .refuse ∧ hasResult g.slot = true := by
    rcases ho with ho | ho | ho <;> rw [ho] <;> revert hg hl <;> cases g <;> decide
  simp [callSlot, hs.1, hs.2]

example : callSlot false visible Generic.streamWrite.slot 1 ⟨.base .constantString, [1], 0⟩ =
    some (⟨.base .constantString, [1], 0⟩, .unspecified) := C127_result_fails _ _ _ _ _ (Or.inr (Or.inr rfl)) rfl (by decide)

/-- **C127 (violated).** In a library built without assertions the setters of variable numbers change numbers that are
    not variable, and the shared objects DKTrue and DKFalse. -/
theorem C127_number_fails {K : Type} (e : Effects K) (c : NumberCall) (n : Nat) (o : Obj K)
    (ho : o.cls = .base .number ∨ o.cls = .base .boolean) :
    callDirect false e (.number c) n o = some ({ o with contents := e (.direct (.number c)) n o.contents }, .done) := by
  have hk : kindOf o.cls .variableNumber = false ∧ kindOf o.cls .number = true := by
    rcases ho with ho | ho <;> rw [ho] <;> decide
  have hg : guard (.number c) = .assert .variableNumber := by cases c <;> rfl
  simp [callDirect, hg, hk.1, hk.2]

example : callDirect false visible (.number .setValue) 0 ⟨.base .boolean, [1], 0⟩ =
    some (⟨.base .boolean, [1, 0], 0⟩, .done) := C127_number_fails _ _ _ _ (Or.inr rfl)

/-- **C127 (violated).** DKDataSetEncodingType sets the encoding type of immutable data; of a number it sets the encoding,
    which is part of its value. -/
theorem C127_encoding_fails {K : Type} (debug : Bool) (e : Effects K) (o : Obj K) (tag : Nat) :
    run debug e [.setEncodingType 0 tag] [o] = some ([{ o with tag := tag }], [.done]) := rfl

example : run false visible [.setEncodingType 0 5] [⟨.base .data, [1], 0⟩] = some ([⟨.base .data, [1], 5⟩], [.done]) := rfl

/-- **C127.** Making a mutable data object or string immutable keeps its contents, and what is done to it afterwards is
    covered by `C127_contents_partial`; objects of other classes, subclasses included, stay as they are. -/
theorem C127_make_immutable {K : Type} (debug : Bool) (e : Effects K) (k : K) (tag : Nat) :
    run debug e [.makeImmutable 0] [⟨.base .mutableData, k, tag⟩] = some ([⟨.base .data, k, tag⟩], [.done]) ∧
    run debug e [.makeImmutable 0] [⟨.base .mutableString, k, tag⟩] = some ([⟨.base .string, k, tag⟩], [.done]) ∧
    (∀ c, c ≠ .base .mutableData → c ≠ .base .mutableString →
      run debug e [.makeImmutable 0] [⟨c, k, tag⟩] = some ([⟨c, k, tag⟩], [.done])) := by
  refine ⟨rfl, rfl, fun c h1 h2 => ?_⟩
  have : makeImmutable c = c := by
    cases c with
    | sub c => rfl
    | base b => cases b <;> first | rfl | exact absurd rfl h1 | exact absurd rfl h2
  simp [run, step, at', this]

example : (Cls.sub (.base .mutableString)) ≠ .base .mutableData ∧ (Cls.sub (.base .mutableString)) ≠ .base .mutableString := by
  decide

/-! ## Replacing the occurrences of a string in an immutable string -/

open Text Unicode in
/-- **C127, partial.** On an immutable text, replacing all occurrences of a pattern by a replacement that is neither empty
    nor longer than the pattern returns. -/
theorem C127_replace_returns_partial (cs ds rs : List Char) (hc : '\x00' ∉ cs) (hd : '\x00' ∉ ds) (hr : '\x00' ∉ rs)
    (hne : ds ≠ []) (h63 : cs.length < 2 ^ 63) (hrs : rs ≠ []) (hle : rs.length ≤ ds.length) :
    ∃ errors, refusedReplace cs.length (utf8 cs) (utf8 ds) (utf8 rs) = .back errors := by
  have hl : getLength (utf8 rs) = some rs.length := by
    rw [getLength_scans (scans_text hr)]; simp [chunks]
  have h0 := rangeOfString_text hc hd hne 0 (by omega) (by omega)
  obtain ⟨x, hx⟩ := refusedGo_ends hc hd hne h63 (m := rs.length) (List.length_pos_iff.mpr hrs) hle cs.length 0 0 (by omega)
    (by omega) _ h0
  refine ⟨x, ?_⟩
  have h0' : rangeOfString (utf8 cs) (utf8 ds) 0 = _ := h0
  unfold refusedReplace
  rw [h0', hl]
  exact hx

open Text Unicode in
example : refusedReplace 4 (utf8 ['a', 'b', 'a', 'b']) (utf8 ['a', 'b']) (utf8 ['c']) = .back 2 := by decide +kernel

open Text Unicode in
/-- **C127 (violated).** With an empty replacement (the way to delete all occurrences) the call never returns when the
    pattern occurs in the immutable string, whatever the string: the occurrence is found again and again. -/
theorem C127_replace_hangs_fails (cs ds : List Char) (hc : '\x00' ∉ cs) (hd : '\x00' ∉ ds) (hne : ds ≠ [])
    (h63 : cs.length < 2 ^ 63) (hin : ds <:+: cs) (fuel : Nat) :
    refusedReplace fuel (utf8 cs) (utf8 ds) [] = .running := by
  have h0 := rangeOfString_text hc hd hne 0 (by omega) (by omega)
  have h0' : rangeOfString (utf8 cs) (utf8 ds) 0 = _ := h0
  have hl : getLength [] = some 0 := by decide +kernel
  rw [List.drop_zero] at h0'
  cases hfa : firstAt ds cs with
  | none =>
    obtain ⟨a, b, hab⟩ := hin
    refine absurd ?_ (((firstAt_spec ds hne cs).2).1 hfa a.length)
    rw [← hab, List.append_assoc, List.drop_left]
    exact List.prefix_append _ _
  | some k =>
    rw [hfa] at h0'
    have hp := ((firstAt_spec ds hne cs).1 k).1 hfa
    have hk : k ≤ cs.length := by
      rcases Nat.lt_or_ge cs.length k with hlt | hge
      · have := hp.1.length_le
        rw [List.length_drop] at this
        have h1 : 0 < ds.length := List.length_pos_iff.mpr hne
        omega
      · exact hge
    unfold refusedReplace
    rw [h0', hl]
    show refusedGo (utf8 cs) (utf8 ds) 0 fuel 0 (((0 + k : Nat) : Int), (ds.length : Int)) = .running
    rw [Nat.zero_add]
    exact refusedGo_stays hc hd hne h63 hp.1 hk fuel 0 _

example : ['b'] <:+: ['a', 'b'] := by decide

open Text Unicode in
/-- **C127 (violated).** With a replacement longer than what follows the start of the last occurrence the call reads
    through NULL: "b" replaced by "xyz" in the immutable string "ab". -/
theorem C127_replace_crash_fails :
    refusedReplace 1 (utf8 ['a', 'b']) (utf8 ['b']) (utf8 ['x', 'y', 'z']) = .crash := by decide +kernel

end Frozen
end Duck
