import Verif.Lemmas.Startup
/-! C122: what a program can rely on after DKRuntimeInit. -/
namespace Duck
namespace Startup
open Nested (Accessor)
open Names Enum

/-- C122: DKRuntimeInit completes, whatever its options: no name is given twice, nothing is used before it is set up, and the tables of names do not fail.  Objects become zombies exactly if the
    option says so. -/
theorem C122_starts (options : BitVec 32) : ∃ s, runtimeInit fresh options = .ok s ∧ s.flag = true ∧ (s.zombies = true ↔ options.getLsbD 0 = true) ∧ (∀ r, r ∈ s.roots) ∧
    s.thread = true ∧ s.metadata = true := by
  obtain ⟨-, -, h1, h2, h3, h4⟩ := started_all (options &&& 1 != 0)
  refine ⟨_, init_ok options, h1, ?_, fun r => ?_, h2, h3⟩
  · have hz : ∀ z, (started z).zombies = z := by intro z; cases z <;> decide +kernel
    rw [hz, bne_iff_ne]
    constructor
    · intro h
      cases hb : options.getLsbD 0 with
      | true => rfl
      | false => exact absurd (by
          apply BitVec.eq_of_getLsbD_eq
          intro i hi
          cases i with
          | zero => rw [BitVec.getLsbD_and, hb]; simp
          | succ i => simp) h
    · intro h e
      have : (options &&& 1).getLsbD 0 = (0 : BitVec 32).getLsbD 0 := by rw [e]
      rw [BitVec.getLsbD_and, h] at this
      simp at this
  · simp only [usable, List.all_eq_true] at h4
    have := h4 r (by cases r <;> simp)
    simpa using this

example : ∃ s, runtimeInit fresh 1 = .ok s ∧ s.zombies = true ∧ s.roots.length = 8 := by
  refine ⟨_, init_ok 1, ?_, ?_⟩ <;> decide +kernel

/-- C122: further calls of DKRuntimeInit, with any options, change nothing. -/
theorem C122_repeat (options : BitVec 32) (s : State) (h : runtimeInit fresh options = .ok s) (later : List (BitVec 32)) : later.foldlM runtimeInit s = .ok s := by
  obtain ⟨s', h1, h2, -⟩ := C122_starts options
  rw [h] at h1
  cases h1
  exact Startup.later h2 later

example : ∃ s, runtimeInit fresh 0 = .ok s ∧ s.zombies = false ∧ [1, 0, 3].foldlM runtimeInit s = .ok s :=
  ⟨_, init_ok 0, by decide +kernel, C122_repeat 0 _ (init_ok 0) _⟩

/-- **C122 (partial), classes.** After DKRuntimeInit a search for a class never fails, whatever the name, and finds exactly the built-in classes under their names, with one exception: the class of
    mutable hash tables is called "DKMutablehashTable".  Missing from the full property: that class, and the classes that DKRuntimeInit does not create (`C122_class_fails`). -/
theorem C122_classes_partial (options : BitVec 32) (s : State) (h : runtimeInit fresh options = .ok s) (name : Name) :
    ∃ r, classFromString s (some name) = .ok r ∧
      ∀ c, r = some c ↔ ∃ t, bytes t = name ∧ ((t, c) = misnamed ∨ (t, c) ∈ builtinClasses ∧ c ≠ .made .DKMutableHashTableClass) := by
  have hs := eq_started h; subst hs
  obtain ⟨d, r, h1, h2, h3⟩ := (started_all (options &&& 1 != 0)).1.find order_nodup.1 name
  refine ⟨nth (started _).classIds r, by simp only [classFromString, h1, h2]; rfl, fun c => (h3 c).trans ?_⟩
  have e1 : ∀ x ∈ order, x = misnamed ∨ x ∈ builtinClasses ∧ x.2 ≠ .made .DKMutableHashTableClass := by decide +kernel
  have e2 : ∀ x ∈ builtinClasses, x.2 ≠ .made .DKMutableHashTableClass → x ∈ order := by decide +kernel
  constructor
  · rintro ⟨t, ht, e⟩; exact ⟨t, e, e1 _ ht⟩
  · rintro ⟨t, e, ht | ht⟩
    · exact ⟨t, ht ▸ (by decide +kernel : misnamed ∈ order), e⟩
    · exact ⟨t, e2 _ ht.1 ht.2, e⟩

/-- C122: a built-in class has the name it is found under. -/
theorem C122_class_names_partial (options : BitVec 32) (s : State) (h : runtimeInit fresh options = .ok s) (t : String) (c : Obj Root) (hc : (t, c) ∈ builtinClasses)
    (hm : c ≠ .made .DKMutableHashTableClass) : stringFromClass s c = some (bytes t) ∧ classFromString s (some (bytes t)) = .ok (some c) := by
  constructor
  · have hs := eq_started h; subst hs
    rw [stringFromClass, (started_all _).1.name c]
    have : ∀ x ∈ builtinClasses, x.2 ≠ .made .DKMutableHashTableClass → (order.find? (·.2 == x.2)) = some x := by decide +kernel
    rw [this _ hc hm]; rfl
  · obtain ⟨r, h1, h2⟩ := C122_classes_partial options s h (bytes t)
    rw [h1, (h2 c).mpr ⟨t, rfl, .inr ⟨hc, hm⟩⟩]

example : ("DKObject", .static .DKObjectClass) ∈ builtinClasses ∧ ("DKPredicate", .made .DKPredicateClass) ∈ builtinClasses ∧ builtinClasses.length = 38 := by decide +kernel

/-- **C122 (partial), selectors.** The same for selectors.  Missing from the full property: the selector Locking (`C122_selector_fails`). -/
theorem C122_selectors_partial (options : BitVec 32) (s : State) (h : runtimeInit fresh options = .ok s) (name : Name) :
    ∃ r, selectorFromString s (some name) = .ok r ∧ ∀ x, r = some x ↔ ∃ t, bytes t = name ∧ (t, x) ∈ builtinSelectors ∧ x ≠ .static .Locking := by
  have hs := eq_started h; subst hs
  obtain ⟨d, r, h1, h2, h3⟩ := (started_all (options &&& 1 != 0)).2.1.find orderSel_nodup.1 name
  refine ⟨nth (started _).selectorIds r, by simp only [selectorFromString, h1, h2]; rfl, fun c => (h3 c).trans ?_⟩
  have e1 : ∀ x ∈ orderSel, x ∈ builtinSelectors ∧ x.2 ≠ .static .Locking := by decide +kernel
  have e2 : ∀ x ∈ builtinSelectors, x.2 ≠ .static .Locking → x ∈ orderSel := by decide +kernel
  constructor
  · rintro ⟨t, ht, e⟩; exact ⟨t, e, e1 _ ht⟩
  · rintro ⟨t, e, ht⟩; exact ⟨t, e2 _ ht.1 ht.2, e⟩

/-- C122: a built-in selector has the name it is found under. -/
theorem C122_selector_names_partial (options : BitVec 32) (s : State) (h : runtimeInit fresh options = .ok s) (t : String) (x : Obj Static) (hx : (t, x) ∈ builtinSelectors)
    (hm : x ≠ .static .Locking) : stringFromSelector s x = some (bytes t) ∧ selectorFromString s (some (bytes t)) = .ok (some x) := by
  constructor
  · have hs := eq_started h; subst hs
    rw [stringFromSelector, (started_all _).2.1.name x]
    have : ∀ x ∈ builtinSelectors, x.2 ≠ .static .Locking → (orderSel.find? (·.2 == x.2)) = some x := by decide +kernel
    rw [this _ hx hm]; rfl
  · obtain ⟨r, h1, h2⟩ := C122_selectors_partial options s h (bytes t)
    rw [h1, (h2 x).mpr ⟨t, rfl, hx, hm⟩]

example : ("Comparison", .static .Comparison) ∈ builtinSelectors ∧ ("Set", .made .selSet) ∈ builtinSelectors := by decide +kernel

/-- C122: what a program does with names of classes after DKRuntimeInit — any history of creations, releases, finalizations and searches, also of subclasses with names of its own — gives what the
    plain list of classes says, and stops only at a second class of the same name, at a class without a name (C88), or when there are hundreds of millions of classes: the small tables whose probing
    fails (C07) are never met. -/
theorem C122_history (options : BitVec 32) (s : State) (h : runtimeInit fresh options = .ok s) (db : Names.State) (hdb : s.classes = some db ∨ s.selectors = some db) (ops : List Op) :
    match Names.run db ops with
    | .ok (s', outs) => expectedRun db.classes ops = some (s'.classes, outs)
    | .error e => ∃ pre op post s' outs, ops = pre ++ op :: post ∧ Names.run db pre = .ok (s', outs) ∧ expectedRun db.classes pre = some (s'.classes, outs) ∧ Names.step s' op = .error e ∧
        (((e = .fatal ∨ e = .illegal) ∧ expected s'.classes op = none) ∨ Unnamed s'.classes op ∨ (e = .table .tooBig ∧ 1675364863 ≤ s'.table.rows.length)) := by
  have hs := eq_started h; subst hs
  have hd : Ok db.table db.classes ∧ 25 < db.table.rows.length := by
    obtain ⟨h1, h2, -⟩ := started_all (options &&& 1 != 0)
    rcases hdb with e | e
    · obtain ⟨d, e', hk, hb, -⟩ := h1.db
      rw [e'] at e; cases e; exact ⟨hk, hb⟩
    · obtain ⟨d, e', hk, hb, -⟩ := h2.db
      rw [e'] at e; cases e; exact ⟨hk, hb⟩
  have hr := run_ok ops db hd.1
  cases hx : Names.run db ops with
  | ok r => rw [hx] at hr; exact hr.2
  | error e =>
      rw [hx] at hr
      obtain ⟨pre, op, post, s', outs, h1, h2, h3, h4, h5⟩ := hr
      refine ⟨pre, op, post, s', outs, h1, h2, h3, h4, ?_⟩
      have hb := run_big pre hd.1 hd.2 h2
      rcases h5 with h5 | h5 | ⟨f, rfl, ⟨rfl, h6, -⟩ | ⟨rfl, h6⟩⟩
      · exact .inl h5
      · exact .inr (.inl h5)
      · omega
      · exact .inr (.inr ⟨rfl, h6⟩)

/-- A history: a class of the program, found under its name; a second one of a built-in name ends the program. -/
example : ∃ db, (started false).classes = some db ∧ (∃ r, Names.run db [.create (some (bytes "Mine")), .find (some (bytes "Mine")), .find (some (bytes "DKData"))] = .ok r ∧
    r.2 = [.class 38, .found (some 38), .found (some 23)]) ∧ ∃ e, Names.run db [.create (some (bytes "DKData"))] = .error e ∧ e = .fatal := by
  have h : ((started false).classes.map fun db => ((Names.run db [.create (some (bytes "Mine")), .find (some (bytes "Mine")), .find (some (bytes "DKData"))]).toOption.map (·.2),
      match Names.run db [.create (some (bytes "DKData"))] with | .ok _ => none | .error e => some e)) = some (some [.class 38, .found (some 38), .found (some 23)], some .fatal) := by decide +kernel
  cases hdb : (started false).classes with
  | none => rw [hdb] at h; cases h
  | some db =>
      rw [hdb] at h
      simp only [Option.map_some, Option.some.injEq, Prod.mk.injEq] at h
      refine ⟨db, rfl, ?_, ?_⟩
      · cases hr : Names.run db [.create (some (bytes "Mine")), .find (some (bytes "Mine")), .find (some (bytes "DKData"))] with
        | error e => rw [hr] at h; cases h.1
        | ok r => rw [hr] at h; exact ⟨r, rfl, by simpa [Except.toOption] using h.1⟩
      · cases hr : Names.run db [.create (some (bytes "DKData"))] with
        | ok r => rw [hr] at h; cases h.2
        | error e => rw [hr] at h; exact ⟨e, rfl, by simpa using h.2⟩

/-- **C122 (partial), threads.** Once a call of DKRuntimeInit has returned from its work, any number of threads can call it with any options, in any order: none changes anything.
    Missing from the full property: threads that call it before that (`C122_threads_fails`, `C122_race_fails`). -/
theorem C122_threads_partial (options : BitVec 32) (s : State) (h : runtimeInit fresh options = .ok s) (calls : List (BitVec 32)) (is : List Nat) (q : Par)
    (hr : threadRun ⟨s, calls.map fun o => (o, .test)⟩ is = .ok q) : q.state = s := by
  obtain ⟨s', h1, h2, -⟩ := C122_starts options
  rw [h] at h1
  cases h1
  refine threadRun_started is h2 (fun x hx => ?_) hr
  obtain ⟨o, -, rfl⟩ := List.mem_map.mp hx
  exact .inl rfl

example : ∃ q, threadRun ⟨started false, [(1, .test), (0, .test)]⟩ [1, 0] = .ok q ∧ q.threads = [(1, .done), (0, .done)] := by
  have hf := (started_all false).2.2.1
  refine ⟨⟨started false, [(1, .done), (0, .done)]⟩, ?_, rfl⟩
  simp [threadRun, threadStep, goto, hf, pure, Except.pure, bind, Except.bind]

/-- **C122 fails for a second thread.** Its call of DKRuntimeInit returns while the first thread is still at the beginning; DKObjectClass() then gives it a class that is not set up, and
    DKClassFromString crashes. -/
theorem C122_threads_fails : ∃ q, threadRun ⟨fresh, [(0, .test), (0, .test)]⟩ [0, 0, 1] = .ok q ∧ q.threads[1]? = some (0, .done) ∧ rootClass q.state .DKObjectClass = .ok .DKObjectClass ∧
    q.state.roots = [] ∧ classFromString q.state (some (bytes "DKObject")) = .error .crash := ⟨_, rfl, rfl, rfl, rfl, rfl⟩

/-- **C122 fails for two threads at once.** Both find the flag unset: the second one ends the program (DKRequire in DKMainThreadContextInit). -/
theorem C122_race_fails : threadRun ⟨fresh, [(0, .test), (0, .test)]⟩ [0, 1, 0, 1, 0, 1] = .error .fatal := rfl

/-- **C122 is false of the selector Locking**: it has no name, and is not found. -/
theorem C122_selector_fails (options : BitVec 32) : ∃ s, runtimeInit fresh options = .ok s ∧ stringFromSelector s (.static .Locking) = none ∧
    selectorFromString s (some (bytes "Locking")) = .ok none := by
  refine ⟨_, init_ok options, ?_⟩
  generalize (options &&& 1 != 0) = z
  refine ⟨?_, ?_⟩
  · rw [stringFromSelector, (started_all _).2.1.name]
    have : (orderSel.find? (·.2 == .static .Locking)) = none := by decide +kernel
    rw [this]; rfl
  · obtain ⟨d, r, h1, h2, h3⟩ := (started_all z).2.1.find orderSel_nodup.1 (bytes "Locking")
    have e0 : selectorFromString (started z) (some (bytes "Locking")) = .ok (nth (started z).selectorIds r) := by simp only [selectorFromString, h1, h2]; rfl
    rw [e0]
    refine congrArg Except.ok ?_
    cases hn : nth (started z).selectorIds r with
    | none => rfl
    | some x =>
        obtain ⟨t, ht, e⟩ := (h3 x).mp hn
        have : ∀ x ∈ orderSel, bytes x.1 ≠ bytes "Locking" := by decide +kernel
        exact absurd e (this _ ht)

/-- **C122 is false of these classes**, which programs know from the header files: nothing is found under their names. -/
theorem C122_class_fails (options : BitVec 32) (s : State) (h : runtimeInit fresh options = .ok s) (t : String)
    (ht : t ∈ ["DKMutableHashTable", "DKBitList", "DKVariableNumber", "DKXMLElement", "DKProperty"]) : classFromString s (some (bytes t)) = .ok none := by
  obtain ⟨r, h1, h2⟩ := C122_classes_partial options s h (bytes t)
  rw [h1]
  refine congrArg Except.ok ?_
  cases r with
  | none => rfl
  | some c =>
      obtain ⟨t', e, h3⟩ := (h2 c).mp rfl
      have e1 : ∀ t ∈ ["DKMutableHashTable", "DKBitList", "DKVariableNumber", "DKXMLElement", "DKProperty"], ∀ x ∈ builtinClasses,
        x.2 ≠ .made .DKMutableHashTableClass → bytes x.1 ≠ bytes t := by decide +kernel
      have e2 : ∀ t ∈ ["DKMutableHashTable", "DKBitList", "DKVariableNumber", "DKXMLElement", "DKProperty"], bytes misnamed.1 ≠ bytes t := by decide +kernel
      rcases h3 with h3 | ⟨h3, h4⟩
      · exact absurd (by rw [← h3]; exact e) (e2 t ht)
      · exact absurd e (e1 t ht _ h3 h4)

/-- **C122 (partial), ISA.** A predicate tests the instances of every class with a class made by an accessor as DKIsKindOfClass does.  Missing: the root classes (`C122_isa_fails`). -/
theorem C122_isa_partial (c : Obj Root) (a : Accessor) : evaluateISA c (.made a) = isSubclass 4 (some c) (.made a) := by
  simp [evaluateISA, isa, isSubclass]

example : isSubclass 4 (some (.made .DKMutableArrayClass)) (.made .DKArrayClass) = true ∧ isSubclass 4 (some (.made .DKArrayClass)) (.made .DKMutableArrayClass) = false := by decide

/-- **C122 is false of root classes**: every object made by the accessors' classes is of the kind DKObject, but no predicate "x ISA DKObject" is true, because root classes are not of the class DKClass. -/
theorem C122_isa_fails (a : Accessor) : isSubclass 4 (some (.made a)) (.static .DKObjectClass) = true ∧ evaluateISA (.made a) (.static .DKObjectClass) = false := by
  cases a <;> decide

end Startup
end Duck
