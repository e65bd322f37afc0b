import Verif.Lemmas.Copying
import Verif.Props.Dictionary
/-! C102: copies of objects. -/
namespace Duck
namespace Copying
open Property (Id Obj Heap Slot live held)

theorem run_append {s s' : State} {ops : List Op} (hr : Run s ops s') {op : Op} {r : Option Id} {s2 : State} (hl : Legal s' op) (hs : step s' op = some (s2, r)) :
    Run s (ops ++ [op]) s2 := by
  induction hr with
  | nil s => exact .cons hl hs (.nil _)
  | cons hl' hs' _ ih => exact .cons hl' hs' (ih hl hs)

/-- **C102, copies.** DKCopy of an object the caller may use works in every reachable state, and returns an object with the same contents that the caller owns:
    the object itself if it is immutable, a new one otherwise.  What can be seen of the other objects stays the same. -/
theorem C102_copy {s : State} (h : Reachable s) {i : Id} (hu : Usable s i) :
    ∃ s' r, step s (.copy i) = some (s', some r) ∧ Reachable s' ∧ contents s' r = contents s i ∧ s'.client = r :: s.client ∧
      (¬ Mutable s i → r = i) ∧ (Mutable s i → ¬ Exists s r) ∧ ∀ x, Exists s x → contents s' x = contents s x := by
  have hi := reach_inv h
  obtain ⟨s', r, h1, h2⟩ := duplicate_ok hi (hu.live hi) copyClass
  have hs : step s (.copy i) = some (s', some r) := by rw [step, h1]; rfl
  obtain ⟨ops, hr⟩ := h
  obtain ⟨o, o', a1, a2, a3, a4, a5⟩ := h2.made
  have hk : kind o'.cls = kind o.cls := by
    rcases a5 with ⟨-, -, e⟩ | ⟨e, -⟩
    · rw [e]
    · unfold copyClass at e
      split at e
      · split at e
        · rename_i e2; rw [← Option.some.inj e, e2]; rfl
        · rw [← Option.some.inj e]
      · cases e
  refine ⟨s', r, hs, ⟨_, run_append hr (op := .copy i) hu hs⟩, ?_, h2.client, ?_, ?_, ?_⟩
  · simp only [contents, a1, a2, Option.map_some, a3, a4, hk]
  · intro hn
    rcases a5 with ⟨-, e, -⟩ | ⟨e, -⟩
    · exact e
    · exfalso
      unfold copyClass at e
      split at e
      · rename_i e2; exact hn ⟨o, a1, e2⟩
      · cases e
  · rintro ⟨o2, b1, b2⟩ ⟨o3, b3⟩
    cases a1.symm.trans b1
    rcases a5 with ⟨e, -, -⟩ | ⟨-, e⟩
    · unfold copyClass at e
      rw [if_pos b2] at e
      split at e <;> cases e
    · have := Property.live_lt b3
      rw [e] at this
      exact Nat.lt_irrefl _ this
  · rintro x ⟨o2, b1⟩
    obtain ⟨o3, c1, c2, c3, c4⟩ := h2.kept x o2 b1
    simp only [contents, b1, c1, Option.map_some, c2, c3, c4]

/-- **C102, mutable copies.** DKMutableCopy of a string, data, array or list returns a new object of a mutable class with the same contents. -/
theorem C102_mutable {s : State} (h : Reachable s) {i : Id} (hu : Usable s i) {c : Contents} (hc : contents s i = some c) (hk : c.kind ≠ .other) :
    ∃ s' r, step s (.mutableCopy i) = some (s', some r) ∧ Reachable s' ∧ contents s' r = some c ∧ s'.client = r :: s.client ∧ Mutable s' r ∧ ¬ Exists s r ∧
      ∀ x, Exists s x → contents s' x = contents s x := by
  have hi := reach_inv h
  obtain ⟨s', r, h1, h2⟩ := duplicate_ok hi (hu.live hi) mutableCopyClass
  have hs : step s (.mutableCopy i) = some (s', some r) := by rw [step, h1]; rfl
  obtain ⟨ops, hr⟩ := h
  obtain ⟨o, o', a1, a2, a3, a4, a5⟩ := h2.made
  simp only [contents, a1, Option.map_some, Option.some.injEq] at hc
  have hko : kind o.cls ≠ .other := by rw [← hc] at hk; exact hk
  have hm : ∃ m, mutableCopyClass o.cls = some m ∧ isMutable m = true ∧ kind m = kind o.cls := by
    unfold mutableCopyClass
    cases e : kind o.cls with
    | string => exact ⟨1, rfl, rfl, rfl⟩
    | data => exact ⟨3, rfl, rfl, rfl⟩
    | array => exact ⟨5, rfl, rfl, rfl⟩
    | list => exact ⟨7, rfl, rfl, rfl⟩
    | other => exact absurd e hko
  obtain ⟨m, m1, m2, m3⟩ := hm
  rcases a5 with ⟨e, -, -⟩ | ⟨e, er⟩
  · rw [m1] at e; cases e
  · rw [m1] at e
    cases e
    refine ⟨s', r, hs, ⟨_, run_append hr (op := .mutableCopy i) hu hs⟩, ?_, h2.client, ⟨o', a2, m2⟩, ?_, ?_⟩
    · simp only [contents, a2, Option.map_some, a3, a4, m3, hc]
    · rintro ⟨o3, b3⟩
      have := Property.live_lt b3
      rw [er] at this
      exact Nat.lt_irrefl _ this
    · rintro x ⟨o2, b1⟩
      obtain ⟨o3, c1, c2, c3, c4⟩ := h2.kept x o2 b1
      simp only [contents, b1, c1, Option.map_some, c2, c3, c4]

/-- **C102, independence.** After DKCopy, whatever the program does, as long as it does not itself change the copy (it may change, release and deallocate
    the original) the copy keeps the contents the original had; and the original keeps them whatever is done to the copy, if that is another object.  An
    immutable copy keeps them whatever the program does. -/
theorem C102_independent {s s1 s2 : State} (h : Reachable s) {i r : Id} (hu : Usable s i) (hc : step s (.copy i) = some (s1, some r)) {ops : List Op}
    (hr : Run s1 ops s2) :
    (Exists s2 r → (Mutable s1 r → ∀ op ∈ ops, changes op ≠ some r) → contents s2 r = contents s i) ∧
    (Exists s2 i → (Mutable s1 i → ∀ op ∈ ops, changes op ≠ some i) → contents s2 i = contents s i) := by
  obtain ⟨s', r', h1, h2, h3, -, -, -, h7⟩ := C102_copy h hu
  rw [hc] at h1
  cases h1
  have hi1 := reach_inv h2
  obtain ⟨o, ho⟩ := hu.live (reach_inv h)
  have hsome : ∀ x, contents s1 x = contents s i → x < s1.heap.length := by
    intro x e
    simp only [contents, ho, Option.map_some, Option.map_eq_some_iff] at e
    obtain ⟨o2, e, -⟩ := e
    exact Property.live_lt e
  have hi' := h7 i ⟨o, ho⟩
  exact ⟨fun he hn => (frame_contents (run_frame hr hi1 (hsome r h3) hn) (hsome r h3) he).trans h3,
    fun he hn => (frame_contents (run_frame hr hi1 (hsome i hi') hn) (hsome i hi') he).trans hi'⟩

/-- **C102, independence of mutable copies.** The same for DKMutableCopy. -/
theorem C102_mutable_independent {s s1 s2 : State} (h : Reachable s) {i r : Id} (hu : Usable s i) {c : Contents} (hco : contents s i = some c) (hk : c.kind ≠ .other)
    (hc : step s (.mutableCopy i) = some (s1, some r)) {ops : List Op} (hr : Run s1 ops s2) :
    (Exists s2 r → (∀ op ∈ ops, changes op ≠ some r) → contents s2 r = some c) ∧
    (Exists s2 i → (Mutable s1 i → ∀ op ∈ ops, changes op ≠ some i) → contents s2 i = some c) := by
  obtain ⟨s', r', h1, h2, h3, -, -, -, h7⟩ := C102_mutable h hu hco hk
  rw [hc] at h1
  cases h1
  have hi1 := reach_inv h2
  obtain ⟨o, ho⟩ := hu.live (reach_inv h)
  have hsome : ∀ x, contents s1 x = some c → x < s1.heap.length := by
    intro x e
    simp only [contents, Option.map_eq_some_iff] at e
    obtain ⟨o2, e, -⟩ := e
    exact Property.live_lt e
  have hi' := (h7 i ⟨o, ho⟩).trans hco
  exact ⟨fun he hn => (frame_contents (run_frame hr hi1 (hsome r h3) (fun _ => hn)) (hsome r h3) he).trans h3,
    fun he hn => (frame_contents (run_frame hr hi1 (hsome i hi') hn) (hsome i hi') he).trans hi'⟩

/-- **C102, changes.** A change is what was asked for, on a mutable list and a range that is in it. -/
theorem C102_change {s : State} (h : Reachable s) {i : Id} {o : Contents} (hc : contents s i = some o) (hi : i ∈ s.client) (hm : Mutable s i)
    (hk : o.kind = .array ∨ o.kind = .list) {objects : List (Option Id)} (ho : ∀ x, some x ∈ objects → Usable s x) {location length : Nat}
    (hr : location + length ≤ o.items.length) :
    ∃ s', step s (.change i location length objects) = some (s', none) ∧ Reachable s' ∧
      contents s' i = some { o with items := o.items.take location ++ objects ++ o.items.drop (location + length) } := by
  have hinv := reach_inv h
  obtain ⟨s', h1, h2, h3, h4, h5, h6⟩ := change_ok hinv hi ho location length
  have hs : step s (.change i location length objects) = some (s', none) := by rw [step, h1]; rfl
  obtain ⟨ops, hr'⟩ := h
  obtain ⟨o1, a1, a2⟩ := hm
  simp only [contents, a1, Option.map_some, Option.some.injEq] at hc
  subst hc
  obtain ⟨o', b1, b2, b3, b4⟩ := h6 o1 a1 a2 hk (by simpa using hr)
  refine ⟨s', hs, ⟨_, run_append hr' (op := .change i location length objects) ⟨hi, ho⟩ hs⟩, ?_⟩
  have hob : (objects.map slot).map item = objects := by
    rw [List.map_map]
    conv => rhs; rw [← List.map_id objects]
    refine List.map_congr_left fun x _ => ?_
    cases x <;> rfl
  simp only [contents, b1, Option.map_some, b2, b3, b4, splice, List.map_append, hob, List.map_take, List.map_drop]

/-- **C102, changes of bytes.** The bytes of a mutable string or data become those asked for. -/
theorem C102_set_bytes {s : State} (h : Reachable s) {i : Id} {o : Contents} (hc : contents s i = some o) (hu : Usable s i) (hm : Mutable s i)
    (hk : o.kind = .string ∨ o.kind = .data) (bytes : List UInt8) :
    ∃ s', step s (.setBytes i bytes) = some (s', none) ∧ Reachable s' ∧ contents s' i = some { o with bytes := bytes } := by
  have hinv := reach_inv h
  obtain ⟨s', h1, h2, h3, h4, h5, h6⟩ := setBytes_ok hinv (hu.live hinv) bytes
  have hs : step s (.setBytes i bytes) = some (s', none) := by rw [step, h1]; rfl
  obtain ⟨ops, hr⟩ := h
  obtain ⟨o1, a1, a2⟩ := hm
  simp only [contents, a1, Option.map_some, Option.some.injEq] at hc
  subst hc
  refine ⟨s', hs, ⟨_, run_append hr (op := .setBytes i bytes) hu hs⟩, ?_⟩
  simp only [contents, h3, a1, Option.map_some, h6 o1 a1 a2 hk]

/-- **C102, nothing dangles.** In every reachable state the items of a list that exists exist, and every count is the number of references the program and the
    lists hold. -/
theorem C102_alive {s : State} (h : Reachable s) {i : Id} {c : Contents} (hc : contents s i = some c) :
    (∀ x, some x ∈ c.items → Exists s x) ∧ ∃ o, live s.heap i = some o ∧ o.count = s.client.count i + (held s.heap).count i := by
  have hi := reach_inv h
  simp only [contents, Option.map_eq_some_iff] at hc
  obtain ⟨o, ho, rfl⟩ := hc
  refine ⟨fun x hx => ?_, o, ho, ?_⟩
  · simp only [List.mem_map] at hx
    obtain ⟨sl, hsl, e⟩ := hx
    refine Usable.live hi (.inr (held_mem ho ?_))
    cases sl with
    | strong y => cases e; exact List.mem_flatMap.2 ⟨_, hsl, by simp [Property.owned]⟩
    | null => cases e
    | weak y => cases e
  · have := hi i
    rw [ho] at this
    exact this.1

/-! Runs by computation. -/

def usableB (s : State) (i : Id) : Bool := s.client.contains i || (held s.heap).contains i

theorem usableB_ok {s : State} {i : Id} (h : usableB s i = true) : Usable s i := by
  simpa [usableB, Usable] using h

def legalB (s : State) : Op → Bool
  | .new _ _ items => items.all fun x => match x with | some x => usableB s x | none => true
  | .retain i => usableB s i
  | .release i => s.client.contains i
  | .copy i => usableB s i
  | .mutableCopy i => usableB s i
  | .setBytes i _ => usableB s i
  | .change i _ _ objects => s.client.contains i && objects.all fun x => match x with | some x => usableB s x | none => true

theorem legalB_ok {s : State} {op : Op} (h : legalB s op = true) : Legal s op := by
  cases op with
  | new c b items =>
    intro x hx
    simp only [legalB, List.all_eq_true] at h
    exact usableB_ok (h _ hx)
  | change i l n objects =>
    simp only [legalB, Bool.and_eq_true, List.all_eq_true] at h
    exact ⟨by simpa using h.1, fun x hx => usableB_ok (h.2 _ hx)⟩
  | release i => simpa [legalB, Legal] using h
  | retain i => exact usableB_ok h
  | copy i => exact usableB_ok h
  | mutableCopy i => exact usableB_ok h
  | setBytes i b => exact usableB_ok h

def runs (s : State) : List Op → Option State
  | [] => some s
  | op :: ops => if legalB s op then (step s op).bind fun r => runs r.1 ops else none

theorem runs_run : ∀ {ops : List Op} {s s' : State}, runs s ops = some s' → Run s ops s' := by
  intro ops
  induction ops with
  | nil => intro s s' h; cases h; exact .nil _
  | cons op ops ih =>
    intro s s' h
    simp only [runs] at h
    split at h
    · rename_i hl
      simp only [Option.bind_eq_some_iff] at h
      obtain ⟨r, hr, h⟩ := h
      exact .cons (legalB_ok hl) hr (ih h)
    · cases h

/-- A mutable array of a string and NULL is copied; the array is changed and deallocated, the string too by its owner: the copy is as before. -/
example : ∃ s1 s2, Run start [.new 0 [97] [], .new 5 [] [some 0, none], .copy 1] s1 ∧ contents s1 2 = some ⟨.array, [], [some 0, none]⟩ ∧
    Run s1 [.change 1 0 1 [], .release 0, .release 1] s2 ∧ contents s2 2 = some ⟨.array, [], [some 0, none]⟩ ∧ contents s2 1 = none ∧
    contents s2 0 = some ⟨.string, [97], []⟩ := by
  have h1 : ∃ s1, runs start [.new 0 [97] [], .new 5 [] [some 0, none], .copy 1] = some s1 ∧ contents s1 2 = some ⟨.array, [], [some 0, none]⟩ ∧
      ∃ s2, runs s1 [.change 1 0 1 [], .release 0, .release 1] = some s2 ∧ contents s2 2 = some ⟨.array, [], [some 0, none]⟩ ∧ contents s2 1 = none ∧
        contents s2 0 = some ⟨.string, [97], []⟩ := ⟨_, rfl, by decide +kernel, _, rfl, by decide +kernel⟩
  obtain ⟨s1, a, b, s2, c, d⟩ := h1
  exact ⟨s1, s2, runs_run a, b, runs_run c, d⟩

/-- DKCopy and DKMutableCopy of a mutable string: changing the string and the mutable copy leaves the copy alone. -/
example : ∃ s, Run start [.new 1 [97] [], .copy 0, .mutableCopy 1, .setBytes 0 [98], .setBytes 1 [99], .setBytes 2 [100]] s ∧
    contents s 0 = some ⟨.string, [98], []⟩ ∧ contents s 1 = some ⟨.string, [97], []⟩ ∧ contents s 2 = some ⟨.string, [100], []⟩ := by
  have h : ∃ s, runs start [.new 1 [97] [], .copy 0, .mutableCopy 1, .setBytes 0 [98], .setBytes 1 [99], .setBytes 2 [100]] = some s ∧
      contents s 0 = some ⟨.string, [98], []⟩ ∧ contents s 1 = some ⟨.string, [97], []⟩ ∧ contents s 2 = some ⟨.string, [100], []⟩ :=
    ⟨_, rfl, by decide +kernel⟩
  obtain ⟨s, a, b⟩ := h
  exact ⟨s, runs_run a, b⟩

/-- The copy of a mutable list is changed. -/
example : ∃ s, Run start [.new 8 [] [], .new 7 [] [some 0], .copy 1, .change 2 0 1 [none, some 1]] s ∧
    contents s 1 = some ⟨.list, [], [some 0]⟩ ∧ contents s 2 = some ⟨.list, [], [none, some 1]⟩ := by
  have h : ∃ s, runs start [.new 8 [] [], .new 7 [] [some 0], .copy 1, .change 2 0 1 [none, some 1]] = some s ∧
      contents s 1 = some ⟨.list, [], [some 0]⟩ ∧ contents s 2 = some ⟨.list, [], [none, some 1]⟩ := ⟨_, rfl, by decide +kernel⟩
  obtain ⟨s, a, b⟩ := h
  exact ⟨s, runs_run a, b⟩

/-- **C102 (violated), mutability.** DKCopy of a mutable string is immutable, but DKCopy of mutable data, a mutable array or a mutable list is itself mutable, so
    what was meant to be a snapshot can be changed. -/
theorem C102_copy_mutable_fails {s s' : State} (h : Reachable s) {i r : Id} (hu : Usable s i) (hm : Mutable s i) (hc : step s (.copy i) = some (s', some r)) :
    Mutable s' r ↔ (contents s i).map (·.kind) ≠ some .string := by
  have hi := reach_inv h
  obtain ⟨s1, r1, h1, h2⟩ := duplicate_ok hi (hu.live hi) copyClass
  rw [step, h1] at hc
  cases hc
  obtain ⟨o, o', a1, a2, -, -, a5⟩ := h2.made
  obtain ⟨o2, b1, b2⟩ := hm
  cases a1.symm.trans b1
  have hcc : copyClass o.cls = some o'.cls := by
    rcases a5 with ⟨e, -⟩ | ⟨e, -⟩
    · unfold copyClass at e
      rw [if_pos b2] at e
      split at e <;> cases e
    · exact e
  unfold copyClass at hcc
  rw [if_pos b2] at hcc
  constructor
  · rintro ⟨o3, c1, c2⟩ hk
    cases a2.symm.trans c1
    simp only [contents, a1, Option.map_some, Option.some.injEq] at hk
    rw [if_pos hk] at hcc
    rw [← Option.some.inj hcc] at c2
    exact absurd c2 (by decide)
  · intro hk
    simp only [contents, a1, Option.map_some, ne_eq, Option.some.injEq] at hk
    rw [if_neg hk] at hcc
    exact ⟨o', a2, by rw [← Option.some.inj hcc]; exact b2⟩

/-- **C102 (violated), other objects.** DKMutableCopy of an object of a class with the default methods returns the object itself, which is not mutable. -/
theorem C102_other_fails : ∃ s s', Reachable s ∧ Usable s 0 ∧ step s (.mutableCopy 0) = some (s', some 0) ∧ ¬ Mutable s' 0 := by
  have h : ∃ s, runs start [.new 8 [1] []] = some s ∧ usableB s 0 = true ∧ ∃ s', step s (.mutableCopy 0) = some (s', some 0) ∧
      (live s'.heap 0).map (fun o => isMutable o.cls) = some false := ⟨_, rfl, by decide +kernel, _, rfl, by decide +kernel⟩
  obtain ⟨s, a, b, s', c, d⟩ := h
  refine ⟨s, s', ⟨_, runs_run a⟩, usableB_ok b, c, ?_⟩
  rintro ⟨o, e, f⟩
  rw [e] at d
  simp [f] at d

/-! Keys of dictionaries and sets. -/

open HTable in
theorem first_insert {K V : Type} (hash : K → Nat) (eqv : K → K → Bool) (k : K) (v : V) :
    HTable.insert hash eqv HTable.init k v .always = .ok (⟨(List.replicate 11 Row.empty).set (hash k % 11) (.active k v), 1, 0, 5⟩, true) := by
  have hlt : hash k % 11 < 11 := Nat.mod_lt _ (by decide)
  have hget : (List.replicate 11 (Row.empty : Row K V))[hash k % 11]? = some .empty := by
    rw [List.getElem?_replicate, if_pos hlt]
  have hf : find hash eqv (List.replicate 11 (Row.empty : Row K V)) k = .ok (hash k % 11, .empty) := by
    unfold find
    rw [List.length_replicate, findLoop, hget]
  have hr : resize hash eqv 2 (HTable.init : Table K V) = .ok ⟨List.replicate 11 .empty, 0, 0, 5⟩ := rfl
  unfold HTable.insert insertWith
  rw [if_pos (show (HTable.init : Table K V).rows.isEmpty = true from rfl), hr]
  show insertAt hash eqv (resize hash eqv 2) _ k v .always = _
  unfold insertAt
  rw [hf]
  simp only [Except.bind, hget, rowUpdate, reduceCtorEq, if_false]
  rfl

open HTable in
theorem other_slot {K V : Type} (hash : K → Nat) (eqv : K → K → Bool) (k k' : K) (v : V) (h : hash k % 11 ≠ hash k' % 11) :
    HTable.get hash eqv ⟨(List.replicate 11 Row.empty).set (hash k % 11) (.active k v), 1, 0, 5⟩ k' = .ok none := by
  have hlt : hash k' % 11 < 11 := Nat.mod_lt _ (by decide)
  have hget : ((List.replicate 11 (Row.empty : Row K V)).set (hash k % 11) (.active k v))[hash k' % 11]? = some .empty := by
    rw [List.getElem?_set_ne h, List.getElem?_replicate, if_pos hlt]
  have hf : find hash eqv ((List.replicate 11 (Row.empty : Row K V)).set (hash k % 11) (.active k v)) k' = .ok (hash k' % 11, .empty) := by
    unfold find
    rw [List.length_set, List.length_replicate, findLoop, hget]
  unfold HTable.get
  rw [if_pos (show (1 : Int) > 0 by decide), hf]
  rfl

/-- **C102 (violated), keys.** A mutable array or list (or dictionary or set) is useless as the key of a dictionary: the dictionary keeps a copy, which is equal but
    hashes as another object, so that looking up the very key that was used finds nothing as soon as the addresses of key and copy fall in different rows. -/
theorem C102_key_fails {V : Type} (eqv : Nat → Nat → Bool) (cp : Nat → Nat) (k : Nat) (v : V) (h : pointerHash (cp k) % 11 ≠ pointerHash k % 11) :
    ∃ d, Dict.setObject pointerHash eqv cp HTable.init k (some v) = .ok d ∧ Dict.getCount d = 1 ∧ Dict.getObject pointerHash eqv d k = .ok none := by
  refine ⟨_, by rw [Dict.setObject, Dict.insertObject, first_insert]; rfl, rfl, ?_⟩
  rw [Dict.getObject, other_slot _ _ _ _ _ h]
  rfl

/-- **C102 (violated), sets.** For the same reason the copy of a set that contains a mutable array or list can fail to contain it, while the set it was copied from does. -/
theorem C102_set_fails (eqv : Nat → Nat → Bool) (cp : Nat → Nat) (k : Nat) (hk : eqv k k = true) (h : pointerHash (cp k) % 11 ≠ pointerHash k % 11) :
    ∃ s t, Dict.setInit pointerHash eqv [k] = .ok s ∧ Dict.setContains pointerHash eqv s k = .ok true ∧
      copySet eqv cp s = .ok t ∧
      Dict.setContains pointerHash eqv t k = .ok false := by
  have hlt : pointerHash k % 11 < 11 := Nat.mod_lt _ (by decide)
  have hent : HTable.entries ((List.replicate 11 (HTable.Row.empty : HTable.Row Nat Nat)).set (pointerHash k % 11) (.active k k)) = [(k, k)] := by
    generalize pointerHash k % 11 = n at hlt
    have : n = 0 ∨ n = 1 ∨ n = 2 ∨ n = 3 ∨ n = 4 ∨ n = 5 ∨ n = 6 ∨ n = 7 ∨ n = 8 ∨ n = 9 ∨ n = 10 := by omega
    rcases this with rfl | rfl | rfl | rfl | rfl | rfl | rfl | rfl | rfl | rfl | rfl <;> rfl
  refine ⟨_, _, by
    rw [Dict.setInit, List.foldlM_cons, first_insert]; rfl, ?_, by
    rw [copySet, hent, List.foldlM_cons, first_insert]; rfl, ?_⟩
  · rw [Dict.setContains, Dict.setMember, HTable.get, if_pos (show (1 : Int) > 0 by decide), HTable.find, List.length_set, List.length_replicate, HTable.findLoop,
      List.getElem?_set_self (by simpa using hlt)]
    simp only [hk, if_true, Except.map, HTable.objectAt, List.getElem?_set_self (show pointerHash k % 11 < (List.replicate 11 HTable.Row.empty).length by simpa using hlt)]
    rfl
  · rw [Dict.setContains, Dict.setMember, other_slot _ _ _ _ _ h]
    rfl

/-- Addresses a page apart. -/
example : pointerHash 0x7f0000001000 % 11 ≠ pointerHash 0x7f0000002000 % 11 := by decide

/-- **C102, nested tables.** DKCopy of a set or dictionary whose keys are themselves mutable tables returns, if they do not contain each other in a circle. -/
theorem C102_nested_returns (keys : Id → Option (List Id)) (depth : Id → Nat) (hd : ∀ x ks, keys x = some ks → ∀ k ∈ ks, depth k < depth x) (x : Id) :
    copyKeys keys (depth x + 1) x = some () := by
  suffices hs : ∀ n x, depth x < n → copyKeys keys n x = some () from hs _ _ (Nat.lt_succ_self _)
  intro n
  induction n with
  | zero => intro x h; exact absurd h (Nat.not_lt_zero _)
  | succ n ih =>
    intro x h
    rw [copyKeys]
    cases hk : keys x with
    | none => rfl
    | some ks =>
      have hall : ∀ k ∈ ks, copyKeys keys n k = some () := fun k hm => ih k (by have := hd x ks hk k hm; omega)
      clear hk
      show ks.foldlM _ () = some ()
      induction ks with
      | nil => rfl
      | cons k ks ih2 =>
        rw [List.foldlM_cons, hall k List.mem_cons_self]
        exact ih2 fun k hm => hall k (List.mem_cons_of_mem _ hm)

theorem foldlM_none {α : Type} (f : α → Option Unit) : ∀ {l : List α} {a : α}, a ∈ l → f a = none → l.foldlM (fun _ k => f k) () = none := by
  intro l
  induction l with
  | nil => intro a h; cases h
  | cons b l ih =>
    intro a h e
    rw [List.foldlM_cons]
    rcases List.mem_cons.1 h with rfl | h
    · rw [e]; rfl
    · cases f b with
      | none => rfl
      | some u => exact ih h e

/-- **C102 (violated), circles.** DKCopy of a mutable set that contains itself never returns: the stack of calls is deeper than any bound. -/
theorem C102_circle_fails (keys : Id → Option (List Id)) (x : Id) (ks : List Id) (hk : keys x = some ks) (hx : x ∈ ks) (fuel : Nat) : copyKeys keys fuel x = none := by
  induction fuel with
  | zero => rfl
  | succ n ih =>
    rw [copyKeys, hk]
    exact foldlM_none _ hx ih

/-- A set in a set; a set that was added to itself. -/
example : copyKeys (fun x => if x = 0 then some [1, 2] else if x = 1 then some [2] else none) 3 0 = some () ∧
    copyKeys (fun x => if x = 0 then some [2, 0] else none) 100 0 = none := by decide +kernel

end Copying
end Duck
