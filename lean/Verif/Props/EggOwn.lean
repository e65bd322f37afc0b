import Verif.Lemmas.EggOwnRun
/-! C113: memory of archivers and unarchivers. -/
namespace Duck
namespace EggOwn

/-! ### Programs for the examples -/

/-- Nothing exists but one constant object at address 100. -/
def bare : Mem := ⟨fun a => if a = 100 then .static 0 else .free, 1, fun _ => 0⟩

theorem bare_sound : Sound bare := by
  have h : ∀ a, bare.cell a = .free ∨ (a = 100 ∧ bare.cell a = .static 0) := by
    intro a
    by_cases e : a = 100
    · right; exact ⟨e, by simp [bare, e]⟩
    · left; simp [bare, e]
  refine ⟨?_, fun _ _ => rfl, ?_, ?_⟩
  · intro a s n hc
    rcases h a with h | ⟨-, h⟩ <;> rw [h] at hc <;> cases hc
  · intro a s ho
    rcases h a with h | ⟨-, h⟩
    · simp [Mem.obj, h, Cell.serial] at ho
    · simp only [Mem.obj, h, Cell.serial, Option.some.injEq] at ho
      subst ho
      exact Nat.zero_lt_one
  · intro a b s ha hb
    rcases h a with h1 | ⟨h1, -⟩
    · simp [Mem.obj, h1, Cell.serial] at ha
    · rcases h b with h2 | ⟨h2, -⟩
      · simp [Mem.obj, h2, Cell.serial] at hb
      · rw [h1, h2]

instance (m : Mem) (o : Own) : Decidable (Fair m o) := by cases o <;> unfold Fair <;> infer_instance
instance (s : Arch) (e : AEvent) : Decidable (AFair s e) := by cases e <;> unfold AFair <;> infer_instance
instance (s : Unarch) (e : UEvent) : Decidable (UFair s e) := by
  cases e with
  | own o => unfold UFair; infer_instance
  | get i a => unfold UFair; infer_instance
  | done r => cases r <;> unfold UFair <;> infer_instance

/-- The events in turn, as long as the program is fair -/
def runA (egg : Nat → Bool) : List AEvent → Arch × List (Nat × Added) → Option (Arch × List (Nat × Added))
  | [], s => some s
  | e :: es, s => if AFair s.1 e then (astep egg s.1 e).bind fun r => runA egg es (r.1, s.2 ++ r.2) else none

theorem runA_run {egg : Nat → Bool} : ∀ (es : List AEvent) {s : Arch × List (Nat × Added)} {r : Arch × List (Nat × Added)},
    ARun egg s.1 s.2 → runA egg es s = some r → ARun egg r.1 r.2
  | [], s, r, h, e => by simp only [runA, Option.some.injEq] at e; rw [← e]; exact h
  | ev :: es, s, r, h, e => by
    simp only [runA] at e
    by_cases hf : AFair s.1 ev
    · rw [if_pos hf] at e
      cases hs : astep egg s.1 ev with
      | none => rw [hs] at e; simp at e
      | some q =>
        rw [hs] at e
        exact runA_run es (s := (q.1, s.2 ++ q.2)) (.step _ _ _ _ ev h hf hs) e
    · rw [if_neg hf] at e; cases e

/-- The events in turn, as long as the program is fair -/
def runU (kind : Nat → Kind) : List UEvent → Unarch → Option Unarch
  | [], s => some s
  | e :: es, s => if UFair s e then (ustep kind s e).bind fun r => runU kind es r.1 else none

theorem runU_later {kind : Nat → Kind} {s0 : Unarch} : ∀ (es : List UEvent) {s r : Unarch},
    ULater kind s0 s → runU kind es s = some r → ULater kind s0 r
  | [], s, r, h, e => by simp only [runU, Option.some.injEq] at e; rw [← e]; exact h
  | ev :: es, s, r, h, e => by
    simp only [runU] at e
    by_cases hf : UFair s ev
    · rw [if_pos hf] at e
      cases hs : ustep kind s ev with
      | none => rw [hs] at e; simp at e
      | some q =>
        rw [hs] at e
        exact runU_later es (.step _ _ ev q.2 h hf hs) e
    · rw [if_neg hf] at e; cases e

/-! ### Archiver -/

/-- Two objects get the same index if and only if they are the same object, also if an object was released by everybody else and
    its memory could have been used again. -/
theorem C113_index {egg : Nat → Bool} {s : Arch} {l : List (Nat × Added)} (h : ARun egg s l) {n n' i j : Nat}
    (hn : (n, Added.index i) ∈ l) (hn' : (n', Added.index j) ∈ l) : n = n' ↔ i = j := by
  have inv := arun_inv h
  obtain ⟨a, ha, hoa⟩ := inv.log n i hn
  obtain ⟨b, hb, hob⟩ := inv.log n' j hn'
  constructor
  · rintro rfl
    have : a = b := inv.mem.one a b n hoa hob
    subst this
    have h1 := (inv.table a i).2 ha
    have h2 := (inv.table a j).2 hb
    rw [h1] at h2
    cases h2
    rfl
  · rintro rfl
    rw [ha] at hb
    cases hb
    rw [hoa] at hob
    cases hob
    rfl

/-- An object is refused exactly if it cannot be archived. -/
theorem C113_archivable {egg : Nat → Bool} {s : Arch} {l : List (Nat × Added)} (h : ARun egg s l) {n : Nat} {r : Added}
    (hn : (n, r) ∈ l) : r = .error ↔ egg n = false := (arun_inv h).kinds n r hn

/-- Nothing that is done while an archiver exists uses an object that does not exist any more. -/
theorem C113_archive_safe {egg : Nat → Bool} {s : Arch} {l : List (Nat × Added)} (h : ARun egg s l) {e : AEvent} (hf : AFair s e) :
    (astep egg s e).isSome := by
  obtain ⟨s', l', h1, -⟩ := ainv_step (arun_inv h) hf
  simp [h1]

/-- An archived object exists as long as the archiver. -/
theorem C113_archive_alive {egg : Nat → Bool} {s : Arch} {l : List (Nat × Added)} (h : ARun egg s l) {n i : Nat}
    (hn : (n, Added.index i) ∈ l) : ∃ a, s.mem.obj a = some n := by
  obtain ⟨a, -, ha⟩ := (arun_inv h).log n i hn
  exact ⟨a, ha⟩

theorem count_le_one {recs : List (Option Addr)} {a : Addr} : ∀ (_ : ∀ i j : Nat, recs[i]? = some (some a) → recs[j]? = some (some a) → i = j),
    (recs.filterMap id).count a ≤ 1 := by
  induction recs with
  | nil => intro; simp
  | cons x recs ih =>
    intro h
    have htail : (recs.filterMap id).count a ≤ 1 := by
      apply ih
      intro i j h1 h2
      have := h (i + 1) (j + 1) (by simpa using h1) (by simpa using h2)
      omega
    cases x with
    | none => simpa using htail
    | some b =>
      by_cases e : b = a
      · subst e
        have : (recs.filterMap id).count b = 0 := by
          rw [List.count_eq_zero]
          intro hm
          obtain ⟨y, hy, hy'⟩ := List.mem_filterMap.1 hm
          obtain ⟨i, hi⟩ := List.getElem?_of_mem hy
          have hyb : y = some b := hy'
          rw [hyb] at hi
          have := h 0 (i + 1) (by simp) (by simpa using hi)
          omega
        simp [this]
      · simpa [List.count_cons, e] using htail

/-- The owners of an object are those in the rest of the program, and one more, the archiver, if it was archived, however often
    it was added. -/
theorem C113_archive_owners {egg : Nat → Bool} {s : Arch} {l : List (Nat × Added)} (h : ARun egg s l) {a : Addr} {n k : Nat}
    (hc : s.mem.cell a = .counted n k) :
    ((∃ i, (n, Added.index i) ∈ l) → k = s.mem.client a + 1) ∧ ((¬ ∃ i, (n, Added.index i) ∈ l) → k = s.mem.client a) := by
  have inv := arun_inv h
  have hobj : s.mem.obj a = some n := by simp [Mem.obj, hc, Cell.serial]
  have hk := (inv.mem.owners a n k hc).1
  constructor
  · rintro ⟨i, hi⟩
    obtain ⟨b, hb, hob⟩ := inv.log n i hi
    have : a = b := inv.mem.one a b n hobj hob
    subst this
    have h1 : (s.recs.filterMap id).count a ≤ 1 := count_le_one fun i j h1 h2 => by
      have e1 := (inv.table a i).2 h1
      have e2 := (inv.table a j).2 h2
      rw [e1] at e2
      cases e2
      rfl
    have h2 : 0 < (s.recs.filterMap id).count a := List.count_pos_iff.2 (mem_filterMap_of_get hb)
    omega
  · intro hno
    have : (s.recs.filterMap id).count a = 0 := by
      rw [List.count_eq_zero]
      intro hm
      obtain ⟨y, hy, hy'⟩ := List.mem_filterMap.1 hm
      obtain ⟨i, hi⟩ := List.getElem?_of_mem hy
      have hya : y = some a := hy'
      rw [hya] at hi
      obtain ⟨n', h1, h2⟩ := inv.all i a hi
      rw [hobj] at h1
      cases h1
      exact hno ⟨i, h2⟩
    omega

theorem sound_of_inv {m : Mem} (i : Inv m []) : Sound m :=
  ⟨fun a s n e => by simpa using i.owners a s n e, fun a e => by simpa using i.free a e, i.older, i.one⟩

theorem survives {m m' : Mem} {h : List Addr} (i : Inv m h) (hr : releaseAll h m = some m') :
    Sound m' ∧ m'.client = m.client ∧
      ∀ a n, m'.obj a = some n ↔ m.obj a = some n ∧ (0 < m.client a ∨ m.cell a = .static n) := by
  obtain ⟨m2, h1, h2, h3, h4, h5⟩ := inv_releaseAll h i
  rw [hr] at h1
  cases h1
  have hs := sound_of_inv h2
  refine ⟨hs, h4, fun a n => ⟨?_, ?_⟩⟩
  · intro ha
    have hnf : m'.cell a ≠ .free := by intro e; simp [Mem.obj, e, Cell.serial] at ha
    have hold := h3 a hnf
    rw [ha] at hold
    refine ⟨hold.symm, ?_⟩
    cases hc : m.cell a with
    | free => rw [Mem.obj, hc] at hold; cases hold
    | static s =>
      right
      rw [Mem.obj, hc] at hold
      cases hold
      rfl
    | counted s k =>
      left
      cases hc' : m'.cell a with
      | free => exact absurd hc' hnf
      | counted s' k' =>
        have := hs.owners a s' k' hc'
        rw [h4] at this
        omega
      | static s' =>
        -- a counted object does not become uncounted
        exfalso
        by_cases hm : a ∈ h
        · exact absurd hc' (counted_stays hr hm hc)
        · rw [h5 a hm, hc] at hc'; cases hc'
  · rintro ⟨ha, hp | hst⟩
    · have hnf : m'.cell a ≠ .free := by
        intro e
        have := hs.free a e
        rw [h4] at this
        omega
      rw [h3 a hnf]; exact ha
    · have : m'.cell a = .static n := static_stays hr hst
      simp [Mem.obj, this, Cell.serial]
where
  counted_step {m m' : Mem} {b a : Addr} (hr : release m b = some m') (h : ∀ s, m.cell a ≠ .static s) : ∀ s, m'.cell a ≠ .static s := by
    intro s
    unfold release at hr
    by_cases e : a = b
    · subst e
      cases hc : m.cell a with
      | free => rw [hc] at hr; cases hr
      | static s' => exact absurd hc (h s')
      | counted s' k =>
        rw [hc] at hr
        match k, hr with
        | 1, hr => cases hr; simp
        | k + 2, hr => cases hr; simp
    · cases hc : m.cell b with
      | free => rw [hc] at hr; cases hr
      | static s' => rw [hc] at hr; cases hr; exact h s
      | counted s' k =>
        rw [hc] at hr
        match k, hr with
        | 1, hr => cases hr; simpa [Function.update_of_ne e] using h s
        | k + 2, hr => cases hr; simpa [Function.update_of_ne e] using h s
  counted_all : ∀ {h : List Addr} {m m' : Mem} {a : Addr}, releaseAll h m = some m' → (∀ s, m.cell a ≠ .static s) → ∀ s, m'.cell a ≠ .static s
    | [], m, m', a, hr, hc => by cases hr; exact hc
    | b :: h, m, m', a, hr, hc => by
      simp only [releaseAll] at hr
      cases h1 : release m b with
      | none => rw [h1] at hr; cases hr
      | some m1 =>
        rw [h1] at hr
        exact counted_all hr (counted_step h1 hc)
  counted_stays {h : List Addr} {m m' : Mem} {a : Addr} {s k s' : Nat} (hr : releaseAll h m = some m') (_ : a ∈ h)
      (hc : m.cell a = .counted s k) : m'.cell a ≠ .static s' := counted_all hr (by rw [hc]; simp) s'
  static_stays : ∀ {h : List Addr} {m m' : Mem} {a : Addr} {s : Nat}, releaseAll h m = some m' → m.cell a = .static s → m'.cell a = .static s
    | [], m, m', a, s, hr, hc => by cases hr; exact hc
    | b :: h, m, m', a, s, hr, hc => by
      simp only [releaseAll] at hr
      cases h1 : release m b with
      | none => rw [h1] at hr; cases hr
      | some m1 =>
        rw [h1] at hr
        refine static_stays hr ?_
        unfold release at h1
        by_cases e : a = b
        · subst e; rw [hc] at h1; cases h1; exact hc
        · cases hb : m.cell b with
          | free => rw [hb] at h1; cases h1
          | static s' => rw [hb] at h1; cases h1; exact hc
          | counted s' k =>
            rw [hb] at h1
            match k, h1 with
            | 1, h1 => cases h1; simpa [Function.update_of_ne e] using hc
            | k + 2, h1 => cases h1; simpa [Function.update_of_ne e] using hc

/-- When the archiver is destroyed every count is what it would be without it; of what it archived exists what the rest of the
    program owns, or what is not counted. -/
theorem C113_archive_end {egg : Nat → Bool} {s : Arch} {l : List (Nat × Added)} (h : ARun egg s l) :
    ∃ m, finishArch s = some m ∧ Sound m ∧ m.client = s.mem.client ∧
      ∀ a n, m.obj a = some n ↔ s.mem.obj a = some n ∧ (0 < s.mem.client a ∨ s.mem.cell a = .static n) := by
  have i := (arun_inv h).mem
  obtain ⟨m, h1, -⟩ := inv_releaseAll _ i
  exact ⟨m, h1, survives i h1⟩

/-- An archiver is made, an `addToEgg` method makes an object at 7, adds it and releases it; another is made, which cannot be at
    7, and added; the constant object is added; the first is retained and added again. -/
def program : List AEvent := [.own (.new 3), .add 3, .own (.new 7), .add 7, .own (.drop 7), .own (.new 8), .add 8, .add 100, .own (.keep 7), .add 7]

example : (runA (fun _ => true) program (newArch bare false, [])).map (·.2) =
    some [(1, .index 0), (2, .index 1), (3, .index 2), (0, .index 3), (2, .index 1)] := by decide +kernel

/-- The state after that program is one the theorems speak of. -/
example : ∃ s, ARun (fun _ => true) s [(1, .index 0), (2, .index 1), (3, .index 2), (0, .index 3), (2, .index 1)] ∧
    s.mem.client 7 = 1 ∧ s.mem.cell 7 = .counted 2 2 := by
  have h : ∃ r, runA (fun _ => true) program (newArch bare false, []) = some r ∧
      r.2 = [(1, .index 0), (2, .index 1), (3, .index 2), (0, .index 3), (2, .index 1)] ∧ r.1.mem.client 7 = 1 ∧ r.1.mem.cell 7 = .counted 2 2 :=
    ⟨_, rfl, by decide +kernel, by decide +kernel, by decide +kernel⟩
  obtain ⟨r, h1, h2, h3, h4⟩ := h
  refine ⟨r.1, ?_, h3, h4⟩
  rw [← h2]
  exact runA_run program (.start bare false bare_sound) h1

/-- The memory of an archived object is not free for another one. -/
example : runA (fun _ => true) [.own (.new 7), .add 7, .own (.drop 7), .own (.new 7)] (newArch bare false, []) = none := by rfl

/-! ### Unarchiver -/

/-- With an unarchiver that reads from a stream nothing uses an object that does not exist any more. -/
theorem C113_stream_safe {kind : Nat → Kind} {s : Unarch} (h : URun kind s) (hs : s.source = none) {e : UEvent} (hf : UFair s e) :
    (ustep kind s e).isSome := by
  have i := urun_inv h
  cases e with
  | own o => obtain ⟨m', h1, -⟩ := uinv_own i hf; simp [ustep, h1]
  | get j a => obtain ⟨t, g, h1, -⟩ := uinv_get i j hf (by simp [readable, hs]); simp [ustep, h1]
  | done r => obtain ⟨t, g, h1, -⟩ := uinv_done i hf; simp [ustep, h1]

/-- With an unarchiver that reads from a data object that holds as long as the rest of the program owns that object.  (Missing: that
    the unarchiver keeps it, see C113_data_fails.) -/
theorem C113_data_partial {kind : Nat → Kind} {s : Unarch} (h : URun kind s) {d : Addr} (hs : s.source = some d)
    (hd : 0 < s.mem.client d) {e : UEvent} (hf : UFair s e) : (ustep kind s e).isSome := by
  have i := urun_inv h
  have hread : readable s = true := by
    have := i.mem.exists_of_client hd
    simp only [readable, hs]
    cases hc : s.mem.cell d with
    | free => exact absurd hc this
    | counted n k => simp [Mem.obj, hc, Cell.serial]
    | static n => simp [Mem.obj, hc, Cell.serial]
  cases e with
  | own o => obtain ⟨m', h1, -⟩ := uinv_own i hf; simp [ustep, h1]
  | get j a => obtain ⟨t, g, h1, -⟩ := uinv_get i j hf hread; simp [ustep, h1]
  | done r => obtain ⟨t, g, h1, -⟩ := uinv_done i hf; simp [ustep, h1]

/-- Once `initWithEgg` has returned an object for an index, every request for the index gives this object, which exists as long as
    the unarchiver. -/
theorem C113_same_object {kind : Nat → Kind} {s s' t : Unarch} (h : URun kind s) {r : Init} (hf : UFair s (.done r))
    {i : Nat} {b : Addr} {rest : List (Nat × Addr)} (hi : s.running = (i, b) :: rest) {a : Addr}
    (hd : ustep kind s (.done r) = some (s', .object a)) (hl : ULater kind s' t) :
    (∃ n, s'.mem.obj a = some n ∧ t.mem.obj a = some n) ∧
      ∀ x, readable t = true → getObject kind t i x = some (t, .object a) := by
  have inv := urun_inv h
  have inv' := (ustep_inv inv hf hd).1
  have hib : s.slots[i]? = some (some b) := inv.running i b (by rw [hi]; exact List.mem_cons_self)
  have hlt : i < s.slots.length := (List.getElem?_eq_some_iff.1 hib).1
  have honce := inv.once
  rw [hi] at honce
  simp only [List.map_cons, List.nodup_cons] at honce
  have hslot : s'.slots[i]? = some (some a) ∧ i ∉ s'.running.map (·.1) := by
    simp only [ustep, finishInit, hi] at hd
    cases r with
    | same =>
      simp only [Option.some.injEq, Prod.mk.injEq, Got.object.injEq] at hd
      rw [← hd.1, ← hd.2]
      exact ⟨List.getElem?_set_self hlt, honce.1⟩
    | null =>
      cases hr : release s.mem b with
      | none => rw [hr] at hd; cases hd
      | some m' => rw [hr] at hd; simp at hd
    | other c =>
      cases hr : release s.mem b with
      | none => rw [hr] at hd; cases hd
      | some m' =>
        rw [hr] at hd
        simp only [Option.map_some, Option.some.injEq, Prod.mk.injEq, Got.object.injEq] at hd
        rw [← hd.1, ← hd.2]
        exact ⟨List.getElem?_set_self hlt, honce.1⟩
  have hex : ∃ n, s'.mem.obj a = some n := by
    have := inv'.mem.exists_of_mem (mem_filterMap_of_get hslot.1)
    cases hc : s'.mem.cell a with
    | free => exact absurd hc this
    | counted n k => exact ⟨n, by simp [Mem.obj, hc, Cell.serial]⟩
    | static n => exact ⟨n, by simp [Mem.obj, hc, Cell.serial]⟩
  obtain ⟨n, hn⟩ := hex
  obtain ⟨h1, h2, h3⟩ := (ulater_inv inv' hl).2.2.2 i a n hslot.1 hslot.2 hn
  refine ⟨⟨n, hn, h3⟩, fun x hr => ?_⟩
  simp [getObject, hr, h1]

/-- A request for an index whose `initWithEgg` is running gives the object that is being initialized, which exists. -/
theorem C113_running {kind : Nat → Kind} {s : Unarch} (h : URun kind s) {i : Nat} {a : Addr} (hr : (i, a) ∈ s.running) (x : Addr)
    (hread : readable s = true) : getObject kind s i x = some (s, .object a) ∧ (s.mem.obj a).isSome := by
  have inv := urun_inv h
  have h1 := inv.running i a hr
  refine ⟨by simp [getObject, hread, h1], ?_⟩
  have := inv.mem.exists_of_mem (mem_filterMap_of_get h1)
  cases hc : s.mem.cell a with
  | free => exact absurd hc this
  | counted n k => simp [Mem.obj, hc, Cell.serial]
  | static n => simp [Mem.obj, hc, Cell.serial]

theorem count_slots (l : List (Option Addr)) (a : Addr) : (l.filterMap id).count a = l.count (some a) := by
  induction l with
  | nil => rfl
  | cons x l ih =>
    cases x with
    | none => simp [ih]
    | some b => simp [List.count_cons, ih]

/-- The owners of an object are those in the rest of the program, and the unarchiver once for each index that gives it. -/
theorem C113_unarchive_owners {kind : Nat → Kind} {s : Unarch} (h : URun kind s) {a : Addr} {n k : Nat}
    (hc : s.mem.cell a = .counted n k) : k = s.mem.client a + s.slots.count (some a) := by
  rw [← count_slots]
  exact ((urun_inv h).mem.owners a n k hc).1

/-- When the unarchiver is destroyed every count is what it would be without it; of what it made exists what the rest of the
    program owns by then, or what is not counted. -/
theorem C113_unarchive_end {kind : Nat → Kind} {s : Unarch} (h : URun kind s) :
    ∃ m, finishUnarch s = some m ∧ Sound m ∧ m.client = s.mem.client ∧
      ∀ a n, m.obj a = some n ↔ s.mem.obj a = some n ∧ (0 < s.mem.client a ∨ s.mem.cell a = .static n) := by
  have i := (urun_inv h).mem
  obtain ⟨m, h1, -⟩ := inv_releaseAll _ i
  exact ⟨m, h1, survives i h1⟩

/-- Objects 0 and 1 are of ordinary classes, 2 of a class with a placeholder, 3 of one that is not known, 4 of one without the
    interface. -/
def kinds : Nat → Kind
  | 0 | 1 => .egg
  | 2 => .placeholder 100
  | 3 => .unknown
  | _ => .plain

theorem kinds_bare : Placeholders kinds bare := by
  intro i p h
  unfold kinds at h
  split at h <;> cases h
  exact ⟨0, rfl⟩

/-- Object 0 asks for 1 and retains it; 1 asks for 0 and retains it; 0 asks for 2, which is replaced. -/
def cycle : List UEvent := [.get 0 10, .get 1 11, .get 0 12, .own (.keep 10), .done .same, .own (.keep 11), .get 2 12,
  .own (.new 12), .done (.other 12), .own (.keep 12), .get 3 13, .get 4 13, .get 9 13, .done .same]

example : (runU kinds cycle (newFromStream bare 5)).map (fun s => (s.slots, s.running, [10, 11, 12].map s.mem.cell)) =
    some ([some 10, some 11, some 12, none, none], [], [.counted 1 2, .counted 2 2, .counted 3 2]) := by decide +kernel

/-- The states of that program are ones the theorems speak of. -/
example : ∃ s, URun kinds s ∧ s.source = none ∧ s.slots = [some 10, some 11, some 12, none, none] ∧ s.mem.cell 10 = .counted 1 2 := by
  have h : ∃ r, runU kinds cycle (newFromStream bare 5) = some r ∧ r.source = none ∧
      r.slots = [some 10, some 11, some 12, none, none] ∧ r.mem.cell 10 = .counted 1 2 :=
    ⟨_, rfl, by decide +kernel, by decide +kernel, by decide +kernel⟩
  obtain ⟨r, h1, h2, h3, h4⟩ := h
  exact ⟨r, .stream bare 5 r bare_sound kinds_bare (runU_later cycle .now h1), h2, h3, h4⟩

/-- In the course of it a call for index 2 is running and returns another object, as in C113_same_object. -/
example : ∃ s s' a, URun kinds s ∧ UFair s (.done (.other 12)) ∧ s.running = [(2, 100), (0, 10)] ∧
    ustep kinds s (.done (.other 12)) = some (s', .object a) := by
  have h : ∃ r, runU kinds (cycle.take 8) (newFromStream bare 5) = some r ∧ UFair r (.done (.other 12)) ∧
      r.running = [(2, 100), (0, 10)] ∧ (ustep kinds r (.done (.other 12))).map (·.2) = some (.object 12) :=
    ⟨_, rfl, by decide +kernel, by decide +kernel, by decide +kernel⟩
  obtain ⟨r, h1, h2, h3, h4⟩ := h
  obtain ⟨q, h5, h6⟩ := Option.map_eq_some_iff.1 h4
  exact ⟨r, q.1, 12, .stream bare 5 r bare_sound kinds_bare (runU_later _ .now h1), h2, h3, by rw [h5, ← h6]⟩

/-- The memory with a data object at 5 -/
def withData : Mem := gain (alloc bare 5) 5

theorem withData_sound : Sound withData := by
  have h := inv_own (inv_of_sound bare_sound) (o := .new 5) (by show bare.cell 5 = .free; rfl)
  obtain ⟨m', h1, h2, -⟩ := h
  cases h1
  exact sound_of_inv h2

theorem kinds_withData : Placeholders kinds withData := by
  intro i p h
  unfold kinds at h
  split at h <;> cases h
  exact ⟨0, rfl⟩

example : ∃ s, URun kinds s ∧ s.source = some 5 ∧ 0 < s.mem.client 5 ∧ UFair s (.get 0 10) :=
  ⟨_, .data withData 5 2 _ withData_sound kinds_withData (by decide +kernel) .now, rfl, by decide +kernel, by decide +kernel⟩

/-- An unarchiver that reads from a data object does not keep it: after the program has released the data object, which nobody else
    owns, a request reads freed memory. -/
theorem C113_data_fails : ∃ s i x, URun kinds s ∧ UFair s (.get i x) ∧ ustep kinds s (.get i x) = none := by
  have h : ∃ r, runU kinds [.own (.drop 5)] (newFromData withData 5 2) = some r ∧ UFair r (.get 0 10) ∧
      (ustep kinds r (.get 0 10)).isNone := ⟨_, rfl, by decide +kernel, by decide +kernel⟩
  obtain ⟨r, h1, h2, h3⟩ := h
  exact ⟨r, 0, 10, .data withData 5 2 r withData_sound kinds_withData (by decide +kernel) (runU_later _ .now h1), h2, by simpa using h3⟩

/-- A request for an index whose `initWithEgg` is running may give an object that is not the one later requests give, and which does
    not exist any more when the unarchiver still does: `initWithEgg` returns another one. -/
theorem C113_replaced_fails : ∃ s t a b, URun kinds s ∧ getObject kinds s 0 12 = some (s, .object a) ∧ ULater kinds s t ∧
    getObject kinds t 0 12 = some (t, .object b) ∧ a ≠ b ∧ t.mem.obj a = none := by
  have h : ∃ r, runU kinds [.get 0 10, .own (.new 11)] (newFromStream bare 5) = some r ∧ r.slots[0]? = some (some 10) ∧ readable r = true ∧
      ∃ t, runU kinds [.done (.other 11)] r = some t ∧ t.slots[0]? = some (some 11) ∧ t.mem.obj 10 = none ∧ readable t = true :=
    ⟨_, rfl, by decide +kernel, by decide +kernel, _, rfl, by decide +kernel, by decide +kernel, by decide +kernel⟩
  obtain ⟨r, h1, h2, h3, t, h4, h5, h6, h7⟩ := h
  exact ⟨r, t, 10, 11, .stream bare 5 r bare_sound kinds_bare (runU_later _ .now h1), by simp [getObject, h2, h3],
    runU_later _ .now h4, by simp [getObject, h5, h7], by decide, h6⟩

end EggOwn
end Duck
