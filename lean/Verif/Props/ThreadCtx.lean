import Verif.Spec.ThreadCtx
/-! C94: thread contexts. -/
namespace Duck
namespace ThreadCtx

/-! ## Dictionaries -/

theorem find_filter_ne (d : List (Nat × Nat)) (k j : Nat) (h : j ≠ k) :
    (d.filter fun p => p.1 != k).find? (fun p => p.1 == j) = d.find? fun p => p.1 == j := by
  induction d with
  | nil => rfl
  | cons p d ih =>
    by_cases hk : p.1 = k
    · have hj : (p.1 == j) = false := by simpa [hk] using Ne.symm h
      rw [List.filter_cons_of_neg (by simpa using hk), ih, List.find?_cons, hj]
    · rw [List.filter_cons_of_pos (by simpa using hk), List.find?_cons, List.find?_cons, ih]

theorem lookup_insert (d : List (Nat × Nat)) (k v j : Nat) : lookup (insert d k v) j = if j = k then some v else lookup d j := by
  by_cases h : j = k
  · subst h; simp [lookup, insert]
  · have hk : (k == j) = false := by simpa using Ne.symm h
    simp only [lookup, insert, List.find?_cons, hk, find_filter_ne d k j h, if_neg h]

theorem insert_values {d : List (Nat × Nat)} {k v x : Nat} (h : x ∈ (insert d k v).map (·.2)) : x = v ∨ x ∈ d.map (·.2) := by
  simp only [insert, List.map_cons, List.mem_cons] at h
  rcases h with h | h
  · exact .inl h
  · right
    obtain ⟨p, hp, rfl⟩ := List.mem_map.mp h
    exact List.mem_map.mpr ⟨p, (List.mem_filter.mp hp).1, rfl⟩

/-! ## The contexts and the lives of the threads -/

/-- The context holds what the thread has. -/
def Holds (uses : Nat → Bool) (c : Context) (l : Life) : Prop :=
  c.thread = l.thread ∧ (∀ k, lookup (c.dict.getD []) k = l.dict k) ∧ c.low.length = l.depth ∧ c.values.any uses = false

/-- Every thread has its own context. -/
structure Rel (uses : Nat → Bool) (s : State) (w : World) : Prop where
  threads : s.threads = w.threads
  out : ∀ t, w.life t = none → s.cur t = none
  inn : ∀ t l, w.life t = some l → ∃ a c, s.cur t = some a ∧ s.ctxs[a]? = some (some c) ∧ Holds uses c l
  apart : ∀ t u a, s.cur t = some a → s.cur u = some a → t = u
  main : ∀ a, s.cur 0 = some a → a = 0

theorem here_eq {s : State} {t a : Nat} {c : Context} (h : s.cur t = some a) (hc : s.ctxs[a]? = some (some c)) : here s t = some (a, c) := by
  simp [here, load, h, hc]

theorem lt_of_get {α : Type} {l : List α} {i : Nat} {x : α} (h : l[i]? = some x) : i < l.length := (List.getElem?_eq_some_iff.mp h).1

/-- Changing a thread's own context. -/
theorem rel_store {uses : Nat → Bool} {s : State} {w : World} (hr : Rel uses s w) {t a : Nat} {c c' : Context} {l' : Life} {lg : List Event}
    (h : s.cur t = some a) (hc : s.ctxs[a]? = some (some c)) (hh : Holds uses c' l') {n : Nat} :
    Rel uses { store s a (some c') with log := lg, threads := n } { w.set t (some l') with threads := n } := by
  refine ⟨rfl, ?_, ?_, hr.apart, hr.main⟩
  · intro u hu
    simp only [World.set] at hu
    split at hu
    · cases hu
    · exact hr.out u hu
  · intro u l hu
    simp only [World.set] at hu
    split at hu
    · rename_i e
      subst e
      cases hu
      refine ⟨a, c', h, ?_, hh⟩
      simp [store, lt_of_get hc]
    · rename_i hne
      obtain ⟨b, d, h1, h2, h3⟩ := hr.inn u l hu
      have hab : a ≠ b := fun e => hne (hr.apart u t b h1 (e ▸ h))
      refine ⟨b, d, h1, ?_, h3⟩
      simp only [store]
      rw [List.getElem?_set_ne hab]
      exact h2

/-- A new context for a thread that has none. -/
theorem rel_alloc {uses : Nat → Bool} {s : State} {w : World} (hr : Rel uses s w) {t : Nat} {c : Context} {l : Life} (h0 : t ≠ 0)
    (hh : Holds uses c l) {n : Nat} :
    Rel uses { setCur (alloc s c) t (some s.ctxs.length) with threads := n } { w.set t (some l) with threads := n } := by
  have hlt : ∀ u b, s.cur u = some b → b < s.ctxs.length := by
    intro u b hb
    cases hl : w.life u with
    | none => rw [hr.out u hl] at hb; cases hb
    | some l =>
      obtain ⟨b', d, h1, h2, _⟩ := hr.inn u l hl
      rw [h1] at hb
      cases hb
      exact lt_of_get h2
  refine ⟨rfl, ?_, ?_, ?_, fun a ha => hr.main a (by simpa only [setCur, alloc, if_neg (Ne.symm h0)] using ha)⟩
  · intro u hu
    simp only [World.set] at hu
    split at hu
    · cases hu
    · rename_i hne
      simp only [setCur, if_neg hne]
      exact hr.out u hu
  · intro u l' hu
    simp only [World.set] at hu
    split at hu
    · rename_i e
      subst e
      cases hu
      refine ⟨s.ctxs.length, c, by simp [setCur], ?_, hh⟩
      simp [setCur, alloc]
    · rename_i hne
      obtain ⟨b, d, h1, h2, h3⟩ := hr.inn u l' hu
      refine ⟨b, d, by simp only [setCur, if_neg hne]; exact h1, ?_, h3⟩
      simp only [setCur, alloc]
      rw [List.getElem?_append_left (lt_of_get h2)]
      exact h2
  · intro u v b hu hv
    simp only [setCur, alloc] at hu hv
    split at hu <;> split at hv
    · omega
    · cases hu
      exact absurd (hlt v _ hv) (by omega)
    · cases hv
      exact absurd (hlt u _ hu) (by omega)
    · exact hr.apart u v b hu hv

/-- The end of a context. -/
theorem rel_end {uses : Nat → Bool} {s : State} {w : World} (hr : Rel uses s w) {t a : Nat} {lg : List Event} (h : s.cur t = some a) :
    Rel uses { store (setCur s t none) a none with log := lg } (w.set t none) := by
  refine ⟨hr.threads, ?_, ?_, ?_, fun b hb => ?_⟩
  rotate_left 3
  · simp only [store, setCur] at hb
    split at hb
    · cases hb
    · exact hr.main b hb
  · intro u hu
    simp only [store, setCur]
    split
    · rfl
    · rename_i hne
      simp only [World.set, if_neg hne] at hu
      exact hr.out u hu
  · intro u l hu
    simp only [World.set] at hu
    split at hu
    · cases hu
    · rename_i hne
      obtain ⟨b, d, h1, h2, h3⟩ := hr.inn u l hu
      have hab : a ≠ b := fun e => hne (hr.apart u t b h1 (e ▸ h))
      refine ⟨b, d, by simp only [store, setCur, if_neg hne]; exact h1, ?_, h3⟩
      simp only [store, setCur]
      rw [List.getElem?_set_ne hab]
      exact h2
  · intro u v b hu hv
    simp only [store, setCur] at hu hv
    split at hu
    · cases hu
    · split at hv
      · cases hv
      · exact hr.apart u v b hu hv

theorem finalize_eq {uses : Nat → Bool} {s : State} {t a : Nat} {c : Context} (h : c.values.any uses = false) (hl : c.low = []) :
    finalize uses s t a c = some { store s a none with
      log := s.log ++ c.thread.toList.map .threadReleased ++ c.values.map .released } := by
  simp [finalize, h, hl]

theorem set_same (w : World) {t : Nat} {l : Option Life} (h : w.life t = l) : w.set t l = w := by
  have : (fun u => if u = t then l else w.life u) = w.life := by
    funext u
    split
    · rename_i e; rw [e, h]
    · rfl
  simp only [World.set, this]

/-- One call. -/
theorem step_rel {uses : Nat → Bool} {s : State} {w w' : World} {t : Nat} {c : Call} {o : Out} (hr : Rel uses s w)
    (hs : Step w t c o w') (hf : c ≠ .free) (hu : ∀ k v, c = .put k v → uses v = false) :
    ∃ s', step uses s t c = some (s', o) ∧ Rel uses s' w' := by
  cases hs with
  | begin h0 h =>
    refine ⟨_, rfl, ?_⟩
    have := hr.threads
    simp only [begin, ← this]
    exact rel_alloc hr h0 ⟨rfl, fun _ => rfl, rfl, rfl⟩
  | attach h0 h =>
    refine ⟨_, rfl, ?_⟩
    have := rel_alloc hr (t := t) (c := Context.init) (l := ⟨none, fun _ => none, 0⟩) h0 ⟨rfl, fun _ => rfl, rfl, rfl⟩ (n := s.threads)
    have e : ({ w.set t (some ⟨none, fun _ => none, 0⟩) with threads := s.threads } : World) = w.set t (some ⟨none, fun _ => none, 0⟩) := by
      rw [hr.threads]; rfl
    rw [e] at this
    exact this
  | @finish l h hd =>
    obtain ⟨a, c, h1, h2, h3, h4, h5, h6⟩ := hr.inn t l h
    match hc : c.low with
    | [] => rw [hc] at h5; simp at h5; omega
    | m :: low =>
      have hl : low = [] := by
        rw [hc, List.length_cons] at h5
        exact List.eq_nil_of_length_eq_zero (by omega)
      subst hl
      have hp : pop s a c = some { store s a (some { c with pool := c.pool.take m, low := [] }) with
          log := s.log ++ (c.pool.drop m).map .poolReleased } := by
        simp [pop, hc]
      have hr' : Rel uses { store s a (some { c with pool := c.pool.take m, low := [] }) with
          log := s.log ++ (c.pool.drop m).map .poolReleased, threads := s.threads } { w.set t (some { l with depth := 0 }) with threads := s.threads } :=
        rel_store hr h1 h2 (c' := { c with pool := c.pool.take m, low := [] }) (l' := { l with depth := 0 }) ⟨h3, h4, rfl, h6⟩
      have hload : load { store s a (some { c with pool := c.pool.take m, low := [] }) with
          log := s.log ++ (c.pool.drop m).map .poolReleased } a = some { c with pool := c.pool.take m, low := [] } := by
        simp [load, store, lt_of_get h2]
      have hfz := finalize_eq (uses := uses) (s := setCur { store s a (some { c with pool := c.pool.take m, low := [] }) with
          log := s.log ++ (c.pool.drop m).map .poolReleased } t none) (t := t) (a := a) (c := { c with pool := c.pool.take m, low := [] })
          h6 rfl
      have hend := rel_end hr' (t := t) (a := a) (by exact h1)
        (lg := s.log ++ (c.pool.drop m).map .poolReleased ++ c.thread.toList.map .threadReleased ++ c.values.map .released)
      have e : ({ w.set t (some { l with depth := 0 }) with threads := s.threads } : World).set t none = w.set t none := by
        simp only [World.set, hr.threads]
        congr 1
        funext u
        split <;> rfl
      rw [e] at hend
      refine ⟨_, Option.map_eq_some_iff.mpr ⟨_, ?_, rfl⟩, hend⟩
      exact Option.bind_eq_some_iff.mpr ⟨_, here_eq h1 h2, Option.bind_eq_some_iff.mpr ⟨_, hp, Option.bind_eq_some_iff.mpr ⟨_, hload, hfz⟩⟩⟩
  | @detach l h hd =>
    obtain ⟨a, c, h1, h2, h3, h4, h5, h6⟩ := hr.inn t l h
    have hl : c.low = [] := List.eq_nil_of_length_eq_zero (by omega)
    refine ⟨_, ?_, rel_end hr h1 (lg := s.log ++ c.thread.toList.map .threadReleased ++ c.values.map .released)⟩
    have hload : load (setCur s t none) a = some c := by simp [load, setCur, h2]
    exact Option.bind_eq_some_iff.mpr ⟨_, h1, Option.map_eq_some_iff.mpr ⟨_, Option.bind_eq_some_iff.mpr ⟨_, hload, finalize_eq h6 hl⟩, rfl⟩⟩
  | free h hd => exact absurd rfl hf
  | exit h =>
    cases hl : w.life t with
    | none =>
      refine ⟨s, ?_, ?_⟩
      · simp [step, exit, hr.out t hl]
      · rw [set_same w hl]; exact hr
    | some l =>
      obtain ⟨a, c, h1, h2, h3, h4, h5, h6⟩ := hr.inn t l hl
      have hd := h l hl
      have hl : c.low = [] := List.eq_nil_of_length_eq_zero (by omega)
      refine ⟨_, ?_, rel_end hr h1 (lg := s.log ++ c.thread.toList.map .threadReleased ++ c.values.map .released)⟩
      have hload : load (setCur s t none) a = some c := by simp [load, setCur, h2]
      have he : exit uses s t = freeContext uses (setCur s t none) t a := by simp only [exit, h1]
      exact Option.map_eq_some_iff.mpr ⟨_, he ▸ Option.bind_eq_some_iff.mpr ⟨_, hload, finalize_eq h6 hl⟩, rfl⟩
  | @known l o h ho =>
    obtain ⟨a, c, h1, h2, h3, h4, h5, h6⟩ := hr.inn t l h
    refine ⟨s, ?_, hr⟩
    simp only [step, here_eq h1 h2, Option.map_some, current, h3, ho]
  | @main l o h ho =>
    obtain ⟨a, c, h1, h2, h3, h4, h5, h6⟩ := hr.inn 0 l h
    cases hr.main a h1
    refine ⟨s, ?_, hr⟩
    simp [step, main, load, h2, h3, ho]
  | @fresh l h ho =>
    obtain ⟨a, c, h1, h2, h3, h4, h5, h6⟩ := hr.inn t l h
    refine ⟨?_, ?_, ?_⟩
    rotate_left 2
    · simp only [← hr.threads]
      exact rel_store hr h1 h2 (c' := { c with thread := some s.threads }) (l' := { l with thread := some s.threads }) (lg := s.log) (n := s.threads + 1) ⟨rfl, h4, h5, h6⟩
    · simp only [step, here_eq h1 h2, Option.map_some, current, h3, ho, hr.threads]
      rfl
  | @put l k v h =>
    obtain ⟨a, c, h1, h2, h3, h4, h5, h6⟩ := hr.inn t l h
    refine ⟨?_, ?_, ?_⟩
    rotate_left 2
    · have hv := hu k v rfl
      have := rel_store hr h1 h2 (c' := { c with dict := some (insert (c.dict.getD []) k v) })
        (l' := { l with dict := fun j => if j = k then some v else l.dict j }) (n := s.threads)
        (lg := s.log ++ [.retained v] ++ ((c.dict.getD []).filter fun p => p.1 == k).map fun p => .released p.2)
        ⟨h3, fun j => by simp only [Option.getD_some, lookup_insert, h4], h5, by
          rw [Bool.eq_false_iff]
          intro hany
          obtain ⟨x, hx, hxu⟩ := List.any_eq_true.mp hany
          rcases insert_values hx with rfl | hx
          · rw [hv] at hxu; cases hxu
          · have := List.any_eq_true.mpr ⟨x, hx, hxu⟩
            rw [Context.values] at h6
            rw [h6] at this
            cases this⟩
      have e : ({ w.set t (some { l with dict := fun j => if j = k then some v else l.dict j }) with threads := s.threads } : World) =
          w.set t (some { l with dict := fun j => if j = k then some v else l.dict j }) := by rw [hr.threads]; rfl
      rw [e] at this
      exact this
    · simp only [step, here_eq h1 h2, Option.map_some, put]
      rfl
  | @get l k h =>
    obtain ⟨a, c, h1, h2, h3, h4, h5, h6⟩ := hr.inn t l h
    refine ⟨?_, ?_, ?_⟩
    rotate_left 2
    · have := rel_store hr h1 h2 (c' := { c with dict := some (c.dict.getD []) }) (l' := l) (n := s.threads) (lg := s.log)
        ⟨h3, h4, h5, h6⟩
      have e : ({ w.set t (some l) with threads := s.threads } : World) = w := by rw [hr.threads]; exact set_same w h
      rw [e] at this
      exact this
    · simp only [step, here_eq h1 h2, Option.map_some, h4]
      rfl
  | @autorelease l v h =>
    obtain ⟨a, c, h1, h2, h3, h4, h5, h6⟩ := hr.inn t l h
    refine ⟨?_, ?_, ?_⟩
    rotate_left 2
    · have := rel_store hr h1 h2 (c' := { c with pool := c.pool ++ [v] }) (l' := l) (n := s.threads) (lg := s.log)
        ⟨h3, h4, h5, h6⟩
      have e : ({ w.set t (some l) with threads := s.threads } : World) = w := by rw [hr.threads]; exact set_same w h
      rw [e] at this
      exact this
    · simp only [step, here_eq h1 h2, Option.map_some]
      rfl
  | @push l h =>
    obtain ⟨a, c, h1, h2, h3, h4, h5, h6⟩ := hr.inn t l h
    refine ⟨?_, ?_, ?_⟩
    rotate_left 2
    · have := rel_store hr h1 h2 (c' := c.push) (l' := { l with depth := l.depth + 1 }) (n := s.threads) (lg := s.log)
        ⟨h3, h4, by simp [Context.push, h5], h6⟩
      have e : ({ w.set t (some { l with depth := l.depth + 1 }) with threads := s.threads } : World) = w.set t (some { l with depth := l.depth + 1 }) := by
        rw [hr.threads]; rfl
      rw [e] at this
      exact this
    · simp only [step, here_eq h1 h2, Option.map_some]
      rfl
  | @pop l n h hn =>
    obtain ⟨a, c, h1, h2, h3, h4, h5, h6⟩ := hr.inn t l h
    match hc : c.low with
    | [] => rw [hc] at h5; simp at h5; omega
    | m :: low =>
      rw [hc, List.length_cons] at h5
      refine ⟨?_, ?_, ?_⟩
      rotate_left 2
      · have := rel_store hr h1 h2 (c' := { c with pool := c.pool.take m, low := low }) (l' := { l with depth := n }) (n := s.threads)
          (lg := s.log ++ (c.pool.drop m).map .poolReleased) ⟨h3, h4, by show low.length = n; omega, h6⟩
        have e : ({ w.set t (some { l with depth := n }) with threads := s.threads } : World) = w.set t (some { l with depth := n }) := by
          rw [hr.threads]; rfl
        rw [e] at this
        exact this
      · simp only [step, here_eq h1 h2, Option.bind_some, pop, hc, Option.map_some]
        rfl

theorem init_rel (uses : Nat → Bool) : Rel uses init World.init := by
  refine ⟨rfl, ?_, ?_, ?_, fun a ha => by simpa [init] using ha.symm⟩
  · intro t h
    simp only [World.init] at h
    split at h
    · cases h
    · rename_i hne; simp [init, hne]
  · intro t l h
    simp only [World.init] at h
    split at h
    · rename_i e
      subst e
      cases h
      exact ⟨0, _, rfl, rfl, rfl, fun _ => rfl, rfl, rfl⟩
    · cases h
  · intro t u a ht hu
    simp only [init] at ht hu
    split at ht <;> split at hu <;> first | omega | (cases hu; done) | (cases ht; done)

/-- C94 (partial): in every history of any number of threads, whether made by Duck or attached, no call fails and every call has
    the result it has when each thread has its own thread object, dictionary and pools.  Missing: objects in the dictionary whose
    release needs the context, and contexts freed as the header says, for which it is false. -/
theorem C94_contexts_partial (uses : Nat → Bool) (h : List (Nat × Call)) (outs : List Out) (w : World) (hr : Run World.init h outs w)
    (hf : ∀ t, (t, Call.free) ∉ h) (hu : ∀ t k v, (t, Call.put k v) ∈ h → uses v = false) :
    ∃ s, run uses init h = some (s, outs) := by
  have key : ∀ (h : List (Nat × Call)) (outs : List Out) (w w' : World) (s : State), Rel uses s w → Run w h outs w' →
      (∀ t, (t, Call.free) ∉ h) → (∀ t k v, (t, Call.put k v) ∈ h → uses v = false) → ∃ s', run uses s h = some (s', outs) := by
    intro h
    induction h with
    | nil => intro outs w w' s _ hr _ _; cases hr; exact ⟨s, rfl⟩
    | cons p h ih =>
      intro outs w w' s hs hr hf hu
      cases hr with
      | @cons _ t c o w1 _ os _ h1 h2 =>
        obtain ⟨s1, e1, r1⟩ := step_rel hs h1 (fun e => hf t (e ▸ List.mem_cons_self ..)) fun k v e => hu t k v (e ▸ List.mem_cons_self ..)
        obtain ⟨s2, e2⟩ := ih os w1 w' s1 r1 h2 (fun t hm => hf t (List.mem_cons_of_mem _ hm)) fun t k v hm => hu t k v (List.mem_cons_of_mem _ hm)
        exact ⟨s2, by simp only [run, e1, Option.bind_some, e2, Option.map_some]⟩
  exact key h outs _ w init (init_rel uses) hr hf hu

/-- Three threads with an entry of the same name each. -/
example : (run (fun _ => false) init [(1, .begin), (2, .attach), (0, .put 7 10), (1, .put 7 11), (2, .get 7), (1, .current), (2, .current),
    (0, .get 7), (1, .get 7), (2, .current), (1, .finish), (1, .exit), (0, .current), (2, .main), (2, .exit)]).map (·.2) =
    some [.unit, .unit, .unit, .unit, .value none, .thread 1, .thread 2, .value (some 10), .value (some 11), .thread 2, .unit, .unit,
      .thread 0, .thread 0, .unit] := by decide

/-- Thread objects are never given to two threads: the number of a new one is above all the earlier. -/
theorem C94_fresh {w w' : World} {h : List (Nat × Call)} {outs : List Out} (hr : Run w h outs w')
    (hi : ∀ t l o, w.life t = some l → l.thread = some o → o < w.threads)
    (ha : ∀ t u l m o, w.life t = some l → w.life u = some m → l.thread = some o → m.thread = some o → t = u) :
    (∀ t l o, w'.life t = some l → l.thread = some o → o < w'.threads) ∧
    (∀ t u l m o, w'.life t = some l → w'.life u = some m → l.thread = some o → m.thread = some o → t = u) := by
  induction hr with
  | nil => exact ⟨hi, ha⟩
  | @cons w t c o w1 h os w2 h1 _ ih =>
    apply ih
    · intro u l x hl hx
      cases h1 with
      | begin h0 h =>
        simp only [World.set] at hl
        split at hl
        · cases hl; cases hx; simp
        · have := hi u l x hl hx; simp; omega
      | attach h0 h =>
        simp only [World.set] at hl
        split at hl
        · cases hl; cases hx
        · exact hi u l x hl hx
      | known h ho => exact hi u l x hl hx
      | main h ho => exact hi u l x hl hx
      | @fresh l0 h ho =>
        simp only [World.set] at hl
        split at hl
        · cases hl; cases hx; simp
        · have := hi u l x hl hx; simp; omega
      | @put l0 k v h =>
        simp only [World.set] at hl
        split at hl
        · cases hl; exact hi t l0 x h hx
        · exact hi u l x hl hx
      | get h => exact hi u l x hl hx
      | autorelease h => exact hi u l x hl hx
      | @push l0 h =>
        simp only [World.set] at hl
        split at hl
        · cases hl; exact hi t l0 x h hx
        · exact hi u l x hl hx
      | @pop l0 n h _ =>
        simp only [World.set] at hl
        split at hl
        · cases hl; exact hi t l0 x h hx
        · exact hi u l x hl hx
      | finish h hd =>
        simp only [World.set] at hl
        split at hl
        · cases hl
        · exact hi u l x hl hx
      | detach h hd =>
        simp only [World.set] at hl
        split at hl
        · cases hl
        · exact hi u l x hl hx
      | free h hd =>
        simp only [World.set] at hl
        split at hl
        · cases hl
        · exact hi u l x hl hx
      | exit h =>
        simp only [World.set] at hl
        split at hl
        · cases hl
        · exact hi u l x hl hx
    · intro u v l m x hl hm hx hy
      have old : ∀ (f : Option Life), (∀ l', f = some l' → (∃ l0, w.life t = some l0 ∧ l0.thread = l'.thread) ∨ l'.thread = none ∨ l'.thread = some w.threads) →
          (if u = t then f else w.life u) = some l → (if v = t then f else w.life v) = some m → u = v := by
        intro f hf g1 g2
        split at g1 <;> split at g2
        · omega
        · rcases hf l g1 with ⟨l0, e1, e2⟩ | e | e
          · subst_vars
            exact ha _ _ l0 m x e1 g2 (e2 ▸ hx) hy
          · rw [hx] at e; cases e
          · rw [hx] at e; cases e
            exact absurd (hi v m _ g2 hy) (by omega)
        · rcases hf m g2 with ⟨l0, e1, e2⟩ | e | e
          · subst_vars
            exact ha _ _ l l0 x g1 e1 hx (e2 ▸ hy)
          · rw [hy] at e; cases e
          · rw [hy] at e; cases e
            exact absurd (hi u l _ g1 hx) (by omega)
        · exact ha u v l m x g1 g2 hx hy
      cases h1 with
      | begin h0 h => exact old _ (fun l' e => by cases e; exact .inr (.inr rfl)) hl hm
      | attach h0 h => exact old _ (fun l' e => by cases e; exact .inr (.inl rfl)) hl hm
      | known h ho => exact ha u v l m x hl hm hx hy
      | main h ho => exact ha u v l m x hl hm hx hy
      | fresh h ho => exact old _ (fun l' e => by cases e; exact .inr (.inr rfl)) hl hm
      | put h => exact old _ (fun l' e => by cases e; exact .inl ⟨_, h, rfl⟩) hl hm
      | get h => exact ha u v l m x hl hm hx hy
      | autorelease h => exact ha u v l m x hl hm hx hy
      | push h => exact old _ (fun l' e => by cases e; exact .inl ⟨_, h, rfl⟩) hl hm
      | pop h _ => exact old _ (fun l' e => by cases e; exact .inl ⟨_, h, rfl⟩) hl hm
      | finish h hd => exact old none (fun l' e => by cases e) hl hm
      | detach h hd => exact old none (fun l' e => by cases e) hl hm
      | free h hd => exact old none (fun l' e => by cases e) hl hm
      | exit h => exact old none (fun l' e => by cases e) hl hm

/-- In a world reached from the start, two threads never have the same thread object. -/
theorem C94_distinct {w : World} {h : List (Nat × Call)} {outs : List Out} (hr : Run World.init h outs w) (t u : Nat) (l m : Life) (o : Nat)
    (ht : w.life t = some l) (hu : w.life u = some m) (hl : l.thread = some o) (hm : m.thread = some o) : t = u := by
  refine (C94_fresh hr ?_ ?_).2 t u l m o ht hu hl hm
  · intro t l o hl ho
    simp only [World.init] at hl
    split at hl
    · cases hl; cases ho; exact Nat.one_pos
    · cases hl
  · intro t u l m o hl hm ho hp
    simp only [World.init] at hl hm
    split at hl <;> split at hm <;> first | omega | (cases hm; done) | (cases hl; done)

/-- The property is false of contexts freed as the header says ("free the DKThreadContext once it is no longer in use"): at the end
    of the thread the destructor of the key frees the context again.  The history is in the specification, and crashes. -/
theorem C94_documented_fails (uses : Nat → Bool) :
    (∃ w, Run World.init [(1, .attach), (1, .free), (1, .exit)] [.unit, .unit, .unit] w) ∧
    run uses init [(1, .attach), (1, .free), (1, .exit)] = none := by
  refine ⟨⟨_, .cons (.attach (by decide) (by simp [World.init])) (.cons (.free (l := ⟨none, fun _ => none, 0⟩) (by simp [World.set]) rfl)
    (.cons (.exit (by simp [World.set])) .nil))⟩, ?_⟩
  simp [run, step, setCur, alloc, init, freeContext, load, finalize, Context.init, Context.values, store, exit]

/-- The property is false for objects in the dictionary whose release needs the context, such as one with a finalizer that
    autoreleases: the end of the thread crashes, for every such object. -/
theorem C94_finalizer_fails (uses : Nat → Bool) (k v : Nat) (hv : uses v = true) :
    (∃ w, Run World.init [(1, .begin), (1, .put k v), (1, .finish)] [.unit, .unit, .unit] w) ∧
    run uses init [(1, .begin), (1, .put k v), (1, .finish)] = none := by
  refine ⟨⟨_, .cons (.begin (by decide) (by simp [World.init])) (.cons (.put (l := ⟨some 1, fun _ => none, 1⟩) (by simp [World.set]; rfl))
    (.cons (.finish (l := ⟨some 1, fun j => if j = k then some v else none, 1⟩) (by simp [World.set]) rfl) .nil))⟩, ?_⟩
  simp [run, step, setCur, alloc, init, begin, put, here, load, store, Context.init, Context.push, insert, finish, pop, finalize,
    Context.values, hv]

/-- Objects autoreleased by a thread that has pushed no pool are never released, not even when the thread ends. -/
theorem C94_pool_fails (uses : Nat → Bool) (v : Nat) :
    ∃ s, run uses init [(1, .attach), (1, .autorelease v), (1, .exit)] = some (s, [.unit, .unit, .unit]) ∧ s.log = [] := by
  simp [run, step, setCur, alloc, init, here, load, store, Context.init, exit, freeContext, finalize, Context.values]

/-- Every pool must be popped: a thread that ends with one that is not aborts the program. -/
theorem C94_open_pool (uses : Nat → Bool) (s : State) (t a : Nat) (c : Context) (hl : s.ctxs[a]? = some (some c)) (hc : s.cur t = some a)
    (hp : c.low ≠ []) : step uses s t .exit = none ∧ step uses s t .detach = none ∧ step uses s t .free = none := by
  have h1 : ∀ s' : State, s'.ctxs = s.ctxs → freeContext uses s' t a = none := by
    intro s' he
    simp only [freeContext, load, he, hl, Option.join_some, Option.bind_some, finalize, if_neg hp, ite_self]
  refine ⟨?_, ?_, ?_⟩
  · simp [step, exit, hc, h1 (setCur s t none) rfl]
  · simp [step, hc, h1 (setCur s t none) rfl]
  · simp [step, hc, h1 s rfl]

example : run (fun _ => false) init [(1, .begin), (1, .push), (1, .finish)] = none ∧
    (run (fun _ => false) init [(1, .begin), (1, .push), (1, .pop), (1, .finish)]).isSome := by decide

/-- In a pool they are. -/
example : (run (fun _ => false) init [(1, .begin), (1, .autorelease 5), (1, .finish)]).map (·.1.log) =
    some [.poolReleased 5, .threadReleased 1] := by decide

/-! ## References -/

/-- The references a context's dictionary holds to an object. -/
def refs (v : Nat) : Option Context → Nat
  | some c => c.values.count v
  | none => 0

/-- The references the dictionaries hold to an object. -/
def held (s : State) (v : Nat) : Nat := (s.ctxs.map (refs v)).sum

theorem sum_set {α : Type} (f : α → Nat) : ∀ (l : List α) (a : Nat) (x y : α), l[a]? = some y →
    ((l.set a x).map f).sum + f y = (l.map f).sum + f x := by
  intro l
  induction l with
  | nil => intro a x y h; simp at h
  | cons z l ih =>
    intro a x y h
    cases a with
    | zero => simp only [List.getElem?_cons_zero, Option.some.injEq] at h; subst h; simp; omega
    | succ a =>
      simp only [List.getElem?_cons_succ] at h
      have := ih a x y h
      simp only [List.set_cons_succ, List.map_cons, List.sum_cons]
      omega

theorem load_get {s : State} {a : Nat} {c : Context} (h : load s a = some c) : s.ctxs[a]? = some (some c) := by
  simp only [load] at h
  cases hx : s.ctxs[a]? with
  | none => rw [hx] at h; cases h
  | some o => rw [hx] at h; cases o with
    | none => cases h
    | some c' => simp at h; rw [h]

theorem held_store {s : State} {a : Nat} {c : Context} (h : load s a = some c) (x : Option Context) (v : Nat) :
    held (store s a x) v + c.values.count v = held s v + refs v x := by
  exact sum_set (refs v) s.ctxs a x (some c) (load_get h)

theorem here_load {s : State} {t : Nat} {r : Nat × Context} (h : here s t = some r) : load s r.1 = some r.2 := by
  simp only [here] at h
  cases hc : s.cur t with
  | none => rw [hc] at h; cases h
  | some a =>
    rw [hc] at h
    simp only [Option.bind_some, Option.map_eq_some_iff] at h
    obtain ⟨c, h1, h2⟩ := h
    rw [← h2]
    exact h1

/-- The references taken are those given back and those still held. -/
def Balanced (v : Nat) (s : State) : Prop := s.log.count (.retained v) = s.log.count (.released v) + held s v

theorem count_map_released (l : List Nat) (v : Nat) : (l.map Event.released).count (.released v) = l.count v := by
  induction l with
  | nil => rfl
  | cons x l ih =>
    rw [List.map_cons, List.count_cons, List.count_cons, ih]
    by_cases h : x = v <;> simp [h]

theorem count_map_zero {α : Type} (f : α → Event) (e : Event) (h : ∀ x, f x ≠ e) (l : List α) : (l.map f).count e = 0 := by
  rw [List.count_eq_zero]
  intro hm
  obtain ⟨x, _, hx⟩ := List.mem_map.mp hm
  exact h x hx

theorem insert_count (d : List (Nat × Nat)) (k x v : Nat) :
    ((insert d k x).map (·.2)).count v + ((d.filter fun p => p.1 == k).map (·.2)).count v = [x].count v + (d.map (·.2)).count v := by
  have : ∀ d : List (Nat × Nat), ((d.filter fun p => p.1 != k).map (·.2)).count v + ((d.filter fun p => p.1 == k).map (·.2)).count v =
      (d.map (·.2)).count v := by
    intro d
    induction d with
    | nil => rfl
    | cons p d ih =>
      by_cases h : p.1 = k
      · rw [List.filter_cons_of_neg (by simpa using h), List.filter_cons_of_pos (by simpa using h)]
        simp only [List.map_cons, List.count_cons]
        omega
      · rw [List.filter_cons_of_pos (by simpa using h), List.filter_cons_of_neg (by simpa using h)]
        simp only [List.map_cons, List.count_cons]
        omega
  have := this d
  simp only [insert, List.map_cons, List.count_cons, List.count_nil]
  omega

theorem finalize_balanced {uses : Nat → Bool} {s s' : State} {t a v : Nat} {c : Context} (hb : Balanced v s) (hl : load s a = some c)
    (h : finalize uses s t a c = some s') : Balanced v s' := by
  simp only [finalize] at h
  split at h
  · cases h
  · split at h
    · cases h
      have := held_store hl none v
      simp only [refs] at this
      have he : held { store s a none with log := s.log ++ c.thread.toList.map .threadReleased ++ c.values.map .released } v =
        held (store s a none) v := rfl
      simp only [Balanced] at hb ⊢
      rw [he]
      simp only [List.count_append, count_map_released]
      rw [count_map_zero _ _ (by simp), count_map_zero _ _ (by simp), count_map_zero _ _ (by simp)]
      omega
    · cases h

theorem pop_balanced {s s' : State} {a v : Nat} {c : Context} (hb : Balanced v s) (hl : load s a = some c) (h : pop s a c = some s') :
    Balanced v s' := by
  simp only [pop] at h
  split at h
  · cases h
  · rename_i m low hc
    cases h
    have := held_store hl (some { c with pool := c.pool.take m, low := low }) v
    simp only [refs, Context.values] at this
    have he : held { store s a (some { c with pool := c.pool.take m, low := low }) with log := s.log ++ (c.pool.drop m).map .poolReleased } v =
      held (store s a (some { c with pool := c.pool.take m, low := low })) v := rfl
    simp only [Balanced] at hb ⊢
    rw [he]
    simp only [List.count_append]
    rw [count_map_zero _ _ (by simp), count_map_zero _ _ (by simp)]
    omega

theorem store_balanced {s : State} {a v : Nat} {c c' : Context} (hb : Balanced v s) (hl : load s a = some c) (hd : c'.values = c.values) :
    Balanced v (store s a (some c')) := by
  have := held_store hl (some c') v
  simp only [refs, hd] at this
  simp only [Balanced] at hb ⊢
  simp only [store] at this ⊢
  omega

theorem alloc_balanced {s : State} {v : Nat} {c : Context} (hb : Balanced v s) (hc : c.values = []) : Balanced v (alloc s c) := by
  simp only [Balanced, alloc, held] at hb ⊢
  simp only [List.map_append, List.sum_append, List.map_cons, List.map_nil, List.sum_cons, List.sum_nil, refs, hc, List.count_nil]
  omega

theorem free_balanced {uses : Nat → Bool} {s s' : State} {t a v : Nat} (hb : Balanced v s) (h : freeContext uses s t a = some s') :
    Balanced v s' := by
  simp only [freeContext, Option.bind_eq_some_iff] at h
  obtain ⟨c, h1, h2⟩ := h
  exact finalize_balanced hb h1 h2

theorem step_balanced {uses : Nat → Bool} {s s' : State} {t v : Nat} {c : Call} {o : Out} (hb : Balanced v s)
    (h : step uses s t c = some (s', o)) : Balanced v s' := by
  cases c with
  | begin =>
    simp only [step, Option.some.injEq, Prod.mk.injEq] at h
    rw [← h.1]
    exact alloc_balanced (c := { Context.init.push with thread := some s.threads }) hb rfl
  | attach =>
    simp only [step, Option.some.injEq, Prod.mk.injEq] at h
    rw [← h.1]
    exact alloc_balanced (c := Context.init) hb rfl
  | finish =>
    simp only [step, finish, Option.map_eq_some_iff, Option.bind_eq_some_iff, Prod.mk.injEq] at h
    obtain ⟨x, ⟨r, h1, s1, h2, c, h3, h4⟩, rfl, _⟩ := h
    have hb1 := pop_balanced hb (here_load h1) h2
    exact finalize_balanced (s := setCur s1 t none) hb1 h3 h4
  | detach =>
    simp only [step, Option.map_eq_some_iff, Option.bind_eq_some_iff, Prod.mk.injEq] at h
    obtain ⟨a, _, x, h1, rfl, _⟩ := h
    exact free_balanced (s := setCur s t none) hb h1
  | free =>
    simp only [step, Option.map_eq_some_iff, Option.bind_eq_some_iff, Prod.mk.injEq] at h
    obtain ⟨a, _, x, h1, rfl, _⟩ := h
    exact free_balanced hb h1
  | exit =>
    simp only [step, exit, Option.map_eq_some_iff, Prod.mk.injEq] at h
    obtain ⟨x, h1, rfl, _⟩ := h
    split at h1
    · cases h1; exact hb
    · exact free_balanced (s := setCur s t none) hb h1
  | current =>
    simp only [step, Option.map_eq_some_iff, Prod.mk.injEq] at h
    obtain ⟨r, h1, rfl, _⟩ := h
    simp only [current]
    split
    · exact hb
    · exact store_balanced (c' := { r.2 with thread := some s.threads }) hb (here_load h1) rfl
  | main =>
    simp only [step, Option.map_eq_some_iff, Prod.mk.injEq] at h
    obtain ⟨o, _, rfl, _⟩ := h
    exact hb
  | put k x =>
    simp only [step, Option.map_eq_some_iff, Prod.mk.injEq] at h
    obtain ⟨r, h1, rfl, _⟩ := h
    have hs := held_store (here_load h1) (some { r.2 with dict := some (insert (r.2.dict.getD []) k x) }) v
    have hi := insert_count (r.2.dict.getD []) k x v
    simp only [refs, Context.values, Option.getD_some] at hs
    simp only [Balanced] at hb
    have he : held (put s r.1 r.2 k x) v = held (store s r.1 (some { r.2 with dict := some (insert (r.2.dict.getD []) k x) })) v := rfl
    have hm : ((r.2.dict.getD []).filter fun p => p.1 == k).map (fun p => Event.released p.2) =
        (((r.2.dict.getD []).filter fun p => p.1 == k).map (·.2)).map .released := by rw [List.map_map]; rfl
    have h1x : [Event.retained x].count (.retained v) = [x].count v := by by_cases e : x = v <;> simp [e]
    have h2x : [Event.retained x].count (.released v) = 0 := by simp
    simp only [Balanced, he]
    simp only [put, List.count_append, hm, count_map_released, h1x, h2x]
    rw [count_map_zero _ (Event.retained v) (by simp)]
    omega
  | get k =>
    simp only [step, Option.map_eq_some_iff, Prod.mk.injEq] at h
    obtain ⟨r, h1, rfl, _⟩ := h
    exact store_balanced hb (here_load h1) rfl
  | autorelease x =>
    simp only [step, Option.map_eq_some_iff, Prod.mk.injEq] at h
    obtain ⟨r, h1, rfl, _⟩ := h
    exact store_balanced hb (here_load h1) rfl
  | push =>
    simp only [step, Option.map_eq_some_iff, Prod.mk.injEq] at h
    obtain ⟨r, h1, rfl, _⟩ := h
    exact store_balanced hb (here_load h1) rfl
  | pop =>
    simp only [step, Option.map_eq_some_iff, Option.bind_eq_some_iff, Prod.mk.injEq] at h
    obtain ⟨r, h1, x, h2, rfl, _⟩ := h
    exact pop_balanced hb (here_load h1) h2

/-- In every history, whatever it does, every reference the dictionaries of the threads take is given back once when the object is
    replaced or the thread ends, or is still held by the dictionary of a thread that has not ended. -/
theorem C94_references (uses : Nat → Bool) (h : List (Nat × Call)) (s : State) (outs : List Out) (hr : run uses init h = some (s, outs)) (v : Nat) :
    s.log.count (.retained v) =
      s.log.count (.released v) + (s.ctxs.map fun c => match c with | some c => c.values.count v | none => 0).sum := by
  have key : ∀ (h : List (Nat × Call)) (s0 s : State) (outs : List Out), Balanced v s0 → run uses s0 h = some (s, outs) → Balanced v s := by
    intro h
    induction h with
    | nil => intro s0 s outs hb hr; cases hr; exact hb
    | cons p h ih =>
      intro s0 s outs hb hr
      simp only [run, Option.bind_eq_some_iff, Option.map_eq_some_iff, Prod.mk.injEq] at hr
      obtain ⟨⟨s1, o⟩, h1, ⟨s2, os⟩, h2, rfl, _⟩ := hr
      exact ih s1 s2 os (step_balanced hb h1) h2
  have hb := key h init s outs (by simp [Balanced, init, held, refs, Context.values, Context.init]) hr
  have he : (fun c : Option Context => match c with | some c => c.values.count v | none => 0) = refs v := by
    funext c; cases c <;> rfl
  rw [he]
  exact hb

example : (run (fun _ => false) init [(1, .begin), (1, .put 7 5), (1, .put 7 6), (0, .put 7 6), (1, .finish)]).map (·.1.log) =
    some [.retained 5, .retained 6, .released 5, .retained 6, .threadReleased 1, .released 6] := by decide

end ThreadCtx
end Duck
