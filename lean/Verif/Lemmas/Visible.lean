import Verif.Model.Visible
/-! Lemmas for Props/Visible.lean. -/
namespace Duck
namespace Visible

/-- The lock is held. -/
def Crit : Pc → Prop
  | .retest | .create | .fill _ _ | .store _ | .unlock => True
  | _ => False

/-- The object is being created. -/
def Build : Pc → Prop
  | .fill _ _ | .store _ => True
  | _ => False

structure Inv (n : Nat) (s : State) : Prop where
  locks : ∀ (i : Nat) c, s.callers[i]? = some c → Crit c.pc → s.lock = some i
  buf : ∀ (i : Nat) c, s.callers[i]? = some c → c.buf ≠ [] → Build c.pc ∨ c.pc = .unlock
  fill : ∀ (i : Nat) c, s.callers[i]? = some c → ∀ o k, c.pc = .fill o k → o = 0 ∧ ∀ j, j < k → j < n → readField s c 0 j = true
  store : ∀ (i : Nat) c, s.callers[i]? = some c → ∀ o, c.pc = .store o → o = 0 ∧ ∀ j, j < n → readField s c 0 j = true
  unlock : ∀ (i : Nat) c, s.callers[i]? = some c → c.pc = .unlock → (∀ j, j < n → readField s c 0 j = true) ∧ (s.shared = some 0 ∨ .pointer 0 ∈ c.buf)
  creating : ∀ (i : Nat) c, s.callers[i]? = some c → c.pc = .create → s.allocated = 0
  building : ∀ (i : Nat) c, s.callers[i]? = some c → Build c.pc → s.allocated = 1 ∧ s.shared = none ∧ ∀ o, .pointer o ∉ c.buf
  own : ∀ (i : Nat) c, s.callers[i]? = some c → ∀ o, .pointer o ∈ c.buf → o = 0
  after : ∀ (i : Nat) c, s.callers[i]? = some c → ∀ r, (c.pc = .read ∨ c.pc = .done r) → s.shared = some 0
  done : ∀ (i : Nat) c, s.callers[i]? = some c → ∀ r, c.pc = .done r → r = some 0
  shared : ∀ o, s.shared = some o → o = 0
  seen : s.shared = some 0 → (∀ j, j < n → s.field 0 j = true) ∨ ∃ (i : Nat) (c : Caller), s.callers[i]? = some c ∧ c.pc = .unlock
  pointer_made : s.shared.isSome → 1 ≤ s.allocated
  own_made : ∀ (i : Nat) c, s.callers[i]? = some c → c.pc = .unlock → 1 ≤ s.allocated
  once : s.allocated ≤ 1
  made : s.allocated = 0 ∨ s.shared = some 0 ∨ ∃ (i : Nat) (c : Caller), s.callers[i]? = some c ∧ (Build c.pc ∨ c.pc = .unlock)

/-- With writes in order. -/
structure InvO (n : Nat) (s : State) : Prop where
  last : ∀ (i : Nat) c, s.callers[i]? = some c → c.buf.Pairwise fun w _ => ∀ o, w ≠ .pointer o
  seen : s.shared = some 0 → ∀ j, j < n → s.field 0 j = true

theorem get_set {l : List Caller} {i j : Nat} {c d : Caller} (h : (l.set i c)[j]? = some d) : (j = i ∧ d = c) ∨ (j ≠ i ∧ l[j]? = some d) := by
  rw [List.getElem?_set] at h
  by_cases e : i = j
  · subst e
    rw [if_pos rfl] at h
    split at h
    · cases h; exact .inl ⟨rfl, rfl⟩
    · cases h
  · rw [if_neg e] at h; exact .inr ⟨Ne.symm e, h⟩

theorem set_self {l : List Caller} {i : Nat} {c : Caller} {d : Caller} (h : l[i]? = some d) : (l.set i c)[i]? = some c := by
  rw [List.getElem?_set, if_pos rfl, if_pos]
  rcases Nat.lt_or_ge i l.length with h' | h'
  · exact h'
  · rw [List.getElem?_eq_none h'] at h; cases h

theorem set_ne {l : List Caller} {i j : Nat} {c : Caller} (h : j ≠ i) : (l.set i c)[j]? = l[j]? := by
  rw [List.getElem?_set, if_neg (Ne.symm h)]

theorem inv_init (n : Nat) : Inv n init := by
  constructor <;> try (intro i c h; simp [init] at h)
  · intro o h; cases h
  · intro h; cases h
  · intro h; cases h
  · exact Nat.zero_le _
  · exact .inl rfl

theorem build_crit {p : Pc} (h : Build p) : Crit p := by cases p <;> first | trivial | exact h

section
variable {n : Nat} {s : State} {i : Nat} {c c' : Caller}

theorem inv_put (h : Inv n s) (hc : s.callers[i]? = some c) (lk : Option Nat) (al : Nat)
    (olocks : ∀ (j : Nat) d, j ≠ i → s.callers[j]? = some d → Crit d.pc → lk = some j)
    (ocreating : ∀ (j : Nat) d, j ≠ i → s.callers[j]? = some d → d.pc = .create → al = 0)
    (obuilding : ∀ (j : Nat) d, j ≠ i → s.callers[j]? = some d → Build d.pc → al = 1)
    (locks : Crit c'.pc → lk = some i)
    (buf : c'.buf ≠ [] → Build c'.pc ∨ c'.pc = .unlock)
    (fill : ∀ o k, c'.pc = .fill o k → o = 0 ∧ ∀ j, j < k → j < n → readField s c' 0 j = true)
    (store : ∀ o, c'.pc = .store o → o = 0 ∧ ∀ j, j < n → readField s c' 0 j = true)
    (unlock : c'.pc = .unlock → (∀ j, j < n → readField s c' 0 j = true) ∧ (s.shared = some 0 ∨ .pointer 0 ∈ c'.buf))
    (creating : c'.pc = .create → al = 0)
    (building : Build c'.pc → al = 1 ∧ s.shared = none ∧ ∀ o, .pointer o ∉ c'.buf)
    (own : ∀ o, .pointer o ∈ c'.buf → o = 0)
    (after : ∀ r, (c'.pc = .read ∨ c'.pc = .done r) → s.shared = some 0)
    (done : ∀ r, c'.pc = .done r → r = some 0)
    (seen : c.pc = .unlock → c'.pc = .unlock ∨ ∀ j, j < n → s.field 0 j = true)
    (once : al ≤ 1) (more : s.allocated ≤ al) (umade : c'.pc = .unlock → 1 ≤ al)
    (made : al = 0 ∨ s.shared = some 0 ∨ (Build c'.pc ∨ c'.pc = .unlock) ∨ (al = s.allocated ∧ ¬ (Build c.pc ∨ c.pc = .unlock))) :
    Inv n (put { s with lock := lk, allocated := al } i c') := by
  constructor
  · intro j d hd hcr
    rcases get_set hd with ⟨rfl, rfl⟩ | ⟨hj, hd⟩
    · exact locks hcr
    · exact olocks j d hj hd hcr
  · intro j d hd
    rcases get_set hd with ⟨rfl, rfl⟩ | ⟨hj, hd⟩
    · exact buf
    · exact h.buf j d hd
  · intro j d hd
    rcases get_set hd with ⟨rfl, rfl⟩ | ⟨hj, hd⟩
    · exact fill
    · exact h.fill j d hd
  · intro j d hd
    rcases get_set hd with ⟨rfl, rfl⟩ | ⟨hj, hd⟩
    · exact store
    · exact h.store j d hd
  · intro j d hd
    rcases get_set hd with ⟨rfl, rfl⟩ | ⟨hj, hd⟩
    · exact unlock
    · exact h.unlock j d hd
  · intro j d hd
    rcases get_set hd with ⟨rfl, rfl⟩ | ⟨hj, hd⟩
    · exact creating
    · exact ocreating j d hj hd
  · intro j d hd hb
    rcases get_set hd with ⟨rfl, rfl⟩ | ⟨hj, hd⟩
    · exact building hb
    · exact ⟨obuilding j d hj hd hb, (h.building j d hd hb).2⟩
  · intro j d hd
    rcases get_set hd with ⟨rfl, rfl⟩ | ⟨hj, hd⟩
    · exact own
    · exact h.own j d hd
  · intro j d hd
    rcases get_set hd with ⟨rfl, rfl⟩ | ⟨hj, hd⟩
    · exact after
    · exact h.after j d hd
  · intro j d hd
    rcases get_set hd with ⟨rfl, rfl⟩ | ⟨hj, hd⟩
    · exact done
    · exact h.done j d hd
  · exact h.shared
  · intro hs
    rcases h.seen hs with hf | ⟨j, d, hd, hp⟩
    · exact .inl hf
    · by_cases e : j = i
      · subst e
        rw [hc] at hd
        cases hd
        rcases seen hp with h1 | h1
        · exact .inr ⟨j, c', set_self hc, h1⟩
        · exact .inl h1
      · exact .inr ⟨j, d, (set_ne e).trans hd, hp⟩
  · exact fun hs => Nat.le_trans (h.pointer_made hs) more
  · intro j d hd hp
    rcases get_set hd with ⟨rfl, rfl⟩ | ⟨hj, hd⟩
    · exact umade hp
    · exact Nat.le_trans (h.own_made j d hd hp) more
  · exact once
  · rcases made with h1 | h1 | h1 | ⟨h1, h2⟩
    · exact .inl h1
    · exact .inr (.inl h1)
    · exact .inr (.inr ⟨i, c', set_self hc, h1⟩)
    · rcases h.made with h3 | h3 | ⟨j, d, hd, hp⟩
      · exact .inl (h1.trans h3)
      · exact .inr (.inl h3)
      · by_cases e : j = i
        · subst e
          rw [hc] at hd
          cases hd
          exact absurd hp h2
        · exact .inr (.inr ⟨j, d, (set_ne e).trans hd, hp⟩)

theorem own_nil (s : State) (p : Pc) : readPointer s ⟨p, []⟩ = s.shared := by simp [readPointer, ownPointer]

theorem inv_step {s' : State} (h : Inv n s) (hc : s.callers[i]? = some c) (hs : step n s i c = some s') : Inv n s' := by
  have olocks : ∀ (j : Nat) d, j ≠ i → s.callers[j]? = some d → Crit d.pc → s.lock = some j := fun j d _ hd => h.locks j d hd
  have ocreating : ∀ (j : Nat) d, j ≠ i → s.callers[j]? = some d → d.pc = .create → s.allocated = 0 := fun j d _ hd => h.creating j d hd
  have obuilding : ∀ (j : Nat) d, j ≠ i → s.callers[j]? = some d → Build d.pc → s.allocated = 1 := fun j d _ hd hb => (h.building j d hd hb).1
  have hbuf := h.buf i c hc
  have hlocks := h.locks i c hc
  have hfill := h.fill i c hc
  have hstore := h.store i c hc
  have hunlock := h.unlock i c hc
  have hcreating := h.creating i c hc
  have hbuilding := h.building i c hc
  have hown := h.own i c hc
  have hafter := h.after i c hc
  have alone : Crit c.pc → ∀ (j : Nat) d, j ≠ i → s.callers[j]? = some d → ¬ Crit d.pc := by
    intro hcr j d hj hd hd'
    have := h.locks j d hd hd'
    rw [hlocks hcr] at this
    exact hj (Option.some.inj this).symm
  obtain ⟨pc, buf⟩ := c
  have empty : ¬ (Build pc ∨ pc = .unlock) → buf = [] := fun hn => by
    cases hb : buf with
    | nil => rfl
    | cons w ws => exact absurd (hbuf (by rw [hb]; exact fun e => nomatch e)) hn
  cases pc with
  | test =>
    cases empty (by rintro (h | h); exact h.elim; cases h)
    simp only [step, own_nil] at hs
    cases hs
    refine inv_put h hc s.lock s.allocated olocks ocreating obuilding ?_ (fun hb => absurd rfl hb) ?_ ?_ ?_ ?_ ?_ (fun o ho => nomatch ho) ?_ ?_ (fun hp => nomatch hp) h.once (Nat.le_refl _) ?_ (.inr (.inr (.inr ⟨rfl, fun hp => by rcases hp with h | h; exact h.elim; cases h⟩)))
    · intro hp; dsimp only at hp; split at hp <;> exact hp.elim
    · intro o k hp; dsimp only at hp; split at hp <;> cases hp
    · intro o hp; dsimp only at hp; split at hp <;> cases hp
    · intro hp; dsimp only at hp; split at hp <;> cases hp
    · intro hp; dsimp only at hp; split at hp <;> cases hp
    · intro hp; dsimp only at hp; split at hp <;> exact hp.elim
    · intro r hp
      dsimp only at hp
      split at hp
      · rename_i hne
        cases e : s.shared with
        | none => exact absurd e hne
        | some o => rw [h.shared o e]
      · rcases hp with hp | hp <;> cases hp
    · intro r hp; dsimp only at hp; split at hp <;> cases hp
    · intro hp; dsimp only at hp; split at hp <;> cases hp
  | lock =>
    cases empty (by rintro (h | h); exact h.elim; cases h)
    simp only [step] at hs
    split at hs
    · rename_i hl
      cases hs
      have none' : ∀ (j : Nat) d, s.callers[j]? = some d → ¬ Crit d.pc := fun j d hd hcr => by have := h.locks j d hd hcr; rw [hl.2] at this; cases this
      refine inv_put h hc (some i) s.allocated (fun j d _ hd hcr => absurd hcr (none' j d hd)) ocreating obuilding (fun _ => rfl) (fun hb => absurd rfl hb) (fun _ _ hp => nomatch hp) (fun _ hp => nomatch hp) (fun hp => nomatch hp) (fun hp => nomatch hp)
        (fun hp => hp.elim) (fun o ho => nomatch ho) (fun r hp => by rcases hp with hp | hp <;> cases hp) (fun r hp => nomatch hp) (fun hp => nomatch hp) h.once (Nat.le_refl _) (fun hp => nomatch hp) (.inr (.inr (.inr ⟨rfl, fun hp => by rcases hp with h | h; exact h.elim; cases h⟩)))
    · cases hs
  | retest =>
    cases empty (by rintro (h | h); exact h.elim; cases h)
    simp only [step, own_nil] at hs
    cases hs
    by_cases hsh : s.shared = none
    · have hal : s.allocated = 0 := by
        rcases h.made with h1 | h1 | ⟨j, d, hd, hp⟩
        · exact h1
        · rw [hsh] at h1; cases h1
        · by_cases e : j = i
          · subst e
            rw [hc] at hd; cases hd
            rcases hp with hp | hp
            · exact hp.elim
            · cases hp
          · refine absurd ?_ (alone trivial j d e hd)
            rcases hp with hp | hp
            · exact build_crit hp
            · rw [hp]; trivial
      rw [if_pos hsh]
      exact inv_put h hc s.lock s.allocated olocks ocreating obuilding (fun _ => hlocks trivial) (fun hb => absurd rfl hb) (fun _ _ hp => nomatch hp) (fun _ hp => nomatch hp) (fun hp => nomatch hp) (fun _ => hal)
        (fun hp => hp.elim) (fun o ho => nomatch ho) (fun r hp => by rcases hp with hp | hp <;> cases hp) (fun r hp => nomatch hp) (fun hp => nomatch hp) h.once (Nat.le_refl _) (fun hp => nomatch hp) (.inl hal)
    · have hs0 : s.shared = some 0 := by
        cases e : s.shared with
        | none => exact absurd e hsh
        | some o => rw [h.shared o e]
      have hf : ∀ j, j < n → s.field 0 j = true := by
        rcases h.seen hs0 with h1 | ⟨j, d, hd, hp⟩
        · exact h1
        · by_cases e : j = i
          · subst e
            rw [hc] at hd; cases hd; cases hp
          · refine absurd ?_ (alone trivial j d e hd)
            rw [hp]; trivial
      rw [if_neg hsh]
      exact inv_put h hc s.lock s.allocated olocks ocreating obuilding (fun _ => hlocks trivial) (fun hb => absurd rfl hb) (fun _ _ hp => nomatch hp) (fun _ hp => nomatch hp)
        (fun _ => ⟨fun j hj => by simp only [readField, hf j hj, Bool.or_true], .inl hs0⟩) (fun hp => nomatch hp)
        (fun hp => hp.elim) (fun o ho => nomatch ho) (fun r hp => by rcases hp with hp | hp <;> cases hp) (fun r hp => nomatch hp) (fun hp => nomatch hp) h.once (Nat.le_refl _) (fun _ => h.pointer_made (by rw [hs0]; rfl)) (.inr (.inl hs0))
  | create =>
    cases empty (by rintro (h | h); exact h.elim; cases h)
    simp only [step] at hs
    cases hs
    have hal := hcreating rfl
    have hsh : s.shared = none := by
      cases e : s.shared with
      | none => rfl
      | some o =>
        exact absurd (h.pointer_made (by rw [e]; rfl)) (by omega)
    rw [hal]
    exact inv_put h hc s.lock 1 olocks (fun j d hj hd hp => absurd (by rw [hp]; trivial) (alone trivial j d hj hd)) (fun _ _ _ _ _ => rfl) (fun _ => hlocks trivial) (fun hb => absurd rfl hb)
      (fun o k hp => by cases hp; exact ⟨rfl, fun j hj => absurd hj (Nat.not_lt_zero _)⟩) (fun _ hp => nomatch hp) (fun hp => nomatch hp) (fun hp => nomatch hp)
      (fun _ => ⟨rfl, hsh, fun o ho => nomatch ho⟩) (fun o ho => nomatch ho) (fun r hp => by rcases hp with hp | hp <;> cases hp) (fun r hp => nomatch hp) (fun hp => nomatch hp) (Nat.le_refl _) (by omega) (fun hp => nomatch hp) (.inr (.inr (.inl (.inl trivial))))
  | fill o k =>
    obtain ⟨h1, h2, h3⟩ := hbuilding trivial
    obtain ⟨rfl, hf⟩ := hfill o k rfl
    simp only [step] at hs
    cases hs
    by_cases hk : k < n
    · rw [if_pos hk]
      refine inv_put h hc s.lock s.allocated olocks ocreating obuilding (fun _ => hlocks trivial) (fun _ => .inl trivial) ?_ (fun _ hp => nomatch hp) (fun hp => nomatch hp) (fun hp => nomatch hp)
        (fun _ => ⟨h1, h2, fun o ho => ?_⟩) (fun o ho => ?_) (fun r hp => by rcases hp with hp | hp <;> cases hp) (fun r hp => nomatch hp) (fun hp => nomatch hp) h.once (Nat.le_refl _) (fun hp => nomatch hp) (.inr (.inr (.inl (.inl trivial))))
      · intro o k' hp
        cases hp
        refine ⟨rfl, fun j hj hn => ?_⟩
        by_cases e : j = k
        · subst e; simp [readField]
        · have := hf j (by omega) hn
          simp only [readField, List.contains_eq_mem, Bool.or_eq_true, decide_eq_true_eq, List.mem_append] at this ⊢
          rcases this with h | h
          · exact .inl (.inl h)
          · exact .inr h
      · rcases List.mem_append.mp ho with ho | ho
        · exact h3 o ho
        · rw [List.mem_singleton] at ho; cases ho
      · rcases List.mem_append.mp ho with ho | ho
        · exact hown o ho
        · rw [List.mem_singleton] at ho; cases ho
    · rw [if_neg hk]
      exact inv_put h hc s.lock s.allocated olocks ocreating obuilding (fun _ => hlocks trivial) (fun _ => .inl trivial) (fun _ _ hp => nomatch hp)
        (fun o hp => by cases hp; exact ⟨rfl, fun j hj => hf j (by omega) hj⟩) (fun hp => nomatch hp) (fun hp => nomatch hp)
        (fun _ => ⟨h1, h2, h3⟩) hown (fun r hp => by rcases hp with hp | hp <;> cases hp) (fun r hp => nomatch hp) (fun hp => nomatch hp) h.once (Nat.le_refl _) (fun hp => nomatch hp) (.inr (.inr (.inl (.inl trivial))))
  | store o =>
    obtain ⟨h1, h2, h3⟩ := hbuilding trivial
    obtain ⟨rfl, hf⟩ := hstore o rfl
    simp only [step] at hs
    cases hs
    refine inv_put h hc s.lock s.allocated olocks ocreating obuilding (fun _ => hlocks trivial) (fun _ => .inr rfl) (fun _ _ hp => nomatch hp) (fun _ hp => nomatch hp)
      (fun _ => ⟨fun j hj => ?_, .inr (by simp)⟩) (fun hp => nomatch hp) (fun hp => hp.elim) (fun o ho => ?_) (fun r hp => by rcases hp with hp | hp <;> cases hp) (fun r hp => nomatch hp) (fun _ => .inl rfl) h.once (Nat.le_refl _) (fun _ => Nat.le_of_eq h1.symm) (.inr (.inr (.inl (.inr rfl))))
    · have := hf j hj
      simp only [readField, List.contains_eq_mem, Bool.or_eq_true, decide_eq_true_eq, List.mem_append] at this ⊢
      rcases this with h | h
      · exact .inl (.inl h)
      · exact .inr h
    · rcases List.mem_append.mp ho with ho | ho
      · exact hown o ho
      · rw [List.mem_singleton] at ho; cases ho; rfl
  | unlock =>
    simp only [step] at hs
    split at hs
    · rename_i hb
      subst hb
      cases hs
      obtain ⟨h1, h2⟩ := hunlock rfl
      have hs0 : s.shared = some 0 := by
        rcases h2 with h2 | h2
        · exact h2
        · cases h2
      exact inv_put h hc none s.allocated (fun j d hj hd hcr => absurd hcr (alone trivial j d hj hd)) ocreating obuilding (fun hp => hp.elim) (fun hb => absurd rfl hb) (fun _ _ hp => nomatch hp) (fun _ hp => nomatch hp)
        (fun hp => nomatch hp) (fun hp => nomatch hp) (fun hp => hp.elim) (fun o ho => nomatch ho) (fun r _ => hs0) (fun r hp => nomatch hp)
        (fun _ => .inr fun j hj => by have := h1 j hj; simpa [readField] using this) h.once (Nat.le_refl _) (fun hp => nomatch hp) (.inr (.inl hs0))
    · cases hs
  | read =>
    cases empty (by rintro (h | h); exact h.elim; cases h)
    have hs0 : s.shared = some 0 := hafter none (.inl rfl)
    simp only [step, own_nil] at hs
    cases hs
    exact inv_put h hc s.lock s.allocated olocks ocreating obuilding (fun hp => hp.elim) (fun hb => absurd rfl hb) (fun _ _ hp => nomatch hp) (fun _ hp => nomatch hp)
      (fun hp => nomatch hp) (fun hp => nomatch hp) (fun hp => hp.elim) (fun o ho => nomatch ho) (fun r _ => hs0) (fun r hp => by cases hp; exact hs0) (fun hp => nomatch hp) h.once (Nat.le_refl _) (fun hp => nomatch hp) (.inr (.inl hs0))
  | done r => simp only [step] at hs; cases hs

end

theorem mem_eraseIdx : ∀ {l : List Write} {j : Nat} {v w : Write}, l[j]? = some w → v ∈ l → v = w ∨ v ∈ l.eraseIdx j
  | [], _, _, _, h, _ => by simp at h
  | a :: l, 0, v, w, h, hv => by
    simp only [List.getElem?_cons_zero, Option.some.injEq] at h
    subst h
    rcases List.mem_cons.mp hv with h | h
    · exact .inl h
    · exact .inr h
  | a :: l, j + 1, v, w, h, hv => by
    rcases List.mem_cons.mp hv with h' | h'
    · exact .inr (by rw [h', List.eraseIdx_cons_succ]; exact List.mem_cons_self ..)
    · rcases mem_eraseIdx (by simpa using h) h' with h1 | h1
      · exact .inl h1
      · exact .inr (by rw [List.eraseIdx_cons_succ]; exact List.mem_cons_of_mem _ h1)

theorem readField_iff (s : State) (c : Caller) (o k : Nat) : readField s c o k = true ↔ .field o k ∈ c.buf ∨ s.field o k = true := by
  simp [readField]

theorem apply_mono (s : State) (w : Write) {o k : Nat} (h : s.field o k = true) : (apply s w).field o k = true := by
  cases w with
  | field o' k' => simp only [apply]; split <;> first | rfl | exact h
  | pointer o' => exact h

section
variable {n : Nat} {s : State} {i j : Nat} {c : Caller} {w : Write}

theorem inv_commit (h : Inv n s) (hc : s.callers[i]? = some c) (hw : c.buf[j]? = some w) : Inv n (put (apply s w) i ⟨c.pc, c.buf.eraseIdx j⟩) := by
  have wmem : w ∈ c.buf := List.mem_of_getElem? hw
  have hcb : Build c.pc ∨ c.pc = .unlock := h.buf i c hc (fun e => by rw [e] at wmem; cases wmem)
  have hcr : Crit c.pc := by
    rcases hcb with h | h
    · exact build_crit h
    · rw [h]; trivial
  have hl := h.locks i c hc hcr
  have alone : ∀ (k : Nat) d, k ≠ i → s.callers[k]? = some d → ¬ Crit d.pc := by
    intro k d hk hd hd'
    have := h.locks k d hd hd'
    rw [hl] at this
    exact hk (Option.some.inj this).symm
  have sub : ∀ {v}, v ∈ c.buf.eraseIdx j → v ∈ c.buf := fun {v} hv => (List.eraseIdx_sublist c.buf j).subset hv
  have hlock : (apply s w).lock = s.lock := by cases w <;> rfl
  have halloc : (apply s w).allocated = s.allocated := by cases w <;> rfl
  have hcall : (apply s w).callers = s.callers := by cases w <;> rfl
  have hsh : (apply s w).shared = s.shared ∨ ((apply s w).shared = some 0 ∧ w = .pointer 0 ∧ c.pc = .unlock) := by
    cases w with
    | field o k => exact .inl rfl
    | pointer o =>
      have e := h.own i c hc o wmem
      subst e
      refine .inr ⟨rfl, rfl, ?_⟩
      rcases hcb with hb | hb
      · exact absurd wmem ((h.building i c hc hb).2.2 0)
      · exact hb
  have hsh0 : s.shared = some 0 → (apply s w).shared = some 0 := fun h => by
    rcases hsh with h1 | h1
    · rw [h1, h]
    · exact h1.1
  have own : ∀ k, readField s c 0 k = true → readField (put (apply s w) i ⟨c.pc, c.buf.eraseIdx j⟩) ⟨c.pc, c.buf.eraseIdx j⟩ 0 k = true := by
    intro k hk
    rw [readField_iff] at hk ⊢
    rcases hk with hk | hk
    · rcases mem_eraseIdx hw hk with h1 | h1
      · right
        rw [← h1]
        simp [put, apply]
      · exact .inl h1
    · exact .inr (apply_mono s w hk)
  have other : ∀ d k, readField s d 0 k = true → readField (put (apply s w) i ⟨c.pc, c.buf.eraseIdx j⟩) d 0 k = true := by
    intro d k hk
    rw [readField_iff] at hk ⊢
    rcases hk with hk | hk
    · exact .inl hk
    · exact .inr (apply_mono s w hk)
  have cases' : ∀ {k : Nat} {d : Caller}, (put (apply s w) i ⟨c.pc, c.buf.eraseIdx j⟩).callers[k]? = some d → (k = i ∧ d = ⟨c.pc, c.buf.eraseIdx j⟩) ∨ (k ≠ i ∧ s.callers[k]? = some d) := by
    intro k d hd
    have := get_set hd
    rwa [hcall] at this
  have self : (put (apply s w) i ⟨c.pc, c.buf.eraseIdx j⟩).callers[i]? = some ⟨c.pc, c.buf.eraseIdx j⟩ := by
    exact set_self (by rw [hcall]; exact hc)
  have keep : ∀ {k : Nat} {d : Caller}, k ≠ i → s.callers[k]? = some d → (put (apply s w) i ⟨c.pc, c.buf.eraseIdx j⟩).callers[k]? = some d := by
    intro k d hk hd
    exact (set_ne hk).trans (by rw [hcall]; exact hd)
  constructor
  · intro k d hd hcr'
    show (apply s w).lock = some k
    rw [hlock]
    rcases cases' hd with ⟨rfl, rfl⟩ | ⟨hk, hd⟩
    · exact hl
    · exact h.locks k d hd hcr'
  · intro k d hd hb
    rcases cases' hd with ⟨rfl, rfl⟩ | ⟨hk, hd⟩
    · exact hcb
    · exact h.buf k d hd hb
  · intro k d hd o m hp
    rcases cases' hd with ⟨rfl, rfl⟩ | ⟨hk, hd⟩
    · have := h.fill k c hc o m hp
      exact ⟨this.1, fun x hx hn => own x (this.2 x hx hn)⟩
    · have := h.fill k d hd o m hp
      exact ⟨this.1, fun x hx hn => other d x (this.2 x hx hn)⟩
  · intro k d hd o hp
    rcases cases' hd with ⟨rfl, rfl⟩ | ⟨hk, hd⟩
    · have := h.store k c hc o hp
      exact ⟨this.1, fun x hx => own x (this.2 x hx)⟩
    · have := h.store k d hd o hp
      exact ⟨this.1, fun x hx => other d x (this.2 x hx)⟩
  · intro k d hd hp
    rcases cases' hd with ⟨rfl, rfl⟩ | ⟨hk, hd⟩
    · have := h.unlock k c hc hp
      refine ⟨fun x hx => own x (this.1 x hx), ?_⟩
      rcases this.2 with h1 | h1
      · exact .inl (hsh0 h1)
      · rcases mem_eraseIdx hw h1 with h2 | h2
        · left
          show (apply s w).shared = some 0
          rw [← h2]; rfl
        · exact .inr h2
    · exact absurd (by rw [hp]; trivial) (alone k d hk hd)
  · intro k d hd hp
    show (apply s w).allocated = 0
    rw [halloc]
    rcases cases' hd with ⟨rfl, rfl⟩ | ⟨hk, hd⟩
    · exact h.creating k c hc hp
    · exact h.creating k d hd hp
  · intro k d hd hb
    rcases cases' hd with ⟨rfl, rfl⟩ | ⟨hk, hd⟩
    · have hb' : Build c.pc := hb
      obtain ⟨h1, h2, h3⟩ := h.building k c hc hb'
      refine ⟨halloc.trans h1, ?_, fun o ho => h3 o (sub ho)⟩
      rcases hsh with e | ⟨-, -, e⟩
      · exact e.trans h2
      · rw [e] at hb'; exact hb'.elim
    · exact absurd (build_crit hb) (alone k d hk hd)
  · intro k d hd o ho
    rcases cases' hd with ⟨rfl, rfl⟩ | ⟨hk, hd⟩
    · exact h.own k c hc o (sub ho)
    · exact h.own k d hd o ho
  · intro k d hd r hp
    rcases cases' hd with ⟨rfl, rfl⟩ | ⟨hk, hd⟩
    · exact hsh0 (h.after k c hc r hp)
    · exact hsh0 (h.after k d hd r hp)
  · intro k d hd r hp
    rcases cases' hd with ⟨rfl, rfl⟩ | ⟨hk, hd⟩
    · exact h.done k c hc r hp
    · exact h.done k d hd r hp
  · intro o ho
    have ho : (apply s w).shared = some o := ho
    rcases hsh with e | ⟨e, -, -⟩
    · rw [e] at ho; exact h.shared o ho
    · rw [e] at ho; exact (Option.some.inj ho).symm
  · intro hs0
    have hs0 : (apply s w).shared = some 0 := hs0
    rcases hsh with e | ⟨-, -, e⟩
    · rw [e] at hs0
      rcases h.seen hs0 with h1 | ⟨k, d, hd, hp⟩
      · exact .inl fun x hx => apply_mono s w (h1 x hx)
      · by_cases e : k = i
        · subst e
          rw [hc] at hd; cases hd
          exact .inr ⟨k, _, self, hp⟩
        · exact .inr ⟨k, d, keep e hd, hp⟩
    · exact .inr ⟨i, _, self, e⟩
  · intro hs0
    show 1 ≤ (apply s w).allocated
    rw [halloc]
    have hs0 : (apply s w).shared.isSome := hs0
    rcases hsh with e | ⟨-, -, e⟩
    · rw [e] at hs0; exact h.pointer_made hs0
    · exact h.own_made i c hc e
  · intro k d hd hp
    show 1 ≤ (apply s w).allocated
    rw [halloc]
    rcases cases' hd with ⟨rfl, rfl⟩ | ⟨hk, hd⟩
    · exact h.own_made k c hc hp
    · exact h.own_made k d hd hp
  · show (apply s w).allocated ≤ 1
    rw [halloc]; exact h.once
  · exact .inr (.inr ⟨i, _, self, hcb⟩)

theorem invO_commit (h : Inv n s) (ho : InvO n s) (hc : s.callers[i]? = some c) (hw : c.buf[0]? = some w) : InvO n (put (apply s w) i ⟨c.pc, c.buf.eraseIdx 0⟩) := by
  have hcall : (apply s w).callers = s.callers := by cases w <;> rfl
  obtain ⟨pc, buf⟩ := c
  cases buf with
  | nil => cases hw
  | cons v ws =>
    simp only [List.getElem?_cons_zero, Option.some.injEq] at hw
    subst hw
    have hl := ho.last i _ hc
    rw [List.pairwise_cons] at hl
    constructor
    · intro k d hd
      have := get_set hd
      rw [hcall] at this
      rcases this with ⟨rfl, rfl⟩ | ⟨hk, hd⟩
      · exact hl.2
      · exact ho.last k d hd
    · intro hs k hk
      cases v with
      | field o m => exact apply_mono s (.field o m) (ho.seen hs k hk)
      | pointer o =>
        have hws : ws = [] := by
          cases ws with
          | nil => rfl
          | cons a as => exact absurd rfl (hl.1 a (List.mem_cons_self ..) o)
        subst hws
        have hp : pc = .unlock := by
          rcases h.buf i _ hc (fun e => nomatch e) with hb | hb
          · exact absurd (List.mem_cons_self ..) ((h.building i _ hc hb).2.2 o)
          · exact hb
        have := (h.unlock i _ hc hp).1 k hk
        rw [readField_iff] at this
        rcases this with h1 | h1
        · rw [List.mem_singleton] at h1; cases h1
        · exact h1

theorem invO_step {s' : State} (h : Inv n s) (ho : InvO n s) (hc : s.callers[i]? = some c) (hs : step n s i c = some s') : InvO n s' := by
  have key : ∀ (lk : Option Nat) (al : Nat) (c' : Caller), (c'.buf.Pairwise fun w _ => ∀ o, w ≠ .pointer o) → InvO n (put { s with lock := lk, allocated := al } i c') := by
    intro lk al c' hp
    constructor
    · intro k d hd
      rcases get_set hd with ⟨rfl, rfl⟩ | ⟨hk, hd⟩
      · exact hp
      · exact ho.last k d hd
    · exact ho.seen
  have hl := ho.last i c hc
  have hb := h.building i c hc
  have snoc : ∀ w : Write, Build c.pc → (c.buf ++ [w]).Pairwise fun (v : Write) _ => ∀ o, v ≠ Write.pointer o := by
    intro w hb'
    rw [List.pairwise_append]
    refine ⟨hl, List.pairwise_singleton .., fun a ha b _ o e => ?_⟩
    exact (hb hb').2.2 o (e ▸ ha)
  obtain ⟨pc, buf⟩ := c
  cases pc with
  | test => simp only [step] at hs; cases hs; exact key s.lock s.allocated _ hl
  | lock =>
    simp only [step] at hs
    split at hs
    · cases hs; exact key (some i) s.allocated _ hl
    · cases hs
  | retest => simp only [step] at hs; cases hs; exact key s.lock s.allocated _ hl
  | create => simp only [step] at hs; cases hs; exact key s.lock _ _ hl
  | fill o k =>
    simp only [step] at hs; cases hs
    by_cases hk : k < n
    · rw [if_pos hk]; exact key s.lock s.allocated _ (snoc _ trivial)
    · rw [if_neg hk]; exact key s.lock s.allocated _ hl
  | store o => simp only [step] at hs; cases hs; exact key s.lock s.allocated _ (snoc _ trivial)
  | unlock =>
    simp only [step] at hs
    split at hs
    · cases hs; exact key none s.allocated _ hl
    · cases hs
  | read => simp only [step] at hs; cases hs; exact key s.lock s.allocated _ hl
  | done r => simp only [step] at hs; cases hs

end

theorem get_call {l : List Caller} {c d : Caller} {j : Nat} (h : (l ++ [c])[j]? = some d) : l[j]? = some d ∨ d = c := by
  rw [List.getElem?_append] at h
  split at h
  · exact .inl h
  · right
    cases e : j - l.length with
    | zero => rw [e] at h; cases h; rfl
    | succ k => rw [e] at h; cases h

theorem call_get {l : List Caller} {c d : Caller} {j : Nat} (h : l[j]? = some d) : (l ++ [c])[j]? = some d := by
  rw [List.getElem?_append]
  rcases Nat.lt_or_ge j l.length with h' | h'
  · rw [if_pos h']; exact h
  · rw [List.getElem?_eq_none h'] at h; cases h

theorem inv_call {n : Nat} {s : State} (h : Inv n s) : Inv n { s with callers := s.callers ++ [⟨.test, []⟩] } := by
  constructor
  · intro k d hd hp
    rcases get_call hd with hd | rfl
    · exact h.locks k d hd hp
    · exact hp.elim
  · intro k d hd hp
    rcases get_call hd with hd | rfl
    · exact h.buf k d hd hp
    · exact absurd rfl hp
  · intro k d hd o m hp
    rcases get_call hd with hd | rfl
    · exact h.fill k d hd o m hp
    · cases hp
  · intro k d hd o hp
    rcases get_call hd with hd | rfl
    · exact h.store k d hd o hp
    · cases hp
  · intro k d hd hp
    rcases get_call hd with hd | rfl
    · exact h.unlock k d hd hp
    · cases hp
  · intro k d hd hp
    rcases get_call hd with hd | rfl
    · exact h.creating k d hd hp
    · cases hp
  · intro k d hd hp
    rcases get_call hd with hd | rfl
    · exact h.building k d hd hp
    · exact hp.elim
  · intro k d hd o ho
    rcases get_call hd with hd | rfl
    · exact h.own k d hd o ho
    · cases ho
  · intro k d hd r hp
    rcases get_call hd with hd | rfl
    · exact h.after k d hd r hp
    · rcases hp with hp | hp <;> cases hp
  · intro k d hd r hp
    rcases get_call hd with hd | rfl
    · exact h.done k d hd r hp
    · cases hp
  · exact h.shared
  · intro hs
    rcases h.seen hs with h1 | ⟨k, d, hd, hp⟩
    · exact .inl h1
    · exact .inr ⟨k, d, call_get hd, hp⟩
  · exact h.pointer_made
  · intro k d hd hp
    rcases get_call hd with hd | rfl
    · exact h.own_made k d hd hp
    · cases hp
  · exact h.once
  · rcases h.made with h1 | h1 | ⟨k, d, hd, hp⟩
    · exact .inl h1
    · exact .inr (.inl h1)
    · exact .inr (.inr ⟨k, d, call_get hd, hp⟩)

theorem invO_call {n : Nat} {s : State} (h : InvO n s) : InvO n { s with callers := s.callers ++ [⟨.test, []⟩] } := by
  constructor
  · intro k d hd
    rcases get_call hd with hd | rfl
    · exact h.last k d hd
    · exact .nil
  · exact h.seen

theorem act_inv {order : Order} {n : Nat} {s s' : State} {a : Action} (h : Inv n s) (ha : act order n s a = some s') : Inv n s' ∧ (order = .inOrder → InvO n s → InvO n s') := by
  cases a with
  | call =>
    simp only [act, Option.some.injEq] at ha
    subst ha
    exact ⟨inv_call h, fun _ => invO_call⟩
  | step i =>
    simp only [act] at ha
    cases hc : s.callers[i]? with
    | none => rw [hc] at ha; cases ha
    | some c =>
      rw [hc, Option.bind_some] at ha
      exact ⟨inv_step h hc ha, fun _ ho => invO_step h ho hc ha⟩
  | commit i j =>
    simp only [act] at ha
    cases hc : s.callers[i]? with
    | none => rw [hc] at ha; cases ha
    | some c =>
      rw [hc, Option.bind_some] at ha
      unfold commit at ha
      split at ha
      · cases ha
      · rename_i hj
        cases hw : c.buf[j]? with
        | none => rw [hw] at ha; cases ha
        | some w =>
          rw [hw] at ha
          simp only [Option.map_some, Option.some.injEq] at ha
          subst ha
          refine ⟨inv_commit h hc hw, fun e ho => ?_⟩
          have hj : j = 0 := by
            rcases Nat.eq_zero_or_pos j with h | h
            · exact h
            · exact absurd ⟨e, by omega⟩ hj
          subst hj
          exact invO_commit h ho hc hw

theorem run_inv {order : Order} {n : Nat} : ∀ (as : List Action) {s s' : State}, Inv n s → run order n s as = some s' → Inv n s' ∧ (order = .inOrder → InvO n s → InvO n s')
  | [], s, s', h, hr => by
    simp only [run, Option.some.injEq] at hr
    subst hr
    exact ⟨h, fun _ => id⟩
  | a :: as, s, s', h, hr => by
    simp only [run] at hr
    cases ha : act order n s a with
    | none => rw [ha] at hr; cases hr
    | some s1 =>
      rw [ha, Option.bind_some] at hr
      obtain ⟨h1, h2⟩ := act_inv h ha
      obtain ⟨h3, h4⟩ := run_inv as h1 hr
      exact ⟨h3, fun e ho => h4 e (h2 e ho)⟩

theorem invO_init (n : Nat) : InvO n init := ⟨fun i c h => by simp [init] at h, fun h => nomatch h⟩

theorem act_field {order : Order} {n : Nat} {s s' : State} {a : Action} (ha : act order n s a = some s') {o k : Nat} (hf : s.field o k = true) : s'.field o k = true := by
  cases a with
  | call =>
    simp only [act, Option.some.injEq] at ha
    subst ha
    exact hf
  | step i =>
    simp only [act] at ha
    cases hc : s.callers[i]? with
    | none => rw [hc] at ha; cases ha
    | some c =>
      rw [hc, Option.bind_some] at ha
      obtain ⟨pc, buf⟩ := c
      cases pc <;> simp only [step] at ha
      case lock => split at ha <;> cases ha; exact hf
      case unlock => split at ha <;> cases ha; exact hf
      case done => cases ha
      all_goals (cases ha; exact hf)
  | commit i j =>
    simp only [act] at ha
    cases hc : s.callers[i]? with
    | none => rw [hc] at ha; cases ha
    | some c =>
      rw [hc, Option.bind_some] at ha
      unfold commit at ha
      split at ha
      · cases ha
      · cases hw : c.buf[j]? with
        | none => rw [hw] at ha; cases ha
        | some w =>
          rw [hw] at ha
          simp only [Option.map_some, Option.some.injEq] at ha
          subst ha
          exact apply_mono s w hf

theorem run_field {order : Order} {n : Nat} {o k : Nat} : ∀ (as : List Action) {s s' : State}, run order n s as = some s' → s.field o k = true → s'.field o k = true
  | [], s, s', hr, hf => by
    simp only [run, Option.some.injEq] at hr
    subst hr; exact hf
  | a :: as, s, s', hr, hf => by
    simp only [run] at hr
    cases ha : act order n s a with
    | none => rw [ha] at hr; cases hr
    | some s1 =>
      rw [ha, Option.bind_some] at hr
      exact run_field as hr (act_field ha hf)

theorem run_append (order : Order) (n : Nat) : ∀ (as bs : List Action) (s : State), run order n s (as ++ bs) = (run order n s as).bind fun s => run order n s bs
  | [], bs, s => rfl
  | a :: as, bs, s => by
    simp only [List.cons_append, run]
    cases act order n s a with
    | none => rfl
    | some s1 => exact run_append order n as bs s1

/-- Caller 0 is about to write field `k`. -/
def filling (k : Nat) : State := ⟨none, some 0, fun _ _ => false, 1, [⟨.fill 0 k, (List.range k).map (.field 0)⟩, ⟨.test, []⟩]⟩

theorem run_filling (order : Order) (n : Nat) : ∀ k, k ≤ n → run order n (filling 0) (List.replicate k (.step 0)) = some (filling k)
  | 0, _ => rfl
  | k + 1, h => by
    rw [List.replicate_succ', run_append, run_filling order n k (by omega), Option.bind_some]
    simp only [run, act, filling, List.getElem?_cons_zero, Option.bind_some, step, if_pos (show k < n by omega), put, List.set_cons_zero, List.range_succ, List.map_append, List.map_cons, List.map_nil]

end Visible
end Duck
