import Verif.Spec.Memory
import Verif.Lemmas.HashTableRefine
/-!
# Lemmas about the memory of containers
-/
namespace Duck
namespace Memory

local macro "om" : tactic => `(tactic| first | omega | (simp only; omega) | (simp only at *; omega))

theorem find_of_nodup {l : Live} {x : Nat × Nat × Bool} (hn : (l.map (·.1)).Nodup) (hx : x ∈ l) : l.find? (·.1 == x.1) = some x := by
  induction l with
  | nil => cases hx
  | cons y l ih =>
    simp only [List.map_cons, List.nodup_cons] at hn
    rcases List.mem_cons.1 hx with rfl | hx
    · simp
    · have hne : y.1 ≠ x.1 := fun h => hn.1 (h ▸ List.mem_map_of_mem hx)
      simp [hne, ih hn.2 hx]

theorem outcome_snoc (t : List Event) (e : Event) : outcome (t ++ [e]) = (outcome t).bind fun l => judge l e := by
  simp only [outcome, List.foldlM_append]
  rcases List.foldlM judge [] t with _ | l
  · rfl
  · simp [List.foldlM]

/-- Memory is used correctly, with the functions `fl`, and these are the blocks that are not freed. -/
def Ok (fl : Bool) (m : Mem) (L : List (Nat × Nat)) : Prop :=
  (m.mallocSet = fl ∧ m.freeSet = fl ∧ ∀ e ∈ m.trace, ∀ c, Event.cb e = some c → c = fl ∧ m.next ≠ 0) ∧ (L.map (·.1)).Nodup ∧ (∀ x ∈ L, x.1 < m.next) ∧
    ∃ l, outcome m.trace = some l ∧ l.Perm (L.map fun x => (x.1, x.2, fl))

variable {fl : Bool}

theorem Ok.perm {m : Mem} {L L' : List (Nat × Nat)} (h : Ok fl m L) (p : L.Perm L') : Ok fl m L' := by
  obtain ⟨h1, h2, h3, l, h4, h5⟩ := h
  exact ⟨h1, (p.map _).nodup_iff.1 h2, fun x hx => h3 x (p.mem_iff.2 hx), l, h4, h5.trans (p.map _)⟩

theorem Ok.malloc {m : Mem} {L : List (Nat × Nat)} (h : Ok fl m L) (size : Nat) : Ok fl (m.malloc size).1 ((m.next, size) :: L) := by
  obtain ⟨⟨hm, hf, he⟩, h2, h3, l, h4, h5⟩ := h
  refine ⟨⟨hm, hf, ?_⟩, ?_, ?_, (m.next, size, fl) :: l, ?_, ?_⟩
  · intro e hx c hc
    rcases List.mem_append.1 hx with hx | hx
    · exact ⟨(he e hx c hc).1, Nat.succ_ne_zero _⟩
    · simp only [List.mem_singleton] at hx
      subst hx
      simp only [Event.cb, Option.some.injEq] at hc
      exact ⟨hc ▸ hm, Nat.succ_ne_zero _⟩
  · simp only [List.map_cons, List.nodup_cons]
    refine ⟨fun hm => ?_, h2⟩
    obtain ⟨x, hx, he⟩ := List.mem_map.1 hm
    have := h3 x hx
    omega
  · intro x hx
    rcases List.mem_cons.1 hx with rfl | hx
    · exact Nat.lt_succ_self _
    · exact Nat.lt_succ_of_lt (h3 x hx)
  · simp [Mem.malloc, outcome_snoc, h4, judge, hm]
  · exact h5.cons _

theorem Ok.lookup {L : List (Nat × Nat)} {l : Live} (h2 : (L.map (·.1)).Nodup) (h5 : l.Perm (L.map fun x => (x.1, x.2, fl))) {b sz : Nat} (hx : (b, sz) ∈ L) :
    l.find? (·.1 == b) = some (b, sz, fl) := by
  refine find_of_nodup (x := (b, sz, fl)) ?_ (h5.mem_iff.2 (List.mem_map.2 ⟨_, hx, rfl⟩))
  refine (h5.map _).nodup_iff.2 ?_
  simpa [List.map_map, Function.comp_def] using h2

theorem Ok.free {m : Mem} {L : List (Nat × Nat)} {b sz : Nat} (h : Ok fl m ((b, sz) :: L)) : Ok fl (m.free (some (.block b))) L := by
  obtain ⟨⟨hm, hf, he⟩, h2, h3, l, h4, h5⟩ := h
  refine ⟨⟨hm, hf, ?_⟩, (List.nodup_cons.1 h2).2, fun x hx => h3 x (List.mem_cons_of_mem _ hx), l.erase (b, sz, fl), ?_, ?_⟩
  · intro e hx c hc
    rcases List.mem_append.1 hx with hx | hx
    · exact he e hx c hc
    · simp only [List.mem_singleton] at hx
      subst hx
      simp only [Event.cb, Option.some.injEq] at hc
      have := h3 _ (List.mem_cons_self ..)
      exact ⟨hc ▸ hf, by simp only [Mem.free]; omega⟩
  · have hl := Ok.lookup h2 h5 (List.mem_cons_self ..)
    simp only [Mem.free, outcome_snoc, h4, Option.bind_some, judge, hl]
    rw [if_pos hf.symm]
  · have := h5.erase (b, sz, fl)
    simpa [Mem.free] using this

theorem Ok.snoc_access {m : Mem} {L : List (Nat × Nat)} {p : Option Ptr} {upto : Nat} (h : Ok fl m L)
    (hj : ∀ l, l.Perm (L.map fun x => (x.1, x.2, fl)) → judge l (.access p upto) = some l) : Ok fl (m.access p upto) L := by
  obtain ⟨⟨hm, hf, he⟩, h2, h3, l, h4, h5⟩ := h
  refine ⟨⟨hm, hf, ?_⟩, h2, h3, l, ?_, h5⟩
  · intro e hx c hc
    rcases List.mem_append.1 hx with hx | hx
    · exact he e hx c hc
    · simp only [List.mem_singleton] at hx
      subst hx
      cases hc
  · simp [Mem.access, outcome_snoc, h4, hj l h5]

theorem Ok.access {m : Mem} {L : List (Nat × Nat)} {b sz upto : Nat} (h : Ok fl m L) (hx : (b, sz) ∈ L) (hu : upto ≤ sz) : Ok fl (m.access (some (.block b)) upto) L := by
  refine h.snoc_access fun l hl => ?_
  have hf := Ok.lookup h.2.1 hl hx
  simp only [judge, hf]
  rw [if_pos hu]

theorem Ok.caller {m : Mem} {L : List (Nat × Nat)} {sz upto : Nat} (h : Ok fl m L) (hu : upto ≤ sz) : Ok fl (m.access (some (.caller sz)) upto) L :=
  h.snoc_access fun l _ => by simp only [judge]; rw [if_pos hu]

theorem Ok.static {m : Mem} {L : List (Nat × Nat)} {upto : Nat} (h : Ok fl m L) (hu : upto ≤ 4) : Ok fl (m.access (some .static) upto) L :=
  h.snoc_access fun l _ => by simp only [judge]; rw [if_pos hu]

theorem Ok.accessIf {m : Mem} {L : List (Nat × Nat)} {c : Bool} {b sz upto : Nat} (h : Ok fl m L) (hx : (b, sz) ∈ L) (hu : c = true → upto ≤ sz) : Ok fl (m.accessIf c (some (.block b)) upto) L := by
  cases c
  · exact h
  · exact h.access hx (hu rfl)

theorem Ok.callerIf {m : Mem} {L : List (Nat × Nat)} {c : Bool} {sz upto : Nat} (h : Ok fl m L) (hu : upto ≤ sz) : Ok fl (m.accessIf c (some (.caller sz)) upto) L := by
  cases c
  · exact h
  · exact h.caller hu

theorem grown_le (min old req : Int) : req ≤ Arr.grown min old req ∧ min ≤ Arr.grown min old req := by
  unfold Arr.grown
  simp only
  split <;> split <;> omega

/-- The blocks of an array. -/
def Arr.owns (a : Arr) : List (Nat × Nat) :=
  match a.elements with
  | some (.block b) => [(b, a.maxLength.toNat * a.esize)]
  | _ => []

/-- The states of arrays. -/
inductive Arr.Inv : Arr → Prop where
  | init (e : Nat) : Inv ⟨none, e, 0, 0⟩
  | external (e n : Nat) : Inv ⟨some (.caller (n * e)), e, n, -1⟩
  | block (b e n : Nat) (k : Int) (hk : 0 < k) (hn : (n : Int) ≤ k) : Inv ⟨some (.block b), e, n, k⟩

theorem Arr.reserve_ok {m : Mem} {a : Arr} {R : List (Nat × Nat)} (h : Ok fl m (a.owns ++ R)) (hi : a.Inv) (ha : 0 ≤ a.maxLength) (n : Nat) :
    Ok fl (a.reserve m n).1 ((a.reserve m n).2.owns ++ R) ∧ (a.reserve m n).2.Inv ∧ (n : Int) ≤ (a.reserve m n).2.maxLength := by
  unfold Arr.reserve
  by_cases hlt : a.maxLength < n
  · rw [if_pos hlt]
    have hk : (0 : Int) < ((if n < 32 then 32 else n : Nat) : Int) ∧ (n : Int) ≤ ((if n < 32 then 32 else n : Nat) : Int) := by split <;> omega
    generalize (if n < 32 then 32 else n : Nat) = k at hk
    cases hi with
    | init e => exact ⟨h.malloc _, .block _ _ _ _ hk.1 (by om), hk.2⟩
    | external e l => simp at ha
    | block b e l k' hk' hn =>
      refine ⟨?_, .block _ _ _ _ hk.1 (by om), hk.2⟩
      have h1 := (h.malloc (k * e)).perm (List.Perm.swap (b, k'.toNat * e) _ R)
      refine Ok.free (sz := k'.toNat * e) ?_
      refine Ok.accessIf (sz := k * e) (Ok.accessIf (sz := k'.toNat * e) h1 (by simp) ?_) (by simp [Mem.malloc, Arr.owns]) ?_
      · exact fun _ => Nat.mul_le_mul_right _ (by om)
      · exact fun _ => Nat.mul_le_mul_right _ (by om)
  · rw [if_neg hlt]
    exact ⟨h, hi, by simp only; omega⟩

theorem Arr.setLength_ok {m : Mem} {a : Arr} {R : List (Nat × Nat)} (h : Ok fl m (a.owns ++ R)) (hi : a.Inv) (ha : 0 ≤ a.maxLength) (n : Nat) :
    Ok fl (a.setLength m n).1 ((a.setLength m n).2.owns ++ R) ∧ (a.setLength m n).2.Inv := by
  have := Arr.reserve_ok h hi ha n
  unfold Arr.setLength
  generalize Arr.reserve m a n = r at this
  obtain ⟨m', a'⟩ := r
  obtain ⟨h1, h2, h3⟩ := this
  refine ⟨h1, ?_⟩
  simp only at h2 h3 ⊢
  cases h2 with
  | init e =>
    have : n = 0 := by simp only at h3; omega
    subst this
    exact .init e
  | external e l => simp only at h3; omega
  | block b e l k hk hn => exact .block _ _ _ _ hk h3

theorem Arr.replace_ok {m : Mem} {a : Arr} {R : List (Nat × Nat)} (h : Ok fl m (a.owns ++ R)) (hi : a.Inv) (ha : 0 ≤ a.maxLength) {loc len n : Nat} (hr : loc + len ≤ a.length) :
    Ok fl (a.replace m loc len n).1 ((a.replace m loc len n).2.owns ++ R) ∧ (a.replace m loc len n).2.Inv := by
  unfold Arr.replace
  by_cases h0 : len = 0 ∧ n = 0
  · rw [if_pos h0]; exact ⟨h, hi⟩
  rw [if_neg h0]
  unfold Arr.resize
  cases hi with
  | external e l => simp at ha
  | init e =>
    simp only at hr ⊢
    rw [if_neg (by om)]
    have hg := grown_le 32 0 ((0 + n - len : Nat) : Int)
    generalize Arr.grown 32 0 ((0 + n - len : Nat) : Int) = k at hg
    have hlen : len = 0 := by omega
    have hloc : loc = 0 := by omega
    subst hlen hloc
    refine ⟨?_, .block _ _ _ _ (by om) (by om)⟩
    exact Ok.accessIf (sz := k.toNat * e) (h.malloc _) (by simp [Arr.owns, Mem.malloc]) fun _ => Nat.mul_le_mul_right _ (by om)
  | block b e l k hk hn =>
    simp only at hr ⊢
    by_cases hfit : ((l + n - len : Nat) : Int) ≤ k
    · rw [if_pos hfit]
      simp only [ne_eq, not_true_eq_false, if_false]
      refine ⟨?_, .block _ _ _ _ hk hfit⟩
      have hmem : (b, k.toNat * e) ∈ (Arr.owns ⟨some (.block b), e, l + n - len, k⟩ ++ R) := by simp [Arr.owns]
      refine Ok.accessIf (sz := k.toNat * e) (Ok.accessIf (sz := k.toNat * e) (Ok.accessIf (sz := k.toNat * e) h hmem ?_) hmem ?_) hmem ?_ <;>
        exact fun _ => Nat.mul_le_mul_right _ (by om)
    · rw [if_neg hfit]
      have hg := grown_le 32 k ((l + n - len : Nat) : Int)
      generalize Arr.grown 32 k ((l + n - len : Nat) : Int) = k' at hg
      have hb : b < m.next := h.2.2.1 (b, k.toNat * e) (by simp [Arr.owns])
      have hne : (some (Ptr.block b)) ≠ some (Ptr.block m.next) := by
        intro he
        injection he with he
        injection he with he
        omega
      rw [if_pos (show some (Ptr.block b) ≠ ((m.malloc (k'.toNat * e)).1, some (m.malloc (k'.toNat * e)).2, k').2.1 from hne)]
      simp only [Mem.malloc]
      refine ⟨?_, .block _ _ _ _ (by om) (by om)⟩
      have h1 := (h.malloc (k'.toNat * e)).perm (List.Perm.swap (b, k.toNat * e) _ R)
      refine Ok.accessIf (sz := k'.toNat * e) (Ok.free (sz := k.toNat * e) ?_) (by simp [Arr.owns]) ?_
      · refine Ok.accessIf (sz := k'.toNat * e) (Ok.accessIf (sz := k.toNat * e) (Ok.accessIf (sz := k'.toNat * e) (Ok.accessIf (sz := k.toNat * e) h1 (by simp [Arr.owns]) ?_) (by simp [Arr.owns]) ?_) (by simp [Arr.owns]) ?_)
          (by simp [Arr.owns]) ?_ <;> exact fun _ => Nat.mul_le_mul_right _ (by om)
      · exact fun _ => Nat.mul_le_mul_right _ (by om)

theorem Arr.visit_ok {m : Mem} {a : Arr} {R L : List (Nat × Nat)} (h : Ok fl m L) (hs : ∀ x ∈ a.owns ++ R, x ∈ L) (hi : a.Inv) : Ok fl (a.visit m) L := by
  unfold Arr.visit
  cases hi with
  | init e => simpa [Mem.accessIf] using h
  | external e l => exact h.callerIf (Nat.le_refl _)
  | block b e l k hk hn => exact h.accessIf (sz := k.toNat * e) (hs _ (by simp [Arr.owns])) fun _ => Nat.mul_le_mul_right _ (by om)

theorem Arr.permute_ok {m : Mem} {a : Arr} {R : List (Nat × Nat)} (h : Ok fl m (a.owns ++ R)) (hi : a.Inv) : Ok fl (a.permute m) (a.owns ++ R) := by
  unfold Arr.permute
  split
  · refine Ok.free (sz := a.esize) (Arr.visit_ok (R := R) ?_ ?_ hi)
    · exact Ok.accessIf (sz := a.esize) (h.malloc _) (by simp) fun _ => Nat.le_refl _
    · exact fun x hx => List.mem_cons_of_mem _ hx
  · exact Arr.visit_ok h (fun _ hx => hx) hi

theorem Arr.finalize_ok {m : Mem} {a : Arr} {R : List (Nat × Nat)} (h : Ok fl m (a.owns ++ R)) (hi : a.Inv) : Ok fl (a.finalize m) R := by
  unfold Arr.finalize
  cases hi with
  | init e => simpa [Arr.owns] using h
  | external e l => simpa [Arr.owns] using h
  | block b e l k hk hn =>
    rw [if_pos ⟨by simp, hk⟩]
    exact Ok.free (sz := k.toNat * e) h

/-- The blocks of a byte array. -/
def Bytes.owns (a : Bytes) : List (Nat × Nat) :=
  match a.bytes with
  | .block b => [(b, a.maxLength.toNat + 4)]
  | _ => []

inductive Bytes.Inv : Bytes → Prop where
  | init : Inv ⟨.static, 0, 0⟩
  | external (n : Nat) : Inv ⟨.caller n, n, -1⟩
  | block (b n : Nat) (k : Int) (hk : 0 < k) (hn : (n : Int) ≤ k) : Inv ⟨.block b, n, k⟩

theorem Bytes.reserve_ok {m : Mem} {a : Bytes} {R : List (Nat × Nat)} (h : Ok fl m (a.owns ++ R)) (hi : a.Inv) (ha : 0 ≤ a.maxLength) (n : Nat) :
    Ok fl (a.reserve m n).1 ((a.reserve m n).2.owns ++ R) ∧ (a.reserve m n).2.Inv ∧ (n : Int) ≤ (a.reserve m n).2.maxLength := by
  unfold Bytes.reserve
  by_cases hlt : a.maxLength < n
  · rw [if_pos hlt]
    have hk : (0 : Int) < ((if n < 64 then 64 else n : Nat) : Int) ∧ (n : Int) ≤ ((if n < 64 then 64 else n : Nat) : Int) := by split <;> omega
    generalize (if n < 64 then 64 else n : Nat) = k at hk
    cases hi with
    | init =>
      refine ⟨?_, .block _ _ _ hk.1 (by om), hk.2⟩
      exact Ok.access (sz := k + 4) (h.malloc (k + 4)) (by simp [Bytes.owns, Mem.malloc]) (by om)
    | external l => simp at ha
    | block b l k' hk' hn =>
      refine ⟨?_, .block _ _ _ hk.1 (by om), hk.2⟩
      have hal : Bytes.allocated ⟨.block b, l, k'⟩ = true := by simp [Bytes.allocated, hk']
      simp only [hal, if_true]
      have h1 := (h.malloc (k + 4)).perm (List.Perm.swap (b, k'.toNat + 4) _ R)
      simp only at hlt
      refine Ok.access (sz := k + 4) (Ok.free (sz := k'.toNat + 4) ?_) (by simp [Bytes.owns, Mem.malloc]) (by om)
      refine Ok.accessIf (sz := k + 4) (Ok.accessIf (sz := k'.toNat + 4) h1 (by simp) ?_) (by simp [Mem.malloc, Bytes.owns]) ?_ <;> exact fun _ => by om
  · rw [if_neg hlt]
    exact ⟨h, hi, by simp only; omega⟩

theorem Bytes.setLength_ok {m : Mem} {a : Bytes} {R : List (Nat × Nat)} (h : Ok fl m (a.owns ++ R)) (hi : a.Inv) (ha : 0 ≤ a.maxLength) (n : Nat) :
    Ok fl (a.setLength m n).1 ((a.setLength m n).2.owns ++ R) ∧ (a.setLength m n).2.Inv := by
  have := Bytes.reserve_ok h hi ha n
  unfold Bytes.setLength
  generalize Bytes.reserve m a n = r at this
  obtain ⟨m', a'⟩ := r
  obtain ⟨h1, h2, h3⟩ := this
  simp only at h1 h2 h3 ⊢
  cases h2 with
  | init =>
    have : n = 0 := by simp only at h3; omega
    subst this
    exact ⟨Ok.static h1 (by simp), .init⟩
  | external l => simp only at h3; omega
  | block b l k hk hn =>
    simp only at h3
    exact ⟨Ok.access (sz := k.toNat + 4) h1 (by simp [Bytes.owns]) (by om), .block _ _ _ hk h3⟩

theorem Bytes.replace_ok {m : Mem} {a : Bytes} {R : List (Nat × Nat)} (h : Ok fl m (a.owns ++ R)) (hi : a.Inv) (ha : 0 ≤ a.maxLength) {loc len n : Nat} (hr : loc + len ≤ a.length) :
    Ok fl (a.replace m loc len n).1 ((a.replace m loc len n).2.owns ++ R) ∧ (a.replace m loc len n).2.Inv ∧
      (n + len ≠ 0 → ∃ b, (a.replace m loc len n).2.bytes = .block b ∧ (a.replace m loc len n).2.length = a.length + n - len) := by
  unfold Bytes.replace
  by_cases h0 : len = 0 ∧ n = 0
  · rw [if_pos h0]; exact ⟨h, hi, fun hne => absurd (by om) hne⟩
  rw [if_neg h0]
  unfold Bytes.resize
  cases hi with
  | external l => simp at ha
  | init =>
    simp only at hr ⊢
    rw [if_neg (show ¬ ((0 + n - len : Nat) : Int) < 0 by omega)]
    have hg := grown_le 64 0 ((0 + n - len : Nat) : Int)
    generalize Arr.grown 64 0 ((0 + n - len : Nat) : Int) = k at hg
    have hlen : len = 0 := by omega
    have hloc : loc = 0 := by omega
    subst hlen hloc
    refine ⟨?_, .block _ _ _ (by om) (by om), fun _ => ⟨_, rfl, by trivial⟩⟩
    simp only [ne_eq, not_true_eq_false, if_false]
    refine Ok.access (sz := k.toNat + 4) (Ok.accessIf (sz := k.toNat + 4) (h.malloc _) (by simp [Bytes.owns, Mem.malloc]) fun _ => by om) (by simp [Bytes.owns, Mem.malloc]) (by om)
  | block b l k hk hn =>
    simp only at hr ⊢
    by_cases hfit : ((l + n - len : Nat) : Int) < k
    · rw [if_pos hfit]
      simp only [ne_eq, not_true_eq_false, if_false]
      rw [if_pos (by simp)]
      refine ⟨?_, .block _ _ _ hk (by om), fun _ => ⟨_, rfl, by trivial⟩⟩
      have hmem : (b, k.toNat + 4) ∈ (Bytes.owns ⟨.block b, l + n - len, k⟩ ++ R) := by simp [Bytes.owns]
      refine Ok.access (sz := k.toNat + 4) (Ok.accessIf (sz := k.toNat + 4) (Ok.accessIf (sz := k.toNat + 4) (Ok.accessIf (sz := k.toNat + 4) h hmem ?_) hmem ?_) hmem ?_) hmem (by om) <;>
        exact fun _ => by om
    · rw [if_neg hfit]
      have hg := grown_le 64 k ((l + n - len : Nat) : Int)
      generalize Arr.grown 64 k ((l + n - len : Nat) : Int) = k' at hg
      have hb : b < m.next := h.2.2.1 (b, k.toNat + 4) (by simp [Bytes.owns])
      have hne : (Ptr.block b) ≠ Ptr.block m.next := by
        intro he
        injection he with he
        omega
      rw [if_pos (by simp), if_pos (show Ptr.block b ≠ ((m.malloc (k'.toNat + 4)).1, (m.malloc (k'.toNat + 4)).2, k').2.1 from hne)]
      simp only [Mem.malloc]
      refine ⟨?_, .block _ _ _ (by om) (by om), fun _ => ⟨_, rfl, by trivial⟩⟩
      have h1 := (h.malloc (k'.toNat + 4)).perm (List.Perm.swap (b, k.toNat + 4) _ R)
      refine Ok.access (sz := k'.toNat + 4) (Ok.accessIf (sz := k'.toNat + 4) (Ok.free (sz := k.toNat + 4) ?_) (by simp [Bytes.owns]) ?_) (by simp [Bytes.owns]) (by om)
      · refine Ok.accessIf (sz := k'.toNat + 4) (Ok.accessIf (sz := k.toNat + 4) (Ok.accessIf (sz := k'.toNat + 4) (Ok.accessIf (sz := k.toNat + 4) h1 (by simp [Bytes.owns]) ?_) (by simp [Bytes.owns]) ?_) (by simp [Bytes.owns]) ?_)
          (by simp [Bytes.owns]) ?_ <;> exact fun _ => by om
      · exact fun _ => by om

theorem Bytes.align_ok {m : Mem} {a : Bytes} {R : List (Nat × Nat)} (h : Ok fl m (a.owns ++ R)) (hi : a.Inv) (ha : 0 ≤ a.maxLength) {k : Nat} (hk : 0 < k) :
    Ok fl (a.align m k).1 ((a.align m k).2.owns ++ R) ∧ (a.align m k).2.Inv := by
  unfold Bytes.align
  split
  · have hlt := Nat.mod_lt a.length hk
    have hr := Bytes.replace_ok h hi ha (loc := a.length) (len := 0) (n := k - a.length % k) (by om)
    simp only [Bytes.append]
    generalize Bytes.replace m a a.length 0 (k - a.length % k) = r at hr
    obtain ⟨m', a'⟩ := r
    obtain ⟨h1, h2, h3⟩ := hr
    obtain ⟨b, hb, hl⟩ := h3 (by om)
    refine ⟨?_, h2⟩
    simp only at h1 h2 hb hl ⊢
    cases h2 with
    | init => cases hb
    | external l => cases hb
    | block b' l k' hk' hn =>
      simp only at hl hb ⊢
      exact Ok.access (sz := k'.toNat + 4) h1 (by simp [Bytes.owns]) (by om)
  · exact ⟨h, hi⟩

theorem Bytes.visit_ok {m : Mem} {a : Bytes} {R : List (Nat × Nat)} (h : Ok fl m (a.owns ++ R)) (hi : a.Inv) : Ok fl (a.visit m) (a.owns ++ R) := by
  unfold Bytes.visit
  cases hi with
  | init => exact Ok.static h (by decide)
  | external l => exact h.callerIf (Nat.le_refl _)
  | block b l k hk hn =>
    rw [if_neg (by om)]
    exact h.access (sz := k.toNat + 4) (by simp [Bytes.owns]) (by om)

theorem Bytes.finalize_ok {m : Mem} {a : Bytes} {R : List (Nat × Nat)} (h : Ok fl m (a.owns ++ R)) (hi : a.Inv) : Ok fl (a.finalize m) R := by
  unfold Bytes.finalize
  cases hi with
  | init => simpa [Bytes.owns, Bytes.allocated] using h
  | external l => simpa [Bytes.owns, Bytes.allocated] using h
  | block b l k hk hn =>
    have hal : Bytes.allocated ⟨.block b, l, k⟩ = true := by simp [Bytes.allocated, hk]
    rw [if_pos hal]
    exact Ok.free (sz := k.toNat + 4) h

/-- The blocks of a table. -/
def Table.owns (t : Table) : List (Nat × Nat) :=
  match t.rows with
  | some (.block b) => [(b, t.rowSize * t.rowCount)]
  | _ => []

inductive Table.Inv : Table → Prop where
  | init (e : Nat) : Inv ⟨none, e, 0, 0, 0, 0⟩
  | block (b e c k x y : Nat) (hs : (c, k) ∈ HTable.sizes) (hn : x + y < k) : Inv ⟨some (.block b), e, c, k, x, y⟩

theorem sizes_pos : ∀ s ∈ HTable.sizes, 0 < s.1 ∧ 2 ≤ s.2 := by decide +kernel

theorem sizes_next : ∀ s ∈ HTable.sizes, ∀ u, HTable.nextSize s.1 = some u → s.2 < u.2 := by
  have h : (HTable.sizes.all fun s => match HTable.nextSize s.1 with | some u => decide (s.2 < u.2) | none => true) = true := by decide +kernel
  intro s hs u hu
  have := List.all_eq_true.1 h s hs
  simpa [hu] using this

theorem Table.visit_ok {m : Mem} {t : Table} {L : List (Nat × Nat)} (h : Ok fl m L) (hs : ∀ x ∈ t.owns, x ∈ L) (hr : (t.rows = none ∧ t.rowCount = 0) ∨ ∃ b, t.rows = some (.block b)) : Ok fl (t.visit m) L := by
  unfold Table.visit
  rcases hr with ⟨h1, h2⟩ | ⟨b, hb⟩
  · simpa [h2, Mem.accessIf] using h
  · rw [hb]
    exact h.accessIf (hs (b, t.rowSize * t.rowCount) (by simp [Table.owns, hb])) fun _ => Nat.le_refl _

theorem Table.Inv.rows {t : Table} (h : t.Inv) : (t.rows = none ∧ t.rowCount = 0) ∨ ∃ b, t.rows = some (.block b) := by
  cases h with
  | init e => exact .inl ⟨rfl, rfl⟩
  | block b => exact .inr ⟨b, rfl⟩

/-- Moving rows. -/
theorem Table.reinsert_ok {b b' e c c' k' : Nat} {L : List (Nat × Nat)} (h1 : (b, e * c) ∈ L) (h2 : (b', e * c') ∈ L) (n : Nat) :
    ∀ (m : Mem) (x : Nat), Ok fl m L → x < k' → x + n < k' →
      ∃ m', Table.reinsert (some (.block b)) (e * c) n m ⟨some (.block b'), e, c', k', x, 0⟩ = .ok (m', ⟨some (.block b'), e, c', k', x + n, 0⟩) ∧ Ok fl m' L := by
  induction n with
  | zero => exact fun m x h _ _ => ⟨m, rfl, h⟩
  | succ n ih =>
    intro m x h hx hn
    have hv : Ok fl (Table.visit (m.access (some (.block b)) (e * c)) ⟨some (.block b'), e, c', k', x, 0⟩) L := by
      refine Table.visit_ok (h.access h1 (Nat.le_refl _)) (fun y hy => ?_) (.inr ⟨b', rfl⟩)
      simp only [Table.owns, List.mem_singleton] at hy
      exact hy ▸ h2
    obtain ⟨m', he, ho⟩ := ih _ (x + 1) hv (by omega) (by omega)
    refine ⟨m', ?_, ho⟩
    simp only [Table.reinsert]
    rw [if_pos (by omega), he, Nat.add_assoc, Nat.add_comm 1 n]

/-- ResizeAndRehash of a table, also when it is just full. -/
theorem Table.resize_ok {m : Mem} {t : Table} {R : List (Nat × Nat)} (h : Ok fl m (t.owns ++ R))
    (hi : t = ⟨none, t.rowSize, 0, 0, 0, 0⟩ ∨ ∃ b, t.rows = some (.block b) ∧ (t.rowCount, t.maxActive) ∈ HTable.sizes ∧ t.active + t.deleted ≤ t.maxActive) :
    (∃ r, t.resize m = .ok r ∧ Ok fl r.1 (r.2.owns ++ R) ∧ r.2.Inv ∧ r.2.rows ≠ none ∧ (t.active + t.deleted < t.maxActive → r.2 = t) ∧
      (t.rows = none → r.2.active = 0 ∧ r.2.deleted = 0)) ∨ t.resize m = .error .fatal ∧ 1675364863 ≤ t.rowCount ∧ t.maxActive ≤ t.active + t.deleted := by
  unfold Table.resize
  rcases hi with hi | ⟨b, hb, hs, hle⟩
  · rw [hi]
    obtain ⟨u, hu⟩ : ∃ u, HTable.nextSize 0 = some u := Option.isSome_iff_exists.1 (by decide +kernel)
    have hm := (HTable.nextSize_some hu).1
    simp only [Nat.add_zero, Nat.lt_irrefl, if_false, true_or, if_true, hu]
    refine .inl ⟨_, rfl, ?_, ?_, by simp, fun hc => absurd hc (by simp), fun _ => ⟨rfl, rfl⟩⟩
    · rw [hi] at h
      exact Table.visit_ok (h.malloc _) (fun x hx => by simp [Table.owns, Mem.malloc] at hx ⊢; exact .inl hx) (.inr ⟨m.next, rfl⟩)
    · exact .block _ _ _ _ _ _ hm (by have := (sizes_pos u hm).2; omega)
  · obtain ⟨rows, e, c, k, x, y⟩ := t
    simp only at hb hs hle
    subst hb
    by_cases hlt : x + y < k
    · rw [if_pos hlt]
      exact .inl ⟨_, rfl, h, .block _ _ _ _ _ _ hs hlt, by simp, fun _ => rfl, fun hc => absurd hc (by simp)⟩
    · rw [if_neg hlt]
      have hpos := sizes_pos _ hs
      have key : ∀ u : Nat × Nat, u ∈ HTable.sizes → x < u.2 →
          ∃ r, ((Table.reinsert (some (.block b)) (e * c) x (Table.visit (Table.visit (m.malloc (e * u.1)).1 ⟨some (m.malloc (e * u.1)).2, e, u.1, u.2, 0, 0⟩) ⟨some (.block b), e, c, k, x, y⟩)
            ⟨some (m.malloc (e * u.1)).2, e, u.1, u.2, 0, 0⟩).map fun q => (q.1.free (some (.block b)), q.2)) = Except.ok r ∧ Ok fl r.1 (r.2.owns ++ R) ∧ r.2.Inv ∧ r.2.rows ≠ none := by
        intro u hu hx
        have h1 := (h.malloc (e * u.1)).perm (List.Perm.swap (b, e * c) _ R)
        have h2 : Ok fl (Table.visit (Table.visit (m.malloc (e * u.1)).1 ⟨some (m.malloc (e * u.1)).2, e, u.1, u.2, 0, 0⟩) ⟨some (.block b), e, c, k, x, y⟩) ((b, e * c) :: (m.next, e * u.1) :: R) := by
          refine Table.visit_ok (Table.visit_ok h1 (fun z hz => ?_) (.inr ⟨m.next, rfl⟩)) (fun z hz => ?_) (.inr ⟨b, rfl⟩)
          · simp [Table.owns, Mem.malloc] at hz ⊢; exact .inr (.inl hz)
          · simp [Table.owns] at hz ⊢; exact .inl hz
        obtain ⟨m', he, ho⟩ := Table.reinsert_ok (b := b) (b' := m.next) (e := e) (c := c) (c' := u.1) (k' := u.2) (List.mem_cons_self ..) (by simp) x _ 0 h2 (by omega) (by omega)
        refine ⟨(m'.free (some (.block b)), ⟨some (.block m.next), e, u.1, u.2, 0 + x, 0⟩), ?_, Ok.free (sz := e * c) ho, .block _ _ _ _ _ _ hu (by omega), by simp⟩
        have he' : Table.reinsert (some (.block b)) (e * c) x
            (Table.visit (Table.visit (m.malloc (e * u.1)).1 ⟨some (m.malloc (e * u.1)).2, e, u.1, u.2, 0, 0⟩) ⟨some (.block b), e, c, k, x, y⟩)
            ⟨some (m.malloc (e * u.1)).2, e, u.1, u.2, 0, 0⟩ = .ok (m', ⟨some (.block m.next), e, u.1, u.2, 0 + x, 0⟩) := he
        rw [he']
        rfl
      by_cases hg : c = 0 ∨ x > y
      · rw [if_pos hg]
        cases hn : HTable.nextSize c with
        | none => exact .inr ⟨rfl, HTable.nextSize_none hn, by simp only; omega⟩
        | some u =>
          obtain ⟨r, h1, h2, h3, h4⟩ := key u (HTable.nextSize_some hn).1 (by have := sizes_next _ hs u hn; omega)
          exact .inl ⟨r, h1, h2, h3, h4, fun hc => absurd hc hlt, fun hc => absurd hc (by simp)⟩
      · rw [if_neg hg]
        obtain ⟨r, h1, h2, h3, h4⟩ := key (c, k) hs (by omega)
        exact .inl ⟨r, h1, h2, h3, h4, fun hc => absurd hc hlt, fun hc => absurd hc (by simp)⟩

theorem Table.insert_ok {m : Mem} {t : Table} {R : List (Nat × Nat)} (h : Ok fl m (t.owns ++ R)) (hi : t.Inv) (o : Table.Outcome) (ho : o = .deleted → 0 < t.deleted) :
    (∃ r, t.insert m o = .ok r ∧ Ok fl r.1 (r.2.owns ++ R) ∧ r.2.Inv) ∨ t.insert m o = .error .fatal ∧ 1675364863 ≤ t.rowCount := by
  have main : ∀ (m : Mem) (b e c k x y : Nat), (c, k) ∈ HTable.sizes → x + y < k → Ok fl m (Table.owns ⟨some (.block b), e, c, k, x, y⟩ ++ R) → (o = .deleted → 0 < y) →
      (∃ r, (match o with
        | .stays => Except.ok (m.access (some (.block b)) (e * c), (⟨some (.block b), e, c, k, x, y⟩ : Table))
        | .empty => Table.resize (m.access (some (.block b)) (e * c)) ⟨some (.block b), e, c, k, x + 1, y⟩
        | .deleted => Table.resize (m.access (some (.block b)) (e * c)) ⟨some (.block b), e, c, k, x + 1, y - 1⟩) = .ok r ∧ Ok fl r.1 (r.2.owns ++ R) ∧ r.2.Inv) ∨
      (match o with
        | .stays => Except.ok (m.access (some (.block b)) (e * c), (⟨some (.block b), e, c, k, x, y⟩ : Table))
        | .empty => Table.resize (m.access (some (.block b)) (e * c)) ⟨some (.block b), e, c, k, x + 1, y⟩
        | .deleted => Table.resize (m.access (some (.block b)) (e * c)) ⟨some (.block b), e, c, k, x + 1, y - 1⟩) = .error .fatal ∧ 1675364863 ≤ c ∧ k ≤ x + 1 + y := by
    intro m b e c k x y hs hk h hd
    have ha : Ok fl (m.access (some (.block b)) (e * c)) (Table.owns ⟨some (.block b), e, c, k, x, y⟩ ++ R) := h.access (sz := e * c) (by simp [Table.owns]) (Nat.le_refl _)
    cases o with
    | stays => exact .inl ⟨_, rfl, ha, .block _ _ _ _ _ _ hs hk⟩
    | empty =>
      rcases Table.resize_ok (t := ⟨some (.block b), e, c, k, x + 1, y⟩) ha (.inr ⟨b, rfl, hs, by simp only; omega⟩) with ⟨r, h1, h2, h3, _⟩ | h1
      · exact .inl ⟨r, h1, h2, h3⟩
      · exact .inr h1
    | deleted =>
      have := hd rfl
      rcases Table.resize_ok (t := ⟨some (.block b), e, c, k, x + 1, y - 1⟩) ha (.inr ⟨b, rfl, hs, by simp only; omega⟩) with ⟨r, h1, h2, h3, _⟩ | h1
      · exact .inl ⟨r, h1, h2, h3⟩
      · exact .inr ⟨h1.1, h1.2.1, by have := h1.2.2; simp only at this; omega⟩
  unfold Table.insert
  cases hi with
  | block b e c k x y hs hk =>
    rcases main m b e c k x y hs hk h ho with h1 | h1
    · exact .inl h1
    · exact .inr ⟨h1.1, h1.2.1⟩
  | init e =>
    rw [if_pos rfl]
    rcases Table.resize_ok (t := ⟨none, e, 0, 0, 0, 0⟩) h (.inl rfl) with ⟨⟨m', t'⟩, h1, h2, h3, h4, _, h5⟩ | h1
    · rw [h1]
      simp only at h2 h3 h4 h5
      cases h3 with
      | init e => exact absurd rfl h4
      | block b e c k x y hs hk =>
        obtain ⟨hx, hy⟩ := h5 trivial
        simp only at hx hy
        subst hx hy
        rcases main m' b e c k 0 0 hs hk h2 (fun hc => absurd (ho hc) (by simp)) with h6 | h6
        · exact .inl h6
        · have h7 := (sizes_pos _ hs).2
          have h8 := h6.2.2
          simp only at h7
          omega
    · exact absurd h1.2.1 (by simp)

theorem Table.find_ok {m : Mem} {t : Table} {R : List (Nat × Nat)} (h : Ok fl m (t.owns ++ R)) (hi : t.Inv) : Ok fl (t.find m) (t.owns ++ R) := by
  unfold Table.find
  split
  · cases hi with
    | init e => rename_i hc; simp at hc
    | block b e c k x y hs hk => exact h.access (sz := e * c) (by simp [Table.owns]) (Nat.le_refl _)
  · exact h

theorem Table.remove_ok {m : Mem} {t : Table} {R : List (Nat × Nat)} (h : Ok fl m (t.owns ++ R)) (hi : t.Inv) (f : Bool) : Ok fl (t.remove m f).1 ((t.remove m f).2.owns ++ R) ∧ (t.remove m f).2.Inv := by
  unfold Table.remove
  split
  · rename_i hc
    cases hi with
    | init e => simp at hc
    | block b e c k x y hs hk =>
      simp only at hc
      have ha : Ok fl (m.access (some (.block b)) (e * c)) (Table.owns ⟨some (.block b), e, c, k, x, y⟩ ++ R) := h.access (sz := e * c) (by simp [Table.owns]) (Nat.le_refl _)
      cases f
      · exact ⟨ha, .block _ _ _ _ _ _ hs hk⟩
      · exact ⟨ha, .block _ _ _ _ _ _ hs (by simp only; omega)⟩
  · exact ⟨h, hi⟩

theorem Table.removeAll_ok {m : Mem} {t : Table} {R : List (Nat × Nat)} (h : Ok fl m (t.owns ++ R)) (hi : t.Inv) : Ok fl (t.removeAll m).1 ((t.removeAll m).2.owns ++ R) ∧ (t.removeAll m).2.Inv := by
  refine ⟨Table.visit_ok h (fun x hx => List.mem_append_left _ hx) hi.rows, ?_⟩
  cases hi with
  | init e => exact .init e
  | block b e c k x y hs hk => exact .block _ _ _ _ _ _ hs (by simp only; omega)

theorem Table.finalize_ok {m : Mem} {t : Table} {R : List (Nat × Nat)} (h : Ok fl m (t.owns ++ R)) (hi : t.Inv) : Ok fl (t.finalize m) R := by
  have hv := Table.visit_ok h (fun x hx => List.mem_append_left _ hx) hi.rows
  unfold Table.finalize
  cases hi with
  | init e => exact hv
  | block b e c k x y hs hk => exact Ok.free (sz := e * c) hv

/-- The blocks of a pool. -/
def Pool.owns (p : Pool) : List (Nat × Nat) := p.blocks.map fun b => (b.1, 16 + p.nodeSize * b.2)

/-- Nodes are in blocks. -/
def Pool.Inside (bs : List (Nat × Nat)) (x : Nat × Nat) : Prop := ∃ b ∈ bs, b.1 = x.1 ∧ x.2 < b.2

structure Pool.Inv (p : Pool) : Prop where
  size : 8 ≤ p.nodeSize
  free : ∀ x ∈ p.free, Pool.Inside p.blocks x
  used : ∀ x ∈ p.used, Pool.Inside p.blocks x

theorem Pool.end_le {s i c : Nat} (h : i < c) {u : Nat} (hu : u ≤ s) : Pool.offset s i + u ≤ 16 + s * c := by
  have : s * (i + 1) ≤ s * c := Nat.mul_le_mul_left _ h
  rw [Nat.mul_succ] at this
  unfold Pool.offset
  omega

theorem Pool.access_ok {m : Mem} {p : Pool} {L : List (Nat × Nat)} (h : Ok fl m L) (hs : ∀ x ∈ p.owns, x ∈ L) {x : Nat × Nat} (hx : Pool.Inside p.blocks x) {u : Nat} (hu : u ≤ p.nodeSize) :
    Ok fl (m.access (some (.block x.1)) (Pool.offset p.nodeSize x.2 + u)) L := by
  obtain ⟨b, hb, he, hl⟩ := hx
  rw [← he]
  exact h.access (hs _ (List.mem_map_of_mem hb)) (Pool.end_le hl hu)

theorem Pool.pushAll_ok {s b c : Nat} {L : List (Nat × Nat)} (hs : 8 ≤ s) (hL : (b, 16 + s * c) ∈ L) (k : Nat) (hk : k ≤ c) (m : Mem) (p : Pool) (hp : p.nodeSize = s) (h : Ok fl m L) :
    Ok fl (Pool.pushAll b k m p).1 L ∧ (Pool.pushAll b k m p).2 = { p with free := (List.range k).reverse.map (fun i => (b, i)) ++ p.free } := by
  induction k with
  | zero => exact ⟨h, rfl⟩
  | succ k ih =>
    obtain ⟨h1, h2⟩ := ih (by omega)
    simp only [Pool.pushAll, Pool.push, h2]
    refine ⟨?_, ?_⟩
    · rw [hp]
      exact h1.access hL (Pool.end_le (by omega) hs)
    · simp [List.range_succ]

theorem Pool.addBlock_ok {m : Mem} {p : Pool} {R : List (Nat × Nat)} (h : Ok fl m (p.owns ++ R)) (hi : p.Inv) (n : Nat) :
    Ok fl (p.addBlock m n).1 ((p.addBlock m n).2.owns ++ R) ∧ (p.addBlock m n).2.Inv ∧ (p.addBlock m n).2.free ≠ [] ∧ (p.addBlock m n).2.nodeSize = p.nodeSize := by
  unfold Pool.addBlock
  simp only
  have hc : 32 ≤ (if (if p.blocks ≠ [] then p.nodeCount else n) < 32 then 32 else (if p.blocks ≠ [] then p.nodeCount else n)) := by
    generalize (if p.blocks ≠ [] then p.nodeCount else n) = d
    split <;> omega
  generalize (if (if p.blocks ≠ [] then p.nodeCount else n) < 32 then 32 else (if p.blocks ≠ [] then p.nodeCount else n)) = c at hc
  have h1 : Ok fl ((m.malloc (16 + p.nodeSize * c)).1.access (some (.block m.next)) 16) ((m.next, 16 + p.nodeSize * c) :: (p.owns ++ R)) :=
    (h.malloc _).access (sz := 16 + p.nodeSize * c) (by simp) (by omega)
  obtain ⟨h2, h3⟩ := Pool.pushAll_ok (c := c) hi.size (List.mem_cons_self ..) c (Nat.le_refl _) _ p rfl h1
  rw [h3]
  refine ⟨h2, ⟨hi.size, ?_, ?_⟩, ?_, rfl⟩
  · intro x hx
    rcases List.mem_append.1 hx with hx | hx
    · obtain ⟨i, hi', rfl⟩ := List.mem_map.1 hx
      exact ⟨(m.next, c), List.mem_cons_self .., rfl, by simpa using hi'⟩
    · obtain ⟨b, hb, hq⟩ := hi.free x hx
      exact ⟨b, List.mem_cons_of_mem _ hb, hq⟩
  · intro x hx
    obtain ⟨b, hb, hq⟩ := hi.used x hx
    exact ⟨b, List.mem_cons_of_mem _ hb, hq⟩
  · obtain ⟨c, rfl⟩ : ∃ d, c = d + 1 := ⟨c - 1, by omega⟩
    simp [List.range_succ]

theorem Pool.alloc_ok {m : Mem} {p : Pool} {R : List (Nat × Nat)} (h : Ok fl m (p.owns ++ R)) (hi : p.Inv) :
    ∃ r, p.alloc m = .ok r ∧ Ok fl r.1 (r.2.owns ++ R) ∧ r.2.Inv := by
  have main : ∀ (m : Mem) (q : Pool), Ok fl m (q.owns ++ R) → q.Inv → q.free ≠ [] → q.nodeSize = p.nodeSize →
      ∃ r, (match q.free with
        | [] => Except.error Err.illegal
        | x :: rest => .ok (m.access (some (.block x.1)) (Pool.offset p.nodeSize x.2 + p.nodeSize), { q with free := rest, used := x :: q.used })) = .ok r ∧ Ok fl r.1 (r.2.owns ++ R) ∧ r.2.Inv := by
    intro m q h hi hf hn
    cases hq : q.free with
    | nil => exact absurd hq hf
    | cons x rest =>
      have hx := hi.free x (hq ▸ List.mem_cons_self ..)
      refine ⟨_, rfl, ?_, hi.size, fun y hy => hi.free y (hq ▸ List.mem_cons_of_mem _ hy), ?_⟩
      · rw [← hn]
        exact Pool.access_ok (p := q) h (fun _ hy => List.mem_append_left _ hy) hx (Nat.le_refl _)
      · intro y hy
        rcases List.mem_cons.1 hy with rfl | hy
        · exact hx
        · exact hi.used y hy
  unfold Pool.alloc
  by_cases hf : p.free = []
  · simp only [if_pos hf]
    obtain ⟨h1, h2, h3, h4⟩ := Pool.addBlock_ok h hi 0
    exact main _ _ h1 h2 h3 h4
  · simp only [if_neg hf]
    exact main m p h hi hf rfl

theorem Pool.release_ok {m : Mem} {p : Pool} {R : List (Nat × Nat)} (h : Ok fl m (p.owns ++ R)) (hi : p.Inv) {x : Nat × Nat} (hx : x ∈ p.used) :
    Ok fl (p.release m x).1 ((p.release m x).2.owns ++ R) ∧ (p.release m x).2.Inv := by
  refine ⟨Pool.access_ok (p := p) h (fun _ hy => List.mem_append_left _ hy) (hi.used x hx) hi.size, hi.size, ?_, ?_⟩
  · intro y hy
    rcases List.mem_cons.1 hy with rfl | hy
    · exact hi.used _ hx
    · exact hi.free y hy
  · exact fun y hy => hi.used y (List.mem_of_mem_erase hy)

theorem Pool.finalize_ok {m : Mem} {p : Pool} {R : List (Nat × Nat)} (h : Ok fl m (p.owns ++ R)) : Ok fl (p.finalize m) R := by
  unfold Pool.finalize
  obtain ⟨bs, s, c, f, u⟩ := p
  simp only [Pool.owns] at h ⊢
  induction bs generalizing m with
  | nil => exact h
  | cons b bs ih =>
    simp only [List.foldl_cons]
    refine ih (Ok.free (sz := 16 + s * b.2) ?_)
    exact Ok.access h (sz := 16 + s * b.2) (by simp) (by omega)

theorem Pool.init_ok {m : Mem} {R : List (Nat × Nat)} (h : Ok fl m R) {s n : Nat} (hs : 8 ≤ s) : Ok fl (Pool.init m s n).1 ((Pool.init m s n).2.owns ++ R) ∧ (Pool.init m s n).2.Inv := by
  have hi : Pool.Inv ⟨[], s, 0, [], []⟩ := ⟨hs, by simp, by simp⟩
  unfold Pool.init
  simp only
  split
  · obtain ⟨h1, h2, _⟩ := Pool.addBlock_ok (R := R) (m := m) (p := ⟨[], s, 0, [], []⟩) h hi n
    exact ⟨h1, h2⟩
  · exact ⟨h, hi⟩

/-- The block of an object. -/
def Object.owns (o : Object) : List (Nat × Nat) :=
  match o.ptr with
  | .block b => [(b, o.structSize + o.extra)]
  | _ => []

def Object.Inv (o : Object) : Prop := ∃ b, o.ptr = .block b

def Container.owns : Container → List (Nat × Nat)
  | .arr a => a.owns
  | .bytes a => a.owns
  | .table t => t.owns
  | .pool p => p.owns
  | .object o => o.owns

def Container.Inv : Container → Prop
  | .arr a => a.Inv
  | .bytes a => a.Inv
  | .table t => t.Inv
  | .pool p => p.Inv
  | .object o => o.Inv

theorem create_ok {m : Mem} {R : List (Nat × Nat)} (h : Ok fl m R) (x : New) (hx : ∀ s n, x = .pool s n → 8 ≤ s) : Ok fl (create m x).1 ((create m x).2.owns ++ R) ∧ (create m x).2.Inv := by
  cases x with
  | arr e => exact ⟨h, .init e⟩
  | externalArr e n => exact ⟨h, .external e n⟩
  | bytes => exact ⟨h, .init⟩
  | externalBytes n => exact ⟨h, .external n⟩
  | table r => exact ⟨h, .init r⟩
  | pool s n => exact Pool.init_ok h (hx s n rfl)
  | object s e => exact ⟨(h.malloc (s + e)).access (sz := s + e) (by simp) (by omega), ⟨m.next, rfl⟩⟩

theorem apply_ok {m : Mem} {c : Container} {R : List (Nat × Nat)} (h : Ok fl m (c.owns ++ R)) (hi : c.Inv) {o : Op} (ha : Allowed c o) :
    (∃ r, apply m c o = .ok r ∧ Ok fl r.1 (r.2.owns ++ R) ∧ r.2.Inv) ∨ apply m c o = .error .fatal ∧ ∃ t, c = .table t ∧ 1675364863 ≤ t.rowCount := by
  cases c with
  | arr a =>
    refine .inl ?_
    cases o with
    | reserve n => have := Arr.reserve_ok h hi ha n; exact ⟨_, rfl, this.1, this.2.1⟩
    | setLength n => have := Arr.setLength_ok h hi ha n; exact ⟨_, rfl, this⟩
    | replace l k n => have := Arr.replace_ok (n := n) h hi ha.1 ha.2; exact ⟨_, rfl, this⟩
    | append n => have := Arr.replace_ok (loc := a.length) (len := 0) (n := n) h hi ha (Nat.le_refl _); exact ⟨_, rfl, this⟩
    | visit => exact ⟨_, rfl, Arr.visit_ok h (fun _ hx => hx) hi, hi⟩
    | permute => exact ⟨_, rfl, Arr.permute_ok h hi, hi⟩
    | _ => exact absurd ha id
  | bytes a =>
    refine .inl ?_
    cases o with
    | reserve n => have := Bytes.reserve_ok h hi ha n; exact ⟨_, rfl, this.1, this.2.1⟩
    | setLength n => have := Bytes.setLength_ok h hi ha n; exact ⟨_, rfl, this⟩
    | replace l k n => have := Bytes.replace_ok (n := n) h hi ha.1 ha.2; exact ⟨_, rfl, this.1, this.2.1⟩
    | append n => have := Bytes.replace_ok (loc := a.length) (len := 0) (n := n) h hi ha (Nat.le_refl _); exact ⟨_, rfl, this.1, this.2.1⟩
    | align k => have := Bytes.align_ok h hi ha.1 ha.2; exact ⟨_, rfl, this⟩
    | visit => exact ⟨_, rfl, Bytes.visit_ok h hi, hi⟩
    | _ => exact absurd ha id
  | table t =>
    cases o with
    | insert o =>
      have hd : o = .deleted → 0 < t.deleted := by rintro rfl; exact ha
      rcases Table.insert_ok h hi o hd with ⟨r, h1, h2, h3⟩ | h1
      · exact .inl ⟨(r.1, .table r.2), by simp [apply, h1, Except.map], h2, h3⟩
      · exact .inr ⟨by simp [apply, h1.1, Except.map], t, rfl, h1.2⟩
    | find => exact .inl ⟨_, rfl, Table.find_ok h hi, hi⟩
    | remove f => have := Table.remove_ok h hi f; exact .inl ⟨_, rfl, this⟩
    | removeAll => have := Table.removeAll_ok h hi; exact .inl ⟨_, rfl, this⟩
    | visit => exact .inl ⟨_, rfl, Table.visit_ok h (fun x hx => List.mem_append_left _ hx) (Table.Inv.rows hi), hi⟩
    | _ => exact absurd ha id
  | pool p =>
    refine .inl ?_
    cases o with
    | alloc =>
      obtain ⟨r, h1, h2, h3⟩ := Pool.alloc_ok h hi
      exact ⟨(r.1, .pool r.2), by simp [apply, h1, Except.map], h2, h3⟩
    | free x => have := Pool.release_ok h hi ha; exact ⟨_, rfl, this⟩
    | _ => exact absurd ha id
  | object q =>
    refine .inl ?_
    cases o with
    | visit =>
      refine ⟨_, rfl, ?_, hi⟩
      obtain ⟨b, hb⟩ := hi
      have hm : (b, q.structSize + q.extra) ∈ Container.owns (.object q) ++ R := by simp [Container.owns, Object.owns, hb]
      have := h.access hm (Nat.le_refl _)
      simpa only [hb] using this
    | _ => exact absurd ha id

/-- The blocks of all containers. -/
def allOwned (l : List (Option Container)) : List (Nat × Nat) := l.flatMap fun c => match c with | some c => c.owns | none => []

theorem allOwned_split {l : List (Option Container)} {i : Nat} {c : Container} (h : l[i]? = some (some c)) : (allOwned l).Perm (c.owns ++ allOwned (l.set i none)) := by
  induction l generalizing i with
  | nil => simp at h
  | cons x l ih =>
    cases i with
    | zero =>
      simp only [List.getElem?_cons_zero, Option.some.injEq] at h
      subst h
      simp [allOwned]
    | succ i =>
      simp only [List.getElem?_cons_succ] at h
      have := ih h
      simp only [allOwned, List.set_cons_succ, List.flatMap_cons] at this ⊢
      refine (this.append_left _).trans ?_
      rw [← List.append_assoc, ← List.append_assoc]
      exact List.perm_append_comm.append_right _

structure Inv (fl : Bool) (s : State) : Prop where
  ok : Ok fl s.mem (allOwned s.containers ++ s.undead.flatMap Object.owns)
  inv : ∀ c, some c ∈ s.containers → c.Inv
  dead : ∀ o ∈ s.undead, o.Inv

theorem Inv.init : Inv false State.init :=
  ⟨⟨⟨rfl, rfl, by simp [State.init]⟩, by simp [State.init, allOwned], by simp [State.init, allOwned], [], rfl, by simp [State.init, allOwned]⟩, by simp [State.init], by simp [State.init]⟩

theorem Ok.setAllocator {m : Mem} {L : List (Nat × Nat)} (h : Ok fl m L) (h0 : m.next = 0) (b : Bool) : Ok b { m with mallocSet := b, freeSet := b } L := by
  obtain ⟨⟨_, _, he⟩, h2, h3, l, h4, h5⟩ := h
  have hL : L = [] := by
    cases L with
    | nil => rfl
    | cons x L => have := h3 x (List.mem_cons_self ..); omega
  subst hL
  exact ⟨⟨rfl, rfl, fun e hx c hc => absurd h0 (he e hx c hc).2⟩, h2, by simp, l, h4, h5⟩

theorem destroy_ok {s : State} {c : Container} {R : List (Nat × Nat)} (h : Ok fl s.mem (c.owns ++ R ++ s.undead.flatMap Object.owns)) (hi : c.Inv) :
    Ok fl (destroy s c).mem (R ++ (destroy s c).undead.flatMap Object.owns) := by
  rw [List.append_assoc] at h
  cases c with
  | arr a => exact Arr.finalize_ok h hi
  | bytes a => exact Bytes.finalize_ok h hi
  | table t => exact Table.finalize_ok h hi
  | pool p => exact Pool.finalize_ok h
  | object o =>
    obtain ⟨b, hb⟩ := hi
    have ho : Container.owns (.object o) = [(b, o.structSize + o.extra)] := by simp [Container.owns, Object.owns, hb]
    simp only [destroy]
    split
    · simp only [List.flatMap_cons]
      rw [ho] at h
      have h1 := h.access (upto := o.structSize) (List.mem_cons_self ..) (by omega)
      have ho' : o.owns = [(b, o.structSize + o.extra)] := ho
      rw [ho', hb]
      refine h1.perm ?_
      rw [← List.append_assoc, ← List.append_assoc]
      exact List.perm_append_comm.append_right _
    · simp only [hb]
      rw [ho] at h
      exact Ok.free h

theorem destroy_fields (s : State) (c : Container) : (destroy s c).started = s.started ∧ (destroy s c).zombies = s.zombies ∧
    (destroy s c).containers = s.containers ∧ (∀ o ∈ (destroy s c).undead, o ∈ s.undead ∨ c = .object o) ∧ (s.zombies = false → (destroy s c).undead = s.undead) := by
  cases c <;> simp only [destroy, true_and] <;> try exact ⟨fun o h => .inl h, fun _ => trivial⟩
  split
  · rename_i o hz
    refine ⟨rfl, rfl, rfl, fun q hq => ?_, fun hf => by simp [hf] at hz⟩
    rcases List.mem_cons.1 hq with rfl | hq
    · exact .inr rfl
    · exact .inl hq
  · exact ⟨rfl, rfl, rfl, fun q hq => .inl hq, fun _ => rfl⟩

theorem mem_set_cases {l : List (Option Container)} {i : Nat} {x : Option Container} {c : Container} (h : some c ∈ l.set i x) : some c = x ∨ some c ∈ l := by
  rcases List.mem_or_eq_of_mem_set h with h | h
  · exact .inr h
  · exact .inl h

theorem allOwned_set {l : List (Option Container)} {i : Nat} {c : Container} (h : l[i]? = some (some c)) (d : Container) :
    (allOwned (l.set i (some d))).Perm (d.owns ++ allOwned (l.set i none)) := by
  have hl : i < l.length := (List.getElem?_eq_some_iff.1 h).1
  have := allOwned_split (l := l.set i (some d)) (i := i) (c := d) (by simp [hl])
  simpa [List.set_set] using this

theorem step_ok {s : State} (h : Inv fl s) {a : Action} (ha : Legal s a) : (∃ t, step s a = .ok t ∧ Inv (functions fl [a]) t ∧ (t.zombies = false → s.undead = [] → t.undead = [])) ∨
    step s a = .error .fatal ∧ ∃ t, some (.table t) ∈ s.containers ∧ 1675364863 ≤ t.rowCount := by
  cases a with
  | setAllocator m f =>
    obtain ⟨rfl, hs, h0⟩ := ha
    exact .inl ⟨{ s with mem := { s.mem with mallocSet := m, freeSet := m } }, by simp [step, hs], ⟨h.ok.setAllocator h0 m, h.inv, h.dead⟩, fun _ hu => hu⟩
  | start z =>
    refine .inl ⟨_, rfl, ?_, ?_⟩
    · split
      · exact h
      · exact ⟨h.ok, h.inv, h.dead⟩
    · split <;> exact fun _ hu => hu
  | new x =>
    have hx : ∀ p n, x = .pool p n → 8 ≤ p := by rintro p n rfl; exact ha
    obtain ⟨h1, h2⟩ := create_ok h.ok x hx
    refine .inl ⟨_, rfl, ⟨?_, ?_, h.dead⟩, fun _ hu => hu⟩
    · refine h1.perm ?_
      simp only [allOwned, List.flatMap_append, List.flatMap_cons, List.flatMap_nil, List.append_nil]
      rw [← List.append_assoc]
      exact List.perm_append_comm.append_right _
    · intro c hc
      rcases List.mem_append.1 hc with hc | hc
      · exact h.inv c hc
      · simp only [List.mem_singleton, Option.some.injEq] at hc
        exact hc ▸ h2
  | op i o =>
    obtain ⟨c, hc, hal⟩ := ha
    have hp := h.ok.perm ((allOwned_split hc).append_right _)
    rw [List.append_assoc] at hp
    rcases apply_ok hp (h.inv c (List.mem_of_getElem? hc)) hal with ⟨r, h1, h2, h3⟩ | h1
    · refine .inl ⟨{ s with mem := r.1, containers := s.containers.set i (some r.2) }, by simp [step, hc, h1, Except.map], ⟨?_, ?_, h.dead⟩, fun _ hu => hu⟩
      · refine h2.perm ?_
        rw [← List.append_assoc]
        exact (allOwned_set hc r.2).symm.append_right _
      · intro d hd
        rcases mem_set_cases hd with hd | hd
        · injection hd with hd
          exact hd ▸ h3
        · exact h.inv d hd
    · obtain ⟨h1, t, rfl, ht⟩ := h1
      exact .inr ⟨by simp [step, hc, h1, Except.map], t, List.mem_of_getElem? hc, ht⟩
  | finalize i =>
    obtain ⟨c, hc⟩ := ha
    have hp := h.ok.perm ((allOwned_split hc).append_right _)
    have hci := h.inv c (List.mem_of_getElem? hc)
    have hd := destroy_ok hp hci
    obtain ⟨hf1, hf2, hf3, hf4, hf5⟩ := destroy_fields s c
    refine .inl ⟨{ destroy s c with containers := s.containers.set i none }, by simp [step, hc], ⟨hd, ?_, ?_⟩, ?_⟩
    · intro d hd
      rcases mem_set_cases hd with hd | hd
      · cases hd
      · exact h.inv d hd
    · intro o ho
      rcases hf4 o ho with ho | rfl
      · exact h.dead o ho
      · exact hci
    · intro hz hu
      simp only at hz ⊢
      rw [hf2] at hz
      rw [hf5 hz, hu]

theorem functions_cons (a : Action) (as : List Action) : functions fl (a :: as) = functions (functions fl [a]) as := by cases a <;> rfl

theorem run_ok {as : List Action} {s : State} (h : Inv fl s) (ha : Keeps s as) : (∃ t, run s as = .ok t ∧ Inv (functions fl as) t) ∨
    run s as = .error .fatal ∧ ∃ bs u t, bs <+: as ∧ run s bs = .ok u ∧ some (.table t) ∈ u.containers ∧ 1675364863 ≤ t.rowCount := by
  induction as generalizing s fl with
  | nil => exact .inl ⟨s, rfl, h⟩
  | cons a as ih =>
    rcases step_ok h ha.1 with ⟨t, h1, h2, _⟩ | h1
    · simp only [run, h1, Except.bind]
      rw [functions_cons]
      rcases ih h2 (ha.2 t h1) with h4 | ⟨h4, bs, u, q, h5, h6, h7⟩
      · exact .inl h4
      · exact .inr ⟨h4, a :: bs, u, q, (List.prefix_cons_inj a).2 h5, by simp [run, h1, Except.bind, h6], h7⟩
    · obtain ⟨h1, q, hq⟩ := h1
      exact .inr ⟨by simp [run, h1, Except.bind], [], s, q, List.nil_prefix, rfl, hq⟩

theorem step_zombies {s t : State} {a : Action} (h : step s a = .ok t) : (s.started = true → t.started = true ∧ t.zombies = s.zombies) ∧ (a ≠ .start true → s.zombies = false → t.zombies = false) := by
  cases a with
  | setAllocator m f =>
    simp only [step] at h
    split at h <;> cases h
    exact ⟨fun hs => ⟨hs, rfl⟩, fun _ hz => hz⟩
  | start z =>
    simp only [step] at h
    split at h <;> cases h
    · exact ⟨fun hs => ⟨hs, rfl⟩, fun _ hz => hz⟩
    · refine ⟨fun hs => absurd hs (by assumption), fun hn _ => ?_⟩
      cases z
      · rfl
      · exact absurd rfl hn
  | new x => cases h; exact ⟨fun hs => ⟨hs, rfl⟩, fun _ hz => hz⟩
  | op i o =>
    simp only [step] at h
    split at h
    · rename_i c hc
      cases hq : apply s.mem c o with
      | error e => rw [hq] at h; cases h
      | ok r => rw [hq] at h; cases h; exact ⟨fun hs => ⟨hs, rfl⟩, fun _ hz => hz⟩
    · cases h
  | finalize i =>
    simp only [step] at h
    split at h
    · rename_i c hc
      cases h
      obtain ⟨hf1, hf2, _⟩ := destroy_fields s c
      simp only [hf1, hf2]
      exact ⟨fun hs => ⟨hs, trivial⟩, fun _ hz => hz⟩
    · cases h

theorem run_undead {as : List Action} {s t : State} (h : Inv fl s) (ha : Keeps s as) (hz : .start true ∉ as) (hs : s.zombies = false) (hu : s.undead = []) (hr : run s as = .ok t) : t.undead = [] := by
  induction as generalizing s fl with
  | nil => cases hr; exact hu
  | cons a as ih =>
    rcases step_ok h ha.1 with ⟨q, h1, h2, h3⟩ | h1
    · simp only [run, h1, Except.bind] at hr
      have hq := (step_zombies h1).2 (fun he => hz (he ▸ List.mem_cons_self ..)) hs
      exact ih h2 (ha.2 q h1) (fun hm => hz (List.mem_cons_of_mem _ hm)) hq (h3 hq hu) hr
    · simp [run, h1.1, Except.bind] at hr

/-- The blocks of a container have the sizes of the specification. -/
theorem footprint_owns {c : Container} (h : c.Inv) : c.owns.map (·.2) = footprint c := by
  cases c with
  | arr a =>
    cases h with
    | init e => rfl
    | external e n => rfl
    | block b e n k hk hn => simp [Container.owns, Arr.owns, footprint, hk]
  | bytes a =>
    cases h with
    | init => rfl
    | external n => rfl
    | block b n k hk hn => simp [Container.owns, Bytes.owns, footprint, hk]
  | table t =>
    cases h with
    | init e => rfl
    | block b e c k x y hs hk => simp [Container.owns, Table.owns, footprint, (sizes_pos _ hs).1]
  | pool p => simp [Container.owns, Pool.owns, footprint, List.map_map, Function.comp_def]
  | object o =>
    obtain ⟨b, hb⟩ := h
    simp [Container.owns, Object.owns, footprint, hb]

theorem Inv.safe {s : State} (h : Inv fl s) : Safe s.mem.trace := by
  obtain ⟨_, _, _, l, h4, _⟩ := h.ok
  simp [Safe, h4]

theorem allOwned_sizes {l : List (Option Container)} (h : ∀ c, some c ∈ l → c.Inv) : (allOwned l).map (·.2) = l.flatMap fun c => match c with | some c => footprint c | none => [] := by
  induction l with
  | nil => rfl
  | cons x l ih =>
    have := ih fun c hc => h c (List.mem_cons_of_mem _ hc)
    simp only [allOwned, List.flatMap_cons, List.map_append] at this ⊢
    rw [this]
    cases x with
    | none => rfl
    | some c => rw [footprint_owns (h c (List.mem_cons_self ..))]

theorem Inv.sizes {s : State} (h : Inv fl s) (hu : s.undead = []) :
    (outstanding s.mem.trace).Perm (s.containers.flatMap fun c => match c with | some c => footprint c | none => []) := by
  obtain ⟨_, _, _, l, h4, h5⟩ := h.ok
  rw [← allOwned_sizes h.inv]
  simp only [outstanding, h4, Option.getD_some]
  have := h5.map (·.2.1)
  simpa [hu, List.map_map, Function.comp_def] using this

theorem allowedB_sound {c : Container} {o : Op} (h : allowedB c o = true) : Allowed c o := by
  cases c <;> cases o <;> (try rename_i o; cases o) <;> simp_all [allowedB, Allowed]

theorem legalB_sound {s : State} {a : Action} (h : legalB s a = true) : Legal s a := by
  cases a with
  | setAllocator m f => simpa [legalB, Legal, and_assoc] using h
  | start z => trivial
  | new x => cases x <;> simp_all [legalB, Legal]
  | op i o =>
    simp only [legalB] at h
    split at h
    · exact ⟨_, by assumption, allowedB_sound h⟩
    · cases h
  | finalize i =>
    simp only [legalB] at h
    split at h
    · exact ⟨_, by assumption⟩
    · cases h

theorem keepsB_sound {as : List Action} {s : State} (h : keepsB s as = true) : Keeps s as := by
  induction as generalizing s with
  | nil => trivial
  | cons a as ih =>
    simp only [keepsB, Bool.and_eq_true] at h
    refine ⟨legalB_sound h.1, fun t ht => ih ?_⟩
    have := h.2
    rw [ht] at this
    exact this

end Memory
end Duck
