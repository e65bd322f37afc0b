import Verif.Spec.RefCount
/-! Helper lemmas for reference counting: the count word, sums over threads, and the invariant. -/
namespace Duck
namespace RefCount

/-! ### The count word -/

/-- The count word of a counted object. -/
def word (c : Nat) (b : Bool) : BitVec 32 := BitVec.ofNat 32 (c + if b then 2 ^ 30 else 0)

theorem word_toNat {c : Nat} (b : Bool) (hc : c < 2 ^ 28) : (word c b).toNat = c + if b then 2 ^ 30 else 0 := by
  unfold word
  rw [BitVec.toNat_ofNat, Nat.mod_eq_of_lt]
  cases b <;> simp <;> omega

theorem word_mask {c : Nat} (b : Bool) (hc : c < 2 ^ 28) : word c b &&& mask = BitVec.ofNat 32 c := by
  apply BitVec.eq_of_toNat_eq
  rw [BitVec.toNat_and, word_toNat b hc, show mask.toNat = 2 ^ 28 - 1 by decide, Nat.and_two_pow_sub_one_eq_mod, BitVec.toNat_ofNat]
  cases b <;> simp <;> omega

theorem word_mask_zero {c : Nat} (b : Bool) (hc : c < 2 ^ 28) : word c b &&& mask = 0 ↔ c = 0 := by
  rw [word_mask b hc]
  constructor
  · intro h
    have := congrArg BitVec.toNat h
    rw [BitVec.toNat_ofNat, Nat.mod_eq_of_lt (by omega)] at this
    simpa using this
  · rintro rfl; rfl

theorem word_mask_one {c : Nat} (b : Bool) (hc : c < 2 ^ 28) : word c b &&& mask = 1 ↔ c = 1 := by
  rw [word_mask b hc]
  constructor
  · intro h
    have := congrArg BitVec.toNat h
    rw [BitVec.toNat_ofNat, Nat.mod_eq_of_lt (by omega)] at this
    simpa using this
  · rintro rfl; rfl

theorem word_succ (c : Nat) (b : Bool) : word c b + 1 = word (c + 1) b := by
  unfold word
  show BitVec.ofNat 32 _ + BitVec.ofNat 32 1 = _
  rw [← BitVec.ofNat_add]
  congr 1; omega

theorem word_pred (c : Nat) (b : Bool) (h : 0 < c) : word c b - 1 = word (c - 1) b := by
  obtain ⟨c, rfl⟩ : ∃ d, c = d + 1 := ⟨c - 1, by omega⟩
  rw [← word_succ, BitVec.add_sub_cancel]; rfl

theorem word_bit {c i : Nat} (b : Bool) (hc : c < 2 ^ 28) (hi : 28 ≤ i) : (word c b).getLsbD i = (b && i == 30) := by
  rw [BitVec.getLsbD, word_toNat b hc]
  have h0 : c.testBit i = false := Nat.testBit_lt_two_pow (Nat.lt_of_lt_of_le hc (Nat.pow_le_pow_right (by omega) hi))
  cases b
  · simpa using h0
  · simp only [if_true, Bool.true_and]
    rw [show c + 2 ^ 30 = 2 ^ 30 * 1 + c by omega, Nat.two_pow_add_eq_or_of_lt (by omega), Nat.testBit_or, h0, Nat.mul_one, Nat.testBit_two_pow]
    simp only [Bool.or_false]
    rw [Bool.eq_iff_iff]; simp; omega

theorem word_disabled {c : Nat} (b : Bool) (hc : c < 2 ^ 28) : word c b &&& disabledBit = 0 := by
  have : word c b &&& disabledBit = if (word c b).getLsbD 29 then BitVec.twoPow 32 29 else 0#32 := by rw [← BitVec.and_twoPow]; rfl
  rw [this, word_bit b hc (by omega)]; simp

theorem word_metadata {c : Nat} (b : Bool) (hc : c < 2 ^ 28) : word c b &&& metadataBit = 0 ↔ b = false := by
  have : word c b &&& metadataBit = if (word c b).getLsbD 30 then BitVec.twoPow 32 30 else 0#32 := by rw [← BitVec.and_twoPow]; rfl
  rw [this, word_bit b hc (by omega)]
  cases b
  · simp
  · simp only [Bool.true_and, Bool.true_eq_false, iff_false]; decide

theorem word_or {c : Nat} (hc : c < 2 ^ 28) : word c false ||| metadataBit = word c true := by
  apply BitVec.eq_of_toNat_eq
  rw [BitVec.toNat_or, word_toNat _ hc, word_toNat _ hc, show metadataBit.toNat = 2 ^ 30 by decide, Nat.or_comm]
  simp only [if_true, Bool.false_eq_true, if_false, Nat.add_zero]
  have := Nat.two_pow_add_eq_or_of_lt (b := c) (i := 30) (by omega) 1
  simp only [Nat.mul_one] at this
  rw [← this]; omega

theorem word_zero (c : Nat) (b : Bool) (hc : c < 2 ^ 28) : word c b &&& ~~~mask = word 0 b := by
  apply BitVec.eq_of_getLsbD_eq
  intro i hi
  rw [BitVec.getLsbD_and, BitVec.getLsbD_not]
  by_cases h : 28 ≤ i
  · rw [word_bit b hc h, word_bit b (by omega) h]
    have : mask.getLsbD i = false := by
      rw [BitVec.getLsbD]; exact Nat.testBit_lt_two_pow (Nat.lt_of_lt_of_le (m := 2 ^ 28) (by decide) (Nat.pow_le_pow_right (by omega) h))
    rw [this, decide_eq_true hi]; simp
  · have h1 : mask.getLsbD i = true := by
      rw [BitVec.getLsbD, show mask.toNat = 2 ^ 28 - 1 by decide, Nat.testBit_two_pow_sub_one]; simp; omega
    have h2 : (word 0 b).getLsbD i = false := by
      rw [BitVec.getLsbD, word_toNat b (by omega)]
      cases b
      · simp
      · simp only [if_true, Nat.zero_add]; rw [Nat.testBit_two_pow]; simp; omega
    rw [h1, h2]; simp

theorem word_inj_bit {c d : Nat} {b b' : Bool} (hc : c < 2 ^ 28) (hd : d < 2 ^ 28) (h : word c b = word d b') : c = d ∧ b = b' := by
  have h1 := congrArg BitVec.toNat h
  rw [word_toNat b hc, word_toNat b' hd] at h1
  cases b <;> cases b' <;> simp at h1 ⊢ <;> omega

/-! ### Sums over threads -/

def total (f : Thread → Nat) (l : List Thread) : Nat := (l.map f).sum

theorem total_set (f : Thread → Nat) : ∀ (l : List Thread) (t : Nat) (x y : Thread), l[t]? = some x →
    total f (l.set t y) + f x = total f l + f y
  | [], t, x, y, h => by simp at h
  | a :: l, 0, x, y, h => by
      simp at h; subst h; simp [total]; omega
  | a :: l, t + 1, x, y, h => by
      have := total_set f l t x y (by simpa using h)
      simp [total] at this ⊢; omega

theorem total_ge (f : Thread → Nat) {l : List Thread} {t : Nat} {x : Thread} (h : l[t]? = some x) : f x ≤ total f l := by
  have : ∀ (l : List Thread) (t : Nat), l[t]? = some x → f x ≤ total f l := by
    intro l
    induction l with
    | nil => intro t h; simp at h
    | cons a l ih =>
        intro t h
        cases t with
        | zero => simp at h; subst h; simp [total]
        | succ t => have := ih t (by simpa using h); simp [total] at this ⊢; omega
  exact this l t h

theorem total_ge_two (f : Thread → Nat) : ∀ {l : List Thread} {t u : Nat} {x y : Thread}, l[t]? = some x → l[u]? = some y → t ≠ u →
    f x + f y ≤ total f l := by
  intro l
  induction l with
  | nil => intro t u x y h; simp at h
  | cons a l ih =>
      intro t u x y h h' hn
      cases t with
      | zero =>
          cases u with
          | zero => exact absurd rfl hn
          | succ u =>
              simp at h; subst h
              have := total_ge f (l := l) (t := u) (x := y) (by simpa using h')
              simp [total] at this ⊢; omega
      | succ t =>
          cases u with
          | zero =>
              simp at h'; subst h'
              have := total_ge f (l := l) (t := t) (x := x) (by simpa using h)
              simp [total] at this ⊢; omega
          | succ u =>
              have := ih (t := t) (u := u) (by simpa using h) (by simpa using h') (by omega)
              simp [total] at this ⊢; omega

theorem total_zero (f : Thread → Nat) : ∀ {l : List Thread}, (∀ th ∈ l, f th = 0) → total f l = 0
  | [], _ => rfl
  | a :: l, h => by
      have := total_zero f (l := l) (fun th hm => h th (List.mem_cons_of_mem _ hm))
      have := h a (List.mem_cons_self ..)
      simp [total] at *; omega

theorem total_le (f g : Thread → Nat) : ∀ (l : List Thread), (∀ th ∈ l, f th ≤ g th) → total f l ≤ total g l
  | [], _ => Nat.le_refl _
  | a :: l, h => by
      have h1 := total_le f g l (fun th hm => h th (List.mem_cons_of_mem _ hm))
      have h2 := h a (List.mem_cons_self ..)
      simp [total] at *; omega

/-! ### The invariant -/

/-- Strong references inside calls. -/
def PC.strong : PC → Nat
  | .relRead | .relDec | .find .release | .find .tryRelease | .insert .release | .insert .tryRelease
  | .relLock _ | .relDecL _ | .tryRead | .tryCas _ | .tryLock _ | .tryReadL _ | .tryCasL _ _
  | .tryUnlock _ false | .resUnlock _ true => 1
  | _ => 0

/-- The thread is freeing the object. -/
def PC.dying : PC → Nat
  | .relNull _ | .relUnlock _ true | .tryNull _ | .tryUnlock _ true | .remove _ | .dropRead _ | .dropDec _ | .fin | .dealloc => 1
  | _ => 0

/-- The thread has finalized the object. -/
def PC.finalized : PC → Nat
  | .dealloc => 1
  | _ => 0

/-- Weak references inside calls, and the reference of the table once removed from it. -/
def PC.weak : PC → Nat
  | .wrelRead _ | .wrelDec _ | .dropRead _ | .dropDec _ => 1
  | _ => 0

def strongOf (th : Thread) : Nat := th.strong + th.pc.strong
def dyingOf (th : Thread) : Nat := th.pc.dying
def finOf (th : Thread) : Nat := th.pc.finalized
def weakOf (th : Thread) : Nat := th.weak.length + th.pc.weak

/-- What the positions of threads depend on: the metadata is attached, who holds its lock, its target is set, it is in the
    table, and there are references. -/
structure View where
  att : Bool
  lock : Option Nat
  target : Bool
  table : Bool
  pos : Bool

/-- Position by position. -/
def PCInv (v : View) (t : Nat) (strong : Nat) (weak : List Nat) : PC → Prop
  | .idle | .relRead | .tryRead => True
  | .retainRead | .retainInc => 0 < strong
  | .relDec => v.att = false
  | .find .retainWeak | .insert .retainWeak => 0 < strong
  | .find _ => v.att = true
  | .insert _ => False
  | .relLock m | .tryLock m => m = 0 ∧ v.att = true
  | .relDecL m | .tryReadL m => m = 0 ∧ v.att = true ∧ v.lock = some t
  | .tryCasL m old => m = 0 ∧ v.att = true ∧ v.lock = some t ∧ old = word 1 true
  | .relNull m | .tryNull m => m = 0 ∧ v.att = true ∧ v.lock = some t ∧ v.table = true
  | .relUnlock m true | .tryUnlock m true => m = 0 ∧ v.att = true ∧ v.lock = some t ∧ v.table = true ∧ v.target = false
  | .relUnlock m false => m = 0 ∧ v.att = true ∧ v.lock = some t ∧ v.pos = true
  | .tryUnlock m false => m = 0 ∧ v.att = true ∧ v.lock = some t
  | .tryCas old => old = word 1 false
  | .remove m => m = 0 ∧ v.att = true ∧ v.table = true ∧ v.target = false
  | .dropRead m | .dropDec m => m = 0 ∧ v.att = true ∧ v.table = false ∧ v.target = false
  | .fin | .dealloc => v.att = true → v.table = false ∧ v.target = false
  | .weakRead m | .weakInc m => m = 0 ∧ v.att = true ∧ 0 < strong
  | .resLock m => m = 0 ∧ weak ≠ []
  | .resRead m => m = 0 ∧ weak ≠ [] ∧ v.lock = some t
  | .resRetain m | .resInc m => m = 0 ∧ weak ≠ [] ∧ v.lock = some t ∧ v.target = true ∧ v.pos = true
  | .resUnlock m true => m = 0 ∧ weak ≠ [] ∧ v.lock = some t
  | .resUnlock m false => m = 0 ∧ weak ≠ [] ∧ v.lock = some t ∧ v.pos = false
  | .wrelRead m | .wrelDec m => m = 0 ∧ v.att = true

/-- A result once returned stays true. -/
def LastInv (v : View) : Result → Prop
  | .resolved false => v.pos = false
  | _ => True

def ThreadInv (v : View) (t : Nat) (th : Thread) : Prop :=
  (∀ m ∈ th.weak, m = 0 ∧ v.att = true) ∧ PCInv v t th.strong th.weak th.pc ∧ LastInv v th.last

/-- The view of a state. -/
def State.view (s : State) : View :=
  ⟨!s.metas.isEmpty, s.metas[0]?.bind (·.lock), (s.metas[0]?.map (·.target)).getD false, s.table.isSome, 0 < total strongOf s.threads⟩

/-- The position from which a lock holder clears the target. -/
def PC.nulling : PC → Bool
  | .relNull _ | .tryNull _ => true
  | _ => false

/-- The invariant of a counted object. -/
structure Inv (s : State) : Prop where
  few : total strongOf s.threads < 2 ^ 28
  rc : s.rc = word (total strongOf s.threads) (!s.metas.isEmpty)
  dying : total dyingOf s.threads + s.frees = if total strongOf s.threads = 0 then 1 else 0
  fins : s.fins = s.frees + total finOf s.threads
  one : s.metas.length ≤ 1
  gone : 0 < s.frees → s.table = none
  table : ∀ m, s.table = some m → m = 0 ∧ s.metas ≠ []
  kept : s.metas ≠ [] → 0 < total strongOf s.threads → s.table = some 0
  count : ∀ x, s.metas[0]? = some x → x.rc = total weakOf s.threads + (if s.table.isSome then 1 else 0) ∧
    x.frees = if x.rc = 0 then 1 else 0
  bare : s.metas = [] → total weakOf s.threads = 0
  target : ∀ x, s.metas[0]? = some x → (x.target = false → total strongOf s.threads = 0) ∧
    (total strongOf s.threads = 0 → x.target = false ∨ ∃ t th, x.lock = some t ∧ s.threads[t]? = some th ∧ th.pc.nulling = true)
  thread : ∀ t th, s.threads[t]? = some th → ThreadInv s.view t th

end RefCount
end Duck
