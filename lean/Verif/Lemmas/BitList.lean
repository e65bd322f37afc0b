import Verif.Spec.BitList
/-! Words as bits. -/
namespace Duck
namespace BitList

/-- Bit `i` of the words. -/
def bit (ws : List (BitVec 32)) (i : Nat) : Bool := (ws[i / 32]?.getD 0).getLsbD (i % 32)

theorem and_shift (w : BitVec 32) (j : Nat) (hj : j < 32) : (w &&& (1#32 <<< j) != 0) = w.getLsbD j := by
  have e : w &&& (1#32 <<< j) = if w.getLsbD j then BitVec.twoPow 32 j else 0#32 := by
    rw [show (1#32 <<< j) = BitVec.twoPow 32 j from rfl, BitVec.and_twoPow]
  rw [e]
  cases w.getLsbD j
  · rfl
  · have : BitVec.twoPow 32 j ≠ 0#32 := by
      intro h
      have := congrArg (fun x => BitVec.getLsbD x j) h
      simp [BitVec.getLsbD_twoPow, hj] at this
    simpa using this

theorem test_shift (w : BitVec 32) (j : Nat) (hj : j < 32) : ((w &&& (1#32 <<< j)) >>> j != 0) = w.getLsbD j := by
  have e : w &&& (1#32 <<< j) = if w.getLsbD j then BitVec.twoPow 32 j else 0#32 := by
    rw [show (1#32 <<< j) = BitVec.twoPow 32 j from rfl, BitVec.and_twoPow]
  rw [e]
  cases w.getLsbD j
  · simp
  · have : BitVec.twoPow 32 j >>> j ≠ 0#32 := by
      intro h
      have := congrArg (fun x => BitVec.getLsbD x 0) h
      simp [BitVec.getLsbD_twoPow, hj] at this
    simpa using this

theorem shift_and_one (w : BitVec 32) (j : Nat) : ((w >>> j) &&& 1#32).toNat = if w.getLsbD j then 1 else 0 := by
  rw [BitVec.and_one_eq_setWidth_ofBool_getLsbD, BitVec.getLsbD_ushiftRight, Nat.add_zero]
  cases w.getLsbD j <;> rfl

theorem not_shift_and_one (w : BitVec 32) (j : Nat) (hj : j < 32) :
    (~~~(w >>> j) &&& 1#32).toNat = if w.getLsbD j then 0 else 1 := by
  rw [BitVec.and_one_eq_setWidth_ofBool_getLsbD, BitVec.getLsbD_not, BitVec.getLsbD_ushiftRight, Nat.add_zero]
  cases w.getLsbD j <;> rfl

theorem neg_one_bit (j : Nat) (hj : j < 32) : (-1#32).getLsbD j = true := by
  rw [show (-1#32) = BitVec.allOnes 32 from by decide, BitVec.getLsbD_allOnes]; simp [hj]

theorem bit_replicate {n i : Nat} (hi : i < 32 * n) (b : Bool) : bit (List.replicate n (if b then -1 else 0)) i = b := by
  unfold bit
  rw [List.getElem?_replicate, if_pos (by omega)]
  cases b
  · simp
  · exact neg_one_bit _ (Nat.mod_lt _ (by omega))

theorem bit_map_not {ws : List (BitVec 32)} {i : Nat} (hi : i < 32 * ws.length) : bit (ws.map (~~~ ·)) i = !bit ws i := by
  unfold bit
  have h : i / 32 < ws.length := by omega
  simp [List.getElem?_eq_getElem h, Nat.mod_lt]

theorem bit_set {ws : List (BitVec 32)} {i k : Nat} (hk : k < 32 * ws.length) (f : BitVec 32 → BitVec 32 → BitVec 32)
    (g : Bool → Bool) (hf : ∀ w j o, j < 32 → o < 32 → (f w (1#32 <<< o)).getLsbD j = if j = o then g (w.getLsbD j) else w.getLsbD j) :
    bit (ws.set (k / 32) (f (ws[k / 32]?.getD 0) (1#32 <<< (k % 32)))) i = if i = k then g (bit ws k) else bit ws i := by
  unfold bit
  have h : k / 32 < ws.length := by omega
  rw [List.getElem?_set]
  by_cases he : k / 32 = i / 32
  · rw [if_pos he, if_pos h]
    simp only [Option.getD_some]
    rw [hf _ _ _ (Nat.mod_lt _ (by omega)) (Nat.mod_lt _ (by omega)), he]
    by_cases hik : i = k
    · subst hik; simp
    · rw [if_neg hik, if_neg (by omega)]
  · rw [if_neg he, if_neg (by rintro rfl; exact he rfl)]

theorem or_bit (w : BitVec 32) (j o : Nat) (hj : j < 32) (_ho : o < 32) :
    (w ||| (1#32 <<< o)).getLsbD j = if j = o then true else w.getLsbD j := by
  rw [show (1#32 <<< o) = BitVec.twoPow 32 o from rfl, BitVec.getLsbD_or, BitVec.getLsbD_twoPow]
  by_cases h : j = o
  · subst h; simp [hj]
  · simp [h, Ne.symm h]

theorem clear_bit (w : BitVec 32) (j o : Nat) (hj : j < 32) (_ho : o < 32) :
    (w &&& ~~~(1#32 <<< o)).getLsbD j = if j = o then false else w.getLsbD j := by
  rw [show (1#32 <<< o) = BitVec.twoPow 32 o from rfl, BitVec.getLsbD_and, BitVec.getLsbD_not, BitVec.getLsbD_twoPow]
  by_cases h : j = o
  · subst h; simp [hj]
  · simp [h, Ne.symm h, hj]

theorem xor_bit (w : BitVec 32) (j o : Nat) (hj : j < 32) (_ho : o < 32) :
    (w ^^^ (1#32 <<< o)).getLsbD j = if j = o then !(w.getLsbD j) else w.getLsbD j := by
  rw [show (1#32 <<< o) = BitVec.twoPow 32 o from rfl, BitVec.getLsbD_xor, BitVec.getLsbD_twoPow]
  by_cases h : j = o
  · subst h; simp [hj]
  · simp [h, Ne.symm h]

/-- The list has room for its bits, all of them read as `f`. -/
structure Holds (l : Bits) (n ints : Nat) (f : Nat → Bool) : Prop where
  numBits : l.numBits = n
  len : l.words.length = ints
  bits : ∀ i < 32 * ints, bit l.words i = f i

theorem update_spec {l : Bits} {n ints : Nat} {f : Nat → Bool} (hl : Holds l n ints f) {k : Nat} (hk : k < 32 * ints)
    (u : BitVec 32 → BitVec 32 → BitVec 32) (g : Bool → Bool)
    (hu : ∀ w j o, j < 32 → o < 32 → (u w (1#32 <<< o)).getLsbD j = if j = o then g (w.getLsbD j) else w.getLsbD j) :
    ∃ l', update u l k = some l' ∧ Holds l' n ints (fun i => if i = k then g (f k) else f i) := by
  have hw : k / 32 < l.words.length := by rw [hl.len]; omega
  refine ⟨{ l with words := l.words.set (k / 32) (u l.words[k / 32] (1#32 <<< (k % 32))) }, ?_,
    ⟨hl.numBits, by simp [hl.len], ?_⟩⟩
  · unfold update; rw [List.getElem?_eq_getElem hw]; rfl
  · intro i hi
    have := bit_set (ws := l.words) (i := i) (k := k) (by rw [hl.len]; exact hk) u g hu
    rw [List.getElem?_eq_getElem hw] at this
    simp only [Option.getD_some] at this
    rw [this, hl.bits k hk, hl.bits i hi]

theorem testBit_spec {l : Bits} {n ints : Nat} {f : Nat → Bool} (hl : Holds l n ints f) {k : Nat} (hk : k < 32 * ints) :
    testBit l k = some (f k) := by
  have hw : k / 32 < l.words.length := by rw [hl.len]; omega
  unfold testBit
  rw [List.getElem?_eq_getElem hw, ← hl.bits k hk]
  simp only [Option.map_some, bit, List.getElem?_eq_getElem hw, Option.getD_some]
  rw [test_shift _ _ (Nat.mod_lt _ (by omega))]

theorem step_spec {l : Bits} {n ints : Nat} {f : Nat → Bool} (hl : Holds l n ints f) (hn : n ≤ 32 * ints) (op : Op)
    (ho : op.InRange n) : ∃ l', step l op = some (l', (specStep f op).2) ∧ Holds l' n ints (specStep f op).1 := by
  cases op with
  | setAll =>
    refine ⟨setAll l, rfl, hl.numBits, by simp [setAll, hl.len], ?_⟩
    intro i hi; simp only [setAll, hl.len]; exact bit_replicate hi true
  | clearAll =>
    refine ⟨clearAll l, rfl, hl.numBits, by simp [clearAll, hl.len], ?_⟩
    intro i hi; simp only [clearAll, hl.len]; exact bit_replicate hi false
  | flipAll =>
    refine ⟨flipAll l, rfl, hl.numBits, by simp [flipAll, hl.len], ?_⟩
    intro i hi; simp only [flipAll]; rw [bit_map_not (by rw [hl.len]; exact hi), hl.bits i hi]; rfl
  | set k =>
    obtain ⟨l', h, hh⟩ := update_spec hl (Nat.lt_of_lt_of_le ho hn) _ (fun _ => true) or_bit
    exact ⟨l', by simp only [step, setBit, h]; rfl, hh⟩
  | clear k =>
    obtain ⟨l', h, hh⟩ := update_spec hl (Nat.lt_of_lt_of_le ho hn) (fun w m => w &&& ~~~m) (fun _ => false) clear_bit
    exact ⟨l', by simp only [step, clearBit, h]; rfl, hh⟩
  | flip k =>
    obtain ⟨l', h, hh⟩ := update_spec hl (Nat.lt_of_lt_of_le ho hn) _ (fun b => !b) xor_bit
    exact ⟨l', by simp only [step, flipBit, h]; rfl, hh⟩
  | test k =>
    exact ⟨l, by simp only [step, testBit_spec hl (Nat.lt_of_lt_of_le ho hn)]; rfl, hl⟩
  | testAndSet k =>
    obtain ⟨l', h, hh⟩ := update_spec hl (Nat.lt_of_lt_of_le ho hn) _ (fun _ => true) or_bit
    exact ⟨l', by simp only [step, testAndSet, setBit, testBit_spec hl (Nat.lt_of_lt_of_le ho hn), h]; rfl, hh⟩
  | testAndClear k =>
    obtain ⟨l', h, hh⟩ := update_spec hl (Nat.lt_of_lt_of_le ho hn) (fun w m => w &&& ~~~m) (fun _ => false) clear_bit
    exact ⟨l', by simp only [step, testAndClear, clearBit, testBit_spec hl (Nat.lt_of_lt_of_le ho hn), h]; rfl, hh⟩
  | testAndFlip k =>
    obtain ⟨l', h, hh⟩ := update_spec hl (Nat.lt_of_lt_of_le ho hn) _ (fun b => !b) xor_bit
    exact ⟨l', by simp only [step, testAndFlip, flipBit, testBit_spec hl (Nat.lt_of_lt_of_le ho hn), h]; rfl, hh⟩

theorem run_spec {n ints : Nat} (hn : n ≤ 32 * ints) : ∀ (ops : List Op) {l : Bits} {f : Nat → Bool}, Holds l n ints f →
    (∀ op ∈ ops, op.InRange n) → ∃ l', run l ops = some (l', (specRun f ops).2) ∧ Holds l' n ints (specRun f ops).1
  | [], l, f, hl, _ => ⟨l, rfl, hl⟩
  | op :: ops, l, f, hl, ho => by
    obtain ⟨l1, r1, h1⟩ := step_spec hl hn op (ho op (by simp))
    obtain ⟨l2, r2, h2⟩ := run_spec hn ops h1 (fun o h => ho o (by simp [h]))
    exact ⟨l2, by simp only [run, r1, Option.bind_some, r2, Option.map_some, specRun], h2⟩

/-- Number of words of a list of length `n`. -/
def intsOf (n : Nat) : Nat := if n = 0 then 1 else roundPow2 n

theorem init_holds (n : Nat) (v : Bool) : Holds (init n v) n (intsOf n) (fun _ => v) := by
  have e : init n v = ⟨n, List.replicate (intsOf n) (if v then -1 else 0)⟩ := by
    unfold init intsOf
    by_cases h : n = 0
    · subst h; simp
    · have h' : ¬ ((n : Int) ≤ 0) := by omega
      simp only [h', if_false, h, Int.toNat_natCast]
  rw [e]
  refine ⟨rfl, by simp, ?_⟩
  intro i hi
  exact bit_replicate hi v

theorem intsOf_room (n : Nat) : n ≤ 32 * intsOf n := by unfold intsOf roundPow2; split <;> omega

theorem quiet_beyond {n : Nat} : ∀ (ops : List Op) {f : Nat → Bool}, (∀ i, n ≤ i → f i = false) → (∀ op ∈ ops, op.InRange n) →
    (∀ op ∈ ops, op.Quiet) → ∀ i, n ≤ i → (specRun f ops).1 i = false
  | [], _, hf, _, _ => hf
  | op :: ops, f, hf, hr, hq => by
    refine quiet_beyond ops (f := (specStep f op).1) ?_ (fun o h => hr o (by simp [h])) (fun o h => hq o (by simp [h]))
    intro i hi
    have h1 := hr op (by simp)
    have h2 := hq op (by simp)
    cases op with
    | setAll => exact h2.elim
    | flipAll => exact h2.elim
    | clearAll => rfl
    | test k => exact hf i hi
    | set k | clear k | flip k | testAndSet k | testAndClear k | testAndFlip k =>
      have hk : k < n := h1
      simp only [specStep]
      rw [if_neg (by omega)]
      exact hf i hi

/-! ### Searching -/

theorem firstInWord_spec (test : BitVec 32 → Nat → Bool) (w : BitVec 32) (i n : Nat) :
    (∃ j, j < n ∧ test w j = true ∧ (∀ m < j, test w m = false) ∧ firstInWord test w i n = some (i * 32 + j)) ∨
    ((∀ j < n, test w j = false) ∧ firstInWord test w i n = none) := by
  unfold firstInWord
  cases h : (List.range n).find? (test w) with
  | none =>
    right
    refine ⟨?_, rfl⟩
    intro j hj
    have := List.find?_eq_none.mp h j (by simpa using hj)
    simpa using this
  | some j =>
    left
    have h' := List.find?_range_eq_some.mp h
    refine ⟨j, by simpa using h'.2.1, h'.1, ?_, rfl⟩
    intro m hm
    have := h'.2.2 m hm
    simpa using this

/-- The search finds the least matching bit of the window it covers. -/
theorem firstLoop_spec {skip : BitVec 32} {test : BitVec 32 → Nat → Bool} {b : Bool} {tail : Nat} (ht : tail ≤ 32)
    (h1 : ∀ w j, j < 32 → test w j = (w.getLsbD j == b)) (h2 : ∀ j < 32, skip.getLsbD j ≠ b) :
    ∀ (ws : List (BitVec 32)), ws ≠ [] → ∀ (i : Nat),
    (∃ k, k < 32 * (ws.length - 1) + tail ∧ bit ws k = b ∧ (∀ m < k, bit ws m ≠ b) ∧
        firstLoop skip test tail ws i = some (i * 32 + k)) ∨
      ((∀ k < 32 * (ws.length - 1) + tail, bit ws k ≠ b) ∧ firstLoop skip test tail ws i = none)
  | [], h, _ => absurd rfl h
  | [w], _, i => by
    have hbit : ∀ k < 32, bit [w] k = w.getLsbD k := by
      intro k hk; unfold bit; rw [Nat.div_eq_of_lt hk, Nat.mod_eq_of_lt hk]; rfl
    simp only [List.length_cons, List.length_nil, Nat.zero_add, Nat.sub_self, Nat.mul_zero, firstLoop]
    by_cases hw : w = skip
    · right
      rw [if_neg (by simpa using hw)]
      refine ⟨?_, rfl⟩
      intro k hk
      rw [hbit k (by omega), hw]; exact h2 k (by omega)
    · rw [if_pos hw]
      rcases firstInWord_spec test w i tail with ⟨j, hj, t1, t2, e⟩ | ⟨t, e⟩
      · left
        refine ⟨j, hj, ?_, ?_, e⟩
        · rw [hbit j (by omega)]; rw [h1 w j (by omega)] at t1; simpa using t1
        · intro m hm
          rw [hbit m (by omega)]
          have := t2 m hm
          rw [h1 w m (by omega)] at this; simpa using this
      · right
        refine ⟨?_, e⟩
        intro k hk
        rw [hbit k (by omega)]
        have := t k hk
        rw [h1 w k (by omega)] at this; simpa using this
  | w :: w' :: ws, _, i => by
    have ih := firstLoop_spec ht h1 h2 (w' :: ws) (by simp) (i + 1)
    have hlo : ∀ k < 32, bit (w :: w' :: ws) k = w.getLsbD k := by
      intro k hk; unfold bit; rw [Nat.div_eq_of_lt hk, Nat.mod_eq_of_lt hk]; rfl
    have hhi : ∀ k, bit (w :: w' :: ws) (32 + k) = bit (w' :: ws) k := by
      intro k; unfold bit
      rw [show (32 + k) / 32 = k / 32 + 1 by omega, show (32 + k) % 32 = k % 32 by omega, List.getElem?_cons_succ]
    have hl : firstLoop skip test tail (w :: w' :: ws) i =
        (if w ≠ skip then firstInWord test w i 32 else none).or (firstLoop skip test tail (w' :: ws) (i + 1)) := rfl
    rw [hl]
    have hword : (∃ j, j < 32 ∧ w.getLsbD j = b ∧ (∀ m < j, w.getLsbD m ≠ b) ∧
        (if w ≠ skip then firstInWord test w i 32 else none) = some (i * 32 + j)) ∨
        ((∀ j < 32, w.getLsbD j ≠ b) ∧ (if w ≠ skip then firstInWord test w i 32 else none) = none) := by
      by_cases hw : w = skip
      · right; rw [if_neg (by simpa using hw)]; exact ⟨fun j hj => by rw [hw]; exact h2 j hj, rfl⟩
      · rw [if_pos hw]
        rcases firstInWord_spec test w i 32 with ⟨j, hj, t1, t2, e⟩ | ⟨t, e⟩
        · left
          refine ⟨j, hj, ?_, ?_, e⟩
          · rw [h1 w j hj] at t1; simpa using t1
          · intro m hm
            have := t2 m hm
            rw [h1 w m (by omega)] at this; simpa using this
        · right
          refine ⟨?_, e⟩
          intro j hj
          have := t j hj
          rw [h1 w j hj] at this; simpa using this
    have hlen : (w :: w' :: ws).length - 1 = (w' :: ws).length - 1 + 1 := by simp
    rw [hlen]
    rcases hword with ⟨j, hj, t1, t2, e⟩ | ⟨t, e⟩
    · left
      refine ⟨j, by omega, by rw [hlo j hj]; exact t1, fun m hm => by rw [hlo m (by omega)]; exact t2 m hm, by rw [e]; rfl⟩
    · rw [e]
      simp only [Option.none_or]
      rcases ih with ⟨k, k1, k2, k3, k4⟩ | ⟨k1, k2⟩
      · left
        refine ⟨32 + k, by omega, by rw [hhi]; exact k2, ?_, ?_⟩
        · intro m hm
          by_cases hm32 : m < 32
          · rw [hlo m hm32]; exact t m hm32
          · rw [show m = 32 + (m - 32) by omega, hhi]; exact k3 _ (by omega)
        · rw [k4]; congr 1; omega
      · right
        refine ⟨?_, k2⟩
        intro m hm
        by_cases hm32 : m < 32
        · rw [hlo m hm32]; exact t m hm32
        · rw [show m = 32 + (m - 32) by omega, hhi]; exact k1 _ (by omega)

/-! ### Counting -/

theorem countBelow_congr {f g : Nat → Bool} {n : Nat} (h : ∀ i < n, f i = g i) (b : Bool) : countBelow f n b = countBelow g n b := by
  unfold countBelow
  apply List.countP_congr
  intro i hi
  rw [h i (by simpa using hi)]

theorem countBelow_add (f : Nat → Bool) (m n : Nat) (b : Bool) :
    countBelow f (m + n) b = countBelow f m b + countBelow (fun i => f (m + i)) n b := by
  unfold countBelow
  rw [List.range_add, List.countP_append, List.countP_map]
  rfl

theorem countBelow_const (n : Nat) (b : Bool) : countBelow (fun _ => b) n b = n := by
  unfold countBelow; simp

theorem countBelow_none {f : Nat → Bool} {n : Nat} {b : Bool} (h : ∀ i < n, f i ≠ b) : countBelow f n b = 0 := by
  unfold countBelow
  rw [List.countP_eq_zero]
  intro i hi
  simpa using h i (by simpa using hi)

theorem countInWord_spec {term : BitVec 32 → Nat → BitVec 32} {b : Bool} (h1 : ∀ w j, j < 32 → (term w j).toNat = if w.getLsbD j = b then 1 else 0)
    (w : BitVec 32) : ∀ n ≤ 32, countInWord term w n = countBelow w.getLsbD n b := by
  intro n
  induction n with
  | zero => intro _; rfl
  | succ n ih =>
    intro hn
    have := ih (by omega)
    unfold countInWord countBelow at *
    rw [List.range_succ, List.map_append, List.sum_append, this, List.countP_append]
    simp only [List.map_cons, List.map_nil, List.sum_cons, List.sum_nil, h1 w n (by omega), List.countP_cons, List.countP_nil]
    simp

theorem countLoop_spec {skip : BitVec 32} {term : BitVec 32 → Nat → BitVec 32} {b : Bool} {tail : Nat} (ht : tail ≤ 32)
    (h1 : ∀ w j, j < 32 → (term w j).toNat = if w.getLsbD j = b then 1 else 0) (h2 : ∀ j < 32, skip.getLsbD j ≠ b) :
    ∀ (ws : List (BitVec 32)), ws ≠ [] →
    countLoop skip term tail ws = countBelow (bit ws) (32 * (ws.length - 1) + tail) b
  | [], h => absurd rfl h
  | [w], _ => by
    have hbit : ∀ k < 32, bit [w] k = w.getLsbD k := by
      intro k hk; unfold bit; rw [Nat.div_eq_of_lt hk, Nat.mod_eq_of_lt hk]; rfl
    simp only [List.length_cons, List.length_nil, Nat.zero_add, Nat.sub_self, Nat.mul_zero, countLoop]
    rw [countBelow_congr (fun i hi => hbit i (by omega))]
    by_cases hw : w = skip
    · rw [if_neg (by simpa using hw), hw, countBelow_none (fun i hi => h2 i (by omega))]
    · rw [if_pos hw, countInWord_spec h1 w tail ht]
  | w :: w' :: ws, _ => by
    have ih := countLoop_spec ht h1 h2 (w' :: ws) (by simp)
    have hlo : ∀ k < 32, bit (w :: w' :: ws) k = w.getLsbD k := by
      intro k hk; unfold bit; rw [Nat.div_eq_of_lt hk, Nat.mod_eq_of_lt hk]; rfl
    have hhi : ∀ k, bit (w :: w' :: ws) (32 + k) = bit (w' :: ws) k := by
      intro k; unfold bit
      rw [show (32 + k) / 32 = k / 32 + 1 by omega, show (32 + k) % 32 = k % 32 by omega, List.getElem?_cons_succ]
    have hl : countLoop skip term tail (w :: w' :: ws) =
        (if w ≠ skip then countInWord term w 32 else 0) + countLoop skip term tail (w' :: ws) := rfl
    have hlen : 32 * ((w :: w' :: ws).length - 1) + tail = 32 + (32 * ((w' :: ws).length - 1) + tail) := by simp; omega
    rw [hl, ih, hlen, countBelow_add _ 32, countBelow_congr (f := bit (w :: w' :: ws)) (fun i hi => hlo i hi)]
    have e : (fun i => bit (w :: w' :: ws) (32 + i)) = bit (w' :: ws) := funext hhi
    rw [e]
    congr 1
    by_cases hw : w = skip
    · rw [if_neg (by simpa using hw), hw, countBelow_none (fun i hi => h2 i hi)]
    · rw [if_pos hw, countInWord_spec h1 w 32 (Nat.le_refl _)]

/-- The searches and counts cover `window n` bits of a list of length `n`. -/
def window (n : Nat) : Nat := 32 * (intsOf n - 1) + n % 32

theorem window_ge (n : Nat) : n ≤ window n := by unfold window intsOf roundPow2; split <;> omega

theorem window_gt {n : Nat} (h : 0 < n) : n < window n := by unfold window intsOf roundPow2; rw [if_neg (by omega)]; omega

theorem window_le (n : Nat) : window n ≤ 32 * intsOf n := by unfold window intsOf roundPow2; split <;> omega

theorem window_ints {l : Bits} {n : Nat} {f : Nat → Bool} (hl : Holds l n (intsOf n) f) :
    l.words ≠ [] ∧ 32 * (l.words.length - 1) + l.numBits % 32 = window n := by
  refine ⟨?_, by rw [hl.len, hl.numBits]; rfl⟩
  intro h
  have := hl.len
  rw [h] at this
  unfold intsOf roundPow2 at this
  simp only [List.length_nil] at this
  split at this <;> omega

theorem neg_one_ne (j : Nat) (hj : j < 32) : (-1 : BitVec 32).getLsbD j ≠ false := by
  have := neg_one_bit j hj
  rw [show (-1 : BitVec 32) = -1#32 from rfl, this]; simp

theorem firstSet_spec {l : Bits} {n : Nat} {f : Nat → Bool} (hl : Holds l n (intsOf n) f) :
    (∃ k, IsLeast f (window n) true k ∧ firstSet l = some k) ∨ ((∀ k < window n, f k ≠ true) ∧ firstSet l = none) := by
  obtain ⟨hne, hw⟩ := window_ints hl
  have hb : ∀ i < window n, bit l.words i = f i := fun i hi => hl.bits i (Nat.lt_of_lt_of_le hi (window_le n))
  have := firstLoop_spec (skip := 0) (test := fun w j => w &&& (1#32 <<< j) != 0) (b := true) (tail := l.numBits % 32)
    (by omega) (fun w j hj => by rw [and_shift w j hj]; simp) (fun j _ => by simp) l.words hne 0
  rw [hw] at this
  rcases this with ⟨k, k1, k2, k3, k4⟩ | ⟨k1, k2⟩
  · left
    refine ⟨k, ⟨k1, by rw [← hb k k1]; exact k2, fun m hm => by rw [← hb m (by omega)]; exact k3 m hm⟩, ?_⟩
    unfold firstSet; rw [k4]; simp
  · right
    exact ⟨fun k hk => by rw [← hb k hk]; exact k1 k hk, k2⟩

theorem firstClear_spec {l : Bits} {n : Nat} {f : Nat → Bool} (hl : Holds l n (intsOf n) f) :
    (∃ k, IsLeast f (window n) false k ∧ firstClear l = some k) ∨ ((∀ k < window n, f k ≠ false) ∧ firstClear l = none) := by
  obtain ⟨hne, hw⟩ := window_ints hl
  have hb : ∀ i < window n, bit l.words i = f i := fun i hi => hl.bits i (Nat.lt_of_lt_of_le hi (window_le n))
  have := firstLoop_spec (skip := -1) (test := fun w j => w &&& (1#32 <<< j) == 0) (b := false) (tail := l.numBits % 32)
    (by omega) (fun w j hj => by
      have := and_shift w j hj
      show (w &&& (1#32 <<< j) == 0) = (w.getLsbD j == false)
      rw [← this]; simp [bne]) neg_one_ne l.words hne 0
  rw [hw] at this
  rcases this with ⟨k, k1, k2, k3, k4⟩ | ⟨k1, k2⟩
  · left
    refine ⟨k, ⟨k1, by rw [← hb k k1]; exact k2, fun m hm => by rw [← hb m (by omega)]; exact k3 m hm⟩, ?_⟩
    unfold firstClear; rw [k4]; simp
  · right
    exact ⟨fun k hk => by rw [← hb k hk]; exact k1 k hk, k2⟩

theorem countSet_spec {l : Bits} {n : Nat} {f : Nat → Bool} (hl : Holds l n (intsOf n) f) :
    countSet l = countBelow f (window n) true := by
  obtain ⟨hne, hw⟩ := window_ints hl
  have hb : ∀ i < window n, bit l.words i = f i := fun i hi => hl.bits i (Nat.lt_of_lt_of_le hi (window_le n))
  unfold countSet
  rw [countLoop_spec (b := true) (by omega) (term := fun w j => (w >>> j) &&& 1) (fun w j _ => shift_and_one w j) (fun j _ => by simp) l.words hne, hw,
    countBelow_congr hb]

theorem countClear_spec {l : Bits} {n : Nat} {f : Nat → Bool} (hl : Holds l n (intsOf n) f) :
    countClear l = countBelow f (window n) false := by
  obtain ⟨hne, hw⟩ := window_ints hl
  have hb : ∀ i < window n, bit l.words i = f i := fun i hi => hl.bits i (Nat.lt_of_lt_of_le hi (window_le n))
  unfold countClear
  rw [countLoop_spec (b := false) (by omega) (fun w j hj => by
      have := not_shift_and_one w j hj
      rw [show (1 : BitVec 32) = 1#32 from rfl, this]
      cases w.getLsbD j <;> rfl) neg_one_ne l.words hne, hw, countBelow_congr hb]

/-! ### Merging -/

theorem mergeLoop_spec (f : BitVec 32 → BitVec 32 → BitVec 32) (a b r : Nat) (s0 : Store) (m : Nat) (ha : m ≤ (s0 a).words.length)
    (hb : m ≤ (s0 b).words.length) (hr : m ≤ (s0 r).words.length) : ∀ (k i : Nat) (s : Store), i + k = m →
    (∀ h, h ≠ r → s h = s0 h) → (s r).numBits = (s0 r).numBits → (s r).words.length = (s0 r).words.length →
    (∀ j, i ≤ j → (s r).words[j]? = (s0 r).words[j]?) →
    (∀ j, j < i → ∀ x y, (s0 a).words[j]? = some x → (s0 b).words[j]? = some y → (s r).words[j]? = some (f x y)) →
    ∃ s', mergeLoop f a b r k i s = some s' ∧ (∀ h, h ≠ r → s' h = s0 h) ∧ (s' r).numBits = (s0 r).numBits ∧
      (s' r).words.length = (s0 r).words.length ∧ (∀ j, m ≤ j → (s' r).words[j]? = (s0 r).words[j]?) ∧
      (∀ j, j < m → ∀ x y, (s0 a).words[j]? = some x → (s0 b).words[j]? = some y → (s' r).words[j]? = some (f x y))
  | 0, i, s, hi, h1, h2, h3, h4, h5 => ⟨s, rfl, h1, h2, h3, fun j hj => h4 j (by omega), fun j hj => h5 j (by omega)⟩
  | k + 1, i, s, hi, h1, h2, h3, h4, h5 => by
    have get : ∀ h, (s h).words[i]? = (s0 h).words[i]? := by
      intro h
      by_cases hh : h = r
      · subst hh; exact h4 i (Nat.le_refl _)
      · rw [h1 h hh]
    have hxa : i < (s0 a).words.length := by omega
    have hxb : i < (s0 b).words.length := by omega
    rw [mergeLoop, get a, get b, List.getElem?_eq_getElem hxa, List.getElem?_eq_getElem hxb]
    simp only [Option.bind_some]
    rw [if_pos (by omega)]
    apply mergeLoop_spec f a b r s0 m ha hb hr k (i + 1)
    · omega
    · intro h hh; simp [hh, h1 h hh]
    · simp [h2]
    · simp [h3]
    · intro j hj
      simp only [if_true]
      rw [List.getElem?_set_ne (by omega)]; exact h4 j (by omega)
    · intro j hj x y hx hy
      simp only [if_true]
      by_cases hji : j = i
      · subst hji
        rw [List.getElem?_set_self (by omega)]
        rw [List.getElem?_eq_getElem hxa] at hx
        rw [List.getElem?_eq_getElem hxb] at hy
        cases hx; cases hy; rfl
      · rw [List.getElem?_set_ne (by omega)]; exact h5 j (by omega) x y hx hy

theorem mergeLoop_short (f : BitVec 32 → BitVec 32 → BitVec 32) (a b r : Nat) : ∀ (k i : Nat) (s : Store),
    i ≤ (s r).words.length → (s r).words.length < i + k → mergeLoop f a b r k i s = none
  | 0, i, s, h1, h2 => by omega
  | k + 1, i, s, h1, h2 => by
    rw [mergeLoop]
    cases (s a).words[i]? with
    | none => rfl
    | some x =>
      cases (s b).words[i]? with
      | none => rfl
      | some y =>
        simp only [Option.bind_some]
        by_cases h : i < (s r).words.length
        · rw [if_pos h]
          apply mergeLoop_short f a b r k (i + 1) <;> simp <;> omega
        · rw [if_neg h]

theorem MergeOp.bits (op : MergeOp) (x y : BitVec 32) (j : Nat) (hj : j < 32) :
    (op.words x y).getLsbD j = op.bool (x.getLsbD j) (y.getLsbD j) := by
  cases op <;> simp only [MergeOp.words, MergeOp.bool, BitVec.getLsbD_not, BitVec.getLsbD_and, BitVec.getLsbD_or,
    BitVec.getLsbD_xor, hj, decide_true, Bool.true_and]
  · cases x.getLsbD j <;> cases y.getLsbD j <;> rfl

end BitList
end Duck
