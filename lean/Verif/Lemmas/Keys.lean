import Verif.Spec.Keys
import Verif.Lemmas.Compare
import Verif.Props.Data
/-! Lemmas for Props/Keys.lean. -/
namespace Duck
namespace Compare

theorem cstr_self {a : List UInt8} (h : (0 : UInt8) ∉ a) : Data.cstr a = a := by
  unfold Data.cstr
  have t : ∀ l : List UInt8, (∀ b ∈ l, b ≠ 0) → l.takeWhile (· != 0) = l := by
    intro l
    induction l with
    | nil => intro _; rfl
    | cons b l ih => intro h; rw [List.takeWhile_cons, if_pos (by simpa using h b (by simp)), ih fun c hc => h c (by simp [hc])]
  exact t _ fun b hb e => h (e ▸ hb)

theorem testEquality_bytes {a b : List UInt8} (ha : (0 : UInt8) ∉ a) (hb : (0 : UInt8) ∉ b) :
    Data.testEquality (Data.fresh a) (Data.fresh b) = true ↔ a = b := by
  constructor
  · intro h
    unfold Data.testEquality at h
    split at h
    · cases h
    · simpa only [Data.fresh, cstr_self ha, cstr_self hb, beq_iff_eq] using h
  · rintro rfl
    unfold Data.testEquality
    rw [if_neg (by simp)]
    simp

theorem number_value {t : Number.Ty} {c : Nat} {a b : Number.Obj} (ha : a.Ok ∧ a.enc.ty = t ∧ a.enc.count = c ∧ ∀ i, i < c → a.at i ≠ .nan)
    (hb : b.Ok ∧ b.enc.ty = t ∧ b.enc.count = c ∧ ∀ i, i < c → b.at i ≠ .nan) :
    ∃ e, Number.equal a b = some e ∧ (e = true ↔ (List.range a.enc.count).map a.at = (List.range b.enc.count).map b.at) := by
  rw [Number.equal, (number_laws t c).1 _ _ ha hb, Option.map_some]
  refine ⟨_, rfl, ?_⟩
  rw [beq_iff_eq]
  refine ((number_means (p := 0) (q := 0) ha hb).2.1).trans ?_
  rw [ha.2.2.1, hb.2.2.1]
  constructor
  · intro h
    cases h with
    | number h => exact List.map_congr_left fun j hj => h j (List.mem_range.mp hj)
  · intro h
    refine .number fun j hj => ?_
    have := congrArg (·[j]?) h
    simpa [hj] using this

section
variable {mem : Nat → Obj} {t : Number.Ty} {c : Nat}

/-- DKEqual tells whether `a` and `b` have the same value. -/
def Tells (a b : Obj) : Prop := ∃ e, equal a b = some e ∧ (e = true ↔ value a = value b)

theorem tells_no {a b : Obj} (h : equal a b = some false) (hv : value a ≠ value b) : Tells a b := ⟨false, h, fun h => (Bool.false_ne_true h).elim, fun h => absurd h hv⟩

theorem tells_base {a : Obj} (h : ∀ b, a ≠ .null → b ≠ .null → a.addr ≠ b.addr → Keyable t c b → InMemory mem b → Tells a b) :
    ∀ b, Keyable t c b → InMemory mem a → InMemory mem b → Tells a b := by
  intro b hk ha hb
  by_cases he : a.addr = b.addr
  · have := InMemory.same ha hb he
    subst this
    exact ⟨true, equal_self a, ⟨fun _ => rfl, fun _ => rfl⟩⟩
  by_cases na : a = .null
  · subst na
    have nb : b ≠ .null := fun e => he (by rw [e])
    exact tells_no (equal_null hb nb).1 fun h => by cases b <;> first | exact absurd rfl nb | cases h
  by_cases nb : b = .null
  · subst nb
    exact tells_no (equal_null ha na).2 fun h => by cases a <;> first | exact absurd rfl na | cases h
  exact h b na nb he hk hb

theorem disp {p : Nat} {b : Obj} {r : Option Bool} (hb : b ≠ .null) (h : p ≠ b.addr) : dispatchEqual p b r = r := dispatchEqual_eq hb fun e => absurd e h

theorem pointer_ne {p q : Nat} (h : p ≠ q) : (pointerCompare p q == 0) = false := by
  unfold pointerCompare
  split
  · rfl
  · split
    · rfl
    · omega

theorem sem_value {p q : Nat} {xs ys : List UInt8} (hx : (0 : UInt8) ∉ xs) (hy : (0 : UInt8) ∉ ys) (ma : InMemory mem (.str p xs)) (mb : InMemory mem (.str q ys)) :
    ∃ e, semEqual (.str p xs) (.str q ys) = some e ∧ (e = true ↔ xs = ys) := by
  by_cases h : p = q
  · have e := InMemory.same ma mb h
    cases e
    refine ⟨true, ?_, ⟨fun _ => rfl, fun _ => rfl⟩⟩
    simp only [semEqual]
    exact if_pos rfl
  · exact ⟨_, by simp only [semEqual]; exact if_neg h, testEquality_bytes hx hy⟩

theorem value_equal : ∀ (a b : Obj), Keyable t c a → Keyable t c b → InMemory mem a → InMemory mem b → Tells a b
  | .null => fun b _ hk => tells_base (fun b h => absurd rfl h) b hk
  | .str p xs => by
    refine fun b ka kb => tells_base (fun b na nb he kb mb => ?_) b kb
    have hd : ∀ {r}, dispatchEqual p b r = r := disp nb (by exact he)
    cases b
    case null => exact absurd rfl nb
    case str q ys => exact ⟨_, by simp only [equal, hd]; rfl, by rw [strEqual, testEquality_bytes ka kb]; simp [value]⟩
    all_goals exact tells_no (by simp only [equal, hd]; rfl) (by simp [value])
  | .data p xs => by
    refine fun b ka kb => tells_base (fun b na nb he kb mb => ?_) b kb
    have hd : ∀ {r}, dispatchEqual p b r = r := disp nb (by exact he)
    have hp : (pointerCompare p b.addr == 0) = false := pointer_ne he
    cases b
    case null => exact absurd rfl nb
    case data q ys => exact ⟨_, by simp only [equal, hd]; rfl, by rw [beq_iff_eq, (bytes_sign xs ys).2.1]; simp [value]⟩
    all_goals exact tells_no (by simp only [equal, hd, dataEqual, dataCompare, Option.map_some, hp]) (by simp [value])
  | .num p n => by
    refine fun b ka kb => tells_base (fun b na nb he kb mb => ?_) b kb
    have hd : ∀ {r}, dispatchEqual p b r = r := disp nb (by exact he)
    cases b
    case null => exact absurd rfl nb
    case num q m =>
      obtain ⟨e, h1, h2⟩ := number_value ⟨ka.1, ka.2.1, ka.2.2.1, fun i hi => (ka.2.2.2 i hi).1⟩ ⟨kb.1, kb.2.1, kb.2.2.1, fun i hi => (kb.2.2.2 i hi).1⟩
      exact ⟨e, by simp only [equal, hd]; exact h1, by rw [h2]; simp only [value, Value.number.injEq]⟩
    all_goals exact tells_no (by simp only [equal, hd]; rfl) (by simp [value])
  | .pair p x y => by
    refine fun b ka kb ma => tells_base (fun b na nb he kb mb => ?_) b kb ma
    have hd : ∀ {r}, dispatchEqual p b r = r := disp nb (by exact he)
    cases b
    case null => exact absurd rfl nb
    case pair q x' y' =>
      obtain ⟨e, h1, h2⟩ := value_equal x x' ka.1 kb.1 (Part.inMemory ma fun _ hy => .first hy) (Part.inMemory mb fun _ hy => .first hy)
      obtain ⟨f, h3, h4⟩ := value_equal y y' ka.2 kb.2 (Part.inMemory ma fun _ hy => .second hy) (Part.inMemory mb fun _ hy => .second hy)
      refine ⟨e && f, ?_, ?_⟩
      · simp only [equal, hd, h1, Option.bind_some, h3]
        cases e <;> rfl
      · rw [Bool.and_eq_true, h2, h4]; simp only [value, Value.pair.injEq]
    all_goals exact tells_no (by simp only [equal, hd]) (by simp [value])
  | .struct p s xs => by
    refine fun b ka kb ma => tells_base (fun b na nb he kb mb => ?_) b kb ma
    have hd : ∀ {r}, dispatchEqual p b r = r := disp nb (by exact he)
    cases b
    case null => exact absurd rfl nb
    case struct q s' ys =>
      obtain ⟨ps, ss, rfl, hs⟩ := ka
      obtain ⟨pt, ts, rfl, ht⟩ := kb
      obtain ⟨e, h1, h2⟩ := sem_value hs ht (Part.inMemory ma fun _ hy => .semantic hy) (Part.inMemory mb fun _ hy => .semantic hy)
      refine ⟨_, by simp only [equal, hd, structEqual, h1, Option.map_some]; rfl, ?_⟩
      rw [Bool.and_eq_true, Bool.and_eq_true, beq_iff_eq, beq_iff_eq, h2]
      simp only [value, Value.record.injEq, Value.text.injEq]
      constructor
      · rintro ⟨h, hl, hm⟩
        rw [memcmp_eq hl, (bytes_sign xs ys).2.1] at hm
        exact ⟨h, hm⟩
      · rintro ⟨h, rfl⟩
        exact ⟨h, rfl, by rw [memcmp_eq rfl, (bytes_sign xs xs).2.1]⟩
    all_goals exact tells_no (by simp only [equal, hd]; rfl) (by simp [value])
  | .list p l xs => fun _ ka => ka.elim
  | .other p => by
    refine fun b ka kb => tells_base (fun b na nb he kb mb => ?_) b kb
    have hd : ∀ {r}, dispatchEqual p b r = r := disp nb (by exact he)
    have hp : (p == b.addr) = false := beq_false_of_ne he
    cases b
    case null => exact absurd rfl nb
    case list => exact kb.elim
    case other q => exact tells_no (by simp only [equal, hd, hp]) (by simp only [value, ne_eq, Value.object.injEq]; exact he)
    all_goals exact tells_no (by simp only [equal, hd, hp]) (by simp [value])

theorem value_hash : ∀ (a b : Obj), Keyable t c a → Keyable t c b → value a = value b → ∃ h, hash a = some h ∧ hash b = some h
  | .null, b, _, _, h => by cases b <;> cases h; exact ⟨_, rfl, rfl⟩
  | .str p xs, b, _, _, h => by cases b <;> cases h; exact ⟨_, rfl, rfl⟩
  | .data p xs, b, _, _, h => by cases b <;> cases h; exact ⟨_, rfl, rfl⟩
  | .num p n, b, ka, kb, h => by
    cases b
    case num q m =>
      have na := fun i hi => (ka.2.2.2 i hi).1
      have nb := fun i hi => (kb.2.2.2 i hi).1
      obtain ⟨e, h1, h2⟩ := number_value ⟨ka.1, ka.2.1, ka.2.2.1, na⟩ ⟨kb.1, kb.2.1, kb.2.2.1, nb⟩
      have he : e = true := h2.mpr (by simpa only [value, Value.number.injEq] using h)
      rw [he] at h1
      have hz : Number.NoZero n := by
        by_cases hf : t.fmt = none
        · exact .inl (by rw [ka.2.1]; exact hf)
        · refine .inr fun i hi => ?_
          rw [ka.2.2.1] at hi
          exact ((ka.2.2.2 i hi).2).resolve_left hf
      obtain ⟨g1, g2⟩ := Number.C29_number_partial n m ka.1 kb.1 (by rw [ka.2.2.1, kb.2.2.1]) (by rw [ka.2.1, kb.2.1]) (by rw [ka.2.2.1]; exact na) (by rw [kb.2.2.1]; exact nb) hz h1
      obtain ⟨x, hx⟩ := Option.isSome_iff_exists.mp g2
      exact ⟨x, hx, by rw [hash, ← g1, hx]⟩
    all_goals cases h
  | .pair p x y, b, ka, kb, h => by
    cases b
    case pair q x' y' =>
      simp only [value, Value.pair.injEq] at h
      obtain ⟨u, h1, h2⟩ := value_hash x x' ka.1 kb.1 h.1
      obtain ⟨v, h3, h4⟩ := value_hash y y' ka.2 kb.2 h.2
      exact ⟨u ^^^ v, by simp only [hash, h1, h3, Option.bind_some, Option.map_some], by simp only [hash, h2, h4, Option.bind_some, Option.map_some]⟩
    all_goals cases h
  | .struct p s xs, b, _, _, h => by
    cases b
    case struct => simp only [value, Value.record.injEq] at h; exact ⟨_, rfl, by rw [hash, h.2]⟩
    all_goals cases h
  | .list p l xs, b, ka, _, _ => ka.elim
  | .other p, b, _, kb, h => by
    cases b
    case list => exact kb.elim
    case other => simp only [value, Value.object.injEq] at h; exact ⟨_, rfl, by rw [hash, h]⟩
    all_goals cases h

end

end Compare
end Duck
