import Verif.Lemmas.Predicate
import Verif.Props.Text
/-! C46, C65, C66: predicates. -/
namespace Duck
namespace Pred
open Unicode (utf8)
variable {O K : Type} [DecidableEq O] (w : World O K)

/-- A world for the examples: objects 0-9 are booleans (odd is true), 10-19 strings of one letter, 20 is a list, 100 and up are
    predicates.  The property 0 of every object is 1, the property 1 is 2. -/
def demo : World Nat Nat where
  pred o := [(100, ⟨.NOT, some 0, none, none, none⟩), (101, ⟨.AND, some 100, none, some 1, none⟩), (102, ⟨.ALL, some 20, none, none, none⟩),
    (103, ⟨.OR, some 102, none, some 101, none⟩), (104, ⟨.LT, some 10, none, some 11, none⟩), (105, ⟨.EQ, some 10, none, some 11, none⟩),
    (106, ⟨.GT, some 10, none, some 11, none⟩), (107, ⟨.IS, some 1, some 0, some 2, some 1⟩), (108, ⟨.CONTAINS, some 20, none, some 10, none⟩),
    (109, ⟨.IN, some 10, none, some 20, none⟩), (110, ⟨.ISA, none, none, some 3, none⟩), (111, ⟨.NONE, some 21, none, none, none⟩),
    (112, ⟨.IS, none, none, some 5, none⟩), (113, ⟨.NOT, some 113, none, none, none⟩)].lookup o
  property _ k := some (k + 1)
  getBool o := o % 2 = 1
  string o := if 10 ≤ o ∧ o < 20 then some (utf8 [Char.ofNat (87 + o)]) else none
  equal a b := a == b
  compare a b := b - a
  elements o := if o = 20 then some [some 10, some 101, some 1] else if o = 21 then some [some 2, some 112] else none
  containsObject o := if o = 20 then some fun x => x == some 10 || x == some 101 || x == some 1 else none
  containsKey _ := none
  kind _ := none

/-- **C46 (partial).** Evaluation terminates and follows logic: if an object stands for a proposition (`Means`, by AND, OR, NOT,
    equality, order and quantification over collections, nested to any depth), evaluating it gives whether the proposition holds.
    (Partial: in each predicate the key path of the second operand must be absent or that of the first one.) -/
theorem C46_partial {s x : Option O} {P : Prop} (h : Means w s x P) : ∃ fuel b, eval w fuel s x = some b ∧ (b = true ↔ P) :=
  means_eval w h

example : Means demo (some 5) (some 111) (¬ ∃ P ∈ [demo.getBool 2 = true, some 5 = some 5], P) := by
  refine .none (a := 21) (b := some 5) ⟨_, rfl, rfl, .plain, .plain, .inl rfl⟩ rfl ?_
  refine .cons (.value rfl) (.cons (.is (a := some 5) (b := some 5) ?_) .nil)
  exact ⟨_, rfl, rfl, .plain (obj := none), .plain, .inl rfl⟩

example : (eval demo 2 (some 5) (some 111), eval demo 2 (some 6) (some 111), eval demo 3 none (some 103)) = (some false, some true, some true) := by
  decide +kernel

/-- **C46, determinism.** The answer does not depend on how long one waits. -/
theorem C46_deterministic {s x : Option O} {f g : Nat} {b c : Bool} (h : eval w f s x = some b) (h' : eval w g s x = some c) : b = c := by
  have h1 := eval_le w (Nat.le_max_left f g) h
  have h2 := eval_le w (Nat.le_max_right f g) h'
  rw [h1] at h2; simpa using h2

/-- **C46, substitution.** Evaluating without an object is evaluating with NULL, and a predicate object evaluates as its predicate. -/
theorem C46_substitution (p : Predicate O K) (fuel : Nat) :
    evaluate w fuel p = evaluateWithObject w fuel p none ∧
      ∀ o s, w.pred o = some p → eval w (fuel + 1) s (some o) = evaluateWithObject w fuel p s := by
  refine ⟨?_, ?_⟩
  · simp [evaluate, evaluateWithObject, operandA, operandB]
  · intro o s h
    rw [eval]; simp only [h]; rfl

/-- **C46, order.** Whenever the two operands can be compared and equality agrees with the comparison, exactly one of LT, EQ and GT
    is true; LTE, GTE and NEQ are the negations of GT, LT and EQ. -/
theorem C46_trichotomy {s a b : Option O} {c : Int} {olt oeq ogt olte ogte oneq : O}
    (hc : compareRef w a b = some c) (he : equalRef w a b = true ↔ c = 0) (ha : isPred w a = false) (hb : isPred w b = false)
    (n1 : Node w s olt .LT a b) (n2 : Node w s oeq .EQ a b) (n3 : Node w s ogt .GT a b)
    (n4 : Node w s olte .LTE a b) (n5 : Node w s ogte .GTE a b) (n6 : Node w s oneq .NEQ a b) :
    ∃ lt eq gt, (lt, eq, gt) ∈ [(true, false, false), (false, true, false), (false, false, true)] ∧
      eval w 1 s (some olt) = some lt ∧ eval w 1 s (some oeq) = some eq ∧ eval w 1 s (some ogt) = some gt ∧
      eval w 1 s (some olte) = some (!gt) ∧ eval w 1 s (some ogte) = some (!lt) ∧ eval w 1 s (some oneq) = some (!eq) := by
  refine ⟨decide (c > 0), equalRef w a b, decide (c < 0), ?_, ?_, ?_, ?_, ?_, ?_, ?_⟩
  · have he' : equalRef w a b = decide (c = 0) := by
      cases h : equalRef w a b
      · rw [h] at he; symm; simpa using he
      · rw [h] at he; symm; simpa using he
    rw [he']
    rcases Int.lt_trichotomy c 0 with h | h | h
    · simp [h, Int.ne_of_lt h, show ¬ 0 < c by omega]
    · simp [h]
    · simp [h, show ¬ c = 0 by omega, show ¬ c < 0 by omega]
  · rw [eval_node w n1 0]; simp [apply, hc]
  · rw [eval_node w n2 0]; simp [apply, evalEQ, ha, hb]
  · rw [eval_node w n3 0]; simp [apply, hc]
  · rw [eval_node w n4 0]; simp only [apply, hc, Option.map_some]; rw [← decide_not]; congr 2; exact propext Int.not_lt.symm
  · rw [eval_node w n5 0]; simp only [apply, hc, Option.map_some]; rw [← decide_not]; congr 2; exact propext Int.not_lt.symm
  · rw [eval_node w n6 0]; simp [apply, evalEQ, ha, hb]

example : (eval demo 1 none (some 104), eval demo 1 none (some 105), eval demo 1 none (some 106)) = (some true, some false, some false) := by
  decide +kernel

/-- **C46, order of texts.** On string objects that hold texts, LT, EQ and GT compare the texts by code points. -/
theorem C46_texts {s : Option O} {x y : O} {olt oeq ogt : O} {cs ds : List Char} (hx : w.string x = some (utf8 cs))
    (hy : w.string y = some (utf8 ds)) (hc : '\x00' ∉ cs) (hd : '\x00' ∉ ds) (px : w.pred x = none) (py : w.pred y = none)
    (n1 : Node w s olt .LT (some x) (some y)) (n2 : Node w s oeq .EQ (some x) (some y)) (n3 : Node w s ogt .GT (some x) (some y)) :
    eval w 1 s (some olt) = some (decide (cs < ds)) ∧ eval w 1 s (some oeq) = some (decide (cs = ds)) ∧
      eval w 1 s (some ogt) = some (decide (ds < cs)) := by
  obtain ⟨v, hv, h0, h1, h2⟩ := Text.C61_order_partial cs ds hc hd
  have cmp : ∃ c, compareRef w (some x) (some y) = some c ∧ (c = 0 ↔ cs = ds) ∧ (c > 0 ↔ cs < ds) ∧ (c < 0 ↔ ds < cs) := by
    unfold compareRef
    split
    · next h =>
      simp at h; subst h
      rw [hx] at hy
      obtain ⟨v, hv, h0, h1, h2⟩ := Text.C61_order_partial cs cs hc hc
      have hv0 : v = 0 := h0.mpr rfl
      have hu : utf8 cs = utf8 ds := by simpa using hy
      obtain ⟨v', hv', h0', h1', h2'⟩ := Text.C61_order_partial cs ds hc hd
      have e : cs = ds := by
        rw [← hu, hv] at hv'
        simp at hv'
        exact h0'.mp (by omega)
      subst e
      exact ⟨0, rfl, by simp, by rw [← h1, h0.mpr rfl], by rw [← h2, h0.mpr rfl]⟩
    · simp only [hx, hy, hv]
      exact ⟨v, rfl, h0, h1, h2⟩
  obtain ⟨c, hc', e0, e1, e2⟩ := cmp
  have eqr : equalRef w (some x) (some y) = decide (cs = ds) := by
    unfold equalRef
    split
    · next h =>
      have : c = 0 := by
        unfold compareRef at hc'; rw [if_pos h] at hc'; simpa using hc'.symm
      simp [e0.mp this]
    · simp only [hx, hy]
      by_cases h : cs = ds
      · simp [h]
      · have hne : utf8 cs ≠ utf8 ds := by
          intro hu
          obtain ⟨v', hv', h0', _⟩ := Text.C61_order_partial cs cs hc hc
          rw [← hu, hv'] at hv
          simp at hv
          exact h (h0.mp (by rw [← hv]; exact h0'.mpr rfl))
        simp [h, hne]
  refine ⟨?_, ?_, ?_⟩
  · rw [eval_node w n1 0]; simp [apply, hc', e1]
  · rw [eval_node w n2 0]; simp [apply, evalEQ, isPred, px, py, eqr]
  · rw [eval_node w n3 0]; simp [apply, hc', e2]

example : demo.string 10 = some (utf8 ['a']) ∧ demo.string 11 = some (utf8 ['b']) ∧ Node demo none 104 .LT (some 10) (some 11) :=
  ⟨by decide +kernel, by decide +kernel, ⟨_, rfl, rfl, .plain, .plain, .inl rfl⟩⟩

/-- **C46 is false of key paths on the second operand.** The property compared is the one at the *first* operand's key path: this
    predicate says that property 0 of an object is property 1 of another.  They are different objects, and it evaluates to true. -/
theorem C46_key_fails : ∃ p, demo.pred 107 = some p ∧ p.op = .IS ∧ Operand demo p.objA none p.keyA (some 1) ∧
    Operand demo p.objB none p.keyB (some 2) ∧ eval demo 1 none (some 107) = some true :=
  ⟨_, rfl, rfl, .path (o := 1) rfl, .path (o := 2) rfl, by decide +kernel⟩

/-- **C46, termination fails on a predicate that contains itself** (reached through a collection that is changed afterwards, or a
    property): there is no answer, whatever the fuel. -/
theorem C46_cycle_fails (fuel : Nat) : eval demo fuel none (some 113) = none := by
  induction fuel with
  | zero => decide +kernel
  | succ n ih =>
    rw [eval_node demo (a := some 113) (b := none) (op := .NOT) ⟨_, rfl, rfl, .plain, .plain, .inl rfl⟩]
    simp [apply, ih]

/-! ### C65: operator names -/

/-- **C65.** Every operator is recovered from its name, no two operators or aliases share a name, the usual symbols are understood,
    and any other text is "unspecified". -/
theorem C65 : (∀ op, opFromString (opName op) = op) ∧ (∀ op op', opName op = opName op' → op = op') ∧
    (opFromString "=" = .EQ ∧ opFromString "==" = .EQ ∧ opFromString "!=" = .NEQ ∧ opFromString "<>" = .NEQ ∧ opFromString "<" = .LT ∧
      opFromString "<=" = .LTE ∧ opFromString ">" = .GT ∧ opFromString ">=" = .GTE ∧ opFromString "&&" = .AND ∧ opFromString "||" = .OR ∧
      opFromString "!" = .NOT) ∧
    ∀ s, s ∉ lookupTable.map (·.1) → opFromString s = .unspecified := by
  have h1 : ∀ op, opFromString (opName op) = op := by intro op; cases op <;> decide +kernel
  refine ⟨h1, ?_, ?_, ?_⟩
  · intro op op' h; rw [← h1 op, h, h1]
  · decide +kernel
  · intro s hs
    have : lookupTable.find? (fun e => e.1 == s) = none := by
      rw [List.find?_eq_none]
      intro e he hes
      simp at hes
      exact hs (List.mem_map.mpr ⟨e, he, hes⟩)
    simp [opFromString, this]

example : opFromString "CONTAINSKEY" = .CONTAINSKEY ∧ opFromString "contains" = .unspecified := by decide +kernel

/-- **C65, unspecified predicates** are false. -/
theorem C65_unspecified {s : Option O} {o : O} {p : Predicate O K} (h : w.pred o = some p) (hp : p.op = .unspecified) (fuel : Nat) :
    eval w (fuel + 1) s (some o) = some false := by
  rw [eval]; simp only [h, hp]; rfl

/-! ### C66: membership operators -/

/-- **C66, texts (partial).** IN, CONTAINS, BEGINSWITH, ENDSWITH and LIKE on string objects holding texts are the substring, prefix, suffix and
    equality tests.  (Partial: the text looked for is not empty; see C35.) -/
theorem C66_texts_partial {s : Option O} {x y oin oco obe oen oli : O} {cs ds : List Char} (hx : w.string x = some (utf8 cs))
    (hy : w.string y = some (utf8 ds)) (hc : '\x00' ∉ cs) (hd : '\x00' ∉ ds) (hne : ds ≠ []) (h63 : cs.length < 2 ^ 63)
    (n1 : Node w s oin .IN (some y) (some x)) (n2 : Node w s oco .CONTAINS (some x) (some y))
    (n3 : Node w s obe .BEGINSWITH (some x) (some y)) (n4 : Node w s oen .ENDSWITH (some x) (some y))
    (n5 : Node w s oli .LIKE (some x) (some y)) :
    eval w 1 s (some oin) = some (decide (ds <:+: cs)) ∧ eval w 1 s (some oco) = some (decide (ds <:+: cs)) ∧
      eval w 1 s (some obe) = some (decide (ds <+: cs)) ∧ eval w 1 s (some oen) = some (decide (ds <:+ cs)) ∧
      (eval w 1 s (some oli) = some true ↔ cs = ds) := by
  obtain ⟨t1, t2, t3⟩ := Text.C35_tests_partial cs ds hc hd hne h63
  have inj : utf8 cs = utf8 ds → cs = ds := by
    intro hu
    obtain ⟨v, hv, h0, _⟩ := Text.C61_order_partial cs ds hc hd
    obtain ⟨v', hv', h0', _⟩ := Text.C61_order_partial cs cs hc hc
    rw [← hu, hv'] at hv
    simp at hv
    exact h0.mp (by rw [← hv]; exact h0'.mpr rfl)
  refine ⟨?_, ?_, ?_, ?_, ?_⟩
  · rw [eval_node w n1 0]; simp [apply, evalIN, isString, hx, hy, onStrings, t3]
  · rw [eval_node w n2 0]; simp [apply, evalCONTAINS, isString, hx, hy, onStrings, t3]
  · rw [eval_node w n3 0]; simp [apply, hx, hy, onStrings, t1]
  · rw [eval_node w n4 0]; simp [apply, hx, hy, onStrings, t2]
  · rw [eval_node w n5 0]
    simp only [apply, evalLIKE]
    split
    · next h => simp at h; subst h; rw [hx] at hy; simp at hy; simp [inj hy]
    · simp only [hx, hy, Option.bind_some, Option.map_some, Option.some.injEq, beq_iff_eq]
      exact ⟨inj, fun h => by rw [h]⟩

/-- **C66, collections.** IN is membership in a collection; KEYIN and CONTAINSKEY are membership among the keys. -/
theorem C66_collections {s : Option O} {c : O} {x : Option O} {oin oki ock : O} {f g : Option O → Bool} (hs : w.string c = none)
    (hf : w.containsObject c = some f) (hg : w.containsKey c = some g)
    (n1 : Node w s oin .IN x (some c)) (n2 : Node w s oki .KEYIN x (some c)) (n3 : Node w s ock .CONTAINSKEY (some c) x) :
    eval w 1 s (some oin) = some (f x) ∧ eval w 1 s (some oki) = some (g x) ∧ eval w 1 s (some ock) = some (g x) := by
  refine ⟨?_, ?_, ?_⟩
  · rw [eval_node w n1 0]; simp [apply, evalIN, isString, hs, containsObject, hf]
  · rw [eval_node w n2 0]; simp [apply, containsKey, hg]
  · rw [eval_node w n3 0]; simp [apply, containsKey, hg]

/-- **C66, CONTAINS (partial).** CONTAINS is membership for objects that are not strings. -/
theorem C66_contains_partial {s : Option O} {c : O} {x : Option O} {oco : O} {f : Option O → Bool} (hx : isString w x = false)
    (hf : w.containsObject c = some f) (n : Node w s oco .CONTAINS (some c) x) : eval w 1 s (some oco) = some (f x) := by
  rw [eval_node w n 0]; simp [apply, evalCONTAINS, hx, containsObject, hf]

/-- **C66 is false of CONTAINS on a collection of strings**: the collection is used as a string.  IN with the operands exchanged is
    true. -/
theorem C66_contains_fails : demo.containsObject 20 ≠ none ∧ isString demo (some 10) = true ∧ demo.string 20 = none ∧
    eval demo 1 none (some 108) = none ∧ eval demo 1 none (some 109) = some true :=
  ⟨by decide +kernel, by decide +kernel, by decide +kernel, by decide +kernel, by decide +kernel⟩

/-- **C66, ISA.** An object is tested with its class or selector; NULL passes every test, even against an object that is neither. -/
theorem C66_isa {s : Option O} {o : O} {a b : Option O} (n : Node w s o .ISA a b) :
    (∀ x c f, a = some x → b = some c → w.kind c = some f → eval w 1 s (some o) = some (f x)) ∧
      (a = none → eval w 1 s (some o) = some true) := by
  refine ⟨?_, ?_⟩
  · rintro x c f rfl rfl hk
    rw [eval_node w n 0]; simp [apply, evalISA, hk]
  · rintro rfl
    rw [eval_node w n 0]; rfl

/-- **C66 is false of ISA on NULL.** -/
theorem C66_isa_fails : demo.kind 3 = none ∧ eval demo 1 none (some 110) = some true := ⟨rfl, by decide +kernel⟩

end Pred
end Duck
