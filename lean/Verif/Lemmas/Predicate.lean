import Verif.Spec.Predicate
/-! Helper lemmas for C46. -/
namespace Duck
namespace Pred
variable {O K : Type} [DecidableEq O] (w : World O K)

omit [DecidableEq O] in
theorem operandA_eq {p : Predicate O K} {s a : Option O} (h : Operand w p.objA s p.keyA a) : operandA w p s = a := by
  unfold operandA atPath
  generalize p.keyA = k at h
  cases h with
  | plain => simp
  | path h => simp [h]
  | null h => simp [h]

omit [DecidableEq O] in
theorem operandB_eq {p : Predicate O K} {s b : Option O} (h : Operand w p.objB s p.keyB b) (hk : p.keyB = none ∨ p.keyB = p.keyA) :
    operandB w p s = b := by
  unfold operandB atPath
  rcases hk with hk | hk
  · rw [hk] at h; cases h; simp [hk]
  · rw [← hk]
    clear hk
    generalize p.keyB = k at h
    cases h with
    | plain => simp
    | path h => simp [h]
    | null h => simp [h]

theorem eval_node {s : Option O} {o : O} {op a b} (h : Node w s o op a b) (fuel : Nat) :
    eval w (fuel + 1) s (some o) = apply w (eval w fuel s) op a b := by
  obtain ⟨p, h1, h2, h3, h4, h5⟩ := h.node
  rw [eval]
  simp only [h1, h2, operandA_eq w h3, operandB_eq w h4 h5]

theorem bind_some_iff {α β} {x : Option α} {f : α → Option β} {r} : x.bind f = some r ↔ ∃ a, x = some a ∧ f a = some r := by
  cases x <;> simp

section mono
variable {w} {ev ev' : Option O → Option Bool} (h : ∀ x b, ev x = some b → ev' x = some b)
include h

omit [DecidableEq O] in
theorem allGo_mono {l : List (Option O)} {r} : allGo ev l = some r → allGo ev' l = some r := by
  induction l with
  | nil => exact id
  | cons x l ih =>
    simp only [allGo, bind_some_iff]
    rintro ⟨a, h1, h2⟩
    refine ⟨a, h _ _ h1, ?_⟩
    split <;> simp_all

omit [DecidableEq O] in
theorem anyGo_mono {l : List (Option O)} {r} : anyGo ev l = some r → anyGo ev' l = some r := by
  induction l with
  | nil => exact id
  | cons x l ih =>
    simp only [anyGo, bind_some_iff]
    rintro ⟨a, h1, h2⟩
    refine ⟨a, h _ _ h1, ?_⟩
    split <;> simp_all

theorem evalEQ_mono {a b r} : evalEQ w ev a b = some r → evalEQ w ev' a b = some r := by
  unfold evalEQ
  split
  · simp only [bind_some_iff, Option.map_eq_some_iff]
    rintro ⟨x, h1, y, h2, h3⟩
    exact ⟨x, h _ _ h1, y, h _ _ h2, h3⟩
  · exact id

omit [DecidableEq O] in
theorem evalALL_mono {a r} : evalALL w ev a = some r → evalALL w ev' a = some r := by
  unfold evalALL
  split
  · exact id
  · exact allGo_mono h

omit [DecidableEq O] in
theorem evalANY_mono {a r} : evalANY w ev a = some r → evalANY w ev' a = some r := by
  unfold evalANY
  split
  · exact id
  · exact anyGo_mono h

theorem apply_mono {op a b r} : apply w ev op a b = some r → apply w ev' op a b = some r := by
  cases op <;> simp only [apply, bind_some_iff, Option.map_eq_some_iff] <;> try exact id
  case NOT => rintro ⟨x, h1, h2⟩; exact ⟨x, h _ _ h1, h2⟩
  case AND =>
    rintro ⟨x, h1, h2⟩
    refine ⟨x, h _ _ h1, ?_⟩
    split at h2
    · next hx => rw [if_pos hx]; exact h _ _ h2
    · next hx => rw [if_neg hx]; exact h2
  case OR =>
    rintro ⟨x, h1, h2⟩
    refine ⟨x, h _ _ h1, ?_⟩
    split at h2
    · next hx => rw [if_pos hx]; exact h2
    · next hx => rw [if_neg hx]; exact h _ _ h2
  case EQ => exact evalEQ_mono h
  case NEQ => rintro ⟨x, h1, h2⟩; exact ⟨x, evalEQ_mono h h1, h2⟩
  case ALL => exact evalALL_mono h
  case ANY => exact evalANY_mono h
  case NONE => rintro ⟨x, h1, h2⟩; exact ⟨x, evalANY_mono h h1, h2⟩
end mono

theorem eval_succ {fuel : Nat} {s x : Option O} {r} (h : eval w fuel s x = some r) : eval w (fuel + 1) s x = some r := by
  induction fuel generalizing x r with
  | zero =>
    rw [eval.eq_def] at h ⊢
    split
    · exact h
    · next o =>
      simp only at h
      split
      · next hp => simpa [hp] using h
      · next p hp => simp [hp] at h
  | succ fuel ih =>
    rw [eval.eq_def] at h ⊢
    split
    · exact h
    · next o =>
      simp only at h
      split
      · next hp => simpa [hp] using h
      · next p hp =>
        simp only [hp] at h ⊢
        exact apply_mono (fun x b => ih) h

theorem eval_le {f f' : Nat} (hf : f ≤ f') {s x : Option O} {r} (h : eval w f s x = some r) : eval w f' s x = some r := by
  induction hf with
  | refl => exact h
  | step _ ih => exact eval_succ w ih

mutual
theorem means_eval {s x : Option O} {P} (h : Means w s x P) : ∃ fuel b, eval w fuel s x = some b ∧ (b = true ↔ P) :=
  match h with
  | .null => ⟨0, false, by rw [eval]; simp⟩
  | .value (o := o) h => ⟨0, w.getBool o, by rw [eval.eq_def]; simp [h]⟩
  | .not n h => by
    obtain ⟨f, b, h1, h2⟩ := means_eval h
    refine ⟨f + 1, !b, ?_, ?_⟩
    · rw [eval_node w n]; simp [apply, h1]
    · simp [← h2]
  | .and n ha hb => by
    obtain ⟨f, b, h1, h2⟩ := means_eval ha
    obtain ⟨g, c, h3, h4⟩ := means_eval hb
    refine ⟨max f g + 1, b && c, ?_, ?_⟩
    · rw [eval_node w n]
      simp only [apply, eval_le w (Nat.le_max_left f g) h1, eval_le w (Nat.le_max_right f g) h3]
      cases b <;> simp
    · simp [← h2, ← h4]
  | .or n ha hb => by
    obtain ⟨f, b, h1, h2⟩ := means_eval ha
    obtain ⟨g, c, h3, h4⟩ := means_eval hb
    refine ⟨max f g + 1, b || c, ?_, ?_⟩
    · rw [eval_node w n]
      simp only [apply, eval_le w (Nat.le_max_left f g) h1, eval_le w (Nat.le_max_right f g) h3]
      cases b <;> simp
    · simp [← h2, ← h4]
  | .is (a := a) (b := b) n => ⟨1, decide (a = b), by rw [eval_node w n 0]; rfl, by simp⟩
  | .isnt (a := a) (b := b) n => ⟨1, decide (a ≠ b), by rw [eval_node w n 0]; rfl, by simp⟩
  | .iff n hp ha hb => by
    obtain ⟨f, b, h1, h2⟩ := means_eval ha
    obtain ⟨g, c, h3, h4⟩ := means_eval hb
    refine ⟨max f g + 1, b == c, ?_, ?_⟩
    · rw [eval_node w n]
      simp [apply, evalEQ, hp, eval_le w (Nat.le_max_left f g) h1, eval_le w (Nat.le_max_right f g) h3]
    · rw [← h2, ← h4]; cases b <;> cases c <;> simp
  | .niff n hp ha hb => by
    obtain ⟨f, b, h1, h2⟩ := means_eval ha
    obtain ⟨g, c, h3, h4⟩ := means_eval hb
    refine ⟨max f g + 1, !(b == c), ?_, ?_⟩
    · rw [eval_node w n]
      simp [apply, evalEQ, hp, eval_le w (Nat.le_max_left f g) h1, eval_le w (Nat.le_max_right f g) h3]
    · rw [← h2, ← h4]; cases b <;> cases c <;> simp
  | .eq (a := a) (b := b) n ha hb => ⟨1, equalRef w a b, by rw [eval_node w n 0]; simp [apply, evalEQ, ha, hb], by simp⟩
  | .neq (a := a) (b := b) n ha hb => ⟨1, !equalRef w a b, by rw [eval_node w n 0]; simp [apply, evalEQ, ha, hb], by simp⟩
  | .lt (c := c) n hc => ⟨1, decide (c > 0), by rw [eval_node w n 0]; simp [apply, hc], by simp⟩
  | .lte (c := c) n hc => ⟨1, decide (c ≥ 0), by rw [eval_node w n 0]; simp [apply, hc], by simp; omega⟩
  | .gt (c := c) n hc => ⟨1, decide (c < 0), by rw [eval_node w n 0]; simp [apply, hc], by simp⟩
  | .gte (c := c) n hc => ⟨1, decide (c ≤ 0), by rw [eval_node w n 0]; simp [apply, hc], by simp; omega⟩
  | .all n he hl => by
    obtain ⟨f, ⟨b, h1, h2⟩, _⟩ := meansEach_eval hl
    exact ⟨f + 1, b, by rw [eval_node w n]; simp [apply, evalALL, he, h1], h2⟩
  | .any n he hl => by
    obtain ⟨f, _, ⟨b, h1, h2⟩⟩ := meansEach_eval hl
    exact ⟨f + 1, b, by rw [eval_node w n]; simp [apply, evalANY, he, h1], h2⟩
  | .none n he hl => by
    obtain ⟨f, _, ⟨b, h1, h2⟩⟩ := meansEach_eval hl
    exact ⟨f + 1, !b, by rw [eval_node w n]; simp [apply, evalANY, he, h1], by rw [← h2]; simp⟩
theorem meansEach_eval {s : Option O} {l : List (Option O)} {Ps} (h : MeansEach w s l Ps) :
    ∃ fuel, (∃ b, allGo (eval w fuel s) l = some b ∧ (b = true ↔ ∀ P ∈ Ps, P)) ∧
      ∃ b, anyGo (eval w fuel s) l = some b ∧ (b = true ↔ ∃ P ∈ Ps, P) :=
  match h with
  | .nil => ⟨0, ⟨true, rfl, by simp⟩, ⟨false, rfl, by simp⟩⟩
  | .cons (P := P) hx hl => by
    obtain ⟨f, b, h1, h2⟩ := means_eval hx
    obtain ⟨g, ⟨c, h3, h4⟩, ⟨d, h5, h6⟩⟩ := meansEach_eval hl
    have h1 := eval_le w (Nat.le_max_left f g) h1
    have h3 := allGo_mono (fun x b => eval_le w (x := x) (r := b) (s := s) (Nat.le_max_right f g)) h3
    have h5 := anyGo_mono (fun x b => eval_le w (x := x) (r := b) (s := s) (Nat.le_max_right f g)) h5
    refine ⟨max f g, ⟨b && c, ?_, ?_⟩, ⟨b || d, ?_, ?_⟩⟩
    · simp only [allGo, h1, h3]; cases b <;> simp
    · rw [Bool.and_eq_true, h2, h4]; simp only [List.mem_cons, forall_eq_or_imp]
    · simp only [anyGo, h1, h5]; cases b <;> simp
    · rw [Bool.or_eq_true, h2, h6]; simp only [List.mem_cons, exists_eq_or_imp]
end

end Pred
end Duck
