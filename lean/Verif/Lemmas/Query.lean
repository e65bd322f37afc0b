import Verif.Model.Query
import Verif.Spec.Query
import Verif.Props.Url
import Verif.Props.HashTable
import Verif.Props.Dictionary
import Verif.Props.Printf
import Verif.Props.TextTrim
namespace Duck
namespace Query
open Unicode Text Url

/-! ## Replacing in a text made of tokens -/

/-- One replacement inside a token -/
def tokStep (pat rep x : List Char) : List Char := if pat.isPrefixOf x then rep ++ x.drop pat.length else x

/-- The pattern starts nowhere in `x`, whatever follows it -/
def clear (pat : List Char) : List Char → Bool
  | [] => true
  | c :: x => !pat.isPrefixOf (c :: x) && !(c :: x).isPrefixOf pat && clear pat x

def tokOk (pat x : List Char) : Bool := pat != [] && if pat.isPrefixOf x then clear pat (x.drop pat.length) else clear pat x

theorem not_prefix_append {pat x t : List Char} (h1 : ¬ pat <+: x) (h2 : ¬ x <+: pat) : ¬ pat <+: x ++ t := by
  intro h
  rcases Nat.le_total pat.length x.length with hl | hl
  · exact h1 (List.prefix_of_prefix_length_le h (List.prefix_append x t) hl)
  · exact h2 (List.prefix_of_prefix_length_le (List.prefix_append x t) h hl)

theorem replaced_clear {pat rep t out : List Char} (h : Replaced pat rep t out) : ∀ {x : List Char}, clear pat x = true →
    Replaced pat rep (x ++ t) (x ++ out)
  | [], _ => h
  | c :: x, hc => by
    simp only [clear, Bool.and_eq_true, Bool.not_eq_true', ← Bool.not_eq_true, List.isPrefixOf_iff_prefix] at hc
    exact replaced_cons c (not_prefix_append (x := c :: x) hc.1.1 hc.1.2) (replaced_clear h hc.2)

theorem replaced_tok {pat rep t out x : List Char} (hx : tokOk pat x = true) (h : Replaced pat rep t out) :
    Replaced pat rep (x ++ t) (tokStep pat rep x ++ out) := by
  simp only [tokOk, Bool.and_eq_true, bne_iff_ne, ne_eq] at hx
  unfold tokStep
  by_cases hp : pat.isPrefixOf x
  · obtain ⟨y, rfl⟩ := List.isPrefixOf_iff_prefix.mp hp
    rw [if_pos hp] at hx ⊢
    rw [List.drop_left] at hx ⊢
    simp only [List.append_assoc]
    exact replaced_here hx.1 (replaced_clear h hx.2)
  · rw [if_neg hp] at hx ⊢
    exact replaced_clear h hx.2

/-- The tokens after all replacements -/
def tokRun : List (List Char × List Char) → List Char → List Char
  | [], x => x
  | e :: es, x => tokRun es (tokStep e.1 e.2 x)

def plainTok (x : List Char) : Bool := x.all (fun c => c.toNat < 128 && c != '\x00') && x.length ≤ 5

/-- All replacements are sound for this token -/
def good : List (List Char × List Char) → List Char → Bool
  | [], x => plainTok x
  | e :: es, x => plainTok x && tokOk e.1 x && (plainTok e.2 || clear e.1 x) && good es (tokStep e.1 e.2 x)

theorem plainTok_flat {f : Char → List Char} : ∀ {s : List Char}, (∀ c ∈ s, plainTok (f c) = true) →
    (∀ c ∈ s.flatMap f, c.toNat < 128) ∧ '\x00' ∉ s.flatMap f ∧ (s.flatMap f).length ≤ 5 * s.length
  | [], _ => by simp
  | c :: s, h => by
    have ih := plainTok_flat (s := s) (fun d hd => h d (by simp [hd]))
    have h1 := h c (by simp)
    simp only [plainTok, Bool.and_eq_true, List.all_eq_true, decide_eq_true_eq, bne_iff_ne, ne_eq] at h1
    simp only [List.flatMap_cons, List.length_append, List.length_cons, List.mem_append, not_or]
    refine ⟨fun d hd => ?_, ⟨fun hz => (h1.1 _ hz).2 rfl, ih.2.1⟩, by omega⟩
    rcases hd with hd | hd
    · exact (h1.1 d hd).1
    · exact ih.1 d hd

theorem replaced_flat {pat rep : List Char} (hne : pat ≠ []) {f : Char → List Char} : ∀ {s : List Char}, (∀ c ∈ s, tokOk pat (f c) = true) →
    Replaced pat rep (s.flatMap f) (s.flatMap fun c => tokStep pat rep (f c))
  | [], _ => .done _ (by cases pat with
    | nil => exact absurd rfl hne
    | cons => rfl)
  | c :: s, h => by
    simp only [List.flatMap_cons]
    exact replaced_tok (h c (by simp)) (replaced_flat hne (fun d hd => h d (by simp [hd])))

theorem good_plain {es : List (List Char × List Char)} {x : List Char} (h : good es x = true) : plainTok x = true := by
  cases es with
  | nil => exact h
  | cons => simp only [good, Bool.and_eq_true] at h; exact h.1.1.1

def bytes (e : List Char × List Char) : List UInt8 × List UInt8 := (utf8 e.1, utf8 e.2)

theorem firstAt_clear {pat t : List Char} (h : firstAt pat t = none) : ∀ {x : List Char}, clear pat x = true → firstAt pat (x ++ t) = none
  | [], _ => h
  | c :: x, hc => by
    simp only [clear, Bool.and_eq_true, Bool.not_eq_true', ← Bool.not_eq_true, List.isPrefixOf_iff_prefix] at hc
    have hn : ¬ pat <+: c :: (x ++ t) := not_prefix_append (x := c :: x) hc.1.1 hc.1.2
    rw [List.cons_append, firstAt, if_neg hn, firstAt_clear h hc.2]; rfl

theorem firstAt_nil {pat : List Char} (hne : pat ≠ []) : firstAt pat [] = none := by
  cases pat with
  | nil => exact absurd rfl hne
  | cons => rfl

theorem clear_flat {pat : List Char} (hne : pat ≠ []) {f : Char → List Char} : ∀ {s : List Char}, (∀ c ∈ s, clear pat (f c) = true) →
    firstAt pat (s.flatMap f) = none
  | [], _ => firstAt_nil hne
  | c :: s, h => by
    simp only [List.flatMap_cons]
    exact firstAt_clear (clear_flat hne (fun d hd => h d (by simp [hd]))) (h c (by simp))

theorem clear_step {pat rep x : List Char} (h : clear pat x = true) (ho : tokOk pat x = true) : tokStep pat rep x = x := by
  unfold tokStep
  cases x with
  | nil =>
    rw [if_neg]
    intro hp
    simp only [tokOk, Bool.and_eq_true, bne_iff_ne] at ho
    exact ho.1 (by simpa using hp)
  | cons c x =>
    simp only [clear, Bool.and_eq_true, Bool.not_eq_true', ← Bool.not_eq_true] at h
    rw [if_neg h.1.1]

/-- The passes of escaping or unescaping on a text of tokens -/
theorem run_tokens {fuel : Nat} : ∀ (es : List (List Char × List Char)) (s : List Char) (f : Char → List Char), (∀ e ∈ es, e.1 ≠ [] ∧ '\x00' ∉ e.1 ∧ '\x00' ∉ e.2) →
    (∀ c ∈ s, good es (f c) = true) → 5 * s.length < 2 ^ 63 → 5 * s.length ≤ fuel →
    escape fuel (es.map bytes) (utf8 (s.flatMap f)) = some (utf8 (s.flatMap fun c => tokRun es (f c)))
  | [], s, f, _, _, _, _ => by simp [escape, tokRun]
  | e :: es, s, f, hz, h, hl, hf => by
    have hp := plainTok_flat (f := f) (fun c hc => good_plain (h c hc))
    have hok : ∀ c ∈ s, tokOk e.1 (f c) = true ∧ (plainTok e.2 = true ∨ clear e.1 (f c) = true) ∧ good es (tokStep e.1 e.2 (f c)) = true := by
      intro c hc
      have := h c hc
      simp only [good, Bool.and_eq_true, Bool.or_eq_true] at this
      exact ⟨this.1.1.2, this.1.2, this.2⟩
    have hp' := plainTok_flat (f := fun c => tokStep e.1 e.2 (f c)) (s := s) (fun c hc => good_plain (hok c hc).2.2)
    have ih := run_tokens es s (fun c => tokStep e.1 e.2 (f c)) (fun e he => hz e (by simp [he])) (fun c hc => (hok c hc).2.2) hl hf
    have he := hz e (by simp)
    rw [List.map_cons, escape]
    have step : replaceAll fuel (utf8 (s.flatMap f)) (bytes e).1 (bytes e).2 = some (utf8 (s.flatMap fun c => tokStep e.1 e.2 (f c))) := by
      have hne : e.1 ≠ [] := he.1
      by_cases hr : plainTok e.2 = true
      · simp only [plainTok, Bool.and_eq_true, List.all_eq_true, decide_eq_true_eq] at hr
        exact C36_ascii_partial _ e.1 e.2 _ hp.1 (fun c hc => (hr.1 c hc).1) hp.2.1 he.2.1 he.2.2 hne
          (replaced_flat hne (fun c hc => (hok c hc).1)) (by omega) fuel (by omega)
      · have hc : ∀ c ∈ s, clear e.1 (f c) = true := fun c hc => (hok c hc).2.1.resolve_left hr
        have hstep : (s.flatMap fun c => tokStep e.1 e.2 (f c)) = s.flatMap f := by
          rw [List.flatMap_def, List.flatMap_def, List.map_congr_left (fun c hc' => clear_step (hc c hc') (hok c hc').1)]
        rw [hstep]
        exact C36_absent_partial _ e.1 e.2 hp.2.1 he.2.1 he.2.2 hne ((firstAt_spec _ hne _).2.mp (clear_flat hne hc)) fuel
    rw [step, Option.bind_some, ih]
    rfl

/-! ## The table -/

def adding : List (List Char × List Char) := enumeration.map fun c => ([c], percent [c])
def removing : List (List Char × List Char) := enumeration.map fun c => (percent [c], [c])

theorem order_eq : order = adding.map bytes := by decide +kernel

theorem escape_swap (fuel : Nat) (L : List (List UInt8 × List UInt8)) (s : List UInt8) :
    unescape fuel L s = escape fuel (L.map fun e => (e.2, e.1)) s := by
  induction L generalizing s with
  | nil => rfl
  | cons e L ih =>
    rw [unescape, List.map_cons, escape]
    congr 1
    funext t; exact ih t

theorem order_swap : (order.map fun e => (e.2, e.1)) = removing.map bytes := by
  rw [order_eq]; decide +kernel

theorem add_eq (fuel : Nat) (s : List UInt8) : addEscapes fuel s = escape fuel (adding.map bytes) s := by rw [addEscapes, order_eq]
theorem remove_eq (fuel : Nat) (s : List UInt8) : removeEscapes fuel s = escape fuel (removing.map bytes) s := by
  rw [removeEscapes, escape_swap, order_swap]

theorem adding_ok : ∀ e ∈ adding, e.1 ≠ [] ∧ '\x00' ∉ e.1 ∧ '\x00' ∉ e.2 := by decide +kernel
theorem removing_ok : ∀ e ∈ removing, e.1 ≠ [] ∧ '\x00' ∉ e.1 ∧ '\x00' ∉ e.2 := by decide +kernel

/-- The ASCII characters but NUL -/
def ascii : List Char := (List.range 127).map fun n => Char.ofNat (n + 1)

theorem mem_ascii {c : Char} (h : c.toNat < 128) (hz : c ≠ '\x00') : c ∈ ascii := by
  have h0 : c.toNat ≠ 0 := fun e => hz (by rw [← Char.ofNat_toNat c, e])
  refine List.mem_map.mpr ⟨c.toNat - 1, by simp; omega, ?_⟩
  rw [show c.toNat - 1 + 1 = c.toNat by omega, Char.ofNat_toNat]

def double (c : Char) : List Char := if c ∈ early then percent (percent [c]) else percent [c]
def back (c : Char) : List Char := if c ∈ early then percent [c] else [c]

theorem tok_add : ∀ c ∈ ascii, good adding [c] = true ∧ tokRun adding [c] = double c := by decide +kernel
theorem tok_remove : ∀ c ∈ ascii, c ≠ '%' → good removing (percent [c]) = true ∧ tokRun removing (percent [c]) = [c] := by decide +kernel
theorem tok_back : ∀ c ∈ ascii, c ≠ '%' → good removing (double c) = true ∧ tokRun removing (double c) = back c := by decide +kernel

theorem percent_eq (s : List Char) : percent s = s.flatMap fun c => percent [c] := by simp [percent]

theorem flatMap_congr {f g : Char → List Char} {s : List Char} (h : ∀ c ∈ s, f c = g c) : s.flatMap f = s.flatMap g := by
  rw [List.flatMap_def, List.flatMap_def, List.map_congr_left h]

theorem flatMap_single (s : List Char) : (s.flatMap fun c => [c]) = s := by simp

theorem add_text {s : List Char} (ha : ∀ c ∈ s, c.toNat < 128) (hz : '\x00' ∉ s) {fuel : Nat} (hl : 5 * s.length < 2 ^ 63) (hf : 5 * s.length ≤ fuel) :
    addEscapes fuel (utf8 s) = some (utf8 (doubled s)) := by
  have hm : ∀ c ∈ s, c ∈ ascii := fun c hc => mem_ascii (ha c hc) (fun e => hz (e ▸ hc))
  have := run_tokens (fuel := fuel) adding s (fun c => [c]) adding_ok (fun c hc => (tok_add c (hm c hc)).1) hl hf
  rw [flatMap_single] at this
  rw [add_eq, this, flatMap_congr (fun c hc => (tok_add c (hm c hc)).2)]
  rfl

theorem remove_text {s : List Char} (h : Decodable s) {fuel : Nat} (hl : 5 * s.length < 2 ^ 63) (hf : 5 * s.length ≤ fuel) :
    removeEscapes fuel (utf8 (percent s)) = some (utf8 s) := by
  have hm : ∀ c ∈ s, c ∈ ascii := fun c hc => mem_ascii (h c hc).1 (h c hc).2.1
  have := run_tokens (fuel := fuel) removing s (fun c => percent [c]) removing_ok (fun c hc => (tok_remove c (hm c hc) (h c hc).2.2).1) hl hf
  rw [percent_eq, remove_eq, this, flatMap_congr (fun c hc => (tok_remove c (hm c hc) (h c hc).2.2).2), flatMap_single]

theorem remove_doubled {s : List Char} (h : Decodable s) {fuel : Nat} (hl : 5 * s.length < 2 ^ 63) (hf : 5 * s.length ≤ fuel) :
    removeEscapes fuel (utf8 (doubled s)) = some (utf8 (comesBack s)) := by
  have hm : ∀ c ∈ s, c ∈ ascii := fun c hc => mem_ascii (h c hc).1 (h c hc).2.1
  have := run_tokens (fuel := fuel) removing s double removing_ok (fun c hc => (tok_back c (hm c hc) (h c hc).2.2).1) hl hf
  rw [remove_eq]
  refine Eq.trans this ?_
  rw [flatMap_congr (fun c hc => (tok_back c (hm c hc) (h c hc).2.2).2)]
  rfl

/-! ## Splitting at a character -/

theorem firstAt_single {c : Char} : ∀ {s t : List Char}, c ∉ s → firstAt [c] (s ++ c :: t) = some s.length
  | [], t, _ => by simp [firstAt]
  | d :: s, t, h => by
    simp only [List.mem_cons, not_or] at h
    rw [List.cons_append, firstAt, if_neg (by
      rintro ⟨u, hu⟩
      simp only [List.cons_append, List.nil_append, List.cons.injEq] at hu
      exact h.1 hu.1), firstAt_single h.2]
    rfl

theorem component {c : Char} {s : List Char} (hne : s ≠ []) (h : c ∉ s) : Component [c] s := ⟨hne, firstAt_single h⟩

theorem utf8_intercalate (sep : List Char) (xs : List (List Char)) : utf8 (sep.intercalate xs) = (utf8 sep).intercalate (xs.map utf8) := by
  induction xs with
  | nil => rfl
  | cons x xs ih =>
    cases xs with
    | nil => simp
    | cons y ys => simp only [List.intercalate_cons_cons, List.map_cons, utf8_append] at ih ⊢; rw [ih]

theorem split_parts {c : Char} (hc : c ≠ '\x00') (parts : List (List Char)) (hz : ∀ p ∈ parts, '\x00' ∉ p) (hp : ∀ p ∈ parts, p ≠ [] ∧ c ∉ p) :
    split (utf8 ([c].intercalate parts)) (utf8 [c]) = some (parts.map utf8) := by
  rw [utf8_intercalate, ← C37_combine]
  exact C37_split_partial [c] parts (by simpa using Ne.symm hc) (by simp) hz (fun p h => component (hp p h).1 (hp p h).2)

/-! ## Dictionaries of strings -/

theorem takeWhile_all {α : Type} {p : α → Bool} : ∀ {l : List α}, (∀ b ∈ l, p b = true) → l.takeWhile p = l
  | [], _ => rfl
  | b :: l, h => by rw [List.takeWhile_cons, if_pos (h b (by simp)), takeWhile_all (fun c hc => h c (by simp [hc]))]

theorem cstr_utf8 {s : List Char} (h : '\x00' ∉ s) : Data.cstr (utf8 s) = utf8 s := by
  rw [Data.cstr]
  have := utf8_nulfree h
  exact takeWhile_all (fun b hb => by simp only [bne_iff_ne]; exact fun e => this (e ▸ hb))

theorem utf8_inj {a b : List Char} (ha : '\x00' ∉ a) (hb : '\x00' ∉ b) (h : utf8 a = utf8 b) : a = b := by
  have h1 := scans_text ha
  rw [h] at h1
  have h2 := congrArg (List.map (·.1)) (scans_unique h1 (scans_text hb))
  simp only [chunks, List.map_map] at h2
  exact List.map_injective_iff.mpr (fun c d h => toInt_inj c d h) h2

theorem eqv_utf8 {a b : List Char} (ha : '\x00' ∉ a) (hb : '\x00' ∉ b) : eqv (utf8 a) (utf8 b) = (a == b) := by
  rw [eqv, cstr_utf8 ha, cstr_utf8 hb, Bool.eq_iff_iff]
  simp only [beq_iff_eq]
  exact ⟨utf8_inj ha hb, fun h => h ▸ rfl⟩

theorem keyClass : HTable.KeyClass hash eqv where
  refl a := by simp [eqv]
  symm a b h := by simp only [eqv, beq_iff_eq] at h ⊢; exact h.symm
  trans a b c h h' := by simp only [eqv, beq_iff_eq] at h h' ⊢; exact h.trans h'
  hash_eq a b h := by
    simp only [eqv, beq_iff_eq] at h
    rw [hash, hash, Data.strhash, Data.strhash, h]

abbrev Calls := List (List UInt8 × Option (List UInt8))

theorem held_value (L : Calls) (q : List UInt8) :
    (Dict.held eqv id (L.map fun e => .set e.1 e.2) q).map (·.2) = (L.find? fun e => eqv e.1 q).map (·.2) := by
  induction L with
  | nil => rfl
  | cons e L ih =>
    simp only [List.map_cons, Dict.held, List.find?_cons]
    cases h : eqv e.1 q with
    | false => simpa using ih
    | true =>
      simp only [if_true, Option.map_some]
      cases Dict.held eqv id (L.map fun e => Dict.Op.set e.1 e.2) q <;> rfl

theorem held_key {L : Calls} {q : List UInt8} {e} (h : Dict.held eqv id (L.map fun e => .set e.1 e.2) q = some e) : ∃ c ∈ L, c.1 = e.1 := by
  induction L generalizing e with
  | nil => cases h
  | cons c L ih =>
    simp only [List.map_cons, Dict.held] at h
    split at h
    · cases hh : Dict.held eqv id (L.map fun e => Dict.Op.set e.1 e.2) q with
      | none => rw [hh] at h; simp only [Dict.put, Option.some.injEq, id] at h; exact ⟨c, by simp, by rw [← h]⟩
      | some a =>
        rw [hh] at h; simp only [Dict.put, Option.some.injEq] at h
        obtain ⟨c', h1, h2⟩ := ih hh
        exact ⟨c', by simp [h1], by rw [← h]; exact h2⟩
    · obtain ⟨c', h1, h2⟩ := ih h
      exact ⟨c', by simp [h1], h2⟩

theorem build_entry {calls : Calls} {d : Params} (h : build calls = .ok d) (q : List UInt8) :
    (Dict.entry eqv d q).map (·.2) = (calls.reverse.find? fun e => eqv e.1 q).map (·.2) := by
  rw [(Dict.C23_policies_partial (cp := id) keyClass (fun _ => keyClass.refl _) h).1 q]
  exact held_value _ q

theorem build_keys {calls : Calls} {d : Params} (h : build calls = .ok d) : ∀ e ∈ HTable.entries d.rows, ∃ c ∈ calls, c.1 = e.1 := by
  intro e he
  have := ((Dict.C23_policies_partial keyClass (fun _ => keyClass.refl _) h).2.1 e).mp he
  obtain ⟨c, h1, h2⟩ := held_key this
  exact ⟨c, by simpa using h1, h2⟩

theorem run_sets : ∀ (L : Calls) (t : Params) (t' : Params) (outs), HTable.run hash eqv t (L.map fun e => .insert e.1 e.2 .always) = .ok (t', outs) →
    L.foldlM (fun d e => Dict.setObject hash eqv id d e.1 e.2) t = .ok t'
  | [], t, t', outs, h => by cases h; rfl
  | e :: L, t, t', outs, h => by
    simp only [List.map_cons, HTable.run, HTable.step] at h
    simp only [List.foldlM_cons, Dict.setObject, Dict.insertObject, id]
    cases hi : HTable.insert hash eqv t e.1 e.2 .always with
    | error x => rw [hi] at h; cases h
    | ok r =>
      rw [hi] at h
      simp only [Except.map, Except.bind] at h ⊢
      cases hr : HTable.run hash eqv r.1 (L.map fun e => .insert e.1 e.2 .always) with
      | error x => rw [hr] at h; cases h
      | ok w =>
        rw [hr] at h
        cases h
        exact run_sets L r.1 _ _ hr

theorem run_fold : ∀ (L M : Calls) (t : Params), Dict.run hash eqv id (L.map fun e => .set e.1 e.2) = .ok t →
    Dict.run hash eqv id ((M.reverse ++ L).map fun e => .set e.1 e.2) = M.foldlM (fun d e => Dict.setObject hash eqv id d e.1 e.2) t
  | L, [], t, h => h
  | L, e :: M, t, h => by
    simp only [List.foldlM_cons, List.reverse_cons, List.append_assoc, List.singleton_append]
    cases hs : Dict.setObject hash eqv id t e.1 e.2 with
    | ok t1 =>
      have := run_fold (e :: L) M t1 (by rw [List.map_cons, Dict.run, h]; exact hs)
      rw [this]; rfl
    | error x =>
      have h1 : Dict.run hash eqv id ((e :: L).map fun e => .set e.1 e.2) = .error x := by rw [List.map_cons, Dict.run, h]; exact hs
      generalize M.reverse = N
      induction N with
      | nil => exact h1
      | cons c N ih => rw [List.cons_append, List.map_cons, Dict.run, ih]; rfl

/-- At most ten entries always fit. -/
theorem build_ok {calls : Calls} (h : calls.length ≤ 10) : ∃ d, build calls = .ok d := by
  have hi : HTable.insertions (calls.map fun e => HTable.Op.insert e.1 e.2 HTable.Policy.always) = calls.length := by
    unfold HTable.insertions
    induction calls with
    | nil => rfl
    | cons c cs ih => simp only [List.map_cons, List.countP_cons, if_true, List.length_cons]; rw [ih (by simp at h; omega)]
  obtain ⟨t, outs, h1, _⟩ := HTable.C06_map_short keyClass (calls.map fun e => HTable.Op.insert e.1 e.2 .always) (by rw [hi]; exact h)
  refine ⟨t, ?_⟩
  have := run_fold [] calls HTable.init rfl
  rw [List.append_nil] at this
  rw [build, this, run_sets calls _ t outs h1]

/-! ## Query parameters -/

/-- The parameters as the program stores them -/
def stored (w : List Char → List Char) (p : List Char × Option (List Char)) : List UInt8 × Option (List UInt8) := (utf8 (w p.1), p.2.map fun v => utf8 (w v))

theorem equals_eq : utf8 ['='] = [0x3d] := by decide
theorem amp_eq : utf8 ['&'] = [0x26] := by decide

/-- A way of writing names and values (`w`) and of reading them (`b`), with texts it works for -/
structure Codec (fuel : Nat) (P : List Char → Prop) (w b : List Char → List Char) : Prop where
  read : ∀ s, P s → removeEscapes fuel (utf8 (w s)) = some (utf8 (b s))
  ne : ∀ s, P s → s ≠ [] → w s ≠ []
  free : ∀ s, P s → ∀ c ∈ w s, c ≠ '=' ∧ c ≠ '&' ∧ c ≠ '\x00'

variable {fuel : Nat} {P : List Char → Prop} {w b : List Char → List Char}

theorem queryPair_text (C : Codec fuel P w b) {p : List Char × Option (List Char)} (h : p.1 ≠ [] ∧ P p.1 ∧ ∀ v, p.2 = some v → v ≠ [] ∧ P v) :
    queryPair fuel (utf8 (pairText w p)) = some (stored b p) := by
  obtain ⟨k, o⟩ := p
  obtain ⟨h1, h2, h3⟩ := h
  simp only at h1 h2 h3
  have hk := C.free k h2
  have hz : '\x00' ∉ w k := fun h => (hk _ h).2.2 rfl
  have he : '=' ∉ w k := fun h => (hk _ h).1 rfl
  cases o with
  | none =>
    have := split_parts (c := '=') (by decide) [w k] (by simpa using hz) (by simpa using ⟨C.ne k h2 h1, he⟩)
    rw [equals_eq] at this
    simp only [List.intercalate_singleton] at this
    rw [pairText, queryPair, this]
    simp only [List.map_cons, List.map_nil, Option.bind_some, C.read k h2, Option.map_some]
    rfl
  | some v =>
    obtain ⟨h4, h5⟩ := h3 v rfl
    have hv := C.free v h5
    have := split_parts (c := '=') (by decide) [w k, w v] (by
        intro p hp; simp only [List.mem_cons, List.not_mem_nil, or_false] at hp
        rcases hp with rfl | rfl
        · exact hz
        · exact fun h => (hv _ h).2.2 rfl) (by
        intro p hp; simp only [List.mem_cons, List.not_mem_nil, or_false] at hp
        rcases hp with rfl | rfl
        · exact ⟨C.ne k h2 h1, he⟩
        · exact ⟨C.ne v h5 h4, fun h => (hv _ h).1 rfl⟩)
    rw [equals_eq] at this
    have e : ['='].intercalate [w k, w v] = w k ++ '=' :: w v := by simp
    rw [e] at this
    rw [pairText, queryPair, this]
    simp only [List.map_cons, List.map_nil, Option.bind_some, C.read k h2, C.read v h5, Option.map_some]
    rfl

theorem forAll_map {α β γ : Type} {f : α → Option β} {g : γ → α} {r : γ → β} : ∀ {xs : List γ}, (∀ x ∈ xs, f (g x) = some (r x)) →
    forAll f (xs.map g) = some (xs.map r)
  | [], _ => rfl
  | x :: xs, h => by
    rw [List.map_cons, forAll, h x (by simp), Option.bind_some, forAll_map (fun y hy => h y (by simp [hy]))]; rfl

theorem pairText_ne (C : Codec fuel P w b) {p : List Char × Option (List Char)} (h : p.1 ≠ [] ∧ P p.1 ∧ ∀ v, p.2 = some v → v ≠ [] ∧ P v) :
    pairText w p ≠ [] ∧ ∀ c ∈ pairText w p, c ≠ '&' ∧ c ≠ '\x00' := by
  obtain ⟨k, o⟩ := p
  obtain ⟨h1, h2, h3⟩ := h
  simp only at h1 h2 h3
  have hk := C.free k h2
  cases o with
  | none => exact ⟨C.ne k h2 h1, fun c hc => (hk c hc).2⟩
  | some v =>
    have hv := C.free v (h3 v rfl).2
    refine ⟨by simp [pairText], fun c hc => ?_⟩
    simp only [pairText, List.mem_append, List.mem_cons] at hc
    rcases hc with hc | rfl | hc
    · exact (hk c hc).2
    · decide
    · exact (hv c hc).2

theorem splitQuery_text (C : Codec fuel P w b) {ps : Pairs} (hne : ps ≠ []) (h : ps.All P) :
    splitQuery fuel (utf8 (queryText w ps)) = some (some (build (ps.map (stored b)))) := by
  have hs := split_parts (c := '&') (by decide) (ps.map (pairText w)) (by
      intro t ht; obtain ⟨p, hp, rfl⟩ := List.mem_map.mp ht
      exact fun hz => ((pairText_ne C (h p hp)).2 _ hz).2 rfl) (by
      intro t ht; obtain ⟨p, hp, rfl⟩ := List.mem_map.mp ht
      exact ⟨(pairText_ne C (h p hp)).1, fun hz => ((pairText_ne C (h p hp)).2 _ hz).1 rfl⟩)
  rw [amp_eq, List.map_map] at hs
  have hpos : (utf8 (queryText w ps)).length > 0 := by
    refine List.length_pos_iff.mpr (utf8_ne ?_)
    cases ps with
    | nil => exact absurd rfl hne
    | cons p ps =>
      have := (pairText_ne C (h p (by simp))).1
      cases ps with
      | nil => simpa [queryText] using this
      | cons q qs => simp [queryText, this]
  have hs' : split (utf8 (['&'].intercalate (ps.map (pairText w)))) [0x26] = some (ps.map fun p => utf8 (pairText w p)) := hs
  rw [splitQuery, if_pos hpos, queryText, hs', Option.bind_some, forAll_map (r := stored b) (fun p hp => queryPair_text C (h p hp))]
  rfl

theorem percent_free : ∀ c ∈ ascii, percent [c] ≠ [] ∧ ∀ d ∈ percent [c], d ≠ '=' ∧ d ≠ '&' ∧ d ≠ '\x00' := by decide +kernel
theorem double_free : ∀ c ∈ ascii, double c ≠ [] ∧ ∀ d ∈ double c, d ≠ '=' ∧ d ≠ '&' ∧ d ≠ '\x00' := by decide +kernel

theorem flat_ne {f : Char → List Char} {s : List Char} (hs : s ≠ []) (h : ∀ c ∈ s, f c ≠ []) : s.flatMap f ≠ [] := by
  cases s with
  | nil => exact absurd rfl hs
  | cons c s => simp [h c (by simp)]

theorem codec_percent : Codec fuel (Fits fuel) percent id where
  read s h := remove_text h.1 h.2.1 h.2.2
  ne s h hs := by
    rw [percent_eq]; exact flat_ne hs (fun c hc => (percent_free c (mem_ascii (h.1 c hc).1 (h.1 c hc).2.1)).1)
  free s h c hc := by
    rw [percent_eq] at hc
    obtain ⟨d, hd, hc⟩ := List.mem_flatMap.mp hc
    exact (percent_free d (mem_ascii (h.1 d hd).1 (h.1 d hd).2.1)).2 c hc

theorem doubled_eq (s : List Char) : doubled s = s.flatMap double := rfl

theorem codec_doubled : Codec fuel (Fits fuel) doubled comesBack where
  read s h := remove_doubled h.1 h.2.1 h.2.2
  ne s h hs := by
    rw [doubled_eq]; exact flat_ne hs (fun c hc => (double_free c (mem_ascii (h.1 c hc).1 (h.1 c hc).2.1)).1)
  free s h c hc := by
    rw [doubled_eq] at hc
    obtain ⟨d, hd, hc⟩ := List.mem_flatMap.mp hc
    exact (double_free d (mem_ascii (h.1 d hd).1 (h.1 d hd).2.1)).2 c hc

/-! ## Combining -/

def contents (d : Data.Obj) : List UInt8 × List UInt8 := (d.bytes.take d.cursor, d.bytes.drop d.cursor)

theorem contents_bytes {d : Data.Obj} {t : List UInt8} (h : contents d = (t, [])) : d.bytes = t := by
  injection h with h1 h2
  rw [← List.take_append_drop d.cursor d.bytes, h1, h2, List.append_nil]

theorem doubled_nul {s : List Char} (ha : ∀ c ∈ s, c.toNat < 128 ∧ c ≠ '\x00') : '\x00' ∉ doubled s := by
  intro h
  rw [doubled_eq] at h
  obtain ⟨d, hd, hc⟩ := List.mem_flatMap.mp h
  exact ((double_free d (mem_ascii (ha d hd).1 (ha d hd).2)).2 _ hc).2.2 rfl

theorem writable_add {s : List Char} (h : Writable fuel s) : addEscapes fuel (utf8 s) = some (utf8 (doubled s)) ∧
    Data.cstr (utf8 (doubled s)) = utf8 (doubled s) :=
  ⟨add_text (fun c hc => (h.1 c hc).1) (fun hz => (h.1 _ hz).2 rfl) h.2.1 h.2.2, cstr_utf8 (doubled_nul h.1)⟩

theorem combinePair_text (libc : Printf.Libc) {p : List Char × Option (List Char)} (h : Writable fuel p.1 ∧ ∀ v, p.2 = some v → Writable fuel v)
    {str : Data.Obj} {t : List Char} (hs : contents str = (utf8 t, [])) :
    ∃ str', combinePair fuel libc str (stored id p) = some str' ∧
      contents str' = (utf8 (t ++ (if t = [] then [] else ['&']) ++ pairText doubled p), []) := by
  obtain ⟨k, o⟩ := p
  obtain ⟨h1, h2⟩ := h
  simp only at h1 h2
  have hb := contents_bytes hs
  have hpos : (str.bytes.length > 0) ↔ t ≠ [] := by
    rw [hb]
    constructor
    · rintro h rfl; exact absurd h (by simp [utf8])
    · exact fun h => List.length_pos_iff.mpr (utf8_ne h)
  obtain ⟨a1, a2⟩ := writable_add h1
  cases o with
  | none =>
    simp only [combinePair, stored, id, a1, Option.bind_some, Option.map_none, a2]
    by_cases ht : t = []
    · obtain ⟨s', e1, e2⟩ := Printf.printf_pieces (libc := libc) Printf.acts_data (ps := [.str [] (some (utf8 (doubled k)))]) (outs := [utf8 (doubled k)])
        (.cons (by simp [Printf.Piece.Writes]) .nil) (by simp [Printf.Piece.Ok]) str []
      refine ⟨s', ?_, ?_⟩
      · rw [if_neg (by rw [hpos]; simpa using ht)]
        simp only [List.flatMap_cons, List.flatMap_nil, Printf.Piece.format, Printf.Piece.args, List.append_nil, List.nil_append] at e1
        rw [e1]; rfl
      · simp only [contents] at hs ⊢
        rw [e2, hs]
        simp only [List.flatten_cons, List.flatten_nil, List.append_nil, List.drop_nil, ← utf8_append]
        congr 2
        simp [ht, pairText]
    · obtain ⟨s', e1, e2⟩ := Printf.printf_pieces (libc := libc) Printf.acts_data (ps := [.text ['&'], .str [] (some (utf8 (doubled k)))])
        (outs := [utf8 ['&'], utf8 (doubled k)])
        (.cons (by simp [Printf.Piece.Writes]) (.cons (by simp [Printf.Piece.Writes]) .nil)) (by simp [Printf.Piece.Ok]) str []
      refine ⟨s', ?_, ?_⟩
      · rw [if_pos (by rw [hpos]; exact ht)]
        simp only [List.flatMap_cons, List.flatMap_nil, Printf.Piece.format, Printf.Piece.args, List.append_nil, List.nil_append, amp_eq,
          List.singleton_append] at e1
        rw [e1]; rfl
      · simp only [contents] at hs ⊢
        rw [e2, hs]
        simp only [List.flatten_cons, List.flatten_nil, List.append_nil, List.drop_nil, ← utf8_append]
        congr 2
        simp [ht, pairText]
  | some v =>
    obtain ⟨b1, b2⟩ := writable_add (h2 v rfl)
    simp only [combinePair, stored, id, a1, b1, Option.bind_some, Option.map_some, a2, b2]
    by_cases ht : t = []
    · obtain ⟨s', e1, e2⟩ := Printf.printf_pieces (libc := libc) Printf.acts_data
        (ps := [.str [] (some (utf8 (doubled k))), .text ['='], .str [] (some (utf8 (doubled v)))]) (outs := [utf8 (doubled k), utf8 ['='], utf8 (doubled v)])
        (.cons (by simp [Printf.Piece.Writes]) (.cons (by simp [Printf.Piece.Writes]) (.cons (by simp [Printf.Piece.Writes]) .nil)))
        (by simp [Printf.Piece.Ok]) str []
      refine ⟨s', ?_, ?_⟩
      · rw [if_neg (by rw [hpos]; simpa using ht)]
        simp only [List.flatMap_cons, List.flatMap_nil, Printf.Piece.format, Printf.Piece.args, List.append_nil, List.nil_append, equals_eq,
          List.singleton_append, List.cons_append] at e1
        rw [e1]; rfl
      · simp only [contents] at hs ⊢
        rw [e2, hs]
        simp only [List.flatten_cons, List.flatten_nil, List.append_nil, List.drop_nil, ← utf8_append]
        congr 2
        simp [ht, pairText]
    · obtain ⟨s', e1, e2⟩ := Printf.printf_pieces (libc := libc) Printf.acts_data
        (ps := [.text ['&'], .str [] (some (utf8 (doubled k))), .text ['='], .str [] (some (utf8 (doubled v)))])
        (outs := [utf8 ['&'], utf8 (doubled k), utf8 ['='], utf8 (doubled v)])
        (.cons (by simp [Printf.Piece.Writes]) (.cons (by simp [Printf.Piece.Writes]) (.cons (by simp [Printf.Piece.Writes])
          (.cons (by simp [Printf.Piece.Writes]) .nil))))
        (by simp [Printf.Piece.Ok]) str []
      refine ⟨s', ?_, ?_⟩
      · rw [if_pos (by rw [hpos]; exact ht)]
        simp only [List.flatMap_cons, List.flatMap_nil, Printf.Piece.format, Printf.Piece.args, List.append_nil, List.nil_append, equals_eq, amp_eq,
          List.singleton_append, List.cons_append] at e1
        rw [e1]; rfl
      · simp only [contents] at hs ⊢
        rw [e2, hs]
        simp only [List.flatten_cons, List.flatten_nil, List.append_nil, List.drop_nil, ← utf8_append]
        congr 2
        simp [ht, pairText]

/-- The names are not empty -/
theorem combineAll_text (libc : Printf.Libc) : ∀ (ps : Pairs) (str : Data.Obj) (t : List Char),
    (∀ p ∈ ps, p.1 ≠ [] ∧ Writable fuel p.1 ∧ ∀ v, p.2 = some v → Writable fuel v) → contents str = (utf8 t, []) →
    ∃ str', combineAll fuel libc (ps.map (stored id)) str = some str' ∧
      contents str' = (utf8 (t ++ (if t = [] ∨ ps = [] then [] else ['&']) ++ queryText doubled ps), [])
  | [], str, t, _, hs => ⟨str, rfl, by rw [hs]; simp [queryText]⟩
  | p :: ps, str, t, h, hs => by
    have hp := h p (by simp)
    obtain ⟨s1, e1, c1⟩ := combinePair_text libc ⟨hp.2.1, hp.2.2⟩ hs
    obtain ⟨s2, e2, c2⟩ := combineAll_text libc ps s1 _ (fun q hq => h q (by simp [hq])) c1
    refine ⟨s2, by rw [List.map_cons, combineAll, e1, Option.bind_some, e2], ?_⟩
    rw [c2]
    have hne : pairText doubled p ≠ [] := by
      have hd : doubled p.1 ≠ [] := by
        rw [doubled_eq]; exact flat_ne hp.1 (fun c hc => (double_free c (mem_ascii (hp.2.1.1 c hc).1 (hp.2.1.1 c hc).2)).1)
      obtain ⟨k, _ | v⟩ := p
      · exact hd
      · simp [pairText]
    have hne' : t ++ (if t = [] then [] else ['&']) ++ pairText doubled p ≠ [] := by simp [hne]
    congr 2
    cases ps with
    | nil => simp [queryText]
    | cons q qs => simp [queryText, hne]

theorem combineQuery_text (libc : Printf.Libc) {d : Params} {ps : Pairs} (hd : HTable.entries d.rows = ps.map (stored id))
    (h : ∀ p ∈ ps, p.1 ≠ [] ∧ Writable fuel p.1 ∧ ∀ v, p.2 = some v → Writable fuel v) :
    combineQuery fuel libc (some d) = some (utf8 (queryText doubled ps)) := by
  obtain ⟨s, e, c⟩ := combineAll_text libc ps ⟨[], 0⟩ [] h rfl
  rw [combineQuery, hd, e, Option.map_some, contents_bytes c]
  simp

/-! ## Styles -/

theorem blank_white {c : Char} : isBlank c = true ↔ White (c.toNat : Int) := by
  have hc : ∀ d : Char, c = d ↔ c.toNat = d.toNat := fun d => Char.toNat_inj.symm
  simp only [isBlank, White, List.mem_cons, List.not_mem_nil, or_false, decide_eq_true_eq, hc]
  simp only [show ' '.toNat = 32 from rfl, show '\t'.toNat = 9 from rfl, show '\n'.toNat = 10 from rfl, show '\x0b'.toNat = 11 from rfl,
    show '\x0c'.toNat = 12 from rfl, show '\r'.toNat = 13 from rfl]
  omega

theorem trim_word {a w b : List Char} (hw : Word w) (ha : ∀ c ∈ a, isBlank c = true) (hb : ∀ c ∈ b, isBlank c = true) :
    trim (utf8 (a ++ w ++ b)) = some (utf8 w) := by
  have small : ∀ c, isBlank c = true → c.toNat < 256 ∧ c ≠ '\x00' := by
    intro c hc
    have := blank_white.mp hc
    simp only [White] at this
    refine ⟨by omega, ?_⟩
    rintro rfl
    simp [show '\x00'.toNat = 0 from rfl] at this
  refine C75_text_partial _ w ?_ ?_ ⟨a, b, rfl, fun x hx => blank_white.mp (ha x hx), fun x hx => blank_white.mp (hb x hx), ?_, ?_⟩
  · simp only [List.mem_append, not_or]
    exact ⟨⟨fun h => (small _ (ha _ h)).2 rfl, fun h => (hw.chars _ h).2.2.1 rfl⟩, fun h => (small _ (hb _ h)).2 rfl⟩
  · simp only [List.mem_append]
    rintro c ((h | h) | h)
    · exact (small _ (ha _ h)).1
    · exact (hw.chars _ h).2.2.2
    · exact (small _ (hb _ h)).1
  · intro x hx
    obtain ⟨c, h1, h2⟩ := hw.first
    rw [h1] at hx; cases hx
    rw [← blank_white]; simp [h2]
  · intro x hx
    obtain ⟨c, h1, h2⟩ := hw.last
    rw [h1] at hx; cases hx
    rw [← blank_white]; simp [h2]

theorem colon_eq : utf8 [':'] = [0x3a] := by decide
theorem semi_eq : utf8 [';'] = [0x3b] := by decide

theorem blank_chars {c : Char} (h : isBlank c = true) : c ≠ ':' ∧ c ≠ ';' ∧ c ≠ '\x00' := by
  refine ⟨?_, ?_, ?_⟩ <;> rintro rfl <;> revert h <;> decide

theorem word_ne {w : List Char} (h : Word w) : w ≠ [] := by
  rintro rfl; obtain ⟨c, h1, -⟩ := h.first; cases h1

/-- A part of a declaration: white space, a word, white space -/
theorem part_chars {a w b : List Char} (hw : Word w) (ha : ∀ c ∈ a, isBlank c = true) (hb : ∀ c ∈ b, isBlank c = true) :
    (a ++ w ++ b) ≠ [] ∧ ∀ c ∈ a ++ w ++ b, c ≠ ':' ∧ c ≠ ';' ∧ c ≠ '\x00' := by
  refine ⟨by simp [word_ne hw], ?_⟩
  simp only [List.mem_append]
  rintro c ((h | h) | h)
  · exact blank_chars (ha c h)
  · have := hw.chars c h; exact ⟨this.1, this.2.1, this.2.2.1⟩
  · exact blank_chars (hb c h)

theorem Style.Ok.parts {d : Style} (h : d.Ok) : ((∀ c ∈ d.before, isBlank c = true) ∧ ∀ c ∈ d.afterName, isBlank c = true) ∧
    (∀ c ∈ d.beforeValue, isBlank c = true) ∧ ∀ c ∈ d.after, isBlank c = true := by
  have := h.blanks
  simp only [List.mem_append] at this
  exact ⟨⟨fun c hc => this c (by simp [hc]), fun c hc => this c (by simp [hc])⟩, fun c hc => this c (by simp [hc]), fun c hc => this c (by simp [hc])⟩

theorem stylePair_decl {d : Style} (h : d.Ok) : stylePair (utf8 d.text) = some (some (utf8 d.name, some (utf8 d.value))) := by
  obtain ⟨⟨a, b⟩, c, e⟩ := h.parts
  have p1 := part_chars h.name a b
  have p2 := part_chars h.value c e
  have := split_parts (c := ':') (by decide) [d.before ++ d.name ++ d.afterName, d.beforeValue ++ d.value ++ d.after] (by
      intro p hp; simp only [List.mem_cons, List.not_mem_nil, or_false] at hp
      rcases hp with rfl | rfl
      · exact fun h => (p1.2 _ h).2.2 rfl
      · exact fun h => (p2.2 _ h).2.2 rfl) (by
      intro p hp; simp only [List.mem_cons, List.not_mem_nil, or_false] at hp
      rcases hp with rfl | rfl
      · exact ⟨p1.1, fun h => (p1.2 _ h).1 rfl⟩
      · exact ⟨p2.1, fun h => (p2.2 _ h).1 rfl⟩)
  rw [colon_eq] at this
  have e' : [':'].intercalate [d.before ++ d.name ++ d.afterName, d.beforeValue ++ d.value ++ d.after] = d.text := by simp [Style.text]
  rw [e'] at this
  rw [stylePair, this]
  simp only [List.map_cons, List.map_nil, Option.bind_some, trim_word h.name a b, trim_word h.value c e, Option.map_some]

theorem stylePair_parts {parts : List (List Char)} (h : ∀ p ∈ parts, p ≠ [] ∧ ∀ c ∈ p, c ≠ ':' ∧ c ≠ '\x00') (h2 : parts.length ≠ 2) :
    stylePair (utf8 ([':'].intercalate parts)) = some none := by
  have := split_parts (c := ':') (by decide) parts (fun p hp hz => ((h p hp).2 _ hz).2 rfl) (fun p hp => ⟨(h p hp).1, fun hz => ((h p hp).2 _ hz).1 rfl⟩)
  rw [colon_eq] at this
  rw [stylePair, this, Option.bind_some]
  match parts, h2 with
  | [], _ => rfl
  | [_], _ => rfl
  | [_, _], h2 => exact absurd rfl h2
  | _ :: _ :: _ :: _, _ => rfl

theorem splitsC_final {c : Char} : ∀ {parts : List (List Char)}, (∀ p ∈ parts, p ≠ [] ∧ c ∉ p) →
    SplitsC [c] (parts.flatMap (· ++ [c])) parts []
  | [], _ => .stop _ (Or.inl rfl)
  | p :: parts, h => by
    have hp := h p (by simp)
    have := SplitsC.step (ds := [c]) p (parts.flatMap (· ++ [c])) parts [] hp.1
      (by simp only [List.append_assoc, List.singleton_append]; exact firstAt_single hp.2) (splitsC_final (fun q hq => h q (by simp [hq])))
    simpa using this

theorem split_final {c : Char} (hc : c ≠ '\x00') {parts : List (List Char)} (hz : ∀ p ∈ parts, '\x00' ∉ p) (hp : ∀ p ∈ parts, p ≠ [] ∧ c ∉ p)
    (hne : parts ≠ []) : split (utf8 ([c].intercalate parts ++ [c])) (utf8 [c]) = some (parts.map utf8) := by
  have e : [c].intercalate parts ++ [c] = parts.flatMap (· ++ [c]) := by
    clear hz hp
    induction parts with
    | nil => exact absurd rfl hne
    | cons p ps ih =>
      cases ps with
      | nil => simp
      | cons q qs => rw [List.intercalate_cons_cons, List.flatMap_cons, ← ih (by simp)]; simp
  have := split_text (ds := [c]) (by simpa using Ne.symm hc) (by simp) (splitsC_final hp) (by
    intro hm
    obtain ⟨p, h1, h2⟩ := List.mem_flatMap.mp hm
    rcases List.mem_append.mp h2 with h2 | h2
    · exact hz p h1 h2
    · simp at h2; exact hc h2.symm)
  rw [e, this]; simp

theorem item_text {i : Item} (h : i.Ok) : i.text ≠ [] ∧ ∀ c ∈ i.text, c ≠ ';' ∧ c ≠ '\x00' := by
  cases i with
  | other t => exact ⟨h.1, fun c hc => (h.2 c hc).2⟩
  | decl d =>
    obtain ⟨⟨a, b⟩, c, e⟩ := Style.Ok.parts h
    have p1 := part_chars h.name a b
    have p2 := part_chars h.value c e
    refine ⟨by simp [Item.text, Style.text], fun x hx => ?_⟩
    simp only [Item.text, Style.text, List.mem_append, List.mem_cons] at hx
    rcases hx with hx | rfl | hx
    · exact (p1.2 x (by simpa [or_assoc] using hx)).2
    · decide
    · exact (p2.2 x (by simpa [or_assoc] using hx)).2

def call : Item → Option (List UInt8 × Option (List UInt8))
  | .decl d => some (utf8 d.name, some (utf8 d.value))
  | .other _ => none

theorem stylePair_item {i : Item} (h : i.Ok) : stylePair (utf8 i.text) = some (call i) := by
  cases i with
  | decl d => exact stylePair_decl h
  | other t =>
    have := stylePair_parts (parts := [t]) (by simpa using ⟨h.1, fun c hc => ⟨(h.2 c hc).1, (h.2 c hc).2.2⟩⟩) (by simp)
    have h' : stylePair (utf8 t) = some none := by simpa using this
    exact h'

theorem calls_declared (is : List Item) : (is.map call).filterMap id = (declared is).map fun p => (utf8 p.1, some (utf8 p.2)) := by
  induction is with
  | nil => rfl
  | cons i is ih => cases i <;> simp [call, declared] at ih ⊢ <;> exact ih

theorem splitStyles_text {is : List Item} (h : ∀ i ∈ is, i.Ok) (hne : is ≠ []) (final : Bool) :
    splitStyles (utf8 (stylesText is final)) = some (some (build ((declared is).map fun p => (utf8 p.1, some (utf8 p.2))))) := by
  have hz : ∀ p ∈ is.map Item.text, '\x00' ∉ p := by
    intro p hp; obtain ⟨i, hi, rfl⟩ := List.mem_map.mp hp
    exact fun hm => ((item_text (h i hi)).2 _ hm).2 rfl
  have hp : ∀ p ∈ is.map Item.text, p ≠ [] ∧ ';' ∉ p := by
    intro p hp; obtain ⟨i, hi, rfl⟩ := List.mem_map.mp hp
    exact ⟨(item_text (h i hi)).1, fun hm => ((item_text (h i hi)).2 _ hm).1 rfl⟩
  have hs : split (utf8 (stylesText is final)) [0x3b] = some (is.map fun i => utf8 i.text) := by
    rw [← semi_eq]
    cases final with
    | true => rw [stylesText, if_pos rfl, split_final (by decide) hz hp (by simpa using hne), List.map_map]; rfl
    | false =>
      rw [stylesText, if_neg (by decide), List.append_nil, split_parts (by decide) _ hz hp, List.map_map]; rfl
  have hpos : (utf8 (stylesText is final)).length > 0 := by
    refine List.length_pos_iff.mpr (utf8_ne ?_)
    cases is with
    | nil => exact absurd rfl hne
    | cons i is =>
      have := (item_text (h i (by simp))).1
      cases is with
      | nil => simp [stylesText, this]
      | cons j js => simp [stylesText, this]
  rw [splitStyles, if_pos hpos, hs, Option.bind_some, forAll_map (r := call) (fun i hi => stylePair_item (h i hi)), Option.map_some, calls_declared]

/-! ## What the dictionaries contain -/

theorem find_congr {α : Type} {p q : α → Bool} : ∀ {l : List α}, (∀ x ∈ l, p x = q x) → l.find? p = l.find? q
  | [], _ => rfl
  | x :: l, h => by
    rw [List.find?_cons, List.find?_cons, h x (by simp), find_congr (fun y hy => h y (by simp [hy]))]

/-- A dictionary built from texts has the value of the last pair for every name -/
theorem build_last {β : Type} (ps : List (List Char × β)) (g : β → Option (List UInt8)) (hz : ∀ p ∈ ps, '\x00' ∉ p.1) {d : Params}
    (h : build (ps.map fun p => (utf8 p.1, g p.2)) = .ok d) {q : List Char} (hq : '\x00' ∉ q) :
    (Dict.entry eqv d (utf8 q)).map (·.2) = (lastValue ps q).map g := by
  rw [build_entry h, ← List.map_reverse, List.find?_map, lastValue]
  have : (ps.reverse.find? ((fun e : List UInt8 × Option (List UInt8) => eqv e.1 (utf8 q)) ∘ fun p => (utf8 p.1, g p.2))) = ps.reverse.find? fun p => p.1 == q :=
    find_congr (fun p hp => eqv_utf8 (hz p (by simpa using hp)) hq)
  rw [this]
  cases ps.reverse.find? fun p => p.1 == q <;> rfl

theorem held_distinct {L : Calls} (h : L.Pairwise fun a b => eqv a.1 b.1 = false) (q : List UInt8) :
    Dict.held eqv id (L.map fun e => .set e.1 e.2) q = L.find? fun e => eqv e.1 q := by
  induction L with
  | nil => rfl
  | cons e L ih =>
    rw [List.pairwise_cons] at h
    simp only [List.map_cons, Dict.held, List.find?_cons]
    cases he : eqv e.1 q with
    | false => simpa using ih h.2
    | true =>
      have : L.find? (fun e => eqv e.1 q) = none := by
        refine List.find?_eq_none.mpr (fun a ha hc => ?_)
        have := h.1 a ha
        rw [keyClass.trans e.1 q a.1 he (keyClass.symm _ _ hc)] at this
        cases this
      rw [if_pos rfl, ih h.2, this]; rfl

theorem find_reverse {L : Calls} (h : L.Pairwise fun a b => eqv a.1 b.1 = false) (q : List UInt8) :
    L.reverse.find? (fun e => eqv e.1 q) = L.find? fun e => eqv e.1 q := by
  induction L with
  | nil => rfl
  | cons e L ih =>
    rw [List.pairwise_cons] at h
    rw [List.reverse_cons, List.find?_append, ih h.2, List.find?_cons]
    cases he : eqv e.1 q with
    | false => simp [List.find?, he]
    | true =>
      have : L.find? (fun e => eqv e.1 q) = none := by
        refine List.find?_eq_none.mpr (fun a ha hc => ?_)
        have := h.1 a ha
        rw [keyClass.trans e.1 q a.1 he (keyClass.symm _ _ hc)] at this
        cases this
      rw [this]; simp [List.find?, he]

theorem build_same {d d' : Params} {h : List (Dict.Op (List UInt8) (List UInt8))} (hr : Dict.run hash eqv id h = .ok d)
    (hb : build (HTable.entries d.rows) = .ok d') (q : List UInt8) : Dict.entry eqv d' q = Dict.entry eqv d q := by
  have hp := (Dict.C23_policies_partial (cp := id) keyClass (fun _ => keyClass.refl _) hr).2.2.1
  rw [(Dict.C23_policies_partial (cp := id) keyClass (fun _ => keyClass.refl _) hb).1 q, Dict.entry, ← find_reverse hp]
  refine held_distinct ?_ q
  rw [List.pairwise_reverse]
  exact hp.imp (fun {a b} hab => by
    cases hba : eqv b.1 a.1 with
    | false => rfl
    | true => rw [keyClass.symm _ _ hba] at hab; cases hab)

theorem comesBack_iff (s : List Char) : comesBack s = s ↔ ∀ c ∈ s, c ∉ early := by
  have h3 : ∀ c ∈ early, (percent [c]).length = 3 := by decide +kernel
  have hl : ∀ s : List Char, s.length ≤ (comesBack s).length ∧ ((∃ c ∈ s, c ∈ early) → s.length < (comesBack s).length) := by
    intro s
    induction s with
    | nil => simp
    | cons c s ih =>
      have e : comesBack (c :: s) = (if c ∈ early then percent [c] else [c]) ++ comesBack s := by simp [comesBack]
      rw [e]
      by_cases hc : c ∈ early
      · rw [if_pos hc, List.length_append, h3 c hc, List.length_cons]
        exact ⟨by omega, fun _ => by omega⟩
      · rw [if_neg hc, List.length_append, List.length_cons, List.length_singleton]
        refine ⟨by omega, ?_⟩
        rintro ⟨x, hx, hxe⟩
        rcases List.mem_cons.mp hx with rfl | hx
        · exact absurd hxe hc
        · have := ih.2 ⟨x, hx, hxe⟩; omega
  constructor
  · intro h c hc he
    have := (hl s).2 ⟨c, hc, he⟩
    rw [h] at this; omega
  · intro h
    have : comesBack s = s.flatMap fun c => [c] := flatMap_congr (fun c hc => if_neg (h c hc))
    rw [this, flatMap_single]

theorem doubled_plain {s : List Char} (h : ∀ c ∈ s, c ∉ early) : doubled s = percent s := by
  rw [percent_eq]; exact flatMap_congr (fun c hc => if_neg (h c hc))

end Query
end Duck
