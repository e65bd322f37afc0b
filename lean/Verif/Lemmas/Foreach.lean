import Verif.Spec.Foreach
import Verif.Lemmas.HashTableRefine
/-! Enumerating arrays and hash tables. -/
namespace Duck
namespace Foreach
open HTable (Policy)
variable {S C A Op : Type}

theorem visit_plain (call : C → Op → Option C) (cb : Callback S C A Op) (a : A) (s : S) (c : C) (h : (cb a s c).1 = []) :
    visit call cb a s c = .ret (plain cb c a s).1 (plain cb c a s).2 c [a] := by
  unfold visit
  rw [h]
  rfl

theorem ret_andThen (r : Int) (s : S) (c : C) (seen : List A) (f : S → C → End S C A) :
    (End.ret r s c seen).andThen f = if r ≠ 0 then .ret r s c seen else (f s c).after seen := rfl

/-- What holds of every allowed call holds of the calls together. -/
theorem only_rel {call : C → Op → Option C} {ok : C → Op → Prop} (R : C → C → Prop) (hr : ∀ c, R c c)
    (ht : ∀ a b c, R a b → R b c → R a c) (inv : C → Prop)
    (hs : ∀ c op c', inv c → ok c op → call c op = some c' → inv c' ∧ R c c') : ∀ (ops : List Op) (c c' : C), inv c →
    Only call ok c ops → calls call c ops = some c' → inv c' ∧ R c c'
  | [], c, c', hi, _, h => by cases h; exact ⟨hi, hr c⟩
  | op :: ops, c, c', hi, ho, h => by
    simp only [calls] at h
    cases h1 : call c op with
    | none => rw [h1] at h; cases h
    | some d =>
      rw [h1] at h
      obtain ⟨i1, r1⟩ := hs c op d hi ho.1 h1
      obtain ⟨i2, r2⟩ := only_rel R hr ht inv hs ops d c' i1 (ho.2 d h1) h
      exact ⟨i2, ht _ _ _ r1 r2⟩

theorem after_after (a b : List A) (e : End S C A) : (e.after b).after a = e.after (a ++ b) := by
  cases e <;> simp [End.after]

theorem andThen_after (a : List A) (e : End S C A) (f : S → C → End S C A) :
    (e.after a).andThen f = (e.andThen f).after a := by
  cases e with
  | ret r s c seen =>
    by_cases h : r ≠ 0
    · simp only [End.after, ret_andThen, if_pos h]
    · rw [ret_andThen, if_neg h, after_after]
      exact (ret_andThen ..).trans (if_neg h)
  | more => rfl
  | stuck => rfl

theorem andThen_assoc (e : End S C A) (f g : S → C → End S C A) :
    (e.andThen f).andThen g = e.andThen (fun s c => (f s c).andThen g) := by
  cases e with
  | ret r s c seen =>
    by_cases h : r ≠ 0
    · simp only [ret_andThen, if_pos h]
    · simp only [ret_andThen, if_neg h]
      rw [andThen_after]
  | more => rfl
  | stuck => rfl

theorem eachKey_append {K V : Type} (call : C → Op → Option C) (cb : Callback S C (K × V) Op) (look : C → K → Option V)
    (ks : List K) : ∀ (js : List K) (s : S) (c : C), eachKey call cb look (js ++ ks) s c =
      (eachKey call cb look js s c).andThen (eachKey call cb look ks)
  | [], s, c => by
    simp only [List.nil_append, eachKey, ret_andThen]
    rw [if_neg (by simp)]
    cases eachKey call cb look ks s c <;> simp [End.after]
  | j :: js, s, c => by
    simp only [List.cons_append, eachKey]
    cases look c j with
    | none => exact eachKey_append call cb look ks js s c
    | some v =>
      simp only
      rw [andThen_assoc]
      congr 1
      funext s c
      exact eachKey_append call cb look ks js s c

/-! ### Arrays -/

section
variable {V : Type}

theorem arrayLoop_plain (cb : Callback S (List V) V (Replace V)) (vs : List V) (h : ∀ v s, (cb v s vs).1 = []) :
    ∀ (fuel i : Nat) (s : S), vs.length ≤ i + fuel → arrayLoop cb fuel i s vs =
      .ret (visits (plain cb vs) (vs.drop i) s).1 (visits (plain cb vs) (vs.drop i) s).2.1 vs
        (visits (plain cb vs) (vs.drop i) s).2.2
  | 0, i, s, hf => by
    rw [arrayLoop, if_neg (by omega), List.drop_eq_nil_of_le (by omega)]; rfl
  | fuel + 1, i, s, hf => by
    unfold arrayLoop
    by_cases hi : i < vs.length
    · rw [List.getElem?_eq_getElem hi, List.drop_eq_getElem_cons hi]
      simp only [visit_plain _ _ _ _ _ (h _ _), ret_andThen, visits]
      split
      · rfl
      · rw [arrayLoop_plain cb vs h fuel (i + 1) _ (by omega)]; rfl
    · rw [List.getElem?_eq_none (by omega), List.drop_eq_nil_of_le (by omega)]; rfl

theorem arrayCall_appends (vs : List V) (op : Replace V) (vs' : List V) (h : Appends vs op)
    (hc : arrayCall vs op = some vs') : vs' = vs ++ op.objects := by
  unfold arrayCall at hc
  rw [h.1, h.2, if_pos (by omega)] at hc
  simp at hc
  exact hc.symm

theorem calls_array (ops : List (Replace V)) : ∀ vs : List V, ∃ vs', calls arrayCall vs ops = some vs' := by
  induction ops with
  | nil => intro vs; exact ⟨vs, rfl⟩
  | cons op ops ih => intro vs; exact ih _

theorem arrayLoop_appends (cb : Callback S (List V) V (Replace V))
    (h : ∀ v s vs, Only arrayCall Appends vs (cb v s vs).1) : ∀ (fuel i : Nat) (s : S) (vs : List V), i ≤ vs.length →
    arrayLoop cb fuel i s vs = .more ∨ ∃ r s' vs' seen, arrayLoop cb fuel i s vs = .ret r s' vs' seen ∧ vs <+: vs' ∧
      seen <+: vs'.drop i ∧ (r = 0 → seen = vs'.drop i)
  | 0, i, s, vs, hi => by
    unfold arrayLoop
    by_cases h1 : i < vs.length
    · left; rw [if_pos h1]
    · right
      rw [if_neg h1]
      refine ⟨0, s, vs, [], rfl, List.prefix_rfl, List.nil_prefix, ?_⟩
      rw [List.drop_eq_nil_of_le (by omega)]; simp
  | fuel + 1, i, s, vs, hi => by
    unfold arrayLoop
    by_cases h1 : i < vs.length
    · rw [List.getElem?_eq_getElem h1]
      simp only [visit]
      obtain ⟨ws, hw⟩ := calls_array (cb vs[i] s vs).1 vs
      obtain ⟨_, p1⟩ := only_rel (fun a b : List V => a <+: b) (fun _ => List.prefix_rfl)
        (fun _ _ _ a b => a.trans b) (fun _ => True)
        (fun c op c' _ ho hc => ⟨trivial, by rw [arrayCall_appends c op c' ho hc]; exact List.prefix_append _ _⟩)
        _ _ _ trivial (h vs[i] s vs) hw
      have hlen := p1.length_le
      have hget : ∀ us : List V, ws <+: us → us.drop i = vs[i] :: us.drop (i + 1) := by
        intro us hp
        have p2 := p1.trans hp
        have l2 := p2.length_le
        rw [List.drop_eq_getElem_cons (by omega)]
        obtain ⟨t, rfl⟩ := p2
        rw [List.getElem_append_left h1]
      rw [hw]
      simp only [ret_andThen]
      split
      · rename_i hr
        right
        refine ⟨_, _, ws, [vs[i]], rfl, p1, ?_, fun h0 => absurd h0 hr⟩
        rw [hget ws List.prefix_rfl]
        exact ⟨_, rfl⟩
      · rcases arrayLoop_appends cb h fuel (i + 1) (cb vs[i] s vs).2.2 ws (by omega) with e | ⟨r, s', us, seen, e, q1, q2, q3⟩
        · left; rw [e]; rfl
        · right
          rw [e]
          refine ⟨r, s', us, vs[i] :: seen, rfl, p1.trans q1, ?_, ?_⟩
          · rw [hget us q1, List.cons_prefix_cons]; exact ⟨rfl, q2⟩
          · intro h0; rw [hget us q1, q3 h0]
    · rw [List.getElem?_eq_none (by omega)]
      right
      refine ⟨0, s, vs, [], rfl, List.prefix_rfl, List.nil_prefix, ?_⟩
      rw [List.drop_eq_nil_of_le (by omega)]; simp

end

/-! ### Hash tables -/

section
variable {K V : Type} {hash : K → Nat} {eqv : K → K → Bool}
open HTable (Row Table)

/-- No row has a key it did not have before. -/
structure Shrinks (A B : List (Row K V)) : Prop where
  length : B.length = A.length
  keys : ∀ (x : Nat) k v, B[x]? = some (.active k v) → ∃ v0, A[x]? = some (.active k v0)

theorem Shrinks.refl (A : List (Row K V)) : Shrinks A A := ⟨rfl, fun _ _ v h => ⟨v, h⟩⟩

theorem Shrinks.trans {A B D : List (Row K V)} (h1 : Shrinks A B) (h2 : Shrinks B D) : Shrinks A D :=
  ⟨h2.length.trans h1.length, fun x k v h => by
    obtain ⟨v0, h0⟩ := h2.keys x k v h
    exact h1.keys x k v0 h0⟩

theorem Shrinks.drop {A B : List (Row K V)} (h : Shrinks A B) (i : Nat) : Shrinks (A.drop i) (B.drop i) :=
  ⟨by simp [h.length], fun x k v hx => by rw [List.getElem?_drop] at hx ⊢; exact h.keys _ k v hx⟩

theorem Shrinks.sublist : ∀ {A B : List (Row K V)}, Shrinks A B →
    ((HTable.entries B).map (·.1)).Sublist ((HTable.entries A).map (·.1))
  | [], [], _ => by simp [HTable.entries]
  | [], _ :: _, h => by have := h.length; simp at this
  | _ :: _, [], h => by have := h.length; simp at this
  | a :: A, b :: B, h => by
    have ih := Shrinks.sublist (A := A) (B := B) (by simpa using h.drop 1)
    cases b with
    | empty =>
      rw [HTable.entries_cons_empty]
      cases a with
      | empty => exact ih
      | deleted => exact ih
      | active k v => exact ih.trans (List.sublist_cons_self _ _)
    | deleted =>
      rw [HTable.entries_cons_deleted]
      cases a with
      | empty => exact ih
      | deleted => exact ih
      | active k v => exact ih.trans (List.sublist_cons_self _ _)
    | active k v =>
      obtain ⟨v0, h0⟩ := h.keys 0 k v rfl
      simp at h0
      subst h0
      exact ih.cons_cons k

theorem set_shrinks {rows : List (Row K V)} {x : Nat} {k v v'} (hx : rows[x]? = some (.active k v)) :
    Shrinks rows (rows.set x (.active k v')) := by
  refine ⟨by simp, fun y k1 v1 h => ?_⟩
  rw [List.getElem?_set] at h
  split at h
  · rename_i e
    subst e
    split at h
    · simp only [Option.some.injEq, Row.active.injEq] at h
      obtain ⟨rfl, -⟩ := h
      exact ⟨v, hx⟩
    · cases h
  · exact ⟨v1, h⟩

theorem del_shrinks (rows : List (Row K V)) (x : Nat) : Shrinks rows (rows.set x .deleted) := by
  refine ⟨by simp, fun y k1 v1 h => ?_⟩
  rw [List.getElem?_set] at h
  split at h
  · split at h <;> simp at h
  · exact ⟨v1, h⟩

theorem except_ok {ε α β : Type} {x : Except ε α} {f : α → Except ε β} {b : β} (h : x.bind f = .ok b) :
    ∃ a, x = .ok a ∧ f a = .ok b := by
  cases x with
  | error e => cases h
  | ok a => exact ⟨a, rfl, h⟩

theorem insertAt_shrinks (kc : HTable.KeyClass hash eqv) (rz : Table K V → Except HTable.Fail (Table K V)) {t t' : Table K V}
    {m : Nat} (g : HTable.Good hash eqv t m) (ho : HTable.occ t.rows < m) {k : K} {v : V} {p : Policy} {b : Bool}
    (hok : p = .ifFound ∨ HTable.has eqv (HTable.entries t.rows) k = true)
    (h : HTable.insertAt hash eqv rz t k v p = .ok (t', b)) : Shrinks t.rows t'.rows := by
  unfold HTable.insertAt at h
  obtain ⟨⟨x, st⟩, hf, h⟩ := except_ok h
  have hc := HTable.find_cases (hash := hash) (eqv := eqv) t.rows k g.size ho
  rw [hf] at hc
  simp only at hc
  cases st with
  | active =>
    obtain ⟨k0, v0, hx, hk⟩ := hc.active
    simp only [hx, HTable.rowUpdate] at h
    split at h
    · cases h; exact .refl _
    · cases h; exact set_shrinks hx
  | _ =>
    have habs := hc.absent kc g.core (by simp)
    have hp : p = .ifFound := by
      rcases hok with hp | hp
      · exact hp
      · unfold HTable.has at hp
        rw [List.any_eq_true] at hp
        obtain ⟨e, he, hek⟩ := hp
        rw [habs e he] at hek; cases hek
    simp only [if_pos hp] at h
    cases h
    exact .refl _

theorem insert_shrinks (kc : HTable.KeyClass hash eqv) {t t' : Table K V} (hi : HTable.Inv hash eqv t) (hne : t.rows ≠ [])
    {k : K} {v : V} {p : Policy} {b : Bool}
    (hok : p = .ifFound ∨ HTable.has eqv (HTable.entries t.rows) k = true)
    (h : HTable.insert hash eqv t k v p = .ok (t', b)) : Shrinks t.rows t'.rows := by
  unfold HTable.insert HTable.insertWith at h
  rw [if_neg (by simpa using hne)] at h
  rcases hi with rfl | ⟨m, g, ho⟩
  · exact absurd rfl hne
  · exact insertAt_shrinks kc _ g ho hok h

theorem remove_shrinks {t t' : Table K V} {k : K} (h : HTable.remove hash eqv t k = .ok t') : Shrinks t.rows t'.rows := by
  unfold HTable.remove at h
  split at h
  · obtain ⟨⟨x, st⟩, _, h⟩ := HTable.Except.map_ok h
    subst h
    simp only
    split
    · exact del_shrinks _ _
    · exact .refl _
  · cases h; exact .refl _

theorem removeAll_shrinks (t : Table K V) : Shrinks t.rows (HTable.removeAll t).rows := by
  refine ⟨by simp [HTable.removeAll], fun x k v h => ?_⟩
  simp only [HTable.removeAll, List.getElem?_map, Option.map_eq_some_iff] at h
  obtain ⟨_, _, h⟩ := h
  cases h

/-- A table in use, with rows. -/
def TInv (hash : K → Nat) (eqv : K → K → Bool) (t : Table K V) : Prop := HTable.Inv hash eqv t ∧ t.rows ≠ []

theorem call_shrinks (kc : HTable.KeyClass hash eqv) (t : Table K V) (op : HTable.Op K V) (t' : Table K V)
    (hi : TInv hash eqv t) (hok : NoNewKey eqv t op) (h : tableCall hash eqv t op = some t') :
    TInv hash eqv t' ∧ Shrinks t.rows t'.rows := by
  have hs := HTable.step_ok kc hi.1 (List.Perm.refl _) op
  unfold tableCall at h
  cases h1 : HTable.step hash eqv t op with
  | error e => rw [h1] at h; cases h
  | ok q =>
    rw [h1] at h hs
    simp only [Option.some.injEq] at h
    subst h
    have key : Shrinks t.rows q.1.rows := by
      cases op with
      | get k => obtain ⟨a, _, rfl⟩ := HTable.Except.map_ok h1; exact .refl _
      | insert k v p => obtain ⟨a, h2, rfl⟩ := HTable.Except.map_ok h1; exact insert_shrinks kc hi.1 hi.2 hok h2
      | remove k => obtain ⟨a, h2, rfl⟩ := HTable.Except.map_ok h1; exact remove_shrinks h2
      | removeAll => cases h1; exact removeAll_shrinks t
      | count => cases h1; exact .refl _
    refine ⟨⟨hs.1, fun e => ?_⟩, key⟩
    have := key.length
    rw [e] at this
    exact hi.2 (List.length_eq_zero_iff.mp this.symm)

theorem tableLoop_keeps (kc : HTable.KeyClass hash eqv) (cb : Callback S (Table K V) (K × V) (HTable.Op K V))
    (h : ∀ e s t, Only (tableCall hash eqv) (NoNewKey eqv) t (cb e s t).1) : ∀ (d i : Nat) (s : S) (t : Table K V),
    TInv hash eqv t → t.rows.length ≤ i + d →
    tableLoop hash eqv cb d i s t = .stuck ∨ ∃ r s' t' seen, tableLoop hash eqv cb d i s t = .ret r s' t' seen ∧
      HTable.Inv hash eqv t' ∧ Shrinks t.rows t'.rows ∧
      (seen.map (·.1)).Sublist ((HTable.entries (t.rows.drop i)).map (·.1)) ∧
      (r = 0 → ∀ x k v, i ≤ x → t'.rows[x]? = some (.active k v) → k ∈ seen.map (·.1))
  | 0, i, s, t, hi, hd => by
    right
    unfold tableLoop
    rw [if_neg (by omega)]
    refine ⟨0, s, t, [], rfl, hi.1, .refl _, by simp, fun _ x k v hx h => ?_⟩
    rw [List.getElem?_eq_none (by omega)] at h; cases h
  | d + 1, i, s, t, hi, hd => by
    unfold tableLoop
    by_cases h1 : i < t.rows.length
    · rw [List.getElem?_eq_getElem h1]
      rw [List.drop_eq_getElem_cons h1]
      have skip : ∀ (_ : ∀ k v, t.rows[i] ≠ .active k v)
          (_ : HTable.entries (t.rows[i] :: t.rows.drop (i + 1)) = HTable.entries (t.rows.drop (i + 1))),
          tableLoop hash eqv cb d (i + 1) s t = .stuck ∨
          ∃ r s' t' seen, tableLoop hash eqv cb d (i + 1) s t = .ret r s' t' seen ∧
            HTable.Inv hash eqv t' ∧ Shrinks t.rows t'.rows ∧
            (seen.map (·.1)).Sublist ((HTable.entries (t.rows[i] :: t.rows.drop (i + 1))).map (·.1)) ∧
            (r = 0 → ∀ x k v, i ≤ x → t'.rows[x]? = some (.active k v) → k ∈ seen.map (·.1)) := by
        intro hn he
        rw [he]
        rcases tableLoop_keeps kc cb h d (i + 1) s t hi (by omega) with e | ⟨r, s', t', seen, e, q1, q2, q3, q4⟩
        · exact .inl e
        · refine .inr ⟨r, s', t', seen, e, q1, q2, q3, fun h0 x k v hx hk => ?_⟩
          rcases Nat.lt_or_ge i x with hlt | hge
          · exact q4 h0 x k v hlt hk
          · have : x = i := by omega
            subst this
            obtain ⟨v0, hv⟩ := q2.keys x k v hk
            rw [List.getElem?_eq_getElem h1] at hv
            simp only [Option.some.injEq] at hv
            exact absurd hv (hn k v0)
      cases hrow : t.rows[i] with
      | empty => rw [hrow] at skip; exact skip (by simp) rfl
      | deleted => rw [hrow] at skip; exact skip (by simp) rfl
      | active k0 v0 =>
        simp only [visit]
        cases hc : calls (tableCall hash eqv) t (cb (k0, v0) s t).1 with
        | none => left; rfl
        | some t1 =>
          obtain ⟨i1, s1⟩ := only_rel (fun a b : Table K V => Shrinks a.rows b.rows) (fun a => .refl _)
            (fun _ _ _ a b => a.trans b) (TInv hash eqv) (call_shrinks kc) _ _ _ hi (h (k0, v0) s t) hc
          have last : ∀ (t' : Table K V), Shrinks t.rows t'.rows → ∀ k v, t'.rows[i]? = some (.active k v) → k = k0 := by
            intro t' hs k v hk
            obtain ⟨v1, hv⟩ := hs.keys i k v hk
            rw [List.getElem?_eq_getElem h1, hrow] at hv
            simp only [Option.some.injEq, Row.active.injEq] at hv
            exact hv.1.symm
          simp only [ret_andThen]
          split
          · rename_i hr
            right
            refine ⟨_, _, t1, [(k0, v0)], rfl, i1.1, s1, ?_, fun h0 => absurd h0 hr⟩
            rw [HTable.entries_cons_active]
            simp
          · rcases tableLoop_keeps kc cb h d (i + 1) (cb (k0, v0) s t).2.2 t1 i1 (by rw [s1.length]; omega) with
              e | ⟨r, s', t', seen, e, q1, q2, q3, q4⟩
            · left; rw [e]; rfl
            · right
              rw [e]
              refine ⟨r, s', t', (k0, v0) :: seen, rfl, q1, s1.trans q2, ?_, fun h0 x k v hx hk => ?_⟩
              · rw [HTable.entries_cons_active]
                exact (q3.trans (s1.drop (i + 1)).sublist).cons_cons k0
              · rcases Nat.lt_or_ge i x with hlt | hge
                · exact List.mem_cons_of_mem _ (q4 h0 x k v hlt hk)
                · have : x = i := by omega
                  subst this
                  rw [last t' (s1.trans q2) k v hk]
                  simp
    · rw [List.getElem?_eq_none (by omega)]
      right
      refine ⟨0, s, t, [], rfl, hi.1, .refl _, by simp, fun _ x k v hx h => ?_⟩
      rw [List.getElem?_eq_none (by omega)] at h; cases h

theorem specGet_row (kc : HTable.KeyClass hash eqv) {t : Table K V} (hi : HTable.Inv hash eqv t) {x : Nat} {k v}
    (hx : t.rows[x]? = some (.active k v)) : HTable.specGet eqv (HTable.entries t.rows) k = some v := by
  obtain ⟨A, B, e, rfl⟩ := HTable.split_at hx
  have hp := hi.pairwise
  rw [e, HTable.entries_append, HTable.entries_cons_active] at hp ⊢
  unfold HTable.specGet
  rw [List.find?_append]
  have hA : (HTable.entries A).find? (fun e => eqv e.1 k) = none := by
    rw [List.find?_eq_none]
    intro y hy
    have := (List.pairwise_append.mp hp).2.2 y hy (k, v) (by simp)
    simp only at this
    rw [this]; simp
  rw [hA]
  simp [kc.refl k]

/-- The enumeration, exactly: the keys the table had, as far as they are still there. -/
theorem tableLoop_exact (kc : HTable.KeyClass hash eqv) (cb : Callback S (Table K V) (K × V) (HTable.Op K V))
    (h : ∀ e s t, Only (tableCall hash eqv) (NoNewKey eqv) t (cb e s t).1) (t0 : Table K V) (h0 : TInv hash eqv t0) :
    ∀ (d i : Nat) (s : S) (t : Table K V), TInv hash eqv t → Shrinks t0.rows t.rows → t0.rows.length ≤ i + d →
    tableLoop hash eqv cb d i s t = eachKey (tableCall hash eqv) cb (fun t k => HTable.specGet eqv (HTable.entries t.rows) k)
      ((HTable.entries (t0.rows.drop i)).map (·.1)) s t
  | 0, i, s, t, hi, hs, hd => by
    rw [tableLoop, if_neg (by rw [hs.length]; omega), List.drop_eq_nil_of_le (by omega)]; rfl
  | d + 1, i, s, t, hi, hs, hd => by
    unfold tableLoop
    by_cases h1 : i < t0.rows.length
    · have h1' : i < t.rows.length := by rw [hs.length]; exact h1
      have ih := tableLoop_exact kc cb h t0 h0 d (i + 1)
      rw [List.getElem?_eq_getElem h1', List.drop_eq_getElem_cons h1]
      have gone : ∀ k0 v0, t0.rows[i] = .active k0 v0 → (∀ k v, t.rows[i] ≠ .active k v) →
          HTable.specGet eqv (HTable.entries t.rows) k0 = none := by
        intro k0 v0 e0 hn
        unfold HTable.specGet
        rw [Option.map_eq_none_iff, List.find?_eq_none]
        intro y hy hk
        obtain ⟨x, hx⟩ := HTable.mem_entries.mp hy
        obtain ⟨v1, hx0⟩ := hs.keys x y.1 y.2 hx
        obtain ⟨m, g, ho⟩ := h0.1.resolve_left (fun e => h0.2 (by rw [e]; rfl))
        have := g.core.distinct x i y.1 v1 k0 v0 hx0 (by rw [List.getElem?_eq_getElem h1, e0]) hk
        subst this
        rw [List.getElem?_eq_getElem h1'] at hx
        simp only [Option.some.injEq] at hx
        exact hn _ _ hx
      have skip : (∀ k v, t.rows[i] ≠ .active k v) → tableLoop hash eqv cb d (i + 1) s t =
          eachKey (tableCall hash eqv) cb (fun t k => HTable.specGet eqv (HTable.entries t.rows) k)
            ((HTable.entries (t0.rows[i] :: t0.rows.drop (i + 1))).map (·.1)) s t := by
        intro hn
        rw [ih s t hi hs (by omega)]
        cases h00 : t0.rows[i] with
        | empty => rw [HTable.entries_cons_empty]
        | deleted => rw [HTable.entries_cons_deleted]
        | active k0 v0 =>
          rw [HTable.entries_cons_active]
          simp only [List.map_cons, eachKey, gone k0 v0 h00 hn]
      cases hrow : t.rows[i] with
      | empty => exact skip (by rw [hrow]; simp)
      | deleted => exact skip (by rw [hrow]; simp)
      | active k v =>
        have hx : t.rows[i]? = some (.active k v) := by rw [List.getElem?_eq_getElem h1', hrow]
        obtain ⟨v0, hx0⟩ := hs.keys i k v hx
        rw [List.getElem?_eq_getElem h1] at hx0
        simp only [Option.some.injEq] at hx0
        rw [hx0, HTable.entries_cons_active]
        simp only [List.map_cons, eachKey, specGet_row kc hi.1 hx, visit]
        cases hc : calls (tableCall hash eqv) t (cb (k, v) s t).1 with
        | none => rfl
        | some t1 =>
          obtain ⟨i1, s1⟩ := only_rel (fun a b : Table K V => Shrinks a.rows b.rows) (fun a => .refl _)
            (fun _ _ _ a b => a.trans b) (TInv hash eqv) (call_shrinks kc) _ _ _ hi (h (k, v) s t) hc
          simp only [ret_andThen]
          rw [ih (cb (k, v) s t).2.2 t1 i1 (hs.trans s1) (by omega)]
    · rw [List.getElem?_eq_none (by rw [hs.length]; omega), List.drop_eq_nil_of_le (by omega)]; rfl

theorem tableLoop_plain (cb : Callback S (Table K V) (K × V) (HTable.Op K V)) (t : Table K V)
    (h : ∀ e s, (cb e s t).1 = []) : ∀ (d i : Nat) (s : S), t.rows.length ≤ i + d → tableLoop hash eqv cb d i s t =
      .ret (visits (plain cb t) (HTable.entries (t.rows.drop i)) s).1
        (visits (plain cb t) (HTable.entries (t.rows.drop i)) s).2.1 t
        (visits (plain cb t) (HTable.entries (t.rows.drop i)) s).2.2
  | 0, i, s, hf => by
    rw [tableLoop, if_neg (by omega), List.drop_eq_nil_of_le (by omega)]; rfl
  | d + 1, i, s, hf => by
    unfold tableLoop
    by_cases hi : i < t.rows.length
    · rw [List.getElem?_eq_getElem hi, List.drop_eq_getElem_cons hi]
      cases hrow : t.rows[i] with
      | empty => simp only; rw [tableLoop_plain cb t h d (i + 1) s (by omega), HTable.entries_cons_empty]
      | deleted => simp only; rw [tableLoop_plain cb t h d (i + 1) s (by omega), HTable.entries_cons_deleted]
      | active k v =>
        simp only [visit_plain _ _ _ _ _ (h _ _), ret_andThen, HTable.entries_cons_active, visits]
        split
        · rfl
        · rw [tableLoop_plain cb t h d (i + 1) _ (by omega)]; rfl
    · rw [List.getElem?_eq_none (by omega), List.drop_eq_nil_of_le (by omega)]; rfl

end

end Foreach
end Duck
