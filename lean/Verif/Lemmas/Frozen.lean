import Verif.Spec.Frozen
import Verif.Lemmas.Text
import Verif.Lemmas.TextEdit
/-! Lemmas for C127. -/
namespace Duck
namespace Frozen

variable {K : Type}

/-- No object of an immutable class is of a mutable class. -/
theorem kindOf_immutable {c : Cls} (h : Immutable c) :
    kindOf c .mutableArray = false ∧ kindOf c .mutableLinkedList = false ∧ kindOf c .mutableBinaryTree = false ∧
    kindOf c .mutableHashTable = false ∧ kindOf c .mutableData = false ∧ kindOf c .mutableString = false ∧
    kindOf c .variableNumber = false := by
  induction h with
  | sub _ ih => exact ih
  | _ => decide

theorem slot_immutable {c : Cls} (h : Immutable c) (s : Slot) : slot c s = none ∨ slot c s = some .refuse := by
  induction h with
  | sub _ ih => exact ih
  | _ => revert s; intro s; cases s <;> decide

theorem makeImmutable_immutable {c : Cls} (h : Immutable c) : makeImmutable c = c := by
  cases h <;> rfl

theorem guard_subject (d : Direct) : (guard d = .check (subject d) ∧ ∀ c, d ≠ .number c) ∨
    (guard d = .assert .variableNumber ∧ ∃ c, d = .number c) := by
  cases d with
  | number c => right; exact ⟨by cases c <;> rfl, c, rfl⟩
  | array c => left; exact ⟨by cases c <;> rfl, by simp⟩
  | linkedList c => left; exact ⟨by cases c <;> rfl, by simp⟩
  | binaryTree c => left; exact ⟨by cases c <;> rfl, by simp⟩
  | hashTable c => left; exact ⟨by cases c <;> rfl, by simp⟩
  | data c => left; exact ⟨by cases c <;> rfl, by simp⟩
  | string c => left; exact ⟨by cases c <;> rfl, by simp⟩

theorem kindOf_subject {c : Cls} (h : Immutable c) (d : Direct) : kindOf c (subject d) = false := by
  obtain ⟨h1, h2, h3, h4, h5, h6, h7⟩ := kindOf_immutable h
  cases d <;> assumption

/-- A call on an immutable object is refused, the setters of numbers excepted. -/
theorem callDirect_immutable {debug : Bool} {e : Effects K} {d : Direct} {n : Nat} {o : Obj K} (h : Immutable o.cls)
    (hd : ∀ c, d ≠ .number c) : callDirect debug e d n o = some (o, .refused) := by
  have hk := kindOf_subject h d
  rcases guard_subject d with ⟨g, _⟩ | ⟨_, c, hc⟩
  · simp [callDirect, g, hk]
  · exact absurd hc (hd c)

theorem callDirect_immutable_number {e : Effects K} {c : NumberCall} {n : Nat} {o : Obj K} (h : Immutable o.cls) :
    callDirect true e (.number c) n o = none := by
  have hk := kindOf_subject h (.number c)
  rcases guard_subject (.number c) with ⟨_, g⟩ | ⟨g, _⟩
  · exact absurd rfl (g c)
  · simp [callDirect, g, show kindOf o.cls .variableNumber = false from hk]

theorem callSlot_immutable {debug : Bool} {e : Effects K} {s : Slot} {n : Nat} {o : Obj K} (h : Immutable o.cls)
    {r : Obj K × Answer} (hr : callSlot debug e s n o = some r) :
    r = (o, if hasResult s then .unspecified else .refused) := by
  rcases slot_immutable h s with hs | hs
  · simp [callSlot, hs] at hr
  · simp only [callSlot, hs, Option.some.injEq] at hr
    exact hr.symm

theorem repeated_keeps {f : Nat → Obj K → Option (Obj K × Answer)} {o : Obj K}
    (hf : ∀ n r, f n o = some r → r.1 = o) : ∀ (ns : List Nat) (r : Obj K × Answer), repeated f ns o = some r → r.1 = o
  | [], r, h => by simp only [repeated, Option.some.injEq] at h; rw [← h]
  | [n], r, h => hf n r h
  | n :: m :: ns, r, h => by
    simp only [repeated] at h
    cases hn : f n o with
    | none => rw [hn] at h; simp at h
    | some q =>
      rw [hn, Option.bind_some, hf n q hn] at h
      exact repeated_keeps hf (m :: ns) r h

theorem repeated_answer {f : Nat → Obj K → Option (Obj K × Answer)} {o : Obj K} {a : Answer}
    (hf : ∀ n r, f n o = some r → r = (o, a)) : ∀ (ns : List Nat), ns ≠ [] → ∀ (r : Obj K × Answer),
    repeated f ns o = some r → r = (o, a)
  | [], h, _, _ => absurd rfl h
  | [n], _, r, h => hf n r h
  | n :: m :: ns, _, r, h => by
    simp only [repeated] at h
    cases hn : f n o with
    | none => rw [hn] at h; simp at h
    | some q =>
      rw [hn, Option.bind_some, hf n q hn] at h
      exact repeated_answer hf (m :: ns) (by simp) r h

theorem at'_other {h h' : List (Obj K)} {i j : Nat} {f : Obj K → Option (Obj K × Answer)} {a : Answer}
    (hs : at' h i f = some (h', a)) (hij : i ≠ j) : h'[j]? = h[j]? := by
  unfold at' at hs
  cases hi : h[i]? with
  | none => rw [hi] at hs; simp at hs
  | some o =>
    rw [hi] at hs
    cases hf : f o with
    | none => simp [hf] at hs
    | some r =>
      simp only [hf, Option.map_some, Option.some.injEq, Prod.mk.injEq] at hs
      rw [← hs.1, List.getElem?_set_ne hij]

theorem at'_self {h h' : List (Obj K)} {i : Nat} {f : Obj K → Option (Obj K × Answer)} {a : Answer}
    (hs : at' h i f = some (h', a)) {o : Obj K} (ho : h[i]? = some o) : ∃ o', f o = some (o', a) ∧ h'[i]? = some o' := by
  unfold at' at hs
  rw [ho] at hs
  cases hf : f o with
  | none => simp [hf] at hs
  | some r =>
    simp only [hf, Option.map_some, Option.some.injEq, Prod.mk.injEq] at hs
    refine ⟨r.1, by rw [← hs.2], ?_⟩
    have hl : i < h.length := by
      rcases Nat.lt_or_ge i h.length with hl | hl
      · exact hl
      · rw [List.getElem?_eq_none hl] at ho; simp at ho
    rw [← hs.1, List.getElem?_set_self hl]

/-- One step keeps the class and the contents of an immutable object. -/
theorem step_keeps {debug : Bool} {e : Effects K} {op : Op K} {h h' : List (Obj K)} {a : Answer}
    (hs : step debug e h op = some (h', a)) {i : Nat} {o : Obj K} (ho : h[i]? = some o) (hi : Immutable o.cls)
    (hn : debug = true ∨ ¬ setsNumber i op) : ∃ o', h'[i]? = some o' ∧ o'.cls = o.cls ∧ o'.contents = o.contents ∧
      (¬ setsEncoding i op → o' = o) := by
  cases op with
  | make p =>
    simp only [step, Option.some.injEq, Prod.mk.injEq] at hs
    refine ⟨o, ?_, rfl, rfl, fun _ => rfl⟩
    rw [← hs.1, List.getElem?_append_left, ho]
    rcases Nat.lt_or_ge i h.length with hl | hl
    · exact hl
    · rw [List.getElem?_eq_none hl] at ho; simp at ho
  | direct j d n =>
    rcases Nat.decEq j i with hji | rfl
    · exact ⟨o, by rw [at'_other hs hji, ho], rfl, rfl, fun _ => rfl⟩
    · obtain ⟨o', hf, h1⟩ := at'_self hs ho
      have key : o' = o := by
        by_cases hd : ∀ c, d ≠ .number c
        · rw [callDirect_immutable hi hd] at hf
          simp only [Option.some.injEq, Prod.mk.injEq] at hf
          exact hf.1.symm
        · have ⟨c, hc⟩ : ∃ c, d = .number c := by
            cases d with
            | number c => exact ⟨c, rfl⟩
            | _ => exact absurd (by simp) hd
          subst hc
          rcases hn with hn | hn
          · subst hn
            rw [callDirect_immutable_number hi] at hf
            cases hf
          · exact absurd rfl hn
      exact ⟨o', h1, by rw [key], by rw [key], fun _ => key⟩
  | generic j g ns =>
    rcases Nat.decEq j i with hji | rfl
    · exact ⟨o, by rw [at'_other hs hji, ho], rfl, rfl, fun _ => rfl⟩
    · obtain ⟨o', hf, h1⟩ := at'_self hs ho
      have key : o' = o := repeated_keeps (fun n r hr => by rw [callSlot_immutable hi hr]) ns _ hf
      exact ⟨o', h1, by rw [key], by rw [key], fun _ => key⟩
  | replaceOccurrences j ns =>
    rcases Nat.decEq j i with hji | rfl
    · exact ⟨o, by rw [at'_other hs hji, ho], rfl, rfl, fun _ => rfl⟩
    · obtain ⟨o', hf, h1⟩ := at'_self hs ho
      have key : o' = o := repeated_keeps (fun n r hr => by
        rw [callDirect_immutable hi (by simp)] at hr
        simp only [Option.some.injEq] at hr
        rw [← hr]) ns _ hf
      exact ⟨o', h1, by rw [key], by rw [key], fun _ => key⟩
  | setEncodingType j t =>
    rcases Nat.decEq j i with hji | rfl
    · exact ⟨o, by rw [at'_other hs hji, ho], rfl, rfl, fun _ => rfl⟩
    · obtain ⟨o', hf, h1⟩ := at'_self hs ho
      simp only [Option.some.injEq, Prod.mk.injEq] at hf
      refine ⟨o', h1, by rw [← hf.1], by rw [← hf.1], fun hne => absurd rfl hne⟩
  | makeImmutable j =>
    rcases Nat.decEq j i with hji | rfl
    · exact ⟨o, by rw [at'_other hs hji, ho], rfl, rfl, fun _ => rfl⟩
    · obtain ⟨o', hf, h1⟩ := at'_self hs ho
      simp only [Option.some.injEq, Prod.mk.injEq] at hf
      have key : o' = o := by rw [← hf.1, makeImmutable_immutable hi]
      exact ⟨o', h1, by rw [key], by rw [key], fun _ => key⟩

theorem run_keeps {debug : Bool} {e : Effects K} : ∀ {ops : List (Op K)} {h h' : List (Obj K)} {as : List Answer},
    run debug e ops h = some (h', as) → ∀ {i : Nat} {o : Obj K}, h[i]? = some o → Immutable o.cls →
    (debug = true ∨ ∀ op ∈ ops, ¬ setsNumber i op) → ∃ o', h'[i]? = some o' ∧ o'.cls = o.cls ∧
      o'.contents = o.contents ∧ ((∀ op ∈ ops, ¬ setsEncoding i op) → o' = o)
  | [], h, h', as, hr, i, o, ho, _, _ => by
    simp only [run, Option.some.injEq, Prod.mk.injEq] at hr
    exact ⟨o, by rw [← hr.1]; exact ho, rfl, rfl, fun _ => rfl⟩
  | op :: ops, h, h', as, hr, i, o, ho, hi, hn => by
    simp only [run] at hr
    cases hs : step debug e h op with
    | none => rw [hs] at hr; simp at hr
    | some r =>
      obtain ⟨h1, a⟩ := r
      rw [hs, Option.bind_some] at hr
      cases hq : run debug e ops h1 with
      | none => simp [hq] at hr
      | some q =>
        obtain ⟨h2, bs⟩ := q
        simp only [hq, Option.map_some, Option.some.injEq, Prod.mk.injEq] at hr
        obtain ⟨o1, ho1, hc1, hk1, he1⟩ := step_keeps hs ho hi
          (hn.imp id fun hn => hn op (List.mem_cons_self ..))
        obtain ⟨o2, ho2, hc2, hk2, he2⟩ := run_keeps hq ho1 (by rw [hc1]; exact hi)
          (hn.imp id fun hn op' h' => hn op' (List.mem_cons_of_mem _ h'))
        refine ⟨o2, by rw [← hr.1]; exact ho2, by rw [hc2, hc1], by rw [hk2, hk1], fun he => ?_⟩
        rw [he2 fun op' h' => he op' (List.mem_cons_of_mem _ h'), he1 (he op (List.mem_cons_self ..))]

/-! ### Objects that change -/

theorem kindOf_descends {b : Base} {c : Cls} (h : DescendsFrom b c) : kindOf c b = true := by
  induction h with
  | self => simp [kindOf]
  | sub _ ih => exact ih

theorem slot_descends {b : Base} {c : Cls} (h : DescendsFrom b c) (s : Slot) : slot c s = slot (.base b) s := by
  induction h with
  | self => rfl
  | sub _ ih => exact ih

theorem callDirect_subject {debug : Bool} {e : Effects K} {d : Direct} {n : Nat} {o : Obj K}
    (h : DescendsFrom (subject d) o.cls) :
    callDirect debug e d n o = some ({ o with contents := e (.direct d) n o.contents }, .done) := by
  have hk := kindOf_descends h
  rcases guard_subject d with ⟨g, _⟩ | ⟨g, c, hc⟩
  · simp [callDirect, g, hk]
  · subst hc
    simp [callDirect, g, show kindOf o.cls .variableNumber = true from hk]

/-- What is found in the slots of the mutable classes, as a table. -/
def slotEdit (b : Base) (s : Slot) : Option Edit :=
  match slot (.base b) s with
  | some .change => some (.slot s)
  | some (.call d) => if subject d = b then some (.direct d) else none
  | some (.throughList t) => if slot (.base b) t = some .change then some (.slot t) else none
  | _ => none

theorem callSlot_edit {debug : Bool} {e : Effects K} {s : Slot} {n : Nat} {o : Obj K} {b : Base} {x : Edit}
    (h : DescendsFrom b o.cls) (hx : slotEdit b s = some x) :
    callSlot debug e s n o = some ({ o with contents := e x n o.contents }, .done) := by
  have hs := slot_descends h
  unfold slotEdit at hx
  unfold callSlot
  rw [hs s]
  split at hx
  · rename_i hq
    rw [hq]
    simp only [Option.some.injEq] at hx
    rw [← hx]
  · rename_i d hq
    rw [hq]
    split at hx
    · rename_i hb
      simp only [Option.some.injEq] at hx
      rw [← hx]
      exact callDirect_subject (by rw [hb]; exact h)
    · simp at hx
  · rename_i t hq
    rw [hq]
    split at hx
    · rename_i hb
      simp only [Option.some.injEq] at hx
      rw [← hx]
      show (match slot o.cls t with
        | some .refuse => _
        | some .change => _
        | some (.call d) => _
        | _ => none) = _
      rw [hs t, hb]
    · simp at hx
  · simp at hx

theorem slotEdit_offers {g : Generic} {b : Base} (h : Offers (kinds g) b) : ∃ x ∈ means g, slotEdit b g.slot = some x := by
  cases g <;> (generalize hk : kinds _ = k at h; cases h <;> first | (exact absurd hk (by decide)) | decide)

/-! ### Replacing occurrences in an immutable string -/

open Text Unicode in
/-- With a replacement that is neither empty nor longer than the pattern the loop ends. -/
theorem refusedGo_ends {cs ds : List Char} (hc : '\x00' ∉ cs) (hd : '\x00' ∉ ds) (hne : ds ≠ []) (h63 : cs.length < 2 ^ 63)
    {m : Nat} (hm : 0 < m) (hmd : m ≤ ds.length) : ∀ (fuel : Nat) (n errors : Nat), n ≤ cs.length → cs.length ≤ fuel + n →
    ∀ r, rangeOfString (utf8 cs) (utf8 ds) n = some r → ∃ x, refusedGo (utf8 cs) (utf8 ds) m fuel errors r = .back x := by
  intro fuel
  induction fuel with
  | zero =>
    intro n errors hn hf r hr
    have hd0 : cs.drop n = [] := List.drop_eq_nil_of_le (by omega)
    have h := rangeOfString_text hc hd hne n hn (by omega)
    have hf0 : firstAt ds (cs.drop n) = none := by rw [hd0]; simp [firstAt, hne]
    rw [hf0] at h
    rw [h] at hr
    simp only [Option.some.injEq] at hr
    refine ⟨errors, ?_⟩
    rw [← hr]
    rfl
  | succ fuel ih =>
    intro n errors hn hf r hr
    have h := rangeOfString_text hc hd hne n hn (by omega)
    cases hfa : firstAt ds (cs.drop n) with
    | none =>
      rw [hfa] at h
      rw [h] at hr
      simp only [Option.some.injEq] at hr
      exact ⟨errors, by rw [← hr]; unfold refusedGo; rfl⟩
    | some k =>
      rw [hfa] at h
      rw [h] at hr
      simp only [Option.some.injEq] at hr
      have hkle : k + ds.length ≤ (cs.drop n).length := by
        have hp := (((firstAt_spec ds hne (cs.drop n)).1 k).1 hfa).1
        have := hp.length_le
        have h0 : 0 < ds.length := List.length_pos_iff.mpr hne
        rw [List.length_drop] at this
        omega
      rw [List.length_drop] at hkle
      have hn' : n + k + m ≤ cs.length := by omega
      have e1 : ((n + k : Nat) : Int) + (m : Int) = ((n + k + m : Nat) : Int) := by omega
      have hrr : ∃ r', rangeOfString (utf8 cs) (utf8 ds) ((n + k + m : Nat) : Int) = some r' := by
        have h' := rangeOfString_text hc hd hne (n + k + m) hn' (by omega)
        cases hg : firstAt ds (cs.drop (n + k + m)) with
        | none => rw [hg] at h'; exact ⟨_, h'⟩
        | some k' => rw [hg] at h'; exact ⟨_, h'⟩
      obtain ⟨r', hr'⟩ := hrr
      obtain ⟨x, hx⟩ := ih (n + k + m) (errors + 1) hn' (by omega) r' hr'
      refine ⟨x, ?_⟩
      rw [← hr]
      unfold refusedGo
      have hneg : ((n + k : Nat) : Int) ≠ -1 := by omega
      rw [if_pos hneg]
      show (match rangeOfString (utf8 cs) (utf8 ds) (((n + k : Nat) : Int) + (m : Int)) with
        | none => End.crash
        | some r => refusedGo (utf8 cs) (utf8 ds) m fuel (errors + 1) r) = .back x
      rw [e1, hr']
      exact hx

open Text Unicode in
/-- With an empty replacement the loop stays at the first occurrence. -/
theorem refusedGo_stays {cs ds : List Char} (hc : '\x00' ∉ cs) (hd : '\x00' ∉ ds) (hne : ds ≠ []) (h63 : cs.length < 2 ^ 63)
    {k : Nat} (hk : ds <+: cs.drop k) (hkl : k ≤ cs.length) : ∀ (fuel errors : Nat) (l : Int),
    refusedGo (utf8 cs) (utf8 ds) 0 fuel errors ((k : Int), l) = .running := by
  have h := rangeOfString_text hc hd hne k hkl (by omega)
  have hfa : firstAt ds (cs.drop k) = some 0 := by
    rw [(firstAt_spec ds hne (cs.drop k)).1 0]
    exact ⟨hk, fun j hj => absurd hj (by omega)⟩
  rw [hfa] at h
  have h' : rangeOfString (utf8 cs) (utf8 ds) ((k : Int) + ((0 : Nat) : Int)) = some (((k : Nat) : Int), (ds.length : Int)) := by
    simpa using h
  intro fuel
  induction fuel with
  | zero =>
    intro errors l
    unfold refusedGo
    rw [if_pos (show ((k : Int), l).1 ≠ -1 by show (k : Int) ≠ -1; omega)]
  | succ fuel ih =>
    intro errors l
    unfold refusedGo
    rw [if_pos (show ((k : Int), l).1 ≠ -1 by show (k : Int) ≠ -1; omega)]
    show (match rangeOfString (utf8 cs) (utf8 ds) ((k : Int) + ((0 : Nat) : Int)) with
        | none => End.crash
        | some r => refusedGo (utf8 cs) (utf8 ds) 0 fuel (errors + 1) r) = .running
    rw [h']
    exact ih (errors + 1) _

end Frozen
end Duck
