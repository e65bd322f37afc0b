import Verif.Lemmas.ParseOwnJson
/-! The JSON parser with its objects: every call leaves what it returns and nothing else. -/
namespace Duck
namespace ParseOwn

/-- What ParseObject leaves -/
def ObjRes (n : Nat) (R : List Nat) (h' : Heap) : Json.Res → Res → Prop
  | .ok v, .ok r => Bal h' (r.ptrs ++ R) ∧ Val h' r v ∧ (∀ i ∈ r.ptrs, n ≤ i) ∧ (∀ w s, r = .fixed w → w ≠ .str s)
  | .closeList, .closeList => Bal h' R
  | .closeDict, .closeDict => Bal h' R
  | .error, .error => Bal h' R
  | _, _ => False

/-- What the loops leave -/
def GroupRes (x : Nat) (R : List Nat) (h' : Heap) : Json.Res → Res → Prop
  | .ok v, .ok r => r = .ptr x ∧ Bal h' (x :: R) ∧ Val h' (.ptr x) v
  | .error, .error => Bal h' R
  | _, _ => False

theorem GroupRes.obj {n : Nat} {R : List Nat} {h' : Heap} {a : Json.Res} {b : Res} (g : GroupRes n R h' a b) : ObjRes n R h' a b := by
  cases a <;> cases b <;> simp only [GroupRes] at g <;> try exact g.elim
  · obtain ⟨rfl, g⟩ := g
    exact ⟨g.1, g.2, by simp [Ref.ptrs], by simp⟩
  · exact g

theorem giveUp_ok {h : Heap} {R : List Nat} {x : Nat} {k : Ref} {m : Unicode.Mem} (b : Bal h (x :: (k.ptrs ++ R))) (hk : ∀ i ∈ k.ptrs, x ≤ i) :
    ∃ h', giveUp h x k m = some (.error, m, h') ∧ Bal h' R ∧ h'.take x = h.take x := by
  obtain ⟨h1, s1, b1, _, t1⟩ := release_ok (.ptr x) (R := k.ptrs ++ R) b
  obtain ⟨h2, s2, b2, _, t2⟩ := release_ok k b1
  refine ⟨h2, by rw [giveUp, s1, Option.bind_some, s2]; rfl, b2, ?_⟩
  rw [t2 x hk, t1 x (by simp [Ref.ptrs])]

/-- The characters of a value that is a string -/
def strPart : Json.Json → Option Bytes
  | .str s => some s
  | _ => none

theorem stringOf_val {h : Heap} {r : Ref} {v : Json.Json} (w : Val h r v) (hf : ∀ w s, r = .fixed w → w ≠ .str s) :
    stringOf h r = some (strPart v) := by
  cases w with
  | fixed v =>
    cases v with
    | str s => exact (hf _ s rfl rfl).elim
    | _ => rfl
  | leaf i n v e hs => simp [stringOf, e]; cases v <;> rfl
  | list i n l vs e => simp [stringOf, e, strPart]
  | dict i n l vs e => simp [stringOf, e, strPart]

theorem vals_move {h h' : Heap} {R : List Nat} {x : Nat} {l : List Ref} {vs : List Json.Json} (b : Bal h' R) (k : Keep (x + 1) h h')
    (hx : ∀ r ∈ l, ∀ i ∈ r.ptrs, x < i ∧ ∃ n o, get h' i = some (n, o)) (w : Vals h l vs) : Vals h' l vs :=
  w.imp fun r hr v hv => hv.move b k fun i hi => ⟨(hx r hr i hi).1, (hx r hr i hi).2⟩

theorem list_entries {h : Heap} {R : List Nat} {x : Nat} {l : List Ref} (b : Bal h R) (hx : Has h x (.list l)) :
    ∀ r ∈ l, ∀ i ∈ r.ptrs, x < i ∧ ∃ n o, get h i = some (n, o) := by
  obtain ⟨n, e⟩ := hx
  intro r hr i hi
  have hm : i ∈ (Obj.list l).held := List.mem_flatMap.mpr ⟨r, hr, hi⟩
  exact ⟨b.up x n _ e i hm, b.child e hm⟩

theorem dict_entries {h : Heap} {R : List Nat} {x : Nat} {l : List (Bytes × Ref × Ref)} (b : Bal h R) (hx : Has h x (.dict l)) :
    ∀ r ∈ l, ∀ i, i ∈ r.2.1.ptrs ∨ i ∈ r.2.2.ptrs → x < i ∧ ∃ n o, get h i = some (n, o) := by
  obtain ⟨n, e⟩ := hx
  intro r hr i hi
  have hm : i ∈ (Obj.dict l).held := List.mem_flatMap.mpr ⟨r, hr, List.mem_append.mpr hi⟩
  exact ⟨b.up x n _ e i hm, b.child e hm⟩

theorem mem_setRow (s : Bytes) (v : Ref) : ∀ (l : List (Bytes × Ref × Ref)) (r : Bytes × Ref × Ref), r ∈ setRow s v l →
    ∃ q ∈ l, q.2.1 = r.2.1 ∧ (q.2.2 = r.2.2 ∨ r.2.2 = v)
  | [], r, h => by simp [setRow] at h
  | a :: l, r, h => by
    by_cases c : a.1 = s
    · simp only [setRow, if_pos c, List.mem_cons] at h
      rcases h with rfl | h
      · exact ⟨a, by simp, rfl, .inr rfl⟩
      · exact ⟨r, by simp [h], rfl, .inl rfl⟩
    · simp only [setRow, if_neg c, List.mem_cons] at h
      rcases h with rfl | h
      · exact ⟨r, by simp, rfl, .inl rfl⟩
      · obtain ⟨q, hq, h⟩ := mem_setRow s v l r h
        exact ⟨q, by simp [hq], h⟩

theorem rows_inserted {h : Heap} {s : Bytes} {k r : Ref} {v : Json.Json} {l : List (Bytes × Ref × Ref)} {vs : List (Bytes × Json.Json)}
    (w : Rows h l vs) (hv : Val h r v) (hk : Val h k (.str s)) : Rows h (inserted s k r l) (Json.setEntry s v vs) := by
  unfold inserted
  have := Rows.set hv hk w
  cases hf : findRow s l with
  | none => exact this.1 hf
  | some o => exact this.2 o hf

/-- The key is copied, inserted and released. -/
theorem dictSet_ok {h : Heap} {R : List Nat} {x : Nat} {l : List (Bytes × Ref × Ref)} {acc : List (Bytes × Json.Json)} {s : Bytes} {r : Ref}
    {v : Json.Json} (b : Bal h (x :: R)) (hx : Has h x (.dict l)) (hr : ∀ i ∈ r.ptrs, x < i ∧ i ∈ R) (w : Rows h l acc) (hv : Val h r v) :
    ∃ h' l', dictSet h x s r = some h' ∧ Bal h' (x :: R) ∧ Has h' x (.dict l') ∧ h'.take x = h.take x ∧ Keep (x + 1) h h' ∧
      Rows h' l' (Json.setEntry s v acc) := by
  have hxl : x < h.length := by obtain ⟨n, e⟩ := hx; exact get_lt e
  have : ∃ h1 k, copyString h s = (h1, k) ∧ Bal h1 (k.ptrs ++ (x :: R)) ∧ h1.take h.length = h ∧ (∀ i ∈ k.ptrs, h.length ≤ i) ∧ Val h1 k (.str s) := by
    unfold copyString
    by_cases c : s = []
    · subst c; exact ⟨h, _, rfl, b, by simp, by simp [Ref.ptrs], .fixed _⟩
    · rw [if_neg c]
      exact ⟨_, _, rfl, b.alloc _ rfl, by simp [alloc], by simp [Ref.ptrs], .leaf _ 1 _ (by rw [get_alloc, if_pos rfl]) rfl⟩
  obtain ⟨h1, k, hc, b1, t1, hk, vk⟩ := this
  have x1 : Has h1 x (.dict l) := by obtain ⟨n, e⟩ := hx; exact ⟨n, by rw [get_of_take t1 hxl]; exact e⟩
  have hk' : ∀ i ∈ k.ptrs, x < i := fun i hi => Nat.lt_of_lt_of_le hxl (hk i hi)
  obtain ⟨h2, s2, b2, x2, t2, k2⟩ := insertRow_ok (s := s) (v := r) b1 x1 hk' fun i hi => ⟨(hr i hi).1, List.mem_cons_of_mem _ (hr i hi).2⟩
  have ke : Keep (x + 1) h h2 := (keep_take t1 _).trans k2
  refine ⟨h2, _, by rw [dictSet, hc]; exact s2, b2, x2, ?_, ke, ?_⟩
  · rw [t2]
    have : (h1.take h.length).take x = h.take x := by rw [t1]
    rwa [List.take_take, Nat.min_eq_left (Nat.le_of_lt hxl)] at this
  · have hin := dict_entries b2 x2
    -- everything that is in the rows now has been moved
    have mv : ∀ q ∈ inserted s k r l, ∀ v, (Val h1 q.2.1 v → Val h2 q.2.1 v) ∧ (Val h1 q.2.2 v → Val h2 q.2.2 v) := by
      intro q hq v
      exact ⟨fun w => w.move b2 k2 fun i hi => hin q hq i (.inl hi), fun w => w.move b2 k2 fun i hi => hin q hq i (.inr hi)⟩
    refine Rows.imp (h := h1) (rows_inserted (?_ : Rows h1 l acc) ?_ vk) mv
    · exact w.imp fun q hq v =>
        ⟨fun w => w.move b1 (keep_take t1 (x + 1)) fun i hi => dict_entries b1 x1 q hq i (.inl hi),
         fun w => w.move b1 (keep_take t1 (x + 1)) fun i hi => dict_entries b1 x1 q hq i (.inr hi)⟩
    · exact hv.move b1 (keep_take t1 (x + 1)) fun i hi => ⟨(hr i hi).1, b1.live (List.mem_append_right _ (List.mem_cons_of_mem _ (hr i hi).2))⟩

theorem has_grow {h h' : Heap} (t : h'.take h.length = h) {x : Nat} {o : Obj} (e : Has h x o) : Has h' x o := by
  obtain ⟨n, e⟩ := e; exact ⟨n, by rw [get_of_take t (get_lt e)]; exact e⟩

theorem take_grow {h h' : Heap} (t : h'.take h.length = h) {x : Nat} (hx : x ≤ h.length) : h'.take x = h.take x :=
  take_le (by rw [t, List.take_length]) hx

/-- A value is appended and released. -/
theorem append_ok {h : Heap} {R : List Nat} {x : Nat} {l : List Ref} {acc : List Json.Json} {r : Ref} {v : Json.Json}
    (b : Bal h (r.ptrs ++ (x :: R))) (hx : Has h x (.list l)) (hr : ∀ i ∈ r.ptrs, x < i) (w : Vals h l acc) (hv : Val h r v) :
    ∃ h1 h', listAppend h x r = some h1 ∧ release h1 r = some h' ∧ Bal h' (x :: R) ∧ Has h' x (.list (l ++ [r])) ∧ h'.take x = h.take x ∧
      Vals h' (l ++ [r]) (acc ++ [v]) := by
  obtain ⟨h1, s1, b1, x1, t1, k1⟩ := listAppend_ok b hx fun i hi => ⟨hr i hi, b.live (List.mem_append_left _ hi)⟩
  obtain ⟨h2, s2, b2, k2, t2⟩ := release_ok r b1
  have x2 := k2.has x1 (b2.live (List.mem_cons_self ..))
  refine ⟨h1, h2, s1, s2, b2, x2, by rw [t2 x fun i hi => Nat.le_of_lt (hr i hi), t1], ?_⟩
  exact vals_move b2 (k1.trans (k2.keep _)) (list_entries b2 x2) (Vals.snoc hv w)

/-- A value is inserted; the key that was parsed and the value are released. -/
theorem member_ok {h : Heap} {R : List Nat} {x : Nat} {l : List (Bytes × Ref × Ref)} {acc : List (Bytes × Json.Json)} {s : Bytes} {k r : Ref}
    {v : Json.Json} (b : Bal h (r.ptrs ++ (k.ptrs ++ (x :: R)))) (hx : Has h x (.dict l)) (hk : ∀ i ∈ k.ptrs, x < i) (hr : ∀ i ∈ r.ptrs, x < i)
    (w : Rows h l acc) (hv : Val h r v) :
    ∃ h1 h2 h' l', dictSet h x s r = some h1 ∧ release h1 k = some h2 ∧ release h2 r = some h' ∧ Bal h' (x :: R) ∧ Has h' x (.dict l') ∧
      h'.take x = h.take x ∧ Rows h' l' (Json.setEntry s v acc) := by
  have b0 : Bal h (x :: (k.ptrs ++ (r.ptrs ++ R))) := b.perm (by
    intro a; simp only [List.count_append, List.count_cons]; omega)
  obtain ⟨h1, l', s1, b1, x1, t1, k1, w1⟩ := dictSet_ok (s := s) b0 hx (fun i hi => ⟨hr i hi, by simp [hi]⟩) w hv
  obtain ⟨h2, s2, b2, k2, t2⟩ := release_ok k (R := r.ptrs ++ (x :: R)) (b1.perm (by
    intro a; simp only [List.count_append, List.count_cons]; omega))
  obtain ⟨h3, s3, b3, k3, t3⟩ := release_ok r b2
  have x2 := k2.has x1 (b2.live (by simp))
  have x3 := k3.has x2 (b3.live (by simp))
  refine ⟨h1, h2, h3, l', s1, s2, s3, b3, x3, ?_, ?_⟩
  · rw [t3 x fun i hi => Nat.le_of_lt (hr i hi), t2 x fun i hi => Nat.le_of_lt (hk i hi), t1]
  · have ke : Keep (x + 1) h1 h3 := (k2.keep _).trans (k3.keep _)
    have hin := dict_entries b3 x3
    exact w1.imp fun q hq v => ⟨fun w => w.move b3 ke fun i hi => hin q hq i (.inl hi), fun w => w.move b3 ke fun i hi => hin q hq i (.inr hi)⟩

theorem rows_grow {h h' : Heap} {R : List Nat} {x : Nat} {l : List (Bytes × Ref × Ref)} {acc : List (Bytes × Json.Json)} (b : Bal h' R)
    (hx : Has h' x (.dict l)) (t : h'.take h.length = h) (w : Rows h l acc) : Rows h' l acc :=
  w.imp fun q hq v =>
    ⟨fun w => w.move b (keep_take t (x + 1)) fun i hi => dict_entries b hx q hq i (.inl hi),
     fun w => w.move b (keep_take t (x + 1)) fun i hi => dict_entries b hx q hq i (.inr hi)⟩

theorem val_grow {h h' : Heap} {R : List Nat} {r : Ref} {v : Json.Json} (b : Bal h' R) (hr : ∀ i ∈ r.ptrs, i ∈ R) (t : h'.take h.length = h)
    (w : Val h r v) : Val h' r v :=
  w.move b (keep_take t 0) fun i hi => ⟨Nat.zero_le _, b.live (hr i hi)⟩

theorem parse_all (H : Json.Host) (f : Nat) :
    (∀ m h R r m', Json.parseObject H f m = some (r, m') → Bal h R →
      ∃ r' h', parseObject H f m h = some (r', m', h') ∧ h'.take h.length = h ∧ ObjRes h.length R h' r r') ∧
    (∀ m x h R l acc r m', Json.parseList H f m acc = some (r, m') → Bal h (x :: R) → Has h x (.list l) → Vals h l acc →
      ∃ r' h', parseList H f m x h = some (r', m', h') ∧ h'.take x = h.take x ∧ GroupRes x R h' r r') ∧
    (∀ m x h R l acc r m', Json.parseDict H f m acc = some (r, m') → Bal h (x :: R) → Has h x (.dict l) → Rows h l acc →
      ∃ r' h', parseDict H f m x h = some (r', m', h') ∧ h'.take x = h.take x ∧ GroupRes x R h' r r') := by
  induction f with
  | zero =>
    exact ⟨fun m h R r m' e => by simp [Json.parseObject] at e, fun m x h R l acc r m' e => by simp [Json.parseList] at e,
      fun m x h R l acc r m' e => by simp [Json.parseDict] at e⟩
  | succ f ih =>
    obtain ⟨ihO, ihL, ihD⟩ := ih
    refine ⟨fun m h R r m' e b => ?_, fun m x h R l acc r m' e b hx w => ?_, fun m x h R l acc r m' e b hx w => ?_⟩
    · rw [Json.parseObject] at e
      rw [parseObject]
      cases ht : Json.scanToken H true m with
      | none => simp [ht] at e
      | some t =>
        rw [ht, Option.bind_some] at e
        rw [Option.bind_some]
        split at e
        · rename_i c; rw [if_pos c]
          cases e
          exact ⟨_, _, rfl, by simp, b⟩
        · rename_i c; rw [if_neg c]
          cases ho : t.obj with
          | some v =>
            simp only [ho] at e ⊢
            cases e
            exact ⟨_, _, rfl, by simp [alloc], b.alloc _ rfl,
              .leaf _ 1 _ (by rw [get_alloc, if_pos rfl]) (scanToken_simple H true m t v ht ho), by simp [Ref.ptrs], by simp⟩
          | none =>
            simp only [ho] at e ⊢
            cases hc : t.str.head? with
            | none => simp [hc] at e
            | some ch =>
              rw [hc, Option.bind_some] at e
              rw [Option.bind_some]
              split at e
              · rename_i c1; rw [if_pos c1]
                obtain ⟨r', h', e', t', g⟩ := ihL t.cur h.length (alloc h (.list [])) R [] [] r m' e (b.alloc _ rfl)
                  ⟨1, by rw [get_alloc, if_pos rfl]⟩ trivial
                exact ⟨r', h', e', by rw [t']; simp [alloc], g.obj⟩
              · rename_i c1; rw [if_neg c1]
                split at e
                · rename_i c2; rw [if_pos c2]
                  cases e
                  exact ⟨_, _, rfl, by simp, b⟩
                · rename_i c2; rw [if_neg c2]
                  split at e
                  · rename_i c3; rw [if_pos c3]
                    obtain ⟨r', h', e', t', g⟩ := ihD t.cur h.length (alloc h (.dict [])) R [] [] r m' e (b.alloc _ rfl)
                      ⟨1, by rw [get_alloc, if_pos rfl]⟩ trivial
                    exact ⟨r', h', e', by rw [t']; simp [alloc], g.obj⟩
                  · rename_i c3; rw [if_neg c3]
                    split at e
                    · rename_i c4; rw [if_pos c4]
                      cases e
                      exact ⟨_, _, rfl, by simp, b⟩
                    · rename_i c4; rw [if_neg c4]
                      split at e
                      · rename_i c5; rw [if_pos c5]
                        cases hn : Num.strtonum t.str with
                        | none => simp [hn] at e
                        | some n =>
                          rw [hn] at e; cases e
                          exact ⟨_, _, rfl, by simp [alloc], b.alloc _ rfl,
                            .leaf _ 1 _ (by rw [get_alloc, if_pos rfl]) rfl, by simp [Ref.ptrs], by simp⟩
                      · rename_i c5; rw [if_neg c5]
                        cases hw : Json.parseWord t.str with
                        | none => simp [hw] at e
                        | some q =>
                          rw [hw] at e; cases e
                          refine ⟨_, _, rfl, by simp, ?_⟩
                          have hq : r = .ok (.bool true) ∨ r = .ok (.bool false) ∨ r = .ok .null ∨ r = .error := by
                            simp only [Json.parseWord, Option.bind_eq_some_iff] at hw
                            obtain ⟨x1, _, hw⟩ := hw
                            split at hw
                            · cases hw; simp
                            · simp only [Option.bind_eq_some_iff] at hw
                              obtain ⟨x2, _, hw⟩ := hw
                              split at hw
                              · cases hw; simp
                              · simp only [Option.bind_eq_some_iff] at hw
                                obtain ⟨x3, _, hw⟩ := hw
                                split at hw <;> cases hw <;> simp
                          rcases hq with rfl | rfl | rfl | rfl
                          · exact ⟨b, .fixed _, by simp [Ref.ptrs], by intro w s e; cases e; simp⟩
                          · exact ⟨b, .fixed _, by simp [Ref.ptrs], by intro w s e; cases e; simp⟩
                          · exact ⟨b, .fixed _, by simp [Ref.ptrs], by intro w s e; cases e; simp⟩
                          · exact b
    · rw [Json.parseList] at e
      rw [parseList]
      have hxl : x < h.length := by obtain ⟨n, e⟩ := hx; exact get_lt e
      cases hp : Json.parseObject H f m with
      | none => simp [hp] at e
      | some q =>
        obtain ⟨q, m1⟩ := q
        obtain ⟨q', h1, e1, t1, g1⟩ := ihO m h (x :: R) q m1 hp b
        rw [hp, Option.bind_some] at e
        rw [e1, Option.bind_some]
        have x1 := has_grow t1 hx
        have tx := take_grow t1 (Nat.le_of_lt hxl)
        have up : ∀ b1 : Bal h1 (x :: R), ∃ h', giveUp h1 x null m1 = some (.error, m1, h') ∧ Bal h' R ∧ h'.take x = h1.take x :=
          fun b1 => giveUp_ok (k := null) b1 (by intro i hi; cases hi)
        cases q with
        | closeList =>
          cases q' with
          | closeList =>
            cases e
            have wl := vals_move g1 (keep_take t1 _) (list_entries g1 x1) w
            obtain ⟨n1, e1⟩ := x1
            exact ⟨_, _, rfl, tx, rfl, g1, .list x n1 l acc e1 wl.val.1 wl.val.2⟩
          | _ => exact g1.elim
        | closeDict =>
          cases q' with
          | closeDict =>
            cases e
            obtain ⟨h', e', b', t'⟩ := up g1
            exact ⟨_, _, e', by rw [t', tx], b'⟩
          | _ => exact g1.elim
        | error =>
          cases q' with
          | error =>
            cases e
            obtain ⟨h', e', b', t'⟩ := up g1
            exact ⟨_, _, e', by rw [t', tx], b'⟩
          | _ => exact g1.elim
        | ok v =>
          cases q' with
          | ok r1 =>
            obtain ⟨b1, v1, p1, _⟩ := g1
            have w1 := vals_move b1 (keep_take t1 _) (list_entries b1 x1) w
            obtain ⟨h2, h3, s2, s3, b3, x3, t3, w3⟩ := append_ok b1 x1 (fun i hi => Nat.lt_of_lt_of_le hxl (p1 i hi)) w1 v1
            simp only [s2, s3, Option.bind_some] at e ⊢
            cases ht : Json.scanToken H false m1 with
            | none => simp [ht] at e
            | some t =>
              rw [ht, Option.bind_some] at e
              rw [Option.bind_some]
              cases hc : t.str.head? with
              | none => simp [hc] at e
              | some ch =>
                rw [hc, Option.bind_some] at e
                rw [Option.bind_some]
                split at e
                · rename_i c; rw [if_pos c]
                  cases e
                  obtain ⟨n3, e3⟩ := x3
                  exact ⟨_, _, rfl, by rw [t3, tx], rfl, b3, .list x n3 _ _ e3 w3.val.1 w3.val.2⟩
                · rename_i c; rw [if_neg c]
                  split at e
                  · rename_i c; rw [if_pos c]
                    obtain ⟨r', h', e', t', g'⟩ := ihL _ x h3 R _ _ r m' e b3 x3 w3
                    exact ⟨r', h', e', by rw [t', t3, tx], g'⟩
                  · rename_i c; rw [if_neg c]
                    cases e
                    obtain ⟨h', e', b', t'⟩ := giveUp_ok (k := null) (m := t.cur) b3 (by intro i hi; cases hi)
                    exact ⟨_, _, e', by rw [t', t3, tx], b'⟩
          | _ => exact g1.elim
    · rw [Json.parseDict] at e
      rw [parseDict]
      have hxl : x < h.length := by obtain ⟨n, e⟩ := hx; exact get_lt e
      cases hp : Json.parseObject H f m with
      | none => simp [hp] at e
      | some q =>
        obtain ⟨q, m1⟩ := q
        obtain ⟨q', h1, e1, t1, g1⟩ := ihO m h (x :: R) q m1 hp b
        rw [hp, Option.bind_some] at e
        rw [e1, Option.bind_some]
        have x1 := has_grow t1 hx
        have tx := take_grow t1 (Nat.le_of_lt hxl)
        have up : ∀ b1 : Bal h1 (x :: R), ∃ h', giveUp h1 x null m1 = some (.error, m1, h') ∧ Bal h' R ∧ h'.take x = h1.take x :=
          fun b1 => giveUp_ok (k := null) b1 (by intro i hi; cases hi)
        cases q with
        | closeDict =>
          cases q' with
          | closeDict =>
            cases e
            have wl := rows_grow g1 x1 t1 w
            obtain ⟨n1, e1⟩ := x1
            exact ⟨_, _, rfl, tx, rfl, g1, .dict x n1 l acc e1 wl.val.1 wl.val.2.1 wl.val.2.2⟩
          | _ => exact g1.elim
        | closeList =>
          cases q' with
          | closeList =>
            cases e
            obtain ⟨h', e', b', t'⟩ := up g1
            exact ⟨_, _, e', by rw [t', tx], b'⟩
          | _ => exact g1.elim
        | error =>
          cases q' with
          | error =>
            cases e
            obtain ⟨h', e', b', t'⟩ := up g1
            exact ⟨_, _, e', by rw [t', tx], b'⟩
          | _ => exact g1.elim
        | ok v =>
          cases q' with
          | ok k =>
            obtain ⟨b1, v1, p1, f1⟩ := g1
            have pk : ∀ i ∈ k.ptrs, x < i := fun i hi => Nat.lt_of_lt_of_le hxl (p1 i hi)
            have upk : ∀ mm, ∃ h', giveUp h1 x k mm = some (.error, mm, h') ∧ Bal h' R ∧ h'.take x = h1.take x :=
              fun mm => giveUp_ok (b1.perm (by intro a; simp only [List.count_append, List.count_cons]; omega)) fun i hi => Nat.le_of_lt (pk i hi)
            have so := stringOf_val v1 f1
            have key : (∃ s, v = .str s) ∨ (strPart v = none ∧ r = .error ∧ m' = m1) := by
              cases v with
              | str s => exact .inl ⟨s, rfl⟩
              | _ => cases e; exact .inr ⟨rfl, rfl, rfl⟩
            rcases key with ⟨s, rfl⟩ | ⟨k1, rfl, rfl⟩
            · simp only [so, strPart, Option.bind_some] at e ⊢
              cases ht : Json.scanToken H false m1 with
              | none => simp [ht] at e
              | some t =>
                rw [ht, Option.bind_some] at e
                rw [Option.bind_some]
                cases hc : t.str.head? with
                | none => simp [hc] at e
                | some ch =>
                  rw [hc, Option.bind_some] at e
                  rw [Option.bind_some]
                  split at e
                  · rename_i c; rw [if_pos c]
                    cases hp2 : Json.parseObject H f t.cur with
                    | none => simp [hp2] at e
                    | some q2 =>
                      obtain ⟨q2, m2⟩ := q2
                      obtain ⟨q2', h2, e2, t2, g2⟩ := ihO t.cur h1 _ q2 m2 hp2 b1
                      rw [hp2, Option.bind_some] at e
                      rw [e2, Option.bind_some]
                      have hxl1 : x < h1.length := by obtain ⟨n, e⟩ := x1; exact get_lt e
                      have x2 := has_grow t2 x1
                      have tx2 := take_grow t2 (Nat.le_of_lt hxl1)
                      have up2 : ∀ b2 : Bal h2 (k.ptrs ++ (x :: R)), ∃ h', giveUp h2 x k m2 = some (.error, m2, h') ∧ Bal h' R ∧ h'.take x = h2.take x :=
                        fun b2 => giveUp_ok (b2.perm (by intro a; simp only [List.count_append, List.count_cons]; omega)) fun i hi => Nat.le_of_lt (pk i hi)
                      cases q2 with
                      | ok v2 =>
                        cases q2' with
                        | ok r2 =>
                          obtain ⟨b2, v2, p2, _⟩ := g2
                          have w2 := rows_grow b2 x2 t2 (rows_grow b1 x1 t1 w)
                          obtain ⟨h3, h4, h5, l', s3, s4, s5, b5, x5, t5, w5⟩ := member_ok (s := s) b2 x2 pk
                            (fun i hi => Nat.lt_of_lt_of_le hxl1 (p2 i hi)) w2 v2
                          simp only [s3, s4, s5, Option.bind_some] at e ⊢
                          cases ht2 : Json.scanToken H false m2 with
                          | none => simp [ht2] at e
                          | some t' =>
                            rw [ht2, Option.bind_some] at e
                            rw [Option.bind_some]
                            cases hc2 : t'.str.head? with
                            | none => simp [hc2] at e
                            | some ch2 =>
                              rw [hc2, Option.bind_some] at e
                              rw [Option.bind_some]
                              split at e
                              · rename_i c; rw [if_pos c]
                                cases e
                                obtain ⟨n5, e5⟩ := x5
                                exact ⟨_, _, rfl, by rw [t5, tx2, tx], rfl, b5, .dict x n5 _ _ e5 w5.val.1 w5.val.2.1 w5.val.2.2⟩
                              · rename_i c; rw [if_neg c]
                                split at e
                                · rename_i c; rw [if_pos c]
                                  obtain ⟨r', h', e', t', g'⟩ := ihD _ x h5 R _ _ r m' e b5 x5 w5
                                  exact ⟨r', h', e', by rw [t', t5, tx2, tx], g'⟩
                                · rename_i c; rw [if_neg c]
                                  cases e
                                  obtain ⟨h', e', b', tt⟩ := giveUp_ok (k := null) (m := t'.cur) b5 (by intro i hi; cases hi)
                                  exact ⟨_, _, e', by rw [tt, t5, tx2, tx], b'⟩
                        | _ => exact g2.elim
                      | closeList =>
                        cases q2' with
                        | closeList =>
                          cases e
                          obtain ⟨h', e', b', t'⟩ := up2 g2
                          exact ⟨_, _, e', by rw [t', tx2, tx], b'⟩
                        | _ => exact g2.elim
                      | closeDict =>
                        cases q2' with
                        | closeDict =>
                          cases e
                          obtain ⟨h', e', b', t'⟩ := up2 g2
                          exact ⟨_, _, e', by rw [t', tx2, tx], b'⟩
                        | _ => exact g2.elim
                      | error =>
                        cases q2' with
                        | error =>
                          cases e
                          obtain ⟨h', e', b', t'⟩ := up2 g2
                          exact ⟨_, _, e', by rw [t', tx2, tx], b'⟩
                        | _ => exact g2.elim
                  · rename_i c; rw [if_neg c]
                    cases e
                    obtain ⟨h', e', b', t'⟩ := upk t.cur
                    exact ⟨_, _, e', by rw [t', tx], b'⟩
            · rw [k1] at so
              simp only [so, Option.bind_some]
              obtain ⟨h', e', b', t'⟩ := upk m'
              exact ⟨_, _, e', by rw [t', tx], b'⟩
          | _ => exact g1.elim

end ParseOwn
end Duck
