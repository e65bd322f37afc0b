import Verif.Lemmas.ListOwn
/-! C103: linked lists own what they hold. -/
namespace Duck
namespace ListOwn
open LList
open HTable (Policy)
open TreeOwn
variable {P : Type}

/-- What holds between calls. -/
def Inv (w : World P) : Prop :=
  ∃ as xs, Links w.list as xs ∧ CursorOk w.list as ∧ ∀ x, w.counts x = w.client x + (xs.map (·.1)).count (some x)

theorem Inv.holds {w : World P} {as xs} (h : Links w.list as xs) {vs} (hv : Holds w vs) : vs = xs.map (·.1) := by
  have := iterate_spec h
  unfold Holds at hv
  rw [hv] at this
  exact Option.some.inj this

theorem priority_count {gt : P → P → Bool} (xs : List (Obj × P)) (v : Obj) (p : P) (pol : Policy) (x : Id) :
    ((specPriority gt xs v p pol).1.map (·.1)).count (some x) =
      (xs.map (·.1)).count (some x) + if (specPriority gt xs v p pol).2 ∧ v ∉ xs.map (·.1) ∧ v = some x then 1 else 0 := by
  unfold specPriority
  have hins : ((insertAt xs (slot gt xs p) (v, p)).map (·.1)).count (some x) =
      (xs.map (·.1)).count (some x) + if v = some x then 1 else 0 := by
    unfold insertAt
    rw [List.map_append, List.map_cons, List.count_append, List.count_cons, ← Nat.add_assoc, ← List.count_append, ← List.map_append,
      List.take_append_drop]
    simp
  by_cases h1 : (v ∈ xs.map (·.1) ∧ pol = .ifNotFound) ∨ (v ∉ xs.map (·.1) ∧ pol = .ifFound)
  · rw [if_pos h1]; simp
  · rw [if_neg h1]
    by_cases hm : v ∈ xs.map (·.1)
    · rw [if_pos hm]
      show (((insertAt xs (slot gt xs p) (v, p)).eraseIdx (if oldIdx xs v ≥ slot gt xs p then oldIdx xs v + 1 else oldIdx xs v)).map (·.1)).count
        (some x) = _
      have hold := oldIdx_lt xs v hm
      have hsl := slot_le gt xs p
      have hex : ∃ e ∈ xs.reverse, (decide (e.1 = v)) = true := by
        obtain ⟨e, he, hv⟩ := List.mem_map.mp hm
        exact ⟨e, List.mem_reverse.mpr he, by simpa using hv⟩
      have hxo : (xs.map (·.1))[oldIdx xs v]? = some v := by
        have hlt := List.findIdx_lt_length_of_exists hex
        have hp := List.findIdx_getElem (w := hlt)
        rw [List.getElem_reverse] at hp
        have hb : oldIdx xs v < (xs.map (·.1)).length := by simpa using hold
        rw [List.getElem?_eq_getElem hb, List.getElem_map]
        congr 1
        simp only [oldIdx]
        exact of_decide_eq_true hp
      have hgetx := insertAt_get_old (xs := xs) (i := slot gt xs p) (k := oldIdx xs v) hsl hold (v, p)
      generalize (if oldIdx xs v ≥ slot gt xs p then oldIdx xs v + 1 else oldIdx xs v) = j at hgetx ⊢
      have hj : ((insertAt xs (slot gt xs p) (v, p)).map (·.1))[j]? = some v := by
        rw [List.getElem?_map, hgetx, ← List.getElem?_map, hxo]
      have e := split_at' hj
      rw [e, List.count_append, List.count_cons] at hins
      rw [List.eraseIdx_eq_take_drop_succ, List.map_append, List.map_take, List.map_drop, List.count_append]
      have : (if (v == some x) = true then 1 else 0) = (if v = some x then 1 else 0) := by simp
      rw [this] at hins
      simp only [hm, not_true_eq_false, false_and, and_false, if_false, Nat.add_zero]
      omega
    · rw [if_neg hm]
      rw [hins]
      simp [hm]

theorem inv_of {w : World P} {l' : LinkedList Obj P} {as xs c} (h : Links l' as xs) (hc : CursorOk l' as)
    (hn : ∀ x, c x = w.client x + (xs.map (·.1)).count (some x)) : Inv { w with list := l', counts := c } := ⟨as, xs, h, hc, hn⟩

theorem splitCount (vs : List Obj) (i n : Nat) (y : Obj) :
    vs.count y = (vs.take i ++ vs.drop (i + n)).count y + ((vs.drop i).take n).count y := by
  have h1 : vs.count y = (vs.take i).count y + (vs.drop i).count y := by rw [← List.count_append, List.take_append_drop]
  have h2 : (vs.drop i).count y = ((vs.drop i).take n).count y + ((vs.drop i).drop n).count y := by
    rw [← List.count_append, List.take_append_drop]
  rw [List.drop_drop] at h2
  rw [List.count_append]
  omega

section
variable {zero : P} {pick : Nat → Heap Obj P → Nat} {gt : P → P → Bool}

/-- Removal of a range. -/
theorem remove_inv {w : World P} {as xs} (hl : Links w.list as xs) (hc : CursorOk w.list as)
    (hn : ∀ x, w.counts x = w.client x + (xs.map (·.1)).count (some x)) {i n : Nat} (h : i + n ≤ as.length) :
    ∃ c, replay w.counts (removeRangeLog w.list i n) = some c ∧
      ∀ x, c x = w.client x + ((xs.map (·.1)).take i ++ (xs.map (·.1)).drop (i + n)).count (some x) := by
  rw [removeRangeLog_eq hl hc h, releases_eq]
  have hs := splitCount (xs.map (·.1)) i n
  obtain ⟨c, r, e⟩ := replay_releases (objs (((xs.map (·.1)).drop i).take n)) (c := w.counts) (fun x => by
    rw [objs_count, hn]; have := hs (some x); omega)
  refine ⟨c, r, fun x => ?_⟩
  have h1 := e x
  rw [objs_count, hn] at h1
  have := hs (some x)
  omega

theorem step_inv (hp : Fresh pick) {w : World P} (h : Inv w) {op : Op P} (hlegal : Legal w op) :
    ∃ w', step zero pick gt w op = some w' ∧ Inv w' := by
  obtain ⟨as, xs, hl, hc, hn⟩ := h
  have hlen := hl.seg.length
  have hcount := hl.count
  cases op with
  | create x =>
    refine ⟨{ w with counts := setCount w.counts x 1, client := setCount w.client x (w.client x + 1) },
      by simp only [step, happens, if_pos (show w.counts x = 0 from hlegal), Option.map_some], as, xs, hl, hc, fun y => ?_⟩
    have := hn y
    show setCount _ _ _ y = setCount _ _ _ y + _
    rw [setCount_apply, setCount_apply]
    have hx := hn x
    have h0 : w.counts x = 0 := hlegal
    split
    · rename_i e; subst e; omega
    · exact this
  | retain x =>
    refine ⟨{ w with counts := setCount w.counts x (w.counts x + 1), client := setCount w.client x (w.client x + 1) },
      by simp only [step, happens, if_neg (show ¬ w.counts x = 0 from hlegal), Option.map_some], as, xs, hl, hc, fun y => ?_⟩
    have := hn y
    show setCount _ _ _ y = setCount _ _ _ y + _
    rw [setCount_apply, setCount_apply]
    split
    · rename_i e; subst e; omega
    · exact this
  | release x =>
    have h0 : w.client x ≠ 0 := hlegal
    have hx := hn x
    refine ⟨{ w with counts := setCount w.counts x (w.counts x - 1), client := setCount w.client x (w.client x - 1) },
      by simp only [step, happens, if_neg (show ¬ w.counts x = 0 by omega), Option.map_some], as, xs, hl, hc, fun y => ?_⟩
    have := hn y
    show setCount _ _ _ y = setCount _ _ _ y + _
    rw [setCount_apply, setCount_apply]
    split
    · rename_i e; subst e; omega
    · exact this
  | drop =>
    have hle : 0 + as.length ≤ as.length := by omega
    obtain ⟨c, r, e⟩ := remove_inv hl hc hn hle
    obtain ⟨l', r1, k1, c1⟩ := removeRange_spec hl hc hle
    have hz : ((0 : Nat) : Int) = 0 := rfl
    rw [hz, ← hcount] at r r1
    refine ⟨_, by simp only [step, r, r1, Option.bind_some, Option.map_some]; rfl, inv_of k1 c1 (fun x => ?_)⟩
    rw [e x, List.map_append, List.map_take, List.map_drop]
  | call op =>
    have hsilent : ∀ {op : LList.Op Obj P} {l' out as' xs'}, logOf zero pick gt w.list op = [] →
        LList.step zero pick gt w.list op = some (l', out) → Links l' as' xs' → CursorOk l' as' → (xs'.map (·.1)).Perm (xs.map (·.1)) →
        ∃ w', step zero pick gt w (.call op) = some w' ∧ Inv w' := by
      intro op l' out as' xs' h1 h2 h3 h4 h5
      refine ⟨_, by simp only [step, h1, h2, replay, Option.bind_some, Option.map_some]; rfl, inv_of h3 h4 (fun x => ?_)⟩
      rw [hn, h5.count_eq]
    cases op with
    | replace loc len os =>
      by_cases hr : 0 ≤ loc ∧ 0 ≤ len ∧ loc + len ≤ xs.length
      · obtain ⟨i, rfl⟩ := Int.eq_ofNat_of_zero_le hr.1
        obtain ⟨n, rfl⟩ := Int.eq_ofNat_of_zero_le hr.2.1
        have hle : i + n ≤ as.length := by omega
        obtain ⟨c, r, e⟩ := remove_inv hl hc hn hle
        have hown : ∀ x ∈ objs os, c x ≠ 0 := by
          intro x hx
          rw [e]
          have hx' : some x ∈ os := by
            obtain ⟨o, ho, hm⟩ := List.mem_flatMap.mp hx
            cases o with
            | none => simp at hm
            | some y => simp at hm; subst hm; exact ho
          have hh : Holds w (xs.map (·.1)) := iterate_spec hl
          have := hlegal.2 _ hh (by simpa using hr) x hx'
          rw [Int.toNat_natCast, show ((i : Int) + n).toNat = i + n by omega] at this
          rcases this with h1 | h1
          · omega
          · have := List.count_pos_iff.mpr h1
            omega
        obtain ⟨c2, r2, e2⟩ := replay_retains (objs os) hown
        obtain ⟨l', out, as', xs', s1, s2, s3, s4⟩ := step_spec (zero := zero) hp (gt := gt) hl hc (.replace i n os) hlegal.1
        have hlog : replay w.counts (logOf zero pick gt w.list (.replace i n os)) = some c2 := by
          show replay _ (replaceLog _ _ _ _) = _
          unfold replaceLog insertAllLog
          rw [if_pos (by unfold rangeOk; omega), replay_append, r, retains_eq]
          exact r2
        refine ⟨_, by simp only [step, hlog, s1, Option.bind_some, Option.map_some]; rfl, inv_of s3 s4 (fun x => ?_)⟩
        have hxs := s2.2
        rw [if_pos hr, Int.toNat_natCast, show ((i : Int) + n).toNat = i + n by omega] at hxs
        rw [e2, e, hxs, objs_count]
        simp only [List.map_append, List.map_take, List.map_drop, List.count_append, List.map_map, Function.comp_def, List.map_id']
        omega
      · obtain ⟨l', out, as', xs', s1, s2, s3, s4⟩ := step_spec (zero := zero) hp (gt := gt) hl hc (.replace loc len os) hlegal.1
        refine hsilent ?_ s1 s3 s4 ?_
        · show replaceLog _ _ _ _ = _
          unfold replaceLog
          rw [if_neg (by unfold rangeOk; omega)]
        · have hxs := s2.2
          rw [if_neg hr] at hxs
          rw [hxs]
    | get i =>
      obtain ⟨l', out, as', xs', s1, s2, s3, s4⟩ := step_spec (zero := zero) hp (gt := gt) hl hc (.get i) trivial
      exact hsilent rfl s1 s3 s4 (by rw [s2.1])
    | getRange i n =>
      obtain ⟨l', out, as', xs', s1, s2, s3, s4⟩ := step_spec (zero := zero) hp (gt := gt) hl hc (.getRange i n) hlegal
      exact hsilent rfl s1 s3 s4 (by rw [s2.1])
    | reverse =>
      obtain ⟨l', out, as', xs', s1, s2, s3, s4⟩ := step_spec (zero := zero) hp (gt := gt) hl hc .reverse trivial
      exact hsilent rfl s1 s3 s4 (by rw [s2.1, List.map_reverse]; exact List.reverse_perm _)
    | sort cmp =>
      obtain ⟨l', out, as', xs', s1, s2, s3, s4⟩ := step_spec (zero := zero) hp (gt := gt) hl hc (.sort cmp) hlegal
      exact hsilent rfl s1 s3 s4 s2.2.1
    | count =>
      obtain ⟨l', out, as', xs', s1, s2, s3, s4⟩ := step_spec (zero := zero) hp (gt := gt) hl hc .count trivial
      exact hsilent rfl s1 s3 s4 (by rw [s2.1])
    | insertPriority v p pol =>
      obtain ⟨l', out, as', xs', s1, s2, s3, s4⟩ := step_spec (zero := zero) hp (gt := gt) hl hc (.insertPriority v p pol) trivial
      have hlog := priorityLog_eq (zero := zero) hp (gt := gt) hl v p pol
      have hxs := s2.1
      have hcnt := priority_count (gt := gt) xs v p pol
      rw [← hxs] at hcnt
      have hlegal' : ∀ x, v = some x → w.counts x ≠ 0 := hlegal
      by_cases ha : (specPriority gt xs v p pol).2 = true
      · rw [if_pos ha] at hlog
        obtain ⟨c, r, e⟩ := replay_retains v.toList (c := w.counts) (fun x hx => hlegal' x (by simpa using hx))
        have hvc : ∀ x, v.toList.count x = if v = some x then 1 else 0 := by
          intro x
          cases v with
          | none => simp
          | some y =>
            by_cases e : y = x
            · subst e; simp
            · simp [e]
        by_cases hm : v ∈ xs.map (·.1)
        · rw [if_pos hm, retainO_eq, releaseO_eq] at hlog
          obtain ⟨c2, r2, e2⟩ := replay_releases v.toList (c := c) (fun x => by rw [e]; omega)
          have hlog' : replay w.counts (logOf zero pick gt w.list (.insertPriority v p pol)) = some c2 := by
            show replay _ (priorityLog _ _ _ _ _ _ _) = _
            rw [hlog, replay_append, r]; exact r2
          refine ⟨_, by simp only [step, hlog', s1, Option.bind_some, Option.map_some]; rfl, inv_of s3 s4 (fun x => ?_)⟩
          rw [hcnt, if_neg (by simp only [hm, not_true_eq_false, false_and, and_false, not_false_eq_true]), Nat.add_zero, ← hn]
          have h1 := e x; have h2 := e2 x
          omega
        · rw [if_neg hm, List.append_nil, retainO_eq] at hlog
          have hlog' : replay w.counts (logOf zero pick gt w.list (.insertPriority v p pol)) = some c := by
            show replay _ (priorityLog _ _ _ _ _ _ _) = _
            rw [hlog]; exact r
          refine ⟨_, by simp only [step, hlog', s1, Option.bind_some, Option.map_some]; rfl, inv_of s3 s4 (fun x => ?_)⟩
          rw [hcnt, e, hn, hvc]
          simp only [ha, hm, not_false_eq_true, true_and]
          omega
      · rw [if_neg ha] at hlog
        refine hsilent hlog s1 s3 s4 ?_
        rw [hxs]
        have : (specPriority gt xs v p pol).1 = xs := by
          revert ha
          unfold specPriority
          split
          · intro _; rfl
          · split <;> intro ha <;> exact absurd rfl ha
        rw [this]

theorem reach_inv (hp : Fresh pick) {w : World P} (h : Reach zero pick gt w) : Inv w := by
  induction h with
  | start => exact ⟨[], [], init_links, Or.inl ⟨rfl, rfl, rfl⟩, fun _ => rfl⟩
  | step _ hl hs ih =>
    obtain ⟨w', h1, h2⟩ := step_inv hp ih hl
    rw [hs] at h1
    cases h1
    exact h2

/-- C103: in every history of legal use of a list, every further legal use is carried out without touching an object that was freed, or
    freed memory. -/
theorem C103_safe (hp : Fresh pick) {w : World P} (h : Reach zero pick gt w) (op : Op P) (hop : Legal w op) :
    ∃ w', step zero pick gt w op = some w' :=
  (step_inv hp (reach_inv hp h) hop).imp fun _ e => e.1

/-- C103: the list holds one reference to an object for each entry with it.  So the object exists while it is in the list, and is freed as
    soon as it is neither in the list nor referenced by anybody else. -/
theorem C103_counts (hp : Fresh pick) {w : World P} (h : Reach zero pick gt w) :
    ∃ vs, Holds w vs ∧ (∀ x, w.counts x = w.client x + vs.count (some x)) ∧ (∀ x, some x ∈ vs → w.counts x ≠ 0) ∧
      ∀ x, some x ∉ vs → w.client x = 0 → w.counts x = 0 := by
  obtain ⟨as, xs, hl, hc, hn⟩ := reach_inv hp h
  refine ⟨_, iterate_spec hl, hn, fun x hx => ?_, fun x hx h0 => ?_⟩
  · have := List.count_pos_iff.mpr hx
    rw [hn]; omega
  · rw [hn, h0, List.count_eq_zero.mpr hx]

/-- C103: replacing a range by objects that somebody else owns puts them in place of the old ones: each entry that goes gives up its
    reference, each that comes takes one. -/
theorem C103_replace (hp : Fresh pick) {w : World P} (h : Reach zero pick gt w) {vs : List Obj} (hv : Holds w vs) {i n : Nat}
    (hr : i + n ≤ vs.length) (hf : i + n < 2 ^ 63) (os : List Obj)
    (hown : ∀ x, some x ∈ os → w.client x ≠ 0 ∨ some x ∈ vs.take i ++ vs.drop (i + n)) :
    ∃ w', step zero pick gt w (.call (.replace i n os)) = some w' ∧ Holds w' (vs.take i ++ os ++ vs.drop (i + n)) ∧
      w'.client = w.client ∧ ∀ x, w'.counts x + ((vs.drop i).take n).count (some x) = w.counts x + os.count (some x) := by
  have hlegal : Legal w (.call (.replace i n os)) := by
    refine ⟨by omega, fun vs' hv' _ x hx => ?_⟩
    unfold Holds at hv hv'
    rw [hv] at hv'
    cases hv'
    rw [Int.toNat_natCast, show ((i : Int) + n).toNat = i + n by omega]
    exact hown x hx
  have hinv := reach_inv hp h
  obtain ⟨w', hs, hi⟩ := step_inv (zero := zero) (gt := gt) hp hinv hlegal
  obtain ⟨as, xs, hl, hc, hn⟩ := hinv
  have hvs := Inv.holds hl hv
  obtain ⟨l', out, as', xs', s1, s2, s3, s4⟩ := step_spec (zero := zero) hp (gt := gt) hl hc (.replace i n os) hlegal.1
  have hxs := s2.2
  have hlenx : xs.length = vs.length := by rw [hvs]; simp
  rw [if_pos (by omega), Int.toNat_natCast, show ((i : Int) + n).toNat = i + n by omega] at hxs
  have hmap : xs'.map (·.1) = vs.take i ++ os ++ vs.drop (i + n) := by
    rw [hxs, hvs]
    simp only [List.map_append, List.map_take, List.map_drop, List.map_map, Function.comp_def, List.map_id']
  have hw : ∃ c, w' = { w with list := l', counts := c } := by
    simp only [step, s1] at hs
    cases hr2 : replay w.counts (logOf zero pick gt w.list (.replace i n os)) with
    | none => rw [hr2] at hs; cases hs
    | some c => rw [hr2] at hs; exact ⟨c, (Option.some.inj hs).symm⟩
  obtain ⟨c, rfl⟩ := hw
  refine ⟨_, hs, ?_, rfl, fun x => ?_⟩
  · show iterate l' = _
    rw [iterate_spec s3, hmap]
  · obtain ⟨as2, xs2, k1, _, k2⟩ := hi
    have e2 : xs2.map (·.1) = xs'.map (·.1) := by
      have a := iterate_spec k1
      have b := iterate_spec s3
      exact Option.some.inj (a.symm.trans b)
    have e3 := k2 x
    rw [e2, hmap] at e3
    have e4 := hn x
    rw [← hvs, splitCount vs i n] at e4
    simp only [List.count_append] at e3 e4
    show c x + _ = _
    have e5 : c x = w.client x + (List.count (some x) (vs.take i) + List.count (some x) os + List.count (some x) (vs.drop (i + n))) := e3
    omega

/-- C103: giving up the list gives up all its references and nothing else. -/
theorem C103_drop (hp : Fresh pick) {w : World P} (h : Reach zero pick gt w) :
    ∃ w', step zero pick gt w .drop = some w' ∧ w'.client = w.client ∧ ∀ x, w'.counts x = w.client x := by
  obtain ⟨as, xs, hl, hc, hn⟩ := reach_inv hp h
  have hle : 0 + as.length ≤ as.length := by omega
  obtain ⟨c, r, e⟩ := remove_inv hl hc hn hle
  obtain ⟨l', r1, k1, c1⟩ := removeRange_spec hl hc hle
  have hz : ((0 : Nat) : Int) = 0 := rfl
  rw [hz, ← hl.count] at r r1
  refine ⟨{ w with list := l', counts := c }, by simp only [step, r, r1, Option.bind_some, Option.map_some], rfl, fun x => ?_⟩
  have := hl.seg.length
  have h1 := e x
  rw [List.drop_eq_nil_of_le (by simp; omega)] at h1
  simpa using h1

/-- C103: the list has one node for each entry, and has given back all others. -/
theorem C103_nodes (hp : Fresh pick) {w : World P} (h : Reach zero pick gt w) :
    ∃ (vs : List Obj) (nodes : List Nat), Holds w vs ∧ nodes.Nodup ∧ nodes.length = vs.length ∧ ∀ p, w.list.heap p ≠ none ↔ p ∈ nodes := by
  obtain ⟨as, xs, hl, hc, hn⟩ := reach_inv hp h
  refine ⟨_, as, iterate_spec hl, hl.nodup, by simp [hl.seg.length], fun p => ⟨hl.dom p, fun hm => ?_⟩⟩
  obtain ⟨i, hi, rfl⟩ := List.mem_iff_getElem.mp hm
  obtain ⟨x, _, hx⟩ := hl.seg.get (List.getElem?_eq_getElem hi)
  rw [hx]; simp

/-- The property fails of replacing an entry by the object it holds (for example the object just read from it) when nobody else owns this
    object: it is freed before the list retains it. -/
theorem C103_replace_fails (hp : Fresh pick) {w : World P} (h : Reach zero pick gt w) {vs : List Obj} (hv : Holds w vs) {i : Nat} {x : Id}
    (hi : vs[i]? = some (some x)) (h1 : w.counts x = 1) : step zero pick gt w (.call (.replace i 1 [some x])) = none := by
  obtain ⟨as, xs, hl, hc, hn⟩ := reach_inv hp h
  have hvs := Inv.holds hl hv
  obtain ⟨hlt, hx⟩ := List.getElem?_eq_some_iff.mp hi
  have hlen := hl.seg.length
  have hlenx : xs.length = vs.length := by rw [hvs]; simp
  have hlog := removeRangeLog_eq (n := 1) hl hc (by omega : i + 1 ≤ as.length)
  rw [← hvs, List.drop_eq_getElem_cons hlt, hx] at hlog
  have e : logOf zero pick gt w.list (.replace i 1 [some x]) = [.release x, .retain x] := by
    show replaceLog _ _ _ _ = _
    unfold replaceLog
    have hcount := hl.count
    rw [if_pos (by unfold rangeOk; omega), show (1 : Int) = ((1 : Nat) : Int) by rfl, hlog]
    rfl
  simp only [step, e, replay, happens, h1, Nat.one_ne_zero, if_false, Option.bind_some, setCount_apply, if_true, Nat.sub_self, Option.bind_none]

/-- A list that is the only owner of an object, as the hypotheses of the theorem above ask for. -/
theorem sole_owner (hp : Fresh pick) (zero : P) (gt : P → P → Bool) :
    ∃ w : World P, Reach zero pick gt w ∧ Holds w [some 7] ∧ w.counts 7 = 1 ∧ w.client 7 = 0 := by
  have r1 : Reach zero pick gt { (start : World P) with counts := setCount (fun _ => 0) 7 1, client := setCount (fun _ => 0) 7 1 } :=
    .step (op := .create 7) .start rfl rfl
  obtain ⟨w, s, hw, hcl, hcn⟩ := C103_replace hp r1 (vs := []) (iterate_spec init_links) (i := 0) (n := 0) (Nat.le_refl 0) (by decide) [some 7]
    (fun x hx => Or.inl (by cases List.mem_singleton.mp hx; exact Nat.one_ne_zero))
  have hlegal : Legal { (start : World P) with counts := setCount (fun _ => 0) 7 1, client := setCount (fun _ => 0) 7 1 }
      (.call (.replace ((0 : Nat) : Int) ((0 : Nat) : Int) [some 7])) :=
    ⟨by decide, fun _ _ _ x hx => Or.inl (by cases List.mem_singleton.mp hx; exact Nat.one_ne_zero)⟩
  have r2 := Reach.step r1 hlegal s
  have c7 : w.client 7 = 1 := by rw [hcl]; rfl
  have n7 : w.counts 7 = 2 := by have := hcn 7; simpa [setCount] using this
  have hl2 : Legal w (.release 7) := by show w.client 7 ≠ 0; omega
  have s3 : step zero pick gt w (.release 7) = some { w with counts := setCount w.counts 7 1, client := setCount w.client 7 0 } := by
    simp only [step, happens, n7, c7]; rfl
  exact ⟨_, .step r2 hl2 s3, hw, rfl, rfl⟩

end

/-- An allocator. -/
noncomputable def someFresh (_ : Nat) (h : Heap Obj Nat) : Nat := by
  classical exact if e : ∃ p, h p = none then e.choose else 0

theorem someFresh_ok : Fresh someFresh := by
  intro n h live hl
  have hex : ∃ p, h p = none := by
    refine ⟨live.foldr max 0 + 1, ?_⟩
    refine Classical.byContradiction fun hne => ?_
    have := hl _ hne
    have hle : ∀ (L : List Nat) x, x ∈ L → x ≤ L.foldr max 0 := by
      intro L
      induction L with
      | nil => intro x hx; cases hx
      | cons y L ih =>
        intro x hx
        rcases List.mem_cons.mp hx with rfl | hx
        · exact Nat.le_max_left _ _
        · exact Nat.le_trans (ih x hx) (Nat.le_max_right _ _)
    have := hle _ _ this
    omega
  unfold someFresh
  rw [dif_pos hex]
  exact hex.choose_spec

/-- The hypotheses of the theorems are met: a list owning one object, that may be given up, that is replaced, and of which the replacement
    by itself fails. -/
example : ∃ w : World Nat, Reach 0 someFresh (fun a b => decide (a > b)) w ∧ Holds w [some 7] ∧ Legal w .drop ∧
    Legal w (.call (.insertPriority (some 7) 3 .always)) ∧
    step 0 someFresh (fun a b => decide (a > b)) w (.call (.replace (0 : Nat) 1 [some 7])) = none := by
  obtain ⟨w, h, hv, h1, _⟩ := sole_owner someFresh_ok 0 (fun a b => decide (a > b))
  refine ⟨w, h, hv, trivial, fun x e => ?_, C103_replace_fails someFresh_ok h hv rfl h1⟩
  cases e
  omega

/-- The same by computation, with an allocator that suits a list this short: an object is made, put in the list, given up by its user, moved
    to another priority; it is freed when the list goes. -/
example : ((step 0 (fun n (_ : Heap Obj Nat) => n) (fun a b => decide (a > b)) start (.create 7)).bind fun w =>
    (step 0 (fun n (_ : Heap Obj Nat) => n) (fun a b => decide (a > b)) w (.call (.replace 0 0 [some 7, none, some 7]))).bind fun w =>
    (step 0 (fun n (_ : Heap Obj Nat) => n) (fun a b => decide (a > b)) w (.release 7)).bind fun w =>
    (step 0 (fun n (_ : Heap Obj Nat) => n) (fun a b => decide (a > b)) w (.call (.insertPriority (some 7) 5 .always))).bind fun w =>
    (step 0 (fun n (_ : Heap Obj Nat) => n) (fun a b => decide (a > b)) w .drop).map fun w' =>
      (w.counts 7, iterate w.list, w'.counts 7)) = some (2, some [some 7, some 7, none], 0) := by rfl

end ListOwn
end Duck
