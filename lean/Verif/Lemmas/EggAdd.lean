import Verif.Lemmas.EggPut
/-! Lemmas about the egg archiver: AddObject records every object completely. -/
namespace Duck
namespace Egg
open Encoding (encode getType getCount getTypeSize getSize isNumber swapInt32 typeGetSize)

variable {ord : Order} {W : World} {R : Reader} {U : List Nat} {root : Option Nat} {sym0 : Bytes}

/-- What a call does to the object `idx`. -/
def PutRes (ord : Order) (W : World) (root : Option Nat) (sym0 : Bytes) (H : Nat → Prop) (idx : Nat) (s s' : Arch) (p : Put) : Prop :=
  ∃ oa, Inv W root sym0 H s' ∧ Ext (fun _ => False) (some idx) s s' ∧ Stored ord H s' p oa ∧ NewGood ord W H s s' ∧
    ∀ a, s.objs[idx]? = some a → s'.objs[idx]? = some { a with attrs := a.attrs ++ oa.toList }

/-- A call that first changes the state without touching `idx` and then adds an attribute. -/
theorem put_then_attr {H : Nat → Prop} {idx : Nat} {rest} {s s1 : Arch} {p : Put} {key : Bytes} {e : BitVec 32} {v : Nat} (hs : s.stack = idx :: rest)
    (hidx : idx < s.objs.length) (i1 : Inv W root sym0 H s1) (x1 : Ext (fun _ => False) none s s1) (g1 : NewGood ord W H s s1)
    (hst : ∀ s', Ext (fun _ => False) (some idx) s1 s' → s'.data = s1.data → s'.visited = s1.visited →
      Stored ord H s' p (some ⟨strhash32 key, e, BitVec.ofNat 32 v⟩)) :
    ∃ s', addAttr s1 key e v = some s' ∧ PutRes ord W root sym0 H idx s s' p := by
  have hidx1 : idx < s1.objs.length := Nat.lt_of_lt_of_le hidx x1.olen
  obtain ⟨s', e2, i2, x2, v2, d2, l2, a2⟩ := addAttr_ok (x1.stack.trans hs) hidx1 i1 key e v
  refine ⟨s', e2, some ⟨strhash32 key, e, BitVec.ofNat 32 v⟩, i2, (x1.mono (fun _ h => h) nofun).trans x2, hst s' x2 d2 v2, ?_, ?_⟩
  · exact NewGood.trans ord W (x := some idx) g1 (NewGood.of_eq ord W v2) (fun j hj => by cases hj; exact hidx) x1.olen x2 (fun _ hh => hh.elim)
  · intro a ha
    exact a2 a (x1.objs idx nofun a ha)

theorem idxOf_eq {s s' : Arch} (h : s'.visited = s.visited) (v : Option Nat) : idxOf s' v = idxOf s v := by
  cases v <;> simp [idxOf, h]

theorem known_eq {s s' : Arch} (h : s'.visited = s.visited) {os} (hk : Known s os) : Known s' os := by
  unfold Known; rw [h]; exact hk

theorem filterMap_some_map : ∀ (xs : List (Option Nat)), none ∉ xs → (xs.filterMap id).map some = xs
  | [], _ => rfl
  | none :: xs, h => absurd (by simp) h
  | some o :: xs, h => by
    have := filterMap_some_map xs (fun h' => h (by simp [h']))
    simpa using this

/-- Each call records what it is given, provided AddObject does. -/
theorem put_ok {add n} (ha : AdderOk ord W U root sym0 add n) {H : Nat → Prop} {idx rest} {s : Arch} (p : Put) (hs : s.stack = idx :: rest)
    (hidx : idx < s.objs.length) (hd : s.data ≠ []) (hi : Inv W root sym0 H s) (hu : unv U s ≤ n) (hp : PutOk R p) (ht : ∀ o ∈ p.targets, o ∈ U)
    (hav : Avoids root sym0 p) : ∃ s', put ord add s p = some s' ∧ PutRes ord W root sym0 H idx s s' p := by
  have h1 : s.objs ≠ [] := fun e => by rw [e] at hidx; simp at hidx
  have sym : ∀ n : Bytes, n.length + 1 < 2 ^ 24 → n ≠ sym0 → ∃ s1 c, addSymbol s n = some (s1, c) ∧ Inv W root sym0 H s1 ∧
      Ext (fun _ => False) none s s1 ∧ s1.visited = s.visited ∧ At H s1.data c (n ++ [0]) ∧ c > 0 := by
    intro n hn hne
    obtain ⟨s1, c, e1, i1, x1, v1, _, a1, z1, _⟩ := addSymbol_ok hi n hn (fun e => absurd e hd)
    exact ⟨s1, c, e1, i1, x1, v1, a1, Nat.pos_of_ne_zero fun e => hne (z1 e)⟩
  have enc : ∀ (e : BitVec 32) (b : Bytes) (k : Bytes), 0 < getTypeSize e → b.length = getTypeSize e * (getCount e).toNat →
      (∀ s' c, At H s'.data c b → c ≤ s'.data.length → c % getTypeSize e = 0 → Stored ord H s' p (some ⟨strhash32 k, e, BitVec.ofNat 32 c⟩)) →
      ∃ s', ((addEncoded s e b).bind fun r => addAttr r.1 k e r.2) = some s' ∧ PutRes ord W root sym0 H idx s s' p := by
    intro e b k h0 hl hst
    rw [addEncoded_eq s e b h0 hl]
    simp only [Option.bind_some]
    obtain ⟨z, hz⟩ := align_prefix s.data (getTypeSize e)
    have hc := align_length s.data (getTypeSize e) h0
    have hat : At H (align s.data (getTypeSize e) ++ b) (align s.data (getTypeSize e)).length b :=
      At.last H _ _ fun k hk => Nat.lt_of_lt_of_le (hi.holes k hk) hc.2
    refine put_then_attr (s1 := { s with data := align s.data (getTypeSize e) ++ b }) hs hidx ?_ ?_ (NewGood.of_eq ord W rfl) ?_
    · rw [hz, List.append_assoc]; exact inv_data hi _
    · rw [hz, List.append_assoc]; exact ext_data s _
    · intro s' _ d' _
      apply hst s' _ (by rw [d']; exact hat) (by rw [d']; simp) hc.1
  cases p with
  | object k r =>
    cases r with
    | none => exact ⟨s, rfl, none, hi, Ext.refl _ _ _, rfl, NewGood.refl ord W _ _, fun a h => by simpa using h⟩
    | some r =>
      cases r with
      | obj o =>
        obtain ⟨s1, i, e1, i1, x1, v1, g1⟩ := ha H s o hi h1 hd (ht o (by simp [Put.targets])) hu
        have kn := known_of i1 v1 (hav.1 o (by simp [Put.targets]))
        have ipos : i > 0 := by obtain ⟨i', h3, h4⟩ := kn o (by simp); rw [v1] at h3; cases h3; exact h4
        simp only [put, putObject, addRef, e1, Option.map_some, Option.bind_some, if_pos ipos]
        refine put_then_attr hs hidx i1 x1 g1 fun s' _ _ v' => ⟨known_eq v' kn, ?_⟩
        rw [idxOf_eq v']; simp [idxOf, v1]
      | cls n =>
        obtain ⟨s1, c, e1, i1, x1, v1, a1, cpos⟩ := sym n hp.2.2 (hav.2 k n (Or.inl rfl))
        simp only [put, putObject, addRef, e1, Option.map_some, Option.bind_some, if_pos cpos]
        exact put_then_attr hs hidx i1 x1 (NewGood.of_eq ord W v1) fun s' _ d' _ => ⟨c, by rw [d']; exact a1, rfl⟩
      | sel n =>
        obtain ⟨s1, c, e1, i1, x1, v1, a1, cpos⟩ := sym n hp.2.2 (hav.2 k n (Or.inr rfl))
        simp only [put, putObject, addRef, e1, Option.map_some, Option.bind_some, if_pos cpos]
        exact put_then_attr hs hidx i1 x1 (NewGood.of_eq ord W v1) fun s' _ d' _ => ⟨c, by rw [d']; exact a1, rfl⟩
  | coll k xs =>
    have one : encode tObject (BitVec.ofNat 32 1) = encode tObject 1 := rfl
    match xs, hp, ht, hav with
    | [], _, _, _ =>
      exact ⟨s, rfl, none, hi, Ext.refl _ _ _, ⟨fun o ho => by simp at ho, Or.inl ⟨rfl, rfl⟩⟩, NewGood.refl ord W _ _, fun a h => by simpa using h⟩
    | [none], _, _, _ =>
      simp only [put, putColl, one]
      exact put_then_attr hs hidx hi (Ext.refl _ _ _) (NewGood.refl ord W _ _) fun s' _ _ _ =>
        ⟨fun o ho => by simp at ho, Or.inr (Or.inl ⟨none, rfl, rfl⟩)⟩
    | [some o], _, ht, hav =>
      obtain ⟨s1, i, e1, i1, x1, v1, g1⟩ := ha H s o hi h1 hd (ht o (by simp [Put.targets])) hu
      have kn := known_of i1 v1 (hav.1 o (by simp [Put.targets]))
      simp only [put, putColl, e1, Option.bind_some, one]
      refine put_then_attr hs hidx i1 x1 g1 fun s' _ _ v' => ⟨known_eq v' kn, Or.inr (Or.inl ⟨some o, rfl, ?_⟩)⟩
      rw [idxOf_eq v']; simp [idxOf, v1]
    | x :: y :: xs, hp, ht, hav =>
      have hl : 2 ≤ (x :: y :: xs).length := by simp
      have hnn := filterMap_some_map (x :: y :: xs) (hp.2 hl)
      revert hl hnn hp ht hav
      have hput : put ord add s (.coll k (x :: y :: xs)) = (collLoop ord add (align s.data 4).length (x :: y :: xs)
          { s with data := align s.data 4 ++ List.replicate (4 * (x :: y :: xs).length) 0 } 0).bind fun s' =>
          addAttr s' k (encode tObject (BitVec.ofNat 32 (x :: y :: xs).length)) (align s.data 4).length := by
        simp only [put]; rw [putColl] <;> simp
      rw [hput]; clear hput
      generalize x :: y :: xs = ys
      intro hp ht hav hl hnn
      obtain ⟨z, hz⟩ := align_prefix s.data 4
      rw [hz]
      have hi2 := hi.reserve W z (4 * ys.length)
      have x2 : Ext (fun _ => False) none s { s with data := s.data ++ z ++ List.replicate (4 * ys.length) 0 } := by
        rw [List.append_assoc]; exact ext_data s _
      have nn := x2.ne_nil h1 hd
      have hlen : (s.data ++ z).length = s.data.length + z.length := List.length_append
      obtain ⟨s1, e1, i1, x1, g1, k1, a1⟩ := collLoop_ok ha (s.data ++ z).length (ys.filterMap id) _ 0 hi2 nn.1 nn.2
        (fun o ho => ⟨ht o (by simpa [Put.targets] using ho), hav.1 o (by simpa [Put.targets] using ho)⟩)
        (Nat.le_trans (unv_le U x2) hu)
        (fun j h h' => Or.inr ⟨by omega, by have h'' : (ys.filterMap id).length = ys.length := by rw [← List.length_map (f := some), hnn]
                                            omega⟩)
      rw [hnn] at e1
      rw [e1]; simp only [Option.bind_some]
      have hcount : (ys.filterMap id).length = ys.length := by rw [← List.length_map (f := some), hnn]
      have x3 : Ext (fun _ => False) none s s1 := by
        refine ⟨?_, Nat.le_trans x2.dlen x1.dlen, fun j hj a h => x1.objs j hj a (x2.objs j hj a h), Nat.le_trans x2.olen x1.olen,
          fun o i h => x1.visited o i (x2.visited o i h), fun m c h => x1.syms m c (x2.syms m c h), x1.stack.trans x2.stack, x1.rootless.trans x2.rootless⟩
        intro j b _ hb
        have hj := (List.getElem?_eq_some_iff.mp hb).1
        exact x1.data j b (by omega) (x2.data j b id hb)
      refine put_then_attr hs hidx (i1.weaken W (fun _ h => Or.inl h)) x3 ((NewGood.weaken ord W g1 (fun _ h => Or.inl h)) : NewGood ord W H s s1) ?_
      intro s' _ d' v'
      refine ⟨known_eq v' k1, Or.inr (Or.inr ⟨hl, (s.data ++ z).length, ?_, ?_, rfl⟩)⟩
      · rw [d']
        have he : ys.map (idxOf s') = (ys.filterMap id).map fun o => idxOf s1 (some o) := by
          rw [← hnn, List.map_map, List.filterMap_map]
          simp only [Function.comp_def, id]
          rw [List.filterMap_some]
          exact List.map_congr_left fun o _ => idxOf_eq v' _
        rw [he]
        intro j b hb
        refine ⟨(a1 j b hb).1, fun hh => ?_⟩
        have := hi.holes _ hh
        omega
      · rw [d']
        have := x1.dlen
        simp only [List.length_append] at this ⊢
        omega
  | keyed k ps =>
    simp only [put, putKeyed]
    obtain ⟨z, hz⟩ := align_prefix s.data 4
    rw [hz]
    have hi2 := hi.reserve W z (8 * ps.length)
    have x2 : Ext (fun _ => False) none s { s with data := s.data ++ z ++ List.replicate (8 * ps.length) 0 } := by
      rw [List.append_assoc]; exact ext_data s _
    have nn := x2.ne_nil h1 hd
    have hlen : (s.data ++ z).length = s.data.length + z.length := List.length_append
    obtain ⟨s1, e1, i1, x1, g1, k1, a1⟩ := keyedLoop_ok ha (s.data ++ z).length ps _ 0 hi2 nn.1 nn.2
      (fun p hp o ho => ⟨ht o (List.mem_flatMap.mpr ⟨p, hp, ho⟩), hav.1 o (List.mem_flatMap.mpr ⟨p, hp, ho⟩)⟩)
      (Nat.le_trans (unv_le U x2) hu) (fun j h h' => Or.inr ⟨by omega, by omega⟩)
    rw [e1]; simp only [Option.bind_some]
    have x3 : Ext (fun _ => False) none s s1 := by
      refine ⟨?_, Nat.le_trans x2.dlen x1.dlen, fun j hj a h => x1.objs j hj a (x2.objs j hj a h), Nat.le_trans x2.olen x1.olen,
        fun o i h => x1.visited o i (x2.visited o i h), fun m c h => x1.syms m c (x2.syms m c h), x1.stack.trans x2.stack, x1.rootless.trans x2.rootless⟩
      intro j b _ hb
      have hj := (List.getElem?_eq_some_iff.mp hb).1
      exact x1.data j b (by omega) (x2.data j b id hb)
    refine put_then_attr hs hidx (i1.weaken W (fun _ h => Or.inl h)) x3 ((NewGood.weaken ord W g1 (fun _ h => Or.inl h)) : NewGood ord W H s s1) ?_
    intro s' _ d' v'
    refine ⟨known_eq v' k1, (s.data ++ z).length, ?_, ?_, rfl⟩
    · rw [d']
      have he : (ps.flatMap fun p => [idxOf s' (some p.1), idxOf s' p.2]) = ps.flatMap fun p => [idxOf s1 (some p.1), idxOf s1 p.2] := by
        simp only [idxOf_eq v']
      rw [he]
      intro j b hb
      refine ⟨(a1 j b hb).1, fun hh => ?_⟩
      have := hi.holes _ hh
      omega
    · rw [d']
      have := x1.dlen
      simp only [List.length_append] at this ⊢
      omega
  | text k t =>
    simp only [PutOk] at hp
    simp only [put, putText]
    rw [if_neg (by omega)]
    exact enc _ (t ++ [0]) k (by rw [textSize _ hp]; omega) (by rw [textSize _ hp, (encode_facts tText _ (by decide) hp).2]; simp)
      fun s' c h1 h2 _ => ⟨c, h1, h2, rfl⟩
  | binary k b =>
    simp only [PutOk] at hp
    simp only [put, putBinary]
    rw [if_neg (by omega)]
    exact enc _ b k (by rw [binarySize _ hp]; omega) (by rw [binarySize _ hp, (encode_facts tBinary _ (by decide) hp).2]; simp)
      fun s' c h1 h2 _ => ⟨c, h1, h2, rfl⟩
  | number k e b =>
    simp only [put, putNumber]
    exact enc e b k (by have := hp.2.1; simp only [List.mem_cons, List.not_mem_nil, or_false] at this; omega) hp.2.2
      fun s' c h1 h2 h3 => ⟨c, h1, h2, h3, rfl⟩

/-- The calls of an `addToEgg` method record what they are given. -/
theorem putAll_ok {add n} (ha : AdderOk ord W U root sym0 add n) {H : Nat → Prop} {idx rest} : ∀ (ps : List Put) (s : Arch),
    s.stack = idx :: rest → idx < s.objs.length → s.data ≠ [] → Inv W root sym0 H s → unv U s ≤ n →
    (∀ p ∈ ps, PutOk R p ∧ (∀ o ∈ p.targets, o ∈ U) ∧ Avoids root sym0 p) →
    ∃ s' as, putAll ord add ps s = some s' ∧ Inv W root sym0 H s' ∧ Ext (fun _ => False) (some idx) s s' ∧ NewGood ord W H s s' ∧
      AttrsOf ord H s' ps as ∧ ∀ a, s.objs[idx]? = some a → s'.objs[idx]? = some { a with attrs := a.attrs ++ as }
  | [], s, _, _, _, hi, _, _ => ⟨s, [], rfl, hi, Ext.refl _ _ _, NewGood.refl ord W _ _, rfl, fun a h => by simpa using h⟩
  | p :: ps, s, hs, hidx, hd, hi, hu, hp => by
    obtain ⟨p1, p2, p3⟩ := hp p (by simp)
    obtain ⟨s1, e1, oa, i1, x1, st1, g1, a1⟩ := put_ok ha p hs hidx hd hi hu p1 p2 p3
    obtain ⟨s', as, e2, i2, x2, g2, at2, a2⟩ := putAll_ok ha ps s1 (x1.stack.trans hs) (Nat.lt_of_lt_of_le hidx x1.olen)
      (fun e => hd (by have := x1.dlen; rw [e] at this; exact List.eq_nil_of_length_eq_zero (Nat.le_zero.mp this)))
      i1 (Nat.le_trans (unv_le U x1) hu) (fun q hq => hp q (by simp [hq]))
    refine ⟨s', oa.toList ++ as, by rw [putAll, e1]; exact e2, i2, x1.trans x2, ?_, ⟨oa, as, st1.ext ord x2 (fun _ h => h.elim), at2, rfl⟩, ?_⟩
    · exact NewGood.trans ord W (x := some idx) g1 g2 (fun j hj => by cases hj; exact hidx) x1.olen x2 (fun _ h => h.elim)
    · intro a h
      have := a2 _ (a1 a h)
      simpa [List.append_assoc] using this

theorem unv_push {s : Arch} {o : Nat} (ho : o ∈ U) (h : s.visited.lookup o = none) (s' : Arch) (hv : ∀ x, (s'.visited.lookup x).isNone = (if x = o then false else (s.visited.lookup x).isNone)) :
    unv U s' + 1 ≤ unv U s := by
  unfold unv
  induction U with
  | nil => cases ho
  | cons x U ih =>
    simp only [List.filter_cons, hv x]
    have hle : ∀ V : List Nat, (V.filter fun x => (s'.visited.lookup x).isNone).length ≤ (V.filter fun x => (s.visited.lookup x).isNone).length := by
      intro V
      induction V with
      | nil => exact Nat.le_refl _
      | cons y V ihV =>
        simp only [List.filter_cons, hv y]
        by_cases hy : y = o
        · subst hy; rw [h]; simp; omega
        · rw [if_neg hy]
          split
          · simp only [List.length_cons]; omega
          · exact ihV
    by_cases hx : x = o
    · subst hx
      rw [h, if_pos rfl]
      simpa using hle U
    · have : o ∈ U := by
        rcases List.mem_cons.mp ho with e | e
        · exact absurd e.symm hx
        · exact e
      rw [if_neg hx]
      have := ih this
      split
      · simp only [List.length_cons]; omega
      · exact this

/-- AddObject, on any state where the object may be added: it and everything it refers to is recorded completely. -/
theorem addObject_step (hA : Archivable W R U) (hav : ∀ o ∈ U, ∀ p ∈ W.puts o, Avoids root sym0 p) {fuel : Nat}
    (ih : AdderOk ord W U root sym0 (addObject ord W fuel) fuel) {H : Nat → Prop} {s : Arch} {o : Nat} (hi : Inv W root sym0 H s) (ho : o ∈ U)
    (hu : unv U s ≤ fuel + 1) (hv : s.visited.lookup o = none) (h0 : s.objs = [] → root = some o) (hd : s.data = [] → W.cls o = sym0) :
    ∃ s' i, addObject ord W (fuel + 1) s o = some (s', some i) ∧ Inv W root sym0 H s' ∧ Ext (fun _ => False) none s s' ∧ s'.visited.lookup o = some i ∧
      NewGood ord W H s s' := by
  have hc := hA.cls o ho
  obtain ⟨s1, c, e1, i1, x1, v1, o1, a1, _, d1⟩ := addSymbol_ok hi (W.cls o) hc.2.2.2 hd
  unfold addObject
  rw [hA.egg o ho, hv]
  simp only [Bool.true_eq_false, if_false, e1, Option.bind_some]
  generalize hs2 : ({ s1 with objs := s1.objs ++ [⟨BitVec.ofNat 32 c, []⟩], visited := (o, s.objs.length) :: s1.visited, stack := s.objs.length :: s1.stack } : Arch) = s2
  have hv2 : ∀ x, s2.visited.lookup x = if x = o then some s.objs.length else s.visited.lookup x := by
    intro x; rw [← hs2]; simp only [lookup_cons, v1]
  have hlen2 : s2.objs.length = s.objs.length + 1 := by rw [← hs2]; simp [o1]
  have hold : ∀ (j : Nat) a, s.objs[j]? = some a → s2.objs[j]? = some a := by
    intro j a h; rw [← hs2]; simp only; rw [o1]; exact getElem?_append_some h
  have hnew : s2.objs[s.objs.length]? = some ⟨BitVec.ofNat 32 c, []⟩ := by
    rw [← hs2]; simp only; rw [o1, List.getElem?_append_right (Nat.le_refl _)]; simp
  have hd2 : s2.data = s1.data := by rw [← hs2]
  have hlt : ∀ x i, s.visited.lookup x = some i → i < s.objs.length := fun x i h => by
    obtain ⟨a, _, h1, _⟩ := hi.cls x i h; exact (List.getElem?_eq_some_iff.mp h1).1
  have i2 : Inv W root sym0 H s2 := by
    refine ⟨by rw [hd2]; exact i1.holes, by rw [hd2, ← hs2]; exact i1.syms, ?_, ?_, ?_⟩
    · intro x i h
      rw [hv2] at h
      split at h
      · cases h; subst_vars
        exact ⟨_, c, hnew, rfl, a1⟩
      · rw [← v1] at h
        obtain ⟨a, c', h1, h2, h3⟩ := i1.cls x i h
        rw [o1] at h1
        exact ⟨a, c', hold i a h1, h2, by rw [hd2]; exact h3⟩
    · intro x y i hx hy
      rw [hv2] at hx hy
      split at hx <;> split at hy
      · subst_vars; rfl
      · cases hx; exact absurd (hlt y _ hy) (by omega)
      · cases hy; exact absurd (hlt x _ hx) (by omega)
      · exact hi.inj x y i hx hy
    · intro x h
      rw [hv2] at h
      split at h
      · subst_vars; exact h0 (List.eq_nil_of_length_eq_zero (by injection h))
      · exact hi.zero x h
  have x2 : unv U s2 ≤ fuel := by
    have := unv_push ho hv s2 (fun x => by rw [hv2]; split <;> rfl)
    omega
  obtain ⟨s3, as, e3, i3, x3, g3, at3, a3⟩ := putAll_ok (R := R) (idx := s.objs.length) (rest := s1.stack) ih (W.puts o) s2 (by rw [← hs2]) (by omega)
    (by rw [hd2]; exact d1) i2 x2 (fun p hp => ⟨hA.puts o ho p hp, hA.closed o ho p hp, hav o ho p hp⟩)
  rw [e3]
  have hs3 : s3.stack.tail = s.stack := by rw [x3.stack, ← hs2]; exact x1.stack
  have x4 : Ext (fun _ => False) none s { s3 with stack := s3.stack.tail } := by
    refine ⟨fun k b hk h => x3.data k b hk (by rw [hd2]; exact x1.data k b hk h), Nat.le_trans x1.dlen (by rw [← hd2]; exact x3.dlen), ?_,
      Nat.le_trans (by omega) x3.olen, ?_, ?_, hs3, x3.rootless.trans ((by rw [← hs2] : s2.rootless = s1.rootless).trans x1.rootless)⟩
    · intro j _ a h
      have := (List.getElem?_eq_some_iff.mp h).1
      exact x3.objs j (fun e => by injection e with e; omega) a (hold j a h)
    · intro x i h
      apply x3.visited
      rw [hv2, if_neg (fun e => by rw [e, hv] at h; cases h)]; exact h
    · intro n c' h
      apply x3.syms
      rw [← hs2]; exact x1.syms n c' h
  refine ⟨_, _, rfl, ⟨i3.holes, i3.syms, i3.cls, i3.inj, i3.zero⟩, x4, x3.visited o _ (by rw [hv2, if_pos rfl]), ?_⟩
  intro x i h hn
  by_cases hx : x = o
  · subst hx
    have h5 := x3.visited x _ (by rw [hv2, if_pos rfl])
    simp only at h
    rw [h5] at h; cases h
    refine ⟨⟨_, a3 _ hnew, ?_⟩, Nat.le_refl _⟩
    simp only [List.nil_append]
    exact stack_irrelevant at3
  · have h6 : s2.visited.lookup x = none := by rw [hv2, if_neg hx]; exact hn
    obtain ⟨⟨a, h7, h8⟩, h9⟩ := g3 x i h h6
    exact ⟨⟨a, h7, stack_irrelevant h8⟩, by omega⟩
where
  stack_irrelevant {H : Nat → Prop} {s : Arch} {st : List Nat} : ∀ {ps as}, AttrsOf ord H s ps as → AttrsOf ord H { s with stack := st } ps as
    | [], _, h => h
    | p :: _, _, ⟨a, as', h1, h2, h3⟩ => ⟨a, as', by
        match p, h1 with
        | .object _ none, h => exact h
        | .object _ (some (.obj _)), h => exact h
        | .object _ (some (.cls _)), h => exact h
        | .object _ (some (.sel _)), h => exact h
        | .coll _ _, h => exact h
        | .keyed _ _, h => exact h
        | .text _ _, h => exact h
        | .binary _ _, h => exact h
        | .number _ _ _, h => exact h, stack_irrelevant h2, h3⟩

/-- AddObject records every object it meets, for every depth. -/
theorem addObject_ok (hA : Archivable W R U) (hav : ∀ o ∈ U, ∀ p ∈ W.puts o, Avoids root sym0 p) :
    ∀ fuel, AdderOk ord W U root sym0 (addObject ord W fuel) fuel := by
  intro fuel
  have seen : ∀ fuel H s o, Inv W root sym0 H s → o ∈ U → s.visited.lookup o ≠ none → ∃ s' i, addObject ord W fuel s o = some (s', some i) ∧
      Inv W root sym0 H s' ∧ Ext (fun _ => False) none s s' ∧ s'.visited.lookup o = some i ∧ NewGood ord W H s s' := by
    intro fuel H s o hi ho hv
    cases h : s.visited.lookup o with
    | none => exact absurd h hv
    | some i =>
      refine ⟨s, i, ?_, hi, Ext.refl _ _ _, h, NewGood.refl ord W _ _⟩
      rw [addObject.eq_def, hA.egg o ho, h]; rfl
  induction fuel with
  | zero =>
    intro H s o hi _ _ ho hu
    refine seen 0 H s o hi ho fun h => ?_
    have : o ∈ U.filter fun o => (s.visited.lookup o).isNone := List.mem_filter.mpr ⟨ho, by rw [h]; rfl⟩
    have := List.length_pos_of_mem this
    unfold unv at hu; omega
  | succ fuel ih =>
    intro H s o hi h1 h2 ho hu
    cases h : s.visited.lookup o with
    | some i => exact seen _ H s o hi ho (by rw [h]; nofun)
    | none => exact addObject_step hA hav ih hi ho hu h (fun e => absurd e h1) (fun e => absurd e h2)

end Egg
end Duck
