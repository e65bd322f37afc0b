import Verif.Lemmas.EggFile
import Verif.Lemmas.EggPut
/-! Lemmas about the egg unarchiver: every object read is a copy of the object that was recorded. -/
namespace Duck
namespace Egg
open Encoding (encode getType getCount getTypeSize getSize isNumber swapInt32 typeGetSize)

variable {W : World} {R : Reader} {U : List Nat} {w r : Order} {u : Un} {s : Arch}

/-- The new object for `o`. -/
def psi (s : Arch) (st : USt) (o : Nat) : Option Nat := (s.visited.lookup o).bind fun i => (st.memo[i]?).bind id

theorem psi_eq {st : USt} {o i : Nat} (h : s.visited.lookup o = some i) {id : Nat} : psi s st o = some id ↔ st.memo[i]? = some (some id) := by
  unfold psi; rw [h, Option.bind_some]
  cases st.memo[i]? with
  | none => simp
  | some x => simp

theorem psi_some {st : USt} {o id : Nat} (h : psi s st o = some id) : ∃ i, s.visited.lookup o = some i ∧ st.memo[i]? = some (some id) := by
  cases hl : s.visited.lookup o with
  | none => unfold psi at h; rw [hl] at h; cases h
  | some i => exact ⟨i, rfl, (psi_eq hl).mp h⟩

structure UInv (s : Arch) (st : USt) : Prop where
  len : st.memo.length = s.objs.length
  lt : ∀ (i : Nat) id, st.memo[i]? = some (some id) → id < st.next
  inj : ∀ (i j : Nat) id, st.memo[i]? = some (some id) → st.memo[j]? = some (some id) → i = j
  heap : ∀ e ∈ st.heap, ∃ o, psi s st o = some e.1

structure UExt (st st' : USt) : Prop where
  memo : ∀ (i : Nat) id, st.memo[i]? = some (some id) → st'.memo[i]? = some (some id)
  next : st.next ≤ st'.next
  heap : ∀ id v, st.heap.lookup id = some v → st'.heap.lookup id = some v
  stack : st'.stack = st.stack

theorem UExt.refl (st) : UExt st st := ⟨fun _ _ h => h, Nat.le_refl _, fun _ _ h => h, rfl⟩

theorem UExt.trans {a b c} (h : UExt a b) (g : UExt b c) : UExt a c :=
  ⟨fun i id hi => g.memo i id (h.memo i id hi), Nat.le_trans h.next g.next, fun i v hi => g.heap i v (h.heap i v hi), g.stack.trans h.stack⟩

theorem psi_ext {st st' : USt} (hm : ∀ (i : Nat) id, st.memo[i]? = some (some id) → st'.memo[i]? = some (some id)) {o id : Nat} (h : psi s st o = some id) :
    psi s st' o = some id := by
  obtain ⟨i, h1, h2⟩ := psi_some h
  exact (psi_eq h1).mpr (hm i id h2)

theorem Matches.mono {ψ ψ' : Nat → Option Nat} (h : ∀ o id, ψ o = some id → ψ' o = some id) {p : Put} {v : Got} (hm : Matches w r ψ p v) :
    Matches w r ψ' p v := by
  have hs : ∀ o, (ψ o).isSome → ψ' o = ψ o := fun o ho => by
    obtain ⟨id, e⟩ := Option.isSome_iff_exists.mp ho; rw [e, h o id e]
  match p, hm with
  | .object _ none, hm => exact hm
  | .object _ (some (.obj o)), ⟨id, h1, h2⟩ => exact ⟨id, h o id h1, h2⟩
  | .object _ (some (.cls _)), hm => exact hm
  | .object _ (some (.sel _)), hm => exact hm
  | .coll _ xs, ⟨h1, h2⟩ =>
    refine ⟨?_, fun o ho => by rw [hs o (h2 o ho)]; exact h2 o ho⟩
    rw [h1]; congr 1
    apply List.map_congr_left
    intro x hx
    cases x with
    | none => rfl
    | some o => simp only [Option.bind_some]; exact (hs o (h2 o hx)).symm
  | .keyed _ ps, ⟨ys, h1, h2, h3⟩ =>
    refine ⟨ys, h1, ?_, fun k o ho => by rw [hs o (h3 k o ho)]; exact h3 k o ho⟩
    rw [h2]
    apply List.map_congr_left
    intro p hp
    have hk : (ψ p.1).isSome := by
      have hm : (ψ p.1, p.2.bind ψ) ∈ ys.map (fun y => (some y.1, y.2)) := by rw [h2]; exact List.mem_map_of_mem hp
      obtain ⟨y, _, hy⟩ := List.mem_map.mp hm
      have h' : some y.1 = ψ p.1 := congrArg Prod.fst hy
      rw [← h']; rfl
    rw [hs _ hk]
    congr 1
    obtain ⟨k, x⟩ := p
    cases x with
    | none => rfl
    | some o => simp only [Option.bind_some]; exact (hs o (h3 k o hp)).symm
  | .text _ _, hm => exact hm
  | .binary _ _, hm => exact hm
  | .number _ _ _, hm => exact hm

theorem ReadsBack.mono {ψ ψ' : Nat → Option Nat} (h : ∀ o id, ψ o = some id → ψ' o = some id) {ps g v} (hm : ReadsBack w r ψ ps g v) :
    ReadsBack w r ψ' ps g v := by
  rcases hm with ⟨p, h1, h2, h3, h4⟩ | hm
  · exact Or.inl ⟨p, h1, h2, h3, h4.mono h⟩
  · exact Or.inr hm

theorem IsCopy.ext {ψ ψ' : Nat → Option Nat} {st st' : USt} (h : ∀ o id, ψ o = some id → ψ' o = some id) {o i : Nat}
    (hh : ∀ v, st.heap.lookup i = some v → st'.heap.lookup i = some v) (hc : IsCopy W R w r ψ st o i) : IsCopy W R w r ψ' st' o i :=
  let ⟨gots, h1, h2, h3⟩ := hc
  ⟨gots, hh _ h1, h2, fun k g v hg hv => (h3 k g v hg hv).mono h⟩

/-- The objects read between two states are copies. -/
def NewCopies (W : World) (R : Reader) (w r : Order) (s : Arch) (st st' : USt) : Prop :=
  ∀ o i id, s.visited.lookup o = some i → st'.memo[i]? = some (some id) → st.memo[i]? = some none → IsCopy W R w r (psi s st') st' o id ∧ st.next ≤ id

theorem NewCopies.refl (st) : NewCopies W R w r s st st := fun o i id _ h1 h2 => by rw [h1] at h2; cases h2

theorem NewCopies.trans {a b c : USt} (hb : UInv s b) (ha : UInv s a) (h : NewCopies W R w r s a b) (g : NewCopies W R w r s b c) (e1 : UExt a b) (e : UExt b c) :
    NewCopies W R w r s a c := by
  intro o i id h1 h2 h3
  have hi : i < a.memo.length := (List.getElem?_eq_some_iff.mp h3).1
  have hi' : i < b.memo.length := by rw [hb.len, ← ha.len]; exact hi
  have hb' : b.memo[i]? = some b.memo[i] := List.getElem?_eq_getElem hi'
  cases hx : b.memo[i] with
  | none =>
    rw [hx] at hb'
    have := g o i id h1 h2 hb'
    exact ⟨this.1, Nat.le_trans e1.next this.2⟩
  | some id' =>
    rw [hx] at hb'
    have h4 := e.memo i id' hb'
    rw [h2] at h4; cases h4
    have := h o i id h1 hb' h3
    exact ⟨this.1.ext (fun o id h => psi_ext e.memo h) (fun v => e.heap id v), this.2⟩

/-- Objects of `U` not read yet. -/
def unread (s : Arch) (U : List Nat) (st : USt) : Nat := (U.filter fun o => (psi s st o).isNone).length

theorem filter_le {α : Type} (p q : α → Bool) (h : ∀ x, q x = true → p x = true) : ∀ l : List α, (l.filter q).length ≤ (l.filter p).length
  | [] => Nat.le_refl _
  | a :: l => by
    have := filter_le p q h l
    rw [List.filter_cons, List.filter_cons]
    cases hq : q a with
    | true => rw [h a hq]; simp only [if_true, List.length_cons]; omega
    | false => cases p a <;> simp only [if_true, Bool.false_eq_true, if_false, List.length_cons] <;> omega

theorem filter_lt {α : Type} (p q : α → Bool) (h : ∀ x, q x = true → p x = true) (o : α) (hp : p o = true) (hq : q o = false) :
    ∀ l : List α, o ∈ l → (l.filter q).length < (l.filter p).length
  | a :: l, ho => by
    rw [List.filter_cons, List.filter_cons]
    rcases List.mem_cons.mp ho with e | ho'
    · subst e; rw [hp, hq]; have := filter_le p q h l; simp; omega
    · have := filter_lt p q h o hp hq l ho'
      cases hqa : q a with
      | true => rw [h a hqa]; simp only [if_true, List.length_cons]; omega
      | false => cases p a <;> simp only [if_true, Bool.false_eq_true, if_false, List.length_cons] <;> omega

theorem unread_le {st st' : USt} (h : UExt st st') : unread s U st' ≤ unread s U st := by
  refine filter_le _ _ (fun o ho => ?_) U
  cases hp : psi s st o with
  | none => rfl
  | some id => rw [psi_ext h.memo hp] at ho; cases ho

/-- DKEggUnarchiverGetObject on states with at most `n` objects left to read. -/
def GetterOk (W : World) (R : Reader) (U : List Nat) (w r : Order) (s : Arch) (g : Getter) (n : Nat) : Prop :=
  ∀ st o i, UInv s st → o ∈ U → s.visited.lookup o = some i → unread s U st ≤ n →
    ∃ st' id, g st i = some (st', some id) ∧ UInv s st' ∧ UExt st st' ∧ psi s st' o = some id ∧ NewCopies W R w r s st st'

/-- One step of reading: what the state becomes. -/
def Step (W : World) (R : Reader) (w r : Order) (s : Arch) (st st' : USt) : Prop := UInv s st' ∧ UExt st st' ∧ NewCopies W R w r s st st'

theorem Step.refl {st : USt} (h : UInv s st) : Step W R w r s st st := ⟨h, UExt.refl _, NewCopies.refl _⟩

theorem Step.trans {a b c : USt} (ha : UInv s a) (h : Step W R w r s a b) (g : Step W R w r s b c) : Step W R w r s a c :=
  ⟨g.1, h.2.1.trans g.2.1, NewCopies.trans h.1 ha h.2.2 g.2.2 h.2.1 g.2.1⟩

theorem getOne_ok {g : Getter} {n : Nat} (hg : GetterOk W R U w r s g n) {st : USt} (hi : UInv s st) (hu : unread s U st ≤ n) (x : Option Nat)
    (hx : ∀ o, x = some o → o ∈ U ∧ ∃ i, s.visited.lookup o = some i ∧ 0 < i) :
    ∃ st', getOne g st (idxOf s x) = some (st', x.bind (psi s st')) ∧ Step W R w r s st st' ∧ ∀ o, x = some o → (psi s st' o).isSome := by
  cases x with
  | none => exact ⟨st, rfl, Step.refl hi, nofun⟩
  | some o =>
    obtain ⟨h1, i, h2, h3⟩ := hx o rfl
    obtain ⟨st', id, e1, i1, x1, p1, c1⟩ := hg st o i hi h1 h2 hu
    refine ⟨st', ?_, ⟨i1, x1, c1⟩, fun o' e => by cases e; rw [p1]; rfl⟩
    simp only [getOne, idxOf, h2, Option.getD_some, if_pos h3, e1, Option.bind_some, p1]

theorem psi_keep {st st' : USt} (h : UExt st st') {o : Nat} (ho : (psi s st o).isSome) : psi s st' o = psi s st o := by
  obtain ⟨id, e⟩ := Option.isSome_iff_exists.mp ho
  rw [e, psi_ext h.memo e]

theorem getAllObjects_ok {g : Getter} {n : Nat} (hg : GetterOk W R U w r s g n) : ∀ (xs : List (Option Nat)) (st : USt), UInv s st → unread s U st ≤ n →
    (∀ o, some o ∈ xs → o ∈ U ∧ ∃ i, s.visited.lookup o = some i ∧ 0 < i) →
    ∃ st', getAllObjects g (xs.map (idxOf s)) st = some (st', xs.map (·.bind (psi s st'))) ∧ Step W R w r s st st' ∧
      ∀ o, some o ∈ xs → (psi s st' o).isSome
  | [], st, hi, _, _ => ⟨st, rfl, Step.refl hi, nofun⟩
  | x :: xs, st, hi, hu, hx => by
    obtain ⟨st1, e1, s1, p1⟩ := getOne_ok hg hi hu x (fun o e => hx o (by simp [e]))
    obtain ⟨st2, e2, s2, p2⟩ := getAllObjects_ok hg xs st1 s1.1 (Nat.le_trans (unread_le s1.2.1) hu) (fun o ho => hx o (by simp [ho]))
    refine ⟨st2, ?_, s1.trans hi s2, ?_⟩
    · rw [List.map_cons, getAllObjects, e1, Option.bind_some, e2, Option.map_some, List.map_cons]
      congr 3
      cases x with
      | none => rfl
      | some o => simp only [Option.bind_some]; exact (psi_keep s2.2.1 (p1 o rfl)).symm
    · intro o ho
      rcases List.mem_cons.mp ho with e | ho
      · rw [psi_keep s2.2.1 (p1 o e.symm)]; exact p1 o e.symm
      · exact p2 o ho

theorem getAllPairs_ok {g : Getter} {n : Nat} (hg : GetterOk W R U w r s g n) : ∀ (ps : List (Nat × Option Nat)) (st : USt), UInv s st → unread s U st ≤ n →
    (∀ p ∈ ps, ∀ o ∈ p.1 :: p.2.toList, o ∈ U ∧ ∃ i, s.visited.lookup o = some i ∧ 0 < i) →
    ∃ st' ys, getAllPairs g (ps.flatMap fun p => [idxOf s (some p.1), idxOf s p.2]) st = some (st', ys) ∧ Step W R w r s st st' ∧
      ys.map (fun y => (some y.1, y.2)) = ps.map (fun p => (psi s st' p.1, p.2.bind (psi s st'))) ∧ ∀ k o, (k, some o) ∈ ps → (psi s st' o).isSome
  | [], st, hi, _, _ => ⟨st, [], rfl, Step.refl hi, rfl, nofun⟩
  | (k, x) :: ps, st, hi, hu, hx => by
    obtain ⟨hk, i, hki, _⟩ := hx (k, x) (by simp) k (by simp)
    obtain ⟨st0, id, e0, i0, x0, p0, c0⟩ := hg st k i hi hk hki hu
    have s0 : Step W R w r s st st0 := ⟨i0, x0, c0⟩
    obtain ⟨st1, e1, s1, p1⟩ := getOne_ok hg i0 (Nat.le_trans (unread_le x0) hu) x (fun o e => hx (k, x) (by simp) o (by simp [e]))
    have s01 := s0.trans hi s1
    obtain ⟨st2, ys, e2, s2, p2, q2⟩ := getAllPairs_ok hg ps st1 s1.1 (Nat.le_trans (unread_le s01.2.1) hu) (fun p hp => hx p (by simp [hp]))
    have hid : psi s st2 k = some id := psi_ext (s1.2.1.trans s2.2.1).memo p0
    have hx2 : x.bind (psi s st2) = x.bind (psi s st1) := by
      cases x with
      | none => rfl
      | some o => simp only [Option.bind_some]; exact psi_keep s2.2.1 (p1 o rfl)
    refine ⟨st2, (id, x.bind (psi s st1)) :: ys, ?_, s01.trans hi s2, ?_, ?_⟩
    · have e0' : g st (idxOf s (some k)) = some (st0, some id) := by simp only [idxOf, hki, Option.getD_some]; exact e0
      rw [List.flatMap_cons]
      simp only [List.cons_append, List.nil_append, getAllPairs, e0', Option.bind_some, e1, e2, Option.map_some]
    · simp only [List.map_cons, p2, hid, hx2]
    · intro k' o ho
      rcases List.mem_cons.mp ho with e | ho
      · cases e; rw [psi_keep s2.2.1 (p1 o rfl)]; exact p1 o rfl
      · exact q2 k' o ho

/-! ### Data -/

theorem cstr_ok : ∀ (n t : Bytes), 0 ∉ n → cstr (n ++ 0 :: t) = some n
  | [], t, _ => by simp [cstr]
  | b :: n, t, h => by
    have hb : b ≠ 0 := fun e => h (by simp [e])
    rw [List.cons_append, cstr, if_neg hb, cstr_ok n t (fun hh => h (by simp [hh]))]; rfl

theorem getName_ok (hr : Reads s w r u) {H : Nat → Prop} {n : Bytes} {c : Nat} (h : At H s.data c (n ++ [0])) (h0 : 0 ∉ n) (known : Bytes → Bool)
    (hk : known n = true) : getName u known (BitVec.ofNat 32 c) = some (some n) := by
  have hc : c < 2 ^ 32 := by
    have := (List.getElem?_eq_some_iff.mp (h 0 _ (List.getElem?_eq_getElem (by simp))).1).1
    have := hr.small.2.2; omega
  obtain ⟨t, ht⟩ := h.drop
  unfold getName
  rw [ofNat_toNat hc, hr.data, ← ht, List.append_assoc]
  rw [show ([0] : Bytes) ++ t = 0 :: t from rfl, cstr_ok n t h0]
  simp [hk]

theorem dataBytes_ok (hr : Reads s w r u) {H : Nat → Prop} {b b' : Bytes} {c : Nat} (h : At H s.data c b) (hb : b' <+: b) :
    dataBytes u c b'.length = some b' := by
  obtain ⟨t, ht⟩ := hb.trans h.drop
  unfold dataBytes
  rw [hr.data, ← ht]
  simp

theorem indexesAt_ok (hr : Reads s w r u) {H : Nat → Prop} : ∀ (is : List Nat) (c : Nat), At H s.data c (idxBytes w is) → (∀ i ∈ is, i < 2 ^ 32) →
    indexesAt u c is.length = some is
  | [], _, _, _ => rfl
  | i :: is, c, h, hi => by
    have hcons : idxBytes w (i :: is) = put32 w (BitVec.ofNat 32 i) ++ idxBytes w is := rfl
    rw [hcons] at h
    have h1 := h.right
    rw [put32_length] at h1
    have h2 := get32_put32 w r (BitVec.ofNat 32 i) (dataFrom u c) 0 (by rw [List.drop_zero, hr.data]; exact h.left.drop)
    rw [List.length_cons, indexesAt, indexesAt_ok hr is (c + 4) h1 (fun j hj => hi j (by simp [hj])), hr.order]
    cases hg : get32 r (dataFrom u c) 0 with
    | none => rw [hg] at h2; cases h2
    | some x =>
      rw [hg, Option.map_some, Option.some.injEq] at h2
      rw [Option.bind_some, hr.isForeign, h2, Option.map_some, ofNat_toNat (hi i (by simp))]

theorem swapChunks_length (k : Nat) : ∀ (n : Nat) (bs : Bytes), bs.length = k * n → (swapChunks k n bs).length = bs.length
  | 0, bs, h => by simpa [swapChunks] using h.symm
  | n + 1, bs, h => by
    have hk : k ≤ bs.length := by rw [h, Nat.mul_add]; omega
    rw [swapChunks, List.length_append, swapChunks_length k n _ (by rw [List.length_drop, h, Nat.mul_add]; omega)]
    simp only [List.length_reverse, List.length_take, List.length_drop]; omega

theorem swapChunks_get (k : Nat) (hk : 0 < k) : ∀ (n : Nat) (bs : Bytes), bs.length = k * n → ∀ i < bs.length,
    (swapChunks k n bs)[i]? = bs[i / k * k + (k - 1 - i % k)]?
  | 0, bs, h, i, hi => by omega
  | n + 1, bs, h, i, hi => by
    have hkl : k ≤ bs.length := by rw [h, Nat.mul_add]; omega
    have hl : (bs.take k).reverse.length = k := by simp only [List.length_reverse, List.length_take]; omega
    rw [swapChunks]
    by_cases hik : i < k
    · rw [List.getElem?_append_left (by omega), List.getElem?_reverse (by simp only [List.length_take]; omega), Nat.div_eq_of_lt hik, Nat.mod_eq_of_lt hik]
      simp only [List.length_take, Nat.min_eq_left hkl, Nat.zero_mul, Nat.zero_add]
      exact List.getElem?_take_of_lt (by omega)
    · rw [List.getElem?_append_right (by omega), hl,
        swapChunks_get k hk n (bs.drop k) (by rw [List.length_drop, h, Nat.mul_add]; omega) (i - k) (by rw [List.length_drop]; omega), List.getElem?_drop]
      have h1 : i / k = (i - k) / k + 1 := by rw [Nat.div_eq i k, if_pos ⟨hk, by omega⟩]
      have h2 : i % k = (i - k) % k := Nat.mod_eq_sub_mod (by omega)
      rw [h1, h2, Nat.add_mul]; congr 1; omega

theorem swapChunks_ok (k n : Nat) (hk : 0 < k) (bs : Bytes) (h : bs.length = k * n) : ElementsReversed k bs (swapChunks k n bs) :=
  ⟨swapChunks_length k n bs h, swapChunks_get k hk n bs h⟩

theorem getSize_one {t : BitVec 32} {n : Nat} (hn : n < 2 ^ 24) (ht : t.toNat < 26) (h : getTypeSize (encode t (BitVec.ofNat 32 n)) = 1) :
    (getSize (encode t (BitVec.ofNat 32 n))).toNat = n := by
  unfold getSize
  rw [h, BitVec.toNat_mul, BitVec.toNat_setWidth, (encode_facts t n ht hn).2, BitVec.toNat_ofNat]
  rw [Nat.mod_eq_of_lt (a := 1) (by decide), Nat.mod_eq_of_lt (a := n) (by omega), Nat.one_mul, Nat.mod_eq_of_lt (by omega)]

theorem order_byte (a b : Order) : (a.byte != b.byte) = false ↔ a = b := by cases a <;> cases b <;> decide

theorem numberBytes_ok (hr : Reads s w r u) {e : BitVec 32} {b : Bytes} (h1 : getTypeSize e ∈ [1, 2, 4, 8])
    (h2 : b.length = getTypeSize e * (getCount e).toNat) : ∃ b', numberBytes u (getTypeSize e) (getCount e).toNat b = some b' ∧ SameNumber w r (getTypeSize e) b b' := by
  unfold numberBytes SameNumber
  rw [hr.isForeign]
  have hwr := order_byte w r
  have h0 : 0 < getTypeSize e := by simp at h1; omega
  by_cases he : w = r
  · simp only [if_pos (Or.inr (hwr.mpr he) : getTypeSize e = 1 ∨ (w.byte != r.byte) = false), if_pos he]; exact ⟨b, rfl, rfl⟩
  · simp only [if_neg he]
    by_cases h8 : getTypeSize e = 1
    · rw [if_pos (Or.inl h8)]
      refine ⟨b, rfl, rfl, fun i hi => ?_⟩
      rw [h8]; congr 1; rw [Nat.mod_one, Nat.div_one]; omega
    · rw [if_neg (by rintro (h | h); exacts [h8 h, he (hwr.mp h)]), if_pos (by simp at h1; omega)]
      exact ⟨_, rfl, swapChunks_ok _ _ h0 _ h2⟩

/-! ### Attributes -/

theorem Stored.key {H : Nat → Prop} {p : Put} {a : Attr} (h : Stored w H s p (some a)) : a.hashkey = strhash32 p.key := by
  match p, h with
  | .object _ none, h => cases h
  | .object k (some (.obj o)), ⟨_, h⟩ => cases h; rfl
  | .object k (some (.cls n)), ⟨_, _, h⟩ => cases h; rfl
  | .object k (some (.sel n)), ⟨_, _, h⟩ => cases h; rfl
  | .coll k xs, ⟨_, h⟩ =>
    rcases h with ⟨_, h⟩ | ⟨_, _, h⟩ | ⟨_, _, _, _, h⟩
    · cases h
    · cases h; rfl
    · cases h; rfl
  | .keyed k ps, ⟨_, _, _, _, h⟩ => cases h; rfl
  | .text k t, ⟨_, _, _, h⟩ => cases h; rfl
  | .binary k b, ⟨_, _, _, h⟩ => cases h; rfl
  | .number k e b, ⟨_, _, _, _, h⟩ => cases h; rfl

theorem find_none {H : Nat → Prop} {hash : BitVec 32} : ∀ {ps as}, AttrsOf w H s ps as → (∀ p ∈ ps, strhash32 p.key ≠ hash) →
    as.find? (fun x => x.hashkey = hash) = none
  | [], _, h, _ => by rw [show _ = [] from h]; rfl
  | p :: ps, _, ⟨a, as', h1, h2, h3⟩, hn => by
    subst h3
    have := find_none h2 (fun q hq => hn q (by simp [hq]))
    cases a with
    | none => exact this
    | some a =>
      have hk : a.hashkey ≠ hash := by rw [h1.key]; exact hn p (by simp)
      rw [show (some a).toList ++ as' = a :: as' from rfl, List.find?_cons]; simp [hk, this]

theorem find_some {H : Nat → Prop} {hash : BitVec 32} : ∀ {ps as}, AttrsOf w H s ps as → ps.Pairwise (fun p q => strhash32 p.key ≠ strhash32 q.key) →
    ∀ p ∈ ps, strhash32 p.key = hash → ∃ oa, Stored w H s p oa ∧ as.find? (fun x => x.hashkey = hash) = oa
  | [], _, _, _, p, hp, _ => by cases hp
  | q :: ps, _, ⟨a, as', h1, h2, h3⟩, hpw, p, hp, hh => by
    subst h3
    rw [List.pairwise_cons] at hpw
    rcases List.mem_cons.mp hp with e | hp
    · subst e
      refine ⟨a, h1, ?_⟩
      cases a with
      | none => exact find_none h2 (fun q hq e => hpw.1 q hq (hh.trans e.symm))
      | some a => rw [show (some a).toList ++ as' = a :: as' from rfl, List.find?_cons, h1.key]; simp [hh]
    · obtain ⟨oa, h4, h5⟩ := find_some h2 hpw.2 p hp hh
      refine ⟨oa, h4, ?_⟩
      cases a with
      | none => exact h5
      | some a =>
        have hk : a.hashkey ≠ hash := by rw [h1.key, ← hh]; exact hpw.1 p hp
        rw [show (some a).toList ++ as' = a :: as' from rfl, List.find?_cons]; simp [hk, h5]

/-- Reading an attribute gives what the call that stored it was given. -/
theorem getFrom_ok (hr : Reads s w r u) {root : Option Nat} {sym0 : Bytes} (hinv : Inv W root sym0 (fun _ => False) s) {g : Getter} {n : Nat} (hg : GetterOk W R U w r s g n)
    {st : USt} (hi : UInv s st) (hu : unread s U st ≤ n) (p : Put) (hp : PutOk R p) (ht : ∀ o ∈ p.targets, o ∈ U) {a : Attr}
    (hs : Stored w (fun _ => False) s p (some a)) :
    ∃ st' v, getFrom R u g st a p.kind = some (st', v) ∧ Step W R w r s st st' ∧ Matches w r (psi s st') p v := by
  have hlt : ∀ o i, s.visited.lookup o = some i → i < 2 ^ 32 := fun o i h => by
    obtain ⟨a, _, h1, _⟩ := hinv.cls o i h
    exact Nat.lt_trans (List.getElem?_eq_some_iff.mp h1).1 hr.small.1
  have hlt' : ∀ x, idxOf s x < 2 ^ 32 := fun x => by
    cases x with
    | none => exact (by decide : (0:Nat) < 2 ^ 32)
    | some o => simp only [idxOf]; cases h : s.visited.lookup o with
      | none => exact (by decide : (0:Nat) < 2 ^ 32)
      | some i => exact hlt o i h
  have hcd : ∀ {c}, c ≤ s.data.length → c < 2 ^ 32 := fun h => Nat.lt_of_le_of_lt h hr.small.2.2
  match p, hs with
  | .object _ none, h => cases h
  | .object k (some (.obj o)), ⟨hk, h⟩ =>
    cases h
    obtain ⟨i, hl, _⟩ := hk o (by simp)
    obtain ⟨st', id, e1, i1, x1, p1, c1⟩ := hg st o i hi (ht o (by simp [Put.targets])) hl hu
    refine ⟨st', .object (some (.obj id)), ?_, ⟨i1, x1, c1⟩, id, p1, rfl⟩
    simp only [Put.kind, getFrom, getObject, if_true, ofNat_toNat (hlt' _)]
    simp only [idxOf, hl, Option.getD_some, e1, Option.map_some]
  | .object k (some (.cls m)), ⟨c, h1, h⟩ =>
    cases h
    refine ⟨st, .object (some (.cls m)), ?_, Step.refl hi, rfl⟩
    simp only [Put.kind, getFrom, getObject, if_neg (show encode tClass 1 ≠ encode tObject 1 by decide), if_true, getName_ok hr h1 hp.2.1 R.isClass hp.1, Option.map_some]
  | .object k (some (.sel m)), ⟨c, h1, h⟩ =>
    cases h
    refine ⟨st, .object (some (.sel m)), ?_, Step.refl hi, rfl⟩
    simp only [Put.kind, getFrom, getObject, if_neg (show encode tSelector 1 ≠ encode tObject 1 by decide), if_neg (show encode tSelector 1 ≠ encode tClass 1 by decide),
      if_true, getName_ok hr h1 hp.2.1 R.isSelector hp.1, Option.map_some]
  | .coll k xs, ⟨hk, h⟩ =>
    have hx : ∀ o, some o ∈ xs → o ∈ U ∧ ∃ i, s.visited.lookup o = some i ∧ 0 < i := fun o ho =>
      ⟨ht o (by simp only [Put.targets, List.mem_filterMap]; exact ⟨some o, ho, rfl⟩), hk o (List.mem_filterMap.mpr ⟨some o, ho, rfl⟩)⟩
    rcases h with ⟨_, h⟩ | ⟨x, e, h⟩ | ⟨hl, c, h1, h2, h⟩
    · cases h
    · cases h; subst e
      obtain ⟨st', e1, s1, p1⟩ := getOne_ok hg hi hu x (fun o e => hx o (by simp [e]))
      refine ⟨st', .coll [x.bind (psi s st')], ?_, s1, rfl, fun o ho => p1 o (List.mem_singleton.mp ho).symm⟩
      simp only [Put.kind, getFrom, getColl, if_pos (show getType (encode tObject 1) = tObject by decide), if_pos (show (getCount (encode tObject 1)).toNat = 1 by decide),
        ofNat_toNat (hlt' _), e1, Option.map_some]
    · cases h
      obtain ⟨f1, f2⟩ := encode_facts tObject xs.length (by decide) hp.1
      obtain ⟨st', e1, s1, p1⟩ := getAllObjects_ok hg xs st hi hu hx
      refine ⟨st', .coll (xs.map (·.bind (psi s st'))), ?_, s1, rfl, p1⟩
      have hidx := indexesAt_ok hr (xs.map (idxOf s)) c h1 (fun i hi => by obtain ⟨x, _, e⟩ := List.mem_map.mp hi; rw [← e]; exact hlt' x)
      rw [List.length_map] at hidx
      simp only [Put.kind, getFrom, getColl, if_pos f1, f2, if_neg (show ¬ xs.length = 1 by omega), ofNat_toNat (hcd h2), hidx, Option.bind_some, e1, Option.map_some]
  | .keyed k ps, ⟨hk, c, h1, h2, h⟩ =>
    cases h
    obtain ⟨f1, f2⟩ := encode_facts tKeyed ps.length (by decide) hp
    obtain ⟨st', ys, e1, s1, p1, q1⟩ := getAllPairs_ok hg ps st hi hu (fun p hp o ho =>
      ⟨ht o (by simp only [Put.targets, List.mem_flatMap]; exact ⟨p, hp, ho⟩), hk o (List.mem_flatMap.mpr ⟨p, hp, ho⟩)⟩)
    refine ⟨st', .keyed ys, ?_, s1, ys, rfl, p1, q1⟩
    have hidx := indexesAt_ok hr (ps.flatMap fun p => [idxOf s (some p.1), idxOf s p.2]) c h1 (fun i hi => by
      obtain ⟨p, _, e⟩ := List.mem_flatMap.mp hi
      rcases List.mem_cons.mp e with e | e
      · rw [e]; exact hlt' _
      · rw [List.mem_singleton.mp e]; exact hlt' _)
    have hlen : (ps.flatMap fun p => [idxOf s (some p.1), idxOf s p.2]).length = 2 * ps.length := by
      rw [List.length_flatMap]; simp only [List.length_cons, List.length_nil, List.map_const', List.sum_replicate_nat]; omega
    rw [hlen] at hidx
    simp only [Put.kind, getFrom, getKeyed, if_pos f1, f2, ofNat_toNat (hcd h2), hidx, Option.bind_some, e1, Option.map_some]
  | .text k t, ⟨c, h1, h2, h⟩ =>
    cases h
    obtain ⟨f1, _⟩ := encode_facts tText (t.length + 1) (by decide) hp
    refine ⟨st, .text (some t), ?_, Step.refl hi, rfl⟩
    have hb := dataBytes_ok hr h1 (List.prefix_append t [0])
    simp only [Put.kind, getFrom, getText, if_pos f1, getSize_one hp (show tText.toNat < 26 by decide) (textSize _ hp), if_pos (Nat.succ_pos _), Nat.add_sub_cancel,
      ofNat_toNat (hcd h2), hb, Option.map_some]
  | .binary k b, ⟨c, h1, h2, h⟩ =>
    cases h
    obtain ⟨f1, _⟩ := encode_facts tBinary b.length (by decide) hp
    refine ⟨st, .binary (some b), ?_, Step.refl hi, rfl⟩
    have hb := dataBytes_ok hr h1 (List.prefix_refl b)
    simp only [Put.kind, getFrom, getBinary, if_pos f1, getSize_one hp (show tBinary.toNat < 26 by decide) (binarySize _ hp),
      ofNat_toNat (hcd h2), hb, Option.map_some]
  | .number k e b, ⟨c, h1, h2, _, h⟩ =>
    cases h
    have hb := dataBytes_ok hr h1 (List.prefix_refl b)
    obtain ⟨b', e1, m1⟩ := numberBytes_ok hr hp.2.1 hp.2.2
    rw [hp.2.2] at hb
    refine ⟨st, .number (some ((getCount e).toNat, b')), ?_, Step.refl hi, b', rfl, m1⟩
    simp only [Put.kind, getFrom, getNumber, hp.1, if_true, ofNat_toNat (hcd h2), hb, Option.bind_some, e1, Option.map_some]

/-- Reading text, binary data or a number as something else. -/
theorem getFrom_other {g : Getter} {st : USt} (p : Put) (hp : PutOk R p) {a : Attr}
    (hs : Stored w (fun _ => False) s p (some a)) {k : Kind} (hk : Fits p k) (hn : p.kind ≠ k) :
    ∃ v, getFrom R u g st a k = some (st, v) ∧ ReadAs p k v := by
  have hk := hk.resolve_left hn
  have henc : p.enc = some a.enc := by
    match p, hs with
    | .text _ t, ⟨c, _, _, h⟩ => cases h; rfl
    | .binary _ b, ⟨c, _, _, h⟩ => cases h; rfl
    | .number _ e b, ⟨c, _, _, _, h⟩ => cases h; rfl
    | .object _ _, _ => simp [Put.enc] at hk
    | .coll _ _, _ => simp [Put.enc] at hk
    | .keyed _ _, _ => simp [Put.enc] at hk
  have hnum : ∀ e : BitVec 32, isNumber e = true → getType e ≠ tText ∧ getType e ≠ tBinary := fun e he => by
    unfold isNumber at he
    constructor <;> (intro h; rw [h] at he; simp [tText, tBinary] at he)
  match k, hk.2 with
  | .encoding, _ => exact ⟨_, rfl, by simp only [ReadAs, if_true]; exact ⟨_, henc, rfl⟩⟩
  | .text, _ =>
    refine ⟨.text none, ?_, by simp [ReadAs, absent]⟩
    have : getType a.enc ≠ tText := by
      match p, hn, hp, henc with
      | .text _ t, hn, _, _ => exact absurd rfl hn
      | .binary _ b, _, hp, e => simp only [Put.enc, Option.some.injEq] at e; rw [← e, (encode_facts tBinary b.length (by decide) hp).1]; decide
      | .number _ _ _, _, hp, e => simp only [Put.enc, Option.some.injEq] at e; rw [← e]; exact (hnum _ hp.1).1
    simp only [getFrom, getText, if_neg this, Option.map_some]
  | .binary, _ =>
    refine ⟨.binary none, ?_, by simp [ReadAs, absent]⟩
    have : getType a.enc ≠ tBinary := by
      match p, hn, hp, henc with
      | .binary _ t, hn, _, _ => exact absurd rfl hn
      | .text _ b, _, hp, e => simp only [Put.enc, Option.some.injEq] at e; rw [← e, (encode_facts tText (b.length + 1) (by decide) hp).1]; decide
      | .number _ _ _, _, hp, e => simp only [Put.enc, Option.some.injEq] at e; rw [← e]; exact (hnum _ hp.1).2
    simp only [getFrom, getBinary, if_neg this, Option.map_some]
  | .number, _ =>
    refine ⟨.number none, ?_, by simp [ReadAs, absent]⟩
    have : ¬ isNumber a.enc = true := by
      match p, hn, hp, henc with
      | .number _ _ _, hn, _, _ => exact absurd rfl hn
      | .text _ b, _, hp, e =>
        simp only [Put.enc, Option.some.injEq] at e
        intro h; exact (hnum _ h).1 (by rw [← e, (encode_facts tText (b.length + 1) (by decide) hp).1])
      | .binary _ b, _, hp, e =>
        simp only [Put.enc, Option.some.injEq] at e
        intro h; exact (hnum _ h).2 (by rw [← e, (encode_facts tBinary b.length (by decide) hp).1])
    simp only [getFrom, getNumber, if_neg this, Option.map_some]

theorem get_ok (hr : Reads s w r u) {root : Option Nat} {sym0 : Bytes} (hinv : Inv W root sym0 (fun _ => False) s) {g : Getter} {n : Nat} (hg : GetterOk W R U w r s g n)
    {st : USt} (hi : UInv s st) (hu : unread s U st ≤ n) {ps : List Put} {gs : List (Kind × Bytes)} (hk : KeysOk ps gs)
    (hp : ∀ p ∈ ps, PutOk R p ∧ ∀ o ∈ p.targets, o ∈ U) {i : Nat} {rest : List Nat} (hst : st.stack = i :: rest) {a : AObj} (ha : s.objs[i]? = some a)
    (has : AttrsOf w (fun _ => False) s ps a.attrs) (k : Kind × Bytes) (hkg : k ∈ gs) :
    ∃ st' v, get R u g st k = some (st', v) ∧ Step W R w r s st st' ∧ ReadsBack w r (psi s st') ps k v := by
  unfold get
  rw [hst, getAttr_ok hr ha rest k.2, Option.bind_some]
  by_cases h : ∃ p ∈ ps, strhash32 p.key = strhash32 k.2
  · obtain ⟨p, h1, h2⟩ := h
    obtain ⟨h3, h4⟩ := hk.2 p h1 k hkg h2
    obtain ⟨oa, h5, h6⟩ := find_some has hk.1 p h1 h2
    rw [h6]
    cases oa with
    | none =>
      have h4 : p.kind = k.1 := by
        rcases h4 with h4 | ⟨h4, _⟩
        · exact h4
        · match p, h5 with
          | .text k t, ⟨_, _, _, h⟩ => cases h
          | .binary k b, ⟨_, _, _, h⟩ => cases h
          | .number k e b, ⟨_, _, _, _, h⟩ => cases h
          | .object _ _, _ => simp [Put.enc] at h4
          | .coll _ _, _ => simp [Put.enc] at h4
          | .keyed _ _, _ => simp [Put.enc] at h4
      refine ⟨st, absent k.1, rfl, Step.refl hi, Or.inl ⟨p, h1, h3, h4, ?_⟩⟩
      rw [← h4]
      match p, h5 with
      | .object _ none, _ => rfl
      | .object k (some (.obj o)), ⟨_, h⟩ => cases h
      | .object k (some (.cls n)), ⟨_, _, h⟩ => cases h
      | .object k (some (.sel n)), ⟨_, _, h⟩ => cases h
      | .coll k xs, ⟨_, h⟩ =>
        rcases h with ⟨h, _⟩ | ⟨_, _, h⟩ | ⟨_, _, _, _, h⟩
        · subst h; exact ⟨rfl, nofun⟩
        · cases h
        · cases h
      | .keyed k ps, ⟨_, _, _, _, h⟩ => cases h
      | .text k t, ⟨_, _, _, h⟩ => cases h
      | .binary k b, ⟨_, _, _, h⟩ => cases h
      | .number k e b, ⟨_, _, _, _, h⟩ => cases h
    | some a =>
      by_cases h4' : p.kind = k.1
      · obtain ⟨st', v, e1, s1, m1⟩ := getFrom_ok hr hinv hg hi hu p (hp p h1).1 (hp p h1).2 h5
        rw [h4'] at e1
        exact ⟨st', v, e1, s1, Or.inl ⟨p, h1, h3, h4', m1⟩⟩
      · obtain ⟨v, e1, m1⟩ := getFrom_other (st := st) (g := g) p (hp p h1).1 h5 h4 h4'
        exact ⟨st, v, e1, Step.refl hi, Or.inr (Or.inr ⟨p, h1, h3, h4', m1⟩)⟩
  · rw [find_none has (fun p hp e => h ⟨p, hp, e⟩)]
    exact ⟨st, absent k.1, rfl, Step.refl hi, Or.inr (Or.inl ⟨fun p hp e => h ⟨p, hp, by rw [e]⟩, rfl⟩)⟩

theorem getAll_ok (hr : Reads s w r u) {root : Option Nat} {sym0 : Bytes} (hinv : Inv W root sym0 (fun _ => False) s) {g : Getter} {n : Nat} (hg : GetterOk W R U w r s g n)
    {ps : List Put} {gs : List (Kind × Bytes)} (hk : KeysOk ps gs) (hp : ∀ p ∈ ps, PutOk R p ∧ ∀ o ∈ p.targets, o ∈ U) {i : Nat} {rest : List Nat} {a : AObj}
    (ha : s.objs[i]? = some a) (has : AttrsOf w (fun _ => False) s ps a.attrs) : ∀ (ks : List (Kind × Bytes)) (st : USt), (∀ k ∈ ks, k ∈ gs) →
    UInv s st → unread s U st ≤ n → st.stack = i :: rest →
    ∃ st' vs, getAll R u g ks st = some (st', vs) ∧ Step W R w r s st st' ∧ vs.length = ks.length ∧
      ∀ (k : Nat) x v, ks[k]? = some x → vs[k]? = some v → ReadsBack w r (psi s st') ps x v
  | [], st, _, hi, _, _ => ⟨st, [], rfl, Step.refl hi, rfl, by simp⟩
  | x :: ks, st, hks, hi, hu, hst => by
    obtain ⟨st1, v, e1, s1, m1⟩ := get_ok hr hinv hg hi hu hk hp hst ha has x (hks x (by simp))
    obtain ⟨st2, vs, e2, s2, l2, m2⟩ := getAll_ok hr hinv hg hk hp ha has ks st1 (fun k hk => hks k (by simp [hk])) s1.1
      (Nat.le_trans (unread_le s1.2.1) hu) (s1.2.1.stack.trans hst)
    refine ⟨st2, v :: vs, by rw [getAll, e1, Option.bind_some, e2, Option.map_some], s1.trans hi s2, by simp [l2], ?_⟩
    intro k x' v' hx hv
    cases k with
    | zero =>
      simp only [List.getElem?_cons_zero, Option.some.injEq] at hx hv
      subst hx hv
      exact m1.mono (fun o id h => psi_ext s2.2.1.memo h)
    | succ k => exact m2 k x' v' (by simpa using hx) (by simpa using hv)

theorem mem_of_lookup {α : Type} {id : Nat} {v : α} : ∀ {l : List (Nat × α)}, l.lookup id = some v → (id, v) ∈ l
  | [], h => by cases h
  | (k, x) :: l, h => by
    rw [lookup_cons] at h
    split at h
    · cases h; subst_vars; simp
    · exact List.mem_cons_of_mem _ (mem_of_lookup h)

/-- DKEggUnarchiverGetObject copies the objects of `U`. -/
theorem unGetObject_ok (hr : Reads s w r u) (hA : Archivable W R U) {root : Option Nat} {sym0 : Bytes} (hinv : Inv W root sym0 (fun _ => False) s)
    (hgood : ∀ o i, s.visited.lookup o = some i → Good w W (fun _ => False) s o i) : ∀ fuel, GetterOk W R U w r s (unGetObject R u fuel) fuel := by
  intro fuel
  induction fuel with
  | zero =>
    intro st o i hi ho hv hu
    have hm : ∃ id, st.memo[i]? = some (some id) := by
      have : ¬ (psi s st o).isNone := fun h => by
        have : o ∈ U.filter fun o => (psi s st o).isNone := List.mem_filter.mpr ⟨ho, h⟩
        have := List.length_pos_of_mem this
        unfold unread at hu; omega
      cases hp : psi s st o with
      | none => rw [hp] at this; exact absurd rfl this
      | some id => exact ⟨id, (psi_eq hv).mp hp⟩
    obtain ⟨id, hm⟩ := hm
    refine ⟨st, id, ?_, hi, UExt.refl _, (psi_eq hv).mpr hm, NewCopies.refl _⟩
    obtain ⟨a, c, h1, _⟩ := hinv.cls o i hv
    rw [unGetObject.eq_def, hr.nobj, if_pos (List.getElem?_eq_some_iff.mp h1).1, hm]
  | succ fuel ih =>
    intro st o i hi ho hv hu
    obtain ⟨a, c, h1, h2, h3⟩ := hinv.cls o i hv
    have hilt : i < s.objs.length := (List.getElem?_eq_some_iff.mp h1).1
    have hil : i < st.memo.length := by rw [hi.len]; exact hilt
    cases hmi : st.memo[i] with
    | some id =>
      have hm : st.memo[i]? = some (some id) := by rw [List.getElem?_eq_getElem hil, hmi]
      refine ⟨st, id, ?_, hi, UExt.refl _, (psi_eq hv).mpr hm, NewCopies.refl _⟩
      rw [unGetObject.eq_def, hr.nobj, if_pos hilt, hm]
    | none =>
      have hm : st.memo[i]? = some none := by rw [List.getElem?_eq_getElem hil, hmi]
      obtain ⟨c1, c2, c3, _⟩ := hA.cls o ho
      obtain ⟨a', g1, g2⟩ := hgood o i hv
      rw [h1] at g1; cases g1
      generalize hst1 : ({ st with memo := st.memo.set i (some st.next), stack := i :: st.stack, next := st.next + 1 } : USt) = st1
      have hmemo : ∀ j : Nat, st1.memo[j]? = if i = j then some (some st.next) else st.memo[j]? := by
        intro j; rw [← hst1]; simp only [List.getElem?_set]
        by_cases e : i = j
        · subst e; rw [if_pos rfl, if_pos hil, if_pos rfl]
        · rw [if_neg e, if_neg e]
      have hpsi1 : ∀ x id, psi s st x = some id → psi s st1 x = some id := by
        intro x id hx
        obtain ⟨j, j1, j2⟩ := psi_some hx
        refine (psi_eq j1).mpr ?_
        rw [hmemo, if_neg (fun e => by subst e; rw [hm] at j2; cases j2)]; exact j2
      have hpo : psi s st1 o = some st.next := (psi_eq hv).mpr (by rw [hmemo, if_pos rfl])
      have hi1 : UInv s st1 := by
        refine ⟨by rw [← hst1]; simp only [List.length_set]; exact hi.len, ?_, ?_, ?_⟩
        · intro j id hj
          rw [hmemo] at hj
          have hn : st1.next = st.next + 1 := by rw [← hst1]
          split at hj
          · cases hj; omega
          · have := hi.lt j id hj; omega
        · intro j k id hj hk
          rw [hmemo] at hj hk
          split at hj <;> split at hk
          · omega
          · cases hj; have := hi.lt k _ hk; omega
          · cases hk; have := hi.lt j _ hj; omega
          · exact hi.inj j k id hj hk
        · intro e he
          obtain ⟨x, hx⟩ := hi.heap e (by rw [← hst1] at he; exact he)
          exact ⟨x, hpsi1 x _ hx⟩
      have hur : unread s U st1 ≤ fuel := by
        have : unread s U st1 < unread s U st := by
          refine filter_lt _ _ (fun x hx => ?_) o ?_ (by rw [hpo]; rfl) U ho
          · cases hp : psi s st x with
            | none => rfl
            | some id => rw [hpsi1 x id hp] at hx; cases hx
          · cases hp : psi s st o with
            | none => rfl
            | some id => rw [psi_eq hv, hm] at hp; cases hp
        omega
      obtain ⟨st2, vs, e2, s2, l2, m2⟩ := getAll_ok hr hinv ih (hA.keys o ho) (fun p hp => ⟨hA.puts o ho p hp, hA.closed o ho p hp⟩) (i := i) (rest := st.stack) h1 g2
        (R.gets (W.cls o)) st1 (fun _ h => h) hi1 hur (by rw [← hst1])
      have hm2 : st2.memo[i]? = some (some st.next) := s2.2.1.memo i _ (by rw [hmemo, if_pos rfl])
      have hset : st2.memo.set i (some st.next) = st2.memo := by
        apply List.ext_getElem?
        intro j
        rw [List.getElem?_set]
        by_cases e : i = j
        · subst e; rw [if_pos rfl, if_pos (List.getElem?_eq_some_iff.mp hm2).1, hm2]
        · rw [if_neg e]
      refine ⟨{ st2 with memo := st2.memo.set i (some st.next), stack := st2.stack.tail, heap := (st.next, W.cls o, vs) :: st2.heap }, st.next, ?_, ?_, ?_, ?_, ?_⟩
      · rw [unGetObject.eq_def, hr.nobj, if_pos hilt, hm]
        simp only
        rw [hr.obj i a h1, Option.bind_some, h2, getName_ok hr h3 c3 R.isClass c1, Option.bind_some]
        simp only [c2, Bool.true_eq_false, if_false, hst1, e2, Option.map_some]
      · rw [hset]
        refine ⟨s2.1.len, s2.1.lt, s2.1.inj, ?_⟩
        intro e he
        rcases List.mem_cons.mp he with rfl | he
        · exact ⟨o, (psi_eq hv).mpr hm2⟩
        · exact s2.1.heap e he
      · rw [hset]
        have hne : ∀ id v, st.heap.lookup id = some v → id ≠ st.next := by
          intro id v hl e
          obtain ⟨x, hx⟩ := hi.heap (id, v) (mem_of_lookup hl)
          obtain ⟨j, _, j2⟩ := psi_some hx
          have := hi.lt j id j2
          omega
        refine ⟨?_, ?_, ?_, ?_⟩
        · intro j id hj
          refine s2.2.1.memo j id ?_
          rw [hmemo, if_neg (fun e => by subst e; rw [hm] at hj; cases hj)]; exact hj
        · have := s2.2.1.next; rw [← hst1] at this; simp only at this ⊢; omega
        · intro id v hl
          rw [lookup_cons, if_neg (hne id v hl)]
          exact s2.2.1.heap id v (by rw [← hst1]; exact hl)
        · rw [s2.2.1.stack, ← hst1]; rfl
      · rw [hset]; exact (psi_eq hv).mpr hm2
      · rw [hset]
        intro o' i' id v1 v2 v3
        have hn1 : st1.next = st.next + 1 := by rw [← hst1]
        by_cases e : i' = i
        · subst e
          have := hinv.inj o o' i' hv v1
          subst this
          simp only at v2; rw [hm2] at v2; cases v2
          refine ⟨⟨vs, by rw [lookup_cons, if_pos rfl], l2, m2⟩, Nat.le_refl _⟩
        · have := s2.2.2 o' i' id v1 v2 (by rw [hmemo, if_neg (fun h => e h.symm)]; exact v3)
          refine ⟨this.1.ext (fun _ _ h => h) (fun v hl => ?_), by omega⟩
          rw [lookup_cons, if_neg (by omega)]; exact hl

/-- A new unarchiver has read nothing. -/
theorem uInit_inv (hr : Reads s w r u) : UInv s (uInit u) ∧ unread s U (uInit u) ≤ U.length := by
  have h : ∀ (i : Nat) id, (uInit u).memo[i]? ≠ some (some id) := by
    intro i id h
    have := List.mem_of_getElem? h
    simp [uInit] at this
  refine ⟨⟨by simp [uInit, hr.nobj], fun i id hi => absurd hi (h i id), fun i j id hi => absurd hi (h i id), by simp [uInit]⟩, List.length_filter_le _ _⟩

theorem copies_of {st : USt} {root : Option Nat} {sym0 : Bytes} (hinv : Inv W root sym0 (fun _ => False) s) (hi : UInv s st) (hr : Reads s w r u)
    (hn : NewCopies W R w r s (uInit u) st) : Copies W R w r (psi s st) st := by
  refine ⟨?_, ?_, hi.heap⟩
  · intro a b i ha hb
    obtain ⟨j, h1, h2⟩ := psi_some ha
    obtain ⟨k, h3, h4⟩ := psi_some hb
    have := hi.inj j k i h2 h4
    subst this
    exact hinv.inj a b j h1 h3
  · intro o i ho
    obtain ⟨j, h1, h2⟩ := psi_some ho
    refine (hn o j i h1 h2 ?_).1
    have hj := (List.getElem?_eq_some_iff.mp h2).1
    rw [hi.len, ← hr.nobj] at hj
    simp [uInit, hj]

end Egg
end Duck
