import Verif.Lemmas.EggArchive
/-! Lemmas about the egg archiver: each call records what it is given. -/
namespace Duck
namespace Egg
open Encoding (encode getType getCount getTypeSize getSize isNumber swapInt32 typeGetSize)

theorem getTypeSize_eq (e : BitVec 32) : getTypeSize e = typeGetSize (getType e) := rfl

theorem encode_facts (t : BitVec 32) (n : Nat) (ht : t.toNat < 26) (hn : n < 2 ^ 24) :
    getType (encode t (BitVec.ofNat 32 n)) = t ∧ (getCount (encode t (BitVec.ofNat 32 n))).toNat = n := by
  have hn' : (BitVec.ofNat 32 n).toNat = n := by rw [BitVec.toNat_ofNat]; exact Nat.mod_eq_of_lt (by omega)
  have := Encoding.C15_vector t (BitVec.ofNat 32 n) (by omega) (by rw [hn']; exact hn)
  exact ⟨this.1, by rw [this.2.1, hn']⟩

theorem textSize (n : Nat) (hn : n < 2 ^ 24) : getTypeSize (encode tText (BitVec.ofNat 32 n)) = 1 := by
  rw [getTypeSize_eq, (encode_facts tText n (by decide) hn).1]; decide

theorem binarySize (n : Nat) (hn : n < 2 ^ 24) : getTypeSize (encode tBinary (BitVec.ofNat 32 n)) = 1 := by
  rw [getTypeSize_eq, (encode_facts tBinary n (by decide) hn).1]; decide

theorem align_one (D : Bytes) : align D 1 = D := by
  unfold align; rw [Nat.mod_one]; exact if_neg (by omega)

theorem addEncoded_eq (s : Arch) (e : BitVec 32) (src : Bytes) (h0 : 0 < getTypeSize e) (hl : src.length = getTypeSize e * (getCount e).toNat) :
    addEncoded s e src = some ({ s with data := align s.data (getTypeSize e) ++ src }, (align s.data (getTypeSize e)).length) := by
  unfold addEncoded
  rw [if_neg (by omega), if_neg (by omega), ← hl, List.take_length]

/-- The state grows when bytes are appended. -/
theorem ext_data (s : Arch) (z : Bytes) : Ext (fun _ => False) none s { s with data := s.data ++ z } :=
  ⟨fun _ _ _ h => getElem?_append_some h, by simp, fun _ _ _ h => h, Nat.le_refl _, fun _ _ h => h, fun _ _ h => h, rfl, rfl⟩

theorem inv_data {W : World} {root sym0} {H : Nat → Prop} {s : Arch} (h : Inv W root sym0 H s) (z : Bytes) :
    Inv W root sym0 H { s with data := s.data ++ z } :=
  h.data W (H' := fun _ => False) (fun _ _ _ hd => getElem?_append_some hd) (fun _ hh => hh.elim) (by simp)

theorem lookup_cons {α β : Type} [BEq α] [LawfulBEq α] [DecidableEq α] (a b : α) (x : β) (l : List (α × β)) :
    List.lookup a ((b, x) :: l) = if a = b then some x else List.lookup a l := by
  rw [List.lookup_cons]
  by_cases h : a = b
  · rw [if_pos h, h, beq_self_eq_true]
  · rw [if_neg h, beq_eq_false_iff_ne.mpr h]

/-- AddSymbol: the name lies at the offset returned, which is 0 for the first name only. -/
theorem addSymbol_ok {W : World} {root sym0} {H : Nat → Prop} {s : Arch} (h : Inv W root sym0 H s) (n : Bytes) (hn : n.length + 1 < 2 ^ 24)
    (h0 : s.data = [] → n = sym0) :
    ∃ s' c, addSymbol s n = some (s', c) ∧ Inv W root sym0 H s' ∧ Ext (fun _ => False) none s s' ∧ s'.visited = s.visited ∧
      s'.objs = s.objs ∧ At H s'.data c (n ++ [0]) ∧ (c = 0 → n = sym0) ∧ s'.data ≠ [] := by
  unfold addSymbol
  cases hl : s.syms.lookup n with
  | some c =>
    have := h.syms n c hl
    refine ⟨s, c, rfl, h, Ext.refl _ _ _, rfl, rfl, this.1, this.2, ?_⟩
    intro e
    have h1 := this.1 n.length 0 (by simp)
    rw [e] at h1; simp at h1
  | none =>
    simp only
    rw [addEncoded_eq _ _ _ (by rw [textSize _ hn]; omega) (by rw [textSize _ hn, (encode_facts tText _ (by decide) hn).2]; simp)]
    rw [textSize _ hn, align_one]
    have hi := inv_data h (n ++ [0])
    have hat : At H (s.data ++ (n ++ [0])) s.data.length (n ++ [0]) := At.last H _ _ h.holes
    have h0' : s.data.length = 0 → n = sym0 := fun e => h0 (List.eq_nil_of_length_eq_zero e)
    refine ⟨_, _, rfl, ⟨hi.holes, ?_, hi.cls, hi.inj, hi.zero⟩, ?_, rfl, rfl, hat, h0', by simp⟩
    · intro m c hc
      simp only [lookup_cons] at hc
      split at hc
      · cases hc; subst_vars; exact ⟨hat, h0'⟩
      · exact hi.syms m c hc
    · have he := ext_data s (n ++ [0])
      refine ⟨he.data, he.dlen, he.objs, he.olen, he.visited, ?_, rfl, rfl⟩
      intro m c hc
      simp only [lookup_cons]
      split
      · subst_vars; rw [hl] at hc; cases hc
      · exact hc

theorem modify_get {α : Type} (l : List α) (i : Nat) (f : α → α) (a : α) (h : l[i]? = some a) : (l.modify i f)[i]? = some (f a) := by
  rw [List.getElem?_modify, h]; simp

theorem modify_get_ne {α : Type} (l : List α) (i j : Nat) (f : α → α) (h : i ≠ j) : (l.modify i f)[j]? = l[j]? := by
  rw [List.getElem?_modify]; simp [h]

/-- AddAttribute adds one attribute to the object on top of the stack. -/
theorem addAttr_ok {W : World} {root sym0} {H : Nat → Prop} {s : Arch} {idx : Nat} {rest : List Nat} (hs : s.stack = idx :: rest)
    (hi : idx < s.objs.length) (h : Inv W root sym0 H s) (key : Bytes) (e : BitVec 32) (v : Nat) :
    ∃ s', addAttr s key e v = some s' ∧ Inv W root sym0 H s' ∧ Ext (fun _ => False) (some idx) s s' ∧ s'.visited = s.visited ∧ s'.data = s.data ∧
      s'.objs.length = s.objs.length ∧
      ∀ a, s.objs[idx]? = some a → s'.objs[idx]? = some { a with attrs := a.attrs ++ [⟨strhash32 key, e, BitVec.ofNat 32 v⟩] } := by
  have he : addAttr s key e v = some { s with objs := s.objs.modify idx fun a =>
      { a with attrs := a.attrs ++ [⟨strhash32 key, e, BitVec.ofNat 32 v⟩] } } := by
    unfold addAttr; simp only [hs, if_pos hi]
  rw [he]
  have hobj : ∀ (j : Nat) (a : AObj), s.objs[j]? = some a → ∃ a' : AObj, (s.objs.modify idx fun a => { a with attrs := a.attrs ++ [⟨strhash32 key, e, BitVec.ofNat 32 v⟩] })[j]? = some a' ∧
      a'.className = a.className := by
    intro j a ha
    by_cases hj : idx = j
    · subst hj; exact ⟨_, modify_get _ _ _ a ha, rfl⟩
    · exact ⟨a, by rw [modify_get_ne _ _ _ _ hj]; exact ha, rfl⟩
  refine ⟨_, rfl, ⟨h.holes, h.syms, ?_, h.inj, h.zero⟩, ?_, rfl, rfl, by simp, fun a ha => modify_get _ _ _ a ha⟩
  · intro o i hoi
    obtain ⟨a, c, h1, h2, h3⟩ := h.cls o i hoi
    obtain ⟨a', h4, h5⟩ := hobj i a h1
    exact ⟨a', c, h4, by rw [h5]; exact h2, h3⟩
  · refine ⟨fun _ _ _ h => h, Nat.le_refl _, ?_, by simp, fun _ _ h => h, fun _ _ h => h, rfl, rfl⟩
    intro j hj a ha
    simp only
    rw [modify_get_ne _ _ _ _ (fun e => hj (by rw [e]))]; exact ha

theorem patch_ok (D : Bytes) (off : Nat) (bs : Bytes) (h : off + bs.length ≤ D.length) :
    ∃ D', patch D off bs = some D' ∧ D'.length = D.length ∧ (∀ j b, bs[j]? = some b → D'[off + j]? = some b) ∧
      ∀ k, k < off ∨ off + bs.length ≤ k → D'[k]? = D[k]? := by
  unfold patch
  rw [if_pos h]
  refine ⟨_, rfl, ?_, ?_, ?_⟩
  · simp only [List.length_append, List.length_take, List.length_drop]; omega
  · intro j b hb
    have hj := (List.getElem?_eq_some_iff.mp hb).1
    rw [List.append_assoc, List.getElem?_append_right (by simp only [List.length_take]; omega), List.getElem?_append_left (by simp only [List.length_take]; omega)]
    rw [List.length_take, Nat.min_eq_left (by omega), Nat.add_sub_cancel_left]; exact hb
  · intro k hk
    rcases hk with hk | hk
    · rw [List.append_assoc, List.getElem?_append_left (by simp; omega), List.getElem?_take, if_pos hk]
    · rw [List.getElem?_append_right (by simp; omega), List.getElem?_drop]
      congr 1; simp only [List.length_append, List.length_take]; omega

/-! ### Calls, given how AddObject behaves -/

variable (ord : Order) (W : World) (R : Reader) (U : List Nat) (root : Option Nat) (sym0 : Bytes)

/-- The number of objects that have not been visited. -/
def unv (s : Arch) : Nat := (U.filter fun o => (s.visited.lookup o).isNone).length

theorem unv_le {H x s s'} (h : Ext H x s s') : unv U s' ≤ unv U s := by
  unfold unv
  apply List.Sublist.length_le
  induction U with
  | nil => exact List.Sublist.slnil
  | cons o U ih =>
    simp only [List.filter_cons]
    cases h1 : s.visited.lookup o with
    | none =>
      simp only [Option.isNone_none, if_true]
      split
      · exact ih.cons_cons _
      · exact ih.cons _
    | some i => rw [h.visited o i h1]; simpa using ih

/-- AddObject on states with at most `n` unvisited objects. -/
def AdderOk (add : Adder) (n : Nat) : Prop :=
  ∀ H s o, Inv W root sym0 H s → s.objs ≠ [] → s.data ≠ [] → o ∈ U → unv U s ≤ n →
    ∃ s' i, add s o = some (s', some i) ∧ Inv W root sym0 H s' ∧ Ext (fun _ => False) none s s' ∧ s'.visited.lookup o = some i ∧
      NewGood ord W H s s'

variable {ord W R U root sym0}

theorem Ext.ne_nil {H x s s'} (h : Ext H x s s') (h1 : s.objs ≠ []) (h2 : s.data ≠ []) : s'.objs ≠ [] ∧ s'.data ≠ [] := by
  refine ⟨fun e => h1 ?_, fun e => h2 ?_⟩
  · have := h.olen; rw [e] at this; exact List.eq_nil_of_length_eq_zero (Nat.le_zero.mp this)
  · have := h.dlen; rw [e] at this; exact List.eq_nil_of_length_eq_zero (Nat.le_zero.mp this)

theorem known_of {H s o i} (h : Inv W root sym0 H s) (hi : s.visited.lookup o = some i) (hr : some o ≠ root) : Known s [o] := by
  intro o' ho
  rw [List.mem_singleton] at ho; subst ho
  refine ⟨i, hi, Nat.pos_of_ne_zero fun e => ?_⟩
  subst e; exact hr (h.zero _ hi).symm

/-- DKEggAddCollectionCallback over objects that are not the root. -/
theorem collLoop_ok {add n} (ha : AdderOk ord W U root sym0 add n) {H : Nat → Prop} (off : Nat) : ∀ (os : List Nat) (s : Arch) (k : Nat),
    Inv W root sym0 H s → s.objs ≠ [] → s.data ≠ [] → (∀ o ∈ os, o ∈ U ∧ some o ≠ root) → unv U s ≤ n →
    (∀ j, off + 4 * k ≤ j → j < off + 4 * (k + os.length) → H j) →
    ∃ s', collLoop ord add off (os.map some) s k = some s' ∧ Inv W root sym0 H s' ∧
      Ext (fun j => off + 4 * k ≤ j ∧ j < off + 4 * (k + os.length)) none s s' ∧ NewGood ord W H s s' ∧ Known s' os ∧
      At (fun _ => False) s'.data (off + 4 * k) (idxBytes ord (os.map fun o => idxOf s' (some o)))
  | [], s, k, hi, _, _, _, _, _ => ⟨s, rfl, hi, Ext.refl _ _ _, NewGood.refl ord W _ _, fun o ho => (by cases ho), fun j b hb => by simp [idxBytes] at hb⟩
  | o :: os, s, k, hi, h1, h2, ho, hu, hr => by
    obtain ⟨s1, i, e1, i1, x1, v1, g1⟩ := ha H s o hi h1 h2 (ho o (by simp)).1 hu
    have kn := known_of i1 v1 (ho o (by simp)).2
    rw [List.map_cons, collLoop, e1]
    simp only [Option.bind_some]
    have hlen : off + 4 * k + (put32 ord (BitVec.ofNat 32 i)).length ≤ s1.data.length := by
      rw [put32_length]
      have := i1.holes (off + 4 * k + 3) (hr _ (by omega) (by rw [List.length_cons]; omega))
      omega
    obtain ⟨D, e2, l2, in2, out2⟩ := patch_ok s1.data (off + 4 * k) _ hlen
    rw [put32_length] at out2
    rw [e2]; simp only [Option.bind_some]
    have hd : ∀ j b, ¬ (off + 4 * k ≤ j ∧ j < off + 4 * (k + 1)) → s1.data[j]? = some b → D[j]? = some b := by
      intro j b hj hb; rw [out2 j (by omega)]; exact hb
    have i2 : Inv W root sym0 H { s1 with data := D } := i1.data W hd
      (fun j hj => hr j hj.1 (by rw [List.length_cons]; omega)) (Nat.le_of_eq l2.symm)
    have x2 : Ext (fun j => off + 4 * k ≤ j ∧ j < off + 4 * (k + 1)) none s1 { s1 with data := D } :=
      ⟨hd, Nat.le_of_eq l2.symm, fun _ _ _ h => h, Nat.le_refl _, fun _ _ h => h, fun _ _ h => h, rfl, rfl⟩
    have x12 : Ext (fun j => off + 4 * k ≤ j ∧ j < off + 4 * (k + 1)) none s { s1 with data := D } :=
      (x1.mono (fun _ hh => hh.elim) (fun _ h => h)).trans x2
    have nn := x12.ne_nil h1 h2
    obtain ⟨s', e3, i3, x3, g3, k3, a3⟩ := collLoop_ok ha off os { s1 with data := D } (k + 1) i2 nn.1 nn.2
      (fun o' h => ho o' (by simp [h])) (Nat.le_trans (unv_le U x12) hu) (fun j hj hj' => hr j (by omega) (by rw [List.length_cons]; omega))
    have hm : ∀ j, (off + 4 * k ≤ j ∧ j < off + 4 * (k + 1)) → off + 4 * k ≤ j ∧ j < off + 4 * (k + (o :: os).length) :=
      fun j hj => by rw [List.length_cons]; omega
    have hm3 : ∀ j, (off + 4 * (k + 1) ≤ j ∧ j < off + 4 * (k + 1 + os.length)) → off + 4 * k ≤ j ∧ j < off + 4 * (k + (o :: os).length) :=
      fun j hj => by rw [List.length_cons]; omega
    have hH : ∀ j, (off + 4 * k ≤ j ∧ j < off + 4 * (k + (o :: os).length)) → H j := fun j hj => hr j hj.1 hj.2
    have x3' := x3.mono hm3 (fun _ h => h)
    refine ⟨s', e3, i3, (x12.mono hm (fun _ h => h)).trans x3', ?_, ?_, ?_⟩
    · refine NewGood.trans ord W (x := none) (NewGood.trans ord W (x := none) (s'' := { s1 with data := D }) g1 (NewGood.of_eq ord W rfl) nofun x1.olen (x2.mono hm (fun _ h => h)) hH)
        g3 nofun x12.olen x3' hH
    · intro o' ho'
      rcases List.mem_cons.mp ho' with rfl | h
      · obtain ⟨i', h4, h5⟩ := kn o' (by simp)
        exact ⟨i', x3.visited o' i' h4, h5⟩
      · exact k3 o' h
    · rw [List.map_cons, idxBytes, List.flatMap_cons]
      apply At.append
      · intro j b hb
        have hj := (List.getElem?_eq_some_iff.mp hb).1
        rw [put32_length] at hj
        have : idxOf s' (some o) = i := by simp only [idxOf]; rw [x3.visited o i v1]; rfl
        rw [this] at hb
        exact ⟨x3.data _ b (by omega) (in2 j b hb), id⟩
      · rw [put32_length, show off + 4 * k + 4 = off + 4 * (k + 1) by omega]; exact a3

/-- DKEggAddKeyedCollectionCallback over pairs of objects that are not the root. -/
theorem keyedLoop_ok {add n} (ha : AdderOk ord W U root sym0 add n) {H : Nat → Prop} (off : Nat) : ∀ (ps : List (Nat × Option Nat)) (s : Arch) (k : Nat),
    Inv W root sym0 H s → s.objs ≠ [] → s.data ≠ [] → (∀ p ∈ ps, ∀ o ∈ p.1 :: p.2.toList, o ∈ U ∧ some o ≠ root) → unv U s ≤ n →
    (∀ j, off + 8 * k ≤ j → j < off + 8 * (k + ps.length) → H j) →
    ∃ s', keyedLoop ord add off ps s k = some s' ∧ Inv W root sym0 H s' ∧
      Ext (fun j => off + 8 * k ≤ j ∧ j < off + 8 * (k + ps.length)) none s s' ∧ NewGood ord W H s s' ∧
      Known s' (ps.flatMap fun p => p.1 :: p.2.toList) ∧
      At (fun _ => False) s'.data (off + 8 * k) (idxBytes ord (ps.flatMap fun p => [idxOf s' (some p.1), idxOf s' p.2]))
  | [], s, k, hi, _, _, _, _, _ => ⟨s, rfl, hi, Ext.refl _ _ _, NewGood.refl ord W _ _, fun o ho => by simp at ho, fun j b hb => by simp [idxBytes] at hb⟩
  | (key, v) :: ps, s, k, hi, h1, h2, ho, hu, hr => by
    obtain ⟨s1, i, e1, i1, x1, v1, g1⟩ := ha H s key hi h1 h2 (ho (key, v) (by simp) key (by simp)).1 hu
    have kn := known_of i1 v1 (ho (key, v) (by simp) key (by simp)).2
    rw [keyedLoop, e1]
    simp only [Option.bind_some]
    have ipos : i > 0 := by obtain ⟨i', h3, h4⟩ := kn key (by simp); rw [v1] at h3; cases h3; exact h4
    rw [if_pos ipos]
    have nn1 := x1.ne_nil h1 h2
    have hval : ∃ s2, addValue add s1 v = some (s2, some (idxOf s2 v)) ∧ Inv W root sym0 H s2 ∧ Ext (fun _ => False) none s1 s2 ∧
        NewGood ord W H s1 s2 ∧ Known s2 v.toList := by
      cases v with
      | none => exact ⟨s1, rfl, i1, Ext.refl _ _ _, NewGood.refl ord W _ _, fun o ho => by simp at ho⟩
      | some o =>
        have := ho (key, some o) (by simp) o (by simp)
        obtain ⟨s2, j, e2, i2, x2, v2, g2⟩ := ha H s1 o i1 nn1.1 nn1.2 this.1 (Nat.le_trans (unv_le U x1) hu)
        refine ⟨s2, ?_, i2, x2, g2, known_of i2 v2 this.2⟩
        rw [addValue, e2]; simp only [idxOf, v2]; rfl
    obtain ⟨s2, e2, i2, x2, g2, kn2⟩ := hval
    rw [e2]; simp only [Option.bind_some]
    have blen : (put32 ord (BitVec.ofNat 32 i) ++ put32 ord (BitVec.ofNat 32 (idxOf s2 v))).length = 8 := by
      rw [List.length_append, put32_length, put32_length]
    have hlen : off + 8 * k + (put32 ord (BitVec.ofNat 32 i) ++ put32 ord (BitVec.ofNat 32 (idxOf s2 v))).length ≤ s2.data.length := by
      rw [blen]
      have := i2.holes (off + 8 * k + 7) (hr _ (by omega) (by rw [List.length_cons]; omega))
      omega
    obtain ⟨D, e3, l3, in3, out3⟩ := patch_ok s2.data (off + 8 * k) _ hlen
    rw [blen] at out3
    rw [e3]; simp only [Option.bind_some]
    have hd : ∀ j b, ¬ (off + 8 * k ≤ j ∧ j < off + 8 * (k + 1)) → s2.data[j]? = some b → D[j]? = some b := by
      intro j b hj hb; rw [out3 j (by omega)]; exact hb
    have i3 : Inv W root sym0 H { s2 with data := D } := i2.data W hd
      (fun j hj => hr j hj.1 (by rw [List.length_cons]; omega)) (Nat.le_of_eq l3.symm)
    have x3 : Ext (fun j => off + 8 * k ≤ j ∧ j < off + 8 * (k + 1)) none s2 { s2 with data := D } :=
      ⟨hd, Nat.le_of_eq l3.symm, fun _ _ _ h => h, Nat.le_refl _, fun _ _ h => h, fun _ _ h => h, rfl, rfl⟩
    have x12 : Ext (fun _ => False) none s s2 := x1.trans x2
    have x13 : Ext (fun j => off + 8 * k ≤ j ∧ j < off + 8 * (k + 1)) none s { s2 with data := D } :=
      (x12.mono (fun _ hh => hh.elim) (fun _ h => h)).trans x3
    have nn := x13.ne_nil h1 h2
    obtain ⟨s', e4, i4, x4, g4, k4, a4⟩ := keyedLoop_ok ha off ps { s2 with data := D } (k + 1) i3 nn.1 nn.2
      (fun p' h => ho p' (by simp [h])) (Nat.le_trans (unv_le U x13) hu) (fun j hj hj' => hr j (by omega) (by rw [List.length_cons]; omega))
    have hm : ∀ j, (off + 8 * k ≤ j ∧ j < off + 8 * (k + 1)) → off + 8 * k ≤ j ∧ j < off + 8 * (k + ((key, v) :: ps).length) :=
      fun j hj => by rw [List.length_cons]; omega
    have hm4 : ∀ j, (off + 8 * (k + 1) ≤ j ∧ j < off + 8 * (k + 1 + ps.length)) → off + 8 * k ≤ j ∧ j < off + 8 * (k + ((key, v) :: ps).length) :=
      fun j hj => by rw [List.length_cons]; omega
    have hH : ∀ j, (off + 8 * k ≤ j ∧ j < off + 8 * (k + ((key, v) :: ps).length)) → H j := fun j hj => hr j hj.1 hj.2
    have x4' := x4.mono hm4 (fun _ h => h)
    have g12 : NewGood ord W H s s2 := NewGood.trans ord W (x := none) g1 g2 nofun x1.olen x2 (fun _ hh => hh.elim)
    refine ⟨s', e4, i4, (x13.mono hm (fun _ h => h)).trans x4', ?_, ?_, ?_⟩
    · refine NewGood.trans ord W (x := none) (NewGood.trans ord W (x := none) (s'' := { s2 with data := D }) g12 (NewGood.of_eq ord W rfl) nofun x12.olen (x3.mono hm (fun _ h => h)) hH)
        g4 nofun x13.olen x4' hH
    · intro o' ho'
      rw [List.flatMap_cons, List.mem_append] at ho'
      rcases ho' with h | h
      · rcases List.mem_cons.mp h with rfl | h
        · exact ⟨i, x4.visited _ i (x2.visited _ i v1), ipos⟩
        · obtain ⟨i', h4, h5⟩ := kn2 o' h
          exact ⟨i', x4.visited o' i' h4, h5⟩
      · exact k4 o' h
    · rw [List.flatMap_cons, idxBytes, List.flatMap_append]
      have hk : idxOf s' (some key) = i := by simp only [idxOf]; rw [x4.visited _ i (x2.visited _ i v1)]; rfl
      have hv : idxOf s' v = idxOf s2 v := by
        cases v with
        | none => rfl
        | some o => obtain ⟨i', h4, _⟩ := kn2 o (by simp); simp only [idxOf]; rw [x4.visited o i' h4, h4]
      have hb : ([idxOf s' (some key), idxOf s' v].flatMap fun i => put32 ord (BitVec.ofNat 32 i)) =
          put32 ord (BitVec.ofNat 32 i) ++ put32 ord (BitVec.ofNat 32 (idxOf s2 v)) := by
        rw [hk, hv, List.flatMap_cons, List.flatMap_cons, List.flatMap_nil, List.append_nil]
      simp only
      rw [hb]
      apply At.append
      · intro j b hb
        have hj := (List.getElem?_eq_some_iff.mp hb).1
        rw [blen] at hj
        exact ⟨x4.data _ b (by omega) (in3 j b hb), id⟩
      · rw [blen, show off + 8 * k + 8 = off + 8 * (k + 1) by omega]; exact a4

end Egg
end Duck
