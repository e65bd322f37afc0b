import Verif.Spec.Egg
import Verif.Props.Encoding
/-! Lemmas about the egg archiver: what its state records about each object. -/
namespace Duck
namespace Egg
open Encoding (encode getType getCount getTypeSize getSize isNumber swapInt32)

/-- Bytes `bs` lie at offset `c`, outside of the bytes in `H` that may still change. -/
def At (H : Nat → Prop) (D : Bytes) (c : Nat) (bs : Bytes) : Prop := ∀ j b, bs[j]? = some b → D[c + j]? = some b ∧ ¬ H (c + j)

/-- The state grew: only bytes in `H`, and only the attributes of object `x`, changed. -/
structure Ext (H : Nat → Prop) (x : Option Nat) (s s' : Arch) : Prop where
  data : ∀ k b, ¬ H k → s.data[k]? = some b → s'.data[k]? = some b
  dlen : s.data.length ≤ s'.data.length
  objs : ∀ j, x ≠ some j → ∀ a, s.objs[j]? = some a → s'.objs[j]? = some a
  olen : s.objs.length ≤ s'.objs.length
  visited : ∀ o i, s.visited.lookup o = some i → s'.visited.lookup o = some i
  syms : ∀ n c, s.syms.lookup n = some c → s'.syms.lookup n = some c
  stack : s'.stack = s.stack
  rootless : s'.rootless = s.rootless

theorem Ext.refl (H x s) : Ext H x s s :=
  ⟨fun _ _ _ h => h, Nat.le_refl _, fun _ _ _ h => h, Nat.le_refl _, fun _ _ h => h, fun _ _ h => h, rfl, rfl⟩

theorem Ext.trans {H x s s' s''} (h : Ext H x s s') (g : Ext H x s' s'') : Ext H x s s'' :=
  ⟨fun k b hk hd => g.data k b hk (h.data k b hk hd), Nat.le_trans h.dlen g.dlen,
   fun j hj a ha => g.objs j hj a (h.objs j hj a ha), Nat.le_trans h.olen g.olen,
   fun o i hi => g.visited o i (h.visited o i hi), fun n c hc => g.syms n c (h.syms n c hc),
   g.stack.trans h.stack, g.rootless.trans h.rootless⟩

theorem Ext.mono {H H' : Nat → Prop} {x x' : Option Nat} {s s'} (h : Ext H x s s') (hH : ∀ k, H k → H' k) (hx : ∀ j, x = some j → x' = some j) :
    Ext H' x' s s' :=
  ⟨fun k b hk hd => h.data k b (fun hh => hk (hH k hh)) hd, h.dlen, fun j hj a ha => h.objs j (fun e => hj (hx j e)) a ha, h.olen,
   h.visited, h.syms, h.stack, h.rootless⟩

theorem At.ext {H H' : Nat → Prop} {D D' : Bytes} {c bs} (h : At H D c bs) (hd : ∀ k b, ¬ H' k → D[k]? = some b → D'[k]? = some b)
    (hH : ∀ k, H' k → H k) : At H D' c bs := fun j b hb =>
  ⟨hd _ _ (fun hh => (h j b hb).2 (hH _ hh)) (h j b hb).1, (h j b hb).2⟩

theorem At.weaken {H H' : Nat → Prop} {D : Bytes} {c bs} (h : At H D c bs) (hH : ∀ k, H' k → H k) : At H' D c bs := fun j b hb =>
  ⟨(h j b hb).1, fun hh => (h j b hb).2 (hH _ hh)⟩

theorem At.append {H : Nat → Prop} {D : Bytes} {c bs cs} (h : At H D c bs) (g : At H D (c + bs.length) cs) : At H D c (bs ++ cs) := by
  intro j b hb
  by_cases hj : j < bs.length
  · rw [List.getElem?_append_left hj] at hb; exact h j b hb
  · rw [List.getElem?_append_right (by omega)] at hb
    have := g _ b hb
    rwa [show c + bs.length + (j - bs.length) = c + j by omega] at this

theorem At.left {H : Nat → Prop} {D : Bytes} {c bs cs} (h : At H D c (bs ++ cs)) : At H D c bs := fun j b hb =>
  h j b (by rw [List.getElem?_append_left ((List.getElem?_eq_some_iff.mp hb).1)]; exact hb)

theorem At.right {H : Nat → Prop} {D : Bytes} {c bs cs} (h : At H D c (bs ++ cs)) : At H D (c + bs.length) cs := fun j b hb => by
  have := h (bs.length + j) b (by rw [List.getElem?_append_right (by omega)]; simpa using hb)
  rwa [show c + (bs.length + j) = c + bs.length + j by omega] at this

/-- Bytes just appended lie at the end. -/
theorem At.last (H : Nat → Prop) (D bs : Bytes) (hH : ∀ k, H k → k < D.length) : At H (D ++ bs) D.length bs := fun j b hb =>
  ⟨by rw [List.getElem?_append_right (by omega)]; simpa using hb, fun hh => absurd (hH _ hh) (by omega)⟩

theorem getElem?_append_some {α : Type} {D bs : List α} {k : Nat} {b : α} (h : D[k]? = some b) : (D ++ bs)[k]? = some b := by
  rw [List.getElem?_append_left ((List.getElem?_eq_some_iff.mp h).1)]; exact h

/-- `bs` lies at offset `c` within the data. -/
theorem At.drop {H : Nat → Prop} {D : Bytes} {c : Nat} {bs : Bytes} (h : At H D c bs) : bs <+: D.drop c := by
  rw [List.prefix_iff_getElem?]
  intro i hi
  rw [List.getElem?_drop]
  exact (h i _ (List.getElem?_eq_getElem hi)).1

theorem align_prefix (D : Bytes) (n : Nat) : ∃ z, align D n = D ++ z := by
  unfold align; split
  · exact ⟨_, rfl⟩
  · exact ⟨[], by simp⟩

theorem align_length (D : Bytes) (n : Nat) (hn : 0 < n) : (align D n).length % n = 0 ∧ D.length ≤ (align D n).length := by
  unfold align
  split
  · rw [List.length_append, List.length_replicate]
    have h1 := Nat.mod_lt D.length hn
    have h2 := Nat.div_add_mod D.length n
    refine ⟨?_, by omega⟩
    have : D.length + (n - D.length % n) = n * (D.length / n + 1) := by rw [Nat.mul_add]; omega
    rw [this]; exact Nat.mul_mod_right _ _
  · exact ⟨by omega, Nat.le_refl _⟩

/-! ### What is recorded -/

variable (ord : Order) (W : World)

/-- The bytes of the indexes `is`. -/
def idxBytes (is : List Nat) : Bytes := is.flatMap fun i => put32 ord (BitVec.ofNat 32 i)

theorem put32_length (o : Order) (x : BitVec 32) : (put32 o x).length = 4 := by cases o <;> rfl

theorem idxBytes_length (is : List Nat) : (idxBytes ord is).length = 4 * is.length := by
  induction is with
  | nil => rfl
  | cons i is ih => unfold idxBytes at ih ⊢; rw [List.flatMap_cons, List.length_append, put32_length, ih, List.length_cons]; omega

/-- The index recorded for an element that may be NULL. -/
def idxOf (s : Arch) : Option Nat → Nat
  | none => 0
  | some o => (s.visited.lookup o).getD 0

/-- The objects in the list have been visited and none has index 0. -/
def Known (s : Arch) (os : List Nat) : Prop := ∀ o ∈ os, ∃ i, s.visited.lookup o = some i ∧ 0 < i

/-- The attribute that a call leaves, if any. -/
def Stored (H : Nat → Prop) (s : Arch) : Put → Option Attr → Prop
  | .object _ none, a => a = none
  | .object k (some (.obj o)), a => Known s [o] ∧ a = some ⟨strhash32 k, encode tObject 1, BitVec.ofNat 32 (idxOf s (some o))⟩
  | .object k (some (.cls n)), a => ∃ c, At H s.data c (n ++ [0]) ∧ a = some ⟨strhash32 k, encode tClass 1, BitVec.ofNat 32 c⟩
  | .object k (some (.sel n)), a => ∃ c, At H s.data c (n ++ [0]) ∧ a = some ⟨strhash32 k, encode tSelector 1, BitVec.ofNat 32 c⟩
  | .coll k xs, a => Known s (xs.filterMap id) ∧
      ((xs = [] ∧ a = none) ∨
       (∃ x, xs = [x] ∧ a = some ⟨strhash32 k, encode tObject 1, BitVec.ofNat 32 (idxOf s x)⟩) ∨
       (2 ≤ xs.length ∧ ∃ c, At H s.data c (idxBytes ord (xs.map (idxOf s))) ∧ c ≤ s.data.length ∧
          a = some ⟨strhash32 k, encode tObject (BitVec.ofNat 32 xs.length), BitVec.ofNat 32 c⟩))
  | .keyed k ps, a => Known s (ps.flatMap fun p => p.1 :: p.2.toList) ∧
      ∃ c, At H s.data c (idxBytes ord (ps.flatMap fun p => [idxOf s (some p.1), idxOf s p.2])) ∧ c ≤ s.data.length ∧
        a = some ⟨strhash32 k, encode tKeyed (BitVec.ofNat 32 ps.length), BitVec.ofNat 32 c⟩
  | .text k t, a => ∃ c, At H s.data c (t ++ [0]) ∧ c ≤ s.data.length ∧
      a = some ⟨strhash32 k, encode tText (BitVec.ofNat 32 (t.length + 1)), BitVec.ofNat 32 c⟩
  | .binary k b, a => ∃ c, At H s.data c b ∧ c ≤ s.data.length ∧
      a = some ⟨strhash32 k, encode tBinary (BitVec.ofNat 32 b.length), BitVec.ofNat 32 c⟩
  | .number k e b, a => ∃ c, At H s.data c b ∧ c ≤ s.data.length ∧ c % getTypeSize e = 0 ∧ a = some ⟨strhash32 k, e, BitVec.ofNat 32 c⟩

/-- The attributes that a list of calls leaves. -/
def AttrsOf (H : Nat → Prop) (s : Arch) : List Put → List Attr → Prop
  | [], as => as = []
  | p :: ps, as => ∃ a as', Stored ord H s p a ∧ AttrsOf H s ps as' ∧ as = a.toList ++ as'

/-- Object `o` is recorded completely at index `i`. -/
def Good (H : Nat → Prop) (s : Arch) (o i : Nat) : Prop := ∃ a, s.objs[i]? = some a ∧ AttrsOf ord H s (W.puts o) a.attrs

theorem idxOf_ext {H x s s'} (h : Ext H x s s') {v : Option Nat} (hv : ∀ o, v = some o → ∃ i, s.visited.lookup o = some i) :
    idxOf s' v = idxOf s v := by
  cases v with
  | none => rfl
  | some o => obtain ⟨i, hi⟩ := hv o rfl; simp only [idxOf, hi, h.visited o i hi]

theorem Known.ext {H x s s'} (h : Ext H x s s') {os} (hk : Known s os) : Known s' os := fun o ho =>
  let ⟨i, hi, h0⟩ := hk o ho; ⟨i, h.visited o i hi, h0⟩

theorem Stored.ext {H H' : Nat → Prop} {x s s' p a} (hs : Stored ord H s p a) (h : Ext H' x s s') (hH : ∀ k, H' k → H k) :
    Stored ord H s' p a := by
  have hat : ∀ {c bs}, At H s.data c bs → At H s'.data c bs := fun ha => ha.ext h.data hH
  have hle : ∀ {c}, c ≤ s.data.length → c ≤ s'.data.length := fun hc => Nat.le_trans hc h.dlen
  match p, hs with
  | .object _ none, hs => exact hs
  | .object k (some (.obj o)), ⟨hk, ha⟩ =>
    refine ⟨hk.ext h, ?_⟩
    rw [idxOf_ext h (fun o' e => by cases e; obtain ⟨i, hi, _⟩ := hk o (by simp); exact ⟨i, hi⟩)]; exact ha
  | .object k (some (.cls n)), ⟨c, h1, h2⟩ => exact ⟨c, hat h1, h2⟩
  | .object k (some (.sel n)), ⟨c, h1, h2⟩ => exact ⟨c, hat h1, h2⟩
  | .coll k xs, ⟨hk, hs⟩ =>
    refine ⟨hk.ext h, ?_⟩
    have hx : ∀ x ∈ xs, idxOf s' x = idxOf s x := fun x hx =>
      idxOf_ext h (fun o e => by
        obtain ⟨i, hi, _⟩ := hk o (List.mem_filterMap.mpr ⟨x, hx, by simp [e]⟩); exact ⟨i, hi⟩)
    rcases hs with hs | ⟨x, e, ha⟩ | ⟨hl, c, h1, h2, h3⟩
    · exact Or.inl hs
    · refine Or.inr (Or.inl ⟨x, e, ?_⟩); rw [hx x (by simp [e])]; exact ha
    · refine Or.inr (Or.inr ⟨hl, c, ?_, hle h2, h3⟩)
      rw [List.map_congr_left hx]; exact hat h1
  | .keyed k ps, ⟨hk, c, h1, h2, h3⟩ =>
    refine ⟨hk.ext h, c, ?_, hle h2, h3⟩
    have hx : (ps.flatMap fun p => [idxOf s' (some p.1), idxOf s' p.2]) = ps.flatMap fun p => [idxOf s (some p.1), idxOf s p.2] := by
      rw [List.flatMap_def, List.flatMap_def]
      congr 1
      apply List.map_congr_left
      intro p hp
      have hm : ∀ o ∈ p.1 :: p.2.toList, ∃ i, s.visited.lookup o = some i := fun o ho => by
        obtain ⟨i, hi, _⟩ := hk o (List.mem_flatMap.mpr ⟨p, hp, ho⟩); exact ⟨i, hi⟩
      rw [idxOf_ext h (fun o e => hm o (by cases e; simp)), idxOf_ext h (fun o e => hm o (by simp [e]))]
    rw [hx]; exact hat h1
  | .text k t, ⟨c, h1, h2, h3⟩ => exact ⟨c, hat h1, hle h2, h3⟩
  | .binary k b, ⟨c, h1, h2, h3⟩ => exact ⟨c, hat h1, hle h2, h3⟩
  | .number k e b, ⟨c, h1, h2, h3⟩ => exact ⟨c, hat h1, hle h2, h3⟩

theorem Stored.weaken {H H' : Nat → Prop} {s p a} (hs : Stored ord H s p a) (hH : ∀ k, H' k → H k) : Stored ord H' s p a := by
  have hat : ∀ {c bs}, At H s.data c bs → At H' s.data c bs := fun ha => ha.weaken hH
  match p, hs with
  | .object _ none, hs => exact hs
  | .object k (some (.obj o)), hs => exact hs
  | .object k (some (.cls n)), ⟨c, h1, h2⟩ => exact ⟨c, hat h1, h2⟩
  | .object k (some (.sel n)), ⟨c, h1, h2⟩ => exact ⟨c, hat h1, h2⟩
  | .coll k xs, ⟨hk, hs⟩ =>
    refine ⟨hk, ?_⟩
    rcases hs with hs | hs | ⟨hl, c, h1, h2, h3⟩
    · exact Or.inl hs
    · exact Or.inr (Or.inl hs)
    · exact Or.inr (Or.inr ⟨hl, c, hat h1, h2, h3⟩)
  | .keyed k ps, ⟨hk, c, h1, h2⟩ => exact ⟨hk, c, hat h1, h2⟩
  | .text k t, ⟨c, h1, h2⟩ => exact ⟨c, hat h1, h2⟩
  | .binary k b, ⟨c, h1, h2⟩ => exact ⟨c, hat h1, h2⟩
  | .number k e b, ⟨c, h1, h2⟩ => exact ⟨c, hat h1, h2⟩

theorem AttrsOf.ext {H H' : Nat → Prop} {x s s'} (h : Ext H' x s s') (hH : ∀ k, H' k → H k) : ∀ {ps as}, AttrsOf ord H s ps as → AttrsOf ord H s' ps as
  | [], _, hs => hs
  | _ :: _, _, ⟨a, as', h1, h2, h3⟩ => ⟨a, as', h1.ext ord h hH, AttrsOf.ext h hH h2, h3⟩

theorem AttrsOf.weaken {H H' : Nat → Prop} {s} (hH : ∀ k, H' k → H k) : ∀ {ps as}, AttrsOf ord H s ps as → AttrsOf ord H' s ps as
  | [], _, hs => hs
  | _ :: _, _, ⟨a, as', h1, h2, h3⟩ => ⟨a, as', h1.weaken ord hH, AttrsOf.weaken hH h2, h3⟩

theorem Good.ext {H H' : Nat → Prop} {x s s' o i} (g : Good ord W H s o i) (h : Ext H' x s s') (hH : ∀ k, H' k → H k) (hx : x ≠ some i) :
    Good ord W H s' o i :=
  let ⟨a, h1, h2⟩ := g; ⟨a, h.objs i hx a h1, AttrsOf.ext ord h hH h2⟩

theorem Good.weaken {H H' : Nat → Prop} {s o i} (g : Good ord W H s o i) (hH : ∀ k, H' k → H k) : Good ord W H' s o i :=
  let ⟨a, h1, h2⟩ := g; ⟨a, h1, AttrsOf.weaken ord hH h2⟩

/-- What holds of the archiver throughout. -/
structure Inv (root : Option Nat) (sym0 : Bytes) (H : Nat → Prop) (s : Arch) : Prop where
  holes : ∀ k, H k → k < s.data.length
  syms : ∀ n c, s.syms.lookup n = some c → At H s.data c (n ++ [0]) ∧ (c = 0 → n = sym0)
  cls : ∀ o i, s.visited.lookup o = some i → ∃ a c, s.objs[i]? = some a ∧ a.className = BitVec.ofNat 32 c ∧ At H s.data c (W.cls o ++ [0])
  inj : ∀ o o' i, s.visited.lookup o = some i → s.visited.lookup o' = some i → o = o'
  zero : ∀ o, s.visited.lookup o = some 0 → root = some o

theorem Inv.weaken {root sym0} {H H' : Nat → Prop} {s} (h : Inv W root sym0 H s) (hH : ∀ k, H' k → H k) : Inv W root sym0 H' s :=
  ⟨fun k hk => h.holes k (hH k hk), fun n c hc => ⟨(h.syms n c hc).1.weaken hH, (h.syms n c hc).2⟩,
   fun o i hi => let ⟨a, c, h1, h2, h3⟩ := h.cls o i hi; ⟨a, c, h1, h2, h3.weaken hH⟩, h.inj, h.zero⟩

/-- Only bytes in `H` changed, or bytes were appended. -/
theorem Inv.data {root sym0} {H H' : Nat → Prop} {s} (h : Inv W root sym0 H s) {D : Bytes} (hd : ∀ k b, ¬ H' k → s.data[k]? = some b → D[k]? = some b)
    (hH : ∀ k, H' k → H k) (hl : s.data.length ≤ D.length) : Inv W root sym0 H { s with data := D } :=
  ⟨fun k hk => Nat.lt_of_lt_of_le (h.holes k hk) hl, fun n c hc => ⟨(h.syms n c hc).1.ext hd hH, (h.syms n c hc).2⟩,
   fun o i hi => let ⟨a, c, h1, h2, h3⟩ := h.cls o i hi; ⟨a, c, h1, h2, h3.ext hd hH⟩, h.inj, h.zero⟩

/-- A larger set of bytes that nothing lies in. -/
theorem Inv.reserve {root sym0} {H : Nat → Prop} {s} (h : Inv W root sym0 H s) (z : Bytes) (n : Nat) :
    Inv W root sym0 (fun k => H k ∨ (s.data.length + z.length ≤ k ∧ k < s.data.length + z.length + n))
      { s with data := s.data ++ z ++ List.replicate n 0 } := by
  have hat : ∀ {c bs}, At H s.data c bs → At (fun k => H k ∨ (s.data.length + z.length ≤ k ∧ k < s.data.length + z.length + n))
      (s.data ++ z ++ List.replicate n 0) c bs := fun {c bs} ha j b hb => by
    have h1 := ha j b hb
    refine ⟨getElem?_append_some (getElem?_append_some h1.1), ?_⟩
    rintro (hh | hh)
    · exact h1.2 hh
    · have := (List.getElem?_eq_some_iff.mp h1.1).1; omega
  refine ⟨?_, fun m c hc => ⟨hat (h.syms m c hc).1, (h.syms m c hc).2⟩, fun o i hi => ?_, h.inj, h.zero⟩
  · rintro k (hk | hk)
    · have := h.holes k hk; simp only [List.length_append]; omega
    · simp only [List.length_append, List.length_replicate]; omega
  · obtain ⟨a, c, h1, h2, h3⟩ := h.cls o i hi; exact ⟨a, c, h1, h2, hat h3⟩

/-- The objects recorded between two states are complete and have new indexes. -/
def NewGood (H : Nat → Prop) (s s' : Arch) : Prop :=
  ∀ o i, s'.visited.lookup o = some i → s.visited.lookup o = none → Good ord W H s' o i ∧ s.objs.length ≤ i

theorem NewGood.refl (H s) : NewGood ord W H s s := fun o i h1 h2 => by rw [h1] at h2; cases h2

theorem NewGood.trans {H H' : Nat → Prop} {x s s' s''} (h : NewGood ord W H s s') (g : NewGood ord W H s' s'') (hx : ∀ j, x = some j → j < s.objs.length)
    (e1 : s.objs.length ≤ s'.objs.length) (e : Ext H' x s' s'') (hH : ∀ k, H' k → H k) : NewGood ord W H s s'' := by
  intro o i h1 h2
  cases h3 : s'.visited.lookup o with
  | none => have := g o i h1 h3; exact ⟨this.1, by omega⟩
  | some i' =>
    have h4 := e.visited o i' h3
    rw [h1] at h4; cases h4
    obtain ⟨h5, h6⟩ := h o i h3 h2
    refine ⟨h5.ext ord W e hH ?_, h6⟩
    intro e'; have := hx i e'; omega

theorem NewGood.weaken {H H' : Nat → Prop} {s s'} (h : NewGood ord W H s s') (hH : ∀ k, H' k → H k) : NewGood ord W H' s s' :=
  fun o i h1 h2 => ⟨(h o i h1 h2).1.weaken ord W hH, (h o i h1 h2).2⟩

/-- Only the last state's data or attributes differ: nothing new is visited. -/
theorem NewGood.of_eq {H s s'} (h : s'.visited = s.visited) : NewGood ord W H s s' := fun o i h1 h2 => by rw [h, h2] at h1; cases h1

end Egg
end Duck
