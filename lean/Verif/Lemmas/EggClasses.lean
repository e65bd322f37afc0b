import Verif.Spec.EggClasses
import Verif.Lemmas.EggMain
import Mathlib.Tactic.Tauto
/-! Lemmas about the archives of the classes of Duck. -/
namespace Duck
namespace Egg
open Encoding (encode getType getCount getTypeSize getSize isNumber typeGetSize)

/-! ### Numbers in another byte order -/

theorem chunk_reversed {k i : Nat} {b b' : Bytes} (h : ElementsReversed k b b') (hi : i * k + k ≤ b.length) :
    (b'.drop (i * k)).take k = ((b.drop (i * k)).take k).reverse := by
  apply List.ext_getElem?
  intro j
  have hl : ((b.drop (i * k)).take k).length = k := by rw [List.length_take, List.length_drop]; omega
  by_cases hj : j < k
  · rw [List.getElem?_take_of_lt hj, List.getElem?_drop, h.2 _ (by omega), List.getElem?_reverse (by omega), hl,
      List.getElem?_take_of_lt (by omega), List.getElem?_drop]
    have h1 : (i * k + j) / k = i := by rw [Nat.mul_comm, Nat.mul_add_div (by omega), Nat.div_eq_of_lt hj]; omega
    have h2 : (i * k + j) % k = j := by rw [Nat.mul_comm, Nat.mul_add_mod, Nat.mod_eq_of_lt hj]
    rw [h1, h2]
  · rw [List.getElem?_eq_none (by rw [List.length_take]; omega), List.getElem?_eq_none (by rw [List.length_reverse]; omega)]

theorem numVal_reverse (w r : Order) (h : w ≠ r) (b : Bytes) : numVal r b.reverse = numVal w b := by
  cases w <;> cases r <;> first | exact absurd rfl h | simp [numVal]

theorem elems_same {w r : Order} {k : Nat} {b b' : Bytes} (h : SameNumber w r k b b') : elems r k b' = elems w k b := by
  unfold SameNumber at h
  split at h
  · rename_i e; rw [e, h]
  · rename_i e
    unfold elems
    rw [h.1]
    apply List.map_congr_left
    intro i hi
    have hi := List.mem_range.mp hi
    have : (i + 1) * k ≤ b.length := Nat.le_trans (Nat.mul_le_mul_right k hi) (Nat.div_mul_le_self _ _)
    rw [chunk_reversed h (by rw [Nat.add_mul] at this; omega), numVal_reverse w r e]

/-! ### Names and keys -/

theorem find_all (c : Cls) : Cls.all.find? (·.name == c.name) = some c := by
  match c with
  | .string | .constant | .mutableString | .number false | .number true | .boolean | .data false | .data true | .array false | .array true
  | .linkedList false | .linkedList true | .hashTable false | .hashTable true | .tree false | .tree true | .pair | .struct | .predicate =>
    decide +kernel

theorem name_inj {a b : Cls} (h : a.name = b.name) : a = b := by
  have := find_all a
  rw [h, find_all b] at this
  exact (Option.some.inj this).symm

theorem find_known {known : List Cls} {c : Cls} (h : c ∈ known) : known.find? (·.name == c.name) = some c := by
  cases hf : known.find? (·.name == c.name) with
  | none => have := List.find?_eq_none.mp hf c h; simp at this
  | some d =>
    have := List.find?_some hf
    have e : d = c := name_inj (by simpa using this)
    rw [e]

theorem name_ok (c : Cls) : 0 ∉ c.name ∧ c.name.length + 1 < 2 ^ 24 := by
  match c with
  | .string | .constant | .mutableString | .number false | .number true | .boolean | .data false | .data true | .array false | .array true
  | .linkedList false | .linkedList true | .hashTable false | .hashTable true | .tree false | .tree true | .pair | .struct | .predicate =>
    decide +kernel

theorem any_known {known : List Cls} {c : Cls} (h : c ∈ known) : known.any (·.name == c.name) = true :=
  List.any_eq_true.mpr ⟨c, h, by simp⟩

theorem reader_gets {known : List Cls} {c : Cls} (h : c ∈ known) : (readerOf known).gets c.name = c.gets := by
  simp only [readerOf, find_known h]

/-! ### What is added can be archived -/

theorem typeNumber_encode {tag : BitVec 32} (h : typeIsNumber tag = true) {n : Nat} (hn : n < 2 ^ 24) :
    getType (encode tag (BitVec.ofNat 32 n)) = tag ∧ (getCount (encode tag (BitVec.ofNat 32 n))).toNat = n := by
  have h' : tag.toNat < 26 := by unfold typeIsNumber at h; simp at h; omega
  exact encode_facts tag n h' hn

theorem typeSize_encode {tag : BitVec 32} (h : typeIsNumber tag = true) {n : Nat} (hn : n < 2 ^ 24) :
    getTypeSize (encode tag (BitVec.ofNat 32 n)) = typeGetSize tag := by
  unfold getTypeSize typeGetSize; rw [(typeNumber_encode h hn).1]

theorem targets_refs (v : Val) : ∀ p ∈ v.puts, ∀ t ∈ p.targets, t ∈ v.refs := by
  have hobj : ∀ (k : Bytes) (x : Option Nat) t, t ∈ (Put.object k (x.map .obj)).targets → t ∈ x.toList := by
    intro k x t ht; cases x <;> simp_all [Put.targets]
  intro p hp t ht
  match v with
  | .str _ x => simp only [Val.puts] at hp; split at hp <;> simp at hp; subst hp; simp [Put.targets] at ht
  | .num _ _ _ => simp [Val.puts] at hp; subst hp; simp [Put.targets] at ht
  | .bool _ => simp [Val.puts] at hp; subst hp; simp [Put.targets] at ht
  | .data _ _ _ =>
    simp only [Val.puts, putsData] at hp
    split at hp
    · simp at hp; subst hp; simp [Put.targets] at ht
    · split at hp <;> simp at hp; subst hp; simp [Put.targets] at ht
  | .list _ xs => simp [Val.puts] at hp; subst hp; exact ht
  | .table _ ps => simp [Val.puts] at hp; subst hp; exact ht
  | .pair a b =>
    simp only [Val.puts, List.mem_cons, List.not_mem_nil, or_false] at hp
    rcases hp with hp | hp <;> subst hp <;> (have := hobj _ _ _ ht; simp only [Val.refs, List.mem_append]; tauto)
  | .struct s b =>
    simp only [Val.puts, List.mem_cons, List.not_mem_nil, or_false] at hp
    rcases hp with hp | hp <;> subst hp
    · exact hobj _ _ _ ht
    · simp [Put.targets] at ht
  | .pred op a ka b kb =>
    simp only [Val.puts, List.mem_cons, List.not_mem_nil, or_false] at hp
    rcases hp with hp | hp | hp | hp | hp <;> subst hp <;> (have := hobj _ _ _ ht; simp only [Val.refs, List.mem_append]; tauto)

theorem puts_ok (R : Reader) {v : Val} (h : v.Ok) : ∀ p ∈ v.puts, PutOk R p := by
  have hobj : ∀ (k : Bytes) (x : Option Nat), PutOk R (.object k (x.map .obj)) := by intro k x; cases x <;> trivial
  intro p hp
  match v, h with
  | .str _ x, h => simp only [Val.puts] at hp; split at hp <;> simp at hp; subst hp; exact h.2
  | .num _ _ _, h => simp [Val.puts] at hp; subst hp; exact h
  | .bool b, _ => simp [Val.puts] at hp; subst hp; cases b <;> (simp only [PutOk]; decide)
  | .data _ tag b, h =>
    simp only [Val.puts, putsData] at hp
    simp only [Val.Ok] at h
    by_cases ht : typeIsNumber tag = true
    · rw [if_pos ht] at hp h
      obtain ⟨hs, n, h0, hn, hl⟩ := h
      have hpos : 0 < typeGetSize tag := by simp at hs; omega
      have hdiv : b.length / typeGetSize tag = n := by rw [hl, Nat.mul_div_cancel_left _ hpos]
      simp at hp; subst hp
      rw [hdiv]
      obtain ⟨e1, e2⟩ := typeNumber_encode ht hn
      refine ⟨?_, by rw [typeSize_encode ht hn]; exact hs, by rw [typeSize_encode ht hn, e2]; exact hl⟩
      unfold isNumber; rw [e1, e2]; unfold typeIsNumber at ht; simp at ht ⊢; omega
    · rw [if_neg ht] at hp h
      split at hp <;> simp at hp; subst hp; exact h.2
  | .list _ xs, h => simp [Val.puts] at hp; subst hp; exact h.2
  | .table _ ps, h => simp [Val.puts] at hp; subst hp; exact h.2
  | .pair a b, _ =>
    simp only [Val.puts, List.mem_cons, List.not_mem_nil, or_false] at hp
    rcases hp with hp | hp <;> subst hp <;> exact hobj _ _
  | .struct s b, h =>
    simp only [Val.puts, List.mem_cons, List.not_mem_nil, or_false] at hp
    rcases hp with hp | hp <;> subst hp
    · exact hobj _ _
    · exact h.2
  | .pred op a ka b kb, _ =>
    simp only [Val.puts, List.mem_cons, List.not_mem_nil, or_false] at hp
    rcases hp with hp | hp | hp | hp | hp <;> subst hp <;> exact hobj _ _

/-- Keys are told apart by what is added: keys and kinds. -/
theorem keysOk_of (ps : List Put) (gs : List (Kind × Bytes))
    (h1 : (ps.map Put.key).Pairwise fun a b => strhash32 a ≠ strhash32 b)
    (h2 : ∀ p ∈ ps, ∀ g ∈ gs, strhash32 p.key = strhash32 g.2 → p.key = g.2 ∧ Fits p g.1) : KeysOk ps gs :=
  ⟨(List.pairwise_map (f := Put.key) (R := fun a b => strhash32 a ≠ strhash32 b)).mp h1, h2⟩

theorem keys_ok {v : Val} (h : v.Ok) : KeysOk v.puts v.cls.gets := by
  match v, h with
  | .str c x, h =>
    have hg : c.gets = [(.text, ascii "str")] := by rcases h.1 with e | ⟨e, _⟩ | e <;> subst e <;> rfl
    simp only [Val.puts, Val.cls, hg]
    split <;> refine ⟨by simp, ?_⟩ <;> simp [Fits, Put.key, Put.kind]
  | .num _ _ _, _ => refine ⟨by simp [Val.puts], ?_⟩; simp [Val.puts, Val.cls, Cls.gets, Fits, Put.key, Put.kind, Put.enc]
  | .bool _, _ => refine ⟨by simp [Val.puts], ?_⟩; simp [Val.puts, Val.cls, Cls.gets, Fits, Put.key, Put.kind, Put.enc]
  | .data _ _ _, _ =>
    simp only [Val.puts, putsData]
    split
    · refine ⟨by simp, ?_⟩; simp [Val.cls, Cls.gets, Fits, Put.key, Put.kind, Put.enc]
    · split <;> refine ⟨by simp, ?_⟩ <;> simp [Val.cls, Cls.gets, Fits, Put.key, Put.kind, Put.enc]
  | .list c xs, h =>
    have hg : c.gets = [(.coll, ascii "objects")] := by obtain ⟨⟨m, e | e⟩, _⟩ := h <;> subst e <;> rfl
    simp only [Val.puts, Val.cls, hg]; refine ⟨by simp, ?_⟩; simp [Fits, Put.key, Put.kind]
  | .table c xs, h =>
    have hg : c.gets = [(.keyed, ascii "pairs")] := by obtain ⟨⟨m, e | e⟩, _⟩ := h <;> subst e <;> rfl
    simp only [Val.puts, Val.cls, hg]; refine ⟨by simp, ?_⟩; simp [Fits, Put.key, Put.kind]
  | .pair a b, _ =>
    apply keysOk_of
    · exact (by decide +kernel : List.Pairwise (fun a b => strhash32 a ≠ strhash32 b) [ascii "first", ascii "second"])
    · have : ∀ x ∈ [ascii "first", ascii "second"], ∀ y ∈ [ascii "first", ascii "second"], strhash32 x = strhash32 y → x = y := by decide +kernel
      intro p hp g hg e
      simp only [Val.puts, List.mem_cons, List.not_mem_nil, or_false] at hp
      simp only [Val.cls, Cls.gets, List.mem_cons, List.not_mem_nil, or_false] at hg
      refine ⟨this _ ?_ _ ?_ e, Or.inl ?_⟩
      · rcases hp with hp | hp <;> subst hp <;> simp [Put.key]
      · rcases hg with hg | hg <;> subst hg <;> simp
      · rcases hp with hp | hp <;> subst hp <;> rcases hg with hg | hg <;> subst hg <;> rfl
  | .struct s b, _ =>
    apply keysOk_of
    · exact (by decide +kernel : List.Pairwise (fun a b => strhash32 a ≠ strhash32 b) [ascii "semantic", ascii "value"])
    · have h1 : strhash32 (ascii "semantic") ≠ strhash32 (ascii "value") := by decide +kernel
      intro p hp g hg e
      simp only [Val.puts, List.mem_cons, List.not_mem_nil, or_false] at hp
      simp only [Val.cls, Cls.gets, List.mem_cons, List.not_mem_nil, or_false] at hg
      rcases hp with hp | hp <;> subst hp <;> rcases hg with hg | hg <;> subst hg
      · exact ⟨rfl, Or.inl rfl⟩
      · exact absurd e h1
      · exact absurd e.symm h1
      · exact ⟨rfl, Or.inl rfl⟩
  | .pred op a ka b kb, _ =>
    apply keysOk_of
    · exact (by decide +kernel : List.Pairwise (fun a b => strhash32 a ≠ strhash32 b)
        [ascii "op", ascii "obj_a", ascii "key_a", ascii "obj_b", ascii "key_b"])
    · have : ∀ x ∈ [ascii "op", ascii "obj_a", ascii "key_a", ascii "obj_b", ascii "key_b"],
          ∀ y ∈ [ascii "op", ascii "obj_a", ascii "key_a", ascii "obj_b", ascii "key_b"], strhash32 x = strhash32 y → x = y := by decide +kernel
      intro p hp g hg e
      simp only [Val.puts, List.mem_cons, List.not_mem_nil, or_false] at hp
      simp only [Val.cls, Cls.gets, List.mem_cons, List.not_mem_nil, or_false] at hg
      refine ⟨this _ ?_ _ ?_ e, Or.inl ?_⟩
      · rcases hp with hp | hp | hp | hp | hp <;> subst hp <;> simp [Put.key]
      · rcases hg with hg | hg | hg | hg | hg <;> subst hg <;> simp
      · have h1 : p.kind = .object := by rcases hp with hp | hp | hp | hp | hp <;> subst hp <;> rfl
        have h2 : g.1 = .object := by rcases hg with hg | hg | hg | hg | hg <;> subst hg <;> rfl
        rw [h1, h2]

theorem world_archivable {H : Nat → Val} {known : List Cls} {U : List Nat} (hU : ∀ o ∈ U, (H o).Ok ∧ (H o).cls ∈ known ∧ ∀ t ∈ (H o).refs, t ∈ U) :
    Archivable (worldOf H) (readerOf known) U where
  closed o ho p hp t ht := (hU o ho).2.2 t (targets_refs _ p hp t ht)
  egg _ _ := rfl
  cls o ho := ⟨any_known (hU o ho).2.1, any_known (hU o ho).2.1, (name_ok _).1, (name_ok _).2⟩
  puts o ho p hp := puts_ok _ (hU o ho).1 p hp
  keys o ho := by
    have : (readerOf known).gets ((worldOf H).cls o) = (H o).cls.gets := reader_gets (hU o ho).2.1
    rw [this]; exact keys_ok (hU o ho).1

theorem world_avoids {H : Nat → Val} {root : Nat} {o : Nat} (hr : root ∉ (H o).refs) (name : Bytes) :
    ∀ p ∈ (worldOf H).puts o, Avoids (some root) name p := by
  have hobj : ∀ (k : Bytes) (x : Option Nat) k' n, ¬ (Put.object k (x.map .obj) = .object k' (some (.cls n)) ∨
      Put.object k (x.map .obj) = .object k' (some (.sel n))) := by
    intro k x k' n; cases x <;> simp
  intro p hp
  refine ⟨fun t ht e => ?_, fun k n h => ?_⟩
  · cases e; exact hr (targets_refs _ p hp root ht)
  · exfalso
    generalize H o = v at hr
    have hp : p ∈ (H o).puts := hp
    match hv : H o, hp with
    | .str _ x, hp => simp only [Val.puts] at hp; split at hp <;> simp at hp; subst hp; simp at h
    | .num _ _ _, hp => simp [Val.puts] at hp; subst hp; simp at h
    | .bool _, hp => simp [Val.puts] at hp; subst hp; simp at h
    | .data _ _ _, hp =>
      simp only [Val.puts, putsData] at hp
      split at hp
      · simp at hp; subst hp; simp at h
      · split at hp <;> simp at hp; subst hp; simp at h
    | .list _ xs, hp => simp [Val.puts] at hp; subst hp; simp at h
    | .table _ ps, hp => simp [Val.puts] at hp; subst hp; simp at h
    | .pair a b, hp =>
      simp only [Val.puts, List.mem_cons, List.not_mem_nil, or_false] at hp
      rcases hp with hp | hp <;> subst hp <;> exact hobj _ _ _ _ h
    | .struct s b, hp =>
      simp only [Val.puts, List.mem_cons, List.not_mem_nil, or_false] at hp
      rcases hp with hp | hp <;> subst hp
      · exact hobj _ _ _ _ h
      · simp at h
    | .pred op a ka b kb, hp =>
      simp only [Val.puts, List.mem_cons, List.not_mem_nil, or_false] at hp
      rcases hp with hp | hp | hp | hp | hp <;> subst hp <;> exact hobj _ _ _ _ h

/-! ### What is read -/

theorem pairwise_unique {ps : List Put} (h : ps.Pairwise fun p q => strhash32 p.key ≠ strhash32 q.key) {p q : Put} (hp : p ∈ ps) (hq : q ∈ ps)
    (e : strhash32 p.key = strhash32 q.key) : p = q := by
  induction ps with
  | nil => cases hp
  | cons x xs ih =>
    rw [List.pairwise_cons] at h
    rcases List.mem_cons.mp hp with h1 | h1 <;> rcases List.mem_cons.mp hq with h2 | h2
    · rw [h1, h2]
    · subst h1; exact absurd e (h.1 q h2)
    · subst h2; exact absurd e.symm (h.1 p h1)
    · exact ih h.2 h1 h2

theorem reads_unique {w r : Order} {ψ : Nat → Option Nat} {ps : List Put} {gs : List (Kind × Bytes)} {g : Kind × Bytes} {v : Got} {p : Put} (hk : KeysOk ps gs)
    (hp : p ∈ ps) (hkey : p.key = g.2) (h : ReadsBack w r ψ ps g v) :
    (p.kind = g.1 → Matches w r ψ p v) ∧ (p.kind ≠ g.1 → ReadAs p g.1 v) := by
  have huniq : ∀ q ∈ ps, q.key = g.2 → q = p := fun q hq e => by
    exact pairwise_unique hk.1 hq hp (by rw [e, hkey])
  rcases h with ⟨q, h1, h2, h3, h4⟩ | ⟨h, _⟩ | ⟨q, h1, h2, h3, h4⟩
  · have := huniq q h1 h2; subst this; exact ⟨fun _ => h4, fun h => absurd h3 h⟩
  · exact absurd hkey (h p hp)
  · have := huniq q h1 h2; subst this; exact ⟨fun h => absurd h h3, fun _ => h4⟩

theorem reads_absent {w r : Order} {ψ : Nat → Option Nat} {g : Kind × Bytes} {v : Got} (h : ReadsBack w r ψ [] g v) : v = absent g.1 := by
  rcases h with ⟨q, h1, _⟩ | ⟨_, h⟩ | ⟨q, h1, _⟩
  · cases h1
  · exact h
  · cases h1

/-- The values of two objects agree, references going to corresponding objects. -/
inductive Same (w r : Order) (ψ : Nat → Option Nat) : Val → Val → Prop where
  | str {c c' t} (h : (c = .mutableString) ↔ (c' = .mutableString)) : Same w r ψ (.str c t) (.str c' t)
  | num {v e b b'} (h : SameNumber w r (getTypeSize e) b b') : Same w r ψ (.num v e b) (.num v e b')
  | bool {b} : Same w r ψ (.bool b) (.bool b)
  | data {m tag b b'} (h : elems r (elemSize tag) b' = elems w (elemSize tag) b) : Same w r ψ (.data m tag b) (.data m tag b')
  | list {c xs} (h : ∀ o, some o ∈ xs → (ψ o).isSome) : Same w r ψ (.list c xs) (.list c (xs.map (·.bind ψ)))
  | table {c ps ys} (h : ys.map (fun y => (some y.1, y.2)) = ps.map (fun p => (ψ p.1, p.2.bind ψ))) (h' : ∀ k o, (k, some o) ∈ ps → (ψ o).isSome) :
      Same w r ψ (.table c ps) (.table c ys)
  | pair {a b} (ha : ∀ o, a = some o → (ψ o).isSome) (hb : ∀ o, b = some o → (ψ o).isSome) : Same w r ψ (.pair a b) (.pair (a.bind ψ) (b.bind ψ))
  | struct {s b} (hs : ∀ o, s = some o → (ψ o).isSome) : Same w r ψ (.struct s b) (.struct (s.bind ψ) b)
  | pred {op a ka b kb} (h0 : ∀ o, op = some o → (ψ o).isSome) (h1 : ∀ o, a = some o → (ψ o).isSome) (h2 : ∀ o, ka = some o → (ψ o).isSome)
      (h3 : ∀ o, b = some o → (ψ o).isSome) (h4 : ∀ o, kb = some o → (ψ o).isSome) :
      Same w r ψ (.pred op a ka b kb) (.pred (op.bind ψ) (a.bind ψ) (ka.bind ψ) (b.bind ψ) (kb.bind ψ))

theorem matches_object {w r : Order} {ψ : Nat → Option Nat} {k : Bytes} {x : Option Nat} {v : Got} (h : Matches w r ψ (.object k (x.map .obj)) v) :
    ∃ n, v = .object n ∧ objOf n = some (x.bind ψ) ∧ ∀ o, x = some o → (ψ o).isSome := by
  cases x with
  | none => exact ⟨none, h, rfl, nofun⟩
  | some o =>
    obtain ⟨id, h1, h2⟩ := h
    exact ⟨_, h2, by simp [objOf, h1], fun o' e => by cases e; rw [h1]; rfl⟩

theorem takeWhile_all {t : Bytes} (h : 0 ∉ t) : t.takeWhile (· ≠ 0) = t := by
  induction t with
  | nil => rfl
  | cons x xs ih =>
    simp only [List.mem_cons, not_or] at h
    have hx : decide (x ≠ 0) = true := by simpa using fun e => h.1 e.symm
    rw [List.takeWhile_cons, if_pos hx, ih h.2]

theorem initString_same (consts : Bytes → Bool) {c : Cls} (hc : c = .string ∨ (c = .constant ∧ 0 ∉ t) ∨ c = .mutableString) {w r : Order} {ψ : Nat → Option Nat} :
    Same w r ψ (.str c t) (initString consts c t) := by
  have hcopy : c ≠ .mutableString → Same w r ψ (.str c t) (copySubstring t) := by
    intro hc
    unfold copySubstring
    split
    · rename_i h; rw [List.length_eq_zero_iff.mp h]; exact .str (by simp [hc])
    · exact .str (by simp [hc])
  rcases hc with e | ⟨e, h0⟩ | e <;> subst e
  · exact hcopy (by decide)
  · have : t.takeWhile (· ≠ 0) = t := takeWhile_all h0
    unfold initString
    simp only [this]
    split
    · exact .str Iff.rfl
    · exact hcopy (by decide)
  · exact .str Iff.rfl

theorem gets1 {g : Kind × Bytes} {gots : List Got} (hl : gots.length = 1) {P : Kind × Bytes → Got → Prop}
    (h : ∀ (k : Nat) x v, [g][k]? = some x → gots[k]? = some v → P x v) : ∃ v, gots = [v] ∧ P g v := by
  match gots, hl with
  | [v], _ => exact ⟨v, rfl, h 0 g v rfl rfl⟩

/-- What an `initWithEgg` method makes of what it reads agrees with what was added. -/
theorem build_same (consts : Bytes → Bool) {w r : Order} {ψ : Nat → Option Nat} {v : Val} (hv : v.Ok) {gots : List Got}
    (hl : gots.length = v.cls.gets.length) (h : ∀ (k : Nat) g x, v.cls.gets[k]? = some g → gots[k]? = some x → ReadsBack w r ψ v.puts g x) :
    ∃ v', build consts v.cls gots = some v' ∧ Same w r ψ v v' := by
  have hk := keys_ok hv
  match v, hv with
  | .str c t, hv =>
    have hg : c.gets = [(.text, ascii "str")] := by rcases hv.1 with e | ⟨e, _⟩ | e <;> subst e <;> rfl
    simp only [Val.cls] at hl h ⊢
    rw [hg] at hl h
    obtain ⟨x, rfl, hx⟩ := gets1 hl h
    have : ∃ t', x = .text t' ∧ t'.getD [] = t := by
      by_cases ht : 0 < t.length
      · have hps : (Val.str c t).puts = [.text (ascii "str") t] := by simp [Val.puts, ht]
        rw [hps] at hx hk
        exact ⟨some t, (reads_unique hk (List.mem_singleton.mpr rfl) rfl hx).1 rfl, rfl⟩
      · have hps : (Val.str c t).puts = [] := by simp [Val.puts, ht]
        rw [hps] at hx
        refine ⟨none, reads_absent hx, ?_⟩
        simp at ht; simp [ht]
    obtain ⟨t', rfl, e⟩ := this
    have hs := initString_same (t := t) (ψ := ψ) (w := w) (r := r) consts hv.1
    rcases hv.1 with e' | ⟨e', _⟩ | e' <;> subst e' <;> exact ⟨_, by simp only [build, e], hs⟩
  | .num var e b, hv =>
    match gots, hl with
    | [x, y], _ =>
      have hx := (reads_unique hk (List.mem_singleton.mpr rfl) rfl (h 0 _ x rfl rfl)).2 nofun
      obtain ⟨e', he', hx⟩ : ∃ e', some e = some e' ∧ x = .encoding e' := by simpa [ReadAs, Put.enc] using hx
      obtain ⟨b', hy, hs⟩ := (reads_unique hk (List.mem_singleton.mpr rfl) rfl (h 1 _ y rfl rfl)).1 rfl
      cases he'
      subst hx hy
      exact ⟨_, rfl, .num hs⟩
  | .bool b, _ =>
    obtain ⟨x, rfl, hx⟩ := gets1 hl h
    obtain ⟨b', hy, hs⟩ := (reads_unique hk (List.mem_singleton.mpr rfl) rfl hx).1 rfl
    have : b' = [if b then 1 else 0] := by
      unfold SameNumber at hs
      split at hs
      · exact hs
      · obtain ⟨h1, h2⟩ := hs
        have h0 := h2 0 (by simp)
        match b', h1 with
        | [x], _ =>
          rw [show getTypeSize (encode 8 1) = 1 from by decide] at h0
          cases b <;> simpa using h0
    subst hy this
    refine ⟨.bool b, ?_, .bool⟩
    cases b <;> rfl
  | .data m tag b, hv =>
    match gots, hl with
    | [x, y, z], _ =>
      simp only [Val.Ok] at hv
      by_cases ht : typeIsNumber tag = true
      · rw [if_pos ht] at hv
        obtain ⟨hs, n, h0, hn, hlen⟩ := hv
        have hpos : 0 < typeGetSize tag := by simp at hs; omega
        have hdiv : b.length / typeGetSize tag = n := by rw [hlen, Nat.mul_div_cancel_left _ hpos]
        obtain ⟨e1, e2⟩ := typeNumber_encode ht hn
        have hps : (Val.data m tag b).puts = [.number (ascii "data") (encode tag (BitVec.ofNat 32 n)) b] := by simp [Val.puts, putsData, ht, hdiv]
        rw [hps] at h hk
        have hx := (reads_unique hk (List.mem_singleton.mpr rfl) rfl (h 0 _ x rfl rfl)).2 nofun
        obtain ⟨e', he', hx⟩ : ∃ e', some (encode tag (BitVec.ofNat 32 n)) = some e' ∧ x = .encoding e' := by simpa [ReadAs, Put.enc] using hx
        obtain ⟨b', hy, hs'⟩ := (reads_unique hk (List.mem_singleton.mpr rfl) rfl (h 1 _ y rfl rfl)).1 rfl
        have hz := (reads_unique hk (List.mem_singleton.mpr rfl) rfl (h 2 _ z rfl rfl)).2 nofun
        have hz : z = .binary none := by simpa [ReadAs, absent] using hz
        cases he'
        subst hx hy hz
        have hnum : isNumber (encode tag (BitVec.ofNat 32 n)) = true := by
          unfold isNumber; rw [e1, e2]; unfold typeIsNumber at ht; simp at ht ⊢; omega
        refine ⟨.data m tag b', by simp only [Val.cls, build, hnum, if_true, Option.map_some, e1], .data ?_⟩
        rw [typeSize_encode ht hn] at hs'
        simp only [elemSize, ht, if_true]
        exact elems_same hs'
      · rw [if_neg ht] at hv
        have hsame : ∀ b, Same w r ψ (.data m tag b) (.data m 0 b) := fun b => by
          rw [hv.1]
          refine .data (elems_same (w := w) (r := r) ?_)
          simp only [elemSize, show typeIsNumber 0 = false from rfl, Bool.false_eq_true, if_false, SameNumber]
          split
          · trivial
          · exact ⟨rfl, fun i _ => by simp [Nat.mod_one]⟩
        by_cases hb : 0 < b.length
        · have hps : (Val.data m tag b).puts = [.binary (ascii "data") b] := by simp [Val.puts, putsData, ht, hb]
          rw [hps] at h hk
          have hx := (reads_unique hk (List.mem_singleton.mpr rfl) rfl (h 0 _ x rfl rfl)).2 nofun
          obtain ⟨e', he', hx⟩ : ∃ e', some (encode tBinary (BitVec.ofNat 32 b.length)) = some e' ∧ x = .encoding e' := by simpa [ReadAs, Put.enc] using hx
          have hy := (reads_unique hk (List.mem_singleton.mpr rfl) rfl (h 1 _ y rfl rfl)).2 nofun
          have hy : y = .number none := by simpa [ReadAs, absent] using hy
          have hz : z = .binary (some b) := (reads_unique hk (List.mem_singleton.mpr rfl) rfl (h 2 _ z rfl rfl)).1 rfl
          cases he'
          subst hx hy hz
          have hnum : isNumber (encode tBinary (BitVec.ofNat 32 b.length)) = false := by
            unfold isNumber; rw [(encode_facts tBinary b.length (by decide) hv.2).1]; simp [tBinary]
          refine ⟨.data m 0 b, by simp [Val.cls, build, hnum], hsame b⟩
        · have hps : (Val.data m tag b).puts = [] := by simp [Val.puts, putsData, ht, hb]
          rw [hps] at h
          have hx := reads_absent (h 0 _ x rfl rfl)
          have hy := reads_absent (h 1 _ y rfl rfl)
          have hz := reads_absent (h 2 _ z rfl rfl)
          subst hx hy hz
          have : b = [] := by simpa using hb
          refine ⟨.data m 0 [], by simp [Val.cls, build, absent, isNumber, getCount, Encoding.isMatrix], by rw [this]; exact hsame []⟩
  | .list c xs, hv =>
    have hg : c.gets = [(.coll, ascii "objects")] := by obtain ⟨⟨m, e | e⟩, _⟩ := hv <;> subst e <;> rfl
    simp only [Val.cls] at hl h ⊢
    rw [hg] at hl h
    obtain ⟨x, rfl, hx⟩ := gets1 hl h
    obtain ⟨h1, h2⟩ := (reads_unique hk (List.mem_singleton.mpr rfl) rfl hx).1 rfl
    subst h1
    obtain ⟨⟨m, e | e⟩, _⟩ := hv <;> subst e <;> exact ⟨_, rfl, .list h2⟩
  | .table c ps, hv =>
    have hg : c.gets = [(.keyed, ascii "pairs")] := by obtain ⟨⟨m, e | e⟩, _⟩ := hv <;> subst e <;> rfl
    simp only [Val.cls] at hl h ⊢
    rw [hg] at hl h
    obtain ⟨x, rfl, hx⟩ := gets1 hl h
    obtain ⟨ys, h0, h1, h2⟩ := (reads_unique hk (List.mem_singleton.mpr rfl) rfl hx).1 rfl
    subst h0
    obtain ⟨⟨m, e | e⟩, _⟩ := hv <;> subst e <;> exact ⟨_, rfl, .table h1 h2⟩
  | .pair a b, _ =>
    match gots, hl with
    | [x, y], _ =>
      obtain ⟨n1, rfl, e1, s1⟩ := matches_object ((reads_unique hk (p := .object (ascii "first") (a.map .obj)) (by simp [Val.puts]) rfl (h 0 _ x rfl rfl)).1 rfl)
      obtain ⟨n2, rfl, e2, s2⟩ := matches_object ((reads_unique hk (p := .object (ascii "second") (b.map .obj)) (by simp [Val.puts]) rfl (h 1 _ y rfl rfl)).1 rfl)
      exact ⟨_, by simp only [Val.cls, build, e1, e2, Option.bind_some, Option.map_some], .pair s1 s2⟩
  | .struct s b, hv =>
    match gots, hl with
    | [x, y], _ =>
      obtain ⟨n1, rfl, e1, s1⟩ := matches_object ((reads_unique hk (p := .object (ascii "semantic") (s.map .obj)) (by simp [Val.puts]) rfl (h 0 _ x rfl rfl)).1 rfl)
      have hy : y = .binary (some b) := (reads_unique hk (p := .binary (ascii "value") b) (by simp [Val.puts]) rfl (h 1 _ y rfl rfl)).1 rfl
      subst hy
      have hb : ¬ b.length = 0 := by simpa using hv.1
      exact ⟨_, by simp only [Val.cls, build, e1, if_neg hb, Option.map_some], .struct s1⟩
  | .pred op a ka b kb, _ =>
    match gots, hl with
    | [x0, x1, x2, x3, x4], _ =>
      obtain ⟨n0, rfl, e0, s0⟩ := matches_object ((reads_unique hk (p := .object (ascii "op") (op.map .obj)) (by simp [Val.puts]) rfl (h 0 _ x0 rfl rfl)).1 rfl)
      obtain ⟨n1, rfl, e1, s1⟩ := matches_object ((reads_unique hk (p := .object (ascii "obj_a") (a.map .obj)) (by simp [Val.puts]) rfl (h 1 _ x1 rfl rfl)).1 rfl)
      obtain ⟨n2, rfl, e2, s2⟩ := matches_object ((reads_unique hk (p := .object (ascii "key_a") (ka.map .obj)) (by simp [Val.puts]) rfl (h 2 _ x2 rfl rfl)).1 rfl)
      obtain ⟨n3, rfl, e3, s3⟩ := matches_object ((reads_unique hk (p := .object (ascii "obj_b") (b.map .obj)) (by simp [Val.puts]) rfl (h 3 _ x3 rfl rfl)).1 rfl)
      obtain ⟨n4, rfl, e4, s4⟩ := matches_object ((reads_unique hk (p := .object (ascii "key_b") (kb.map .obj)) (by simp [Val.puts]) rfl (h 4 _ x4 rfl rfl)).1 rfl)
      exact ⟨_, by simp only [Val.cls, build, e0, e1, e2, e3, e4, Option.bind_some, Option.map_some], .pred s0 s1 s2 s3 s4⟩

/-- Objects that correspond and agree have the same values, to any depth. -/
theorem tree_same {w r : Order} {ψ : Nat → Option Nat} {H : Nat → Val} {H' : Nat → Option Val} {U : List Nat}
    (h : ∀ o ∈ U, ∀ id, ψ o = some id → (∃ v', H' id = some v' ∧ Same w r ψ (H o) v') ∧ ∀ t ∈ (H o).refs, t ∈ U) :
    ∀ (n : Nat) (x : Option Nat), (∀ o, x = some o → o ∈ U ∧ (ψ o).isSome) → tree r H' n (x.bind ψ) = tree w (fun o => some (H o)) n x
  | n, none, _ => by cases n <;> rfl
  | 0, some o, hx => by
    obtain ⟨id, e⟩ := Option.isSome_iff_exists.mp (hx o rfl).2
    simp [e, tree]
  | n + 1, some o, hx => by
    obtain ⟨id, e⟩ := Option.isSome_iff_exists.mp (hx o rfl).2
    obtain ⟨⟨v', hv', hs⟩, hrefs⟩ := h o (hx o rfl).1 id e
    have ih := tree_same h n
    rw [Option.bind_some, e]
    simp only [tree, hv']
    generalize H o = v at hs hrefs
    cases hs with
    | str hm => simp only [hm]
    | num hb => simp only [elems_same hb]
    | bool => rfl
    | data hb => simp only [hb]
    | list hx =>
      simp only [List.map_map]
      congr 1
      apply List.map_congr_left
      intro x hxm
      exact ih x (fun o e => ⟨hrefs o (by simp only [Val.refs, List.mem_filterMap]; exact ⟨x, hxm, e⟩), hx o (e ▸ hxm)⟩)
    | table hp hq =>
      rename_i c ps ys
      simp only
      have h1 : ys.map (fun p => (tree r H' n (some p.1), tree r H' n p.2)) =
          (ys.map (fun y => (some y.1, y.2))).map (fun p : Option Nat × Option Nat => (tree r H' n p.1, tree r H' n p.2)) := by rw [List.map_map]; rfl
      have hk : ∀ p ∈ ps, (ψ p.1).isSome := fun p hpm => by
        have hm : (ψ p.1, p.2.bind ψ) ∈ ys.map (fun y => (some y.1, y.2)) := by rw [hp]; exact List.mem_map_of_mem hpm
        obtain ⟨y, _, hy⟩ := List.mem_map.mp hm
        have h' : some y.1 = ψ p.1 := congrArg Prod.fst hy
        rw [← h']; rfl
      have hmem : ∀ p ∈ ps, ∀ t ∈ p.1 :: p.2.toList, t ∈ U := fun p hpm t ht =>
        hrefs t (by simp only [Val.refs, List.mem_flatMap]; exact ⟨p, hpm, ht⟩)
      rw [h1, hp, List.map_map]
      congr 1
      apply List.map_congr_left
      intro p hpm
      have a1 := ih (some p.1) (fun o e => by cases e; exact ⟨hmem p hpm _ (by simp), hk p hpm⟩)
      have a2 := ih p.2 (fun o e => ⟨hmem p hpm o (by simp [e]), hq p.1 o (e ▸ hpm)⟩)
      simp only [Function.comp, Option.bind_some] at a1 ⊢
      rw [a1, a2]
    | pair ha hb =>
      simp only [ih _ (fun o e => ⟨hrefs o (by simp [Val.refs, e]), ha o e⟩), ih _ (fun o e => ⟨hrefs o (by simp [Val.refs, e]), hb o e⟩)]
    | struct hs => simp only [ih _ (fun o e => ⟨hrefs o (by simp [Val.refs, e]), hs o e⟩)]
    | pred h0 h1 h2 h3 h4 =>
      simp only [ih _ (fun o e => ⟨hrefs o (by simp [Val.refs, e]), h0 o e⟩), ih _ (fun o e => ⟨hrefs o (by simp [Val.refs, e]), h1 o e⟩),
        ih _ (fun o e => ⟨hrefs o (by simp [Val.refs, e]), h2 o e⟩), ih _ (fun o e => ⟨hrefs o (by simp [Val.refs, e]), h3 o e⟩),
        ih _ (fun o e => ⟨hrefs o (by simp [Val.refs, e]), h4 o e⟩)]

end Egg
end Duck
