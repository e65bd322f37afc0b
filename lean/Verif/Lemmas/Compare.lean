import Verif.Spec.Compare
import Verif.Lemmas.Text
import Verif.Props.Number
/-! Lemmas for Props/Compare.lean. -/
namespace Duck
namespace Compare
open Unicode

/-! ### Bytes -/

theorem bytes_cons (x y : UInt8) (xs ys : List UInt8) :
    Data.compare (x :: xs) (y :: ys) = if x = y then Data.compare xs ys else (x.toNat : Int) - y.toNat := by
  unfold Data.compare
  simp only [List.length_cons, Nat.add_lt_add_iff_right, gt_iff_lt]
  have e : (if xs.length < ys.length then xs.length + 1 else ys.length + 1) = (if xs.length < ys.length then xs.length else ys.length) + 1 := by split <;> rfl
  rw [e]
  simp only [Data.memcmp]
  by_cases h : x = y
  · simp only [h, if_true]
  · have hn : (x.toNat : Int) - y.toNat ≠ 0 := fun e => h (UInt8.toNat_inj.mp (by omega))
    simp only [if_neg h, if_pos hn]

theorem bytes_sign : ∀ a b : List UInt8, (Data.compare a b < 0 ↔ a < b) ∧ (Data.compare a b = 0 ↔ a = b) ∧ (0 < Data.compare a b ↔ b < a)
  | [], [] => by simp [Data.compare, Data.memcmp]
  | [], y :: ys => by
      have : Data.compare [] (y :: ys) = -1 := by simp [Data.compare, Data.memcmp]
      rw [this]; simp
  | x :: xs, [] => by
      have : Data.compare (x :: xs) [] = 1 := by simp [Data.compare, Data.memcmp]
      rw [this]; simp
  | x :: xs, y :: ys => by
      rw [bytes_cons, List.cons_lt_cons_iff, List.cons_lt_cons_iff]
      obtain ⟨h1, h2, h3⟩ := bytes_sign xs ys
      by_cases h : x = y
      · subst h
        rw [if_pos rfl]
        have : ¬ x < x := by rw [UInt8.lt_iff_toNat_lt]; omega
        simp [this, h1, h2, h3]
      · rw [if_neg h]
        have hn : x.toNat ≠ y.toNat := fun e => h (UInt8.toNat_inj.mp e)
        rw [UInt8.lt_iff_toNat_lt, UInt8.lt_iff_toNat_lt]
        refine ⟨⟨fun _ => .inl (by omega), ?_⟩, ⟨fun _ => by omega, ?_⟩, ⟨fun _ => .inl (by omega), ?_⟩⟩
        · rintro (g | ⟨g, -⟩)
          · omega
          · exact absurd g h
        · intro g; injection g with g; exact absurd g h
        · rintro (g | ⟨g, -⟩)
          · omega
          · exact absurd g.symm h

theorem bytes_trans (a b c : List UInt8) (h1 : 0 ≤ Data.compare a b) (h2 : 0 ≤ Data.compare b c) : 0 ≤ Data.compare a c := by
  induction a generalizing b c with
  | nil =>
    cases b with
    | nil => exact h2
    | cons y ys => have : Data.compare [] (y :: ys) = -1 := by simp [Data.compare, Data.memcmp]
                   omega
  | cons x xs ih =>
    cases c with
    | nil => have : Data.compare (x :: xs) [] = 1 := by simp [Data.compare, Data.memcmp]
             omega
    | cons z zs =>
      cases b with
      | nil => have : Data.compare [] (z :: zs) = -1 := by simp [Data.compare, Data.memcmp]
               omega
      | cons y ys =>
        rw [bytes_cons] at h1 h2 ⊢
        by_cases e1 : x = y
        · subst e1
          rw [if_pos rfl] at h1
          by_cases e2 : x = z
          · subst e2; rw [if_pos rfl] at h2 ⊢; exact ih _ _ h1 h2
          · rw [if_neg e2] at h2 ⊢; exact h2
        · rw [if_neg e1] at h1
          have n1 : x.toNat ≠ y.toNat := fun e => e1 (UInt8.toNat_inj.mp e)
          by_cases e2 : y = z
          · subst e2; rw [if_neg e1]; exact h1
          · rw [if_neg e2] at h2
            have e3 : x ≠ z := fun e => by subst e; omega
            rw [if_neg e3]; omega

theorem memcmp_eq {a b : List UInt8} (h : a.length = b.length) : Data.memcmp a.length a b = Data.compare a b := by
  unfold Data.compare
  simp only [h, Nat.lt_irrefl, if_false, gt_iff_lt]
  split
  · rfl
  · rename_i g; exact Classical.not_not.mp g

/-- The comparison of values of structures: by length, then by bytes. -/
theorem value_eq (a b : List UInt8) :
    valueCompare a b = if a.length < b.length then 1 else if a.length > b.length then -1 else Data.compare a b := by
  unfold valueCompare
  by_cases h1 : a.length < b.length
  · rw [if_pos h1, if_pos h1]
  · rw [if_neg h1, if_neg h1]
    by_cases h2 : a.length > b.length
    · rw [if_pos h2, if_pos h2]
    · rw [if_neg h2, if_neg h2]
      have h : a.length = b.length := by omega
      by_cases h0 : a.length = 0
      · rw [if_pos h0]
        have ha : a = [] := List.length_eq_zero_iff.mp h0
        have hb : b = [] := List.length_eq_zero_iff.mp (by omega)
        rw [ha, hb]; rfl
      · rw [if_neg h0, memcmp_eq h]

/-! ### Laws of comparisons -/

/-- A total preorder: `0 ≤ f a b` means not after. -/
structure Laws {α : Type} (P : α → Prop) (f : α → α → Int) : Prop where
  anti : ∀ a b, P a → P b → (0 < f a b ↔ f b a < 0)
  trans : ∀ a b c, P a → P b → P c → 0 ≤ f a b → 0 ≤ f b c → 0 ≤ f a c

namespace Laws
variable {α β : Type} {P : α → Prop} {f g : α → α → Int}

theorem self (h : Laws P f) {a : α} (ha : P a) : f a a = 0 := by have := h.anti a a ha ha; omega

theorem swap (h : Laws P f) {a b : α} (ha : P a) (hb : P b) : (f a b = 0 ↔ f b a = 0) := by
  have h1 := h.anti a b ha hb; have h2 := h.anti b a hb ha; omega

theorem zero (h : Laws P f) {a b c : α} (ha : P a) (hb : P b) (hc : P c) (h1 : 0 ≤ f a b) (h2 : 0 ≤ f b c) (h0 : f a c = 0) : f a b = 0 ∧ f b c = 0 := by
  have h0' := (h.swap ha hc).mp h0
  have k1 := h.trans b c a hb hc ha h2 (by omega)
  have k2 := h.trans c a b hc ha hb (by omega) h1
  have k3 := h.anti a b ha hb
  have k4 := h.anti b c hb hc
  omega

theorem congr (h : Laws P f) (e : ∀ a b, P a → P b → g a b = f a b) : Laws P g where
  anti a b ha hb := by rw [e a b ha hb, e b a hb ha]; exact h.anti a b ha hb
  trans a b c ha hb hc := by rw [e a b ha hb, e b c hb hc, e a c ha hc]; exact h.trans a b c ha hb hc

theorem comap (h : Laws P f) (Q : β → Prop) (k : β → α) (hk : ∀ b, Q b → P (k b)) : Laws Q fun a b => f (k a) (k b) where
  anti a b ha hb := h.anti _ _ (hk a ha) (hk b hb)
  trans a b c ha hb hc := h.trans _ _ _ (hk a ha) (hk b hb) (hk c hc)

theorem lex (h1 : Laws P f) (h2 : Laws P g) : Laws P fun a b => if f a b ≠ 0 then f a b else g a b where
  anti a b ha hb := by
    have k1 := h1.anti a b ha hb
    have k2 := h1.anti b a hb ha
    have k3 := h2.anti a b ha hb
    show (0 < (if f a b ≠ 0 then f a b else g a b) ↔ (if f b a ≠ 0 then f b a else g b a) < 0)
    split <;> split <;> omega
  trans a b c ha hb hc := by
    show 0 ≤ (if f a b ≠ 0 then f a b else g a b) → 0 ≤ (if f b c ≠ 0 then f b c else g b c) → 0 ≤ (if f a c ≠ 0 then f a c else g a c)
    intro h3 h4
    have h3' : 0 ≤ f a b := by split at h3 <;> omega
    have h4' : 0 ≤ f b c := by split at h4 <;> omega
    have h5 := h1.trans a b c ha hb hc h3' h4'
    split
    · exact h5
    · rename_i h0
      obtain ⟨e1, e2⟩ := h1.zero ha hb hc h3' h4' (by omega)
      rw [if_neg (by omega)] at h3 h4
      exact h2.trans a b c ha hb hc h3 h4

end Laws

/-- Lexicographic order of lists of one length. -/
def lexItems {α : Type} (f : α → α → Int) : List α → List α → Int
  | x :: xs, y :: ys => if f x y ≠ 0 then f x y else lexItems f xs ys
  | _, _ => 0

theorem Laws.items {α : Type} {P : α → Prop} {f : α → α → Int} (h : Laws P f) : ∀ n, Laws (fun xs : List α => xs.length = n ∧ ∀ x ∈ xs, P x) (lexItems f)
  | 0 => by
      refine ⟨fun a b ha hb => ?_, fun a b c ha hb hc _ _ => ?_⟩
      · rw [List.length_eq_zero_iff.mp ha.1, List.length_eq_zero_iff.mp hb.1]; simp [lexItems]
      · rw [List.length_eq_zero_iff.mp ha.1, List.length_eq_zero_iff.mp hc.1]; exact Int.le_refl _
  | n + 1 => by
      have ih := Laws.items h n
      by_cases he : ∃ z, P z
      · obtain ⟨z, hz⟩ := he
        have h1 := h.comap (fun xs : List α => xs.length = n + 1 ∧ ∀ x ∈ xs, P x) (fun xs => xs.headD z) (by
          rintro (_ | ⟨x, xs⟩) ⟨hl, hx⟩
          · cases hl
          · exact hx x (List.mem_cons_self ..))
        have h2 := ih.comap (fun xs : List α => xs.length = n + 1 ∧ ∀ x ∈ xs, P x) List.tail (by
          rintro (_ | ⟨x, xs⟩) ⟨hl, hx⟩
          · cases hl
          · exact ⟨by simpa using hl, fun y hy => hx y (List.mem_cons_of_mem _ hy)⟩)
        refine (h1.lex h2).congr ?_
        rintro (_ | ⟨x, xs⟩) (_ | ⟨y, ys⟩) ⟨hl, hx⟩ ⟨hl', hy⟩
        · cases hl
        · cases hl
        · cases hl'
        · rfl
      · have no : ∀ xs : List α, ¬ (xs.length = n + 1 ∧ ∀ x ∈ xs, P x) := by
          rintro (_ | ⟨x, xs⟩) ⟨hl, hx⟩
          · cases hl
          · exact he ⟨x, hx x (List.mem_cons_self ..)⟩
        exact ⟨fun a _ ha => absurd ha (no a), fun a _ _ ha => absurd ha (no a)⟩

/-! ### Comparison of objects of a kind -/

theorem Part.inMemory {mem : Nat → Obj} {x o : Obj} (h : InMemory mem o) (hx : ∀ y, Part y x → Part y o) : InMemory mem x := fun y hy => h y (hx y hy)

theorem InMemory.same {mem : Nat → Obj} {a b : Obj} (ha : InMemory mem a) (hb : InMemory mem b) (h : a.addr = b.addr) : a = b := by
  rcases ha a (.self a) with e1 | ⟨n1, e1⟩ <;> rcases hb b (.self b) with e2 | ⟨n2, e2⟩
  · rw [e1, e2]
  · rw [e1] at h; exact absurd h.symm n2
  · rw [e2] at h; exact absurd h n1
  · rw [← e1, ← e2, h]

theorem InMemory.addr {mem : Nat → Obj} {a : Obj} (ha : InMemory mem a) (h : a ≠ .null) : a.addr ≠ 0 := by
  rcases ha a (.self a) with e | ⟨n, -⟩
  · exact absurd e h
  · exact n

theorem compare_self : ∀ a, compare a a = some 0
  | .null => rfl
  | .str .. | .data .. | .num .. | .pair .. | .struct .. | .list .. | .other .. => by simp only [compare, dispatch, Obj.addr, if_true]

theorem compareItems_self : ∀ xs, compareItems xs xs = some 0
  | [] => rfl
  | x :: xs => by
      rw [compareItems, List.headD_cons, compare_self]
      exact compareItems_self xs

/-- NULL comes after every object. -/
theorem compare_null {mem : Nat → Obj} {a : Obj} (ha : InMemory mem a) (h : a ≠ .null) : compare .null a = some (-1) ∧ compare a .null = some 1 := by
  have h0 := ha.addr h
  refine ⟨by simp only [compare, if_neg h0], ?_⟩
  cases a with
  | null => exact absurd rfl h
  | _ => simp only [Obj.addr] at h0; simp only [compare, dispatch, Obj.addr]; exact if_neg h0

/-- The methods decide: the test of identity agrees with them. -/
theorem dispatch_eq {p : Nat} {b : Obj} {r : Option Int} (hb : b ≠ .null) (h : p = b.addr → r = some 0) : dispatch p b r = r := by
  unfold dispatch
  split
  · rename_i e; rw [h e]
  · cases b with
    | null => exact absurd rfl hb
    | _ => rfl

theorem text_self {xs : List UInt8} (h : ∃ cs : List Char, '\x00' ∉ cs ∧ xs = utf8 cs) : Text.compareString xs xs = some 0 := by
  obtain ⟨cs, h0, rfl⟩ := h
  obtain ⟨v, hv, hz, -⟩ := Text.compare_text h0 h0
  rw [hv, hz.mpr rfl]

theorem pointer_sign (p q : Nat) : (p < q → pointerCompare p q = 1) ∧ (p = q → pointerCompare p q = 0) ∧ (q < p → pointerCompare p q = -1) := by
  unfold pointerCompare
  refine ⟨fun h => if_pos h, fun h => ?_, fun h => ?_⟩
  · rw [if_neg (by omega), if_neg (by omega)]
  · rw [if_neg (by omega), if_pos h]

/-- The number comparison of one type and count. -/
def numI (a b : Number.Obj) : Int := (Number.compare a b).getD 0

theorem number_laws (t : Number.Ty) (c : Nat) :
    (∀ a b : Number.Obj, a.Ok ∧ a.enc.ty = t ∧ a.enc.count = c ∧ (∀ i, i < c → a.at i ≠ .nan) →
      b.Ok ∧ b.enc.ty = t ∧ b.enc.count = c ∧ (∀ i, i < c → b.at i ≠ .nan) → Number.compare a b = some (numI a b)) ∧
    Laws (fun a : Number.Obj => a.Ok ∧ a.enc.ty = t ∧ a.enc.count = c ∧ ∀ i, i < c → a.at i ≠ .nan) numI := by
  have key : ∀ a b d : Number.Obj, a.Ok ∧ a.enc.ty = t ∧ a.enc.count = c ∧ (∀ i, i < c → a.at i ≠ .nan) →
      b.Ok ∧ b.enc.ty = t ∧ b.enc.count = c ∧ (∀ i, i < c → b.at i ≠ .nan) →
      d.Ok ∧ d.enc.ty = t ∧ d.enc.count = c ∧ (∀ i, i < c → d.at i ≠ .nan) → _ := fun a b d ha hb hd =>
    Number.C30_order_partial a b d ha.1 hb.1 hd.1 (by rw [ha.2.2.1, hb.2.2.1]) (by rw [hb.2.2.1, hd.2.2.1]) (by rw [ha.2.1, hb.2.1]) (by rw [hb.2.1, hd.2.1])
      (by rw [ha.2.2.1]; exact ha.2.2.2) (by rw [hb.2.2.1]; exact hb.2.2.2) (by rw [hd.2.2.1]; exact hd.2.2.2)
  refine ⟨fun a b ha hb => ?_, fun a b ha hb => ?_, fun a b d ha hb hd => ?_⟩
  · obtain ⟨-, ⟨r, e, -⟩, -⟩ := key a b b ha hb hb
    unfold numI; rw [e]; rfl
  · obtain ⟨-, ⟨r, e, e'⟩, -⟩ := key a b b ha hb hb
    unfold numI; rw [e, e']; simp only [Option.getD_some]; omega
  · obtain ⟨-, -, r, s, t, e1, e2, e3, h⟩ := key a b d ha hb hd
    unfold numI; rw [e1, e2, e3]; simp only [Option.getD_some]
    exact fun h1 h2 => (h h1 h2).1

/-- Objects of a kind in memory. -/
def Ok (mem : Nat → Obj) (k : Kind) (a : Obj) : Prop := HasKind k a ∧ InMemory mem a

section
variable {mem : Nat → Obj}

theorem Ok.first {k l p x y} (h : Ok mem (.pair k l) (.pair p x y)) : Ok mem k x := ⟨h.1.1, Part.inMemory h.2 fun _ hy => .first hy⟩
theorem Ok.second {k l p x y} (h : Ok mem (.pair k l) (.pair p x y)) : Ok mem l y := ⟨h.1.2, Part.inMemory h.2 fun _ hy => .second hy⟩
theorem Ok.item {l k n p l' xs x} (h : Ok mem (.list l k n) (.list p l' xs)) (hx : x ∈ xs) : Ok mem k x :=
  ⟨h.1.2.2 x hx, Part.inMemory h.2 fun _ hy => .item hy hx⟩

theorem str_eq {p q xs ys} (ha : Ok mem .text (.str p xs)) (hb : Ok mem .text (.str q ys)) :
    compare (.str p xs) (.str q ys) = Text.compareString xs ys := by
  simp only [compare]
  refine dispatch_eq (by intro h; cases h) fun h => ?_
  have e := InMemory.same ha.2 hb.2 h
  injection e with _ e
  subst e
  exact text_self ha.1

theorem data_eq {p q xs ys} (ha : Ok mem .bytes (.data p xs)) (hb : Ok mem .bytes (.data q ys)) :
    compare (.data p xs) (.data q ys) = some (Data.compare xs ys) := by
  simp only [compare]
  refine dispatch_eq (by intro h; cases h) fun h => ?_
  have e := InMemory.same ha.2 hb.2 h
  injection e with _ e
  subst e
  simp only [dataCompare, (bytes_sign xs xs).2.1.mpr rfl]

theorem num_eq {t c p q n m} (ha : Ok mem (.number t c) (.num p n)) (hb : Ok mem (.number t c) (.num q m)) :
    compare (.num p n) (.num q m) = Number.compare n m := by
  simp only [compare]
  refine dispatch_eq (by intro h; cases h) fun h => ?_
  have e := InMemory.same ha.2 hb.2 h
  injection e with _ e
  subst e
  rw [numCompare, (number_laws t c).1 n n ha.1 ha.1, (number_laws t c).2.self ha.1]

theorem pair_eq {k l p q x y x' y'} (ha : Ok mem (.pair k l) (.pair p x y)) (hb : Ok mem (.pair k l) (.pair q x' y')) :
    compare (.pair p x y) (.pair q x' y') = (compare x x').bind fun c => if c = 0 then compare y y' else some c := by
  simp only [compare]
  refine dispatch_eq (by intro h; cases h) fun h => ?_
  have e := InMemory.same ha.2 hb.2 h
  injection e with _ e1 e2
  subst e1 e2
  rw [compare_self]; simp only [Option.bind_some, if_true]; exact compare_self y

theorem list_eq {l k n p q l1 l2 xs ys} (ha : Ok mem (.list l k n) (.list p l1 xs)) (hb : Ok mem (.list l k n) (.list q l2 ys)) :
    compare (.list p l1 xs) (.list q l2 ys) = compareItems xs ys := by
  simp only [compare]
  rw [if_pos (by rw [ha.1.1, hb.1.1])]
  refine dispatch_eq (by intro h; cases h) fun h => ?_
  have e := InMemory.same ha.2 hb.2 h
  injection e with _ _ e
  subst e
  exact compareItems_self xs

/-- The order of semantics. -/
def semI (a b : Obj) : Int := (semCompare a b).getD 0

/-- A semantic in memory: a text, or NULL. -/
def SemOk (mem : Nat → Obj) (s : Obj) : Prop := (IsText s ∨ s = .null) ∧ InMemory mem s

theorem Ok.sem {n p s bs} (h : Ok mem (.record n) (.struct p s bs)) : SemOk mem s :=
  ⟨h.1.imp id And.left, Part.inMemory h.2 fun _ hy => .semantic hy⟩

theorem utf8_inj {as bs : List Char} (ha : '\x00' ∉ as) (hb : '\x00' ∉ bs) (he : utf8 as = utf8 bs) : as = bs := by
  obtain ⟨v, hv, hz, -⟩ := Text.compare_text ha hb
  obtain ⟨w, hw, hz', -⟩ := Text.compare_text ha ha
  rw [← he, hw] at hv
  injection hv with hv
  exact hz.mp (by rw [← hv]; exact hz'.mpr rfl)

theorem text_before {p q : Nat} {a b : List Char} (ha : '\x00' ∉ a) (hb : '\x00' ∉ b) :
    (Before .text (.str p (utf8 a)) (.str q (utf8 b)) ↔ a < b) ∧ (NamedBefore (.str p (utf8 a)) (.str q (utf8 b)) ↔ a < b) := by
  refine ⟨⟨fun h => ?_, fun h => .text ha hb h⟩, ⟨fun h => ?_, fun h => .text ha hb h⟩⟩
  · generalize e1 : utf8 a = x at h
    generalize e2 : utf8 b = y at h
    cases h with
    | text ha' hb' h => rw [utf8_inj ha ha' e1, utf8_inj hb hb' e2]; exact h
  · generalize e1 : utf8 a = x at h
    generalize e2 : utf8 b = y at h
    cases h with
    | text ha' hb' h => rw [utf8_inj ha ha' e1, utf8_inj hb hb' e2]; exact h

theorem text_same {p q : Nat} {a b : List Char} (ha : '\x00' ∉ a) (hb : '\x00' ∉ b) : Same .text (.str p (utf8 a)) (.str q (utf8 b)) ↔ a = b := by
  refine ⟨fun h => ?_, fun h => h ▸ .text⟩
  generalize e1 : utf8 a = x at h
  generalize e2 : utf8 b = y at h
  cases h with
  | text => exact utf8_inj ha hb (e1.trans e2.symm)

/-- What the comparison of semantics means. -/
theorem sem_means {a b : Obj} (ha : SemOk mem a) (hb : SemOk mem b) : semCompare a b = some (semI a b) ∧
    (0 < semI a b ↔ NamedBefore a b) ∧ (semI a b = 0 ↔ Same .text a b) ∧ (semI a b < 0 ↔ NamedBefore b a) := by
  rcases ha with ⟨ta | rfl, ma⟩ <;> rcases hb with ⟨tb | rfl, mb⟩
  · cases a <;> try exact ta.elim
    cases b <;> try exact tb.elim
    obtain ⟨cs, h0, rfl⟩ := ta
    obtain ⟨ds, g0, rfl⟩ := tb
    obtain ⟨v, hv, hz, hp, hn⟩ := Text.compare_text h0 g0
    have e : ∀ p q, semI (.str p (utf8 cs)) (.str q (utf8 ds)) = v := fun p q => by simp only [semI, semCompare, strCompare, hv, Option.getD_some]
    rw [e, (text_before h0 g0).2, (text_before g0 h0).2, text_same h0 g0]
    exact ⟨hv, hp, hz, hn⟩
  · cases a <;> try exact ta.elim
    rename_i p xs
    have hp : p ≠ 0 := InMemory.addr ma (by intro h; cases h)
    have e : semCompare (.str p xs) .null = some (-1) := by
      simp only [semCompare, strCompare, Obj.addr, (pointer_sign p 0).2.2 (by omega)]
    have e' : semI (.str p xs) .null = -1 := by unfold semI; rw [e]; rfl
    rw [e, e']
    exact ⟨rfl, ⟨fun h => by omega, fun h => by cases h⟩, ⟨fun h => by omega, fun h => by cases h⟩, ⟨fun _ => .none, fun _ => by omega⟩⟩
  · cases b <;> try exact tb.elim
    rename_i p xs
    have hp : p ≠ 0 := InMemory.addr mb (by intro h; cases h)
    have e : semCompare .null (.str p xs) = some 1 := by
      simp only [semCompare, Obj.addr, (pointer_sign 0 p).1 (by omega)]
    have e' : semI .null (.str p xs) = 1 := by unfold semI; rw [e]; rfl
    rw [e, e']
    exact ⟨rfl, ⟨fun _ => .none, fun _ => by omega⟩, ⟨fun h => by omega, fun h => by cases h⟩, ⟨fun h => by omega, fun h => by cases h⟩⟩
  · exact ⟨rfl, ⟨fun h => absurd h (by decide), fun h => by cases h⟩, ⟨fun _ => .null, fun _ => rfl⟩, ⟨fun h => absurd h (by decide), fun h => by cases h⟩⟩

theorem text_trans {a b c : List Char} (h1 : ¬ b < a) (h2 : ¬ c < b) : ¬ c < a := by
  intro h
  rcases Text.text_tri a b with e | e | e
  · rcases Text.text_tri b c with g | g | g
    · exact List.lt_irrefl _ (List.lt_trans h (List.lt_trans e g))
    · subst g; exact List.lt_irrefl _ (List.lt_trans h e)
    · exact h2 g
  · subst e; exact h2 h
  · exact h1 e

theorem sem_laws : Laws (SemOk mem) semI where
  anti a b ha hb := (sem_means ha hb).2.1.trans (sem_means hb ha).2.2.2.symm
  trans a b c ha hb hc h1 h2 := by
    have k1 : ¬ NamedBefore b a := fun h => by have := (sem_means ha hb).2.2.2.mpr h; omega
    have k2 : ¬ NamedBefore c b := fun h => by have := (sem_means hb hc).2.2.2.mpr h; omega
    have k3 : ¬ NamedBefore c a := by
      intro h
      cases h with
      | none =>
        cases hb.1 with
        | inl hb => cases b <;> first | exact hb | exact k2 .none
        | inr hb => subst hb; exact k1 .none
      | text h3 h4 h =>
        cases hb.1 with
        | inl hb =>
          cases b <;> try exact hb
          obtain ⟨ds, g0, rfl⟩ := hb
          exact text_trans (fun e => k1 (.text g0 h4 e)) (fun e => k2 (.text h3 g0 e)) h
        | inr hb => subst hb; exact k1 .none
    have := (sem_means ha hc).2.2.2
    exact Int.not_lt.mp fun h => k3 (this.mp h)

theorem struct_eq {n p q s t xs ys} (ha : Ok mem (.record n) (.struct p s xs)) (hb : Ok mem (.record n) (.struct q t ys)) :
    compare (.struct p s xs) (.struct q t ys) = some (if semI s t ≠ 0 then semI s t else valueCompare xs ys) := by
  have e : structCompare p s xs (.struct q t ys) = some (if semI s t ≠ 0 then semI s t else valueCompare xs ys) := by
    simp only [structCompare, (sem_means ha.sem hb.sem).1, Option.map_some]
  simp only [compare]
  rw [← e]
  refine dispatch_eq (by intro h; cases h) fun h => ?_
  have e' := InMemory.same ha.2 hb.2 h
  injection e' with _ e1 e2
  subst e1 e2
  rw [e, if_neg (by rw [sem_laws.self ha.sem]; decide), value_eq, if_neg (by omega), if_neg (by omega), (bytes_sign xs xs).2.1.mpr rfl]

/-- The comparison as a number, where it is defined. -/
def cmpI (a b : Obj) : Int := (compare a b).getD 0

/-- What a result of comparing two objects of a kind means. -/
def Means (k : Kind) (a b : Obj) (r : Int) : Prop := (0 < r ↔ Before k a b) ∧ (r = 0 ↔ Same k a b) ∧ (r < 0 ↔ Before k b a)

/-- The first difference of two lists. -/
def ItemsBefore (k : Kind) (xs ys : List Obj) : Prop :=
  ∃ (i : Nat) (h1 : i < xs.length) (h2 : i < ys.length), (∀ j (h : j < i), Same k (xs[j]'(by omega)) (ys[j]'(by omega))) ∧ Before k xs[i] ys[i]

/-- No difference. -/
def ItemsSame (k : Kind) (xs ys : List Obj) : Prop := ∀ i (h1 : i < xs.length) (h2 : i < ys.length), Same k xs[i] ys[i]

theorem itemsBefore_cons {k : Kind} {x y : Obj} {xs ys : List Obj} :
    ItemsBefore k (x :: xs) (y :: ys) ↔ Before k x y ∨ (Same k x y ∧ ItemsBefore k xs ys) := by
  constructor
  · rintro ⟨i, h1, h2, he, h⟩
    cases i with
    | zero => exact .inl h
    | succ i => exact .inr ⟨he 0 (by omega), i, by simpa using h1, by simpa using h2, fun j hj => he (j + 1) (by omega), h⟩
  · rintro (h | ⟨h0, i, h1, h2, he, h⟩)
    · exact ⟨0, by simp, by simp, fun j hj => absurd hj (by omega), h⟩
    · refine ⟨i + 1, by simpa using h1, by simpa using h2, fun j hj => ?_, h⟩
      cases j with
      | zero => exact h0
      | succ j => exact he j (by omega)

theorem itemsSame_cons {k : Kind} {x y : Obj} {xs ys : List Obj} : ItemsSame k (x :: xs) (y :: ys) ↔ Same k x y ∧ ItemsSame k xs ys := by
  constructor
  · exact fun h => ⟨h 0 (by simp) (by simp), fun i h1 h2 => h (i + 1) (by simpa using h1) (by simpa using h2)⟩
  · rintro ⟨h0, h⟩ i h1 h2
    cases i with
    | zero => exact h0
    | succ i => exact h i (by simpa using h1) (by simpa using h2)

theorem items_means {k : Kind} {P : Obj → Prop} (h : ∀ a b, P a → P b → compare a b = some (cmpI a b) ∧ Means k a b (cmpI a b)) :
    ∀ xs ys : List Obj, xs.length = ys.length → (∀ x ∈ xs, P x) → (∀ y ∈ ys, P y) →
      compareItems xs ys = some (lexItems cmpI xs ys) ∧
      (0 < lexItems cmpI xs ys ↔ ItemsBefore k xs ys) ∧ (lexItems cmpI xs ys = 0 ↔ ItemsSame k xs ys) ∧ (lexItems cmpI xs ys < 0 ↔ ItemsBefore k ys xs)
  | [], [], _, _, _ => by
      refine ⟨rfl, ⟨fun h => absurd h (by simp [lexItems]), ?_⟩, ⟨fun _ i h1 => absurd h1 (by simp), fun _ => rfl⟩, ⟨fun h => absurd h (by simp [lexItems]), ?_⟩⟩
      · rintro ⟨i, h1, -⟩; cases h1
      · rintro ⟨i, h1, -⟩; cases h1
  | [], _ :: _, hl, _, _ => by cases hl
  | _ :: _, [], hl, _, _ => by cases hl
  | x :: xs, y :: ys, hl, hx, hy => by
      obtain ⟨i1, i2, i3, i4⟩ := items_means h xs ys (by simpa using hl) (fun z hz => hx z (List.mem_cons_of_mem _ hz)) (fun z hz => hy z (List.mem_cons_of_mem _ hz))
      have px := hx x (List.mem_cons_self ..)
      have py := hy y (List.mem_cons_self ..)
      obtain ⟨e, m1, m2, m3⟩ := h x y px py
      obtain ⟨-, n1, n2, n3⟩ := h y x py px
      rw [itemsBefore_cons, itemsBefore_cons, itemsSame_cons, ← m1, ← m2, ← n1, ← n2, ← i2, ← i3, ← i4]
      have s1 : 0 < cmpI x y ↔ cmpI y x < 0 := m1.trans n3.symm
      have s2 : 0 < cmpI y x ↔ cmpI x y < 0 := n1.trans m3.symm
      have el : lexItems cmpI (x :: xs) (y :: ys) = if cmpI x y ≠ 0 then cmpI x y else lexItems cmpI xs ys := rfl
      refine ⟨?_, ?_⟩
      · rw [compareItems, List.headD_cons, e, el]
        simp only [Option.bind_some, List.tail_cons, i1]
        split <;> rfl
      · rw [el]
        split
        · refine ⟨?_, ?_, ?_⟩ <;> omega
        · refine ⟨?_, ?_, ?_⟩ <;> omega

theorem same_refl : ∀ (k : Kind) (a : Obj), HasKind k a → Same k a a
  | .text, a, h => by cases a <;> first | exact .null | exact .text | exact h.elim
  | .bytes, a, h => by cases a <;> first | exact .null | exact .bytes | exact h.elim
  | .number t c, a, h => by cases a <;> first | exact .null | exact .number fun _ _ => rfl | exact h.elim
  | .pair k l, a, h => by
      cases a <;> first | exact .null | exact h.elim | skip
      exact .pair (same_refl k _ h.1) (same_refl l _ h.2)
  | .record n, a, h => by
      cases a <;> first | exact .null | exact h.elim | skip
      rename_i p s bs
      refine .record ?_
      rcases h with h | ⟨rfl, -⟩
      · cases s <;> first | exact .text | exact h.elim
      · exact .null
  | .list l k n, a, h => by
      cases a <;> first | exact .null | exact h.elim | skip
      obtain ⟨rfl, -, h⟩ := h
      exact .list fun i h1 h2 => same_refl k _ (h _ (List.getElem_mem h1))
  | .identity, a, h => by cases a <;> first | exact .null | exact .identity | exact h.elim

theorem null_means {k : Kind} {a b : Obj} (ha : InMemory mem a) (hb : InMemory mem b) (h : a = .null ∨ b = .null) :
    compare a b = some (cmpI a b) ∧ Means k a b (cmpI a b) := by
  by_cases h1 : a = .null
  · subst h1
    by_cases h2 : b = .null
    · subst h2
      exact ⟨rfl, ⟨fun h => absurd h (by decide), fun h => by cases h with | null h => exact absurd rfl h⟩, ⟨fun _ => .null, fun _ => rfl⟩,
        ⟨fun h => absurd h (by decide), fun h => by cases h with | null h => exact absurd rfl h⟩⟩
    · have e := (compare_null hb h2).1
      have e' : cmpI .null b = -1 := by unfold cmpI; rw [e]; rfl
      rw [e, e']
      refine ⟨rfl, ⟨fun h => by omega, fun h => ?_⟩, ⟨fun h => by omega, fun h => ?_⟩, ⟨fun _ => .null h2, fun _ => by omega⟩⟩
      · cases h with | null g => exact absurd rfl g
      · cases h; exact absurd rfl h2
  · have h2 : b = .null := h.resolve_left h1
    subst h2
    have e := (compare_null ha h1).2
    have e' : cmpI a .null = 1 := by unfold cmpI; rw [e]; rfl
    rw [e, e']
    refine ⟨rfl, ⟨fun _ => .null h1, fun _ => by omega⟩, ⟨fun h => by omega, fun h => ?_⟩, ⟨fun h => by omega, fun h => ?_⟩⟩
    · cases h; exact absurd rfl h1
    · cases h with | null g => exact absurd rfl g

theorem less_irrefl {x : Number.Num} (h : Number.Less x x) : False := by
  cases h with
  | fin h => exact absurd h (Int.lt_irrefl _)

theorem less_asymm {x y : Number.Num} (h : Number.Less x y) (g : Number.Less y x) : False := by
  cases h with
  | fin h => cases g with | fin g => omega
  | below => cases g
  | above => cases g
  | infs => cases g

/-- What comparing numbers means. -/
theorem number_means {t : Number.Ty} {c : Nat} {p q : Nat} {a b : Number.Obj} (ha : a.Ok ∧ a.enc.ty = t ∧ a.enc.count = c ∧ ∀ i, i < c → a.at i ≠ .nan)
    (hb : b.Ok ∧ b.enc.ty = t ∧ b.enc.count = c ∧ ∀ i, i < c → b.at i ≠ .nan) : Means (.number t c) (.num p a) (.num q b) (numI a b) := by
  have bef : ∀ {p q : Nat} {a b : Number.Obj}, Before (.number t c) (.num p a) (.num q b) ↔
      ∃ k, k < c ∧ (∀ j, j < k → a.at j = b.at j) ∧ Number.Less (a.at k) (b.at k) := by
    intro p q a b
    constructor
    · intro h; cases h with | number k h1 h2 h3 => exact ⟨k, h1, h2, h3⟩
    · rintro ⟨k, h1, h2, h3⟩; exact .number k h1 h2 h3
  have sam : Same (.number t c) (.num p a) (.num q b) ↔ ∀ j, j < c → a.at j = b.at j := by
    constructor
    · intro h; cases h with | number h => exact h
    · exact .number
  rw [Means, bef, bef, sam]
  have hfit : ∀ i, i < b.enc.count → Number.Fits a.enc.ty (b.at i) := by
    intro i hi
    have ht : a.enc.ty = b.enc.ty := by rw [ha.2.1, hb.2.1]
    refine ⟨Number.elem b.enc.ty b.value i, ?_, by rw [ht]; rfl⟩
    rw [ht]
    exact Number.elem_lt (Number.idx_le hi (by rw [hb.1, Number.Enc.size, Nat.mul_comm]))
  have key := Number.C30_compare_partial a b ha.1 hb.1 (by rw [ha.2.2.1, hb.2.2.1]) hfit (by rw [ha.2.2.1]; exact ha.2.2.2) (by rw [hb.2.2.1]; exact hb.2.2.2)
  rw [ha.2.2.1, (number_laws t c).1 a b ha hb] at key
  rcases key with ⟨e, k, h1, h2, h3⟩ | ⟨e, k, h1, h2, h3⟩ | ⟨e, h⟩ <;> injection e with e <;> rw [e]
  · refine ⟨⟨fun _ => ⟨k, h1, h2, h3⟩, fun _ => by omega⟩, ⟨fun g => by omega, fun g => ?_⟩, ⟨fun g => by omega, ?_⟩⟩
    · rw [g k h1] at h3; exact (less_irrefl h3).elim
    · rintro ⟨k', g1, g2, g3⟩
      rcases Nat.lt_trichotomy k k' with h | h | h
      · rw [g2 k h] at h3; exact (less_irrefl h3).elim
      · subst h; exact (less_asymm h3 g3).elim
      · rw [h2 k' h] at g3; exact (less_irrefl g3).elim
  · refine ⟨⟨fun g => by omega, ?_⟩, ⟨fun g => by omega, fun g => ?_⟩, ⟨fun _ => ⟨k, h1, fun j hj => (h2 j hj).symm, h3⟩, fun _ => by omega⟩⟩
    · rintro ⟨k', g1, g2, g3⟩
      rcases Nat.lt_trichotomy k k' with h | h | h
      · rw [g2 k h] at h3; exact (less_irrefl h3).elim
      · subst h; exact (less_asymm h3 g3).elim
      · rw [h2 k' h] at g3; exact (less_irrefl g3).elim
    · rw [g k h1] at h3; exact (less_irrefl h3).elim
  · refine ⟨⟨fun g => by omega, ?_⟩, ⟨fun _ => h, fun _ => rfl⟩, ⟨fun g => by omega, ?_⟩⟩
    · rintro ⟨k', g1, g2, g3⟩; rw [h k' g1] at g3; exact (less_irrefl g3).elim
    · rintro ⟨k', g1, g2, g3⟩; rw [h k' g1] at g3; exact (less_irrefl g3).elim

theorem pair_before {k l p q x y x' y'} : Before (.pair k l) (.pair p x y) (.pair q x' y') ↔ Before k x x' ∨ (Same k x x' ∧ Before l y y') := by
  constructor
  · intro h
    cases h with
    | first h => exact .inl h
    | second h1 h2 => exact .inr ⟨h1, h2⟩
  · rintro (h | ⟨h1, h2⟩)
    · exact .first h
    · exact .second h1 h2

theorem pair_same {k l p q x y x' y'} : Same (.pair k l) (.pair p x y) (.pair q x' y') ↔ Same k x x' ∧ Same l y y' := by
  constructor
  · intro h; cases h with | pair h1 h2 => exact ⟨h1, h2⟩
  · rintro ⟨h1, h2⟩; exact .pair h1 h2

theorem record_before {n p q s t} {a b : List UInt8} : Before (.record n) (.struct p s a) (.struct q t b) ↔
    NamedBefore s t ∨ (Same .text s t ∧ (a.length < b.length ∨ (a.length = b.length ∧ b < a))) := by
  constructor
  · intro h
    cases h with
    | semantic h => exact .inl h
    | size h1 h2 => exact .inr ⟨h1, .inl h2⟩
    | value h1 h2 h3 => exact .inr ⟨h1, .inr ⟨h2, h3⟩⟩
  · rintro (h | ⟨h1, h2 | ⟨h2, h3⟩⟩)
    · exact .semantic h
    · exact .size h1 h2
    · exact .value h1 h2 h3

theorem record_same {n p q s t} {a b : List UInt8} : Same (.record n) (.struct p s a) (.struct q t b) ↔ Same .text s t ∧ a = b := by
  constructor
  · intro h; cases h with | record h => exact ⟨h, rfl⟩
  · rintro ⟨h, rfl⟩; exact .record h

theorem list_before {l k n p q xs ys} : Before (.list l k n) (.list p l xs) (.list q l ys) ↔ ItemsBefore k xs ys := by
  constructor
  · intro h; cases h with | list i h1 h2 he h => exact ⟨i, h1, h2, he, h⟩
  · rintro ⟨i, h1, h2, he, h⟩; exact .list i h1 h2 he h

theorem list_same {l k n p q xs ys} : Same (.list l k n) (.list p l xs) (.list q l ys) ↔ ItemsSame k xs ys := by
  constructor
  · intro h; cases h with | list h => exact h
  · exact .list

/-- The comparison of values of structures, by its sign. -/
theorem value_sign (a b : List UInt8) : (0 < valueCompare a b ↔ a.length < b.length ∨ (a.length = b.length ∧ b < a)) ∧ (valueCompare a b = 0 ↔ a = b) ∧
    (valueCompare a b < 0 ↔ b.length < a.length ∨ (b.length = a.length ∧ a < b)) := by
  obtain ⟨h1, h2, h3⟩ := bytes_sign a b
  rw [value_eq, ← h1, ← h3]
  by_cases g1 : a.length < b.length
  · rw [if_pos g1]
    exact ⟨⟨fun _ => .inl g1, fun _ => by omega⟩, ⟨fun h => by omega, fun h => by rw [h] at g1; omega⟩, ⟨fun h => by omega, fun h => by omega⟩⟩
  · rw [if_neg g1]
    by_cases g2 : a.length > b.length
    · rw [if_pos g2]
      exact ⟨⟨fun h => by omega, fun h => by omega⟩, ⟨fun h => by omega, fun h => by rw [h] at g2; omega⟩, ⟨fun _ => .inl g2, fun _ => by omega⟩⟩
    · rw [if_neg g2]
      exact ⟨by omega, h2, by omega⟩

theorem means : ∀ (k : Kind) (a b : Obj), Ok mem k a → Ok mem k b → compare a b = some (cmpI a b) ∧ Means k a b (cmpI a b) := by
  intro k
  induction k with
  | text =>
    intro a b ha hb
    by_cases h : a = .null ∨ b = .null
    · exact null_means ha.2 hb.2 h
    rw [not_or] at h
    cases a <;> try first | exact absurd rfl h.1 | exact ha.1.elim
    cases b <;> try first | exact absurd rfl h.2 | exact hb.1.elim
    rename_i p xs q ys
    have e := str_eq ha hb
    obtain ⟨cs, h0, rfl⟩ := ha.1
    obtain ⟨ds, g0, rfl⟩ := hb.1
    obtain ⟨v, hv, hz, hp, hn⟩ := Text.compare_text h0 g0
    have e' : cmpI (.str p (utf8 cs)) (.str q (utf8 ds)) = v := by unfold cmpI; rw [e, hv]; rfl
    rw [e', e, Means, (text_before h0 g0).1, (text_before g0 h0).1, text_same h0 g0]
    exact ⟨hv, hp, hz, hn⟩
  | bytes =>
    intro a b ha hb
    by_cases h : a = .null ∨ b = .null
    · exact null_means ha.2 hb.2 h
    rw [not_or] at h
    cases a <;> try first | exact absurd rfl h.1 | exact ha.1.elim
    cases b <;> try first | exact absurd rfl h.2 | exact hb.1.elim
    rename_i p xs q ys
    have e := data_eq ha hb
    have e' : cmpI (.data p xs) (.data q ys) = Data.compare xs ys := by unfold cmpI; rw [e]; rfl
    obtain ⟨h1, h2, h3⟩ := bytes_sign xs ys
    rw [e', e]
    refine ⟨rfl, h3.trans ⟨fun h => .bytes h, fun h => ?_⟩, h2.trans ⟨fun h => h ▸ .bytes, fun h => ?_⟩, h1.trans ⟨fun h => .bytes h, fun h => ?_⟩⟩
    · cases h with | bytes h => exact h
    · cases h; rfl
    · cases h with | bytes h => exact h
  | number t c =>
    intro a b ha hb
    by_cases h : a = .null ∨ b = .null
    · exact null_means ha.2 hb.2 h
    rw [not_or] at h
    cases a <;> try first | exact absurd rfl h.1 | exact ha.1.elim
    cases b <;> try first | exact absurd rfl h.2 | exact hb.1.elim
    rename_i p n q m
    have e := num_eq ha hb
    have e1 : cmpI (.num p n) (.num q m) = numI n m := by unfold cmpI; rw [e]; rfl
    have e2 := (number_laws t c).1 n m ha.1 hb.1
    rw [e1, e, e2]
    exact ⟨rfl, number_means ha.1 hb.1⟩
  | pair k l ihk ihl =>
    intro a b ha hb
    by_cases h : a = .null ∨ b = .null
    · exact null_means ha.2 hb.2 h
    rw [not_or] at h
    cases a <;> try first | exact absurd rfl h.1 | exact ha.1.elim
    cases b <;> try first | exact absurd rfl h.2 | exact hb.1.elim
    rename_i p x y q x' y'
    have e := pair_eq ha hb
    obtain ⟨e1, m1, m2, m3⟩ := ihk x x' ha.first hb.first
    obtain ⟨e2, n1, n2, n3⟩ := ihl y y' ha.second hb.second
    obtain ⟨-, -, m2', m3'⟩ := ihk x' x hb.first ha.first
    rw [e1, Option.bind_some, e2] at e
    have e' : cmpI (.pair p x y) (.pair q x' y') = if cmpI x x' = 0 then cmpI y y' else cmpI x x' := by
      unfold cmpI at e ⊢; rw [e]; split <;> rfl
    rw [e, e']
    refine ⟨by split <;> rfl, ?_⟩
    obtain ⟨-, m1', m2', m3'⟩ := ihk x' x hb.first ha.first
    obtain ⟨-, n1', n2', n3'⟩ := ihl y' y hb.second ha.second
    have s1 : 0 < cmpI x x' ↔ cmpI x' x < 0 := m1.trans m3'.symm
    have s2 : 0 < cmpI x' x ↔ cmpI x x' < 0 := m1'.trans m3.symm
    rw [Means, pair_before, pair_before, pair_same, ← m1, ← m2, ← m3, ← m2', ← n1, ← n2, ← n3]
    split <;> refine ⟨?_, ?_, ?_⟩ <;> omega
  | record n =>
    intro a b ha hb
    by_cases h : a = .null ∨ b = .null
    · exact null_means ha.2 hb.2 h
    rw [not_or] at h
    cases a <;> try first | exact absurd rfl h.1 | exact ha.1.elim
    cases b <;> try first | exact absurd rfl h.2 | exact hb.1.elim
    rename_i p s xs q t ys
    have e := struct_eq ha hb
    have e' : cmpI (.struct p s xs) (.struct q t ys) = if semI s t ≠ 0 then semI s t else valueCompare xs ys := by unfold cmpI; rw [e]; rfl
    rw [e, e']
    refine ⟨rfl, ?_⟩
    obtain ⟨-, m1, m2, m3⟩ := sem_means ha.sem hb.sem
    obtain ⟨-, m1', m2', m3'⟩ := sem_means hb.sem ha.sem
    obtain ⟨n1, n2, n3⟩ := value_sign xs ys
    have s1 : 0 < semI s t ↔ semI t s < 0 := m1.trans m3'.symm
    have s2 : 0 < semI t s ↔ semI s t < 0 := m1'.trans m3.symm
    rw [Means, record_before, record_before, record_same, ← m1, ← m2, ← m3, ← m2', ← n1, ← n2, ← n3]
    split <;> refine ⟨?_, ?_, ?_⟩ <;> omega
  | list l k n ih =>
    intro a b ha hb
    by_cases h : a = .null ∨ b = .null
    · exact null_means ha.2 hb.2 h
    rw [not_or] at h
    cases a <;> try first | exact absurd rfl h.1 | exact ha.1.elim
    cases b <;> try first | exact absurd rfl h.2 | exact hb.1.elim
    rename_i p l1 xs q l2 ys
    have e := list_eq ha hb
    obtain ⟨e1, e2⟩ := And.intro ha.1.1 hb.1.1
    subst e1 e2
    obtain ⟨i1, i2⟩ := items_means ih xs ys (by rw [ha.1.2.1, hb.1.2.1]) (fun x hx => ha.item hx) (fun y hy => hb.item hy)
    rw [i1] at e
    have e' : cmpI (.list p l2 xs) (.list q l2 ys) = lexItems cmpI xs ys := by
      have := congrArg (Option.getD · 0) e
      exact this
    rw [e, e', Means, list_before, list_before, list_same]
    exact ⟨rfl, i2⟩
  | identity =>
    intro a b ha hb
    by_cases h : a = .null ∨ b = .null
    · exact null_means ha.2 hb.2 h
    rw [not_or] at h
    cases a <;> try first | exact absurd rfl h.1 | exact ha.1.elim
    cases b <;> try first | exact absurd rfl h.2 | exact hb.1.elim
    rename_i p q
    have e : compare (.other p) (.other q) = some (pointerCompare p q) := by
      simp only [compare]
      exact dispatch_eq (by intro h; cases h) fun h => congrArg some ((pointer_sign p q).2.1 h)
    have e' : cmpI (.other p) (.other q) = pointerCompare p q := by unfold cmpI; rw [e]; rfl
    obtain ⟨h1, h2, h3⟩ := pointer_sign p q
    rw [e, e']
    refine ⟨rfl, ?_⟩
    have b1 : ∀ {p q : Nat}, Before .identity (.other p) (.other q) ↔ p < q := fun {p q} =>
      ⟨fun h => by cases h with | identity h => exact h, .identity⟩
    have b2 : Same .identity (.other p) (.other q) ↔ p = q := ⟨fun h => by cases h; rfl, fun h => h ▸ .identity⟩
    rw [Means, b1, b1, b2]
    rcases Nat.lt_trichotomy p q with g | g | g
    · rw [h1 g]; omega
    · rw [h2 g]; omega
    · rw [h3 g]; omega

/-- Comparison of objects of a kind is a total preorder. -/
theorem laws : ∀ k : Kind, Laws (Ok mem k) cmpI := by
  have base : ∀ k : Kind, (∀ a b c, a ≠ .null → b ≠ .null → c ≠ .null → Ok mem k a → Ok mem k b → Ok mem k c → 0 ≤ cmpI a b → 0 ≤ cmpI b c → 0 ≤ cmpI a c) →
      Laws (Ok mem k) cmpI := by
    intro k h
    refine ⟨fun a b ha hb => (means k a b ha hb).2.1.trans (means k b a hb ha).2.2.2.symm, fun a b c ha hb hc h1 h2 => ?_⟩
    have nul : ∀ {a}, Ok mem k a → a ≠ .null → cmpI .null a = -1 ∧ cmpI a .null = 1 := by
      intro a ha h
      obtain ⟨e1, e2⟩ := compare_null ha.2 h
      unfold cmpI; rw [e1, e2]; exact ⟨rfl, rfl⟩
    by_cases na : a = .null
    · subst na
      by_cases nb : b = .null
      · subst nb; exact h2
      · rw [(nul hb nb).1] at h1; omega
    by_cases nc : c = .null
    · subst nc; rw [(nul ha na).2]; omega
    by_cases nb : b = .null
    · subst nb; rw [(nul hc nc).1] at h2; omega
    exact h a b c na nb nc ha hb hc h1 h2
  intro k
  induction k with
  | text =>
    refine base _ fun a b c na nb nc ha hb hc h1 h2 => ?_
    cases a <;> try first | exact absurd rfl na | exact ha.1.elim
    cases b <;> try first | exact absurd rfl nb | exact hb.1.elim
    cases c <;> try first | exact absurd rfl nc | exact hc.1.elim
    have m1 := (means _ _ _ ha hb).2.2.2
    have m2 := (means _ _ _ hb hc).2.2.2
    have m3 := (means _ _ _ ha hc).2.2.2
    obtain ⟨cs, h0, rfl⟩ := ha.1
    obtain ⟨ds, g0, rfl⟩ := hb.1
    obtain ⟨es, f0, rfl⟩ := hc.1
    rw [(text_before g0 h0).1] at m1
    rw [(text_before f0 g0).1] at m2
    rw [(text_before f0 h0).1] at m3
    exact Int.not_lt.mp fun h => text_trans (fun e => by have := m1.mpr e; omega) (fun e => by have := m2.mpr e; omega) (m3.mp h)
  | bytes =>
    refine base _ fun a b c na nb nc ha hb hc => ?_
    cases a <;> try first | exact absurd rfl na | exact ha.1.elim
    cases b <;> try first | exact absurd rfl nb | exact hb.1.elim
    cases c <;> try first | exact absurd rfl nc | exact hc.1.elim
    unfold cmpI
    rw [data_eq ha hb, data_eq hb hc, data_eq ha hc]
    exact bytes_trans _ _ _
  | number t c =>
    refine base _ fun a b d na nb nc ha hb hd => ?_
    cases a <;> try first | exact absurd rfl na | exact ha.1.elim
    cases b <;> try first | exact absurd rfl nb | exact hb.1.elim
    cases d <;> try first | exact absurd rfl nc | exact hd.1.elim
    unfold cmpI
    rw [num_eq ha hb, num_eq hb hd, num_eq ha hd]
    exact (number_laws t c).2.trans _ _ _ ha.1 hb.1 hd.1
  | pair k l ihk ihl =>
    refine base _ fun a b c na nb nc ha hb hc => ?_
    cases a <;> try first | exact absurd rfl na | exact ha.1.elim
    cases b <;> try first | exact absurd rfl nb | exact hb.1.elim
    cases c <;> try first | exact absurd rfl nc | exact hc.1.elim
    rename_i p x y p' x' y' p'' x'' y''
    have e : ∀ {p q x y x' y'}, Ok mem (.pair k l) (.pair p x y) → Ok mem (.pair k l) (.pair q x' y') →
        cmpI (.pair p x y) (.pair q x' y') = if cmpI x x' ≠ 0 then cmpI x x' else cmpI y y' := by
      intro p q x y x' y' ha hb
      have e := pair_eq ha hb
      rw [(means _ _ _ ha.first hb.first).1, Option.bind_some, (means _ _ _ ha.second hb.second).1] at e
      show (compare (.pair p x y) (.pair q x' y')).getD 0 = _
      rw [e]
      by_cases h : cmpI x x' = 0
      · rw [if_pos h, if_neg (by omega)]; rfl
      · rw [if_neg h, if_pos h]; rfl
    rw [e ha hb, e hb hc, e ha hc]
    have L := (ihk.comap (fun z : Obj × Obj => Ok mem k z.1 ∧ Ok mem l z.2) Prod.fst fun _ h => h.1).lex
      (ihl.comap (fun z : Obj × Obj => Ok mem k z.1 ∧ Ok mem l z.2) Prod.snd fun _ h => h.2)
    exact L.trans (x, y) (x', y') (x'', y'') ⟨ha.first, ha.second⟩ ⟨hb.first, hb.second⟩ ⟨hc.first, hc.second⟩
  | record n =>
    refine base _ fun a b c na nb nc ha hb hc => ?_
    cases a <;> try first | exact absurd rfl na | exact ha.1.elim
    cases b <;> try first | exact absurd rfl nb | exact hb.1.elim
    cases c <;> try first | exact absurd rfl nc | exact hc.1.elim
    rename_i p s x p' s' x' p'' s'' x''
    have e : ∀ {p q s t x y}, Ok mem (.record n) (.struct p s x) → Ok mem (.record n) (.struct q t y) →
        cmpI (.struct p s x) (.struct q t y) = if semI s t ≠ 0 then semI s t else valueCompare x y := by
      intro p q s t x y ha hb
      unfold cmpI; rw [struct_eq ha hb]; rfl
    rw [e ha hb, e hb hc, e ha hc]
    have V : Laws (fun _ : List UInt8 => True) valueCompare := by
      refine ⟨fun a b _ _ => (value_sign a b).1.trans (value_sign b a).2.2.symm, fun a b c _ _ _ => ?_⟩
      rw [value_eq, value_eq, value_eq]
      have := bytes_trans a b c
      split <;> split <;> (try split) <;> (try split) <;> (try split) <;> (try split) <;> omega
    have L := ((sem_laws (mem := mem)).comap (fun z : Obj × List UInt8 => SemOk mem z.1) Prod.fst fun _ h => h).lex
      (V.comap (fun z : Obj × List UInt8 => SemOk mem z.1) Prod.snd fun _ _ => trivial)
    exact L.trans (s, x) (s', x') (s'', x'') ha.sem hb.sem hc.sem
  | list l k n ih =>
    refine base _ fun a b c na nb nc ha hb hc => ?_
    cases a <;> try first | exact absurd rfl na | exact ha.1.elim
    cases b <;> try first | exact absurd rfl nb | exact hb.1.elim
    cases c <;> try first | exact absurd rfl nc | exact hc.1.elim
    have e : ∀ {p q l1 l2 xs ys}, Ok mem (.list l k n) (.list p l1 xs) → Ok mem (.list l k n) (.list q l2 ys) →
        cmpI (.list p l1 xs) (.list q l2 ys) = lexItems cmpI xs ys := by
      intro p q l1 l2 xs ys ha hb
      show (compare (.list p l1 xs) (.list q l2 ys)).getD 0 = _
      rw [list_eq ha hb, (items_means (means (mem := mem) k) xs ys (by rw [ha.1.2.1, hb.1.2.1]) (fun x hx => ha.item hx) (fun y hy => hb.item hy)).1]
      rfl
    rw [e ha hb, e hb hc, e ha hc]
    exact (ih.items n).trans _ _ _ ⟨ha.1.2.1, fun x hx => ha.item hx⟩ ⟨hb.1.2.1, fun x hx => hb.item hx⟩ ⟨hc.1.2.1, fun x hx => hc.item hx⟩
  | identity =>
    refine base _ fun a b c na nb nc ha hb hc h1 h2 => ?_
    have m1 := (means _ _ _ ha hb).2.2.2
    have m2 := (means _ _ _ hb hc).2.2.2
    have m3 := (means _ _ _ ha hc).2.2.2
    cases a <;> try first | exact absurd rfl na | exact ha.1.elim
    cases b <;> try first | exact absurd rfl nb | exact hb.1.elim
    cases c <;> try first | exact absurd rfl nc | exact hc.1.elim
    have b1 : ∀ {p q : Nat}, Before .identity (.other p) (.other q) ↔ p < q := fun {p q} =>
      ⟨fun h => by cases h with | identity h => exact h, .identity⟩
    rw [b1] at m1 m2 m3
    omega

/-! ### Equality -/

theorem equal_self : ∀ a, equal a a = some true
  | .null => rfl
  | .str .. | .data .. | .num .. | .pair .. | .struct .. | .list .. | .other .. => by simp only [equal, dispatchEqual, Obj.addr, if_true]

theorem equalItems_self : ∀ xs, equalItems xs xs = some true
  | [] => rfl
  | x :: xs => by
      rw [equalItems, List.headD_cons, equal_self]
      exact equalItems_self xs

theorem dispatchEqual_eq {p : Nat} {b : Obj} {r : Option Bool} (hb : b ≠ .null) (h : p = b.addr → r = some true) : dispatchEqual p b r = r := by
  unfold dispatchEqual
  split
  · rename_i e; rw [h e]
  · cases b with
    | null => exact absurd rfl hb
    | _ => rfl

theorem equal_null {a : Obj} (ha : InMemory mem a) (h : a ≠ .null) : equal .null a = some false ∧ equal a .null = some false := by
  have h0 := ha.addr h
  refine ⟨by simp only [equal]; rw [beq_false_of_ne h0], ?_⟩
  cases a with
  | null => exact absurd rfl h
  | _ => simp only [Obj.addr] at h0; simp only [equal, dispatchEqual, Obj.addr]; exact if_neg h0

theorem cstr_text {a : List Char} (h : '\x00' ∉ a) : Data.cstr (utf8 a) = utf8 a := by
  have := utf8_nulfree h
  unfold Data.cstr
  have t : ∀ l : List UInt8, (∀ b ∈ l, b ≠ 0) → l.takeWhile (· != 0) = l := by
    intro l
    induction l with
    | nil => intro _; rfl
    | cons b l ih => intro h; rw [List.takeWhile_cons, if_pos (by simpa using h b (by simp)), ih fun c hc => h c (by simp [hc])]
  exact t _ fun b hb e => this (e ▸ hb)

theorem testEquality_text {a b : List Char} (ha : '\x00' ∉ a) (hb : '\x00' ∉ b) : Data.testEquality (Data.fresh (utf8 a)) (Data.fresh (utf8 b)) = true ↔ a = b := by
  constructor
  · intro h
    unfold Data.testEquality at h
    split at h
    · cases h
    · simp only [Data.fresh, cstr_text ha, cstr_text hb, beq_iff_eq] at h
      exact utf8_inj ha hb h
  · rintro rfl
    unfold Data.testEquality
    rw [if_neg (by simp)]
    simp

theorem equalItems_means {k : Kind} {P : Obj → Prop} (h : ∀ a b, P a → P b → ∃ e, equal a b = some e ∧ (e = true ↔ Same k a b)) :
    ∀ xs ys : List Obj, xs.length = ys.length → (∀ x ∈ xs, P x) → (∀ y ∈ ys, P y) → ∃ e, equalItems xs ys = some e ∧ (e = true ↔ ItemsSame k xs ys)
  | [], [], _, _, _ => ⟨true, rfl, ⟨fun _ i h1 => absurd h1 (by simp), fun _ => rfl⟩⟩
  | [], _ :: _, hl, _, _ => by cases hl
  | _ :: _, [], hl, _, _ => by cases hl
  | x :: xs, y :: ys, hl, hx, hy => by
      obtain ⟨e, h1, h2⟩ := equalItems_means h xs ys (by simpa using hl) (fun z hz => hx z (List.mem_cons_of_mem _ hz)) (fun z hz => hy z (List.mem_cons_of_mem _ hz))
      obtain ⟨f, h3, h4⟩ := h x y (hx x (List.mem_cons_self ..)) (hy y (List.mem_cons_self ..))
      rw [itemsSame_cons, ← h2, ← h4, equalItems, List.headD_cons, h3]
      simp only [Option.bind_some, List.tail_cons, h1]
      cases f
      · exact ⟨false, rfl, by simp⟩
      · exact ⟨e, rfl, by simp⟩

theorem semEqual_means {a b : Obj} (ta : IsText a) (tb : IsText b) (ma : InMemory mem a) (mb : InMemory mem b) :
    ∃ e, semEqual a b = some e ∧ (e = true ↔ Same .text a b) := by
  cases a <;> try exact ta.elim
  cases b <;> try exact tb.elim
  rename_i p xs q ys
  by_cases h : p = q
  · have e := InMemory.same ma mb h
    rw [e]
    refine ⟨true, ?_, ⟨fun _ => same_refl .text _ tb, fun _ => rfl⟩⟩
    simp only [semEqual]
    exact if_pos rfl
  · obtain ⟨cs, h0, rfl⟩ := ta
    obtain ⟨ds, g0, rfl⟩ := tb
    refine ⟨_, by simp only [semEqual]; exact if_neg h, by rw [testEquality_text h0 g0, text_same h0 g0]⟩

theorem equal_means : ∀ (k : Kind) (a b : Obj), k.Named → Ok mem k a → Ok mem k b → ∃ e, equal a b = some e ∧ (e = true ↔ Same k a b) := by
  have base : ∀ k : Kind, (∀ a b, a ≠ .null → b ≠ .null → a.addr ≠ b.addr → Ok mem k a → Ok mem k b → ∃ e, equal a b = some e ∧ (e = true ↔ Same k a b)) →
      ∀ a b, Ok mem k a → Ok mem k b → ∃ e, equal a b = some e ∧ (e = true ↔ Same k a b) := by
    intro k h a b ha hb
    by_cases he : a.addr = b.addr
    · have := InMemory.same ha.2 hb.2 he
      subst this
      exact ⟨true, equal_self a, ⟨fun _ => same_refl k a ha.1, fun _ => rfl⟩⟩
    by_cases na : a = .null
    · subst na
      have nb : b ≠ .null := fun e => he (by rw [e])
      exact ⟨false, (equal_null hb.2 nb).1, ⟨fun h => (Bool.false_ne_true h).elim, fun h => by cases h; exact absurd rfl nb⟩⟩
    by_cases nb : b = .null
    · subst nb
      exact ⟨false, (equal_null ha.2 na).2, ⟨fun h => (Bool.false_ne_true h).elim, fun h => by cases h; exact absurd rfl na⟩⟩
    exact h a b na nb he ha hb
  have disp : ∀ {p : Nat} {b : Obj} {r : Option Bool}, b ≠ .null → p ≠ b.addr → dispatchEqual p b r = r := fun hb h => dispatchEqual_eq hb fun e => absurd e h
  intro k
  induction k with
  | text =>
    intro a b _
    refine base _ (fun a b na nb he ha hb => ?_) a b
    cases a <;> try first | exact absurd rfl na | exact ha.1.elim
    cases b <;> try first | exact absurd rfl nb | exact hb.1.elim
    simp only [equal]
    rw [disp nb (by exact he)]
    obtain ⟨cs, h0, rfl⟩ := ha.1
    obtain ⟨ds, g0, rfl⟩ := hb.1
    exact ⟨_, rfl, by rw [strEqual, testEquality_text h0 g0, text_same h0 g0]⟩
  | bytes =>
    intro a b _
    refine base _ (fun a b na nb he ha hb => ?_) a b
    cases a <;> try first | exact absurd rfl na | exact ha.1.elim
    cases b <;> try first | exact absurd rfl nb | exact hb.1.elim
    rename_i p xs q ys
    simp only [equal]
    rw [disp nb (by exact he), dataEqual, dataCompare, Option.map_some]
    refine ⟨_, rfl, ?_⟩
    rw [beq_iff_eq, (bytes_sign xs ys).2.1]
    exact ⟨fun h => h ▸ .bytes, fun h => by cases h; rfl⟩
  | number t c =>
    intro a b _
    refine base _ (fun a b na nb he ha hb => ?_) a b
    cases a <;> try first | exact absurd rfl na | exact ha.1.elim
    cases b <;> try first | exact absurd rfl nb | exact hb.1.elim
    simp only [equal]
    rw [disp nb (by exact he), numEqual, Number.equal, (number_laws t c).1 _ _ ha.1 hb.1, Option.map_some]
    exact ⟨_, rfl, by rw [beq_iff_eq]; exact (number_means ha.1 hb.1).2.1⟩
  | pair k l ihk ihl =>
    intro a b hn
    refine base _ (fun a b na nb he ha hb => ?_) a b
    cases a <;> try first | exact absurd rfl na | exact ha.1.elim
    cases b <;> try first | exact absurd rfl nb | exact hb.1.elim
    simp only [equal]
    rw [disp nb (by exact he)]
    obtain ⟨e, h1, h2⟩ := ihk _ _ hn.1 ha.first hb.first
    obtain ⟨f, h3, h4⟩ := ihl _ _ hn.2 ha.second hb.second
    rw [pair_same, ← h2, ← h4, h1, Option.bind_some, h3]
    cases e
    · exact ⟨false, rfl, by simp⟩
    · exact ⟨f, rfl, by simp⟩
  | record n =>
    intro a b hn
    refine base _ (fun a b na nb he ha hb => ?_) a b
    cases a <;> try first | exact absurd rfl na | exact ha.1.elim
    cases b <;> try first | exact absurd rfl nb | exact hb.1.elim
    rename_i p s xs q t ys
    have ts : ∀ {s p xs}, Ok mem (.record n) (.struct p s xs) → IsText s := fun {s p xs} h => by
      rcases h.1 with h | ⟨-, h⟩
      · exact h
      · have h' : n = true := hn
        rw [h'] at h; cases h
    obtain ⟨e, h1, h2⟩ := semEqual_means (ts ha) (ts hb) ha.sem.2 hb.sem.2
    simp only [equal]
    rw [disp nb (by exact he), structEqual, h1, Option.map_some, record_same, ← h2]
    refine ⟨_, rfl, ?_⟩
    rw [Bool.and_eq_true, Bool.and_eq_true, beq_iff_eq, beq_iff_eq]
    constructor
    · rintro ⟨h, hl, hm⟩
      rw [memcmp_eq hl, (bytes_sign xs ys).2.1] at hm
      exact ⟨h, hm⟩
    · rintro ⟨h, rfl⟩
      exact ⟨h, rfl, by rw [memcmp_eq rfl, (bytes_sign xs xs).2.1]⟩
  | list l k n ih =>
    intro a b hn
    refine base _ (fun a b na nb he ha hb => ?_) a b
    cases a <;> try first | exact absurd rfl na | exact ha.1.elim
    cases b <;> try first | exact absurd rfl nb | exact hb.1.elim
    rename_i p l1 xs q l2 ys
    obtain ⟨e1, e2⟩ := And.intro ha.1.1 hb.1.1
    subst e1 e2
    simp only [equal]
    rw [disp nb (by exact he), if_pos (by rw [ha.1.2.1, hb.1.2.1]), list_same]
    exact equalItems_means (fun a b ha hb => ih a b hn ha hb) xs ys (by rw [ha.1.2.1, hb.1.2.1]) (fun x hx => ha.item hx) (fun y hy => hb.item hy)
  | identity =>
    intro a b _
    refine base _ (fun a b na nb he ha hb => ?_) a b
    cases a <;> try first | exact absurd rfl na | exact ha.1.elim
    cases b <;> try first | exact absurd rfl nb | exact hb.1.elim
    rename_i p q
    simp only [equal]
    rw [disp nb (by exact he)]
    exact ⟨_, rfl, by rw [beq_iff_eq]; exact ⟨fun h => by cases h; exact .identity, fun h => by cases h; rfl⟩⟩

end

end Compare
end Duck
