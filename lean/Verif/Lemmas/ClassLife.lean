import Verif.Spec.ClassLife

/-
Lemmas for the lifetimes of classes: the reference count of a class is the number of references of the client, of its instances and
of its subclasses.
-/

namespace Duck
namespace ClassLife

theorem countP_set_get {α : Type} (p : α → Bool) (a b : α) : ∀ (l : List α) (i : Nat), l[i]? = some a →
    (l.set i b).countP p + (if p a then 1 else 0) = l.countP p + (if p b then 1 else 0)
  | [], _, h => by simp at h
  | x :: l, 0, h => by
    simp at h
    subst h
    simp only [List.set_cons_zero, List.countP_cons]
    omega
  | x :: l, i + 1, h => by
    simp at h
    have := countP_set_get p a b l i h
    simp only [List.set_cons_succ, List.countP_cons]
    omega

theorem countP_pos_get {α : Type} (p : α → Bool) (l : List α) (h : 0 < l.countP p) : ∃ (i : Nat) (a : α), l[i]? = some a ∧ p a := by
  obtain ⟨a, ha, hp⟩ := List.countP_pos_iff.mp h
  obtain ⟨i, hi⟩ := List.getElem?_of_mem ha
  exact ⟨i, a, hi, hp⟩

theorem get_countP_pos {α : Type} (p : α → Bool) (l : List α) (i : Nat) (a : α) (h : l[i]? = some a) (hp : p a) : 0 < l.countP p :=
  List.countP_pos_iff.mpr ⟨a, List.mem_of_getElem? h, hp⟩

/-- The number of living direct subclasses. -/
def subs (cs : List Cls) (c : Nat) : Nat := cs.countP fun k => k.refs ≠ 0 ∧ k.super = some c

/-- The number of instances not yet freed. -/
def insts (os : List Obj) (c : Nat) : Nat := os.countP fun x => x.st ≠ .gone ∧ x.isa = c

theorem subs_set (cs : List Cls) (i : Nat) (k b : Cls) (h : cs[i]? = some k) (c : Nat) :
    subs (cs.set i b) c + (if k.refs ≠ 0 ∧ k.super = some c then 1 else 0) =
      subs cs c + (if b.refs ≠ 0 ∧ b.super = some c then 1 else 0) := by
  have := countP_set_get (fun k : Cls => decide (k.refs ≠ 0 ∧ k.super = some c)) k b cs i h
  simpa [subs] using this

theorem insts_set (os : List Obj) (i : Nat) (k b : Obj) (h : os[i]? = some k) (c : Nat) :
    insts (os.set i b) c + (if k.st ≠ .gone ∧ k.isa = c then 1 else 0) =
      insts os c + (if b.st ≠ .gone ∧ b.isa = c then 1 else 0) := by
  have := countP_set_get (fun k : Obj => decide (k.st ≠ .gone ∧ k.isa = c)) k b os i h
  simpa [insts] using this

theorem subs_append (cs : List Cls) (b : Cls) (c : Nat) :
    subs (cs ++ [b]) c = subs cs c + (if b.refs ≠ 0 ∧ b.super = some c then 1 else 0) := by
  simp [subs, List.countP_append, List.countP_cons]

theorem insts_append (cs : List Obj) (b : Obj) (c : Nat) :
    insts (cs ++ [b]) c = insts cs c + (if b.st ≠ .gone ∧ b.isa = c then 1 else 0) := by
  simp [insts, List.countP_append, List.countP_cons]

theorem get_set {α : Type} (l : List α) (i j : Nat) (b x : α) (h : (l.set i b)[j]? = some x) :
    (j = i ∧ i < l.length ∧ x = b) ∨ (j ≠ i ∧ l[j]? = some x) := by
  rw [List.getElem?_set] at h
  by_cases e : i = j
  · subst e
    by_cases hl : i < l.length
    · simp [hl] at h
      exact Or.inl ⟨rfl, hl, h.symm⟩
    · simp [hl] at h
  · rw [if_neg e] at h
    exact Or.inr ⟨fun h => e h.symm, h⟩

@[simp] theorem withRefs_super (k : Cls) (n : Nat) : (k.withRefs n).super = k.super := rfl
@[simp] theorem withRefs_refs (k : Cls) (n : Nat) : (k.withRefs n).refs = n := rfl
@[simp] theorem withRefs_counted (k : Cls) (n : Nat) : (k.withRefs n).counted = k.counted := rfl
@[simp] theorem withRefs_big (k : Cls) (n : Nat) : (k.withRefs n).big = k.big := rfl

/-- The class was made before its subclasses. -/
def Older (cs : List Cls) : Prop := ∀ (c : Nat) (k : Cls) (p : Nat), cs[c]? = some k → k.super = some p → p < c

/-- What the release of a class leaves. -/
structure Released (ext : Nat → Nat) (cs cs' : List Cls) (fs : List Nat) : Prop where
  len : cs'.length = cs.length
  same : ∀ c k', cs'[c]? = some k' → ∃ k, cs[c]? = some k ∧ k'.super = k.super ∧ k'.counted = k.counted ∧ k'.big = k.big ∧
    (k.refs = 0 → k'.refs = 0) ∧ fs.count c = (if k.refs ≠ 0 ∧ k'.refs = 0 then 1 else 0)
  refs : ∀ c k', cs'[c]? = some k' → k'.refs = ext c + subs cs' c
  out : ∀ c, cs.length ≤ c → fs.count c = 0

theorem release_ok (ext : Nat → Nat) : ∀ (f : Nat) (cs : List Cls) (a : Nat), a < f → a < cs.length → Older cs →
    (∀ c k, cs[c]? = some k → k.refs = ext c + subs cs c + (if c = a then 1 else 0)) →
    ∃ cs' fs, releaseCls f cs a = some (cs', fs) ∧ Released ext cs cs' fs ∧ (∀ c, a < c → fs.count c = 0)
  | 0, _, _, h, _, _, _ => by omega
  | f + 1, cs, a, hf, ha, ho, hr => by
    obtain ⟨k, hk⟩ : ∃ k, cs[a]? = some k := ⟨cs[a], by simp [ha]⟩
    have hra := hr a k hk
    simp only [if_true] at hra
    simp only [releaseCls, hk, Option.bind_some]
    rw [if_neg (by omega)]
    by_cases h1 : k.refs = 1
    · rw [if_pos h1]
      have hlen : (cs.set a (k.withRefs 0)).length = cs.length := by simp
      cases hs : k.super with
      | none =>
        refine ⟨_, _, rfl, ⟨hlen, ?_, ?_, ?_⟩, ?_⟩
        · intro c k' h
          rcases get_set _ _ _ _ _ h with ⟨rfl, _, rfl⟩ | ⟨hne, h⟩
          · exact ⟨k, hk, rfl, rfl, rfl, fun _ => rfl, by simp [h1]⟩
          · refine ⟨k', h, rfl, rfl, rfl, fun h => h, ?_⟩
            rw [if_neg (by intro h; exact h.1 h.2)]
            simp [Ne.symm hne]
        · intro c k' h
          have hset := subs_set cs a k (k.withRefs 0) hk c
          rcases get_set _ _ _ _ _ h with ⟨rfl, _, rfl⟩ | ⟨hne, h⟩
          · simp [hs] at hset ⊢
            omega
          · have := hr c k' h
            simp [hs] at hset
            simp [hne] at this
            omega
        · intro c hc
          have : a ≠ c := by omega
          simp [this]
        · intro c hc
          have : a ≠ c := by omega
          simp [this]
      | some p =>
        have hp : p < a := ho a k p hk hs
        have ho' : Older (cs.set a (k.withRefs 0)) := by
          intro c k' q h hq
          rcases get_set _ _ _ _ _ h with ⟨rfl, _, rfl⟩ | ⟨_, h⟩
          · exact ho c k q hk hq
          · exact ho c k' q h hq
        obtain ⟨cs', fs, he, hrel, hout⟩ := release_ok ext f (cs.set a (k.withRefs 0)) p (by omega) (by omega) ho' (by
          intro c k' h
          have hset := subs_set cs a k (k.withRefs 0) hk c
          rcases get_set _ _ _ _ _ h with ⟨rfl, _, rfl⟩ | ⟨hne, h⟩
          · have : c ≠ p := by omega
            simp [this, hs, Ne.symm this] at hset ⊢
            omega
          · have := hr c k' h
            simp [hne] at this
            by_cases e : c = p
            · subst e
              simp [hs, h1] at hset
              simp
              omega
            · simp [hs, e, Ne.symm e] at hset ⊢
              omega)
        refine ⟨cs', a :: fs, by simp [he], ⟨by rw [hrel.len, hlen], ?_, hrel.refs, ?_⟩, ?_⟩
        · intro c k' h
          obtain ⟨k₁, g1, g2, g3, g4, g5, g6⟩ := hrel.same c k' h
          rcases get_set _ _ _ _ _ g1 with ⟨rfl, _, rfl⟩ | ⟨hne, g1⟩
          · refine ⟨k, hk, g2, g3, g4, fun h => by omega, ?_⟩
            rw [List.count_cons_self, hout c hp, if_pos ⟨by omega, g5 rfl⟩]
          · exact ⟨k₁, g1, g2, g3, g4, g5, by rw [List.count_cons_of_ne (Ne.symm hne), g6]⟩
        · intro c hc
          have : a ≠ c := by omega
          rw [List.count_cons_of_ne this]
          exact hrel.out c (by omega)
        · intro c hc
          have : a ≠ c := by omega
          rw [List.count_cons_of_ne this]
          exact hout c (by omega)
    · rw [if_neg h1]
      refine ⟨_, _, rfl, ⟨by simp, ?_, ?_, by simp⟩, by simp⟩
      · intro c k' h
        rcases get_set _ _ _ _ _ h with ⟨rfl, _, rfl⟩ | ⟨hne, h⟩
        · refine ⟨k, hk, rfl, rfl, rfl, fun h => by omega, ?_⟩
          have : k.refs - 1 ≠ 0 := by omega
          simp [this]
        · refine ⟨k', h, rfl, rfl, rfl, fun h => h, ?_⟩
          rw [if_neg (by intro h; exact h.1 h.2)]
          simp
      · intro c k' h
        have hset := subs_set cs a k (k.withRefs (k.refs - 1)) hk c
        have hn : k.refs ≠ 0 := by omega
        have hn1 : k.refs - 1 ≠ 0 := by omega
        simp only [withRefs_refs, withRefs_super, hn, hn1, ne_eq, not_false_eq_true, true_and] at hset
        rcases get_set _ _ _ _ _ h with ⟨rfl, _, rfl⟩ | ⟨hne, h⟩
        · simp only [withRefs_refs]
          omega
        · have := hr c k' h
          simp only [hne, if_false] at this
          omega

/-- What holds of an object, given its state, its ledger and the finalizers called. -/
def ObjOk (l : Ledger) (o : Nat) (calls : List Nat) (x : Obj) : Prop :=
  match x.st with
  | .live n => 0 < n ∧ (x.counted = true → n = l.ownO o) ∧ calls = []
  | .dying next => (x.counted = true ∧ l.ownO o = 0) ∧ ∃ rest, Chain l.super next rest ∧ Chain l.super (some x.isa) (calls ++ rest)
  | .gone => (x.counted = true ∧ l.ownO o = 0) ∧ Chain l.super (some x.isa) calls
  | .zombie => (x.counted = true ∧ l.ownO o = 0) ∧ Chain l.super (some x.isa) calls

structure Inv (l : Ledger) (s : State) : Prop where
  nc : s.classes.length = l.nc
  no : s.objects.length = l.no
  super : ∀ c k, s.classes[c]? = some k → k.super = l.super c
  cnt : ∀ (c : Nat) (k : Cls), s.classes[c]? = some k → k.counted = l.counted c
  ocnt : ∀ (o : Nat) (x : Obj), s.objects[o]? = some x → x.counted = l.counted x.isa
  older : Older s.classes
  refs : ∀ c k, s.classes[c]? = some k → k.refs = l.ownC c + insts s.objects c + subs s.classes c
  isa : ∀ o x, s.objects[o]? = some x → x.isa = l.isa o ∧ x.isa < l.nc
  obj : ∀ o x, s.objects[o]? = some x → ObjOk l o (s.callsOf o) x
  fresh : ∀ o, l.no ≤ o → s.callsOf o = []
  outC : ∀ c, l.nc ≤ c → l.ownC c = 0 ∧ s.fins.count c = 0
  outO : ∀ o, l.no ≤ o → l.ownO o = 0
  fins : ∀ c k, s.classes[c]? = some k → s.fins.count c = (if k.refs = 0 then 1 else 0)

theorem start_inv : Inv .empty start := by
  constructor <;> simp [start, Ledger.empty, Older, State.callsOf]

theorem needed_alive (l : Ledger) (s : State) (h : Inv l s) (c : Nat) (hn : Needed l s.there c) : s.alive c := by
  induction hn with
  | own c hc =>
    have hlt : c < s.classes.length := by
      rw [h.nc]
      by_cases g : c < l.nc
      · exact g
      · have := (h.outC c (by omega)).1
        omega
    refine ⟨s.classes[c], by simp [hlt], ?_⟩
    have := h.refs c _ (List.getElem?_eq_getElem hlt)
    omega
  | inst o ho ht =>
    obtain ⟨t, ht, hg⟩ := ht
    simp only [State.obj, Option.map_eq_some_iff] at ht
    obtain ⟨x, hx, rfl⟩ := ht
    obtain ⟨h1, h2⟩ := h.isa o x hx
    rw [← h1]
    have hlt : x.isa < s.classes.length := by rw [h.nc]; exact h2
    refine ⟨s.classes[x.isa], by simp [hlt], ?_⟩
    have := h.refs x.isa _ (List.getElem?_eq_getElem hlt)
    have hp := get_countP_pos (fun y : Obj => decide (y.st ≠ .gone ∧ y.isa = x.isa)) s.objects o x hx (by simp [hg])
    have : 0 < insts s.objects x.isa := hp
    omega
  | sub d c _ hs ih =>
    obtain ⟨k, hk, hr⟩ := ih
    have hsup := h.super d k hk
    rw [hs] at hsup
    have hlt : c < s.classes.length := by
      have := h.older d k c hk hsup
      have := (List.getElem?_eq_some_iff.mp hk).1
      omega
    refine ⟨s.classes[c], by simp [hlt], ?_⟩
    have := h.refs c _ (List.getElem?_eq_getElem hlt)
    have hp := get_countP_pos (fun y : Cls => decide (y.refs ≠ 0 ∧ y.super = some c)) s.classes d k hk (by simp [hr, hsup])
    have : 0 < subs s.classes c := hp
    omega

theorem alive_needed (l : Ledger) (s : State) (h : Inv l s) : ∀ (n c : Nat), s.classes.length ≤ c + n → s.alive c →
    Needed l s.there c
  | 0, c, hn, ha => by
    obtain ⟨k, hk, _⟩ := ha
    have := (List.getElem?_eq_some_iff.mp hk).1
    omega
  | n + 1, c, hn, ha => by
    obtain ⟨k, hk, hr⟩ := ha
    have href := h.refs c k hk
    by_cases h1 : 0 < l.ownC c
    · exact .own c h1
    by_cases h2 : 0 < insts s.objects c
    · obtain ⟨o, x, hx, hp⟩ := countP_pos_get _ _ h2
      simp at hp
      obtain ⟨g1, g2⟩ := h.isa o x hx
      have e : c = l.isa o := by rw [← g1, hp.2]
      rw [e]
      refine .inst o ?_ ⟨x.st, by simp [State.obj, hx], hp.1⟩
      rw [← h.no]
      exact (List.getElem?_eq_some_iff.mp hx).1
    · have h3 : 0 < subs s.classes c := by omega
      obtain ⟨d, k', hk', hp⟩ := countP_pos_get _ _ h3
      simp at hp
      have hlt := h.older d k' c hk' hp.2
      refine .sub d c (alive_needed l s h n d (by omega) ⟨k', hk', hp.1⟩) ?_
      rw [← h.super d k' hk', hp.2]

theorem alive_chain (l : Ledger) (s : State) (h : Inv l s) (a : Option Nat) (xs : List Nat) (hc : Chain l.super a xs) :
    (∀ c, a = some c → s.alive c) → ∀ c, c ∈ xs → s.alive c := by
  induction hc with
  | nil => simp
  | cons c cs hc ih =>
    intro ha d hd
    have hal := ha c rfl
    rcases List.mem_cons.mp hd with rfl | hd
    · exact hal
    · refine ih ?_ d hd
      intro p hp
      exact needed_alive l s h p (.sub c p (alive_needed l s h s.classes.length c (by omega) hal) hp)

/-- `DKRetain` of a living class. -/
theorem retain_ok (cs : List Cls) (c : Nat) (k : Cls) (hk : cs[c]? = some k) (hr : k.refs ≠ 0) :
    retainCls cs c = some (cs.set c (k.withRefs (k.refs + 1))) := by
  simp [retainCls, hk, hr]

theorem retain_subs (cs : List Cls) (c : Nat) (k : Cls) (hk : cs[c]? = some k) (hr : k.refs ≠ 0) (d : Nat) :
    subs (cs.set c (k.withRefs (k.refs + 1))) d = subs cs d := by
  have := subs_set cs c k (k.withRefs (k.refs + 1)) hk d
  simp [hr] at this
  omega

/-- A class after `DKRetain` of class `c`. -/
theorem retain_get (cs : List Cls) (c : Nat) (k : Cls) (hk : cs[c]? = some k) (hr : k.refs ≠ 0) (d : Nat) (k' : Cls)
    (h : (cs.set c (k.withRefs (k.refs + 1)))[d]? = some k') :
    ∃ k₀, cs[d]? = some k₀ ∧ k'.super = k₀.super ∧ k'.counted = k₀.counted ∧ k'.refs = k₀.refs + (if d = c then 1 else 0) ∧
      (k'.refs = 0 ↔ k₀.refs = 0) := by
  rcases get_set _ _ _ _ _ h with ⟨rfl, _, rfl⟩ | ⟨hne, h⟩
  · exact ⟨k, hk, rfl, rfl, by simp, by simp [hr]⟩
  · exact ⟨k', h, rfl, rfl, by simp [hne], Iff.rfl⟩

theorem lt_of_get {α : Type} {l : List α} {i : Nat} {a : α} (h : l[i]? = some a) : i < l.length :=
  (List.getElem?_eq_some_iff.mp h).1

theorem get_append {α : Type} (l : List α) (b x : α) (i : Nat) (h : (l ++ [b])[i]? = some x) :
    (i = l.length ∧ x = b) ∨ (i < l.length ∧ l[i]? = some x) := by
  rw [List.getElem?_append] at h
  by_cases hl : i < l.length
  · rw [if_pos hl] at h
    exact Or.inr ⟨hl, h⟩
  · rw [if_neg hl] at h
    have hb := lt_of_get h
    simp at hb
    have e : i = l.length := by omega
    subst e
    simp at h
    exact Or.inl ⟨rfl, h.symm⟩

/-- Chains depend only on the superclasses of their members. -/
theorem chain_upd (super : Nat → Option Nat) (n : Nat) (p : Option Nat) (hold : ∀ c q, c < n → super c = some q → q < n)
    (a : Option Nat) (xs : List Nat) (hc : Chain super a xs) : (∀ c, a = some c → c < n) → Chain (upd super n p) a xs := by
  induction hc with
  | nil => exact fun _ => .nil
  | cons c cs hc ih =>
    intro h
    have hn := h c rfl
    have e : upd super n p c = super c := by
      have : c ≠ n := by omega
      simp [upd, this]
    refine .cons c cs ?_
    rw [e]
    exact ih fun q hq => hold c q hn hq

theorem upd_self {α : Type} (f : Nat → α) (i : Nat) (a : α) : upd f i a i = a := by simp [upd]

theorem upd_ne {α : Type} (f : Nat → α) (i j : Nat) (a : α) (h : j ≠ i) : upd f i a j = f j := by simp [upd, h]

theorem super_lt (l : Ledger) (s : State) (h : Inv l s) (c q : Nat) (hc : c < l.nc) (hq : l.super c = some q) : q < l.nc := by
  have hlt : c < s.classes.length := by rw [h.nc]; exact hc
  have hk := List.getElem?_eq_getElem hlt
  have := h.super c _ hk
  have := h.older c _ q hk (by rw [this, hq])
  omega

/-- The members of a chain are classes that were made. -/
theorem chain_lt (l : Ledger) (s : State) (h : Inv l s) (a : Option Nat) (xs : List Nat) (hc : Chain l.super a xs) :
    (∀ c, a = some c → c < l.nc) → ∀ c, c ∈ xs → c < l.nc := by
  induction hc with
  | nil => simp
  | cons c cs hc ih =>
    intro ha d hd
    have hlt := ha c rfl
    rcases List.mem_cons.mp hd with rfl | hd
    · exact hlt
    · exact ih (fun q hq => super_lt l s h c q hlt hq) d hd

theorem objOk_newClass (l : Ledger) (s : State) (h : Inv l s) (p : Option Nat) (o : Nat) (x : Obj) (calls : List Nat)
    (hx : s.objects[o]? = some x) (ho : ObjOk l o calls x) (own : Nat → Nat) (cnt : Nat → Bool) :
    ObjOk { l with nc := l.nc + 1, super := upd l.super l.nc p, counted := cnt, ownC := own } o calls x := by
  have hi := (h.isa o x hx).2
  have hold := fun c q hc hq => super_lt l s h c q hc hq
  have hch : ∀ xs, Chain l.super (some x.isa) xs → Chain (upd l.super l.nc p) (some x.isa) xs := fun xs hc =>
    chain_upd l.super l.nc p hold _ _ hc (by intro c hc; cases hc; exact hi)
  unfold ObjOk at ho ⊢
  cases hst : x.st with
  | live n => simpa [hst] using ho
  | dying next =>
    simp only [hst] at ho ⊢
    obtain ⟨h1, rest, h2, h3⟩ := ho
    refine ⟨h1, rest, chain_upd l.super l.nc p hold _ _ h2 ?_, hch _ h3⟩
    intro c hc
    subst hc
    cases h2 with
    | cons _ cs' _ => exact chain_lt l s h _ _ h3 (by intro c hc; cases hc; exact hi) c (by simp)
  | gone =>
    simp only [hst] at ho ⊢
    exact ⟨ho.1, hch _ ho.2⟩
  | zombie =>
    simp only [hst] at ho ⊢
    exact ⟨ho.1, hch _ ho.2⟩

theorem newClass_inv (l : Ledger) (s : State) (h : Inv l s) (p : Option Nat) (counted big : Bool)
    (hp : ∀ q, p = some q → s.alive q) :
    ∃ s', newClass s p counted big = some s' ∧ Inv (l.step (.newClass p counted big)) s' := by
  have hsubs0 : subs s.classes l.nc = 0 := by
    apply Classical.byContradiction
    intro hne
    obtain ⟨d, k, hk, hd⟩ := countP_pos_get _ _ (Nat.pos_of_ne_zero hne)
    simp at hd
    have := h.older d k _ hk hd.2
    have := lt_of_get hk
    have := h.nc
    omega
  have hinsts0 : insts s.objects l.nc = 0 := by
    apply Classical.byContradiction
    intro hne
    obtain ⟨d, x, hx, hd⟩ := countP_pos_get _ _ (Nat.pos_of_ne_zero hne)
    simp at hd
    have := (h.isa d x hx).2
    omega
  cases p with
  | none =>
    refine ⟨_, rfl, ⟨by simp [Ledger.step, h.nc], h.no, ?_, ?_, ?_, ?_, ?_, ?_, ?_, h.fresh, ?_, h.outO, ?_⟩⟩
    · intro c k hk
      rcases get_append _ _ _ _ hk with ⟨rfl, rfl⟩ | ⟨hlt, hk⟩
      · simp [Ledger.step, h.nc, upd]
      · have := h.super c k hk
        have := h.nc
        rw [h.super c k hk]
        simp only [Ledger.step]
        rw [upd_ne _ _ _ _ (by omega)]
    · intro c k hk
      rcases get_append _ _ _ _ hk with ⟨rfl, rfl⟩ | ⟨hlt, hk⟩
      · simp [Ledger.step, h.nc, upd]
      · have := h.cnt c k hk
        have := h.nc
        rw [h.cnt c k hk]
        simp only [Ledger.step]
        rw [upd_ne _ _ _ _ (by omega)]
    · intro o x hx
      have := (h.isa o x hx).2
      rw [h.ocnt o x hx]
      simp only [Ledger.step]
      rw [upd_ne _ _ _ _ (by omega)]
    · intro c k q hk hq
      rcases get_append _ _ _ _ hk with ⟨rfl, rfl⟩ | ⟨hlt, hk⟩
      · simp at hq
      · exact h.older c k q hk hq
    · intro c k hk
      rw [subs_append]
      simp only [Ledger.step]
      rcases get_append _ _ _ _ hk with ⟨rfl, rfl⟩ | ⟨hlt, hk⟩
      · rw [h.nc, upd_self, hsubs0, hinsts0]
        simp
      · have := h.refs c k hk
        have := h.nc
        rw [upd_ne _ _ _ _ (by omega)]
        simp
        omega
    · intro o x hx
      have := h.isa o x hx
      simp only [Ledger.step]
      exact ⟨this.1, by omega⟩
    · intro o x hx
      exact objOk_newClass l s h none o x _ hx (h.obj o x hx) _ _
    · intro c hc
      simp only [Ledger.step] at hc ⊢
      rw [upd_ne _ _ _ _ (by omega)]
      exact h.outC c (by omega)
    · intro c k hk
      rcases get_append _ _ _ _ hk with ⟨rfl, rfl⟩ | ⟨hlt, hk⟩
      · have := (h.outC s.classes.length (by rw [h.nc]; omega)).2
        simpa using this
      · exact h.fins c k hk
  | some q =>
    obtain ⟨kq, hkq, hrq⟩ := hp q rfl
    have hqlt := lt_of_get hkq
    refine ⟨{ s with classes := s.classes.set q (kq.withRefs (kq.refs + 1)) ++ [⟨some q, counted, big, 1⟩] },
      by simp [newClass, retain_ok _ _ _ hkq hrq],
      ⟨by simp [Ledger.step, h.nc], h.no, ?_, ?_, ?_, ?_, ?_, ?_, ?_, h.fresh, ?_, h.outO, ?_⟩⟩
    · intro c k hk
      rcases get_append _ _ _ _ hk with ⟨rfl, rfl⟩ | ⟨hlt, hk⟩
      · simp [Ledger.step, h.nc, upd]
      · obtain ⟨k₀, g1, g2, _, _, _⟩ := retain_get _ _ _ hkq hrq _ _ hk
        have := h.nc
        have := lt_of_get g1
        rw [g2, h.super c k₀ g1]
        simp only [Ledger.step]
        rw [upd_ne _ _ _ _ (by omega)]
    · intro c k hk
      rcases get_append _ _ _ _ hk with ⟨rfl, rfl⟩ | ⟨hlt, hk⟩
      · simp [Ledger.step, h.nc, upd]
      · obtain ⟨k₀, g1, _, g2, _, _⟩ := retain_get _ _ _ hkq hrq _ _ hk
        have := h.nc
        have := lt_of_get g1
        rw [g2, h.cnt c k₀ g1]
        simp only [Ledger.step]
        rw [upd_ne _ _ _ _ (by omega)]
    · intro o x hx
      have := (h.isa o x hx).2
      rw [h.ocnt o x hx]
      simp only [Ledger.step]
      rw [upd_ne _ _ _ _ (by omega)]
    · intro c k r hk hr
      rcases get_append _ _ _ _ hk with ⟨rfl, rfl⟩ | ⟨hlt, hk⟩
      · simp at hr
        subst hr
        simpa using hqlt
      · obtain ⟨k₀, g1, g2, _, _, _⟩ := retain_get _ _ _ hkq hrq _ _ hk
        exact h.older c k₀ r g1 (by rw [← g2, hr])
    · intro c k hk
      rw [subs_append, retain_subs _ _ _ hkq hrq]
      simp only [Ledger.step]
      rcases get_append _ _ _ _ hk with ⟨rfl, rfl⟩ | ⟨hlt, hk⟩
      · have e : (s.classes.set q (kq.withRefs (kq.refs + 1))).length = l.nc := by simp [h.nc]
        have hne : q ≠ l.nc := by rw [← h.nc]; omega
        rw [e, upd_self, hsubs0, hinsts0]
        simp [hne]
      · obtain ⟨k₀, g1, g2, _, g4, _⟩ := retain_get _ _ _ hkq hrq _ _ hk
        have := h.refs c k₀ g1
        have := h.nc
        have := lt_of_get g1
        rw [upd_ne _ _ _ _ (by omega)]
        by_cases e : c = q
        · subst e
          simp at g4 ⊢
          omega
        · simp [e, Ne.symm e] at g4 ⊢
          omega
    · intro o x hx
      have := h.isa o x hx
      simp only [Ledger.step]
      exact ⟨this.1, by omega⟩
    · intro o x hx
      exact objOk_newClass l s h (some q) o x _ hx (h.obj o x hx) _ _
    · intro c hc
      simp only [Ledger.step] at hc ⊢
      rw [upd_ne _ _ _ _ (by omega)]
      exact h.outC c (by omega)
    · intro c k hk
      rcases get_append _ _ _ _ hk with ⟨rfl, rfl⟩ | ⟨hlt, hk⟩
      · have := (h.outC s.classes.length (by rw [h.nc]; omega)).2
        simpa using this
      · obtain ⟨k₀, g1, _, _, _, g5⟩ := retain_get _ _ _ hkq hrq _ _ hk
        rw [h.fins c k₀ g1]
        simp [g5]

theorem retainClass_inv (l : Ledger) (s : State) (h : Inv l s) (c : Nat) (ha : s.alive c) :
    ∃ s', ClassLife.step z s (.retainClass c) = some s' ∧ Inv (l.step (.retainClass c)) s' := by
  obtain ⟨kc, hkc, hrc⟩ := ha
  have hlt := lt_of_get hkc
  refine ⟨{ s with classes := s.classes.set c (kc.withRefs (kc.refs + 1)) },
    by simp [ClassLife.step, retain_ok _ _ _ hkc hrc], ⟨by simp [Ledger.step, h.nc], h.no, ?_, ?_, h.ocnt, ?_, ?_, h.isa, h.obj, h.fresh, ?_, h.outO, ?_⟩⟩
  · intro d k hk
    obtain ⟨k₀, g1, g2, _, _, _⟩ := retain_get _ _ _ hkc hrc _ _ hk
    rw [g2, h.super d k₀ g1]
    rfl
  · intro d k hk
    obtain ⟨k₀, g1, _, g2, _, _⟩ := retain_get _ _ _ hkc hrc _ _ hk
    rw [g2, h.cnt d k₀ g1]
    rfl
  · intro d k r hk hr
    obtain ⟨k₀, g1, g2, _, _, _⟩ := retain_get _ _ _ hkc hrc _ _ hk
    exact h.older d k₀ r g1 (by rw [← g2, hr])
  · intro d k hk
    obtain ⟨k₀, g1, g2, _, g4, _⟩ := retain_get _ _ _ hkc hrc _ _ hk
    have := h.refs d k₀ g1
    simp only [retain_subs _ _ _ hkc hrc, Ledger.step]
    by_cases e : d = c
    · subst e
      rw [upd_self]
      simp at g4
      omega
    · rw [upd_ne _ _ _ _ e]
      simp [e] at g4
      omega
  · intro d hd
    have := h.nc
    simp only [Ledger.step] at hd ⊢
    rw [upd_ne _ _ _ _ (by omega)]
    exact h.outC d hd
  · intro d k hk
    obtain ⟨k₀, g1, _, _, _, g5⟩ := retain_get _ _ _ hkc hrc _ _ hk
    rw [h.fins d k₀ g1]
    simp [g5]

theorem alloc_inv (l : Ledger) (s : State) (h : Inv l s) (c : Nat) (ha : s.alive c) :
    ∃ s', alloc s c = some s' ∧ Inv (l.step (.alloc c)) s' := by
  obtain ⟨kc, hkc, hrc⟩ := ha
  have hlt := lt_of_get hkc
  refine ⟨{ s with classes := s.classes.set c (kc.withRefs (kc.refs + 1)), objects := s.objects ++ [⟨c, kc.counted, .live 1⟩] },
    by simp [alloc, hkc, retain_ok _ _ _ hkc hrc],
    ⟨by simp [Ledger.step, h.nc], by simp [Ledger.step, h.no], ?_, ?_, ?_, ?_, ?_, ?_, ?_, ?_, h.outC, ?_, ?_⟩⟩
  · intro d k hk
    obtain ⟨k₀, g1, g2, _, _, _⟩ := retain_get _ _ _ hkc hrc _ _ hk
    rw [g2, h.super d k₀ g1]
    rfl
  · intro d k hk
    obtain ⟨k₀, g1, _, g2, _, _⟩ := retain_get _ _ _ hkc hrc _ _ hk
    rw [g2, h.cnt d k₀ g1]
    rfl
  · intro o x hx
    rcases get_append _ _ _ _ hx with ⟨rfl, rfl⟩ | ⟨hl, hx⟩
    · exact h.cnt c kc hkc
    · exact h.ocnt o x hx
  · intro d k r hk hr
    obtain ⟨k₀, g1, g2, _, _, _⟩ := retain_get _ _ _ hkc hrc _ _ hk
    exact h.older d k₀ r g1 (by rw [← g2, hr])
  · intro d k hk
    obtain ⟨k₀, g1, g2, _, g4, _⟩ := retain_get _ _ _ hkc hrc _ _ hk
    have := h.refs d k₀ g1
    simp only [retain_subs _ _ _ hkc hrc, insts_append, Ledger.step]
    by_cases e : d = c
    · subst e
      simp at g4 ⊢
      omega
    · simp [e, Ne.symm e] at g4 ⊢
      omega
  · intro o x hx
    simp only [Ledger.step]
    rcases get_append _ _ _ _ hx with ⟨rfl, rfl⟩ | ⟨hl, hx⟩
    · rw [h.no, upd_self]
      exact ⟨rfl, by rw [← h.nc]; exact hlt⟩
    · have := h.no
      rw [upd_ne _ _ _ _ (by omega)]
      exact h.isa o x hx
  · intro o x hx
    rcases get_append _ _ _ _ hx with ⟨rfl, rfl⟩ | ⟨hl, hx⟩
    · have hf := h.fresh s.objects.length (by rw [h.no]; omega)
      refine ⟨by omega, fun _ => ?_, hf⟩
      simp only [Ledger.step]
      rw [h.no, upd_self]
    · have := h.no
      have hne : o ≠ l.no := by omega
      have ho := h.obj o x hx
      unfold ObjOk at ho ⊢
      simp only [Ledger.step, upd_ne _ _ _ _ hne]
      exact ho
  · intro o ho
    simp only [Ledger.step] at ho
    exact h.fresh o (by omega)
  · intro o ho
    simp only [Ledger.step] at ho ⊢
    rw [upd_ne _ _ _ _ (by omega)]
    exact h.outO o (by omega)
  · intro d k hk
    obtain ⟨k₀, g1, _, _, _, g5⟩ := retain_get _ _ _ hkc hrc _ _ hk
    rw [h.fins d k₀ g1]
    simp [g5]

/-- A class is released: `own` counts what is left to the client, `os` are the objects left. -/
theorem released_inv (l : Ledger) (s : State) (h : Inv l s) (c : Nat) (hc : c < l.nc) (own : Nat → Nat) (os : List Obj)
    (hlen : os.length = s.objects.length)
    (hrefs : ∀ d, l.ownC d + insts s.objects d = own d + insts os d + (if d = c then 1 else 0))
    (hout : ∀ d, l.nc ≤ d → own d = 0)
    (hisa : ∀ o x, os[o]? = some x → x.isa = l.isa o ∧ x.isa < l.nc)
    (hocnt : ∀ (o : Nat) (x : Obj), os[o]? = some x → x.counted = l.counted x.isa)
    (hobj : ∀ o x, os[o]? = some x → ObjOk l o (s.callsOf o) x) :
    ∃ cs fs, releaseCls (s.classes.length + 1) s.classes c = some (cs, fs) ∧
      Inv { l with ownC := own } { s with classes := cs, objects := os, fins := s.fins ++ fs } := by
  have hlt : c < s.classes.length := by rw [h.nc]; exact hc
  obtain ⟨cs, fs, he, hr, _⟩ := release_ok (fun d => own d + insts os d) (s.classes.length + 1) s.classes c (by omega) hlt h.older (by
    intro d k hk
    have := h.refs d k hk
    have := hrefs d
    omega)
  refine ⟨cs, fs, he, ⟨by rw [← h.nc]; exact hr.len, by rw [← h.no]; exact hlen, ?_, ?_, hocnt, ?_, hr.refs, hisa, hobj, h.fresh, ?_, h.outO, ?_⟩⟩
  · intro d k hk
    obtain ⟨k₀, g1, g2, _⟩ := hr.same d k hk
    rw [g2, h.super d k₀ g1]
  · intro d k hk
    obtain ⟨k₀, g1, _, g2, _⟩ := hr.same d k hk
    rw [g2, h.cnt d k₀ g1]
  · intro d k q hk hq
    obtain ⟨k₀, g1, g2, _⟩ := hr.same d k hk
    exact h.older d k₀ q g1 (by rw [← g2, hq])
  · intro d hd
    have h1 := h.nc
    have hd' : l.nc ≤ d := hd
    refine ⟨hout d hd', ?_⟩
    simp only [List.count_append]
    rw [(h.outC d hd').2, hr.out d (by omega)]
  · intro d k hk
    obtain ⟨k₀, g1, _, _, _, g5, g6⟩ := hr.same d k hk
    simp only [List.count_append]
    rw [h.fins d k₀ g1, g6]
    by_cases e0 : k₀.refs = 0
    · simp [e0, g5 e0]
    · by_cases e1 : k.refs = 0 <;> simp [e0, e1]

theorem releaseClass_inv (l : Ledger) (s : State) (h : Inv l s) (c : Nat) (ha : 0 < l.ownC c) :
    ∃ s', ClassLife.step z s (.releaseClass c) = some s' ∧ Inv (l.step (.releaseClass c)) s' := by
  have hc : c < l.nc := by
    by_cases g : c < l.nc
    · exact g
    · have := (h.outC c (by omega)).1
      omega
  obtain ⟨cs, fs, he, hi⟩ := released_inv l s h c hc (upd l.ownC c (l.ownC c - 1)) s.objects rfl (by
      intro d
      by_cases e : d = c
      · subst e
        rw [upd_self]
        simp
        omega
      · rw [upd_ne _ _ _ _ e]
        simp [e]) (by
      intro d hd
      rw [upd_ne _ _ _ _ (by omega)]
      exact (h.outC d hd).1) h.isa h.ocnt h.obj
  exact ⟨{ s with classes := cs, fins := s.fins ++ fs }, by simp [ClassLife.step, he], hi⟩

/-- An object changes its state, and is still there. -/
theorem objSet_inv (l : Ledger) (s : State) (h : Inv l s) (o : Nat) (x : Obj) (hx : s.objects[o]? = some x) (hg : x.st ≠ .gone)
    (st : St) (hst : st ≠ .gone) (own : Nat → Nat) (calls : List (Nat × Nat))
    (hcalls : ∀ o', o' ≠ o → ({ s with calls := calls } : State).callsOf o' = s.callsOf o')
    (hown : ∀ o', o' ≠ o → own o' = l.ownO o')
    (hok : ObjOk { l with ownO := own } o (({ s with calls := calls } : State).callsOf o) { x with st := st }) :
    Inv { l with ownO := own } { s with objects := s.objects.set o { x with st := st }, calls := calls } := by
  have hlt := lt_of_get hx
  have hno := h.no
  refine ⟨h.nc, by simp [h.no], h.super, h.cnt, ?_, h.older, ?_, ?_, ?_, ?_, h.outC, ?_, h.fins⟩
  · intro o' x' hx'
    rcases get_set _ _ _ _ _ hx' with ⟨rfl, _, rfl⟩ | ⟨hne, hx'⟩
    · exact h.ocnt o' x hx
    · exact h.ocnt o' x' hx'
  · intro d k hk
    have := h.refs d k hk
    have hs := insts_set s.objects o x { x with st := st } hx d
    simp only [hg, hst, ne_eq, not_false_eq_true, true_and] at hs
    simp only
    omega
  · intro o' x' hx'
    rcases get_set _ _ _ _ _ hx' with ⟨rfl, _, rfl⟩ | ⟨hne, hx'⟩
    · exact h.isa o' x hx
    · exact h.isa o' x' hx'
  · intro o' x' hx'
    rcases get_set _ _ _ _ _ hx' with ⟨rfl, _, rfl⟩ | ⟨hne, hx'⟩
    · exact hok
    · have ho := h.obj o' x' hx'
      have e := hcalls o' hne
      simp only [State.callsOf] at e ho ⊢
      rw [e]
      unfold ObjOk at ho ⊢
      simp only [hown o' hne]
      exact ho
  · intro o' ho'
    have ho' : l.no ≤ o' := ho'
    have := hcalls o' (by omega)
    simp only [State.callsOf] at this ⊢
    rw [this]
    exact h.fresh o' ho'
  · intro o' ho'
    have ho' : l.no ≤ o' := ho'
    show own o' = 0
    rw [hown o' (by omega)]
    exact h.outO o' ho'

theorem own_obj (l : Ledger) (s : State) (h : Inv l s) (o : Nat) (ho : 0 < l.ownO o) :
    ∃ x n, s.objects[o]? = some x ∧ x.st = .live n ∧ 0 < n ∧ (x.counted = true → n = l.ownO o) ∧ s.callsOf o = [] := by
  have hlt : o < s.objects.length := by
    by_cases g : o < l.no
    · rw [h.no]; exact g
    · have := h.outO o (by omega)
      omega
  have hx := List.getElem?_eq_getElem hlt
  have hk := h.obj o _ hx
  unfold ObjOk at hk
  cases hst : (s.objects[o]).st with
  | live n =>
    rw [hst] at hk
    exact ⟨_, n, hx, hst, hk.1, hk.2.1, hk.2.2⟩
  | dying next => rw [hst] at hk; have := hk.1.2; omega
  | gone => rw [hst] at hk; have := hk.1.2; omega
  | zombie => rw [hst] at hk; have := hk.1.2; omega

/-- For an object that is not counted, the ledger may say anything. -/
theorem uncounted_inv (l : Ledger) (s : State) (h : Inv l s) (o : Nat) (x : Obj) (n : Nat) (hx : s.objects[o]? = some x)
    (hst : x.st = .live n) (hc : x.counted = false) (own : Nat → Nat) (hown : ∀ o', o' ≠ o → own o' = l.ownO o') :
    Inv { l with ownO := own } s := by
  have hno := h.no
  have hlt := lt_of_get hx
  refine ⟨h.nc, h.no, h.super, h.cnt, h.ocnt, h.older, h.refs, h.isa, ?_, h.fresh, h.outC, ?_, h.fins⟩
  · intro o' x' hx'
    have ho := h.obj o' x' hx'
    by_cases e : o' = o
    · subst e
      rw [hx] at hx'
      cases hx'
      unfold ObjOk at ho ⊢
      rw [hst] at ho ⊢
      exact ⟨ho.1, by simp [hc], ho.2.2⟩
    · unfold ObjOk at ho ⊢
      simp only [hown o' e]
      exact ho
  · intro o' ho'
    have ho' : l.no ≤ o' := ho'
    show own o' = 0
    rw [hown o' (by omega)]
    exact h.outO o' ho'

theorem retain_inv (l : Ledger) (s : State) (h : Inv l s) (o : Nat) (ho : 0 < l.ownO o) :
    ∃ s', retain s o = some s' ∧ Inv (l.step (.retain o)) s' := by
  obtain ⟨x, n, hx, hst, hn, hcn, hcalls⟩ := own_obj l s h o ho
  have hown : ∀ o', o' ≠ o → upd l.ownO o (l.ownO o + 1) o' = l.ownO o' := fun o' h => upd_ne _ _ _ _ h
  cases hc : x.counted with
  | true =>
    refine ⟨{ s with objects := s.objects.set o { x with st := .live (n + 1) } }, by simp [retain, hx, hst, hc], ?_⟩
    refine objSet_inv l s h o x hx (by simp [hst]) _ (by simp) _ s.calls (fun _ _ => rfl) hown ?_
    refine ⟨by omega, fun _ => ?_, hcalls⟩
    simp only [upd_self]
    rw [hcn hc]
  | false =>
    exact ⟨s, by simp [retain, hx, hst, hc], uncounted_inv l s h o x n hx hst hc _ hown⟩

theorem chain_total (l : Ledger) (s : State) (h : Inv l s) : ∀ (c : Nat), c < l.nc → ∃ xs, Chain l.super (some c) xs := by
  intro c
  induction c using Nat.strongRecOn with
  | _ c ih =>
    intro hc
    have hlt : c < s.classes.length := by rw [h.nc]; exact hc
    have hk := List.getElem?_eq_getElem hlt
    have hs := h.super c _ hk
    cases hp : l.super c with
    | none => exact ⟨[c], .cons c [] (by rw [hp]; exact .nil)⟩
    | some p =>
      have hpc := h.older c _ p hk (by rw [hs, hp])
      obtain ⟨xs, hxs⟩ := ih p hpc (by omega)
      exact ⟨c :: xs, .cons c xs (by rw [hp]; exact hxs)⟩

theorem release_inv (l : Ledger) (s : State) (h : Inv l s) (o : Nat) (ho : 0 < l.ownO o) :
    ∃ s', release s o = some s' ∧ Inv (l.step (.release o)) s' := by
  obtain ⟨x, n, hx, hst, hn, hcn, hcalls⟩ := own_obj l s h o ho
  have hown : ∀ o', o' ≠ o → upd l.ownO o (l.ownO o - 1) o' = l.ownO o' := fun o' h => upd_ne _ _ _ _ h
  cases hc : x.counted with
  | true =>
    have hno := hcn hc
    refine ⟨{ s with objects := s.objects.set o { x with st := if n - 1 = 0 then .dying (some x.isa) else .live (n - 1) } },
      by simp [release, hx, hst, hc], ?_⟩
    refine objSet_inv l s h o x hx (by simp [hst]) _ (by split <;> simp) _ s.calls (fun _ _ => rfl) hown ?_
    by_cases h1 : n - 1 = 0
    · simp only [h1, if_true]
      obtain ⟨xs, hxs⟩ := chain_total l s h x.isa (h.isa o x hx).2
      refine ⟨⟨hc, by simp only [upd_self]; omega⟩, xs, hxs, ?_⟩
      have : ({ s with calls := s.calls } : State).callsOf o = [] := hcalls
      rw [this]
      exact hxs
    · simp only [h1, if_false]
      refine ⟨by omega, fun _ => ?_, hcalls⟩
      simp only [upd_self]
      omega
  | false =>
    exact ⟨s, by simp [release, hx, hst, hc], uncounted_inv l s h o x n hx hst hc _ hown⟩

theorem isa_alive (l : Ledger) (s : State) (h : Inv l s) (o : Nat) (x : Obj) (hx : s.objects[o]? = some x) (hg : x.st ≠ .gone) :
    s.alive x.isa := by
  rw [(h.isa o x hx).1]
  refine needed_alive l s h _ (.inst o ?_ ⟨x.st, by simp [State.obj, hx], hg⟩)
  rw [← h.no]
  exact lt_of_get hx

theorem callsOf_append (s : State) (o o' c : Nat) :
    ({ s with calls := s.calls ++ [(o, c)] } : State).callsOf o' = s.callsOf o' ++ (if o = o' then [c] else []) := by
  by_cases e : o = o' <;> simp [State.callsOf, List.filter_append, e]

theorem finalize_inv (z : Bool) (l : Ledger) (s : State) (h : Inv l s) (o : Nat) (next : Option Nat)
    (ho : s.obj o = some (.dying next)) : ∃ s', finalizeStep z s o = some s' ∧ Inv l s' := by
  simp only [State.obj, Option.map_eq_some_iff] at ho
  obtain ⟨x, hx, hst⟩ := ho
  have hg : x.st ≠ .gone := by simp [hst]
  have hok := h.obj o x hx
  unfold ObjOk at hok
  rw [hst] at hok
  obtain ⟨hown, rest, h1, h2⟩ := hok
  have hal := isa_alive l s h o x hx hg
  cases next with
  | some c =>
    cases h1 with
    | cons _ cs hcs =>
      obtain ⟨k, hk, hr⟩ := alive_chain l s h _ _ h2 (by intro d hd; cases hd; exact hal) c (by simp)
      refine ⟨{ s with objects := s.objects.set o { x with st := .dying k.super }, calls := s.calls ++ [(o, c)] },
        by simp [finalizeStep, hx, hst, hk, hr], ?_⟩
      refine objSet_inv l s h o x hx hg _ (by simp) l.ownO _ ?_ (fun _ _ => rfl) ?_
      · intro o' hne
        rw [callsOf_append, if_neg (Ne.symm hne)]
        simp
      · rw [callsOf_append, if_pos rfl]
        refine ⟨hown, cs, by rw [h.super c k hk]; exact hcs, ?_⟩
        simpa using h2
  | none =>
    cases h1
    simp only [List.append_nil] at h2
    obtain ⟨k, hk, hr⟩ := hal
    by_cases hz : (z && k.big) = true
    · refine ⟨{ s with objects := s.objects.set o { x with st := .zombie } }, by
        simp only [finalizeStep, hx, hst, hk, Option.bind_some, hr, if_false, hz, if_true], ?_⟩
      exact objSet_inv l s h o x hx hg _ (by simp) l.ownO s.calls (fun _ _ => rfl) (fun _ _ => rfl) ⟨hown, h2⟩
    · obtain ⟨cs, fs, he, hi⟩ := released_inv l s h x.isa (h.isa o x hx).2 l.ownC (s.objects.set o { x with st := .gone }) (by simp) (by
          intro d
          have hs := insts_set s.objects o x { x with st := .gone } hx d
          by_cases e : d = x.isa
          · subst e
            simp [hst] at hs ⊢
            omega
          · simp [hst, e, Ne.symm e] at hs ⊢
            omega) (fun d hd => (h.outC d hd).1) (by
          intro o' x' hx'
          rcases get_set _ _ _ _ _ hx' with ⟨rfl, _, rfl⟩ | ⟨hne, hx'⟩
          · exact h.isa o' x hx
          · exact h.isa o' x' hx') (by
          intro o' x' hx'
          rcases get_set _ _ _ _ _ hx' with ⟨rfl, _, rfl⟩ | ⟨hne, hx'⟩
          · exact h.ocnt o' x hx
          · exact h.ocnt o' x' hx') (by
          intro o' x' hx'
          rcases get_set _ _ _ _ _ hx' with ⟨rfl, _, rfl⟩ | ⟨hne, hx'⟩
          · exact ⟨hown, h2⟩
          · exact h.obj o' x' hx')
      refine ⟨{ s with classes := cs, objects := s.objects.set o { x with st := .gone }, fins := s.fins ++ fs }, ?_, hi⟩
      simp only [finalizeStep, hx, hst, hk, hr, hz, Option.bind_some, if_false, he, Option.map_some]
      rfl

theorem step_inv (z : Bool) (l : Ledger) (s : State) (h : Inv l s) (op : Op) (hl : Legal l s op) :
    ∃ s', ClassLife.step z s op = some s' ∧ Inv (l.step op) s' := by
  cases op with
  | newClass p counted big =>
    refine newClass_inv l s h p counted big ?_
    intro q hq
    subst hq
    exact needed_alive l s h q hl
  | retainClass c => exact retainClass_inv l s h c (needed_alive l s h c hl)
  | releaseClass c => exact releaseClass_inv l s h c hl
  | alloc c => exact alloc_inv l s h c (needed_alive l s h c hl)
  | retain o => exact retain_inv l s h o hl
  | release o => exact release_inv l s h o hl
  | finalize o =>
    obtain ⟨n, hn⟩ := hl
    exact finalize_inv z l s h o n hn

theorem history_inv (z : Bool) (ops : List Op) (l : Ledger) (s : State) (h : History z ops l s) : Inv l s := by
  induction h with
  | start => exact start_inv
  | more ops l s op s' _ hl hs ih =>
    obtain ⟨s'', h1, h2⟩ := step_inv z l s ih op hl
    rw [hs] at h1
    cases h1
    exact h2

theorem obj_set (s : State) (o : Nat) (x y : Obj) (hx : s.objects[o]? = some x) (cs : List Cls) (calls : List (Nat × Nat))
    (fins : List Nat) : (State.mk cs (s.objects.set o y) calls fins).obj o = some y.st := by
  have hlt := lt_of_get hx
  simp [State.obj, hlt]

/-- What one step of the finalization does to the object. -/
theorem finalize_next (z : Bool) (l : Ledger) (s s' : State) (h : Inv l s) (o : Nat) (next : Option Nat)
    (ho : s.obj o = some (.dying next)) (hs : finalizeStep z s o = some s') :
    match next with
    | some c => s'.obj o = some (.dying (l.super c))
    | none => s'.obj o = some .gone ∨ (z = true ∧ s'.obj o = some .zombie) := by
  simp only [State.obj, Option.map_eq_some_iff] at ho
  obtain ⟨x, hx, hst⟩ := ho
  cases next with
  | some c =>
    simp only [finalizeStep, hx, hst, Option.bind_some, Option.bind_eq_some_iff] at hs
    obtain ⟨k, hk, hs⟩ := hs
    split at hs
    · cases hs
    · cases hs
      simp only
      rw [obj_set s o x _ hx, h.super c k hk]
  | none =>
    simp only [finalizeStep, hx, hst, Option.bind_some, Option.bind_eq_some_iff] at hs
    obtain ⟨k, hk, hs⟩ := hs
    split at hs
    · cases hs
    · split at hs
      · rename_i hz
        cases hs
        simp at hz
        exact Or.inr ⟨hz.1, obj_set s o x _ hx _ _ _⟩
      · simp only [Option.map_eq_some_iff] at hs
        obtain ⟨r, _, rfl⟩ := hs
        exact Or.inl (obj_set s o x _ hx _ _ _)

theorem progress (z : Bool) (l : Ledger) (o : Nat) (next : Option Nat) (rest : List Nat) (hc : Chain l.super next rest) :
    ∀ (s : State), Inv l s → s.obj o = some (.dying next) →
    ∃ s', runFrom z s (List.replicate (rest.length + 1) (.finalize o)) = some s' ∧
      (s'.obj o = some .gone ∨ (z = true ∧ s'.obj o = some .zombie)) := by
  induction hc with
  | nil =>
    intro s h ho
    obtain ⟨s', h1, h2⟩ := finalize_inv z l s h o none ho
    exact ⟨s', by simp [runFrom, ClassLife.step, h1], finalize_next z l s s' h o none ho h1⟩
  | cons c cs hc ih =>
    intro s h ho
    obtain ⟨s', h1, h2⟩ := finalize_inv z l s h o (some c) ho
    obtain ⟨s'', h3, h4⟩ := ih s' h2 (finalize_next z l s s' h o (some c) ho h1)
    refine ⟨s'', ?_, h4⟩
    rw [List.length_cons, List.replicate_succ]
    simp only [runFrom, ClassLife.step, h1, Option.bind_some]
    exact h3

theorem history_run (z : Bool) (ops : List Op) (l : Ledger) (s : State) (h : History z ops l s) : run z ops = some s := by
  have happ : ∀ (ops : List Op) (op : Op) (s₀ : State), runFrom z s₀ (ops ++ [op]) = (runFrom z s₀ ops).bind fun s => ClassLife.step z s op := by
    intro ops
    induction ops with
    | nil =>
      intro op s₀
      cases h : ClassLife.step z s₀ op <;> simp [runFrom, h]
    | cons a ops ih =>
      intro op s₀
      cases h : ClassLife.step z s₀ a with
      | none => simp [runFrom, h]
      | some s₁ =>
        simp only [List.cons_append, runFrom, h, Option.bind_some]
        exact ih op s₁
  induction h with
  | start => rfl
  | more ops l s op s' _ _ hs ih =>
    rw [run, happ]
    rw [run] at ih
    rw [ih]
    exact hs

/-- Without the debugging option there are no zombies. -/
theorem no_zombies (ops : List Op) (l : Ledger) (s : State) (h : History false ops l s) :
    ∀ x, x ∈ s.objects → x.st ≠ .zombie := by
  induction h with
  | start => simp [start]
  | more ops l s op s' _ _ hs ih =>
    have hset : ∀ (o : Nat) (y : Obj), y.st ≠ .zombie → ∀ x, x ∈ s.objects.set o y → x.st ≠ .zombie := by
      intro o y hy x hx
      rcases List.mem_or_eq_of_mem_set hx with hx | rfl
      · exact ih x hx
      · exact hy
    cases op with
    | newClass p counted big =>
      cases p with
      | none =>
        simp only [ClassLife.step, newClass, Option.some.injEq] at hs
        subst hs
        exact ih
      | some q =>
        simp only [ClassLife.step, newClass, Option.map_eq_some_iff] at hs
        obtain ⟨_, _, rfl⟩ := hs
        exact ih
    | retainClass c =>
      simp only [ClassLife.step, Option.map_eq_some_iff] at hs
      obtain ⟨_, _, rfl⟩ := hs
      exact ih
    | releaseClass c =>
      simp only [ClassLife.step, Option.map_eq_some_iff] at hs
      obtain ⟨_, _, rfl⟩ := hs
      exact ih
    | alloc c =>
      simp only [ClassLife.step, alloc, Option.bind_eq_some_iff, Option.map_eq_some_iff] at hs
      obtain ⟨_, _, _, _, rfl⟩ := hs
      intro x hx
      rcases List.mem_append.mp hx with hx | hx
      · exact ih x hx
      · simp at hx
        subst hx
        simp
    | retain o =>
      simp only [ClassLife.step, retain, Option.bind_eq_some_iff] at hs
      obtain ⟨y, hy, hs⟩ := hs
      cases hst : y.st with
      | live n =>
        simp only [hst] at hs
        split at hs
        · cases hs
          exact hset o _ (by simp)
        · cases hs
          exact ih
      | dying n => simp [hst] at hs
      | gone => simp [hst] at hs
      | zombie => simp [hst] at hs
    | release o =>
      simp only [ClassLife.step, release, Option.bind_eq_some_iff] at hs
      obtain ⟨y, hy, hs⟩ := hs
      cases hst : y.st with
      | live n =>
        simp only [hst] at hs
        split at hs
        · cases hs
          exact hset o _ (by simp only; split <;> simp)
        · cases hs
          exact ih
      | dying n => simp [hst] at hs
      | gone => simp [hst] at hs
      | zombie => simp [hst] at hs
    | finalize o =>
      simp only [ClassLife.step, finalizeStep, Option.bind_eq_some_iff] at hs
      obtain ⟨y, hy, hs⟩ := hs
      cases hst : y.st with
      | live n => simp [hst] at hs
      | gone => simp [hst] at hs
      | zombie => simp [hst] at hs
      | dying n =>
        cases n with
        | some c =>
          simp only [hst, Option.bind_eq_some_iff] at hs
          obtain ⟨k, hk, hs⟩ := hs
          split at hs
          · cases hs
          · cases hs
            exact hset o _ (by simp)
        | none =>
          simp only [hst, Option.bind_eq_some_iff] at hs
          obtain ⟨k, hk, hs⟩ := hs
          split at hs
          · cases hs
          · simp only [Bool.false_and, Bool.false_eq_true, if_false, Option.map_eq_some_iff] at hs
            obtain ⟨_, _, rfl⟩ := hs
            exact hset o _ (by simp)

/-- For the examples: whether a call is legal, as a computation. -/
def legalB (l : Ledger) (s : State) : Op → Bool
  | .newClass none _ _ => true
  | .newClass (some p) _ _ => (s.classes[p]?.map fun k => k.refs != 0).getD false
  | .retainClass c => (s.classes[c]?.map fun k => k.refs != 0).getD false
  | .releaseClass c => decide (0 < l.ownC c)
  | .alloc c => (s.classes[c]?.map fun k => k.refs != 0).getD false
  | .retain o => decide (0 < l.ownO o)
  | .release o => decide (0 < l.ownO o)
  | .finalize o => match s.obj o with | some (.dying _) => true | _ => false

theorem aliveB (s : State) (c : Nat) (h : (s.classes[c]?.map fun k => k.refs != 0).getD false = true) : s.alive c := by
  cases hk : s.classes[c]? with
  | none => simp [hk] at h
  | some k =>
    simp [hk] at h
    exact ⟨k, hk, h⟩

theorem legalB_legal (l : Ledger) (s : State) (hi : Inv l s) (op : Op) (h : legalB l s op = true) : Legal l s op := by
  have hn := fun c hc => alive_needed l s hi s.classes.length c (by omega) (aliveB s c hc)
  cases op with
  | newClass p counted big =>
    cases p with
    | none => trivial
    | some q => exact hn q h
  | retainClass c => exact hn c h
  | releaseClass c => simpa [legalB, Legal] using h
  | alloc c => exact hn c h
  | retain o => simpa [legalB, Legal] using h
  | release o => simpa [legalB, Legal] using h
  | finalize o =>
    simp only [legalB] at h
    split at h
    · rename_i n hn
      exact ⟨n, hn⟩
    · cases h

/-- For the examples: runs a history, and checks it. -/
def checked (z : Bool) (l : Ledger) (s : State) : List Op → Option (Ledger × State)
  | [] => some (l, s)
  | op :: ops => if legalB l s op then (ClassLife.step z s op).bind fun s' => checked z (l.step op) s' ops else none

theorem checked_history (z : Bool) : ∀ (more done : List Op) (l l' : Ledger) (s s' : State), History z done l s →
    checked z l s more = some (l', s') → History z (done ++ more) l' s'
  | [], done, l, l', s, s', hh, h => by
    simp only [checked, Option.some.injEq, Prod.mk.injEq] at h
    obtain ⟨rfl, rfl⟩ := h
    simpa using hh
  | op :: more, done, l, l', s, s', hh, h => by
    simp only [checked] at h
    split at h
    · rename_i hl
      simp only [Option.bind_eq_some_iff] at h
      obtain ⟨s₁, h1, h2⟩ := h
      have := checked_history z more (done ++ [op]) (l.step op) l' s₁ s'
        (.more done l s op s₁ hh (legalB_legal l s (history_inv z done l s hh) op hl) h1) h2
      simpa using this
    · cases h

end ClassLife
end Duck
