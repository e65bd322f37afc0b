import Verif.Lemmas.Classes
/-! Properties C20, C21, C22, C58, C59. -/
namespace Duck
namespace Rt

/-- Four root-like classes: 0 without superclass, 1 its subclass with an interface there from the start. -/
def rootsEx : World :=
  [⟨none, none, some 10, false, true, false, ⟨fun _ => none, [⟨1, 100, [some 1, some 2]⟩]⟩, ⟨fun _ => none, []⟩⟩,
   ⟨some 0, some 20, some 11, false, false, false, ⟨fun _ => none, [⟨1, 100, [some 1, some 2]⟩]⟩, ⟨fun _ => none, []⟩⟩]

theorem rootsEx_start : Start rootsEx where
  noCache k hk := by
    simp only [rootsEx, List.mem_cons, List.mem_nil_iff, or_false] at hk
    rcases hk with rfl | rfl <;> exact ⟨fun _ => rfl, fun _ => rfl⟩
  order c k p hk hp := by
    match c, hk with
    | 0, hk => cases hk; cases hp
    | 1, hk => cases hk; cases hp; exact Nat.zero_lt_one
    | n + 2, hk => simp [rootsEx] at hk

def optsEx : Opts := ⟨none, none, false, false, false⟩

/-- A subclass (2) overriding one method, and a sealed subclass of that (3). -/
def histEx : List Op :=
  [.query 3 100, .installRaw 1 ⟨5, 100, [some 7, some 8]⟩, .newClass (some 2) { optsEx with sealed := true, finalize := some 13 }, .query 2 116,
   .query 2 100, .install 2 ⟨4, 116, [some 9]⟩, .install 2 ⟨3, 100, [none, some 5]⟩, .query 2 100, .newClass (some 1) optsEx]

/-- **C20**: after any history of calls that did not abort, whatever the assignment of cache lines to selectors, a query of class `c`
    for a selector returns exactly the interface the history gives it: instance interfaces and class interfaces. -/
theorem C20_lookup (line : Nat → Nat) {w₀ : World} (hs : Start w₀) {h : List Op} {w : World} (hr : run line w₀ h = .ok w)
    (c : Nat) (hc : c < classes w₀ h) (sel : Nat) :
    (∃ w', query line w c sel = .ok (current w₀ h c sel, w')) ∧ ∃ w', queryClass line w c sel = .ok (currentClass w₀ h c sel, w') := by
  have inv := run_inv hs hr
  rw [← inv.size] at hc
  have hk : w[c]? = some w[c] := List.getElem?_eq_getElem hc
  refine ⟨⟨w.set c { w[c] with inst := ((w[c]).inst.find line sel).2 }, ?_⟩, ⟨w.set c { w[c] with cls := ((w[c]).cls.find line sel).2 }, ?_⟩⟩
  · unfold query
    rw [hk]
    simp only
    rw [find_fst (inv.inst _ _ hk).1, (inv.inst _ _ hk).2]
  · unfold queryClass
    rw [hk]
    simp only
    rw [find_fst (inv.cls _ _ hk).1, (inv.cls _ _ hk).2]

/-- **C20**: what installing an interface does: it crashes on a class without superclass, aborts when the superclass's interface
    for the selector has another number of methods, and succeeds otherwise. -/
theorem C20_install_outcome (line : Nat → Nat) {w₀ : World} (hs : Start w₀) {h : List Op} {w : World} (hr : run line w₀ h = .ok w)
    (c : Nat) (hc : c < classes w₀ h) (i : Iface) :
    match superOf w₀ c h with
    | none => step line w (.install c i) = .error .crash
    | some p =>
        if ∀ s, current w₀ h p i.sel = some s → i.methods.length = s.methods.length then ∃ w', step line w (.install c i) = .ok w'
        else step line w (.install c i) = .error .fatal := by
  have inv := run_inv hs hr
  rw [← inv.size] at hc
  have hk : w[c]? = some w[c] := List.getElem?_eq_getElem hc
  rw [← inv.super _ _ hk]
  cases hp : (w[c]).super with
  | none => simp only [step, install]; rw [hk]; simp only; rw [hp]
  | some p =>
      have hpc := inv.order _ _ _ hk hp
      have hkp : w[p]? = some w[p] := List.getElem?_eq_getElem (by omega)
      have hf := find_fst (inv.inst _ _ hkp).1 i.sel
      rw [(inv.inst _ _ hkp).2] at hf
      have hk1 : ∀ x, (w.set p x)[c]? = some w[c] := fun x => by rw [List.getElem?_set_ne (by omega)]; exact hk
      simp only [step, install, inheritMethods]
      rw [hk]
      simp only
      rw [hp]
      simp only
      rw [hkp]
      simp only
      rw [hf]
      cases hcur : current w₀ h p i.sel with
      | none =>
          rw [if_pos (fun s hs => (nomatch hs))]
          simp only [Except.bind, installRaw]
          rw [hk1]
          exact ⟨_, rfl⟩
      | some s =>
          by_cases hl : i.methods.length = s.methods.length
          · rw [if_pos (fun s' hs' => by cases hs'; exact hl)]
            simp only
            rw [if_pos hl]
            simp only [Except.bind, installRaw]
            rw [hk1]
            exact ⟨_, rfl⟩
          · rw [if_neg (fun hall => hl (hall s rfl))]
            simp only
            rw [if_neg hl]
            rfl

/-- **C21**: finalizing an object calls the finalizer of its class, then that of each superclass up to the root, each once. -/
theorem C21_finalize (line : Nat → Nat) {w₀ : World} (hs : Start w₀) {h : List Op} {w : World} (hr : run line w₀ h = .ok w)
    (c : Nat) (hc : c < classes w₀ h) :
    ∃ l, Chain w c l ∧ finalize w c = some (l.filterMap (·.finalize)) ∧ w.map Class.told = told w₀ h := by
  have inv := run_inv hs hr
  rw [← inv.size] at hc
  obtain ⟨l, hl, hn⟩ := chain_exists inv.order c hc
  exact ⟨l, hl, finalizeLoop_chain hl _ (by omega), run_told hr⟩

/-- **C21**: initializing an object calls exactly one initializer, that of its nearest class having one; it is an error if a class
    before that forbids leaving the initializer out.  The same from the superclass, for a call to the superclass's initializer. -/
theorem C21_init (line : Nat → Nat) {w₀ : World} (hs : Start w₀) {h : List Op} {w : World} (hr : run line w₀ h = .ok w)
    (c : Nat) (hc : c < classes w₀ h) :
    ∃ l, Chain w c l ∧ init w c = some (firstInit l) ∧ superInit w (some c) = some (firstInit l) ∧ superInit w none = some .nothing ∧
      w.map Class.told = told w₀ h := by
  have inv := run_inv hs hr
  rw [← inv.size] at hc
  obtain ⟨l, hl, hn⟩ := chain_exists inv.order c hc
  refine ⟨l, hl, initLoop_chain hl _ (by omega), initLoop_chain hl _ (by omega), ?_, run_told hr⟩
  unfold superInit initLoop
  rfl

/-- **C22**: an object is of kind `d` exactly when `d` is its class or an ancestor of it; NULL is nobody's kind.
    Membership in the same terms for classes. -/
theorem C22_kind_of (line : Nat → Nat) {w₀ : World} (hs : Start w₀) {h : List Op} {w : World} (hr : run line w₀ h = .ok w)
    (c : Nat) (hc : c < classes w₀ h) (d : Option Nat) :
    ∃ b, isKindOf w c d = some b ∧ isSubclass w (some c) d = some b ∧ isSubclass w none d = some false ∧
      (b = true ↔ ∃ t, d = some t ∧ Ancestor w c t) := by
  have inv := run_inv hs hr
  rw [← inv.size] at hc
  obtain ⟨l, hl, hn⟩ := chain_exists inv.order c hc
  obtain ⟨b, h1, h2⟩ := kindLoop_chain hl d (w.length + 1) (by omega)
  exact ⟨b, h1, h1, by unfold isSubclass kindLoop; rfl, h2⟩

/-- **C22**: the relation is reflexive, transitive and antisymmetric. -/
theorem C22_order (line : Nat → Nat) {w₀ : World} (hs : Start w₀) {h : List Op} {w : World} (hr : run line w₀ h = .ok w) :
    (∀ c, c < classes w₀ h → isKindOf w c (some c) = some true) ∧
    (∀ a b c, isKindOf w a (some b) = some true → isKindOf w b (some c) = some true → isKindOf w a (some c) = some true) ∧
    (∀ a b, isKindOf w a (some b) = some true → isKindOf w b (some a) = some true → a = b) := by
  have inv := run_inv hs hr
  have hlt : ∀ a d, isKindOf w a d = some true → a < classes w₀ h := by
    intro a d ha
    rw [← inv.size]
    refine Decidable.of_not_not fun hn => ?_
    unfold isKindOf kindLoop at ha
    rw [List.getElem?_eq_none (by omega)] at ha
    cases ha
  have hiff : ∀ a b, isKindOf w a (some b) = some true → Ancestor w a b := by
    intro a b ha
    obtain ⟨r, h1, _, _, h2⟩ := C22_kind_of line hs hr a (hlt _ _ ha) (some b)
    rw [h1] at ha
    cases ha
    obtain ⟨t, ht, hanc⟩ := h2.mp rfl
    cases ht
    exact hanc
  have hback : ∀ a b, a < classes w₀ h → Ancestor w a b → isKindOf w a (some b) = some true := by
    intro a b hl ha
    obtain ⟨r, h1, _, _, h2⟩ := C22_kind_of line hs hr a hl (some b)
    rw [h1, h2.mpr ⟨b, rfl, ha⟩]
  refine ⟨fun c hc => hback c c hc (.refl (List.getElem?_eq_getElem (by rw [inv.size]; exact hc))), fun a b c h1 h2 => ?_, fun a b h1 h2 => ?_⟩
  · exact hback a c (hlt _ _ h1) ((hiff _ _ h1).trans (hiff _ _ h2))
  · have h3 := (hiff _ _ h1).le inv.order
    have h4 := (hiff _ _ h2).le inv.order
    omega

/-- **C58**: the unchecked lookup by static cache line returns what the ordinary lookup returns, in every class and after every history,
    when the line is used for one selector only and the classes at the start have no interface on it. -/
theorem C58_fast_lookup_partial (line : Nat → Nat) (n s : Nat) (hl : line s = n) (hn : n < staticLines) {w₀ : World} (hs : Start w₀)
    (hempty : ∀ k ∈ w₀, ∀ i ∈ k.inst.entries, line i.sel ≠ n) {h : List Op} (ho : OnlyOn line n s h) {w : World} (hr : run line w₀ h = .ok w)
    (c : Nat) (hc : c < classes w₀ h) :
    ∃ k, w[c]? = some k ∧ k.inst.fast n = current w₀ h c s := by
  have inv := run_inv hs hr
  rw [← inv.size] at hc
  have hk : w[c]? = some w[c] := List.getElem?_eq_getElem hc
  exact ⟨_, hk, by rw [← (inv.inst _ _ hk).2 s]; exact (run_sinv hl hn hs hempty ho hr _ (List.getElem_mem hc)).1⟩

/-- **C58** fails for interfaces the runtime gives its root classes before the first lookup: class 1 has the interface for
    selector 100, the checked lookup finds it, and the unchecked lookup returns NULL. -/
theorem C58_root_fails : ∃ (line : Nat → Nat) (k : Class), line 100 = 4 ∧ rootsEx[1]? = some k ∧ run line rootsEx [] = .ok rootsEx ∧
    k.inst.fast 4 = none ∧ current rootsEx [] 1 100 ≠ none :=
  ⟨fun s => s % 16, _, rfl, rfl, rfl, rfl, by decide⟩

/-- **C59**: a class created as not to be subclassed never has a subclass, after any history; and no instance of an abstract class is made. -/
theorem C59_sealed (line : Nat → Nat) {w₀ : World} (hs : Start w₀) (h₀ : ∀ k ∈ w₀, k.sealed = false) {h : List Op} {w : World}
    (hr : run line w₀ h = .ok w) {c d : Nat} {k : Class} (hd : w[d]? = some k) (hsealed : k.sealed = true) (ha : Ancestor w c d) : c = d := by
  have ho := run_open (line := line) (w₀ := w₀) (fun _ _ _ kp _ _ hkp => h₀ kp (List.mem_of_getElem? hkp)) hs hr
  induction ha with
  | refl _ => rfl
  | @up c p d k' hk' hp ha ih =>
      have := ih hd
      subst this
      have := ho _ _ _ _ hk' hp hd
      rw [hsealed] at this; cases this

/-- **C59**: allocation succeeds exactly for the existing classes not created abstract. -/
theorem C59_abstract (line : Nat → Nat) {w₀ : World} {h : List Op} {w : World} (hr : run line w₀ h = .ok w) (c : Nat) :
    alloc w c = .ok () ↔ ∃ p o, (told w₀ h)[c]? = some (p, o) ∧ o.abstract = false := by
  rw [← run_told hr]
  unfold alloc
  cases hk : w[c]? with
  | none => simp [hk]
  | some k =>
      cases hab : k.abstract
      · simp only [hab, Bool.false_eq_true, if_false, true_iff]
        exact ⟨k.super, ⟨k.init, k.finalize, k.sealed, k.abstract, k.explicit⟩, by simp [hk, Class.told], hab⟩
      · simp [hk, Class.told, hab]

/-! ### The hypotheses are met -/

example : ∃ w, run (fun s => s % 16) rootsEx histEx = .ok w ∧ current rootsEx histEx 3 100 = some ⟨3, 100, [some 1, some 5]⟩ ∧
    (query (fun s => s % 16) w 3 100).map (·.1) = .ok (some ⟨3, 100, [some 1, some 5]⟩) ∧
    (query (fun s => s % 16) w 1 100).map (·.1) = .ok (some ⟨5, 100, [some 7, some 8]⟩) ∧
    finalize w 3 = some [13, 11, 10] ∧ init w 3 = some (.call 20) ∧ isKindOf w 3 (some 1) = some true ∧ isKindOf w 1 (some 3) = some false := by
  refine ⟨_, rfl, ?_, rfl, rfl, ?_, ?_, ?_, ?_⟩ <;> decide

/-- With selector 3 on line 3 alone. -/
example : ∃ w, run (fun s => s % 128) rootsEx [.newClass (some 2) optsEx, .install 2 ⟨4, 3, [some 9]⟩, .newClass (some 1) optsEx] = .ok w ∧
    ∃ k, w[3]? = some k ∧ k.inst.fast 3 = some ⟨4, 3, [some 9]⟩ := ⟨_, rfl, _, rfl, rfl⟩

example : step (fun s => s) rootsEx (.install 0 ⟨4, 116, [some 9]⟩) = .error .crash := rfl

end Rt
end Duck
