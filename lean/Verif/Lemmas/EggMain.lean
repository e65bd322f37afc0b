import Verif.Lemmas.EggAdd
import Verif.Lemmas.EggRead
/-! Lemmas about whole archives. -/
namespace Duck
namespace Egg
open Encoding (encode getType getCount getTypeSize getSize isNumber swapInt32 typeGetSize)

variable {W : World} {R : Reader} {U : List Nat} {w r : Order} {u : Un} {s : Arch}

theorem empty_inv (root : Option Nat) (sym0 : Bytes) (b : Bool) : Inv W root sym0 (fun _ => False) (emptyArch b) :=
  ⟨fun _ h => h.elim, nofun, nofun, nofun, nofun⟩

theorem unv_len (s : Arch) : unv U s ≤ U.length := List.length_filter_le _ _

theorem archiveObject_ok {root fuel : Nat} (hA : Archivable W R U) (hroot : root ∈ U) (hav : ∀ o ∈ U, ∀ p ∈ W.puts o, Avoids (some root) (W.cls root) p)
    (hf : U.length ≤ fuel) : ∃ s, archiveObject w W fuel root = some s ∧ Inv W (some root) (W.cls root) (fun _ => False) s ∧
      (∀ o i, s.visited.lookup o = some i → Good w W (fun _ => False) s o i) ∧ s.visited.lookup root = some 0 := by
  obtain ⟨fuel, rfl⟩ : ∃ k, fuel = k + 1 := ⟨fuel - 1, by have := List.length_pos_of_mem hroot; omega⟩
  obtain ⟨s, i, e, hi, _, hv, hn⟩ := addObject_step (ord := w) hA hav (addObject_ok hA hav fuel) (empty_inv (some root) (W.cls root) false) hroot
    (Nat.le_trans (unv_len _) hf) rfl (fun _ => rfl) (fun _ => rfl)
  refine ⟨s, by rw [archiveObject, e]; rfl, hi, fun o i h => (hn o i h rfl).1, ?_⟩
  have h0 : i = 0 := by
    rw [addObject.eq_def, hA.egg root hroot] at e
    simp only [Bool.true_eq_false, if_false, emptyArch, List.lookup_nil] at e
    obtain ⟨x, _, h⟩ := Option.bind_eq_some_iff.mp e
    obtain ⟨y, _, h⟩ := Option.map_eq_some_iff.mp h
    have := congrArg Prod.snd h
    simpa using this.symm
  rw [hv, h0]

theorem newRootless_ok : ∃ s, newRootless = some s ∧ Inv W none hashTableName (fun _ => False) s ∧ s.stack = [0] ∧ s.visited = [] ∧ s.data ≠ [] ∧ s.rootless = true ∧
    ∃ c, s.objs = [⟨c, []⟩] := by
  obtain ⟨s, c, e, hi, hx, hv, _, _, _, hd⟩ := addSymbol_ok (empty_inv (W := W) none hashTableName true) hashTableName (by decide) (fun _ => rfl)
  refine ⟨{ s with objs := [⟨BitVec.ofNat 32 c, []⟩], stack := [0] }, by rw [newRootless, e]; rfl, ⟨hi.holes, hi.syms, ?_, hi.inj, hi.zero⟩, rfl, hv, hd, hx.rootless, _, rfl⟩
  intro o i h
  have h' : s.visited.lookup o = some i := h
  rw [hv] at h'; cases h'

theorem archiveRootless_ok {fuel : Nat} {ps : List Put} (hA : Archivable W R U) (hav : ∀ o ∈ U, ∀ p ∈ W.puts o, Avoids none hashTableName p)
    (hps : ∀ p ∈ ps, PutOk R p ∧ (∀ o ∈ p.targets, o ∈ U) ∧ Avoids none hashTableName p) (hf : U.length ≤ fuel) :
    ∃ s a, archiveRootless w W fuel ps = some s ∧ Inv W none hashTableName (fun _ => False) s ∧
      (∀ o i, s.visited.lookup o = some i → Good w W (fun _ => False) s o i) ∧ s.rootless = true ∧ s.objs[0]? = some a ∧
      AttrsOf w (fun _ => False) s ps a.attrs := by
  obtain ⟨s0, e0, i0, st0, v0, d0, r0, c, o0⟩ := newRootless_ok (W := W)
  obtain ⟨s, as, e, hi, hx, hn, hat, ha⟩ := putAll_ok (R := R) (addObject_ok (ord := w) hA hav fuel) ps s0 st0 (by rw [o0]; exact Nat.zero_lt_one) d0 i0 (Nat.le_trans (unv_len _) hf) hps
  refine ⟨s, _, by rw [archiveRootless, e0, Option.bind_some, e], hi, fun o i h => (hn o i h (by rw [v0]; rfl)).1, hx.rootless.trans r0,
    ha ⟨c, []⟩ (by rw [o0]; rfl), by simpa using hat⟩

/-- Reading the root of an archive. -/
theorem unarchive_ok {fuel : Nat} (hr : Reads s w r u) (hA : Archivable W R U) {root : Nat} {sym0 : Bytes}
    (hinv : Inv W (some root) sym0 (fun _ => False) s) (hgood : ∀ o i, s.visited.lookup o = some i → Good w W (fun _ => False) s o i)
    (hroot : root ∈ U) (hv : s.visited.lookup root = some 0) (hf : U.length ≤ fuel) :
    ∃ st id, unarchive R u fuel = some (st, some id) ∧ psi s st root = some id ∧ Copies W R w r (psi s st) st := by
  obtain ⟨hi, hu⟩ := uInit_inv (U := U) hr
  obtain ⟨st, id, e, i1, _, p1, c1⟩ := unGetObject_ok hr hA hinv hgood fuel (uInit u) root 0 hi hroot hv (Nat.le_trans hu hf)
  exact ⟨st, id, e, p1, copies_of hinv i1 hr c1⟩

/-- Reading the attributes of an archive without root. -/
theorem readRootless_ok {fuel : Nat} (hr : Reads s w r u) (hA : Archivable W R U) (hinv : Inv W none hashTableName (fun _ => False) s)
    (hgood : ∀ o i, s.visited.lookup o = some i → Good w W (fun _ => False) s o i) (hrl : s.rootless = true) {a : AObj} (ha : s.objs[0]? = some a)
    {ps : List Put} {gs : List (Kind × Bytes)} (hat : AttrsOf w (fun _ => False) s ps a.attrs) (hps : ∀ p ∈ ps, PutOk R p ∧ ∀ o ∈ p.targets, o ∈ U)
    (hk : KeysOk ps gs) (hf : U.length ≤ fuel) :
    ∃ st vs, getAll R u (unGetObject R u fuel) gs (uInit u) = some (st, vs) ∧ vs.length = gs.length ∧
      (∀ (k : Nat) g v, gs[k]? = some g → vs[k]? = some v → ReadsBack w r (psi s st) ps g v) ∧ Copies W R w r (psi s st) st := by
  obtain ⟨hi, hu⟩ := uInit_inv (U := U) hr
  obtain ⟨st, vs, e, s1, l1, m1⟩ := getAll_ok hr hinv (unGetObject_ok hr hA hinv hgood fuel) hk hps (i := 0) (rest := []) ha hat gs (uInit u) (fun _ h => h) hi
    (Nat.le_trans hu hf) (by simp [uInit, hr.rootless, hrl])
  exact ⟨st, vs, e, l1, m1, copies_of hinv s1.1 hr s1.2.2⟩

end Egg
end Duck
