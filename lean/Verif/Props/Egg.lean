import Verif.Lemmas.EggMain
import Mathlib.Tactic.FinCases
/-! Properties of egg archives: C44, C45, C67.  `w` is the byte order of the machine that archives, `r` of the machine that reads. -/
namespace Duck
namespace Egg
open Encoding (encode getType getCount getTypeSize getSize isNumber)

/-! ### Small object graphs for the examples -/

/-- Objects of class "A" that archive what `ps` says and read what `gs` says. -/
def exWorld (ps : Nat → List Put) : World := ⟨fun _ => true, fun _ => [65], ps⟩
def exReader (gs : List (Kind × Bytes)) : Reader := ⟨fun n => n == [65] || n == [66], fun n => n == [67], fun n => n == [65], fun _ => gs⟩

/-- Archiving and reading back. -/
def saveLoad (w r : Order) (W : World) (R : Reader) (fuel root : Nat) : Option (USt × Option Nat) :=
  (archiveObject w W fuel root).bind fun s => (initWithData r (archivedData w s)).bind fun u => u.bind fun u => unarchive R u fuel

/-! ### C44 -/

/-- C44 (partial: no object refers to the root or, by name, to the class of the root; collections of several objects have no NULLs; keys have
    different hashes; the archive is smaller than 4 GB).  Any finite graph of objects, with any sharing and any cycles that avoid the root, can be
    archived, and whatever the byte order of the machine that reads the archive, the root it finds is a copy of the root archived: there is a
    correspondence `ψ` under which every object read has the class of its original and its `initWithEgg` method reads under each key what the original
    added under that key, references going to corresponding objects.  `ψ` is one-to-one, so shared objects stay shared and distinct ones distinct. -/
theorem C44_partial (W : World) (R : Reader) (U : List Nat) (root : Nat) (w r : Order) (fuel fuel' : Nat) (hA : Archivable W R U) (hroot : root ∈ U)
    (hav : ∀ o ∈ U, ∀ p ∈ W.puts o, Avoids (some root) (W.cls root) p) (hf : U.length ≤ fuel) (hf' : U.length ≤ fuel') :
    ∃ s, archiveObject w W fuel root = some s ∧ (s.objs.length < 2 ^ 32 → (archivedData w s).length < 2 ^ 32 →
      ∃ u st id ψ, initWithData r (archivedData w s) = some (some u) ∧ unarchive R u fuel' = some (st, some id) ∧ ψ root = some id ∧
        Copies W R w r ψ st) := by
  obtain ⟨s, e, hi, hg, hv⟩ := archiveObject_ok (w := w) hA hroot hav hf
  refine ⟨s, e, fun h1 h2 => ?_⟩
  obtain ⟨u, hu, hr⟩ := (init_ok w r s h1 h2).1
  obtain ⟨st, id, e', hp, hc⟩ := unarchive_ok hr hA hi hg hroot hv hf'
  exact ⟨u, st, id, _, hu, e', hp, hc⟩

/-- C44 (partial, as above).  The same when the archive is read from a stream, whatever follows it there. -/
theorem C44_stream_partial (W : World) (R : Reader) (U : List Nat) (root : Nat) (w r : Order) (fuel fuel' : Nat) (more : Bytes) (hA : Archivable W R U)
    (hroot : root ∈ U) (hav : ∀ o ∈ U, ∀ p ∈ W.puts o, Avoids (some root) (W.cls root) p) (hf : U.length ≤ fuel) (hf' : U.length ≤ fuel') :
    ∃ s, archiveObject w W fuel root = some s ∧ (s.objs.length < 2 ^ 32 → (archivedData w s).length < 2 ^ 32 →
      ∃ u st id ψ, initWithStream r (archivedData w s ++ more) = some (some u) ∧ unarchive R u fuel' = some (st, some id) ∧ ψ root = some id ∧
        Copies W R w r ψ st) := by
  obtain ⟨s, e, hi, hg, hv⟩ := archiveObject_ok (w := w) hA hroot hav hf
  refine ⟨s, e, fun h1 h2 => ?_⟩
  obtain ⟨u, hu, hr⟩ := (init_ok w r s h1 h2).2 more
  obtain ⟨st, id, e', hp, hc⟩ := unarchive_ok hr hA hi hg hroot hv hf'
  exact ⟨u, st, id, _, hu, e', hp, hc⟩

/-- C44 (partial, as above; the class that must not be referred to is DKHashTable).  An archiver without a root object records the calls `ps` made on it
    directly; reading the keys `gs` gives back what was added. -/
theorem C44_rootless_partial (W : World) (R : Reader) (U : List Nat) (ps : List Put) (gs : List (Kind × Bytes)) (w r : Order) (fuel fuel' : Nat)
    (hA : Archivable W R U) (hav : ∀ o ∈ U, ∀ p ∈ W.puts o, Avoids none hashTableName p)
    (hps : ∀ p ∈ ps, PutOk R p ∧ (∀ o ∈ p.targets, o ∈ U) ∧ Avoids none hashTableName p) (hk : KeysOk ps gs) (hf : U.length ≤ fuel) (hf' : U.length ≤ fuel') :
    ∃ s, archiveRootless w W fuel ps = some s ∧ (s.objs.length < 2 ^ 32 → (archivedData w s).length < 2 ^ 32 →
      ∃ u st vs ψ, initWithData r (archivedData w s) = some (some u) ∧ getAll R u (unGetObject R u fuel') gs (uInit u) = some (st, vs) ∧
        vs.length = gs.length ∧ (∀ (k : Nat) g v, gs[k]? = some g → vs[k]? = some v → ReadsBack w r ψ ps g v) ∧ Copies W R w r ψ st) := by
  obtain ⟨s, a, e, hi, hg, hrl, ha, hat⟩ := archiveRootless_ok (w := w) hA hav hps hf
  refine ⟨s, e, fun h1 h2 => ?_⟩
  obtain ⟨u, hu, hr⟩ := (init_ok w r s h1 h2).1
  obtain ⟨st, vs, e', l, m, hc⟩ := readRootless_ok hr hA hi hg hrl ha hat (fun p hp => ⟨(hps p hp).1, (hps p hp).2.1⟩) hk hf'
  exact ⟨u, st, vs, _, hu, e', l, m, hc⟩

/-- A graph for which each class reads what it adds: three objects, 1 and 2 refer to each other, 0 holds both. -/
def exPuts : Nat → List Put
  | 0 => [.coll [99] [some 1, some 2], .number [110] (encode 9 2) [1, 2, 3, 4]]
  | 1 => [.coll [99] [some 2], .number [110] (encode 9 1) [5, 6]]
  | _ => [.coll [99] [some 1], .number [110] (encode 9 1) [7, 8]]

def exGets : List (Kind × Bytes) := [(.coll, [99]), (.number, [110]), (.text, [116])]

theorem ex_archivable : Archivable (exWorld exPuts) (exReader exGets) [0, 1, 2] ∧
    ∀ o ∈ [0, 1, 2], ∀ p ∈ (exWorld exPuts).puts o, Avoids (some 0) [65] p := by
  have hmem : ∀ (P : Nat → Prop), P 0 → P 1 → P 2 → ∀ o ∈ [0, 1, 2], P o := by
    intro P h0 h1 h2 o ho; fin_cases ho <;> assumption
  refine ⟨⟨?_, fun _ _ => rfl,
    fun o _ => (by decide : (exReader []).isClass [65] = true ∧ (exReader []).egg [65] = true ∧ 0 ∉ ([65] : Bytes) ∧ 2 < 2 ^ 24), ?_, ?_⟩, ?_⟩
  · apply hmem <;> decide
  · apply hmem <;> (intro p hp; fin_cases hp <;> (simp only [PutOk]; decide))
  · apply hmem <;> (unfold KeysOk; decide +kernel)
  · apply hmem <;> (intro p hp; fin_cases hp <;> exact ⟨by decide, by rintro k n (h | h) <;> cases h⟩)

/-- The hypotheses of C44 hold of a graph with a cycle and a shared object; this is what is read on a machine of the other byte order. -/
example : saveLoad .big .little (exWorld exPuts) (exReader exGets) 3 0 = some (⟨[some 0, some 1, some 2], [], 3,
    [(0, [65], [.coll [some 1, some 2], .number (some (2, [2, 1, 4, 3])), .text none]),
     (1, [65], [.coll [some 2], .number (some (1, [6, 5])), .text none]),
     (2, [65], [.coll [some 1], .number (some (1, [8, 7])), .text none])]⟩, some 0) := by decide +kernel

/-- No correspondence makes the object read a copy if what is read under a key does not match what was added. -/
theorem not_copy {W : World} {R : Reader} {w r : Order} {st : USt} {o id : Nat} {c : Bytes} {g : Kind × Bytes} {v : Got} {vs : List Got}
    (k : Nat) (hl : st.heap.lookup id = some (c, vs)) (hg : (R.gets (W.cls o))[k]? = some g) (hv : vs[k]? = some v)
    (hm : ∀ ψ : Nat → Option Nat, ¬ ReadsBack w r ψ (W.puts o) g v) : ¬ ∃ ψ, ψ o = some id ∧ Copies W R w r ψ st := by
  rintro ⟨ψ, hp, _, hc, _⟩
  obtain ⟨gots, h1, _, h3⟩ := hc o id hp
  rw [hl] at h1; cases h1
  exact hm ψ (h3 k g v hg hv)

/-- C44 fails for an object that refers to the root: it reads NULL.  Here the root refers to itself. -/
theorem C44_root_fails : ∃ (W : World) (R : Reader) (st : USt) (id : Nat), Archivable W R [0] ∧ saveLoad .big .big W R 1 0 = some (st, some id) ∧
    ¬ ∃ ψ, ψ 0 = some id ∧ Copies W R .big .big ψ st := by
  refine ⟨exWorld fun _ => [.object [97] (some (.obj 0))], exReader [(.object, [97])], ⟨[some 0], [], 1, [(0, [65], [.object none])]⟩, 0, ?_, by decide +kernel, ?_⟩
  · refine ⟨?_, fun _ _ => rfl, fun o _ => (by decide : (exReader []).isClass [65] = true ∧ (exReader []).egg [65] = true ∧ 0 ∉ ([65] : Bytes) ∧ 2 < 2 ^ 24), ?_, ?_⟩
    · intro o _ p hp t ht; simp [exWorld] at hp; subst hp; simpa [Put.targets] using ht
    · intro o _ p hp; simp [exWorld] at hp; subst hp; trivial
    · exact fun o _ => (by unfold KeysOk; decide +kernel : KeysOk [.object [97] (some (.obj 0))] [(.object, [97])])
  · refine not_copy (g := (.object, [97])) (v := .object none) 0 rfl rfl rfl ?_
    rintro ψ (⟨p, h1, _, _, h4⟩ | ⟨h, _⟩ | ⟨p, h1, _, hk, _⟩)
    · simp [exWorld] at h1; subst h1; obtain ⟨_, _, h⟩ := h4; cases h
    · exact h (.object [97] (some (.obj 0))) (by simp [exWorld]) rfl
    · simp [exWorld] at h1; subst h1; exact hk rfl

/-- C44 fails for a collection with a NULL before another object: NULL and object change places. -/
theorem C44_null_fails : ∃ (W : World) (R : Reader) (st : USt) (id : Nat), saveLoad .big .big W R 2 0 = some (st, some id) ∧
    W.puts 0 = [.coll [97] [none, some 1]] ∧ (∃ c, st.heap.lookup id = some (c, [.coll [some 1, none]])) ∧
    ¬ ∃ ψ, ψ 0 = some id ∧ Copies W R .big .big ψ st := by
  refine ⟨exWorld fun o => if o = 0 then [.coll [97] [none, some 1]] else [], exReader [(.coll, [97])],
    ⟨[some 0, some 1], [], 2, [(0, [65], [.coll [some 1, none]]), (1, [65], [.coll []])]⟩, 0, by decide +kernel, rfl, ⟨[65], rfl⟩, ?_⟩
  refine not_copy (g := (.coll, [97])) (v := .coll [some 1, none]) 0 rfl rfl rfl ?_
  rintro ψ (⟨p, h1, _, _, h4⟩ | ⟨h, _⟩ | ⟨p, h1, _, hk, _⟩)
  · simp [exWorld] at h1; subst h1; obtain ⟨h, _⟩ := h4; simp at h
  · exact h (.coll [97] [none, some 1]) (by simp [exWorld]) rfl
  · simp [exWorld] at h1; subst h1; exact hk rfl

/-- C44 fails for a reference to the class of the root: it reads NULL. -/
theorem C44_class_fails : ∃ (W : World) (R : Reader) (st : USt) (id : Nat), saveLoad .big .big W R 2 0 = some (st, some id) ∧
    W.puts 0 = [.object [97] (some (.cls (W.cls 0)))] ∧ ¬ ∃ ψ, ψ 0 = some id ∧ Copies W R .big .big ψ st := by
  refine ⟨exWorld fun _ => [.object [97] (some (.cls [65]))], exReader [(.object, [97])], ⟨[some 0], [], 1, [(0, [65], [.object none])]⟩, 0, by decide +kernel, rfl, ?_⟩
  refine not_copy (g := (.object, [97])) (v := .object none) 0 rfl rfl rfl ?_
  rintro ψ (⟨p, h1, _, _, h4⟩ | ⟨h, _⟩ | ⟨p, h1, _, hk, _⟩)
  · simp [exWorld] at h1; subst h1; cases h4
  · exact h (.object [97] (some (.cls [65]))) (by simp [exWorld]) rfl
  · simp [exWorld] at h1; subst h1; exact hk rfl

/-- C44 fails for two keys with the same hash, such as "Aa" and "BB": the second reads what was added under the first. -/
theorem C44_collision_fails : ∃ (W : World) (R : Reader) (st : USt) (id : Nat), saveLoad .big .big W R 2 0 = some (st, some id) ∧
    W.puts 0 = [.text [65, 97] [104], .text [66, 66] [105]] ∧ ¬ ∃ ψ, ψ 0 = some id ∧ Copies W R .big .big ψ st := by
  refine ⟨exWorld fun _ => [.text [65, 97] [104], .text [66, 66] [105]], exReader [(.text, [66, 66])], ⟨[some 0], [], 1, [(0, [65], [.text (some [104])])]⟩, 0,
    by decide +kernel, rfl, ?_⟩
  refine not_copy (g := (.text, [66, 66])) (v := .text (some [104])) 0 rfl rfl rfl ?_
  rintro ψ (⟨p, h1, h2, _, h4⟩ | ⟨h, _⟩ | ⟨p, h1, _, hk, _⟩)
  · simp [exWorld] at h1
    rcases h1 with h1 | h1 <;> subst h1
    · simp [Put.key] at h2
    · simp [Matches] at h4
  · exact h (.text [66, 66] [105]) (by simp [exWorld]) rfl
  · simp [exWorld] at h1; rcases h1 with h1 | h1 <;> (subst h1; exact hk rfl)

/-! ### C45 -/

/-- C45 (partial: aligned relative to the data section; keys with different hashes; archive smaller than 4 GB).  A number, text or binary attribute added at
    any place in any sequence of calls is found again under its key, and its bytes are exactly the bytes added, on machines of either byte order; the
    offset of a number is a multiple of the size of its type. -/
theorem C45_partial (W : World) (R : Reader) (U : List Nat) (before after : List Put) (p : Put) (w r : Order) (fuel : Nat)
    (hA : Archivable W R U) (hav : ∀ o ∈ U, ∀ q ∈ W.puts o, Avoids none hashTableName q)
    (hps : ∀ q ∈ before ++ p :: after, PutOk R q ∧ (∀ o ∈ q.targets, o ∈ U) ∧ Avoids none hashTableName q)
    (hk : (before ++ p :: after).Pairwise fun a b => strhash32 a.key ≠ strhash32 b.key) (hf : U.length ≤ fuel) :
    ∃ s, archiveRootless w W fuel (before ++ p :: after) = some s ∧ (s.objs.length < 2 ^ 32 → (archivedData w s).length < 2 ^ 32 →
      ∃ u, initWithData r (archivedData w s) = some (some u) ∧
        (∀ k t, p = .text k t → ∃ a, getAttr u (uInit u).stack k = some (some a) ∧ getText u a = some (some t)) ∧
        (∀ k b, p = .binary k b → ∃ a, getAttr u (uInit u).stack k = some (some a) ∧ getBinary u a = some (some b)) ∧
        ∀ k e b, p = .number k e b → ∃ a b', getAttr u (uInit u).stack k = some (some a) ∧ a.enc = e ∧ a.value.toNat % getTypeSize e = 0 ∧
          getNumber u a = some (some ((getCount e).toNat, b')) ∧ SameNumber w r (getTypeSize e) b b') := by
  obtain ⟨s, a, e, hi, hg, hrl, ha, hat⟩ := archiveRootless_ok (w := w) hA hav hps hf
  refine ⟨s, e, fun h1 h2 => ?_⟩
  obtain ⟨u, hu, hr⟩ := (init_ok w r s h1 h2).1
  have hst : (uInit u).stack = [0] := by simp [uInit, hr.rootless, hrl]
  obtain ⟨oa, hs, hfind⟩ := find_some hat hk p (by simp) rfl
  have hget : getAttr u (uInit u).stack p.key = some oa := by rw [hst, getAttr_ok hr ha, hfind]
  obtain ⟨hi0, hu0⟩ := uInit_inv (U := U) hr
  have hfrom : ∀ a, oa = some a → ∃ st' v, getFrom R u (unGetObject R u U.length) (uInit u) a p.kind = some (st', v) ∧ Matches w r (psi s st') p v := by
    intro a e; subst e
    obtain ⟨st', v, h1, _, h2⟩ := getFrom_ok hr hi (unGetObject_ok hr hA hi hg U.length) hi0 hu0 p (hps p (by simp)).1 (hps p (by simp)).2.1 hs
    exact ⟨st', v, h1, h2⟩
  refine ⟨u, hu, ?_, ?_, ?_⟩
  · intro k t hp; subst hp
    obtain ⟨c, _, _, e⟩ := hs
    obtain ⟨st', v, h1, h2⟩ := hfrom _ e
    rw [e] at hget
    refine ⟨_, hget, ?_⟩
    simp only [Put.kind, getFrom] at h1
    obtain ⟨x, h3, h4⟩ := Option.map_eq_some_iff.mp h1
    have h2 : v = .text (some t) := h2
    rw [h2] at h4
    rw [h3]; rw [(by simpa using congrArg Prod.snd h4 : x = _)]
  · intro k b hp; subst hp
    obtain ⟨c, _, _, e⟩ := hs
    obtain ⟨st', v, h1, h2⟩ := hfrom _ e
    rw [e] at hget
    refine ⟨_, hget, ?_⟩
    simp only [Put.kind, getFrom] at h1
    obtain ⟨x, h3, h4⟩ := Option.map_eq_some_iff.mp h1
    have h2 : v = .binary (some b) := h2
    rw [h2] at h4
    rw [h3]; rw [(by simpa using congrArg Prod.snd h4 : x = _)]
  · intro k e' b hp; subst hp
    obtain ⟨c, _, hc, hal, e⟩ := hs
    obtain ⟨st', v, h1, b', h2, h2'⟩ := hfrom _ e
    rw [e] at hget
    refine ⟨_, b', hget, rfl, ?_, ?_, h2'⟩
    · simp only; rw [ofNat_toNat (Nat.lt_of_le_of_lt hc hr.small.2.2)]; exact hal
    · simp only [Put.kind, getFrom] at h1
      obtain ⟨x, h3, h4⟩ := Option.map_eq_some_iff.mp h1
      rw [h2] at h4
      rw [h3]; rw [(by simpa using congrArg Prod.snd h4 : x = _)]

/-- The hypotheses hold of a sequence of calls of all three kinds; the number is found swapped on a machine of the other byte order. -/
example : (∀ q ∈ [Put.text [116] [104, 105], .number [110] (encode 11 1) [1, 2, 3, 4], .binary [98] [9, 0, 9]],
      PutOk (exReader []) q ∧ (∀ o ∈ q.targets, o ∈ ([] : List Nat)) ∧ Avoids none hashTableName q) ∧
    ([Put.text [116] [104, 105], .number [110] (encode 11 1) [1, 2, 3, 4], .binary [98] [9, 0, 9]].Pairwise fun a b => strhash32 a.key ≠ strhash32 b.key) ∧
    ((archiveRootless .big (exWorld fun _ => []) 0 [.text [116] [104, 105], .number [110] (encode 11 1) [1, 2, 3, 4], .binary [98] [9, 0, 9]]).bind fun s =>
      (initWithData .little (archivedData .big s)).bind fun u => u.bind fun u => (getAttr u (uInit u).stack [110]).bind fun a => a.bind (getNumber u)) =
        some (some (1, [4, 3, 2, 1])) := by
  refine ⟨?_, by decide +kernel, by decide +kernel⟩
  intro q hq
  fin_cases hq <;> (refine ⟨?_, by decide, by decide, by rintro k n (h | h) <;> cases h⟩; simp only [PutOk]; decide)

/-- C45 fails for the position in the archive: the data section starts at a multiple of 4 only, so a 64-bit number can lie at an address that is not a
    multiple of 8, and DKEggGetNumberData reads it through a pointer to uint64_t. -/
theorem C45_alignment_fails : ∃ (ps : List Put) (k : Bytes) (s : Arch) (u : Un) (a : Attr),
    ps = [.number k (encode 15 1) [1, 2, 3, 4, 5, 6, 7, 8], .number [98] (encode 8 1) [1]] ∧ archiveRootless .big (exWorld fun _ => []) 0 ps = some s ∧
    initWithData .little (archivedData .big s) = some (some u) ∧ getAttr u (uInit u).stack k = some (some a) ∧ getTypeSize a.enc = 8 ∧
    (tableEnd u.nobj u.nattr + a.value.toNat) % 8 ≠ 0 := by
  refine ⟨[.number [97] (encode 15 1) [1, 2, 3, 4, 5, 6, 7, 8], .number [98] (encode 8 1) [1]], [97],
    (archiveRootless .big (exWorld fun _ => []) 0 [.number [97] (encode 15 1) [1, 2, 3, 4, 5, 6, 7, 8], .number [98] (encode 8 1) [1]]).get (by decide +kernel), ?_⟩
  generalize hs : Option.get _ _ = s
  have hs' : archiveRootless .big (exWorld fun _ => []) 0 [.number [97] (encode 15 1) [1, 2, 3, 4, 5, 6, 7, 8], .number [98] (encode 8 1) [1]] = some s := by
    rw [← hs, Option.some_get]
  have h : (archiveRootless .big (exWorld fun _ => []) 0 [.number [97] (encode 15 1) [1, 2, 3, 4, 5, 6, 7, 8], .number [98] (encode 8 1) [1]]).bind (fun s =>
      (initWithData .little (archivedData .big s)).bind fun u => u.bind fun u => (getAttr u (uInit u).stack [97]).bind fun a => a.bind fun a =>
        if getTypeSize a.enc = 8 ∧ (tableEnd u.nobj u.nattr + a.value.toNat) % 8 ≠ 0 then some () else none) = some () := by decide +kernel
  rw [hs', Option.bind_some] at h
  obtain ⟨u, h1, h⟩ := Option.bind_eq_some_iff.mp h
  obtain ⟨u', hu, h⟩ := Option.bind_eq_some_iff.mp h
  obtain ⟨a, h2, h⟩ := Option.bind_eq_some_iff.mp h
  obtain ⟨a', ha, h⟩ := Option.bind_eq_some_iff.mp h
  subst hu ha
  simp only [Option.bind_some] at h
  split at h
  · rename_i h3; exact ⟨u', a', rfl, hs', h1, h2, h3.1, h3.2⟩
  · cases h

/-- C45 fails for the length DKEggGetTextData returns: one less than the number of bytes it copies, and 2^64 - 1 for an empty text. -/
theorem C45_text_length_fails (u : Un) (a : Attr) (t : Bytes) (h : getText u a = some (some t)) :
    getTextData u a = some (t, BitVec.ofNat 64 t.length - 1) ∧ (t = [] → getTextData u a = some ([], 18446744073709551615#64)) := by
  unfold getTextData; rw [h]
  refine ⟨rfl, fun e => ?_⟩
  subst e; rfl

/-- An archived empty text. -/
example : ∃ s u a, archiveRootless .big (exWorld fun _ => []) 0 [.text [97] []] = some s ∧ initWithData .big (archivedData .big s) = some (some u) ∧
    getAttr u (uInit u).stack [97] = some (some a) ∧ getText u a = some (some []) := by
  refine ⟨_, _, _, rfl, rfl, rfl, rfl⟩

/-- DKEggGetBinaryData copies the data if the length is right and nothing otherwise. -/
theorem C45_binary_length (u : Un) (a : Attr) (b : Bytes) (n : Nat) (h : getBinary u a = some (some b)) :
    getBinaryData u a n = some (if b.length = n then (b, n) else ([], 0)) := by
  unfold getBinaryData; rw [h]; rfl

/-! ### C67 -/

theorem get32_some (o : Order) (bs : Bytes) (off : Nat) (h : off + 4 ≤ bs.length) : ∃ x, get32 o bs off = some x := by
  unfold get32
  have : 4 ≤ (bs.drop off).length := by rw [List.length_drop]; omega
  match hd : bs.drop off with
  | [] => rw [hd] at this; simp at this
  | [_] => rw [hd] at this; simp at this
  | [_, _] => rw [hd] at this; simp at this
  | [_, _, _] => rw [hd] at this; simp at this
  | a :: b :: c :: d :: _ => exact ⟨_, rfl⟩

/-- C67 (partial: opening only).  Whatever the bytes, opening them as an archive reads nothing outside of them, and refuses them unless they start with the
    signature and the versions of an archive. -/
theorem C67_open_partial (r : Order) (bs : Bytes) : ∃ x, initWithData r bs = some x ∧
    (x.isSome → 48 ≤ bs.length ∧ bs.take 18 = "EGG-Version: 1.0\n".toUTF8.toList ++ [0] ∧ bs[20]? = some 1 ∧ bs[21]? = some 1) := by
  generalize hsig : "EGG-Version: 1.0\n".toUTF8.toList ++ [(0 : UInt8)] = sig
  have hsig' : eggPrefix = sig := by rw [← hsig]; decide +kernel
  unfold initWithData
  by_cases h1 : bs.length < 48
  · rw [if_pos h1]; exact ⟨none, rfl, nofun⟩
  · rw [if_neg h1]
    by_cases h2 : headerOk bs = false
    · rw [if_pos h2]; exact ⟨none, rfl, nofun⟩
    · rw [if_neg h2]
      have h3 : 48 ≤ bs.length := by omega
      have hok : 48 ≤ bs.length ∧ bs.take 18 = sig ∧ bs[20]? = some 1 ∧ bs[21]? = some 1 := by
        have h2 : headerOk bs = true := by cases h : headerOk bs with
          | false => exact absurd h h2
          | true => rfl
        unfold headerOk at h2
        simp only [Bool.and_eq_true, beq_iff_eq] at h2
        refine ⟨h3, h2.1.1.trans hsig', h2.1.2, h2.2⟩
      have hw : ∀ f off, off + 4 ≤ 48 → ∃ x, headerWord r f bs off = some x := fun f off h => by
        obtain ⟨x, hx⟩ := get32_some r bs off (by omega)
        exact ⟨_, by rw [headerWord, hx]; rfl⟩
      rw [List.getElem?_eq_getElem (show 22 < bs.length by omega), List.getElem?_eq_getElem (show 23 < bs.length by omega)]
      simp only [Option.bind_some]
      obtain ⟨x1, e1⟩ := hw (bs[22] != r.byte) 28 (by omega)
      obtain ⟨x2, e2⟩ := hw (bs[22] != r.byte) 36 (by omega)
      obtain ⟨x3, e3⟩ := hw (bs[22] != r.byte) 40 (by omega)
      obtain ⟨x4, e4⟩ := hw (bs[22] != r.byte) 44 (by omega)
      rw [e1, e2, e3, e4]
      simp only [Option.bind_some]
      split
      · exact ⟨none, rfl, nofun⟩
      · split
        · exact ⟨none, rfl, nofun⟩
        · exact ⟨_, rfl, fun _ => hok⟩

/-- An archive is opened. -/
example : ((archiveRootless .big (exWorld fun _ => []) 0 []).bind fun s => (initWithData .little (archivedData .big s)).map (·.isSome)) = some true := by
  decide +kernel

/-- A header that claims to be followed by `nobj` objects, `nattr` attributes and a data section. -/
def exHeader (nobj nattr di dl : BitVec 32) : Bytes :=
  eggPrefix ++ [0, 0, 1, 1, 2, 0] ++ put32 .little 48 ++ put32 .little nobj ++ put32 .little 0 ++ put32 .little nattr ++ put32 .little di ++ put32 .little dl

/-- C67 fails: a header without tables is accepted, and reading the root object reads beyond the end of the bytes. -/
theorem C67_truncated_fails (R : Reader) (fuel : Nat) : ∃ bs u, bs.length = 48 ∧ initWithData .little bs = some (some u) ∧ unarchive R u (fuel + 1) = none := by
  refine ⟨exHeader 1 0 0 0, ⟨.little, false, false, exHeader 1 0 0 0, 48, 1, 0⟩, by decide +kernel, by decide +kernel, ?_⟩
  rw [unarchive, unGetObject.eq_def]
  have h1 : objectAt ⟨.little, false, false, exHeader 1 0 0 0, 48, 1, 0⟩ 0 = none := by decide +kernel
  rw [if_pos (by decide)]
  simp only [uInit, List.replicate, List.getElem?_cons_zero, h1, Option.bind_none]

/-- C67 fails: an archive length of less than the header makes reading it from a stream undefined. -/
theorem C67_stream_fails : ∃ bs, bs.length = 48 ∧ initWithStream .little bs = none :=
  ⟨exHeader 0 0 0 0, by decide +kernel, by decide +kernel⟩

/-- C67 fails: the position and length of the data section are added as 32-bit numbers, so a section that ends far beyond the bytes is accepted. -/
theorem C67_overflow_fails : ∃ bs u, bs.length = 48 ∧ initWithData .little bs = some (some u) ∧
    (headerWord .little false bs 40).map BitVec.toNat = some 48 ∧ (headerWord .little false bs 44).map BitVec.toNat = some (2 ^ 32 - 48) :=
  ⟨exHeader 0 0 48 0xffffffd0, ⟨.little, false, false, exHeader 0 0 48 0xffffffd0, 48, 0, 0⟩, by decide +kernel, by decide +kernel, by decide +kernel, by decide +kernel⟩

end Egg
end Duck
