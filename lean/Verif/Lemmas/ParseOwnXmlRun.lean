import Verif.Lemmas.ParseOwnXml
/-! The loop of the XML parser with its objects. -/
namespace Duck
namespace ParseOwn

/-- Codes that do not come while the value of an attribute is read -/
def quiet : Xml.Ret → Bool
  | .elemstart | .content | .elemend | .attrstart => true
  | _ => false

theorem astep_quiet {s : Xml.Abs} {b : Xml.Builder} {r : Xml.Region} {ph : Xml.Phase} (h : Xml.Good s b r ph) {ch : UInt8}
    {t : Xml.Abs × Xml.Ret × Bytes} (ht : Xml.astep s ch = some t) (hq : quiet t.2.1 = true) : b.attr = none := by
  apply Classical.byContradiction
  intro hne
  have hp := h.attr.mpr hne
  subst hp
  unfold Xml.astep at ht
  split at ht
  · cases ht; simp [quiet] at hq
  · split at ht
    · cases ht; simp [quiet] at hq
    · unfold Xml.afeed at ht
      split at ht
      · rename_i c a e
        obtain ⟨κ, _, he⟩ := Xml.trans_kind h.kind e
        cases a <;> simp only [Xml.aperform] at ht <;> (repeat' split at ht) <;>
          simp_all [Xml.eff, Xml.aclose, Xml.arefend, Xml.adata, quiet]
        all_goals (subst ht; by_cases q : Xml.refRejected (Xml.refValue s.data) = true <;> simp [q] at hq)
      · cases ht; simp [quiet] at hq

/-- The parser and the tree are in step. -/
def Ready (p : Xml.Parser) (b : Xml.Builder) : Prop := ∃ s r ph, Xml.Rel p s ∧ Xml.Good s b r ph

theorem Ready.step {p : Xml.Parser} {b : Xml.Builder} (h : Ready p b) (ch : UInt8) :
    ∃ q, Xml.step p ch = some q ∧ (q.2.isError = true ∨ (q.2.isError = false ∧
      ∃ x b', Xml.token q.1 q.2 = some x ∧ Xml.build b q.2 x = some b' ∧ Ready q.1 b' ∧ (quiet q.2 = true → b.attr = none))) := by
  obtain ⟨s, r, ph, hr, hg⟩ := h
  obtain ⟨t, h1, h2⟩ := Xml.step_good hg ch
  obtain ⟨q, h3, h4⟩ := Xml.step_ok hr h1
  refine ⟨q, h3, ?_⟩
  rcases h4 with ⟨h7, _⟩ | ⟨h7, h8⟩
  · exact .inl (by rw [h7]; rfl)
  · by_cases he : q.2.isError = true
    · exact .inl he
    · simp only [Bool.not_eq_true] at he
      have he' : t.2.1.isError = false := by rw [← h7]; exact he
      obtain ⟨b', hb, r', ph', hg'⟩ := h2 he'
      obtain ⟨hr', ht', _⟩ := h8 he'
      refine .inr ⟨he, t.2.2, b', ht', by rw [h7]; exact hb, ⟨_, _, _, hr', hg'⟩, fun hq => astep_quiet hg h1 (by rw [← h7]; exact hq)⟩

theorem Ready.end {p : Xml.Parser} {b : Xml.Builder} (h : Ready p b) (ha : Xml.atEnd p = true) : b.stack = [] ∧ b.started = true ∧ b.attr = none := by
  obtain ⟨s, r, ph, hr, hg⟩ := h
  have hc : s.ctl.st = .misc3 := by rw [← hr.ctl]; simpa [Xml.atEnd] using ha
  have hk := hg.kind
  simp only [Xml.kind, hc, Option.some.injEq, Prod.mk.injEq] at hk
  obtain ⟨rfl, rfl⟩ := hk
  have he : s.elems = [] := by
    apply Classical.byContradiction
    intro hh
    have := hg.elems.mpr hh
    cases this
  refine ⟨?_, ?_, ?_⟩
  · have := hg.depth
    rw [he] at this
    simp at this
    exact List.length_eq_zero_iff.mp this.symm
  · have := hg.started
    simp at this
    simpa using this
  · have := hg.attr
    simp at this
    exact this

theorem build_ok {b b' : Xml.Builder} {v : Vars} {h : Heap} {ids F : List Nat} {r : Xml.Ret} {s : Bytes} (sm : Sim b v h ids F)
    (hq : quiet r = true → b.attr = none) (hb : Xml.build b r s = some b') :
    ∃ v' h' ids' F', build v h r s = some (v', h') ∧ Sim b' v' h' ids' F' := by
  cases r with
  | elemstart => exact elemStart_ok sm (hq rfl) hb
  | content => exact content_ok sm (hq rfl) hb
  | elemend => exact elemend_ok sm (hq rfl) hb
  | attrstart => exact attrstart_ok sm (hq rfl) hb
  | attrval => exact attrval_ok sm hb
  | attrend => exact attrEnd_ok sm hb
  | _ => simp only [Xml.build, Option.some.injEq] at hb; subst hb; exact ⟨v, h, ids, F, rfl, sm⟩

/-- How the two loops end -/
def Same : Xml.Outcome → Outcome → Prop
  | .error r, .error r' v h => r = r' ∧ Bal h (v.root.ptrs ++ v.stack :: v.attr.ptrs)
  | .done p b, .done p' v h => p = p' ∧ Ready p b ∧ ∃ ids F, Sim b v h ids F
  | _, _ => False

theorem loop_same {p : Xml.Parser} {b : Xml.Builder} {v : Vars} {h : Heap} {ids F : List Nat} (hr : Ready p b) (sm : Sim b v h ids F) (l : Bytes) :
    ∃ o o', Xml.loop p b l = some o ∧ loop p v h l = some o' ∧ Same o o' := by
  induction l generalizing p b v h ids F with
  | nil => exact ⟨_, _, rfl, rfl, rfl, hr, ids, F, sm⟩
  | cons ch l ih =>
    obtain ⟨q, e, c⟩ := hr.step ch
    rw [Xml.loop, loop, e, Option.bind_some, Option.bind_some]
    rcases c with he | ⟨he, x, b', ht, hb, hr', hq⟩
    · have h1 : Xml.handle b q = some (.error q.2) := by rw [Xml.handle, if_pos he]
      have h2 : handle v h q = some (.error q.2 v h) := by rw [handle, if_pos he]
      rw [h1, h2]
      exact ⟨_, _, rfl, rfl, rfl, sm.bal⟩
    · obtain ⟨v', h', ids', F', e', sm'⟩ := build_ok sm hq hb
      have h1 : Xml.handle b q = some (.ok (q.1, b')) := by
        rw [Xml.handle, if_neg (by simp [he]), ht, Option.bind_some, hb]; rfl
      have h2 : handle v h q = some (.done q.1 v' h') := by
        rw [handle, if_neg (by simp [he]), ht, Option.bind_some, e']; rfl
      rw [h1, h2]
      exact ih hr' sm'

theorem finish_ok {v : Vars} {h : Heap} {R : List Nat} (b : Bal h (R ++ v.stack :: v.attr.ptrs)) :
    ∃ h', finish v h = some h' ∧ Bal h' R ∧ Kept h h' := by
  obtain ⟨h1, s1, b1, k1, _⟩ := release_ok (.ptr v.stack) (R := v.attr.ptrs ++ R) (b.perm (by
    intro j; simp only [Ref.ptrs, List.count_append, List.count_cons, List.count_nil]; omega))
  obtain ⟨h2, s2, b2, k2, _⟩ := release_ok v.attr b1
  exact ⟨h2, by rw [finish, s1, Option.bind_some, s2], b2, k1.trans k2⟩

theorem abandon_ok {v : Vars} {h : Heap} (b : Bal h (v.root.ptrs ++ v.stack :: v.attr.ptrs)) :
    ∃ h', abandon v h = some h' ∧ Bal h' [] := by
  obtain ⟨h1, s1, b1, k1, _⟩ := release_ok v.root b
  obtain ⟨h2, s2, b2, _⟩ := finish_ok (v := v) (R := []) b1
  exact ⟨h2, by rw [abandon, s1, Option.bind_some, s2], b2⟩

/-- The result shows the tree, or there is none. -/
def Result (h : Heap) (r : Ref) : Option Xml.Node → Prop
  | none => r = null
  | some t => Shows h r t

theorem once_same (junk : Nat → UInt8) {size : Nat} (hs : 0 < size) (xml : Bytes) (h : Heap) (b : Bal h []) :
    ∃ c t r h', Xml.parseOnce junk size xml = some (c, t) ∧ parseOnce junk size xml h = some (c, r, h') ∧ Bal h' r.ptrs ∧ Result h' r t ∧
      (c ≠ .ok → r = null) := by
  obtain ⟨p, h1, h2, _⟩ := Xml.init_rel junk hs
  have hr : Ready p Xml.emptyBuilder := ⟨_, _, _, h2, Xml.good_start⟩
  have b0 := b.alloc (.list []) rfl
  have sm : Sim Xml.emptyBuilder ⟨null, h.length, null⟩ (alloc h (.list [])) [] [] :=
    ⟨b0, ⟨1, by rw [get_alloc, if_pos rfl]; rfl⟩, rfl, ⟨rfl, rfl, rfl⟩, fun j => by simp, by simp⟩
  obtain ⟨o, o', e, e', s⟩ := loop_same hr sm xml
  cases o with
  | error c =>
    cases o' with
    | done => exact s.elim
    | error c' v h' =>
      obtain ⟨rfl, b1⟩ := s
      obtain ⟨h2, s2, b2⟩ := abandon_ok b1
      exact ⟨c, none, null, h2, by rw [Xml.parseOnce, h1, Option.bind_some, e]; rfl,
        by rw [parseOnce, h1, Option.bind_some, e', Option.bind_some]; simp only [s2, Option.map_some], b2, rfl, fun _ => rfl⟩
  | done p1 b1 =>
    cases o' with
    | error => exact s.elim
    | done p2 v h' =>
      obtain ⟨rfl, rd, ids, F, sm'⟩ := s
      by_cases ha : Xml.atEnd p1 = true
      · obtain ⟨q1, q2, q3⟩ := rd.end ha
        have ht := sm'.tree
        simp only [Tree, q1, q2, if_true] at ht
        obtain ⟨rfl, t, r, hd, hroot, ft⟩ := ht
        have bal := sm'.bal
        obtain ⟨h2, s2, b2, k2⟩ := finish_ok bal
        refine ⟨.ok, some t, v.root, h2, by rw [Xml.parseOnce, h1, Option.bind_some, e]; simp [ha, hd],
          by rw [parseOnce, h1, Option.bind_some, e', Option.bind_some]; simp only [ha, if_true, s2, Option.map_some], b2, ?_, fun hc => (hc rfl).elim⟩
        rw [hroot] at b2 ⊢
        exact (ft.move b2 k2.bk (b2.live (by simp [Ref.ptrs])) (by simp)).shows
      · simp only [Bool.not_eq_true] at ha
        obtain ⟨h2, s2, b2⟩ := abandon_ok sm'.bal
        refine ⟨.ok, none, null, h2, by rw [Xml.parseOnce, h1, Option.bind_some, e]; simp [ha],
          by rw [parseOnce, h1, Option.bind_some, e', Option.bind_some]; simp only [ha, Bool.false_eq_true, if_false, s2, Option.map_some], b2, rfl, fun hc => rfl⟩

theorem from_same (junk : Nat → UInt8) (f : Nat) {size : Nat} (hs : 0 < size) (xml : Bytes) (h : Heap) (b : Bal h []) (t : Option Xml.Node)
    (ht : Xml.parseFrom junk f size xml = some t) : ∃ r h', parseFrom junk f size xml h = some (r, h') ∧ Bal h' r.ptrs ∧ Result h' r t := by
  induction f generalizing size h with
  | zero => simp [Xml.parseFrom] at ht
  | succ f ih =>
    obtain ⟨c, t', r, h', e, e', b', rs, hc⟩ := once_same junk hs xml h b
    rw [Xml.parseFrom, e, Option.bind_some] at ht
    rw [parseFrom, e', Option.bind_some]
    by_cases cc : c = .estack
    · subst cc
      have := hc (by decide)
      subst this
      exact ih (by omega) h' b' ht
    · have h1 : t' = t := by
        cases c <;> first | exact (cc rfl).elim | (cases ht; rfl)
      subst h1
      refine ⟨r, h', ?_, b', rs⟩
      cases c <;> first | exact (cc rfl).elim | rfl

theorem xml_same (junk : Nat → UInt8) (f : Nat) (xml : Bytes) (t : Option Xml.Node) (ht : Xml.parse junk f xml = some t) :
    ∃ r h, parseXml junk f xml = some (r, h) ∧ Bal h r.ptrs ∧ Result h r t := by
  unfold Xml.parse at ht
  unfold parseXml
  split at ht
  · rename_i c
    rw [if_pos c]
    cases ht
    exact ⟨_, _, rfl, bal_nil, rfl⟩
  · rename_i c
    rw [if_neg c]
    exact from_same junk f (by decide) xml [] bal_nil t ht

theorem json_same (H : Json.Host) (m : Unicode.Mem) (v : Json.Json) (hv : Json.parse H m = some v) :
    ∃ r h, parseJson H m = some (r, h) ∧ Bal h r.ptrs ∧ Val h r v := by
  unfold Json.parse at hv
  rw [Option.map_eq_some_iff] at hv
  obtain ⟨⟨a, m'⟩, e, rfl⟩ := hv
  obtain ⟨r', h', e', _, g⟩ := (parse_all H _).1 m [] [] a m' e bal_nil
  refine ⟨r'.object, h', by rw [parseJson, e']; rfl, ?_⟩
  cases a with
  | ok v =>
    cases r' with
    | ok r => exact ⟨by have := g.1; rw [List.append_nil] at this; exact this, g.2.1⟩
    | _ => exact g.elim
  | closeList =>
    cases r' with
    | closeList => exact ⟨g, .fixed _⟩
    | _ => exact g.elim
  | closeDict =>
    cases r' with
    | closeDict => exact ⟨g, .fixed _⟩
    | _ => exact g.elim
  | error =>
    cases r' with
    | error => exact ⟨g, .fixed _⟩
    | _ => exact g.elim

end ParseOwn
end Duck
