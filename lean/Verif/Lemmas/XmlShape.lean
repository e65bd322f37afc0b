import Verif.Lemmas.XmlAbs

/-! # Helper lemmas for XML: what the control state says about the stacks -/

set_option linter.unusedSimpArgs false

namespace Duck.Xml

inductive Region
  | before | inside | after
  deriving DecidableEq

inductive Phase
  | plain | ename | aname | aval | pi
  deriving DecidableEq

def home : St → Option Region
  | .misc1 | .dt0 => some .before
  | .misc2 => some .inside
  | .misc3 => some .after
  | _ => none

def litHome : St → Option Region
  | .misc0 | .dt0 | .ver0 | .enc0 | .std0 | .ver2 | .std3 => some .before
  | .cd0 => some .inside
  | _ => none

def kind (c : Ctl) : Option (Region × Phase) :=
  match c.st with
  | .init | .le0 | .le1 | .lee1 | .leq0 | .misc0 | .misc1 | .dt0 | .dt2 | .dt3 | .dt4
  | .ver0 | .ver1 | .ver2 | .ver3 | .enc0 | .enc1 | .enc2 | .enc3
  | .std0 | .std1 | .std2 | .std3
  | .xmldecl3 | .xmldecl4 | .xmldecl5 | .xmldecl6 | .xmldecl7 | .xmldecl8 | .xmldecl9 => some (.before, .plain)
  | .le3 | .misc3 => some (.after, .plain)
  | .elem0 => some (.inside, .ename)
  | .elem1 | .elem2 | .elem3 | .misc2 | .misc2a | .cd0 | .cd1 | .cd2 | .le2 | .lee2
  | .etag0 | .etag1 | .etag2 => some (.inside, .plain)
  | .attr0 => some (.inside, .aname)
  | .attr1 | .attr2 | .attr3 | .attr4 => some (.inside, .aval)
  | .comment0 | .comment1 | .comment2 | .comment3 | .comment4 | .pi0 => (home c.next).map (·, .plain)
  | .pi1 | .pi2 | .pi3 | .pi4 => (home c.next).map (·, .pi)
  | .xmldecl0 | .xmldecl1 | .xmldecl2 => if c.next = .misc1 then some (.before, .pi) else none
  | .dt1 => if c.next = .dt0 ∨ c.next = .dt4 then some (.before, .plain) else none
  | .string => if c.lit = [] then none else (litHome c.next).map (·, .plain)

/-- What an action requires of the state before it and of the control state it leaves. -/
def eff (a : Act) (κ κ' : Region × Phase) : Bool :=
  match a with
  | .ok | .refstart | .ref => κ' = κ
  | .refcontent | .datacontent | .datacd1 | .datacd2 => κ = (.inside, .plain) ∧ κ' = κ
  | .refattrval | .dataattr => κ = (.inside, .aval) ∧ κ' = κ
  | .datapi1 | .datapi2 => κ' = κ
  | .elemstart => κ.2 = .plain ∧ κ.1 ≠ .after ∧ κ' = (.inside, .ename)
  | .elemname => κ = (.inside, .ename) ∧ κ' = κ
  | .elemnameend => κ = (.inside, .ename) ∧ κ' = (.inside, .plain)
  | .attrstart => κ = (.inside, .plain) ∧ κ' = (.inside, .aname)
  | .attrname => κ = (.inside, .aname) ∧ κ' = κ
  | .attrnameend => κ = (.inside, .aname) ∧ κ' = (.inside, .aval)
  | .attrvalend => κ = (.inside, .aval) ∧ κ' = (.inside, .plain)
  | .pistart => κ.2 = .plain ∧ κ' = (κ.1, .pi)
  | .piname | .pinameend => κ.2 = .pi ∧ κ' = κ
  | .piabort | .pivalend => κ.2 = .pi ∧ κ' = (κ.1, .plain)
  | .selfclose | .elemclose | .elemcloseend => κ = (.inside, .plain) ∧ κ' = κ

theorem kind_home {n m : St} {r : Region} {l : Bytes} {q : UInt8} (h : home n = some r) :
    kind ⟨n, m, l, q⟩ = some (r, .plain) := by
  cases n <;> simp_all [home, kind]

theorem kind_litHome {n m : St} {r : Region} {l : Bytes} {q : UInt8} (h : litHome n = some r) :
    kind ⟨n, m, l, q⟩ = some (r, .plain) := by
  cases n <;> simp_all [litHome, kind]

theorem trans_kind {c c' : Ctl} {ch : UInt8} {a : Act} {κ : Region × Phase}
    (h : kind c = some κ) (ht : trans c ch = some (c', a)) :
    ∃ κ', kind c' = some κ' ∧ eff a κ κ' = true := by
  obtain ⟨st, nx, lit, q⟩ := c
  obtain ⟨r, ph⟩ := κ
  cases st
  case string =>
    simp only [kind] at h
    split at h
    · simp at h
    · simp only [Option.map_eq_some_iff, Prod.mk.injEq] at h
      obtain ⟨r', h1, rfl, rfl⟩ := h
      simp only [trans] at ht
      split at ht
      · rename_i b l _
        split at ht
        · simp only [Option.some.injEq, Prod.mk.injEq] at ht
          obtain ⟨rfl, rfl⟩ := ht
          by_cases hl : l = []
          · simp only [if_pos hl]
            exact ⟨_, kind_litHome h1, by simp [eff]⟩
          · simp only [if_neg hl]
            exact ⟨(r', .plain), by simp [kind, hl, h1], by simp [eff]⟩
        · simp at ht
      · simp at ht
  all_goals
    simp only [kind, trans] at h ht
    repeat' split at ht
    all_goals first
      | (exfalso; simp at ht; done)
      | (simp only [Option.some.injEq, Prod.mk.injEq] at ht
         obtain ⟨rfl, rfl⟩ := ht
         simp only [Option.some.injEq, Prod.mk.injEq] at h
         obtain ⟨rfl, rfl⟩ := h
         exact ⟨_, rfl, rfl⟩)
      | (simp only [Option.some.injEq, Prod.mk.injEq] at ht
         obtain ⟨rfl, rfl⟩ := ht
         simp only [Option.map_eq_some_iff, Prod.mk.injEq] at h
         obtain ⟨r', h1, rfl, rfl⟩ := h
         first
           | (refine ⟨_, kind_home h1, ?_⟩; simp [eff]; done)
           | (refine ⟨(r', .plain), ?_, ?_⟩ <;> simp [kind, eff, h1] <;> done)
           | (refine ⟨(r', .pi), ?_, ?_⟩ <;> simp [kind, eff, h1] <;> done))
      | (simp only [Option.some.injEq, Prod.mk.injEq] at ht
         obtain ⟨rfl, rfl⟩ := ht
         split at h
         · rename_i hn
           simp only [Option.some.injEq, Prod.mk.injEq] at h
           obtain ⟨rfl, rfl⟩ := h
           first
             | (subst hn; exact ⟨_, rfl, rfl⟩)
             | (rcases hn with rfl | rfl <;> exact ⟨_, rfl, rfl⟩)
         · simp at h)

/-! ## The invariant of a run -/

def topOf : Phase → Top → Prop
  | .plain, .none | .ename, .none => True
  | .aname, .attr _ | .aval, .attr _ => True
  | .pi, .pi _ => True
  | _, _ => False

structure Good (s : Abs) (b : Builder) (r : Region) (ph : Phase) : Prop where
  kind : kind s.ctl = some (r, ph)
  elems : r = .inside ↔ s.elems ≠ []
  top : topOf ph s.top
  k : s.k ≠ 0 → s.ctl.st = .etag1
  depth : s.elems.length = b.stack.length + (if ph = .ename then 1 else 0)
  attr : ph = .aval ↔ b.attr ≠ none
  started : b.started = false ↔ r = .before ∨ (ph = .ename ∧ b.stack = [])
  done : r = .after → b.done ≠ none

theorem trans_close {c c' : Ctl} {ch : UInt8} (ht : trans c ch = some (c', .elemclose)) :
    c'.st = .etag1 := by
  obtain ⟨st, nx, lit, q⟩ := c
  cases st <;> simp only [trans] at ht <;> repeat' split at ht
  all_goals simp at ht
  all_goals first | (subst ht; rfl) | (rw [← ht])

theorem trans_etag1 {c c' : Ctl} {ch : UInt8} {a : Act} (hc : c.st = .etag1)
    (ht : trans c ch = some (c', a)) : a = .elemclose ∨ a = .elemcloseend := by
  obtain ⟨st, nx, lit, q⟩ := c
  simp only at hc
  subst hc
  simp only [trans] at ht
  repeat' split at ht
  all_goals simp at ht
  all_goals simp [← ht.2]

def Sound (b : Builder) (t : Abs × Ret × Bytes) : Prop :=
  t.2.1.isError = false → ∃ b', build b t.2.1 t.2.2 = some b' ∧ ∃ r ph, Good t.1 b' r ph

/-- Steps that only change the control state or the data. -/
theorem Good.same {s : Abs} {b : Builder} {r : Region} {ph : Phase} (h : Good s b r ph) {c : Ctl}
    (hk : Xml.kind c = some (r, ph)) (h0 : s.k = 0) (d : Bytes) :
    Good { s with ctl := c, data := d } b r ph :=
  { kind := hk, elems := h.elems, top := h.top, k := fun h1 => absurd h0 h1, depth := h.depth
    attr := h.attr, started := h.started, done := h.done }

theorem close_good {s : Abs} {b : Builder} {l : List Bytes} {e : Bytes} (hk : Xml.kind s.ctl = some (.inside, .plain))
    (ht : s.top = .none) (he : s.elems = e :: l) (hd : s.elems.length = b.stack.length)
    (ha : b.attr = none) (hs : b.started = true) :
    ∃ b', build b .elemend [] = some b' ∧ ∃ r ph, Good (aclose s l).1 b' r ph := by
  simp only [build, closeFrame]
  rw [he] at hd
  match hb : b.stack, l with
  | [], _ => rw [hb] at hd; simp at hd
  | [f], [] =>
    refine ⟨_, rfl, .after, .plain, ?_⟩
    exact { kind := by simp [aclose, Xml.kind], elems := by simp [aclose], top := by simp [aclose, ht, topOf]
            k := by simp [aclose], depth := by simp [aclose], attr := by simp [ha]
            started := by simp [hs], done := by simp }
  | [f], _ :: _ => rw [hb] at hd; simp at hd
  | _ :: _ :: _, [] => rw [hb] at hd; simp at hd
  | f :: g :: m, n :: l =>
    refine ⟨_, rfl, .inside, .plain, ?_⟩
    exact { kind := by simp [aclose, hk], elems := by simp [aclose], top := by simp [aclose, ht, topOf]
            k := by simp [aclose], depth := by rw [hb] at hd; simpa [aclose] using hd, attr := by simp [ha]
            started := by simp [hs], done := by simp }

theorem perform_good {s : Abs} {b : Builder} {r : Region} {ph : Phase} (h : Good s b r ph)
    {c : Ctl} {a : Act} {ch : UInt8} (ht : trans s.ctl ch = some (c, a)) :
    ∃ t, aperform a { s with ctl := c } ch = some t ∧ Sound b t := by
  obtain ⟨κ, hk, he⟩ := trans_kind h.kind ht
  have h0 : a ≠ .elemclose → a ≠ .elemcloseend → s.k = 0 := by
    intro h1 h2
    apply Decidable.byContradiction
    intro h3
    rcases trans_etag1 (h.k h3) ht with h4 | h4
    · exact h1 h4
    · exact h2 h4
  have htop := h.top
  have hel := h.elems
  have hd := h.depth
  have hat := h.attr
  have hst := h.started
  cases a with
  | ok | refstart | datapi1 | datapi2 =>
    simp only [eff, decide_eq_true_eq] at he
    subst he
    exact ⟨_, rfl, fun _ => ⟨b, rfl, _, _, h.same hk (h0 (by simp) (by simp)) _⟩⟩
  | ref =>
    simp only [eff, decide_eq_true_eq] at he
    subst he
    refine ⟨_, rfl, ?_⟩
    dsimp only
    by_cases h7 : 7 ≤ s.data.length
    · rw [if_pos h7]; intro h1; simp [Ret.isError] at h1
    · rw [if_neg h7]
      exact fun _ => ⟨b, rfl, _, _, h.same hk (h0 (by simp) (by simp)) _⟩
  | datacontent | datacd1 | datacd2 =>
    simp only [eff, decide_eq_true_eq, Prod.mk.injEq] at he
    obtain ⟨⟨rfl, rfl⟩, rfl⟩ := he
    simp only [reduceCtorEq, if_false, Nat.add_zero] at hd
    refine ⟨_, rfl, fun _ => ?_⟩
    simp only [adata, build]
    match hb : b.stack with
    | [] =>
      rw [hb] at hd
      exact absurd (List.length_eq_zero_iff.mp hd) (hel.mp rfl)
    | f :: l =>
      refine ⟨_, rfl, .inside, .plain, ?_⟩
      have h1 := h.same hk (h0 (by simp) (by simp)) s.data
      exact { kind := h1.kind, elems := h1.elems, top := h1.top, k := h1.k
              depth := by simpa [hb] using hd
              attr := h1.attr
              started := by simpa [hb] using hst
              done := h1.done }
  | refcontent =>
    simp only [eff, decide_eq_true_eq, Prod.mk.injEq] at he
    obtain ⟨⟨rfl, rfl⟩, rfl⟩ := he
    simp only [reduceCtorEq, if_false, Nat.add_zero] at hd
    refine ⟨_, rfl, ?_⟩
    simp only [arefend]
    by_cases h7 : refRejected (refValue s.data)
    · rw [if_pos h7]; intro h1; simp [Ret.isError] at h1
    · rw [if_neg h7]
      intro _
      simp only [build]
      match hb : b.stack with
      | [] =>
        rw [hb] at hd
        exact absurd (List.length_eq_zero_iff.mp hd) (hel.mp rfl)
      | f :: l =>
        refine ⟨_, rfl, .inside, .plain, ?_⟩
        have h1 := h.same hk (h0 (by simp) (by simp)) s.data
        exact { kind := h1.kind, elems := h1.elems, top := h1.top, k := h1.k
                depth := by simpa [hb] using hd
                attr := h1.attr
                started := by simpa [hb] using hst
                done := h1.done }
  | dataattr =>
    simp only [eff, decide_eq_true_eq, Prod.mk.injEq] at he
    obtain ⟨⟨rfl, rfl⟩, rfl⟩ := he
    refine ⟨_, rfl, fun _ => ?_⟩
    simp only [adata, build]
    have h1 := h.same hk (h0 (by simp) (by simp)) s.data
    obtain ⟨v, hv⟩ := Option.ne_none_iff_exists'.mp (hat.mp rfl)
    rw [hv]
    refine ⟨_, rfl, .inside, .aval, ?_⟩
    exact { kind := h1.kind, elems := h1.elems, top := h1.top, k := h1.k, depth := h1.depth
            attr := by simp, started := h1.started, done := h1.done }
  | refattrval =>
    simp only [eff, decide_eq_true_eq, Prod.mk.injEq] at he
    obtain ⟨⟨rfl, rfl⟩, rfl⟩ := he
    refine ⟨_, rfl, ?_⟩
    simp only [arefend]
    by_cases h7 : refRejected (refValue s.data)
    · rw [if_pos h7]; intro h1; simp [Ret.isError] at h1
    · rw [if_neg h7]
      intro _
      simp only [build]
      have h1 := h.same hk (h0 (by simp) (by simp)) s.data
      obtain ⟨v, hv⟩ := Option.ne_none_iff_exists'.mp (hat.mp rfl)
      rw [hv]
      refine ⟨_, rfl, .inside, .aval, ?_⟩
      exact { kind := h1.kind, elems := h1.elems, top := h1.top, k := h1.k, depth := h1.depth
              attr := by simp, started := h1.started, done := h1.done }
  | elemstart =>
    simp only [eff, decide_eq_true_eq] at he
    obtain ⟨rfl, hr, rfl⟩ := he
    match htp : s.top with
    | .attr _ | .pi _ => rw [htp] at htop; simp [topOf] at htop
    | .none =>
      simp only [aperform, htp]
      refine ⟨_, rfl, fun _ => ⟨b, rfl, .inside, .ename, ?_⟩⟩
      simp only [reduceCtorEq, if_false, Nat.add_zero, false_and, or_false] at hd hst hat
      exact { kind := hk, elems := by simp, top := by simp [topOf], k := by simp
              depth := by simp [hd]
              attr := by simpa using hat
              started := by
                rw [hst]
                simp only [reduceCtorEq, true_and, false_or]
                cases r with
                | before =>
                  simp only [true_iff]
                  apply List.length_eq_zero_iff.mp
                  rw [← hd]
                  have := mt hel.mpr
                  simpa using this
                | inside =>
                  simp only [reduceCtorEq, false_iff]
                  intro h1
                  rw [h1] at hd
                  exact (hel.mp rfl) (List.length_eq_zero_iff.mp hd)
                | after => exact absurd rfl hr
              done := by simp }
  | attrstart =>
    simp only [eff, decide_eq_true_eq, Prod.mk.injEq] at he
    obtain ⟨⟨rfl, rfl⟩, rfl⟩ := he
    match htp : s.top with
    | .attr _ | .pi _ => rw [htp] at htop; simp [topOf] at htop
    | .none =>
      simp only [aperform, htp]
      refine ⟨_, rfl, fun _ => ⟨b, rfl, .inside, .aname, ?_⟩⟩
      exact { kind := hk, elems := hel, top := by simp [topOf], k := fun h1 => absurd (h0 (by simp) (by simp)) h1
              depth := by simpa using hd, attr := by simpa using hat, started := by simpa using hst, done := by simp }
  | pistart =>
    simp only [eff, decide_eq_true_eq] at he
    obtain ⟨rfl, rfl⟩ := he
    match htp : s.top with
    | .attr _ | .pi _ => rw [htp] at htop; simp [topOf] at htop
    | .none =>
      simp only [aperform, htp]
      refine ⟨_, rfl, fun _ => ⟨b, rfl, r, .pi, ?_⟩⟩
      exact { kind := hk, elems := hel, top := by simp [topOf], k := fun h1 => absurd (h0 (by simp) (by simp)) h1
              depth := by simpa using hd, attr := by simpa using hat, started := by simpa using hst, done := h.done }
  | elemname =>
    simp only [eff, decide_eq_true_eq, Prod.mk.injEq] at he
    obtain ⟨⟨rfl, rfl⟩, rfl⟩ := he
    match htp : s.top, hes : s.elems with
    | .attr _, _ | .pi _, _ => rw [htp] at htop; simp [topOf] at htop
    | .none, [] => exact absurd hes (hel.mp rfl)
    | .none, e :: l =>
      simp only [aperform, htp, hes]
      refine ⟨_, rfl, fun _ => ⟨b, rfl, .inside, .ename, ?_⟩⟩
      exact { kind := hk, elems := by simp, top := by simp [topOf], k := fun h1 => absurd (h0 (by simp) (by simp)) h1
              depth := by rw [hes] at hd; simpa using hd, attr := hat, started := hst, done := h.done }
  | attrname =>
    simp only [eff, decide_eq_true_eq, Prod.mk.injEq] at he
    obtain ⟨⟨rfl, rfl⟩, rfl⟩ := he
    match htp : s.top with
    | .none | .pi _ => rw [htp] at htop; simp [topOf] at htop
    | .attr t =>
      simp only [aperform, htp]
      refine ⟨_, rfl, fun _ => ⟨b, rfl, .inside, .aname, ?_⟩⟩
      exact { kind := hk, elems := hel, top := by simp [topOf], k := fun h1 => absurd (h0 (by simp) (by simp)) h1
              depth := hd, attr := hat, started := hst, done := h.done }
  | piname =>
    simp only [eff, decide_eq_true_eq] at he
    obtain ⟨rfl, rfl⟩ := he
    match htp : s.top with
    | .none | .attr _ => rw [htp] at htop; simp [topOf] at htop
    | .pi t =>
      simp only [aperform, htp]
      refine ⟨_, rfl, fun _ => ⟨b, rfl, r, .pi, ?_⟩⟩
      exact { kind := hk, elems := hel, top := by simp [topOf], k := fun h1 => absurd (h0 (by simp) (by simp)) h1
              depth := hd, attr := hat, started := hst, done := h.done }
  | pinameend =>
    simp only [eff, decide_eq_true_eq] at he
    obtain ⟨rfl, rfl⟩ := he
    match htp : s.top with
    | .none | .attr _ => rw [htp] at htop; simp [topOf] at htop
    | .pi t =>
      simp only [aperform, htp]
      refine ⟨_, rfl, ?_⟩
      by_cases hx : isXmlName t
      · intro h1; simp [hx, Ret.isError] at h1
      · simp only [hx, Bool.false_eq_true, if_false]
        refine fun _ => ⟨b, rfl, r, .pi, ?_⟩
        exact { kind := hk, elems := hel, top := by simp [topOf]
                k := fun h1 => absurd (h0 (by simp) (by simp)) h1
                depth := hd, attr := hat, started := hst, done := h.done }
  | piabort =>
    simp only [eff, decide_eq_true_eq] at he
    obtain ⟨rfl, rfl⟩ := he
    match htp : s.top with
    | .none | .attr _ => rw [htp] at htop; simp [topOf] at htop
    | .pi t =>
      simp only [aperform, htp]
      refine ⟨_, rfl, fun _ => ⟨b, rfl, r, .plain, ?_⟩⟩
      exact { kind := hk, elems := hel, top := by simp [topOf], k := fun h1 => absurd (h0 (by simp) (by simp)) h1
              depth := by simpa using hd, attr := by simpa using hat, started := by simpa using hst, done := h.done }
  | pivalend =>
    simp only [eff, decide_eq_true_eq] at he
    obtain ⟨rfl, rfl⟩ := he
    match htp : s.top with
    | .none | .attr _ => rw [htp] at htop; simp [topOf] at htop
    | .pi t =>
      simp only [aperform, htp]
      refine ⟨_, rfl, fun _ => ⟨b, rfl, r, .plain, ?_⟩⟩
      exact { kind := hk, elems := hel, top := by simp [topOf], k := fun h1 => absurd (h0 (by simp) (by simp)) h1
              depth := by simpa using hd, attr := by simpa using hat, started := by simpa using hst, done := h.done }
  | elemnameend =>
    simp only [eff, decide_eq_true_eq, Prod.mk.injEq] at he
    obtain ⟨⟨rfl, rfl⟩, rfl⟩ := he
    match htp : s.top, hes : s.elems with
    | .attr _, _ | .pi _, _ => rw [htp] at htop; simp [topOf] at htop
    | .none, [] => exact absurd hes (hel.mp rfl)
    | .none, e :: l =>
      have hk0 := h0 (by simp) (by simp)
      simp only [aperform, htp, hes, hk0, if_true]
      refine ⟨_, rfl, fun _ => ?_⟩
      simp only [if_true, reduceCtorEq, false_or, true_and] at hd hst
      simp only [build]
      rw [if_neg (by
        simp only [Bool.and_eq_true, not_and, List.isEmpty_iff]
        intro h1 h2
        rw [hst.mpr h2] at h1
        simp at h1)]
      refine ⟨_, rfl, .inside, .plain, ?_⟩
      rw [hes] at hd
      exact { kind := hk, elems := by simp, top := by simp [topOf], k := by simp
              depth := by simpa using hd
              attr := by simpa using hat, started := by simp, done := by simp }
  | attrnameend =>
    simp only [eff, decide_eq_true_eq, Prod.mk.injEq] at he
    obtain ⟨⟨rfl, rfl⟩, rfl⟩ := he
    match htp : s.top with
    | .none | .pi _ => rw [htp] at htop; simp [topOf] at htop
    | .attr t =>
      refine ⟨_, rfl, fun _ => ⟨_, rfl, .inside, .aval, ?_⟩⟩
      exact { kind := hk, elems := hel, top := by simp [topOf], k := fun h1 => absurd (h0 (by simp) (by simp)) h1
              depth := by simpa using hd, attr := by simp, started := by simpa using hst, done := by simp }
  | attrvalend =>
    simp only [eff, decide_eq_true_eq, Prod.mk.injEq] at he
    obtain ⟨⟨rfl, rfl⟩, rfl⟩ := he
    match htp : s.top with
    | .none | .pi _ => rw [htp] at htop; simp [topOf] at htop
    | .attr t =>
      simp only [aperform, htp]
      refine ⟨_, rfl, fun _ => ?_⟩
      simp only [build]
      obtain ⟨v, hv⟩ := Option.ne_none_iff_exists'.mp (hat.mp rfl)
      simp only [reduceCtorEq, if_false, Nat.add_zero] at hd
      match hb : b.stack with
      | [] =>
        rw [hb] at hd
        exact absurd (List.length_eq_zero_iff.mp hd) (hel.mp rfl)
      | f :: l =>
        rw [hv]
        refine ⟨_, rfl, .inside, .plain, ?_⟩
        exact { kind := hk, elems := hel, top := by simp [topOf], k := fun h1 => absurd (h0 (by simp) (by simp)) h1
                depth := by simpa [hb] using hd
                attr := by simp
                started := by simpa [hb] using hst
                done := by simp }
  | selfclose =>
    simp only [eff, decide_eq_true_eq, Prod.mk.injEq] at he
    obtain ⟨⟨rfl, rfl⟩, rfl⟩ := he
    match htp : s.top, hes : s.elems with
    | .attr _, _ | .pi _, _ => rw [htp] at htop; simp [topOf] at htop
    | .none, [] => exact absurd hes (hel.mp rfl)
    | .none, e :: l =>
      simp only [aperform, htp, hes]
      refine ⟨_, rfl, fun _ => ?_⟩
      exact close_good (s := ⟨c, s.ignore, s.data, e :: l, .none, s.k⟩) hk rfl rfl (by rw [hes] at hd; simpa using hd)
        (by simpa using hat) (by simpa using hst)
  | elemclose =>
    simp only [eff, decide_eq_true_eq, Prod.mk.injEq] at he
    obtain ⟨⟨rfl, rfl⟩, rfl⟩ := he
    match htp : s.top, hes : s.elems with
    | .attr _, _ | .pi _, _ => rw [htp] at htop; simp [topOf] at htop
    | .none, [] => exact absurd hes (hel.mp rfl)
    | .none, e :: l =>
      simp only [aperform, htp, hes]
      refine ⟨_, rfl, ?_⟩
      split
      · refine fun _ => ⟨b, rfl, .inside, .plain, ?_⟩
        exact { kind := hk, elems := by simp, top := by simp [topOf], k := fun _ => trans_close ht
                depth := by rw [hes] at hd; exact hd, attr := hat, started := hst, done := h.done }
      · intro h1; simp [Ret.isError] at h1
  | elemcloseend =>
    simp only [eff, decide_eq_true_eq, Prod.mk.injEq] at he
    obtain ⟨⟨rfl, rfl⟩, rfl⟩ := he
    match htp : s.top, hes : s.elems with
    | .attr _, _ | .pi _, _ => rw [htp] at htop; simp [topOf] at htop
    | .none, [] => exact absurd hes (hel.mp rfl)
    | .none, e :: l =>
      simp only [aperform, htp, hes]
      refine ⟨_, rfl, ?_⟩
      split
      · intro _
        exact close_good (s := ⟨c, s.ignore, s.data, e :: l, .none, s.k⟩) hk rfl rfl (by rw [hes] at hd; simpa using hd)
          (by simpa using hat) (by simpa using hst)
      · intro h1; simp [Ret.isError] at h1

theorem step_good {s : Abs} {b : Builder} {r : Region} {ph : Phase} (h : Good s b r ph) (ch : UInt8) :
    ∃ t, astep s ch = some t ∧ Sound b t := by
  unfold astep
  by_cases h0 : ch = 0
  · rw [if_pos h0]; exact ⟨_, rfl, fun h1 => by simp [Ret.isError] at h1⟩
  · rw [if_neg h0]
    have hi : ∀ i, Good { s with ignore := i } b r ph := fun i =>
      { kind := h.kind, elems := h.elems, top := h.top, k := h.k, depth := h.depth
        attr := h.attr, started := h.started, done := h.done }
    by_cases h1 : s.ignore = ch
    · rw [if_pos h1]; exact ⟨_, rfl, fun _ => ⟨b, rfl, r, ph, hi 0⟩⟩
    · rw [if_neg h1]
      unfold afeed
      generalize (if ch = 0x0d then (0x0a : UInt8) else ch) = c
      dsimp only
      match ht : trans s.ctl c with
      | none => exact ⟨_, rfl, fun h1 => by simp [Ret.isError] at h1⟩
      | some (c', a) => exact perform_good (hi _) ht

/-! ## The loop on lists -/

def ahandle (b : Builder) (t : Abs × Ret × Bytes) : Option (Except Ret (Abs × Builder)) :=
  if t.2.1.isError then some (.error t.2.1) else (build b t.2.1 t.2.2).map fun b => .ok (t.1, b)

def aloop (s : Abs) (b : Builder) : Bytes → Option (Except Ret (Abs × Builder))
  | [] => some (.ok (s, b))
  | ch :: l => ((astep s ch).bind (ahandle b)).bind fun
      | .error r => some (.error r)
      | .ok (s, b) => aloop s b l

def astart : Abs :=
  { ctl := { st := .init, next := .string, lit := [], quote := 0 }, ignore := 0, data := [], elems := [], top := .none
    k := 0 }

theorem good_start : Good astart emptyBuilder .before .plain :=
  { kind := rfl, elems := by simp [astart], top := trivial, k := by simp [astart], depth := rfl
    attr := by simp [emptyBuilder], started := by simp [emptyBuilder], done := by simp }

theorem ahandle_good {b : Builder} {t : Abs × Ret × Bytes} (h : Sound b t) :
    (t.2.1.isError = true ∧ ahandle b t = some (.error t.2.1)) ∨
      ∃ b' r ph, t.2.1.isError = false ∧ build b t.2.1 t.2.2 = some b' ∧
        ahandle b t = some (.ok (t.1, b')) ∧ Good t.1 b' r ph := by
  unfold ahandle
  by_cases he : t.2.1.isError = true
  · left; rw [if_pos he]; exact ⟨he, rfl⟩
  · right
    rw [if_neg he]
    have he' : t.2.1.isError = false := by simpa using he
    obtain ⟨b', h1, r, ph, h2⟩ := h he'
    exact ⟨b', r, ph, he', h1, by rw [h1]; rfl, h2⟩

theorem aloop_good {s : Abs} {b : Builder} {r : Region} {ph : Phase} (h : Good s b r ph) (l : Bytes) :
    (∃ e, aloop s b l = some (.error e)) ∨
      ∃ s' b' r' ph', aloop s b l = some (.ok (s', b')) ∧ Good s' b' r' ph' := by
  induction l generalizing s b r ph with
  | nil => right; exact ⟨s, b, r, ph, rfl, h⟩
  | cons ch l ih =>
    obtain ⟨t, h1, h2⟩ := step_good h ch
    unfold aloop
    rw [h1]
    simp only [Option.bind_some]
    rcases ahandle_good h2 with ⟨_, h3⟩ | ⟨b', r', ph', _, _, h3, h4⟩
    · left; rw [h3]; exact ⟨_, rfl⟩
    · rw [h3]; exact ih h4

/-! ## The loop on the buffer follows it -/

theorem step_ok {p : Parser} {s : Abs} {ch : UInt8} {t : Abs × Ret × Bytes}
    (h : Rel p s) (ha : astep s ch = some t) : ∃ q, step p ch = some q ∧ Agrees p s q t := by
  unfold astep at ha
  unfold step
  by_cases h0 : ch = 0
  · rw [if_pos h0] at ha ⊢
    simp only [Option.some.injEq] at ha; subst ha
    exact ⟨_, rfl, Or.inr ⟨rfl, fun h1 => by simp [Ret.isError] at h1⟩⟩
  · rw [if_neg h0] at ha ⊢
    rw [h.ignore]
    by_cases h1 : s.ignore = ch
    · rw [if_pos h1] at ha ⊢
      simp only [Option.some.injEq] at ha; subst ha
      exact ⟨_, rfl, Or.inr ⟨rfl, fun _ => ⟨h.withIgnore 0, rfl, rfl⟩⟩⟩
    · rw [if_neg h1] at ha ⊢
      have hc : (if ch = 0x0d then (0x0a : UInt8) else ch) ≠ 0 := by
        by_cases h2 : ch = 0x0d
        · rw [if_pos h2]; decide
        · rw [if_neg h2]; exact h0
      generalize (if ch = 0x0d then (0x0a : UInt8) else ch) = c at ha hc ⊢
      unfold afeed at ha
      unfold feed
      dsimp only at ha ⊢
      rw [h.ctl]
      match ht : trans s.ctl c with
      | none =>
        rw [ht] at ha
        simp only [Option.some.injEq] at ha; subst ha
        exact ⟨_, rfl, Or.inr ⟨rfl, fun h1 => by simp [Ret.isError] at h1⟩⟩
      | some (c', a) =>
        rw [ht] at ha
        simp only at ha ⊢
        obtain ⟨q, h2, h3⟩ := perform_ok ((h.withIgnore (if ch = 0x0d then 0x0a else 0)).withCtl c') hc ha
        exact ⟨q, h2, h3⟩

/-- How the loop on the buffer ends, given how the loop on lists ends. -/
def Ends (p : Parser) (s : Abs) (l : Bytes) (o : Outcome) (x : Except Ret (Abs × Builder)) : Prop :=
  (o = .error .estack ∧ p.mem.buf.length < (encS s.names).length + 2 * l.length) ∨
    match x with
    | .error e => o = .error e ∧ e ≠ .estack
    | .ok (s', b') => ∃ p', o = .done p' b' ∧ Rel p' s'

theorem encS_append (l m : List Bytes) : (encS (l ++ m)).length + 1 = (encS l).length + (encS m).length := by
  induction l with
  | nil => simp [encS]; omega
  | cons n l ih => simp [encS] at ih ⊢; omega

theorem perform_grow {a : Act} {s : Abs} {ch : UInt8} {t : Abs × Ret × Bytes}
    (ha : aperform a s ch = some t) :
    (encS t.1.names).length ≤ (encS s.names).length + 2 ∧ t.2.1 ≠ .estack := by
  cases a <;> simp only [aperform] at ha <;> repeat' split at ha
  all_goals first
    | (exfalso; simp at ha; done)
    | (simp only [Option.some.injEq] at ha; subst ha
       simp_all [Abs.names, encS, aclose, arefend, adata] <;> done)
    | (simp only [Option.some.injEq] at ha; subst ha
       simp_all [Abs.names, encS, aclose, arefend, adata]; omega)
    | (simp only [Option.some.injEq] at ha; subst ha
       simp only [arefend]; split <;> simp [Abs.names])

theorem step_grow {s : Abs} {ch : UInt8} {t : Abs × Ret × Bytes} (ha : astep s ch = some t) :
    (encS t.1.names).length ≤ (encS s.names).length + 2 ∧ t.2.1 ≠ .estack := by
  unfold astep at ha
  split at ha
  · simp only [Option.some.injEq] at ha; subst ha; exact ⟨by simp, by simp⟩
  · split at ha
    · simp only [Option.some.injEq] at ha; subst ha
      exact ⟨Nat.le_trans (Nat.le_of_eq rfl) (Nat.le_add_right _ 2), by simp⟩
    · unfold afeed at ha
      split at ha
      · have hg := perform_grow ha
        exact hg
      · simp only [Option.some.injEq] at ha; subst ha
        exact ⟨Nat.le_trans (Nat.le_of_eq rfl) (Nat.le_add_right _ 2), by simp⟩

theorem loop_ok {p : Parser} {s : Abs} {b : Builder} {r : Region} {ph : Phase}
    (h : Rel p s) (hg : Good s b r ph) (l : Bytes) :
    ∃ o x, loop p b l = some o ∧ aloop s b l = some x ∧ Ends p s l o x := by
  induction l generalizing p s b r ph with
  | nil => exact ⟨_, _, rfl, rfl, Or.inr ⟨p, rfl, h⟩⟩
  | cons ch l ih =>
    obtain ⟨t, h1, h2⟩ := step_good hg ch
    obtain ⟨q, h3, h4⟩ := step_ok h h1
    obtain ⟨h5, h6⟩ := step_grow h1
    unfold loop aloop
    rw [h1, h3]
    simp only [Option.bind_some]
    rcases h4 with ⟨h7, h8⟩ | ⟨h7, h8⟩
    · -- the buffer is full
      have hh : handle b q = some (.error .estack) := by simp [handle, h7, Ret.isError]
      rw [hh]
      simp only [Option.bind_some]
      rcases ahandle_good h2 with ⟨_, h9⟩ | ⟨b', r', ph', _, _, h9, h10⟩
      · rw [h9]
        exact ⟨_, _, rfl, rfl, Or.inl ⟨rfl, by simp only [List.length_cons]; omega⟩⟩
      · rw [h9]
        simp only [Option.bind_some]
        rcases aloop_good h10 l with ⟨e, he⟩ | ⟨s', b'', _, _, he, _⟩
        · exact ⟨_, _, rfl, he, Or.inl ⟨rfl, by simp only [List.length_cons]; omega⟩⟩
        · exact ⟨_, _, rfl, he, Or.inl ⟨rfl, by simp only [List.length_cons]; omega⟩⟩
    · rcases ahandle_good h2 with ⟨he, h9⟩ | ⟨b', r', ph', he, hb, h9, h10⟩
      · have hh : handle b q = some (.error t.2.1) := by simp [handle, h7, he]
        rw [hh, h9]
        exact ⟨_, _, rfl, rfl, Or.inr ⟨rfl, h6⟩⟩
      · obtain ⟨hr, ht, hlen⟩ := h8 he
        have hh : handle b q = some (.ok (q.1, b')) := by
          unfold handle
          rw [h7, if_neg (by simp [he])]
          rw [h7] at ht
          rw [ht]
          simp [hb]
        rw [hh, h9]
        simp only [Option.bind_some]
        obtain ⟨o, x, h11, h12, h13⟩ := ih hr h10
        refine ⟨o, x, h11, h12, ?_⟩
        rcases h13 with ⟨h14, h15⟩ | h14
        · left
          refine ⟨h14, ?_⟩
          simp only [List.length_cons]; omega
        · exact Or.inr h14

theorem init_rel (junk : Nat → UInt8) {size : Nat} (h : 0 < size) :
    ∃ p, initParser junk size = some p ∧ Rel p astart ∧ p.mem.buf.length = size := by
  obtain ⟨n, rfl⟩ : ∃ n, size = n + 1 := ⟨size - 1, by omega⟩
  unfold initParser
  have hs : store ((List.range (n + 1)).map junk) 0 0 = some (0 :: ((List.range (n + 1)).map junk).tail) := by
    unfold store
    rw [if_pos (by simp)]
    rw [List.range_succ_eq_map]
    simp
  rw [hs]
  refine ⟨_, rfl, ?_, by simp⟩
  exact { ctl := rfl, ignore := rfl, data := rfl, buf := ⟨_, rfl⟩, len := rfl, elem := by simp [astart]
          attr := by simp [astart], pi := by simp [astart], ok := by simp [astart, Abs.names] }

/-- The result of the loop on lists. -/
def aparse (xml : Bytes) : Option Node :=
  match aloop astart emptyBuilder xml with
  | some (.ok (s, b)) => if s.ctl.st = .misc3 then b.done else none
  | _ => none

theorem once_ok (junk : Nat → UInt8) {size : Nat} (h : 0 < size) (xml : Bytes) :
    (parseOnce junk size xml = some (.estack, none) ∧ size < 1 + 2 * xml.length) ∨
      ∃ r, r ≠ .estack ∧ parseOnce junk size xml = some (r, aparse xml) := by
  obtain ⟨p, h1, h2, h3⟩ := init_rel junk h
  obtain ⟨o, x, h4, h5, h6⟩ := loop_ok h2 good_start xml
  unfold parseOnce aparse
  rw [h1, h5]
  simp only [Option.bind_some, h4, Option.map_some]
  rcases h6 with ⟨h7, h8⟩ | h7
  · left
    subst h7
    exact ⟨rfl, by rw [h3] at h8; exact h8⟩
  · right
    match x, h7 with
    | .error e, ⟨h8, h9⟩ => subst h8; exact ⟨e, h9, rfl⟩
    | .ok (s', b'), ⟨p', h8, h9⟩ =>
      subst h8
      refine ⟨.ok, by simp, ?_⟩
      simp [atEnd, h9.ctl]

theorem from_ok (junk : Nat → UInt8) (n : Nat) {size : Nat} (h : 0 < size) (xml : Bytes)
    (hf : 1 + 2 * xml.length ≤ size * 2 ^ n) : parseFrom junk (n + 1) size xml = some (aparse xml) := by
  induction n generalizing size with
  | zero =>
    unfold parseFrom
    rcases once_ok junk h xml with ⟨h1, h2⟩ | ⟨r, h1, h2⟩
    · simp at hf; omega
    · rw [h2]
      cases r <;> simp at h1 ⊢
  | succ n ih =>
    unfold parseFrom
    rcases once_ok junk h xml with ⟨h1, h2⟩ | ⟨r, h1, h2⟩
    · rw [h1]
      simp only [Option.bind_some]
      refine ih (by omega) ?_
      rw [Nat.mul_assoc, ← Nat.pow_succ']
      exact hf
    · rw [h2]
      cases r <;> simp at h1 ⊢

theorem parse_ok (junk : Nat → UInt8) (fuel : Nat) (xml : Bytes) (hf : xml.length < fuel) :
    parse junk fuel xml = some (aparse xml) := by
  unfold parse
  by_cases h0 : xml.length = 0
  · rw [if_pos h0]
    obtain rfl := List.length_eq_zero_iff.mp h0
    rfl
  · rw [if_neg h0]
    obtain ⟨n, rfl⟩ : ∃ n, fuel = n + 1 := ⟨fuel - 1, by omega⟩
    refine from_ok junk n (by decide) xml ?_
    have h1 : n < 2 ^ n := Nat.lt_two_pow_self
    omega

end Duck.Xml
