import Verif.Lemmas.XmlDoc

/-! # Helper lemmas for XML: line ends, and documents that are rejected -/

namespace Duck.Xml

def outcome : Option (Except Ret (Abs × Builder)) → Option Node
  | some (.ok (s, b)) => if s.ctl.st = .misc3 then b.done else none
  | _ => none

theorem aparse_eq (xml : Bytes) : aparse xml = outcome (aloop astart emptyBuilder xml) := rfl

/-! ## Line ends -/

def setIgn (i : UInt8) (t : Abs × Ret × Bytes) : Abs × Ret × Bytes := ({ t.1 with ignore := i }, t.2)

theorem aperform_ign (a : Act) (s : Abs) (i : UInt8) (ch : UInt8) :
    aperform a { s with ignore := i } ch = (aperform a s ch).map (setIgn i) := by
  obtain ⟨c, ig, d, es, top, k⟩ := s
  cases a <;> cases top <;> cases es <;> simp [aperform, setIgn, adata, aclose] <;> (try split) <;>
    simp [arefend] <;> (try split) <;> rfl

theorem afeed_ign (s : Abs) (i : UInt8) (ch : UInt8) :
    afeed { s with ignore := i } ch = (afeed s ch).map (setIgn i) := by
  unfold afeed
  dsimp only
  match trans s.ctl ch with
  | none => rfl
  | some (c, a) =>
    simp only
    exact aperform_ign a { s with ctl := c } i ch

theorem ahandle_ign (b : Builder) (t : Abs × Ret × Bytes) (i : UInt8) :
    ahandle b (setIgn i t) = (ahandle b t).map fun
      | .error r => .error r
      | .ok (s, b) => .ok ({ s with ignore := i }, b) := by
  unfold ahandle setIgn
  by_cases h : t.2.1.isError = true
  · simp [h]
  · simp only [h]
    cases build b t.2.1 t.2.2 <;> simp

/-- A pending line feed does not matter if the next byte is none. -/
theorem ign_same (s : Abs) (b : Builder) (l : Bytes) (h : l.head? ≠ some 0x0a) :
    outcome (aloop { s with ignore := 0x0a } b l) = outcome (aloop { s with ignore := 0 } b l) := by
  cases l with
  | nil => rfl
  | cons ch l =>
    have hc : ch ≠ 0x0a := by simpa using h
    unfold aloop astep
    dsimp only
    by_cases h0 : ch = 0
    · subst h0; rfl
    · have h1 : ¬ (0x0a = ch) := fun h => hc h.symm
      have h2 : ¬ (0 = ch) := fun h => h0 h.symm
      simp only [h0, h1, h2, if_false]

theorem normLines_cons {ch : UInt8} (l : Bytes) (h : ch ≠ 0x0d) : normLines (ch :: l) = ch :: normLines l := by
  cases l with
  | nil => simp [normLines, h]
  | cons c l =>
    rw [normLines]
    · rw [if_neg h]
    · simp
    · rintro _ rfl; exact absurd rfl h

theorem normLines_cr (l : Bytes) (h : l.head? ≠ some 0x0a) : normLines (0x0d :: l) = 0x0a :: normLines l := by
  cases l with
  | nil => rfl
  | cons c l =>
    rw [normLines]
    · rfl
    · simp
    · intro l' _ h2
      simp only [List.cons.injEq] at h2
      exact h (by simp [h2.1])

theorem aloop_cr {s : Abs} (hs : s.ignore = 0) (b : Builder) (l : Bytes) :
    aloop s b (0x0d :: l) = ((afeed s 0x0a).bind (ahandle b)).bind fun
      | .error r => some (.error r)
      | .ok (s, b) => aloop { s with ignore := 0x0a } b l := by
  conv => lhs; unfold aloop astep
  rw [if_neg (by decide), hs, if_neg (by decide), if_pos rfl, if_pos rfl, afeed_ign]
  cases afeed s 0x0a with
  | none => rfl
  | some t =>
    simp only [Option.map_some, Option.bind_some, ahandle_ign]
    match ahandle b t with
    | none => rfl
    | some (.error r) => rfl
    | some (.ok (s, b)) => rfl

theorem aloop_plain {s : Abs} (hs : s.ignore = 0) (b : Builder) {ch : UInt8} (h0 : ch ≠ 0) (h : ch ≠ 0x0d) (l : Bytes) :
    aloop s b (ch :: l) = ((afeed s ch).bind (ahandle b)).bind fun
      | .error r => some (.error r)
      | .ok (s, b) => aloop { s with ignore := 0 } b l := by
  conv => lhs; unfold aloop astep
  rw [if_neg h0, hs, if_neg (fun h => h0 h.symm), if_neg h, if_neg h]
  have : afeed { s with ignore := 0 } ch = (afeed s ch).map (setIgn 0) := afeed_ign s 0 ch
  rw [this]
  cases afeed s ch with
  | none => rfl
  | some t =>
    simp only [Option.map_some, Option.bind_some, ahandle_ign]
    match ahandle b t with
    | none => rfl
    | some (.error r) => rfl
    | some (.ok (s, b)) => rfl

theorem lines_same (l : Bytes) (s : Abs) (b : Builder) (hs : s.ignore = 0) :
    outcome (aloop s b l) = outcome (aloop s b (normLines l)) := by
  match l with
  | [] => rfl
  | ch :: l =>
    by_cases h0 : ch = 0
    · subst h0
      rw [normLines_cons _ (by decide)]
      rfl
    by_cases h : ch = 0x0d
    · subst h
      match hl : l.head? with
      | some c =>
        by_cases hc : c = 0x0a
        · subst hc
          obtain ⟨l', rfl⟩ : ∃ l', l = 0x0a :: l' := by
            cases l with
            | nil => simp at hl
            | cons x l => simp at hl; exact ⟨l, by rw [hl]⟩
          rw [aloop_cr hs, normLines, aloop_plain hs b (by decide) (by decide)]
          match (afeed s 0x0a).bind (ahandle b) with
          | none => rfl
          | some (.error r) => rfl
          | some (.ok (s', b')) =>
            simp only [Option.bind_some]
            have : aloop { s' with ignore := 0x0a } b' (0x0a :: l') = aloop { s' with ignore := 0 } b' l' := by
              conv => lhs; unfold aloop astep
              rfl
            rw [this]
            exact lines_same l' _ b' rfl
        · have hn : l.head? ≠ some 0x0a := by rw [hl]; simpa using hc
          rw [aloop_cr hs, normLines_cr l hn, aloop_plain hs b (by decide) (by decide)]
          match (afeed s 0x0a).bind (ahandle b) with
          | none => rfl
          | some (.error r) => rfl
          | some (.ok (s', b')) =>
            simp only [Option.bind_some]
            rw [ign_same s' b' l hn]
            exact lines_same l _ b' rfl
      | none =>
        have hn : l.head? ≠ some 0x0a := by rw [hl]; simp
        rw [aloop_cr hs, normLines_cr l hn, aloop_plain hs b (by decide) (by decide)]
        match (afeed s 0x0a).bind (ahandle b) with
        | none => rfl
        | some (.error r) => rfl
        | some (.ok (s', b')) =>
          simp only [Option.bind_some]
          rw [ign_same s' b' l hn]
          exact lines_same l _ b' rfl
    · rw [normLines_cons _ h, aloop_plain hs b h0 h, aloop_plain hs b h0 h]
      match (afeed s ch).bind (ahandle b) with
      | none => rfl
      | some (.error r) => rfl
      | some (.ok (s', b')) =>
        simp only [Option.bind_some]
        exact lines_same l _ b' rfl
termination_by l.length

theorem aparse_lines (xml : Bytes) : aparse xml = aparse (normLines xml) := lines_same xml astart emptyBuilder rfl

/-! ## Ends too early -/

theorem build_over {b b' : Builder} {r : Ret} {t : Bytes} (h : b.started = true) (h' : b.stack = [])
    (hb : build b r t = some b') : b'.started = true ∧ b'.stack = [] := by
  cases r <;> simp [build, closeFrame, h, h'] at hb
  all_goals first
    | (subst hb; exact ⟨h, h'⟩)
    | (subst hb; exact ⟨rfl, rfl⟩)
    | (obtain ⟨_, _, rfl⟩ := hb; exact ⟨rfl, rfl⟩)

theorem over_stays {s s' : Abs} {b b' : Builder} {l : Bytes} (h : b.started = true) (h' : b.stack = [])
    (hr : aloop s b l = some (.ok (s', b'))) : b'.stack = [] := by
  induction l generalizing s b with
  | nil =>
    simp only [aloop, Option.some.injEq, Except.ok.injEq, Prod.mk.injEq] at hr
    rw [← hr.2]; exact h'
  | cons ch l ih =>
    unfold aloop at hr
    cases ha : astep s ch with
    | none => rw [ha] at hr; simp at hr
    | some t =>
      rw [ha] at hr
      simp only [Option.bind_some, ahandle] at hr
      by_cases he : t.2.1.isError = true
      · rw [if_pos he] at hr; simp at hr
      · rw [if_neg he] at hr
        cases hb : build b t.2.1 t.2.2 with
        | none => rw [hb] at hr; simp at hr
        | some b1 =>
          rw [hb] at hr
          simp only [Option.map_some, Option.bind_some] at hr
          have h1 := build_over h h' hb
          exact ih h1.1 h1.2 hr

/-- If all of `l` leaves an element open, no beginning of `l` is a document. -/
theorem prefix_none {l m : Bytes} {s : Abs} {b : Builder} (h : aloop astart emptyBuilder (l ++ m) = some (.ok (s, b)))
    (hb : b.stack ≠ []) : aparse l = none := by
  rw [aparse_eq]
  rcases aloop_good good_start l with ⟨e, he⟩ | ⟨s', b', r, ph, he, hg⟩
  · rw [he]; rfl
  · rw [he]
    unfold outcome
    dsimp only
    split
    · rename_i hst
      rw [aloop_append, he] at h
      simp only [Option.bind_some] at h
      have hk := hg.kind
      have hk' : kind s'.ctl = some (.after, .plain) := by
        unfold kind; rw [hst]
      rw [hk'] at hk
      simp only [Option.some.injEq, Prod.mk.injEq] at hk
      obtain ⟨rfl, rfl⟩ := hk
      have he : s'.elems = [] := by
        apply Decidable.byContradiction
        intro h1
        exact absurd (hg.elems.mpr h1) (by simp)
      have hd := hg.depth
      rw [he] at hd
      simp at hd
      cases hs : b'.started with
      | true => exact absurd (over_stays hs (List.length_eq_zero_iff.mp hd.symm) h) hb
      | false =>
        have := hg.started
        simp_all
    · rfl

/-! ## Errors -/

theorem error_none {l m : Bytes} {st nx : St} {lit : Bytes} {q : UInt8} {d : Bytes} {es : List Bytes} {top : Top} {k : Nat}
    {b : Builder} {e : Ret} (h : Runs astart emptyBuilder l (S st nx lit q d es top k) b)
    (he : aloop (S st nx lit q d es top k) b m = some (.error e)) : aparse (l ++ m) = none := by
  rw [aparse_eq, aloop_append, h]
  simp only [Option.bind_some, he]
  rfl

/-- One byte that is an error. -/
theorem err1 {st nx : St} {lit : Bytes} {q : UInt8} {d : Bytes} {es : List Bytes} {top : Top} {k : Nat}
    {b : Builder} {ch : UInt8} {m : Bytes} {c : Ctl} {a : Act} {r : Ret} (hp : Plain ch)
    (ht : trans ⟨st, nx, lit, q⟩ ch = some (c, a)) (ha : (aperform a ⟨c, 0, d, es, top, k⟩ ch).map (·.2.1) = some r)
    (hr : r.isError = true) : aloop (S st nx lit q d es top k) b (ch :: m) = some (.error r) := by
  unfold aloop astep
  rw [if_neg hp.1, if_neg (fun h => hp.1 h.symm), if_neg hp.2, if_neg hp.2]
  unfold afeed
  obtain ⟨x, h1, h2⟩ := Option.map_eq_some_iff.mp ha
  simp only [ht, h1, Option.bind_some, ahandle, h2, hr, if_true]

/-- One byte that no transition takes. -/
theorem err_syn {st nx : St} {lit : Bytes} {q : UInt8} {d : Bytes} {es : List Bytes} {top : Top} {k : Nat}
    {b : Builder} {ch : UInt8} {m : Bytes} (hp : Plain ch) (ht : trans ⟨st, nx, lit, q⟩ ch = none) :
    aloop (S st nx lit q d es top k) b (ch :: m) = some (.error .esyn) := by
  unfold aloop astep
  rw [if_neg hp.1, if_neg (fun h => hp.1 h.symm), if_neg hp.2, if_neg hp.2]
  unfold afeed
  simp only [ht, Option.bind_some, ahandle, Ret.isError, if_true]

theorem Runs.error {s s' : Abs} {b b' : Builder} {l m : Bytes} {e : Ret} (h : Runs s b l s' b')
    (h' : aloop s' b' m = some (.error e)) : aloop s b (l ++ m) = some (.error e) := by
  unfold Runs at h
  rw [aloop_append, h]
  exact h'

/-! ### Tags that do not match -/

theorem close_bad {nx : St} {lit : Bytes} {q : UInt8} {d n : Bytes} {es : List Bytes} {b : Builder} {k : Nat}
    (l : Bytes) (hl : ∀ c ∈ l, NameChar c) {z : UInt8} (hz : Blank z ∨ z = 0x3e) {m : Bytes} (hk : k ≤ n.length)
    (h : n.drop k ≠ l) :
    aloop (S .etag1 nx lit q d (n :: es) .none k) b (l ++ z :: m) = some (.error .eclose) := by
  induction l generalizing k with
  | nil =>
    have hk' : k ≠ n.length := by
      intro h0
      exact h (by rw [h0]; simp)
    obtain ⟨c, hc⟩ : ∃ c, trans ⟨.etag1, nx, lit, q⟩ z = some (c, .elemcloseend) := by
      rcases hz with hz | rfl
      · exact ⟨⟨.etag2, nx, lit, q⟩, by simp [trans, blank_facts hz, isSP_of hz]⟩
      · exact ⟨⟨.misc2, nx, lit, q⟩, rfl⟩
    have hp : Plain z := by
      rcases hz with hz | rfl
      · exact blank_plain hz
      · exact plain_lit
    refine err1 hp hc (r := .eclose) ?_ rfl
    simp only [aperform, if_neg hk']
    rfl
  | cons c l ih =>
    have hc := hl c (by simp)
    have ht : trans ⟨.etag1, nx, lit, q⟩ c = some (⟨.etag1, nx, lit, q⟩, .elemclose) := by simp [trans, isName_of hc]
    by_cases h1 : n[k]? = some c
    · have hk2 : k < n.length := by
        rcases Nat.lt_or_ge k n.length with h2 | h2
        · exact h2
        · rw [List.getElem?_eq_none h2] at h1; simp at h1
      have hd : n.drop k = c :: n.drop (k + 1) := by
        rw [List.getElem?_eq_getElem hk2] at h1
        rw [List.drop_eq_getElem_cons hk2]
        simp only [Option.some.injEq] at h1
        rw [h1]
      have := ih (fun x hx => hl x (by simp [hx])) (k := k + 1) (by omega) (by
        intro h2; exact h (by rw [hd, h2]))
      refine Runs.error (l := [c]) (s' := S .etag1 nx lit q d (n :: es) .none (k + 1)) (b' := b) ?_ this
      refine step1 (name_plain hc) ht (r := .ok) (t := []) ?_ rfl rfl
      simp [aperform, h1]
    · refine err1 (name_plain hc) ht (r := .eclose) ?_ rfl
      simp only [aperform, if_neg h1]
      rfl

theorem etag_bad {nx : St} {lit : Bytes} {q : UInt8} {d n : Bytes} {es : List Bytes} {b : Builder}
    {n' : Bytes} (hn : Name n') {z : UInt8} (hz : Blank z ∨ z = 0x3e) {m : Bytes} (h : n ≠ n') :
    aloop (S .misc2 nx lit q d (n :: es) .none 0) b (0x3c :: 0x2f :: n' ++ z :: m) = some (.error .eclose) := by
  obtain ⟨c, l, rfl, hc, hl⟩ := hn
  refine Runs.error (l := [0x3c, 0x2f]) (s' := S .etag0 nx lit q d (n :: es) .none 0) (b' := b) ?_ ?_
  · refine Runs.cons (s' := S .le2 nx lit q d (n :: es) .none 0) (step_ok1 plain_lit rfl) ?_
    exact step_ok1 plain_lit rfl
  · have ht : trans ⟨.etag0, nx, lit, q⟩ c = some (⟨.etag1, nx, lit, q⟩, .elemclose) := by simp [trans, isNameStart_of hc]
    match n, h with
    | [], h =>
      refine err1 (name_plain (Or.inl hc)) ht (r := .eclose) ?_ rfl
      simp only [aperform]
      rfl
    | x :: n, h =>
      by_cases h1 : x = c
      · subst h1
        refine Runs.error (l := [x]) (s' := S .etag1 nx lit q d ((x :: n) :: es) .none 1) (b' := b) ?_ ?_
        · refine step1 (name_plain (Or.inl hc)) ht (r := .ok) (t := []) ?_ rfl rfl
          simp [aperform]
        · exact close_bad l hl hz (by simp) (by simpa using h)
      · refine err1 (name_plain (Or.inl hc)) ht (r := .eclose) ?_ rfl
        simp [aperform, h1]

/-! ### Open elements -/

theorem open_run {e : Bytes} {es : List Bytes} {dn : Option Node} {f : Frame} {fs : List Frame} (l : List Opened)
    (hl : ∀ o ∈ l, o.OK) :
    ∃ f' fs', Leads .misc2 (e :: es) (B dn (f :: fs) none) (l.flatMap Opened.bytes) .misc2
      ((l.map Opened.name).reverse ++ e :: es) (B dn (f' :: fs') none) := by
  induction l generalizing e es f fs with
  | nil => exact ⟨f, fs, Leads.nil _ _ _⟩
  | cons o l ih =>
    obtain ⟨hn, ha, hw, hb⟩ := hl o (by simp)
    have r1 := lt_content (es := e :: es) (b := B dn (f :: fs) none)
    have r2 := open_tag (st := .le2) (es := e :: es) (b := B dn (f :: fs) none) (dn := dn) (l := f :: fs) (by simp) hn ha
      hw rfl
    have r3 := content_run o.body hb o.name (e :: es) dn ⟨o.name, attrsValue o.attrs, []⟩ (f :: fs)
    obtain ⟨f', fs', r4⟩ := ih (e := o.name) (es := e :: es) (f := ⟨o.name, attrsValue o.attrs, o.body.add []⟩)
      (fs := f :: fs) fun x hx => hl x (by simp [hx])
    refine ⟨f', fs', ?_⟩
    have := r1.append (r2.append (r3.append r4))
    simpa [Opened.bytes, ascii] using this

theorem prolog_run (x : Doc) (h : x.OK) :
    ∃ st, Pre st ∧ Leads .init [] emptyBuilder x.prolog st [] emptyBuilder := by
  obtain ⟨hd, hb, _, _⟩ := h
  have r1 : ∃ st, (st = .init ∨ st = .misc0) ∧
      Leads .init [] emptyBuilder (if x.bom then [0xef, 0xbb, 0xbf] else []) st [] emptyBuilder := by
    cases x.bom
    · exact ⟨.init, by simp, Leads.nil _ _ _⟩
    · exact ⟨.misc0, by simp, bom_run⟩
  obtain ⟨st, hst, r1⟩ := r1
  have r2 : ∃ st2, Pre st2 ∧
      Leads st [] emptyBuilder (match x.decl with | some x => x.bytes | none => []) st2 [] emptyBuilder := by
    match hx : x.decl with
    | none => exact ⟨st, by rcases hst with rfl | rfl <;> simp [Pre], Leads.nil _ _ _⟩
    | some y => exact ⟨.misc1, by simp [Pre], decl_run hst (hd y hx)⟩
  obtain ⟨st2, hst2, r2⟩ := r2
  obtain ⟨st3, hst3, r3⟩ := pre_misc (b := emptyBuilder) hst2 hb
  exact ⟨st3, hst3, (r1.append r2).append r3⟩

theorem opened_run (x : Doc) (h : x.OK) (o : Opened) (l : List Opened) (hl : ∀ p ∈ o :: l, p.OK) :
    ∃ f fs, Leads .init [] emptyBuilder (x.prolog ++ (o :: l).flatMap Opened.bytes) .misc2
      ((l.map Opened.name).reverse ++ [o.name]) (B none (f :: fs) none) := by
  obtain ⟨st, hst, r1⟩ := prolog_run x h
  obtain ⟨st', hst', _, r2⟩ := pre_lt (b := emptyBuilder) hst
  obtain ⟨hn, ha, hw, hb⟩ := hl o (by simp)
  have r3 := open_tag (es := []) (b := emptyBuilder) (dn := none) (l := [])
    (by rcases hst' with h | h <;> simp [h] : st' = .le0 ∨ st' = .le1 ∨ st' = .le2) hn ha hw rfl
  have r4 := content_run o.body hb o.name [] none ⟨o.name, attrsValue o.attrs, []⟩ []
  obtain ⟨f', fs', r5⟩ := open_run (e := o.name) (es := []) (dn := none) (f := ⟨o.name, attrsValue o.attrs, o.body.add []⟩)
    (fs := []) l fun x hx => hl x (by simp [hx])
  refine ⟨f', fs', ?_⟩
  have := r1.append (r2.append (r3.append (r4.append r5)))
  simpa [Opened.bytes, ascii] using this

theorem Leads.start {st : St} {es : List Bytes} {b : Builder} {l : Bytes} (h : Leads .init [] emptyBuilder l st es b) :
    ∃ nx lit q d, Runs astart emptyBuilder l (S st nx lit q d es .none 0) b := h .string [] 0 []

theorem mismatch_none (x : Doc) (h : x.OK) (o : Opened) (l : List Opened) (hl : ∀ p ∈ o :: l, p.OK) {n : Bytes}
    (hn : Name n) (hne : ((o :: l).map Opened.name).getLast? ≠ some n) {z : UInt8} (hz : Blank z ∨ z = 0x3e) (rest : Bytes) :
    aparse (x.prolog ++ (o :: l).flatMap Opened.bytes ++ ascii "</" ++ n ++ [z] ++ rest) = none := by
  obtain ⟨f, fs, r⟩ := opened_run x h o l hl
  obtain ⟨nx, lit, q, d, r⟩ := r.start
  obtain ⟨e, es, he⟩ : ∃ e es, (l.map Opened.name).reverse ++ [o.name] = e :: es := by
    cases hr : (l.map Opened.name).reverse with
    | nil => exact ⟨_, _, rfl⟩
    | cons a b => exact ⟨_, _, rfl⟩
  have hlast : ((o :: l).map Opened.name).getLast? = some e := by
    have h1 : ((o :: l).map Opened.name).reverse = e :: es := by simp [← he]
    rw [List.getLast?_eq_head?_reverse, h1]
    rfl
  rw [hlast] at hne
  rw [he] at r
  have := error_none r (etag_bad (m := rest) hn hz (fun h0 : e = n => hne (by rw [h0])))
  simpa [ascii] using this

/-- All of the root element but its last byte leaves it open. -/
theorem root_open (x : Doc) (h : x.OK) :
    ∃ l st es f, x.prolog ++ x.root.bytes = l ++ [0x3e] ∧
      ∃ nx lit q d k, Runs astart emptyBuilder l (S st nx lit q d es .none k) (B none [f] none) := by
  have hr := h.2.2.1
  obtain ⟨st, hst, r1⟩ := prolog_run x h
  obtain ⟨st', hst', _, r2⟩ := pre_lt (b := emptyBuilder) hst
  have hst'' : st' = .le0 ∨ st' = .le1 ∨ st' = .le2 := by rcases hst' with h | h <;> simp [h]
  match hroot : x.root, hr with
  | .elem n as w body, ⟨hn, ha, hw, hb⟩ =>
    have r3 := open_tag (es := []) (b := emptyBuilder) (dn := none) (l := []) hst'' hn ha hw rfl
    have r4 := content_run body hb n [] none ⟨n, attrsValue as, []⟩ []
    obtain ⟨nx, lit, q, d, r5⟩ := (r1.append (r2.append (r3.append r4))).start
    refine ⟨_, _, _, _, ?_, nx, lit, q, d, n.length, r5.append (etag_name hn)⟩
    simp [Root.bytes, ascii]
  | .empty n as w, ⟨hn, ha, hw⟩ =>
    have r3 := empty_tag (es := []) (b := emptyBuilder) (dn := none) (l := []) hst'' hn ha hw rfl
    obtain ⟨nx, lit, q, d, r5⟩ := (r1.append (r2.append r3)).start
    refine ⟨_, _, _, _, ?_, nx, lit, q, d, 0, r5⟩
    simp [Root.bytes, ascii]

theorem truncated_none (x : Doc) (h : x.OK) (p q : Bytes) (hq : q ≠ []) (hpq : x.prolog ++ x.root.bytes = p ++ q) :
    aparse p = none := by
  obtain ⟨l, st, es, f, he, nx, lit, qu, d, k, hr⟩ := root_open x h
  rcases List.eq_nil_or_concat q with h0 | ⟨q', c, rfl⟩
  · exact absurd h0 hq
  · rw [List.concat_eq_append, ← List.append_assoc] at hpq
    have : l = p ++ q' := by
      have := he.symm.trans hpq
      exact (List.append_inj' this rfl).1
    subst this
    exact prefix_none hr (by simp)

/-- After the root, neither text nor another element. -/
theorem trailing_none (x : Doc) (h : x.OK) {c : UInt8} (hc : Plain c) (hb : ¬ Blank c) (hlt : c ≠ 0x3c) (rest : Bytes) :
    aparse (x.bytes ++ c :: rest) = none := by
  obtain ⟨nx, lit, q, d, hr⟩ := (doc_run x h).start
  refine error_none hr (err_syn hc ?_)
  have h1 : isSP c = false := by
    have := hb
    simp only [Blank, not_or] at this
    simp [isSP, this]
  simp [trans, h1, hlt]

theorem second_none (x : Doc) (h : x.OK) {c : UInt8} (hc : NameStart c) (rest : Bytes) :
    aparse (x.bytes ++ 0x3c :: c :: rest) = none := by
  obtain ⟨nx, lit, q, d, hr⟩ := (doc_run x h).start
  have hf := name_facts (Or.inl hc)
  refine error_none (m := 0x3c :: c :: rest) hr (Runs.error (l := [0x3c]) (s' := S .le3 nx lit q d [] .none 0)
    (b' := B (some x.root.tree) [] none) (step_ok1 plain_lit rfl) (err_syn (name_plain (Or.inl hc)) ?_))
  simp [trans, hf]

/-! ### Unknown references -/

theorem ref_bad {nx : St} {lit : Bytes} {q : UInt8} {d : Bytes} {es : List Bytes} {b : Builder} {l m : Bytes}
    (h : ∀ c ∈ l, isRef c = true ∧ Plain c) (hv : refRejected (refValue l) = true) :
    aloop (S .misc2 nx lit q d es .none 0) b (0x26 :: (l ++ 0x3b :: m)) = some (.error .eref) := by
  refine Runs.error (l := [0x26]) (s' := S .misc2a nx lit q [] es .none 0) (b' := b)
    (step1 plain_lit rfl rfl rfl rfl) ?_
  show aloop _ b (l ++ 0x3b :: m) = _
  by_cases hl : l.length ≤ 7
  · refine Runs.error (ref_bytes (d := []) (fun ch hc => by simp [trans, hc]) h (by simpa using hl)) ?_
    refine err1 plain_lit (c := ⟨.misc2, nx, lit, q⟩) (a := .refcontent) rfl (r := .eref) ?_ rfl
    simp only [aperform, arefend, List.nil_append, hv, if_true]
    rfl
  · have e : l ++ 0x3b :: m = l.take 7 ++ (l.drop 7 ++ 0x3b :: m) := by
      rw [← List.append_assoc, List.take_append_drop]
    rw [e]
    have h7 : (l.take 7).length = 7 := by simp; omega
    refine Runs.error (ref_bytes (d := []) (fun ch hc => by simp [trans, hc])
      (fun c hc => h c (List.mem_of_mem_take hc)) (by simp [h7])) ?_
    match hd : l.drop 7 with
    | [] => rw [List.drop_eq_nil_iff] at hd; omega
    | c :: r =>
      have hc := h c (List.mem_of_mem_drop (hd ▸ List.mem_cons_self))
      refine err1 hc.2 (c := ⟨.misc2a, nx, lit, q⟩) (a := .ref) (by simp [trans, hc.1]) (r := .eref) ?_ rfl
      simp only [aperform, List.nil_append, h7, Nat.le_refl, if_true]
      rfl

end Duck.Xml
