import Verif.Model.Xml

/-! # Helper lemmas for XML: the tokenizer without its buffer -/

namespace Duck.Xml

/-- The name on top of the open elements. -/
inductive Top
  | none | attr (t : Bytes) | pi (t : Bytes)

/-- The parser with its stack of names as lists. -/
structure Abs where
  ctl : Ctl
  ignore : UInt8
  data : Bytes
  elems : List Bytes
  top : Top
  k : Nat

def aclose (s : Abs) (l : List Bytes) : Abs × Ret × Bytes :=
  ({ s with elems := l, k := 0, ctl := if l = [] then { s.ctl with st := .misc3 } else s.ctl }, .elemend, [])

def arefend (s : Abs) (r : Ret) : Abs × Ret × Bytes :=
  if refRejected (refValue s.data) then (s, .eref, [])
  else ({ s with data := setutf8 (refValue s.data) }, r, setutf8 (refValue s.data))

def adata (s : Abs) (r : Ret) (d : Bytes) : Abs × Ret × Bytes := ({ s with data := d }, r, d)

def isXmlName (t : Bytes) : Bool := t.map (· ||| 32) == [0x78, 0x6d, 0x6c]

def aperform (a : Act) (s : Abs) (ch : UInt8) : Option (Abs × Ret × Bytes) :=
  match a with
  | .ok => some (s, .ok, [])
  | .elemstart => match s.top with
      | .none => some ({ s with elems := [ch] :: s.elems, k := 0 }, .ok, [])
      | _ => none
  | .attrstart => match s.top with
      | .none => some ({ s with top := .attr [ch] }, .ok, [])
      | _ => none
  | .pistart => match s.top with
      | .none => some ({ s with top := .pi [ch] }, .ok, [])
      | _ => none
  | .elemname => match s.top, s.elems with
      | .none, e :: l => some ({ s with elems := (e ++ [ch]) :: l }, .ok, [])
      | _, _ => none
  | .attrname => match s.top with
      | .attr t => some ({ s with top := .attr (t ++ [ch]) }, .ok, [])
      | _ => none
  | .piname => match s.top with
      | .pi t => some ({ s with top := .pi (t ++ [ch]) }, .ok, [])
      | _ => none
  | .elemnameend => match s.top, s.elems with
      | .none, e :: _ => if s.k = 0 then some (s, .elemstart, e) else none
      | _, _ => none
  | .attrnameend => some (s, .attrstart, [])
  | .attrvalend => match s.top with
      | .attr t => some ({ s with top := .none }, .attrend, t)
      | _ => none
  | .piabort => match s.top with
      | .pi _ => some ({ s with top := .none }, .ok, [])
      | _ => none
  | .pivalend => match s.top with
      | .pi _ => some ({ s with top := .none }, .piend, [])
      | _ => none
  | .pinameend => match s.top with
      | .pi t => some (s, if isXmlName t then .esyn else .pistart, [])
      | _ => none
  | .selfclose => match s.top, s.elems with
      | .none, _ :: l => some (aclose s l)
      | _, _ => none
  | .elemclose => match s.top, s.elems with
      | .none, e :: _ => some (if e[s.k]? = some ch then ({ s with k := s.k + 1 }, .ok, []) else (s, .eclose, []))
      | _, _ => none
  | .elemcloseend => match s.top, s.elems with
      | .none, e :: l => some (if s.k = e.length then aclose s l else (s, .eclose, []))
      | _, _ => none
  | .refstart => some ({ s with data := [] }, .ok, [])
  | .ref => some (if 7 ≤ s.data.length then (s, .eref, []) else ({ s with data := s.data ++ [ch] }, .ok, []))
  | .refattrval => some (arefend s .attrval)
  | .refcontent => some (arefend s .content)
  | .dataattr => some (adata s .attrval [if ch = 0x09 ∨ ch = 0x0a then 0x20 else ch])
  | .datacontent => some (adata s .content [ch])
  | .datacd1 => some (adata s .content [0x5d, ch])
  | .datacd2 => some (adata s .content [0x5d, 0x5d, ch])
  | .datapi1 => some ({ s with data := [ch] }, .picontent, [])
  | .datapi2 => some ({ s with data := [0x3f, ch] }, .picontent, [])

def afeed (s : Abs) (ch : UInt8) : Option (Abs × Ret × Bytes) :=
  match trans s.ctl ch with
  | some (c, a) => aperform a { s with ctl := c } ch
  | none => some (s, .esyn, [])

def astep (s : Abs) (ch : UInt8) : Option (Abs × Ret × Bytes) :=
  if ch = 0 then some (s, .esyn, [])
  else if s.ignore = ch then some ({ s with ignore := 0 }, .ok, [])
  else afeed { s with ignore := if ch = 0x0d then 0x0a else 0 } (if ch = 0x0d then 0x0a else ch)

/-! ## The buffer holds the names -/

def encS : List Bytes → Bytes
  | [] => [0]
  | n :: l => encS l ++ n ++ [0]

def Abs.names (s : Abs) : List Bytes :=
  match s.top with
  | .none => s.elems
  | .attr t => t :: s.elems
  | .pi t => t :: s.elems

def NameOk (n : Bytes) : Prop := n ≠ [] ∧ (0 : UInt8) ∉ n

structure Rel (p : Parser) (s : Abs) : Prop where
  ctl : p.ctl = s.ctl
  ignore : p.ignore = s.ignore
  data : p.data = s.data
  buf : ∃ rest, p.mem.buf = encS s.names ++ rest
  len : p.mem.len + 1 = (encS s.names).length
  elem : ∀ e l, s.elems = e :: l → p.mem.elem = (encS l).length + s.k ∧ s.k ≤ e.length
  attr : ∀ t, s.top = .attr t → p.mem.attr = (encS s.elems).length
  pi : ∀ t, s.top = .pi t → p.mem.pi = (encS s.elems).length
  ok : ∀ n ∈ s.names, NameOk n

theorem encS_snoc (l : List Bytes) : ∃ A, encS l = A ++ [0] := by
  cases l with
  | nil => exact ⟨[], rfl⟩
  | cons n l => exact ⟨encS l ++ n, rfl⟩

theorem encS_pos (l : List Bytes) : 0 < (encS l).length := by
  obtain ⟨A, h⟩ := encS_snoc l
  rw [h]; simp

theorem get_append (A R : Bytes) (b : UInt8) : (A ++ b :: R)[A.length]? = some b := by
  simp

theorem popLen_ok (A n R : Bytes) (h : (0 : UInt8) ∉ n) :
    popLen (A ++ 0 :: (n ++ R)) (A.length + 1 + n.length) = some A.length := by
  generalize hk : n.length = k
  induction k generalizing n R with
  | zero =>
    obtain rfl := List.length_eq_zero_iff.mp hk
    simp [popLen]
  | succ k ih =>
    rcases List.eq_nil_or_concat n with rfl | ⟨m, c, rfl⟩
    · simp at hk
    · rw [List.concat_eq_append] at h hk ⊢
      have hm : m.length = k := by simpa using hk
      have hc : c ≠ 0 := by intro h0; apply h; simp [h0]
      show popLen _ (A.length + 1 + k + 1) = _
      rw [popLen]
      have : (A ++ 0 :: (m ++ [c] ++ R))[A.length + 1 + k]? = some c := by
        have : A ++ 0 :: (m ++ [c] ++ R) = (A ++ [0] ++ m) ++ c :: R := by simp
        rw [this, show A.length + 1 + k = (A ++ [0] ++ m).length by simp [hm]; omega]
        exact get_append _ _ _
      rw [this]
      simp only [Option.bind_some, if_neg hc]
      rw [show A ++ 0 :: (m ++ [c] ++ R) = A ++ 0 :: (m ++ (c :: R)) by simp]
      exact ih m _ (fun h0 => h (by simp [h0])) hm

theorem rewind_ok (A n R : Bytes) (h : (0 : UInt8) ∉ n) :
    rewind (A ++ 0 :: (n ++ R)) (A.length + 1 + n.length) = some (A.length + 1) := by
  generalize hk : n.length = k
  induction k generalizing n R with
  | zero =>
    obtain rfl := List.length_eq_zero_iff.mp hk
    simp [rewind]
  | succ k ih =>
    rcases List.eq_nil_or_concat n with rfl | ⟨m, c, rfl⟩
    · simp at hk
    · rw [List.concat_eq_append] at h hk ⊢
      have hm : m.length = k := by simpa using hk
      have hc : c ≠ 0 := by intro h0; apply h; simp [h0]
      show rewind _ (A.length + 1 + k + 1) = _
      rw [rewind]
      have : (A ++ 0 :: (m ++ [c] ++ R))[A.length + 1 + k]? = some c := by
        have : A ++ 0 :: (m ++ [c] ++ R) = (A ++ [0] ++ m) ++ c :: R := by simp
        rw [this, show A.length + 1 + k = (A ++ [0] ++ m).length by simp [hm]; omega]
        exact get_append _ _ _
      rw [this]
      simp only [Option.bind_some, if_neg hc]
      rw [show A ++ 0 :: (m ++ [c] ++ R) = A ++ 0 :: (m ++ (c :: R)) by simp]
      exact ih m _ (fun h0 => h (by simp [h0])) hm

theorem store_app (A R : Bytes) (a b : UInt8) :
    store (A ++ a :: R) A.length b = some (A ++ b :: R) := by
  simp [store]

theorem takeWhile_name (n R : Bytes) (h : (0 : UInt8) ∉ n) :
    (n ++ 0 :: R).takeWhile (· ≠ 0) = n := by
  induction n with
  | nil => simp
  | cons a n ih =>
    have ha : a ≠ 0 := fun h0 => h (by simp [h0])
    have := ih (fun h0 => h (by simp [h0]))
    simp [ha] at this ⊢
    exact this

theorem cstring_ok (A n R : Bytes) (h : (0 : UInt8) ∉ n) :
    cstring (A ++ (n ++ 0 :: R)) A.length = some n := by
  have : (A ++ (n ++ 0 :: R)).drop A.length = n ++ 0 :: R := by simp
  unfold cstring
  rw [this, if_pos (by simp), takeWhile_name n R h]

/-- Pushing a new name. -/
theorem push_ok {m : Mem} {ns : List Bytes} (ch : UInt8) {rest : Bytes}
    (hb : m.buf = encS ns ++ rest) (hl : m.len + 1 = (encS ns).length) :
    (pushstack m ch = some none ∧ m.buf.length < (encS ns).length + 2) ∨
      ∃ rest', rest'.length + 2 = rest.length ∧ pushstack m ch = some (some { m with buf := encS ([ch] :: ns) ++ rest', len := m.len + 2 }) := by
  unfold pushstack
  by_cases h : m.buf.length ≤ m.len + 2
  · left; rw [if_pos h]; exact ⟨rfl, by omega⟩
  · right
    rw [if_neg h]
    have h2 : 2 ≤ rest.length := by rw [hb, List.length_append] at h; omega
    match rest, h2 with
    | a :: b :: R, _ =>
      refine ⟨R, rfl, ?_⟩
      rw [hb, hl, store_app]
      simp only [Option.bind_some]
      rw [show m.len + 2 = (encS ns ++ [ch]).length by simp; omega,
        show encS ns ++ ch :: b :: R = (encS ns ++ [ch]) ++ b :: R by simp, store_app]
      simp [encS]

/-- Appending a byte to the last name. -/
theorem pushc_ok {m : Mem} {n : Bytes} {ns : List Bytes} (ch : UInt8) {rest : Bytes}
    (hb : m.buf = encS (n :: ns) ++ rest) (hl : m.len + 1 = (encS (n :: ns)).length) :
    (pushstackc m ch = some none ∧ m.buf.length < (encS (n :: ns)).length + 1) ∨
      ∃ rest', rest'.length + 1 = rest.length ∧ pushstackc m ch =
        some (some { m with buf := encS ((n ++ [ch]) :: ns) ++ rest', len := m.len + 1 }) := by
  unfold pushstackc
  by_cases h : m.buf.length ≤ m.len + 1
  · left; rw [if_pos h]; exact ⟨rfl, by omega⟩
  · right
    rw [if_neg h]
    have h2 : 1 ≤ rest.length := by rw [hb, List.length_append] at h; omega
    match rest, h2 with
    | a :: R, _ =>
      refine ⟨R, rfl, ?_⟩
      have hl' : m.len = (encS ns ++ n).length := by simp [encS] at hl ⊢; omega
      rw [hb, show encS (n :: ns) ++ a :: R = (encS ns ++ n) ++ 0 :: a :: R by simp [encS]]
      rw [hl', store_app]
      simp only [Option.bind_some]
      rw [show (encS ns ++ n).length + 1 = (encS ns ++ n ++ [ch]).length by simp; omega,
        show encS ns ++ n ++ ch :: a :: R = (encS ns ++ n ++ [ch]) ++ a :: R by simp, store_app]
      simp [encS]

theorem pop_ok {m : Mem} {n : Bytes} {ns : List Bytes} {rest : Bytes} (hn : NameOk n)
    (hb : m.buf = encS (n :: ns) ++ rest) (hl : m.len + 1 = (encS (n :: ns)).length) :
    popstack m = some { m with len := (encS ns).length - 1 } := by
  obtain ⟨A, hA⟩ := encS_snoc ns
  have h1 : m.buf = A ++ 0 :: (n ++ (0 :: rest)) := by rw [hb]; simp [encS, hA]
  have h2 : m.len = A.length + 1 + n.length := by simp [encS, hA] at hl; omega
  unfold popstack
  rw [h1, h2, popLen_ok A n _ hn.2, hA]
  simp

theorem close_ok {p : Parser} {s : Abs} {e : Bytes} {l : List Bytes} (h : Rel p s)
    (ht : s.top = .none) (he : s.elems = e :: l) :
    ∃ p', selfclose p = some (p', .elemend) ∧ Rel p' (aclose s l).1 ∧
      p'.mem.buf.length = p.mem.buf.length := by
  have hnames : s.names = e :: l := by simp [Abs.names, ht, he]
  obtain ⟨rest, hb⟩ := h.buf
  have hl := h.len
  rw [hnames] at hb hl
  have hok := h.ok
  rw [hnames] at hok
  have hpop := pop_ok (hok e (by simp)) hb hl
  unfold selfclose
  rw [hpop]
  simp only [Option.bind_some]
  have hctl := h.ctl
  have hrest : p.mem.buf = encS l ++ (e ++ [0] ++ rest) := by rw [hb]; simp [encS]
  cases l with
  | nil =>
    refine ⟨_, rfl, ?_, rfl⟩
    exact { ctl := by simp [aclose, hctl], ignore := h.ignore, data := h.data
            buf := ⟨_, by simpa [aclose, Abs.names, ht] using hrest⟩
            len := by simp [aclose, Abs.names, ht, encS]
            elem := by simp [aclose]
            attr := by simp [aclose, ht]
            pi := by simp [aclose, ht]
            ok := by simp [aclose, Abs.names, ht] }
  | cons f l =>
    have hf := hok f (by simp)
    obtain ⟨A, hA⟩ := encS_snoc l
    rcases List.eq_nil_or_concat f with rfl | ⟨g, c, hg⟩
    · exact absurd rfl hf.1
    · rw [List.concat_eq_append] at hg
      have hlen : (encS (f :: l)).length - 1 = A.length + 1 + g.length + 1 := by
        simp [encS, hA, hg]; omega
      rw [if_pos (by omega)]
      have hbuf : p.mem.buf = A ++ 0 :: (g ++ (c :: 0 :: (e ++ [0] ++ rest))) := by
        rw [hrest]; simp [encS, hA, hg]
      have hr : rewind p.mem.buf ((encS (f :: l)).length - 1 - 1) = some (A.length + 1) := by
        rw [hlen, hbuf]
        exact rewind_ok A g _ (fun h0 => hf.2 (by simp [hg, h0]))
      simp only [hr, Option.map_some]
      refine ⟨_, rfl, ?_, rfl⟩
      exact { ctl := by simp [aclose, hctl], ignore := h.ignore, data := h.data
              buf := ⟨_, by simpa [aclose, Abs.names, ht] using hrest⟩
              len := by
                have := encS_pos (f :: l)
                simp only [aclose, Abs.names, ht]; omega
              elem := by
                intro e' l' he'
                simp only [aclose, List.cons.injEq] at he' ⊢
                obtain ⟨rfl, rfl⟩ := he'
                simp [hA]
              attr := by simp [aclose, ht]
              pi := by simp [aclose, ht]
              ok := by
                intro n hn
                simp only [aclose, Abs.names, ht] at hn
                exact hok n (by simp only [List.mem_cons] at hn ⊢; exact Or.inr hn) }

/-- The result of an action on the buffer agrees with the action on lists, or the buffer is full. -/
def Agrees (p : Parser) (s : Abs) (q : Parser × Ret) (t : Abs × Ret × Bytes) : Prop :=
  (q.2 = .estack ∧ p.mem.buf.length < (encS s.names).length + 2) ∨
    (q.2 = t.2.1 ∧ (t.2.1.isError = false →
      Rel q.1 t.1 ∧ token q.1 q.2 = some t.2.2 ∧ q.1.mem.buf.length = p.mem.buf.length))

theorem nameOk_one {ch : UInt8} (h : ch ≠ 0) : NameOk [ch] :=
  ⟨by simp, by simp; exact fun h0 => h h0.symm⟩

theorem nameOk_snoc {n : Bytes} {ch : UInt8} (hn : NameOk n) (h : ch ≠ 0) : NameOk (n ++ [ch]) :=
  ⟨by simp, by simp [hn.2]; exact fun h0 => h h0.symm⟩

theorem Rel.withData {p : Parser} {s : Abs} (h : Rel p s) (d : Bytes) :
    Rel { p with data := d } { s with data := d } :=
  { ctl := h.ctl, ignore := h.ignore, data := rfl, buf := h.buf, len := h.len, elem := h.elem
    attr := h.attr, pi := h.pi, ok := h.ok }

theorem Rel.withCtl {p : Parser} {s : Abs} (h : Rel p s) (c : Ctl) :
    Rel { p with ctl := c } { s with ctl := c } :=
  { ctl := rfl, ignore := h.ignore, data := h.data, buf := h.buf, len := h.len, elem := h.elem
    attr := h.attr, pi := h.pi, ok := h.ok }

theorem Rel.withIgnore {p : Parser} {s : Abs} (h : Rel p s) (c : UInt8) :
    Rel { p with ignore := c } { s with ignore := c } :=
  { ctl := h.ctl, ignore := rfl, data := h.data, buf := h.buf, len := h.len, elem := h.elem
    attr := h.attr, pi := h.pi, ok := h.ok }


theorem get_elem {p : Parser} {s : Abs} {e : Bytes} {l : List Bytes} (h : Rel p s)
    (ht : s.top = .none) (he : s.elems = e :: l) :
    ∃ rest, p.mem.buf[p.mem.elem]? = (e ++ 0 :: rest)[s.k]? := by
  have hn : s.names = e :: l := by simp [Abs.names, ht, he]
  obtain ⟨rest, hb⟩ := h.buf
  rw [hn] at hb
  have hrest : p.mem.buf = encS l ++ (e ++ 0 :: rest) := by rw [hb]; simp [encS]
  refine ⟨rest, ?_⟩
  rw [(h.elem e l he).1, hrest, List.getElem?_append_right (by omega)]
  simp

theorem xmlName_read (u rest : Bytes) (p : Parser) (h0 : (0 : UInt8) ∉ u)
    (hget : ∀ i, p.mem.buf[p.mem.pi + i]? = (u ++ 0 :: rest)[i]?) :
    pinameend p = some (p, if isXmlName u then .esyn else .pistart) := by
  unfold pinameend isXmlName
  have h00 := hget 0
  simp only [Nat.add_zero] at h00
  rw [h00, hget 1, hget 2, hget 3]
  match u, h0 with
  | [], _ => simp
  | [a], _ => simp
  | [a, b], _ => simp; repeat' split; all_goals simp_all
  | [a, b, c], _ => simp; repeat' split; all_goals simp_all
  | a :: b :: c :: d :: l, h0 =>
    have hd : d ≠ 0 := fun h => h0 (by simp [h])
    simp [hd]

theorem perform_ok {p : Parser} {s : Abs} {a : Act} {ch : UInt8} {t : Abs × Ret × Bytes}
    (h : Rel p s) (hch : ch ≠ 0) (ha : aperform a s ch = some t) :
    ∃ q, perform a p ch = some q ∧ Agrees p s q t := by
  obtain ⟨rest, hb⟩ := h.buf
  have hl := h.len
  have hok := h.ok
  cases a with
  | ok =>
    simp only [aperform, Option.some.injEq] at ha; subst ha
    exact ⟨_, rfl, Or.inr ⟨rfl, fun _ => ⟨h, rfl, rfl⟩⟩⟩
  | elemstart =>
    simp only [aperform] at ha
    split at ha <;> simp at ha
    rename_i ht
    subst ha
    have hn : s.names = s.elems := by simp [Abs.names, ht]
    rw [hn] at hb hl hok
    simp only [perform]
    rcases push_ok ch hb hl with ⟨h1, h2⟩ | ⟨rest', h0, h1⟩
    · rw [h1]; exact ⟨_, rfl, Or.inl ⟨rfl, by rw [hn]; exact h2⟩⟩
    · rw [h1]
      refine ⟨_, rfl, Or.inr ⟨rfl, fun _ => ⟨?_, rfl, ?_⟩⟩⟩
      · exact { ctl := h.ctl, ignore := h.ignore, data := h.data
                buf := ⟨rest', by simp [Abs.names, ht, pushed]⟩
                len := by simp [Abs.names, ht, encS, pushed]; omega
                elem := by
                  intro e l he
                  simp only [List.cons.injEq] at he
                  obtain ⟨rfl, rfl⟩ := he
                  simp [pushed]; exact hl
                attr := by simp [ht]
                pi := by simp [ht]
                ok := by
                  intro n hm
                  simp only [Abs.names, ht, List.mem_cons] at hm
                  rcases hm with rfl | hm
                  · exact nameOk_one hch
                  · exact hok n hm }
      · simp [pushed, hb, encS]; omega
  | attrstart =>
    simp only [aperform] at ha
    split at ha <;> simp at ha
    rename_i ht
    subst ha
    have hn : s.names = s.elems := by simp [Abs.names, ht]
    rw [hn] at hb hl hok
    simp only [perform]
    rcases push_ok ch hb hl with ⟨h1, h2⟩ | ⟨rest', h0, h1⟩
    · rw [h1]; exact ⟨_, rfl, Or.inl ⟨rfl, by rw [hn]; exact h2⟩⟩
    · rw [h1]
      refine ⟨_, rfl, Or.inr ⟨rfl, fun _ => ⟨?_, rfl, ?_⟩⟩⟩
      · exact { ctl := h.ctl, ignore := h.ignore, data := h.data
                buf := ⟨rest', by simp [Abs.names, pushed]⟩
                len := by simp [Abs.names, encS, pushed]; omega
                elem := h.elem
                attr := by intro t _; exact hl
                pi := by simp
                ok := by
                  intro n hm
                  simp only [Abs.names, List.mem_cons] at hm
                  rcases hm with rfl | hm
                  · exact nameOk_one hch
                  · exact hok n hm }
      · simp [pushed, hb, encS]; omega
  | pistart =>
    simp only [aperform] at ha
    split at ha <;> simp at ha
    rename_i ht
    subst ha
    have hn : s.names = s.elems := by simp [Abs.names, ht]
    rw [hn] at hb hl hok
    simp only [perform]
    rcases push_ok ch hb hl with ⟨h1, h2⟩ | ⟨rest', h0, h1⟩
    · rw [h1]; exact ⟨_, rfl, Or.inl ⟨rfl, by rw [hn]; exact h2⟩⟩
    · rw [h1]
      refine ⟨_, rfl, Or.inr ⟨rfl, fun _ => ⟨?_, rfl, ?_⟩⟩⟩
      · exact { ctl := h.ctl, ignore := h.ignore, data := h.data
                buf := ⟨rest', by simp [Abs.names, pushed]⟩
                len := by simp [Abs.names, encS, pushed]; omega
                elem := h.elem
                attr := by simp
                pi := by intro t _; exact hl
                ok := by
                  intro n hm
                  simp only [Abs.names, List.mem_cons] at hm
                  rcases hm with rfl | hm
                  · exact nameOk_one hch
                  · exact hok n hm }
      · simp [pushed, hb, encS]; omega
  | elemname =>
    simp only [aperform] at ha
    split at ha <;> simp at ha
    rename_i e l ht he
    subst ha
    have hn : s.names = e :: l := by simp [Abs.names, ht, he]
    rw [hn] at hb hl hok
    simp only [perform]
    rcases pushc_ok ch hb hl with ⟨h1, h2⟩ | ⟨rest', h0, h1⟩
    · rw [h1]; exact ⟨_, rfl, Or.inl ⟨rfl, by rw [hn]; omega⟩⟩
    · rw [h1]
      refine ⟨_, rfl, Or.inr ⟨rfl, fun _ => ⟨?_, rfl, ?_⟩⟩⟩
      · have hel := h.elem e l he
        exact { ctl := h.ctl, ignore := h.ignore, data := h.data
                buf := ⟨rest', by simp [Abs.names, ht, pushed]⟩
                len := by simp [Abs.names, ht, encS, pushed] at hl ⊢; omega
                elem := by
                  intro e' l' he'
                  simp only [List.cons.injEq] at he'
                  obtain ⟨rfl, rfl⟩ := he'
                  exact ⟨hel.1, by simp; omega⟩
                attr := by simp [ht]
                pi := by simp [ht]
                ok := by
                  intro n hm
                  simp only [Abs.names, ht, List.mem_cons] at hm
                  rcases hm with rfl | hm
                  · exact nameOk_snoc (hok e (by simp)) hch
                  · exact hok n (by simp [hm]) }
      · simp [pushed, hb, encS]; omega
  | attrname =>
    simp only [aperform] at ha
    split at ha <;> simp at ha
    rename_i u ht
    subst ha
    have hn : s.names = u :: s.elems := by simp [Abs.names, ht]
    rw [hn] at hb hl hok
    simp only [perform]
    rcases pushc_ok ch hb hl with ⟨h1, h2⟩ | ⟨rest', h0, h1⟩
    · rw [h1]; exact ⟨_, rfl, Or.inl ⟨rfl, by rw [hn]; omega⟩⟩
    · rw [h1]
      refine ⟨_, rfl, Or.inr ⟨rfl, fun _ => ⟨?_, rfl, ?_⟩⟩⟩
      · exact { ctl := h.ctl, ignore := h.ignore, data := h.data
                buf := ⟨rest', by simp [Abs.names, pushed]⟩
                len := by simp [Abs.names, encS, pushed] at hl ⊢; omega
                elem := h.elem
                attr := by intro t _; exact h.attr u ht
                pi := by simp
                ok := by
                  intro n hm
                  simp only [Abs.names, List.mem_cons] at hm
                  rcases hm with rfl | hm
                  · exact nameOk_snoc (hok u (by simp)) hch
                  · exact hok n (by simp [hm]) }
      · simp [pushed, hb, encS]; omega
  | piname =>
    simp only [aperform] at ha
    split at ha <;> simp at ha
    rename_i u ht
    subst ha
    have hn : s.names = u :: s.elems := by simp [Abs.names, ht]
    rw [hn] at hb hl hok
    simp only [perform]
    rcases pushc_ok ch hb hl with ⟨h1, h2⟩ | ⟨rest', h0, h1⟩
    · rw [h1]; exact ⟨_, rfl, Or.inl ⟨rfl, by rw [hn]; omega⟩⟩
    · rw [h1]
      refine ⟨_, rfl, Or.inr ⟨rfl, fun _ => ⟨?_, rfl, ?_⟩⟩⟩
      · exact { ctl := h.ctl, ignore := h.ignore, data := h.data
                buf := ⟨rest', by simp [Abs.names, pushed]⟩
                len := by simp [Abs.names, encS, pushed] at hl ⊢; omega
                elem := h.elem
                attr := by simp
                pi := by intro t _; exact h.pi u ht
                ok := by
                  intro n hm
                  simp only [Abs.names, List.mem_cons] at hm
                  rcases hm with rfl | hm
                  · exact nameOk_snoc (hok u (by simp)) hch
                  · exact hok n (by simp [hm]) }
      · simp [pushed, hb, encS]; omega
  | elemnameend =>
    simp only [aperform] at ha
    split at ha <;> simp at ha
    rename_i e l ht he
    obtain ⟨hk, ha⟩ := ha
    subst ha
    have hn : s.names = e :: l := by simp [Abs.names, ht, he]
    rw [hn] at hb hl hok
    refine ⟨_, rfl, Or.inr ⟨rfl, fun _ => ⟨h, ?_, rfl⟩⟩⟩
    have hel := h.elem e l he
    have hrest : p.mem.buf = encS l ++ (e ++ 0 :: rest) := by rw [hb]; simp [encS]
    simp only [token]
    rw [hel.1, hk, hrest]
    exact cstring_ok _ _ _ (hok e (by simp)).2
  | attrnameend =>
    simp only [aperform, Option.some.injEq] at ha; subst ha
    exact ⟨_, rfl, Or.inr ⟨rfl, fun _ => ⟨h, rfl, rfl⟩⟩⟩
  | attrvalend =>
    simp only [aperform] at ha
    split at ha <;> simp at ha
    rename_i u ht
    subst ha
    have hn : s.names = u :: s.elems := by simp [Abs.names, ht]
    rw [hn] at hb hl hok
    simp only [perform]
    rw [pop_ok (hok u (by simp)) hb hl]
    have hrest : p.mem.buf = encS s.elems ++ (u ++ 0 :: rest) := by rw [hb]; simp [encS]
    refine ⟨_, rfl, Or.inr ⟨rfl, fun _ => ⟨?_, ?_, rfl⟩⟩⟩
    · exact { ctl := h.ctl, ignore := h.ignore, data := h.data
              buf := ⟨_, by simpa [Abs.names] using hrest⟩
              len := by
                have := encS_pos s.elems
                simp only [Abs.names]; omega
              elem := h.elem
              attr := by simp
              pi := by simp
              ok := by
                intro n hm
                simp only [Abs.names] at hm
                exact hok n (by simp [hm]) }
    · simp only [token]
      rw [h.attr u ht, hrest]
      exact cstring_ok _ _ _ (hok u (by simp)).2
  | piabort =>
    simp only [aperform] at ha
    split at ha <;> simp at ha
    rename_i u ht
    subst ha
    have hn : s.names = u :: s.elems := by simp [Abs.names, ht]
    rw [hn] at hb hl hok
    simp only [perform]
    rw [pop_ok (hok u (by simp)) hb hl]
    have hrest : p.mem.buf = encS s.elems ++ (u ++ 0 :: rest) := by rw [hb]; simp [encS]
    refine ⟨_, rfl, Or.inr ⟨rfl, fun _ => ⟨?_, rfl, rfl⟩⟩⟩
    · exact { ctl := h.ctl, ignore := h.ignore, data := h.data
              buf := ⟨_, by simpa [Abs.names] using hrest⟩
              len := by
                have := encS_pos s.elems
                simp only [Abs.names]; omega
              elem := h.elem
              attr := by simp
              pi := by simp
              ok := by
                intro n hm
                simp only [Abs.names] at hm
                exact hok n (by simp [hm]) }
  | pivalend =>
    simp only [aperform] at ha
    split at ha <;> simp at ha
    rename_i u ht
    subst ha
    have hn : s.names = u :: s.elems := by simp [Abs.names, ht]
    rw [hn] at hb hl hok
    simp only [perform]
    rw [pop_ok (hok u (by simp)) hb hl]
    have hrest : p.mem.buf = encS s.elems ++ (u ++ 0 :: rest) := by rw [hb]; simp [encS]
    refine ⟨_, rfl, Or.inr ⟨rfl, fun _ => ⟨?_, rfl, rfl⟩⟩⟩
    · exact { ctl := h.ctl, ignore := h.ignore, data := h.data
              buf := ⟨_, by simpa [Abs.names] using hrest⟩
              len := by
                have := encS_pos s.elems
                simp only [Abs.names]; omega
              elem := h.elem
              attr := by simp
              pi := by simp
              ok := by
                intro n hm
                simp only [Abs.names] at hm
                exact hok n (by simp [hm]) }
  | pinameend =>
    simp only [aperform] at ha
    split at ha <;> simp at ha
    rename_i u ht
    subst ha
    have hn : s.names = u :: s.elems := by simp [Abs.names, ht]
    rw [hn] at hb hl hok
    have hrest : p.mem.buf = encS s.elems ++ (u ++ 0 :: rest) := by rw [hb]; simp [encS]
    have hget : ∀ i, p.mem.buf[p.mem.pi + i]? = (u ++ 0 :: rest)[i]? := by
      intro i
      rw [h.pi u ht, hrest, List.getElem?_append_right (by omega)]
      simp
    refine ⟨_, xmlName_read u rest p (hok u (by simp)).2 hget, Or.inr ⟨rfl, fun _ => ⟨h, ?_, rfl⟩⟩⟩
    dsimp only
    split <;> rfl
  | selfclose =>
    simp only [aperform] at ha
    split at ha <;> simp at ha
    rename_i e l ht he
    subst ha
    obtain ⟨p', h1, h2, h3⟩ := close_ok h ht he
    exact ⟨_, h1, Or.inr ⟨rfl, fun _ => ⟨h2, rfl, h3⟩⟩⟩
  | elemclose =>
    simp only [aperform] at ha
    split at ha <;> simp at ha
    rename_i e l ht he
    subst ha
    have hel := h.elem e l he
    obtain ⟨rest', hg⟩ := get_elem h ht he
    simp only [perform, elemclose]
    rw [hg]
    by_cases hk : s.k < e.length
    · rw [List.getElem?_append_left hk, List.getElem?_eq_getElem hk]
      by_cases hc : e[s.k] = ch
      · simp only [Option.map_some]
        rw [if_neg (by simp [hc]), if_pos (by rw [hc])]
        refine ⟨_, rfl, Or.inr ⟨rfl, fun _ => ⟨?_, rfl, rfl⟩⟩⟩
        exact { ctl := h.ctl, ignore := h.ignore, data := h.data, buf := h.buf, len := h.len
                elem := by
                  intro e' l' he'
                  have he'' : s.elems = e' :: l' := he'
                  rw [he] at he''
                  obtain ⟨rfl, rfl⟩ := List.cons.inj he''
                  exact ⟨by simp only [hel.1]; omega, by simp only; omega⟩
                attr := h.attr, pi := h.pi, ok := h.ok }
      · simp only [Option.map_some]
        rw [if_pos hc, if_neg (by simpa using hc)]
        exact ⟨_, rfl, Or.inr ⟨rfl, fun h0 => by simp [Ret.isError] at h0⟩⟩
    · have hk2 : s.k = e.length := by omega
      rw [hk2, get_append]
      have : (0 : UInt8) ≠ ch := fun h0 => hch h0.symm
      simp only [Option.map_some]
      rw [if_pos this, if_neg (by simp)]
      exact ⟨_, rfl, Or.inr ⟨rfl, fun h0 => by simp [Ret.isError] at h0⟩⟩
  | elemcloseend =>
    simp only [aperform] at ha
    split at ha <;> simp at ha
    rename_i e l ht he
    subst ha
    have hel := h.elem e l he
    obtain ⟨rest', hg⟩ := get_elem h ht he
    simp only [perform, elemcloseend]
    rw [hg]
    by_cases hk : s.k < e.length
    · rw [List.getElem?_append_left hk, List.getElem?_eq_getElem hk]
      have hne : e[s.k] ≠ 0 := by
        intro h0
        have hn : s.names = e :: l := by simp [Abs.names, ht, he]
        rw [hn] at hok
        exact (hok e (by simp)).2 (h0 ▸ List.getElem_mem hk)
      simp only [Option.bind_some, if_pos hne]
      rw [if_neg (by omega)]
      exact ⟨_, rfl, Or.inr ⟨rfl, fun h0 => by simp [Ret.isError] at h0⟩⟩
    · have hk2 : s.k = e.length := by omega
      rw [hk2, get_append]
      simp only [Option.bind_some, ne_eq, not_true_eq_false, if_false, if_true]
      obtain ⟨p', h1, h2, h3⟩ := close_ok h ht he
      exact ⟨_, h1, Or.inr ⟨rfl, fun _ => ⟨h2, rfl, h3⟩⟩⟩
  | refstart =>
    simp only [aperform, Option.some.injEq] at ha; subst ha
    exact ⟨_, rfl, Or.inr ⟨rfl, fun _ => ⟨h.withData _, rfl, rfl⟩⟩⟩
  | ref =>
    simp only [aperform, Option.some.injEq] at ha
    simp only [perform, h.data]
    subst ha
    by_cases h7 : 7 ≤ s.data.length
    · rw [if_pos h7, if_pos h7]
      exact ⟨_, rfl, Or.inr ⟨rfl, fun h0 => by simp [Ret.isError] at h0⟩⟩
    · rw [if_neg h7, if_neg h7]
      exact ⟨_, rfl, Or.inr ⟨rfl, fun _ => ⟨h.withData _, rfl, rfl⟩⟩⟩
  | refattrval =>
    simp only [aperform, Option.some.injEq] at ha
    simp only [perform, refend, arefend, h.data] at ha ⊢
    subst ha
    by_cases h7 : refRejected (refValue s.data)
    · rw [if_pos h7, if_pos h7]
      exact ⟨_, rfl, Or.inr ⟨rfl, fun h0 => by simp [Ret.isError] at h0⟩⟩
    · rw [if_neg h7, if_neg h7]
      exact ⟨_, rfl, Or.inr ⟨rfl, fun _ => ⟨h.withData _, rfl, rfl⟩⟩⟩
  | refcontent =>
    simp only [aperform, Option.some.injEq] at ha
    simp only [perform, refend, arefend, h.data] at ha ⊢
    subst ha
    by_cases h7 : refRejected (refValue s.data)
    · rw [if_pos h7, if_pos h7]
      exact ⟨_, rfl, Or.inr ⟨rfl, fun h0 => by simp [Ret.isError] at h0⟩⟩
    · rw [if_neg h7, if_neg h7]
      exact ⟨_, rfl, Or.inr ⟨rfl, fun _ => ⟨h.withData _, rfl, rfl⟩⟩⟩
  | dataattr | datacontent | datacd1 | datacd2 =>
    simp only [aperform, Option.some.injEq] at ha; subst ha
    exact ⟨_, rfl, Or.inr ⟨rfl, fun _ => ⟨h.withData _, rfl, rfl⟩⟩⟩
  | datapi1 | datapi2 =>
    simp only [aperform, Option.some.injEq] at ha; subst ha
    exact ⟨_, rfl, Or.inr ⟨rfl, fun _ => ⟨h.withData _, rfl, rfl⟩⟩⟩

end Duck.Xml
