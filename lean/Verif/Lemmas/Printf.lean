import Verif.Spec.Printf
import Verif.Lemmas.Text
namespace Duck
namespace Printf
open Unicode

variable {σ : Type} {write : Write σ} {libc : Libc} {γ : Type} {content : σ → γ} {app : γ → List UInt8 → γ}

/-! ## Streams -/

/-- Writing acts on what is observed of the stream. -/
structure Acts (write : Write σ) (content : σ → γ) (app : γ → List UInt8 → γ) : Prop where
  content : ∀ s bs, content (write s bs).1 = app (content s) bs
  count : ∀ s bs, (write s bs).2 = bs.length
  nil : ∀ g, app g [] = g
  assoc : ∀ g a b, app (app g a) b = app g (a ++ b)

theorem Appends.acts {content : σ → List UInt8} (A : Appends write content) : Acts write content (· ++ ·) :=
  ⟨A.content, A.count, List.append_nil, List.append_assoc⟩

/-- One write to a data object or string. -/
theorem writeData_eq (d : Data.Obj) (bs : List UInt8) : writeData d bs =
    (⟨d.bytes.take d.cursor ++ bs ++ d.bytes.drop (d.cursor + bs.length), (d.bytes.take d.cursor).length + bs.length⟩, bs.length) := by
  simp only [writeData, Data.write]
  have hc : (Data.setCursor d d.cursor).bytes = d.bytes ∧ (Data.setCursor d d.cursor).cursor = min d.cursor d.bytes.length := by
    unfold Data.setCursor
    split
    · omega
    · split <;> refine ⟨rfl, ?_⟩ <;> simp <;> omega
  obtain ⟨e1, e2⟩ := hc
  have ha : Data.available (Data.setCursor d d.cursor) bs.length = min bs.length (d.bytes.length - min d.cursor d.bytes.length) := by
    unfold Data.available
    rw [e1, e2]
    split <;> omega
  generalize Data.setCursor d d.cursor = d1 at *
  rw [e1, e2, ha]
  have hs : Spec.splice d.bytes (min d.cursor d.bytes.length) (min bs.length (d.bytes.length - min d.cursor d.bytes.length)) bs =
      d.bytes.take d.cursor ++ bs ++ d.bytes.drop (d.cursor + bs.length) := by
    unfold Spec.splice
    congr 1
    · congr 1
      rw [← List.take_eq_take_min]
    · by_cases h : d.cursor + bs.length ≤ d.bytes.length
      · congr 1; omega
      · rw [List.drop_eq_nil_of_le, List.drop_eq_nil_of_le] <;> omega
  rw [hs]
  have hlen : (d.bytes.take d.cursor).length = min d.cursor d.bytes.length := by simp
  rw [hlen]
  unfold Data.setCursor
  simp only
  split
  · omega
  · rw [if_neg (by simp only [List.length_append, hlen]; omega)]
    rfl

/-- On a data object or string: what is before the cursor grows, what is after it is overwritten. -/
theorem acts_data : Acts writeData (fun d : Data.Obj => (d.bytes.take d.cursor, d.bytes.drop d.cursor))
    (fun g bs => (g.1 ++ bs, g.2.drop bs.length)) := by
  refine ⟨?_, fun _ _ => rfl, by simp, by simp⟩
  intro d bs
  rw [writeData_eq]
  simp only
  rw [show (d.bytes.take d.cursor).length + bs.length = (d.bytes.take d.cursor ++ bs).length by rw [List.length_append]]
  rw [List.take_left, List.drop_left, List.drop_drop]

/-! ## One directive -/

theorem tokenSpan_eq {body : List UInt8} {t : UInt8} {r : List UInt8} (hb : ∀ b ∈ body, b ≠ 0 ∧ b ∉ tokens) (ht : t ∈ tokens)
    (h0 : (0 : UInt8) ∈ r) : tokenSpan (body ++ t :: r) = some body.length := by
  rw [tokenSpan, if_pos (by simp [h0])]
  congr 1
  induction body with
  | nil => simp [ht]
  | cons b body ih =>
    have := hb b (by simp)
    rw [List.cons_append, List.takeWhile_cons, if_pos (by simp [this]), List.length_cons, List.length_cons, ih fun x hx => hb x (by simp [hx])]

def pended (write : Write σ) (st : St σ) (pend : List UInt8) : St σ := if pend = [] then st else st.emit write pend

theorem flush_eq {m : Mem} {start : Nat} {pend rest : List UInt8} (hm : m.drop start = pend ++ rest) (st : St σ) (hr : rest ≠ []) :
    st.flush write m start pend.length = some (pended write st pend) := by
  unfold St.flush pended
  by_cases hp : pend = []
  · subst hp; simp
  · have hl := congrArg List.length hm
    simp only [List.length_drop, List.length_append] at hl
    have := List.length_pos_iff.mpr hr
    rw [if_pos (List.length_pos_iff.mpr hp), if_pos (by omega), if_neg hp, hm, List.take_left]

theorem go_directive {m : Mem} {start fuel : Nat} {pend body rest : List UInt8} {t : UInt8} {st : St σ}
    (hm : m.drop start = pend ++ (0x25 :: (body ++ t :: (rest ++ [0])))) (hb : ∀ b ∈ body, b ≠ 0 ∧ b ∉ tokens) (ht : t ∈ tokens) :
    go write libc m (fuel + 1) (start + pend.length) start pend.length st =
      ((pended write st pend).directive write libc m (start + pend.length) (body.length + 1) t).bind fun d =>
        go write libc m fuel (start + pend.length + (body.length + 1) + 1) d.2.1 d.2.2 d.1 := by
  have hc : m.drop (start + pend.length) = 0x25 :: (body ++ t :: (rest ++ [0])) := by
    rw [← List.drop_drop, hm, List.drop_left]
  have hc1 : m.drop (start + pend.length + 1) = body ++ t :: (rest ++ [0]) := by
    rw [← List.drop_drop, hc]; rfl
  have hc2 : m[start + pend.length + (body.length + 1)]? = some t := by
    have : m[start + pend.length + (body.length + 1)]? = (m.drop (start + pend.length))[body.length + 1]? := by simp
    rw [this, hc]; simp
  rw [go.eq_def]
  have hs : ustrscan (0x25 :: (body ++ t :: (rest ++ [0]))) = some (0x25, 1) := by
    simp [ustrscan, next, rd]
  rw [hc, hs, Option.bind_some, if_neg (by decide)]
  simp only
  rw [if_neg (by decide), flush_eq hm st (by simp), Option.bind_some, hc1, tokenSpan_eq hb ht (by simp), Option.bind_some, hc2, Option.bind_some]

/-- Text is added to the sequence. -/
theorem go_text {m : Mem} {start : Nat} {st : St σ} : ∀ (cs : List Char) (fuel cursor count : Nat) (rest : List UInt8), '\x00' ∉ cs → '%' ∉ cs →
    m.drop cursor = utf8 cs ++ rest → (utf8 cs).length ≤ fuel →
    ∃ fuel', fuel - (utf8 cs).length ≤ fuel' ∧
      go write libc m fuel cursor start count st = go write libc m fuel' (cursor + (utf8 cs).length) start (count + (utf8 cs).length) st
  | [], fuel, cursor, count, rest, _, _, _, _ => ⟨fuel, by omega, rfl⟩
  | c :: cs, fuel, cursor, count, rest, hz, hp, hm, hf => by
    have hcz : c ≠ '\x00' := fun e => hz (by simp [e])
    have hcp : c ≠ '%' := fun e => hp (by simp [e])
    have he : utf8 (c :: cs) = String.utf8EncodeChar c ++ utf8 cs := rfl
    have hpos : 0 < (String.utf8EncodeChar c).length := List.length_pos_iff.mpr (enc_ne_nil c)
    rw [he, List.length_append] at hf ⊢
    have hs : ustrscan (m.drop cursor) = some ((c.toNat : Int), (String.utf8EncodeChar c).length) := by
      rw [hm, he, List.append_assoc, ustrscan_char hcz]
    have hm' : m.drop (cursor + (String.utf8EncodeChar c).length) = utf8 cs ++ rest := by
      rw [← List.drop_drop, hm, he, List.append_assoc, List.drop_left]
    match fuel, hf with
    | fuel + 1, hf =>
      obtain ⟨fuel', h1, h2⟩ := go_text cs fuel (cursor + (String.utf8EncodeChar c).length) (count + (String.utf8EncodeChar c).length) rest
        (fun h => hz (by simp [h])) (fun h => hp (by simp [h])) hm' (by omega)
      refine ⟨fuel', by omega, ?_⟩
      rw [go.eq_def, hs, Option.bind_some, if_neg (by simp only; omega)]
      simp only
      rw [if_pos (Or.inr ?_), h2, Nat.add_assoc, Nat.add_assoc]
      intro e
      exact hcp (Char.toNat_inj.mp (by have : (c.toNat : Int) = 0x25 := e
                                       have h : '%'.toNat = 37 := rfl
                                       omega))
    | 0, hf => omega

theorem isFlag_ok {b : UInt8} (h : isFlag b = true) : b ≠ 0 ∧ b ∉ tokens ∧ b ≠ 0x6c ∧ b ≠ 0x68 ∧ b ≠ 0x70 ∧ b ≠ 0x6a ∧ b ≠ 0x7a ∧ b ≠ 0x74 ∧ b ≠ 0x4c := by
  have : ∀ n : Fin 256, isFlag (UInt8.ofNat n) = true → UInt8.ofNat n ≠ 0 ∧ UInt8.ofNat n ∉ tokens ∧ UInt8.ofNat n ≠ 0x6c ∧ UInt8.ofNat n ≠ 0x68 ∧ UInt8.ofNat n ≠ 0x70 ∧ UInt8.ofNat n ≠ 0x6a ∧
      UInt8.ofNat n ≠ 0x7a ∧ UInt8.ofNat n ≠ 0x74 ∧ UInt8.ofNat n ≠ 0x4c := by decide +kernel
  have h2 := this ⟨b.toNat, b.toNat_lt⟩
  simp only [UInt8.ofNat_toNat] at h2
  exact h2 h

theorem letters_ok (mod : Modifier) : ∀ b ∈ mod.letters, b ≠ 0 ∧ b ∉ tokens := by cases mod <;> decide

theorem copyFormat_eq {m : Mem} {cursor : Nat} {body rest : List UInt8} {t : UInt8} (hm : m.drop cursor = 0x25 :: (body ++ t :: rest))
    (hl : body.length ≤ 5) : copyFormat m cursor (body.length + 1 + 1) = some (0x25 :: (body ++ [t])) := by
  have hlen := congrArg List.length hm
  simp only [List.length_drop, List.length_cons, List.length_append] at hlen
  rw [copyFormat, if_pos (by omega), if_pos (by omega), hm]
  congr 1
  have : 0x25 :: (body ++ t :: rest) = (0x25 :: (body ++ [t])) ++ rest := by simp
  rw [this, show body.length + 1 + 1 = (0x25 :: (body ++ [t])).length by simp, List.take_left]

/-- The byte before the letter. -/
def lastByte (body : List UInt8) : UInt8 := body.getLastD 0x25

@[simp] theorem lastByte_append (body : List UInt8) (x : UInt8) : lastByte (body ++ [x]) = x := by simp [lastByte]
@[simp] theorem lastByte_nil : lastByte [] = 0x25 := rfl

/-- The byte before the last of a directive. -/
theorem before_eq {body rest : List UInt8} {t : UInt8} :
    rd (0x25 :: (body ++ t :: rest)) body.length = some (lastByte body).toNat := by
  rcases List.eq_nil_or_concat body with rfl | ⟨l, x, rfl⟩
  · rfl
  · simp [rd]

theorem before2_eq {body rest : List UInt8} {a t : UInt8} :
    rd (0x25 :: ((body ++ [a]) ++ t :: rest)) body.length = some (lastByte body).toNat := by
  have h1 : (0x25 :: ((body ++ [a]) ++ t :: rest)) = 0x25 :: (body ++ a :: (t :: rest)) := by simp
  rw [h1]; exact before_eq

/-! ## Trimming zeros -/

theorem trimGo_spec (num : List UInt8) (stop : Nat) : ∀ len, len ≤ num.length → trimGo num stop len ≤ len ∧
    (∀ i, trimGo num stop len ≤ i → i < len → num[i]? = some 0x30) ∧
    (trimGo num stop len ≤ stop + 1 ∧ (len ≤ stop + 1 → trimGo num stop len = len) ∨ num[trimGo num stop len - 1]? ≠ some 0x30) ∧ (stop + 1 ≤ len → stop + 1 ≤ trimGo num stop len)
  | 0, _ => by simp [trimGo]
  | i + 1, h => by
    rw [trimGo]
    split
    · next hc =>
      obtain ⟨h1, h2, h3, h4⟩ := trimGo_spec num stop i (by omega)
      refine ⟨by omega, ?_, ?_, fun _ => h4 (by omega)⟩
      · intro j hj hj2
        by_cases e : j = i
        · rw [e]; exact hc.2
        · exact h2 j hj (by omega)
      · rcases h3 with ⟨h3, h5⟩ | h3
        · exact Or.inl ⟨h3, fun h => absurd hc.1 (by omega)⟩
        · exact Or.inr h3
    · next hc =>
      refine ⟨Nat.le_refl _, fun j h1 h2 => by omega, ?_, fun h => h⟩
      by_cases hs : i > stop
      · right
        intro e
        exact hc ⟨hs, by simpa using e⟩
      · left; exact ⟨by omega, fun _ => rfl⟩

theorem takeWhile_point : ∀ {s : List UInt8}, (0x2e : UInt8) ∈ s → ∃ a b, s = a ++ 0x2e :: b ∧ (0x2e : UInt8) ∉ a ∧ s.takeWhile (· != 0x2e) = a
  | [], h => by cases h
  | x :: s, h => by
    by_cases hx : x = 0x2e
    · subst hx; exact ⟨[], s, rfl, by simp, by simp⟩
    · obtain ⟨a, b, e, h1, h2⟩ := takeWhile_point (s := s) (by rcases List.mem_cons.mp h with h | h; exact absurd h.symm hx; exact h)
      refine ⟨x :: a, b, by rw [e]; rfl, ?_, ?_⟩
      · intro hm; rcases List.mem_cons.mp hm with h | h
        · exact hx h.symm
        · exact h1 h
      · rw [List.takeWhile_cons, if_pos (by simp [hx]), h2]

theorem pretty_trim (s : List UInt8) : Pretty s (trimZeroes s) := by
  unfold Pretty trimZeroes
  split
  · next h =>
    obtain ⟨a, b, e, ha, ht⟩ := takeWhile_point h
    rw [ht]
    obtain ⟨h1, h2, h3, h4⟩ := trimGo_spec s (a.length + 1) s.length (Nat.le_refl _)
    have hl : s.length = a.length + 1 + b.length := by rw [e]; simp; omega
    generalize trimGo s (a.length + 1) s.length = k at *
    refine ⟨s.length - k, ?_, a, b.take (k - (a.length + 1)), ?_, ha, ?_⟩
    · conv => lhs; rw [← List.take_append_drop k s]
      congr 1
      refine List.eq_replicate_iff.mpr ⟨by simp, ?_⟩
      intro x hx
      obtain ⟨i, hi, rfl⟩ := List.getElem_of_mem hx
      have hi' : i < s.length - k := by simpa using hi
      have := h2 (k + i) (by omega) (by omega)
      rw [List.getElem?_eq_getElem (by omega)] at this
      simp only [List.getElem_drop]
      exact Option.some.inj this
    · have hk : a.length + 1 ≤ k := by
        by_cases hb : b.length = 0
        · rcases h3 with ⟨-, h5⟩ | h3
          · rw [h5 (by omega)]; omega
          · by_cases hk : a.length + 1 ≤ k
            · exact hk
            · exfalso
              have := h2 (s.length - 1) (by omega) (by omega)
              have hb' : b = [] := List.length_eq_zero_iff.mp hb
              rw [e, hb'] at this
              simp at this
        · have := h4 (by omega); omega
      rw [e, show a ++ 0x2e :: b = (a ++ [0x2e]) ++ b by simp, List.take_append, List.take_of_length_le (by simp; omega)]
      simp
    · by_cases hb : b.length = 0
      · have hb' : b = [] := List.length_eq_zero_iff.mp hb
        refine ⟨Or.inl ?_, Or.inl (by simp [hb'])⟩
        rcases h3 with ⟨-, h5⟩ | h3
        · have := h5 (by omega); omega
        · by_cases hk : k = s.length
          · omega
          · exfalso
            have := h2 (s.length - 1) (by omega) (by omega)
            rw [e, hb'] at this
            simp at this
      · have hk := h4 (by omega)
        refine ⟨Or.inr ?_, ?_⟩
        · intro h
          have := congrArg List.length h
          rw [List.length_take, List.length_nil] at this; omega
        rcases h3 with ⟨h3, -⟩ | h3
        · left; rw [List.length_take]; omega
        · right
          rw [List.getLast?_eq_getElem?, List.length_take, List.getElem?_take]
          intro hc
          split at hc
          · apply h3
            rw [e, List.getElem?_append_right (by omega)]
            rw [show k - 1 - a.length = (min (k - (a.length + 1)) b.length - 1) + 1 by omega, List.getElem?_cons_succ]
            exact hc
          · cases hc
  · rfl

/-! ## The pieces -/

/-- How much the call counts for a piece. -/
def weight : Piece → List UInt8 → Nat
  | .chr v, _ => if v = 0x63 then 1 else 0
  | _, out => out.length

/-- What is stored for a piece. -/
def stored (n : Nat) : Piece → List (Nat × Nat)
  | .count mod => [(mod.bits, n % 2 ^ mod.bits)]
  | _ => []

theorem emit_spec (A : Acts write content app) (st : St σ) (bs : List UInt8) :
    content (st.emit write bs).stream = app (content st.stream) bs ∧ (st.emit write bs).count = st.count + bs.length ∧
    (st.emit write bs).args = st.args ∧ (st.emit write bs).stores = st.stores := by
  refine ⟨A.content _ _, ?_, rfl, rfl⟩
  simp only [St.emit, A.count]

theorem pended_spec (A : Acts write content app) (st : St σ) (bs : List UInt8) :
    content (pended write st bs).stream = app (content st.stream) bs ∧ (pended write st bs).count = st.count + bs.length ∧
    (pended write st bs).args = st.args ∧ (pended write st bs).stores = st.stores := by
  unfold pended
  split
  · next h => subst h; simp [A.nil]
  · exact emit_spec A st bs

theorem buffer_spec (A : Acts write content app) (st : St σ) {fmt out : List UInt8} {a : Arg} (h : libc fmt a = some out) :
    ∃ st', st.viaBuffer write libc fmt a = some st' ∧ content st'.stream = app (content st.stream) out ∧ st'.count = st.count + out.length ∧
      st'.args = st.args ∧ st'.stores = st.stores := by
  simp only [St.viaBuffer, h, Option.map_some]
  refine ⟨_, rfl, ?_⟩
  split
  · exact emit_spec A st out
  · next hn =>
    have : out = [] := List.length_eq_zero_iff.mp (by omega)
    subst this; simp [A.nil]

theorem number_spec (A : Acts write content app) (st : St σ) {out : List UInt8} (h : out.length < 120) :
    ∃ st', st.number write out = some st' ∧ content st'.stream = app (content st.stream) out ∧ st'.count = st.count + out.length ∧
      st'.args = st.args ∧ st'.stores = st.stores := by
  simp only [St.number, if_pos h]
  refine ⟨_, rfl, ?_, rfl, rfl, rfl⟩
  simp only
  split
  · exact A.content _ _
  · next hn =>
    have : out = [] := List.length_eq_zero_iff.mp (by omega)
    subst this; simp [A.nil]

theorem trim_len (s : List UInt8) : (trimZeroes s).length ≤ s.length := by
  unfold trimZeroes
  split
  · rw [List.length_take]; omega
  · exact Nat.le_refl _

theorem pretty_unique {s t t' : List UInt8} (h : Pretty s t) (h' : Pretty s t') : t = t' := by
  unfold Pretty at h h'
  split at h
  · next hm =>
    rw [if_pos hm] at h'
    obtain ⟨n, e, a, b, et, ha, hb⟩ := h
    obtain ⟨n', e', a', b', et', ha', hb'⟩ := h'
    have key : ∀ (n n' : Nat) (t t' a b a' b' : List UInt8), s = t ++ List.replicate n 0x30 → s = t' ++ List.replicate n' 0x30 →
        t = a ++ 0x2e :: b → t' = a' ++ 0x2e :: b' → (0x2e : UInt8) ∉ a → (0x2e : UInt8) ∉ a' →
        (b.length ≤ 1 ∨ b.getLast? ≠ some 0x30) → (n' = 0 ∨ b' ≠ []) → ¬ n < n' := by
      intro n n' t t' a b a' b' e e' et et' ha ha' hb hb' hlt
      -- t is t' followed by zeros
      have h1 : t = t' ++ List.replicate (n' - n) 0x30 := by
        have : t ++ List.replicate n (0x30 : UInt8) = (t' ++ List.replicate (n' - n) 0x30) ++ List.replicate n 0x30 := by
          rw [← e, e', List.append_assoc, List.replicate_append_replicate]
          congr 2; omega
        exact List.append_cancel_right this
      have h2 : a ++ 0x2e :: b = a' ++ 0x2e :: (b' ++ List.replicate (n' - n) 0x30) := by
        rw [← et, h1, et']; simp
      have h3 : a = a' ∧ b = b' ++ List.replicate (n' - n) 0x30 := by
        clear e e' et et' hb hb' h1
        induction a generalizing a' with
        | nil =>
          cases a' with
          | nil => simpa using h2
          | cons x a' =>
            simp only [List.nil_append, List.cons_append, List.cons.injEq] at h2
            exact absurd (by simp [← h2.1]) ha'
        | cons x a ih =>
          cases a' with
          | nil =>
            simp only [List.nil_append, List.cons_append, List.cons.injEq] at h2
            exact absurd (by simp [h2.1]) ha
          | cons y a' =>
            simp only [List.cons_append, List.cons.injEq] at h2
            obtain ⟨h3, h4⟩ := ih a' (fun h => ha (by simp [h])) (fun h => ha' (by simp [h])) h2.2
            exact ⟨by rw [h2.1, h3], h4⟩
      have hbne : b ≠ [] := by
        intro h
        have := congrArg List.length h3.2
        rw [h] at this; simp at this; omega
      have hlast : b.getLast? = some 0x30 := by
        rw [h3.2, show n' - n = (n' - n - 1) + 1 by omega, List.replicate_succ']
        simp
      rcases hb with h | h
      · -- b has one byte, so b' is empty and n' is not zero
        have hl := congrArg List.length h3.2
        simp at hl
        have hb0 : b' = [] := List.length_eq_zero_iff.mp (by omega)
        rcases hb' with h0 | h5
        · omega
        · exact h5 hb0
      · exact h hlast
    have h1 := key n n' t t' a b a' b' e e' et et' ha ha' hb.2 hb'.1
    have h2 := key n' n t' t a' b' a b e' e et' et ha' ha hb'.2 hb.1
    have hn : n = n' := by omega
    subst hn
    exact List.append_cancel_right (e.symm.trans e')
  · next hm => rw [if_neg hm] at h'; rw [h, h']

theorem float_spec (A : Acts write content app) (st : St σ) {fmt full out : List UInt8} {u : Bool} (h : full.length < 120)
    (hu : isUnformatted fmt fmt.length = some u) (ho : if u then Pretty full out else out = full) :
    ∃ st', st.float write fmt full = some st' ∧ content st'.stream = app (content st.stream) out ∧ st'.count = st.count + out.length ∧
      st'.args = st.args ∧ st'.stores = st.stores := by
  rw [St.float, if_pos h, hu, Option.bind_some]
  have : (if u = true ∧ full.length > 0 then trimZeroes full else full) = out := by
    cases u
    · simp at ho; simp [ho]
    · simp only [if_true] at ho
      have := pretty_unique ho (pretty_trim full)
      by_cases hl : full.length > 0
      · simp [hl, this]
      · have : full = [] := List.length_eq_zero_iff.mp (by omega)
        subst this
        simpa [Pretty] using ho.symm
  rw [this]
  refine number_spec A st ?_
  rw [← this]
  have := trim_len full
  split <;> omega

/-- A directive other than `%%`. -/
def Piece.isDirective : Piece → Bool
  | .text _ | .percent => false
  | _ => true

/-- What a directive does. -/
def Does (write : Write σ) (libc : Libc) (content : σ → γ) (app : γ → List UInt8 → γ) (p : Piece) (out : List UInt8) : Prop :=
  ∃ body t, p.format = 0x25 :: (body ++ [t]) ∧ (∀ b ∈ body, b ≠ 0 ∧ b ∉ tokens) ∧ t ∈ tokens ∧
    ∀ (m : Mem) (cursor : Nat) (st : St σ) (rest : List UInt8) (more : List Arg), m.drop cursor = 0x25 :: (body ++ t :: rest) → st.args = p.args ++ more →
      ∃ st', st.directive write libc m cursor (body.length + 1) t = some (st', cursor + (body.length + 1) + 1, 0) ∧
        content st'.stream = app (content st.stream) out ∧ st'.count = st.count + weight p out ∧ st'.args = more ∧
        st'.stores = st.stores ++ stored st.count p

theorem flags_tokens {flags : List UInt8} (h : ∀ b ∈ flags, isFlag b = true) : ∀ b ∈ flags, b ≠ 0 ∧ b ∉ tokens :=
  fun b hb => ⟨(isFlag_ok (h b hb)).1, (isFlag_ok (h b hb)).2.1⟩

theorem append_tokens {a b : List UInt8} (ha : ∀ x ∈ a, x ≠ 0 ∧ x ∉ tokens) (hb : ∀ x ∈ b, x ≠ 0 ∧ x ∉ tokens) : ∀ x ∈ a ++ b, x ≠ 0 ∧ x ∉ tokens := by
  intro x hx; rcases List.mem_append.mp hx with h | h
  · exact ha x h
  · exact hb x h

/-- The last byte before the letter, when it is no modifier. -/
theorem last_flag {flags : List UInt8} (h : ∀ b ∈ flags, isFlag b = true) : (lastByte flags).toNat ≠ 0x6c ∧ (lastByte flags).toNat ≠ 0x68 ∧
    (lastByte flags).toNat ≠ 0x70 ∧ (lastByte flags).toNat ≠ 0x6a ∧ (lastByte flags).toNat ≠ 0x7a ∧ (lastByte flags).toNat ≠ 0x74 ∧ (lastByte flags).toNat ≠ 0x4c := by
  have hm : lastByte flags ∈ 0x25 :: flags := by
    rcases List.eq_nil_or_concat flags with rfl | ⟨l, y, rfl⟩ <;> simp
  have : ∀ x y : UInt8, x ≠ y → x.toNat ≠ y.toNat := fun x y h e => h (UInt8.toNat_inj.mp e)
  generalize lastByte flags = x at *
  rcases List.mem_cons.mp hm with rfl | hm
  · decide
  · obtain ⟨h1, h2, h3, h4, h5, h6, h7⟩ := (isFlag_ok (h x hm)).2.2
    exact ⟨this _ _ h1, this _ _ h2, this _ _ h3, this _ _ h4, this _ _ h5, this _ _ h6, this _ _ h7⟩

theorem toNat_ne {x y : UInt8} (h : x ≠ y) : x.toNat ≠ y.toNat := fun e => h (UInt8.toNat_inj.mp e)

theorem nullText_eq : nullText = placeholder := rfl
theorem nullWide_eq : nullWide = widePlaceholder := rfl

theorem does_str (A : Acts write content app) {flags : List UInt8} {s : Option (List UInt8)} {out : List UInt8}
    (hok : (Piece.str flags s).Ok) (hw : (Piece.str flags s).Writes libc out) : Does write libc content app (.str flags s) out := by
  refine ⟨flags, 0x73, rfl, flags_tokens hok.1, by decide, ?_⟩
  intro m cursor st rest more hm ha
  have hb : rd m (cursor + (flags.length + 1) - 1) = some (lastByte flags).toNat := by
    have : rd m (cursor + (flags.length + 1) - 1) = rd (m.drop cursor) flags.length := by simp [rd]
    rw [this, hm]; exact before_eq
  have hl := (last_flag hok.1).1
  have hpop : st.popStr = some (s, { st with args := more }) := by simp [St.popStr, ha, Piece.args]
  simp only [St.directive, show ¬ (0x73 : UInt8) = 0x25 by decide, if_false, if_true, St.string, hb, Option.bind_some, hpop, nullText_eq, nullWide_eq]
  rw [if_neg hl]
  by_cases hf : flags = []
  · subst hf
    simp only [Piece.Writes, if_true] at hw
    subst hw
    simp only [List.length_nil, Nat.zero_add, gt_iff_lt, Nat.lt_irrefl, if_false, Option.map_some]
    obtain ⟨h1, h2, h3, h4⟩ := emit_spec A { st with args := more } (s.getD placeholder)
    exact ⟨_, rfl, h1, h2, h3, by rw [h4]; simp [stored]⟩
  · simp only [Piece.Writes, if_neg hf] at hw
    have hpos : flags.length + 1 > 1 := by have := List.length_pos_iff.mpr hf; omega
    rw [if_pos hpos, copyFormat_eq hm hok.2, Option.bind_some]
    obtain ⟨st', h0, h1, h2, h3, h4⟩ := buffer_spec A { st with args := more } hw
    rw [show (0x25 :: (flags ++ [0x73])) = (Piece.str flags s).format from rfl, h0]
    exact ⟨st', rfl, h1, h2, h3, by rw [h4]; simp [stored]⟩

theorem does_wide (A : Acts write content app) {flags : List UInt8} {s : Option (List (BitVec 32))} {out : List UInt8}
    (hok : (Piece.wide flags s).Ok) (hw : (Piece.wide flags s).Writes libc out) : Does write libc content app (.wide flags s) out := by
  refine ⟨flags ++ [0x6c], 0x73, by simp [Piece.format], append_tokens (flags_tokens hok.1) (by decide), by decide, ?_⟩
  intro m cursor st rest more hm ha
  have hb : rd m (cursor + ((flags ++ [0x6c]).length + 1) - 1) = some 0x6c := by
    have : rd m (cursor + ((flags ++ [0x6c]).length + 1) - 1) = rd (m.drop cursor) (flags ++ [0x6c]).length := by simp [rd]
    rw [this, hm, before_eq]; simp
  have hpop : st.popWide = some (s, { st with args := more }) := by simp [St.popWide, ha, Piece.args]
  simp only [St.directive, show ¬ (0x73 : UInt8) = 0x25 by decide, if_false, if_true, St.string, hb, Option.bind_some, hpop, nullText_eq, nullWide_eq]
  rw [copyFormat_eq hm (by have := hok.2; simp; omega), Option.bind_some]
  obtain ⟨st', h0, h1, h2, h3, h4⟩ := buffer_spec A { st with args := more } hw
  rw [show (0x25 :: ((flags ++ [0x6c]) ++ [0x73])) = (Piece.wide flags s).format by simp [Piece.format], h0]
  exact ⟨st', rfl, h1, h2, h3, by rw [h4]; simp [stored]⟩

theorem does_obj (A : Acts write content app) {d : List UInt8} : Does write libc content app (.obj d) d := by
  refine ⟨[], 0x40, rfl, by simp, by decide, ?_⟩
  intro m cursor st rest more hm ha
  have hpop : st.popObj = some (d, { st with args := more }) := by simp [St.popObj, ha, Piece.args]
  simp only [St.directive, show ¬ (0x40 : UInt8) = 0x25 by decide, show ¬ (0x40 : UInt8) = 0x73 by decide, if_false, if_true, hpop, Option.map_some]
  obtain ⟨h1, h2, h3, h4⟩ := emit_spec A { st with args := more } d
  exact ⟨_, rfl, h1, h2, h3, by rw [h4]; simp [stored]⟩

theorem does_chr (A : Acts write content app) {v : BitVec 32} : Does write libc content app (.chr v) [UInt8.ofBitVec (v.setWidth 8)] := by
  refine ⟨[], 0x63, rfl, by simp, by decide, ?_⟩
  intro m cursor st rest more hm ha
  have hpop : st.popInt = some (v, { st with args := more }) := by simp [St.popInt, ha, Piece.args]
  simp only [St.directive, show ¬ (0x63 : UInt8) = 0x25 by decide, show ¬ (0x63 : UInt8) = 0x73 by decide, show ¬ (0x63 : UInt8) = 0x40 by decide,
    if_false, if_true, St.char, hpop, Option.map_some, A.count, List.length_singleton]
  refine ⟨_, rfl, A.content _ _, ?_, rfl, by simp [stored]⟩
  simp only [weight]
  split <;> rfl

theorem size_one (pre rest : List UInt8) (x letter : UInt8) : integerSize (0x25 :: ((pre ++ [x]) ++ letter :: rest)) ((pre ++ [x]).length + 1 + 1) =
    some (if x.toNat = 0x6c then (if (lastByte pre).toNat = 0x6c then 8 else 8) else if x.toNat = 0x68 then (if (lastByte pre).toNat = 0x68 then 1 else 2)
      else if x.toNat = 0x70 then 8 else if x.toNat = 0x6a then 8 else if x.toNat = 0x7a then 8 else if x.toNat = 0x74 then 8 else 4) := by
  have h1 : ¬ (pre ++ [x]).length + 1 + 1 ≤ 2 := by simp
  rw [integerSize, if_neg h1, show (pre ++ [x]).length + 1 + 1 - 2 = (pre ++ [x]).length by omega, before_eq, Option.bind_some,
    show (pre ++ [x]).length + 1 + 1 - 3 = pre.length by simp, before2_eq, Option.map_some, lastByte_append]

theorem does_int (A : Acts write content app) {flags : List UInt8} {mod : Modifier} {letter : UInt8} {v : BitVec 32} {out : List UInt8}
    (hok : (Piece.int flags mod letter v).Ok) (hw : (Piece.int flags mod letter v).Writes libc out) :
    Does write libc content app (.int flags mod letter v) out := by
  obtain ⟨hfl, hmod, hlet, hlen⟩ := hok
  have hlt : letter ∈ tokens ∧ letter ≠ 0x25 ∧ letter ≠ 0x73 ∧ letter ≠ 0x40 ∧ letter ≠ 0x63 ∧ letter ∈ [0x64, 0x69, 0x75, 0x6f, 0x78, 0x58, (0x70 : UInt8)] := by
    revert hlet; revert letter; intro letter _ h
    simp only [integerLetters, List.mem_cons, List.not_mem_nil, or_false] at h
    rcases h with rfl | rfl | rfl | rfl | rfl | rfl <;> decide
  refine ⟨flags ++ mod.letters, letter, rfl, append_tokens (flags_tokens hfl) (letters_ok mod), hlt.1, ?_⟩
  intro m cursor st rest more hm ha
  have hpop : st.popInt = some (v, { st with args := more }) := by simp [St.popInt, ha, Piece.args]
  have hsize : ∃ k, integerSize (m.drop cursor) ((flags ++ mod.letters).length + 1 + 1) = some k ∧ k ≠ 8 := by
    rw [hm]
    have hlast := last_flag hfl
    cases mod with
    | none =>
      simp only [Modifier.letters, List.append_nil]
      rcases List.eq_nil_or_concat flags with rfl | ⟨l, x, rfl⟩
      · exact ⟨4, rfl, by decide⟩
      · rw [List.concat_eq_append] at hlast ⊢
        rw [size_one]
        rw [lastByte_append] at hlast
        obtain ⟨h1, h2, h3, h4, h5, h6, -⟩ := hlast
        exact ⟨4, by simp only [h1, h2, h3, h4, h5, h6, if_false], by decide⟩
    | h =>
      refine ⟨2, ?_, by decide⟩
      simp only [Modifier.letters]
      rw [size_one]
      simp [hlast.2.1]
    | hh =>
      refine ⟨1, ?_, by decide⟩
      simp only [Modifier.letters]
      rw [show flags ++ [(0x68 : UInt8), 0x68] = (flags ++ [0x68]) ++ [0x68] by simp, size_one]
      simp
    | l | ll | j | z | t => cases hmod
  obtain ⟨k, hk, hk8⟩ := hsize
  simp only [St.directive, if_neg hlt.2.1, if_neg hlt.2.2.1, if_neg hlt.2.2.2.1, if_neg hlt.2.2.2.2.1, if_pos hlt.2.2.2.2.2, St.integer]
  rw [copyFormat_eq hm (by simpa using hlen), Option.bind_some, hk, Option.bind_some, if_neg hk8, hpop, Option.bind_some]
  rw [show (0x25 :: ((flags ++ mod.letters) ++ [letter])) = (Piece.int flags mod letter v).format from rfl, hw.1, Option.bind_some]
  obtain ⟨st', h0, h1, h2, h3, h4⟩ := number_spec A { st with args := more } hw.2
  rw [h0]
  exact ⟨st', rfl, h1, h2, h3, by rw [h4]; simp [stored]⟩

theorem does_long (A : Acts write content app) {flags : List UInt8} {mod : Modifier} {letter : UInt8} {v : BitVec 64} {out : List UInt8}
    (hok : (Piece.long flags mod letter v).Ok) (hw : (Piece.long flags mod letter v).Writes libc out) :
    Does write libc content app (.long flags mod letter v) out := by
  obtain ⟨hfl, hmod, hlet, hlen⟩ := hok
  have hlt : letter ∈ tokens ∧ letter ≠ 0x25 ∧ letter ≠ 0x73 ∧ letter ≠ 0x40 ∧ letter ≠ 0x63 ∧ letter ∈ [0x64, 0x69, 0x75, 0x6f, 0x78, 0x58, (0x70 : UInt8)] := by
    revert hlet; revert letter; intro letter _ h
    simp only [integerLetters, List.mem_cons, List.not_mem_nil, or_false] at h
    rcases h with rfl | rfl | rfl | rfl | rfl | rfl <;> decide
  refine ⟨flags ++ mod.letters, letter, rfl, append_tokens (flags_tokens hfl) (letters_ok mod), hlt.1, ?_⟩
  intro m cursor st rest more hm ha
  have hpop : st.popLong = some (v, { st with args := more }) := by simp [St.popLong, ha, Piece.args]
  have hsize : integerSize (m.drop cursor) ((flags ++ mod.letters).length + 1 + 1) = some 8 := by
    rw [hm]
    have one : ∀ x : UInt8, x.toNat = 0x6c ∨ x.toNat = 0x6a ∨ x.toNat = 0x7a ∨ x.toNat = 0x74 → ∀ pre : List UInt8,
        integerSize (0x25 :: ((pre ++ [x]) ++ letter :: rest)) ((pre ++ [x]).length + 1 + 1) = some 8 := by
      intro x hx pre
      rw [size_one]
      rcases hx with h | h | h | h <;> rw [h] <;> simp
    cases mod with
    | l => exact one 0x6c (by decide) flags
    | j => exact one 0x6a (by decide) flags
    | z => exact one 0x7a (by decide) flags
    | t => exact one 0x74 (by decide) flags
    | ll =>
      simp only [Modifier.letters]
      rw [show flags ++ [(0x6c : UInt8), 0x6c] = (flags ++ [0x6c]) ++ [0x6c] by simp]
      exact one 0x6c (by decide) (flags ++ [0x6c])
    | none | h | hh => cases hmod
  simp only [St.directive, if_neg hlt.2.1, if_neg hlt.2.2.1, if_neg hlt.2.2.2.1, if_neg hlt.2.2.2.2.1, if_pos hlt.2.2.2.2.2, St.integer]
  rw [copyFormat_eq hm (by simpa using hlen), Option.bind_some, hsize, Option.bind_some, if_pos rfl, hpop, Option.bind_some]
  rw [show (0x25 :: ((flags ++ mod.letters) ++ [letter])) = (Piece.long flags mod letter v).format from rfl, hw.1, Option.bind_some]
  obtain ⟨st', h0, h1, h2, h3, h4⟩ := number_spec A { st with args := more } hw.2
  rw [h0]
  exact ⟨st', rfl, h1, h2, h3, by rw [h4]; simp [stored]⟩

theorem float_letter {letter : UInt8} (hlet : letter ∈ floatLetters) : letter ∈ tokens ∧ letter ≠ 0x25 ∧ letter ≠ 0x73 ∧ letter ≠ 0x40 ∧ letter ≠ 0x63 ∧
    letter ∉ [0x64, 0x69, 0x75, 0x6f, 0x78, 0x58, (0x70 : UInt8)] ∧ letter ∈ [0x66, 0x46, 0x67, 0x47, 0x65, 0x45, 0x61, (0x41 : UInt8)] := by
  simp only [floatLetters, List.mem_cons, List.not_mem_nil, or_false] at hlet
  rcases hlet with rfl | rfl | rfl | rfl | rfl | rfl | rfl | rfl <;> decide

theorem unformatted_eq {body : List UInt8} {letter : UInt8} : isUnformatted (0x25 :: (body ++ [letter])) (0x25 :: (body ++ [letter])).length =
    some (letter.toNat == 0x66 && (body.length == 0 || (body.length == 1 && (lastByte body).toNat == 0x6c))) := by
  unfold isUnformatted
  have h1 : rd (0x25 :: (body ++ [letter])) ((0x25 :: (body ++ [letter])).length - 1) = some letter.toNat := by
    simp [rd]
  have h2 : rd (0x25 :: (body ++ [letter])) ((0x25 :: (body ++ [letter])).length - 2) = some (lastByte body).toNat := by
    have := before_eq (body := body) (rest := []) (t := letter)
    rw [show (0x25 :: (body ++ [letter])).length - 2 = body.length by simp]
    exact this
  rw [h1, h2, Option.bind_some, Option.map_some]
  simp

theorem does_dbl (A : Acts write content app) {flags : List UInt8} {l : Bool} {letter : UInt8} {v : BitVec 64} {out : List UInt8}
    (hok : (Piece.dbl flags l letter v).Ok) (hw : (Piece.dbl flags l letter v).Writes libc out) :
    Does write libc content app (.dbl flags l letter v) out := by
  obtain ⟨hfl, hlet, hlen⟩ := hok
  have hlt := float_letter hlet
  obtain ⟨full, hl, h120, hout⟩ := hw
  refine ⟨flags ++ (if l then [0x6c] else []), letter, rfl, append_tokens (flags_tokens hfl) (by cases l <;> decide), hlt.1, ?_⟩
  intro m cursor st rest more hm ha
  have hpop : st.popDbl = some (v, { st with args := more }) := by simp [St.popDbl, ha, Piece.args]
  have hbl : (flags ++ (if l then [0x6c] else [] : List UInt8)).length ≤ 5 := by cases l <;> simpa using hlen
  have hlast := last_flag hfl
  have hsize : floatSize (m.drop cursor) ((flags ++ (if l then [0x6c] else [] : List UInt8)).length + 1 + 1) = some 8 := by
    rw [hm, floatSize, show (flags ++ (if l then [0x6c] else [] : List UInt8)).length + 1 + 1 - 2 = (flags ++ (if l then [0x6c] else [] : List UInt8)).length by omega, before_eq, Option.map_some,
      if_neg]
    cases l
    · simp only [Bool.false_eq_true, if_false, List.append_nil]; exact hlast.2.2.2.2.2.2
    · simp
  simp only [St.directive, if_neg hlt.2.1, if_neg hlt.2.2.1, if_neg hlt.2.2.2.1, if_neg hlt.2.2.2.2.1, if_neg hlt.2.2.2.2.2.1, if_pos hlt.2.2.2.2.2.2, St.floating]
  rw [copyFormat_eq hm hbl, Option.bind_some, hsize, Option.bind_some, if_pos rfl, hpop, Option.bind_some]
  rw [show (0x25 :: ((flags ++ (if l then [0x6c] else [])) ++ [letter])) = (Piece.dbl flags l letter v).format from rfl, hl, Option.bind_some]
  have hu : isUnformatted (Piece.dbl flags l letter v).format (Piece.dbl flags l letter v).format.length = some (decide (flags = [] ∧ letter = 0x66)) := by
    rw [show (Piece.dbl flags l letter v).format = 0x25 :: ((flags ++ (if l then [0x6c] else [])) ++ [letter]) from rfl, unformatted_eq]
    congr 1
    by_cases hf : flags = []
    · subst hf
      have hc : (letter.toNat == 0x66) = decide (letter = 0x66) := by
        by_cases h : letter = 0x66
        · simp [h]
        · have : letter.toNat ≠ 0x66 := toNat_ne h (y := 0x66)
          simp [h, this]
      cases l
      · simp [hc]
      · rw [hc]; simp [lastByte]
    · have hpos := List.length_pos_iff.mpr hf
      have : ¬ flags.length = 0 := by omega
      cases l
      · simp only [Bool.false_eq_true, if_false, List.append_nil]
        have h2 : ((lastByte flags).toNat == 0x6c) = false := by simpa using hlast.1
        simp [hf, h2]
      · simp only [if_true, List.length_append, List.length_singleton]
        have h3 : (flags.length + 1 == 1) = false := by simpa using this
        have h4 : (flags.length + 1 == 0) = false := by simp
        simp [hf]
  obtain ⟨st', h0, h1, h2, h3, h4⟩ := float_spec A { st with args := more } h120 hu (by simpa using hout)
  rw [h0]
  exact ⟨st', rfl, h1, h2, h3, by rw [h4]; simp [stored]⟩

theorem does_ldbl (A : Acts write content app) {flags : List UInt8} {letter : UInt8} {v : BitVec 128} {out : List UInt8}
    (hok : (Piece.ldbl flags letter v).Ok) (hw : (Piece.ldbl flags letter v).Writes libc out) :
    Does write libc content app (.ldbl flags letter v) out := by
  obtain ⟨hfl, hlet, hlen⟩ := hok
  have hlt := float_letter hlet
  refine ⟨flags ++ [0x4c], letter, by simp [Piece.format], append_tokens (flags_tokens hfl) (by decide), hlt.1, ?_⟩
  intro m cursor st rest more hm ha
  have hpop : st.popLdbl = some (v, { st with args := more }) := by simp [St.popLdbl, ha, Piece.args]
  have hsize : floatSize (m.drop cursor) ((flags ++ [0x4c]).length + 1 + 1) = some 16 := by
    rw [hm, floatSize, show (flags ++ [(0x4c : UInt8)]).length + 1 + 1 - 2 = (flags ++ [(0x4c : UInt8)]).length by omega, before_eq, Option.map_some, if_pos (by simp)]
  simp only [St.directive, if_neg hlt.2.1, if_neg hlt.2.2.1, if_neg hlt.2.2.2.1, if_neg hlt.2.2.2.2.1, if_neg hlt.2.2.2.2.2.1, if_pos hlt.2.2.2.2.2.2, St.floating]
  rw [copyFormat_eq hm (by simp; omega), Option.bind_some, hsize, Option.bind_some, if_neg (by decide), hpop, Option.bind_some]
  have hfmt : (0x25 :: ((flags ++ [0x4c]) ++ [letter])) = (Piece.ldbl flags letter v).format := by simp [Piece.format]
  rw [hfmt, hw.1, Option.bind_some]
  have hu : isUnformatted (Piece.ldbl flags letter v).format (Piece.ldbl flags letter v).format.length = some false := by
    rw [← hfmt, unformatted_eq]
    simp
  obtain ⟨st', h0, h1, h2, h3, h4⟩ := float_spec (out := out) A { st with args := more } hw.2 hu (by simp)
  rw [h0]
  exact ⟨st', rfl, h1, h2, h3, by rw [h4]; simp [stored]⟩

theorem does_count (A : Acts write content app) {mod : Modifier} : Does write libc content app (.count mod) [] := by
  refine ⟨mod.letters, 0x6e, rfl, letters_ok mod, by decide, ?_⟩
  intro m cursor st rest more hm ha
  have hpop : st.popCounter = some { st with args := more } := by simp [St.popCounter, ha, Piece.args]
  have hl : mod.letters.length ≤ 5 := by cases mod <;> decide
  have hc : writeCounter (0x25 :: (mod.letters ++ [0x6e])) (0x25 :: (mod.letters ++ [0x6e])).length st.count =
      some (some (mod.bits, st.count % 2 ^ mod.bits)) := by cases mod <;> rfl
  simp only [St.directive, show ¬ (0x6e : UInt8) = 0x25 by decide, show ¬ (0x6e : UInt8) = 0x73 by decide, show ¬ (0x6e : UInt8) = 0x40 by decide,
    show ¬ (0x6e : UInt8) = 0x63 by decide, show ¬ (0x6e : UInt8) ∈ [0x64, 0x69, 0x75, 0x6f, 0x78, 0x58, (0x70 : UInt8)] by decide,
    show ¬ (0x6e : UInt8) ∈ [0x66, 0x46, 0x67, 0x47, 0x65, 0x45, 0x61, (0x41 : UInt8)] by decide, if_false, if_true, St.counter]
  rw [copyFormat_eq hm hl, Option.bind_some, hpop, Option.bind_some]
  simp only [hc, Option.map_some]
  exact ⟨_, rfl, (A.nil _).symm, by simp [weight], rfl, by simp [stored]⟩

theorem does_all (A : Acts write content app) {p : Piece} {out : List UInt8} (hd : p.isDirective = true) (hok : p.Ok) (hw : p.Writes libc out) :
    Does write libc content app p out := by
  cases p with
  | text | percent => cases hd
  | str => exact does_str A hok hw
  | wide => exact does_wide A hok hw
  | obj => cases hw; exact does_obj A
  | chr => cases hw; exact does_chr A
  | int => exact does_int A hok hw
  | long => exact does_long A hok hw
  | dbl => exact does_dbl A hok hw
  | ldbl => exact does_ldbl A hok hw
  | count => cases hw; exact does_count A

/-! ## Whole formats -/

def weights : List Piece → List (List UInt8) → Nat
  | p :: ps, out :: outs => weight p out + weights ps outs
  | _, _ => 0

def allStored : Nat → List Piece → List (List UInt8) → List (Nat × Nat)
  | n, p :: ps, out :: outs => stored n p ++ allStored (n + weight p out) ps outs
  | _, _, _ => []

theorem go_pieces (A : Acts write content app) {m : Mem} {ps : List Piece} {outs : List (List UInt8)} (h : Outputs libc ps outs) :
    ∀ (fuel start : Nat) (pend : List UInt8) (st : St σ) (more : List Arg), (∀ p ∈ ps, p.Ok) → m.drop start = pend ++ (ps.flatMap Piece.format ++ [0]) →
      (ps.flatMap Piece.format).length ≤ fuel → st.args = ps.flatMap Piece.args ++ more →
      ∃ st', go write libc m fuel (start + pend.length) start pend.length st = some st' ∧
        content st'.stream = app (content st.stream) (pend ++ outs.flatten) ∧ st'.count = st.count + pend.length + weights ps outs ∧ st'.args = more ∧
        st'.stores = st.stores ++ allStored (st.count + pend.length) ps outs := by
  induction h with
  | nil =>
    intro fuel start pend st more hok hm hf ha
    have hc : m.drop (start + pend.length) = [0] := by rw [← List.drop_drop, hm, List.drop_left]; rfl
    obtain ⟨h1, h2, h3, h4⟩ := pended_spec A st pend
    refine ⟨pended write st pend, ?_, by simp [h1], by simp [h2, weights], by simpa [h3] using ha, by simp [h4, allStored]⟩
    rw [go.eq_def, hc]
    have : ustrscan [0] = some (0, 0) := rfl
    rw [this, Option.bind_some, if_pos rfl]
    exact flush_eq hm st (by simp)
  | @cons p ps out outs hw hps ih =>
    intro fuel start pend st more hok hm hf ha
    have hp := hok p (by simp)
    have hps' : ∀ q ∈ ps, q.Ok := fun q hq => hok q (by simp [hq])
    have hfm : (p :: ps).flatMap Piece.format = p.format ++ ps.flatMap Piece.format := rfl
    have hfa : (p :: ps).flatMap Piece.args = p.args ++ ps.flatMap Piece.args := rfl
    rw [hfm] at hm hf
    rw [hfa] at ha
    rw [List.length_append] at hf
    by_cases hd : p.isDirective = true
    · obtain ⟨body, t, hfmt, hbody, ht, hdo⟩ := does_all A hd hp hw
      rw [hfmt] at hm hf
      have hm1 : m.drop start = pend ++ (0x25 :: (body ++ t :: (ps.flatMap Piece.format ++ [0]))) := by rw [hm]; simp
      match fuel, hf with
      | 0, hf => simp at hf
      | fuel + 1, hf =>
        rw [go_directive hm1 hbody ht]
        have hc : m.drop (start + pend.length) = 0x25 :: (body ++ t :: (ps.flatMap Piece.format ++ [0])) := by
          rw [← List.drop_drop, hm1, List.drop_left]
        obtain ⟨p1, p2, p3, p4⟩ := pended_spec A st pend
        obtain ⟨st', h0, h1, h2, h3, h4⟩ := hdo m (start + pend.length) (pended write st pend) _ (ps.flatMap Piece.args ++ more) hc (by rw [p3, ha, List.append_assoc])
        rw [h0, Option.bind_some]
        have hn : m.drop (start + pend.length + (body.length + 1) + 1) = [] ++ (ps.flatMap Piece.format ++ [0]) := by
          rw [Nat.add_assoc, ← List.drop_drop, hc, show 0x25 :: (body ++ t :: (ps.flatMap Piece.format ++ [0])) = (0x25 :: (body ++ [t])) ++ (ps.flatMap Piece.format ++ [0]) by simp,
            show body.length + 1 + 1 = (0x25 :: (body ++ [t])).length by simp, List.drop_left]; rfl
        obtain ⟨st2, g0, g1, g2, g3, g4⟩ := ih fuel _ [] st' more hps' hn (by rw [List.length_cons] at hf; omega) h3
        refine ⟨st2, g0, ?_, ?_, g3, ?_⟩
        · rw [g1, h1, p1, A.assoc, A.assoc]; simp
        · rw [g2, h2, p2]; simp [weights]; omega
        · rw [g4, h4, h2, p2, p4]; simp [allStored]
    · cases p with
      | text cs =>
        cases hw
        obtain ⟨fuel', hf', hg⟩ := go_text (write := write) (libc := libc) (start := start) (st := st) cs fuel (start + pend.length) pend.length
          (ps.flatMap Piece.format ++ [0]) hp.1 hp.2 (by rw [← List.drop_drop, hm, List.drop_left]; simp [Piece.format]) (by simp [Piece.format] at hf; omega)
        have hm1 : m.drop start = (pend ++ utf8 cs) ++ (ps.flatMap Piece.format ++ [0]) := by rw [hm]; simp [Piece.format]
        obtain ⟨st2, g0, g1, g2, g3, g4⟩ := ih fuel' start (pend ++ utf8 cs) st more hps' hm1 (by have : (Piece.format (.text cs)).length = (utf8 cs).length := rfl; omega) (by simpa [Piece.args] using ha)
        refine ⟨st2, ?_, ?_, ?_, g3, ?_⟩
        · rw [hg, ← g0, List.length_append, Nat.add_assoc]
        · rw [g1]; simp
        · rw [g2]; simp [weights, weight]; omega
        · rw [g4]; simp [allStored, weight, stored, Nat.add_assoc]
      | percent =>
        cases hw
        have hm1 : m.drop start = pend ++ (0x25 :: ([] ++ 0x25 :: (ps.flatMap Piece.format ++ [0]))) := by rw [hm]; simp [Piece.format]
        match fuel, hf with
        | 0, hf => simp [Piece.format] at hf
        | fuel + 1, hf =>
          rw [go_directive hm1 (by simp) (by decide)]
          obtain ⟨p1, p2, p3, p4⟩ := pended_spec A st pend
          simp only [St.directive, if_true, Option.bind_some]
          have hn : m.drop (start + pend.length + (([] : List UInt8).length + 1)) = [0x25] ++ (ps.flatMap Piece.format ++ [0]) := by
            rw [Nat.add_assoc, ← List.drop_drop, hm1, List.drop_append]; simp
          obtain ⟨st2, g0, g1, g2, g3, g4⟩ := ih fuel _ [0x25] (pended write st pend) more hps' hn
            (by have : (Piece.format .percent).length = 2 := rfl
                omega)
            (by rw [p3]; simpa [Piece.args] using ha)
          refine ⟨st2, g0, ?_, ?_, g3, ?_⟩
          · rw [g1, p1, A.assoc]; simp
          · rw [g2, p2]; simp [weights, weight]; omega
          · rw [g4, p2, p4]; simp [allStored, weight, stored]
      | _ => exact absurd rfl hd

theorem printf_pieces (A : Acts write content app) {ps : List Piece} {outs : List (List UInt8)} (h : Outputs libc ps outs) (hok : ∀ p ∈ ps, p.Ok)
    (s : σ) (more : List Arg) : ∃ s', printf write libc s (ps.flatMap Piece.format) (ps.flatMap Piece.args ++ more) =
      some (s', (BitVec.ofNat 32 (weights ps outs)).toInt, allStored 0 ps outs) ∧ content s' = app (content s) outs.flatten := by
  obtain ⟨st', h0, h1, h2, h3, h4⟩ := go_pieces A h (m := ps.flatMap Piece.format ++ [0]) (ps.flatMap Piece.format).length 0 []
    { stream := s, count := 0, args := ps.flatMap Piece.args ++ more, stores := [] } more hok rfl (Nat.le_refl _) rfl
  refine ⟨st'.stream, ?_, by simpa using h1⟩
  have h0' : go write libc (ps.flatMap Piece.format ++ [0]) (ps.flatMap Piece.format).length 0 0 0
    { stream := s, count := 0, args := ps.flatMap Piece.args ++ more, stores := [] } = some st' := h0
  rw [printf, h0', Option.map_some, h2, h4]
  simp

theorem weights_eq {ps : List Piece} {outs : List (List UInt8)} (h : Outputs libc ps outs) (hc : ∀ p ∈ ps, ∀ v, p ≠ .chr v) :
    weights ps outs = outs.flatten.length ∧ ∀ n, allStored n ps outs = stores n ps outs := by
  induction h with
  | nil => exact ⟨rfl, fun _ => rfl⟩
  | @cons p ps out outs hw hps ih =>
    obtain ⟨h1, h2⟩ := ih fun q hq => hc q (by simp [hq])
    have hw : weight p out = out.length := by
      cases p with
      | chr v => exact absurd rfl (hc _ (by simp) v)
      | _ => rfl
    refine ⟨by simp [weights, hw, h1], fun n => ?_⟩
    rw [allStored, hw, h2]
    cases p <;> simp [stores, stored]

/-! ## Lines and characters -/

theorem read_one (d : Data.Obj) : Data.read d 1 1 = some (match d.bytes.drop d.cursor with
    | [] => (⟨d.bytes, d.bytes.length⟩, [], 0)
    | b :: _ => (⟨d.bytes, d.cursor + 1⟩, [b], 1)) := by
  have hc : Data.setCursor d d.cursor = ⟨d.bytes, min d.cursor d.bytes.length⟩ := by
    unfold Data.setCursor
    split
    · omega
    · split
      · congr 1; omega
      · congr 1; omega
  simp only [Data.read, Data.readBytes, hc, Nat.one_mul, Nat.succ_ne_zero, if_false, Option.some.injEq, Data.available, Nat.div_one]
  by_cases h : d.cursor < d.bytes.length
  · rw [List.drop_eq_getElem_cons h]
    simp only
    rw [if_neg (by omega), show min d.cursor d.bytes.length = d.cursor by omega]
    rw [List.drop_eq_getElem_cons h]
    unfold Data.setCursor
    dsimp only
    rw [if_neg (by omega), if_neg (by omega)]
    rfl
  · have hn : ¬ (d.bytes.length : Int) < 0 := by omega
    simp [Data.setCursor, show min d.cursor d.bytes.length = d.bytes.length by omega, List.drop_eq_nil_of_le (show d.bytes.length ≤ d.cursor by omega), hn]

theorem gets_line (d : Data.Obj) (line rest : List UInt8) : ∀ (fuel k : Nat) (acc : List UInt8), d.bytes.drop k = line ++ 0x0a :: rest → (0x0a : UInt8) ∉ line →
    line.length < fuel → getsLoop fuel ⟨d.bytes, k⟩ acc = some (⟨d.bytes, k + line.length + 1⟩, acc ++ line.filter (· != 0)) := by
  induction line with
  | nil =>
    intro fuel k acc h hl hf
    match fuel, hf with
    | fuel + 1, hf =>
      rw [getsLoop, read_one]
      simp only [h, List.nil_append]
      simp
  | cons b line ih =>
    intro fuel k acc h hl hf
    match fuel, hf with
    | fuel + 1, hf =>
      have hb : ¬ [b] = [(0x0a : UInt8)] := fun e => hl (by simp at e; simp [e])
      have hd : d.bytes.drop (k + 1) = line ++ 0x0a :: rest := by rw [← List.drop_drop, h]; rfl
      rw [getsLoop, read_one]
      simp only [h, List.cons_append, Option.bind_some, if_true, if_neg hb]
      rw [ih fuel (k + 1) _ hd (fun h => hl (by simp [h])) (by simp at hf; omega)]
      by_cases h0 : b = 0
      · simp [h0]; omega
      · simp [h0]; omega

theorem gets_end (d : Data.Obj) (line : List UInt8) : ∀ (fuel k : Nat) (acc : List UInt8), d.bytes.drop k = line → (0x0a : UInt8) ∉ line →
    line.length ≤ fuel → getsLoop fuel ⟨d.bytes, k⟩ acc = some (⟨d.bytes, d.bytes.length⟩, acc ++ line.filter (· != 0)) := by
  induction line with
  | nil =>
    intro fuel k acc h hl hf
    cases fuel <;> rw [getsLoop, read_one] <;> simp [h]
  | cons b line ih =>
    intro fuel k acc h hl hf
    match fuel, hf with
    | fuel + 1, hf =>
      have hb : ¬ [b] = [(0x0a : UInt8)] := fun e => hl (by simp at e; simp [e])
      have hd : d.bytes.drop (k + 1) = line := by rw [← List.drop_drop, h]; rfl
      rw [getsLoop, read_one]
      simp only [h, Option.bind_some, if_true, if_neg hb]
      rw [ih fuel (k + 1) _ hd (fun h => hl (by simp [h])) (by simp at hf; omega)]
      by_cases h0 : b = 0
      · simp [h0]
      · simp [h0]

end Printf
end Duck
