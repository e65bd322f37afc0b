import Verif.Spec.ValueProp
import Verif.Props.Number
import Verif.Props.Enum
/-! Lemmas for Props/ValueProp.lean. -/
namespace Duck
namespace ValueProp
open Number (Mem Enc Ty vec leBytes elem castLoop rowLoop convert)

/-! ### What conversions leave alone -/

theorem castLoop_frame (xt yt : Ty) (x : Mem) (xo yo : Nat) : ∀ (n i : Nat) (y y' : Mem), castLoop xt yt x xo yo n i y = some y' →
    y'.length = y.length ∧ ∀ k, k < yo + i * yt.size ∨ yo + (i + n) * yt.size ≤ k → y'[k]? = y[k]? := by
  intro n
  induction n with
  | zero => intro i y y' h; cases h; exact ⟨rfl, fun _ _ => rfl⟩
  | succ n ih =>
      intro i y y' h
      simp only [castLoop, Option.bind_eq_some_iff] at h
      obtain ⟨b, _, c, _, y1, h1, h2⟩ := h
      obtain ⟨g1, _, _, g2⟩ := Number.write_spec h1
      obtain ⟨k1, k2⟩ := ih _ _ _ h2
      have e1 : (i + 1) * yt.size = i * yt.size + yt.size := by rw [Nat.add_mul, Nat.one_mul]
      have e2 : (i + (n + 1)) * yt.size = i * yt.size + yt.size + n * yt.size := by rw [Nat.add_mul, Nat.add_mul, Nat.one_mul]; omega
      have e3 : (i + 1 + n) * yt.size = i * yt.size + yt.size + n * yt.size := by rw [Nat.add_mul, Nat.add_mul, Nat.one_mul]
      refine ⟨by omega, fun k hk => ?_⟩
      rw [k2 k (by omega), g2 k (by omega)]

theorem rowLoop_frame (st dt : Ty) (src : Mem) (cols sS dS B : Nat) : ∀ (n so dO : Nat) (dst dst' : Mem),
    rowLoop st dt src cols sS dS n so dO dst = some dst' → (∀ i, i < n → dO + i * dS + cols * dt.size ≤ B) →
    dst'.length = dst.length ∧ ∀ k, B ≤ k → dst'[k]? = dst[k]? := by
  intro n
  induction n with
  | zero => intro so dO dst dst' h _; cases h; exact ⟨rfl, fun _ _ => rfl⟩
  | succ n ih =>
      intro so dO dst dst' h hB
      simp only [rowLoop, Option.bind_eq_some_iff] at h
      obtain ⟨d, h1, h2⟩ := h
      obtain ⟨g1, g2⟩ := castLoop_frame _ _ _ _ _ _ _ _ _ h1
      obtain ⟨k1, k2⟩ := ih _ _ _ _ h2 (fun i hi => by
        have := hB (i + 1) (by omega)
        rw [Nat.add_mul, Nat.one_mul] at this
        omega)
      have := hB 0 (by omega)
      refine ⟨by omega, fun k hk => ?_⟩
      rw [k2 k hk, g2 k (by rw [Nat.zero_add]; omega)]

theorem convert_frame {src dst dst' : Mem} {se de : Enc} {c : Nat} (h : convert src se dst de = some (c, dst')) (hf : Fitting se de) :
    dst'.length = dst.length ∧ ∀ k, de.size ≤ k → dst'[k]? = dst[k]? := by
  unfold convert at h
  have hsz : de.size = de.count * de.ty.size := Nat.mul_comm _ _
  have part : ∀ {n}, n ≤ de.count → castLoop se.ty de.ty src 0 0 n 0 dst = some dst' →
      dst'.length = dst.length ∧ ∀ k, de.size ≤ k → dst'[k]? = dst[k]? := by
    intro n hn h
    obtain ⟨g1, g2⟩ := castLoop_frame _ _ _ _ _ _ _ _ _ h
    refine ⟨g1, fun k hk => g2 k (.inr ?_)⟩
    have := Nat.mul_le_mul_right de.ty.size hn
    rw [Nat.zero_add, Nat.zero_add]
    omega
  split at h
  · obtain ⟨m, h1, h2⟩ := Option.map_eq_some_iff.mp h
    cases h2
    exact part (Nat.le_refl _) h1
  rename_i hc
  split at h
  · rename_i hm
    simp only [Bool.and_eq_true] at hm
    obtain ⟨m, h1, h2⟩ := Option.map_eq_some_iff.mp h
    cases h2
    have hle : se.ty.size ≤ de.ty.size := by
      rcases hf with h | h | h | h
      · exact absurd h hc
      · rw [hm.1] at h; cases h
      · rw [hm.2] at h; cases h
      · exact h
    refine rowLoop_frame _ _ _ _ _ _ de.size _ _ _ _ _ h1 (fun i hi => ?_)
    have hi' : i + 1 ≤ de.rows := by split at hi <;> omega
    have hcol : (if se.cols < de.cols then se.cols else de.cols) ≤ de.cols := by split <;> omega
    rw [Nat.zero_add]
    calc i * (se.ty.size * de.cols) + (if se.cols < de.cols then se.cols else de.cols) * de.ty.size
        ≤ i * (de.ty.size * de.cols) + de.cols * de.ty.size :=
          Nat.add_le_add (Nat.mul_le_mul_left _ (Nat.mul_le_mul_right _ hle)) (Nat.mul_le_mul_right _ hcol)
      _ = (i + 1) * (de.cols * de.ty.size) := by rw [Nat.add_mul, Nat.one_mul, Nat.mul_comm de.ty.size]
      _ ≤ de.rows * (de.cols * de.ty.size) := Nat.mul_le_mul_right _ hi'
      _ = de.size := by rw [Enc.size, Enc.count, ← Nat.mul_assoc, Nat.mul_comm]
  · obtain ⟨m, h1, h2⟩ := Option.map_eq_some_iff.mp h
    cases h2
    exact part (by split <;> omega) h1

/-- What lies outside `off` to `off + n` is the same in both. -/
def Outside (m m' : Mem) (off n : Nat) : Prop := m'.length = m.length ∧ ∀ k, k < off ∨ off + n ≤ k → m'[k]? = m[k]?

theorem Outside.refl (m : Mem) (off n : Nat) : Outside m m off n := ⟨rfl, fun _ _ => rfl⟩

theorem convertTo_frame {m m' src : Mem} {off c : Nat} {se de : Enc} (h : convertTo m off de src se = some (c, m'))
    (hf : Fitting se de) : Outside m m' off de.size := by
  obtain ⟨⟨c', d⟩, h1, h2⟩ := Option.map_eq_some_iff.mp h
  cases h2
  obtain ⟨g1, g2⟩ := convert_frame h1 hf
  rw [List.length_drop] at g1
  refine ⟨by simp only [List.length_append, List.length_take]; omega, fun k hk => ?_⟩
  have e : m[k]? = (m.take off ++ m.drop off)[k]? := by rw [List.take_append_drop]
  rw [e, List.getElem?_append, List.getElem?_append]
  by_cases hl : k < (m.take off).length
  · rw [if_pos hl, if_pos hl]
  · rw [if_neg hl, if_neg hl]
    rw [List.length_take] at hl ⊢
    by_cases ho : off ≤ m.length
    · exact g2 _ (by omega)
    · have g3 : d.length = m.length - off := g1
      rw [List.getElem?_eq_none (by show d.length ≤ _; omega), List.getElem?_eq_none (by rw [List.length_drop]; omega)]

theorem copyTo_frame {m m' src : Mem} {off : Nat} (h : copyTo m off src = some m') :
    Outside m m' off src.length ∧ bytesAt m' off src.length = src := by
  unfold copyTo at h
  split at h
  case isFalse => cases h
  rename_i hl
  cases h
  have h0 : (m.take off).length = off := by rw [List.length_take]; omega
  refine ⟨⟨by simp; omega, fun k hk => ?_⟩, ?_⟩
  · rcases hk with hk | hk
    · rw [List.append_assoc, List.getElem?_append_left (by omega), List.getElem?_take, if_pos hk]
    · rw [List.getElem?_append_right (by rw [List.length_append]; omega), List.getElem?_drop]
      congr 1
      rw [List.length_append]; omega
  · unfold bytesAt
    rw [List.append_assoc, List.drop_append_of_le_length (by omega), List.drop_of_length_le (by omega), List.nil_append,
      List.take_append_of_le_length (Nat.le_refl _), List.take_length]

theorem bytesAt_outside {m m' : Mem} {off n a l : Nat} (h : Outside m m' off n) (hd : off + n ≤ a ∨ a + l ≤ off) :
    bytesAt m' a l = bytesAt m a l := by
  unfold bytesAt
  apply List.ext_getElem?
  intro i
  simp only [List.getElem?_take, List.getElem?_drop]
  split
  · exact h.2 _ (by omega)
  · rfl

theorem bytesAt_length {m : Mem} {off n : Nat} (h : off + n ≤ m.length) : (bytesAt m off n).length = n := by
  unfold bytesAt
  rw [List.length_take, List.length_drop]; omega

/-! ### What setting a property changes -/

/-- A call changes nothing but the place of its property. -/
def Changes (k : Kind) (o o' : Obj) : Prop :=
  match k with
  | .object slot _ _ => o'.mem = o.mem ∧ o'.refs.length = o.refs.length ∧ ∀ j, j ≠ slot → o'.refs[j]? = o.refs[j]?
  | k => o'.refs = o.refs ∧ ∀ a n, k.place = some (a, n) → Outside o.mem o'.mem a n

theorem Changes.refl (k : Kind) (o : Obj) : Changes k o o := by
  cases k <;> simp [Changes, Outside.refl]

theorem set_ref (o : Obj) (slot : Nat) (x : Val) : ∀ j, j ≠ slot → ({ o with refs := o.refs.set slot x } : Obj).refs[j]? = o.refs[j]? := by
  intro j hj
  exact List.getElem?_set_ne (Ne.symm hj)

theorem writeRef_changes {o o' : Obj} {slot : Nat} {w : Bool} {acc : Val → Bool} {x : Val} (h : writeRef o slot acc x = some o') :
    Changes (.object slot w acc) o o' := by
  unfold writeRef at h
  split at h
  · split at h
    · cases h; exact ⟨rfl, List.length_set, set_ref o slot x⟩
    · cases h
  · cases h; exact Changes.refl _ _

theorem writeNew_changes {o o' : Obj} {slot : Nat} {w : Bool} {acc : Val → Bool} {x : Val} (h : writeNew o slot w acc x = some o') :
    Changes (.object slot w acc) o o' := by
  unfold writeNew at h
  split at h
  · split at h
    · cases h; exact ⟨rfl, List.length_set, set_ref o slot _⟩
    · cases h
  · cases h; exact Changes.refl _ _

/-- Only bytes `off` to `off + n` of the object may have changed. -/
def Region (off n : Nat) (o o' : Obj) : Prop := o'.refs = o.refs ∧ Outside o.mem o'.mem off n

theorem Region.refl (off n : Nat) (o : Obj) : Region off n o o := ⟨rfl, Outside.refl _ _ _⟩

theorem convertTo_region {o o' : Obj} {off : Nat} {se de : Enc} {src : Mem} (hf : Fitting se de)
    (h : ((convertTo o.mem off de src se).map fun r => ({ o with mem := r.2 } : Obj)) = some o') : Region off de.size o o' := by
  obtain ⟨⟨c, m⟩, h1, h2⟩ := Option.map_eq_some_iff.mp h
  cases h2
  exact ⟨rfl, convertTo_frame h1 hf⟩

theorem writeStruct_region {o o' : Obj} {p : Definition} {off size : Nat} {sem : Option Name} {b : Mem}
    (h : writeStruct o p off size sem b = some o') : Region off size o o' := by
  unfold writeStruct at h
  split at h
  · rename_i b' hb
    obtain ⟨m, h1, h2⟩ := Option.map_eq_some_iff.mp h
    cases h2
    unfold structValue at hb
    split at hb
    · rename_i hs
      split at hb
      · cases hb; rw [hs]; exact ⟨rfl, (copyTo_frame h1).1⟩
      · cases hb
    · cases hb
  · cases h; exact Region.refl _ _ _

theorem writeValue_region {o o' : Obj} {p : Definition} {off : Nat} {enc : Enc} {x : Val}
    (hx : ∀ n, x = .num n → Fitting n.enc enc) (h : writeValue o p off enc x = some o') : Region off enc.size o o' := by
  unfold writeValue at h
  split at h
  · exact convertTo_region (hx _ rfl) h
  · exact writeStruct_region h
  · cases h; exact Region.refl _ _ _

theorem fitting_scalar (t : Ty) (de : Enc) : Fitting (vec t 1) de := .inr (.inl rfl)

theorem writeName_region {o o' : Obj} {off : Nat} {enc : Enc} {e : Enum.Enum} {s : Name}
    (h : writeName o off enc e s = some o') : Region off enc.size o o' := by
  unfold writeName at h
  split at h
  · exact convertTo_region (fitting_scalar _ _) h
  · cases h

theorem region_number {off : Nat} {enc : Enc} {o o' : Obj} (h : Region off enc.size o o') : Changes (.number off enc) o o' :=
  ⟨h.1, fun a n e => by cases e; exact h.2⟩

theorem region_enum {off : Nat} {enc : Enc} {e : Enum.Enum} {o o' : Obj} (h : Region off enc.size o o') : Changes (.enum off enc e) o o' :=
  ⟨h.1, fun a n e => by cases e; exact h.2⟩

theorem Outside.mono {m m' : Mem} {off n n' : Nat} (h : Outside m m' off n) (hn : n ≤ n') : Outside m m' off n' :=
  ⟨h.1, fun k hk => h.2 k (by omega)⟩

theorem packedSize_le (n : Nat) : packedSize n ≤ n := Nat.mod_le _ _

theorem region_struct {off size n : Nat} (hn : n ≤ size) {o o' : Obj} (h : Region off n o o') : Changes (.struct off size) o o' :=
  ⟨h.1, fun a n e => by cases e; exact h.2.mono hn⟩

theorem writeObject_changes {o o' : Obj} {p : Definition} {x : Val} (hx : ∀ n, x = .num n → ∀ de, p.kind.enc = some de → Fitting n.enc de)
    (h : writeObject o p x = some o') : Changes p.kind o o' := by
  unfold writeObject at h
  cases hk : p.kind with
  | object slot w acc => rw [hk] at h; exact writeRef_changes h
  | number off enc =>
      rw [hk] at h
      exact region_number (writeValue_region (fun n hn => hx n hn enc (by rw [hk]; rfl)) h)
  | enum off enc e =>
      rw [hk] at h
      refine region_enum ?_
      simp only at h
      split at h
      · exact writeName_region h
      · exact writeValue_region (fun n hn => hx n hn enc (by rw [hk]; rfl)) h
  | struct off size =>
      rw [hk] at h
      simp only at h
      split at h
      · exact region_struct (packedSize_le _) (writeStruct_region h)
      · cases h; exact Changes.refl _ _

theorem run_changes {T : List Definition} {o o' : Obj} {name : Name} {p : Definition} (hp : lookup T name = some p) (c : Call)
    (hs : c.Safe p.kind) (h : c.run T o name = some o') : Changes p.kind o o' := by
  have obj : ∀ x : Val, (∀ n, x = .num n → ∀ de, p.kind.enc = some de → Fitting n.enc de) → setObject T o name x = some o' →
      Changes p.kind o o' := by
    intro x hx h
    unfold setObject at h
    rw [hp] at h
    simp only at h
    split at h
    · cases h; exact Changes.refl _ _
    · exact writeObject_changes hx h
  cases c with
  | object x =>
      refine obj x ?_ h
      rintro n rfl
      exact hs
  | bool b =>
      refine obj (boolean b) ?_ h
      intro n hn de _
      cases hn
      exact fitting_scalar _ _
  | number src se =>
      simp only [Call.run, setNumber, hp] at h
      split at h
      · cases h; exact Changes.refl _ _
      · simp only [Call.Safe] at hs
        revert hs h
        cases p.kind with
        | object slot w acc => intro _ h; exact writeNew_changes h
        | number off enc => intro hs h; exact region_number (convertTo_region (hs enc rfl) h)
        | enum off enc e => intro hs h; exact region_enum (convertTo_region (hs enc rfl) h)
        | struct off size => intro _ h; cases h; exact Changes.refl _ _
  | struct sem src =>
      simp only [Call.run, setStruct, hp] at h
      split at h
      · cases h; exact Changes.refl _ _
      split at h
      case isFalse => cases h; exact Changes.refl _ _
      simp only [Call.Safe] at hs
      revert hs h
      cases p.kind with
      | object slot w acc => intro _ h; exact writeNew_changes h
      | number off enc => intro hs h; cases h; exact Changes.refl _ _
      | enum off enc e => intro hs h; cases h; exact Changes.refl _ _
      | struct off size =>
          intro hs h
          simp only at h
          split at h
          · rename_i he
            obtain ⟨m, h1, h2⟩ := Option.map_eq_some_iff.mp h
            cases h2
            refine region_struct (n := src.length) ?_ ⟨rfl, (copyTo_frame h1).1⟩
            have : packedSize src.length = src.length := Nat.mod_eq_of_lt hs
            have := packedSize_le size
            omega
          · cases h; exact Changes.refl _ _

/-! ### What reading a property depends on -/

/-- Two objects hold the same at the place of a property. -/
def Agree (k : Kind) (o o' : Obj) : Prop :=
  match k with
  | .object slot _ _ => o'.refs[slot]? = o.refs[slot]?
  | k => o'.mem.length = o.mem.length ∧ ∀ a n l, k.place = some (a, n) → l ≤ n → bytesAt o'.mem a l = bytesAt o.mem a l

theorem agree_of_changes {k q : Kind} {o o' : Obj} (h : Changes k o o') (ha : Apart k q) : Agree q o o' := by
  cases k with
  | object slot w acc =>
      cases q with
      | object b w' acc' => exact h.2.2 b (Ne.symm ha)
      | number off enc => exact ⟨by rw [h.1], fun _ _ _ _ _ => by rw [h.1]⟩
      | enum off enc e => exact ⟨by rw [h.1], fun _ _ _ _ _ => by rw [h.1]⟩
      | struct off size => exact ⟨by rw [h.1], fun _ _ _ _ _ => by rw [h.1]⟩
  | number off enc =>
      cases q with
      | object b w' acc' => show o'.refs[b]? = o.refs[b]?; rw [h.1]
      | _ => exact ⟨(h.2 off enc.size rfl).1, fun a n l hl hle => bytesAt_outside (h.2 off enc.size rfl) (by
          have := ha off enc.size a n rfl hl; omega)⟩
  | enum off enc e =>
      cases q with
      | object b w' acc' => show o'.refs[b]? = o.refs[b]?; rw [h.1]
      | _ => exact ⟨(h.2 off enc.size rfl).1, fun a n l hl hle => bytesAt_outside (h.2 off enc.size rfl) (by
          have := ha off enc.size a n rfl hl; omega)⟩
  | struct off size =>
      cases q with
      | object b w' acc' => show o'.refs[b]? = o.refs[b]?; rw [h.1]
      | _ => exact ⟨(h.2 off size rfl).1, fun a n l hl hle => bytesAt_outside (h.2 off size rfl) (by
          have := ha off size a n rfl hl; omega)⟩

theorem sameRead_of_agree {T : List Definition} {o o' : Obj} {name : Name} {q : Definition} (hq : lookup T name = some q)
    (h : Agree q.kind o o') : SameRead T o o' name := by
  have h1 : getObject T o' name = getObject T o name := by
    unfold getObject
    rw [hq]
    simp only [readObject]
    revert h
    cases q.kind with
    | object slot w acc => intro h; exact h
    | number off enc =>
        intro h
        simp only [readNumber, h.1, h.2 off enc.size enc.size rfl (Nat.le_refl _)]
    | enum off enc e =>
        intro h
        simp only [readName, h.2 off enc.size enc.size rfl (Nat.le_refl _)]
    | struct off size =>
        intro h
        simp only [readStruct, h.1, h.2 off size (packedSize size) rfl (packedSize_le _)]
  refine ⟨h1, ?_, ?_, by unfold getBool; rw [h1]⟩
  · intro dst de
    unfold getNumber
    rw [hq]
    simp only
    revert h
    cases q.kind with
    | object slot w acc => intro h; simp only [show o'.refs[slot]? = o.refs[slot]? from h]
    | number off enc => intro h; simp only [h.2 off enc.size enc.size rfl (Nat.le_refl _)]
    | enum off enc e => intro h; simp only [h.2 off enc.size enc.size rfl (Nat.le_refl _)]
    | struct off size => intro h; rfl
  · intro sem size hs
    unfold getStruct
    rw [hq]
    simp only
    split
    case isFalse => rfl
    revert h
    cases q.kind with
    | object slot w acc => intro h; simp only [show o'.refs[slot]? = o.refs[slot]? from h]
    | number off enc => intro h; rfl
    | enum off enc e => intro h; rfl
    | struct off psize =>
        intro h
        by_cases he : packedSize psize = packedSize size
        · simp only [if_pos he]
          have e1 : packedSize size = size := Nat.mod_eq_of_lt hs
          have := packedSize_le psize
          rw [h.1, h.2 off psize size rfl (by omega)]
        · simp only [if_neg he]

/-! ### The values written -/

theorem convertTo_spec {m src : Mem} {off : Nat} {se de : Enc} (hs : src.length = se.size) (hd : off + de.size ≤ m.length)
    (hm : de.count = se.count ∨ se.matrix = false ∨ de.matrix = false)
    (hdef : ∀ i, i < se.count → i < de.count → ∃ c, Number.cast se.ty de.ty (elem se.ty src i) = some c) :
    ∃ m', convertTo m off de src se = some (min se.count de.count, m') ∧
      (∀ i, i < min se.count de.count → Number.cast se.ty de.ty (elem se.ty src i) = some (elem de.ty (bytesAt m' off de.size) i)) ∧
      (∀ i, min se.count de.count ≤ i → i < de.count → elem de.ty (bytesAt m' off de.size) i = elem de.ty (bytesAt m off de.size) i) := by
  have hs' : src.length = se.count * se.ty.size := by rw [hs, Enc.size, Nat.mul_comm]
  have hdz : de.size = de.count * de.ty.size := Nat.mul_comm _ _
  have l1 : min se.count de.count * se.ty.size ≤ src.length := by rw [hs']; exact Nat.mul_le_mul_right _ (Nat.min_le_left _ _)
  have l2' : min se.count de.count * de.ty.size ≤ de.size := by rw [hdz]; exact Nat.mul_le_mul_right _ (Nat.min_le_right _ _)
  have l2 : min se.count de.count * de.ty.size ≤ (m.drop off).length := by rw [List.length_drop]; omega
  obtain ⟨d, h1, h2, h3, h4⟩ := Number.castLoop_spec se.ty de.ty src 0 0 (min se.count de.count) 0 (m.drop off) (by simpa using l1) (by simpa using l2)
    (by
      intro j _ hj b hb
      rw [Nat.zero_add, Number.read_elem (Number.idx_le (n := min se.count de.count) (by omega) l1)] at hb
      cases hb
      exact hdef j (by omega) (by omega))
  have hb : bytesAt (m.take off ++ d) off de.size = d.take de.size := by
    unfold bytesAt
    have h0 : (m.take off).length = off := by rw [List.length_take]; omega
    rw [List.drop_append_of_le_length (by omega), List.drop_of_length_le (by omega), List.nil_append]
  have hel : ∀ (x : Mem) i, i < de.count → elem de.ty (x.take de.size) i = elem de.ty x i := by
    intro x i hi
    unfold elem
    congr 1
    rw [List.drop_take, List.take_take]
    congr 1
    have := Nat.mul_le_mul_right de.ty.size (show i + 1 ≤ de.count from hi)
    rw [Nat.add_mul, Nat.one_mul, ← hdz] at this
    omega
  refine ⟨m.take off ++ d, ?_, ?_, ?_⟩
  · unfold convertTo convert
    by_cases hc : de.count = se.count
    · rw [if_pos hc]
      rw [show min se.count de.count = de.count by omega] at h1 ⊢
      rw [h1]; rfl
    · rw [if_neg hc, if_neg]
      · rw [show (if se.count < de.count then se.count else de.count) = min se.count de.count by split <;> omega]
        simp only [h1, Option.map_some]
      · rcases hm with h | h | h
        · exact absurd h hc
        · simp [h]
        · simp [h]
  · intro i hi
    obtain ⟨b, c, q1, q2, q3⟩ := h3 i (by omega) (by omega)
    rw [Nat.zero_add, Number.read_elem (Number.idx_le hi l1)] at q1
    cases q1
    rw [Nat.zero_add, Number.read_elem (Number.idx_le hi (by rw [h2]; exact l2)), Nat.mod_eq_of_lt (Number.cast_lt q2)] at q3
    rw [hb, hel _ _ (by omega), q2]; exact q3.symm
  · intro i hi hi2
    rw [hb, hel _ _ hi2]
    unfold bytesAt
    rw [hel _ _ hi2]
    unfold elem
    congr 1
    apply List.ext_getElem?
    intro k
    simp only [List.getElem?_take, List.getElem?_drop (xs := d), List.getElem?_drop (i := i * de.ty.size)]
    split
    · apply h4
      right
      have := Nat.mul_le_mul_right de.ty.size hi
      rw [Nat.zero_add, Nat.zero_add]
      omega
    · rfl

end ValueProp
end Duck
