import Verif.Lemmas.ValueProp
/-! **C82** — properties that hold numbers, enumerations and structures. -/
namespace Duck
namespace ValueProp
open Number (Mem Enc Ty vec leBytes elem val Fits)

set_option exponentiation.threshold 2000

/-! ### A class to try the theorems on -/

/-- The enumeration { off = 0, on = 1, auto = -1 }. -/
def modes : List (Name × BitVec 32) := [([111, 102, 102], 0), ([111, 110], 1), ([97, 117, 116, 111], -1)]

/-- Its table. -/
def modesTable : Enum.Enum := match Enum.init32 modes with | .ok e => e | .error _ => HTable.init

/-- A property named by one letter. -/
def named (c : UInt8) (sem : Option Name) (ro : Bool) (k : Kind) : Definition := ⟨[c], sem, ro, k⟩

/-- Properties: a (int16), b (double[2]), e (enumeration, stored in a byte), s (structure "P" of 3 bytes), r (read-only int16 at
    the place of a), o (object), w (weak object), m (float[2][2] matrix). -/
def sample : List Definition :=
  [named 97 none false (.number 0 (vec .i16 1)), named 98 none false (.number 2 (vec .f64 2)),
   named 101 none false (.enum 18 (vec .i8 1) modesTable), named 115 (some [80]) false (.struct 19 3),
   named 114 none true (.number 0 (vec .i16 1)), named 111 none false (.object 0 false fun _ => true),
   named 119 none false (.object 1 true fun _ => true), named 109 none false (.number 22 ⟨.f32, true, 2, 2⟩),
   named 110 none false (.number 38 (vec .i32 1))]

/-- A new object: zeroed, followed by nothing. -/
def fresh : Obj := ⟨List.replicate 42 0, [.null, .null]⟩

example : Enum.init32 modes = .ok modesTable := rfl

/-! ### Independence -/

/-- **C82.** Setting a property, in whichever way, changes what no other property reads, in whichever way it is read:
    if the two share no byte and no reference, and the call does not run over (`Call.Safe`). -/
theorem C82_apart (T : List Definition) (o o' : Obj) (name name' : Name) (p q : Definition) (hp : lookup T name = some p)
    (hq : lookup T name' = some q) (ha : Apart p.kind q.kind) (c : Call) (hs : c.Safe p.kind) (h : c.run T o name = some o') :
    SameRead T o o' name' :=
  sameRead_of_agree hq (agree_of_changes (run_changes hp c hs h) ha)

example : ∃ p q, lookup sample [97] = some p ∧ lookup sample [98] = some q ∧ Apart p.kind q.kind ∧
    (Call.number (leBytes 8 7) (vec .i64 1)).Safe p.kind ∧ ((Call.number (leBytes 8 7) (vec .i64 1)).run sample fresh [97]).isSome :=
  ⟨_, _, rfl, rfl, fun _ _ _ _ h1 h2 => by cases h1; cases h2; exact .inl (by decide), fun _ _ => .inr (.inl rfl), by decide +kernel⟩

/-- C82 is false of matrices of different shapes when the elements set are larger than those of the property: setting the first
    rows of a 3 by 3 matrix of doubles overwrites the property stored after a 2 by 2 matrix of floats. -/
theorem C82_matrix_fails :
    let src : Mem := (List.replicate 9 (leBytes 8 0x3ff0000000000000)).flatten
    let o' := setNumber sample fresh [109] (src.take 72) ⟨.f64, true, 3, 3⟩
    o'.isNone = true ∧ (∃ o2, setNumber sample ⟨List.replicate 50 0, [.null, .null]⟩ [109] src ⟨.f64, true, 3, 3⟩ = some o2 ∧
      getScalar sample ⟨List.replicate 50 0, [.null, .null]⟩ [110] .i32 = some 0 ∧ getScalar sample o2 [110] .i32 = some 0x3f800000) := by
  refine ⟨by decide +kernel, _, rfl, by decide +kernel, by decide +kernel⟩

/-- **C82.** A read-only property cannot be set, in any way; neither can one that is not defined. -/
theorem C82_readonly (T : List Definition) (o : Obj) (name : Name) (h : ∀ p, lookup T name = some p → p.readOnly = true) (c : Call) :
    c.run T o name = some o := by
  have obj : ∀ x, setObject T o name x = some o := by
    intro x
    unfold setObject
    cases hp : lookup T name with
    | none => rfl
    | some p => simp only [h p hp, if_true]
  cases c with
  | object x => exact obj x
  | bool b => exact obj _
  | number src se =>
      simp only [Call.run, setNumber]
      cases hp : lookup T name with
      | none => rfl
      | some p => simp only [h p hp, if_true]
  | struct sem src =>
      simp only [Call.run, setStruct]
      cases hp : lookup T name with
      | none => rfl
      | some p => simp only [h p hp, if_true]

example : ∀ p, lookup sample [114] = some p → p.readOnly = true := by
  intro p h
  have : lookup sample [114] = some (named 114 none true (.number 0 (vec .i16 1))) := rfl
  rw [this] at h; cases h; rfl

/-- **C82.** NULL, strings and other objects that are no numbers or structures are not stored in a number or structure property;
    NULL is not stored in an enumeration either. -/
theorem C82_no_conversion (T : List Definition) (o : Obj) (name : Name) (p : Definition) (hp : lookup T name = some p) (x : Val)
    (h : (x = .null ∧ p.kind.place ≠ none) ∨ (((∃ s, x = .str s) ∨ ∃ i, x = .other i) ∧
      ((∃ off enc, p.kind = .number off enc) ∨ ∃ off size, p.kind = .struct off size))) :
    setObject T o name x = some o := by
  unfold setObject
  rw [hp]
  simp only
  split
  · rfl
  unfold writeObject
  rcases h with ⟨rfl, hk⟩ | ⟨hx, hk⟩
  · revert hk
    cases p.kind with
    | object slot w acc => intro hk; exact absurd rfl hk
    | number off enc => intro _; rfl
    | enum off enc e => intro _; rfl
    | struct off size => intro _; rfl
  · rcases hk with ⟨off, enc, hk⟩ | ⟨off, size, hk⟩ <;> rw [hk] <;> rcases hx with ⟨s, rfl⟩ | ⟨i, rfl⟩ <;> rfl

example : ∃ p, lookup sample [97] = some p ∧ p.kind.place ≠ none := ⟨_, rfl, by simp [named, Kind.place]⟩

/-! ### Numbers -/

/-- **C82.** Setting a number property from any block of numbers (of any type; scalars, vectors, or matrices of as many elements):
    afterwards the property reads as a number of its own encoding whose first elements have the values given, if its type has
    them; elements for which no value was given keep theirs. -/
theorem C82_number (T : List Definition) (o : Obj) (name : Name) (p : Definition) (hp : lookup T name = some p)
    (hr : p.readOnly = false) (off : Nat) (enc : Enc) (hk : p.kind = .number off enc) (hin : off + enc.size ≤ o.mem.length)
    (src : Mem) (se : Enc) (hs : src.length = se.size) (hm : enc.count = se.count ∨ se.matrix = false ∨ enc.matrix = false)
    (hv : ∀ i, i < se.count → i < enc.count → val se.ty (elem se.ty src i) ≠ .nan ∧ Fits enc.ty (val se.ty (elem se.ty src i))) :
    ∃ o' n n', setNumber T o name src se = some o' ∧ getObject T o name = some (.num n) ∧ getObject T o' name = some (.num n') ∧
      n'.enc = enc ∧ n'.Ok ∧ (∀ i, i < se.count → i < enc.count → n'.at i = val se.ty (elem se.ty src i)) ∧
      (∀ i, se.count ≤ i → i < enc.count → n'.at i = n.at i) := by
  have hs' : src.length = se.count * se.ty.size := by rw [hs, Enc.size, Nat.mul_comm]
  have hlt : ∀ i, i < se.count → elem se.ty src i < 2 ^ se.ty.bits := fun i hi => Number.elem_lt (Number.idx_le hi (by rw [hs']))
  obtain ⟨m', h1, h2, h3⟩ := convertTo_spec (off := off) (de := enc) hs hin hm (fun i hi hi2 => by
    obtain ⟨c, g, _⟩ := Number.C31_value _ _ _ (hlt i hi) (hv i hi hi2).1 (hv i hi hi2).2
    exact ⟨c, g⟩)
  have hfit : Fitting se enc := by
    rcases hm with h | h | h
    · exact .inl h
    · exact .inr (.inl h)
    · exact .inr (.inr (.inl h))
  have hl : m'.length = o.mem.length := (convertTo_frame h1 hfit).1
  refine ⟨{ o with mem := m' }, ⟨enc, bytesAt o.mem off enc.size⟩, ⟨enc, bytesAt m' off enc.size⟩, ?_, ?_, ?_, rfl, ?_, ?_, ?_⟩
  · simp only [setNumber, hp, hr, hk, h1, Option.map_some]; rfl
  · simp only [getObject, hp, readObject, hk, readNumber, if_pos hin]
  · simp only [getObject, hp, readObject, hk, readNumber, hl, if_pos hin]
  · exact bytesAt_length (by rw [hl]; exact hin)
  · intro i hi hi2
    have := h2 i (by omega)
    obtain ⟨c, g1, _, g2⟩ := Number.C31_value _ _ _ (hlt i hi) (hv i hi hi2).1 (hv i hi hi2).2
    rw [g1] at this
    cases this
    exact g2
  · intro i hi hi2
    show val enc.ty _ = val enc.ty _
    rw [h3 i (by omega) hi2]

example : (setNumber sample fresh [98] (leBytes 4 0xffffffff) (vec .i32 1)).bind (fun o => getNumber sample o [98] (List.replicate 4 9) (vec .i16 2)) =
    some (2, [0xff, 0xff, 0, 0]) := by decide +kernel

/-- **C82.** Setting a number as an object is setting it by its bytes; reading the property as numbers converts the number that
    reading it as an object gives. -/
theorem C82_views (T : List Definition) (o : Obj) (name : Name) (p : Definition) (hp : lookup T name = some p) (off : Nat) (enc : Enc)
    (hk : p.kind = .number off enc) :
    (∀ n, setObject T o name (.num n) = setNumber T o name n.value n.enc) ∧
    (∀ n dst de, getObject T o name = some (.num n) → getNumber T o name dst de = Number.convert n.value n.enc dst de) := by
  refine ⟨fun n => ?_, fun n dst de h => ?_⟩
  · simp only [setObject, setNumber, hp, writeObject, hk, writeValue, writeNumber]
  · simp only [getObject, hp, readObject, hk, readNumber] at h
    split at h
    · cases h
      simp only [getNumber, hp, hk]
    · cases h

example : getObject sample fresh [97] = some (.num ⟨vec .i16 1, [0, 0]⟩) := rfl

/-- The first value of a block, converted. -/
theorem convert_first {b : Mem} {enc : Enc} (hb : b.length = enc.size) (hc : 0 < enc.count) (t : Ty) (hn : val enc.ty (elem enc.ty b 0) ≠ .nan)
    (hf : Fits t (val enc.ty (elem enc.ty b 0))) :
    ∃ d c, Number.convert b enc (List.replicate t.size 0) (vec t 1) = some (1, d) ∧ Number.read d 0 t.size = some c ∧ c < 2 ^ t.bits ∧
      val t c = val enc.ty (elem enc.ty b 0) := by
  have hb' : b.length = enc.count * enc.ty.size := by rw [hb, Enc.size, Nat.mul_comm]
  have hlt : elem enc.ty b 0 < 2 ^ enc.ty.bits := Number.elem_lt (Number.idx_le hc (by rw [hb']))
  obtain ⟨c, h1, h2, h3⟩ := Number.C31_value _ t _ hlt hn hf
  have e1 : (vec t 1).count = 1 := rfl
  obtain ⟨d, g1, g2, g3, _⟩ := Number.C31_vector b (List.replicate t.size 0) enc (vec t 1) hb
    (by simp [Enc.size, Enc.count, vec]) (.inr (.inr rfl)) (fun i _ hi => by
      have : i = 0 := by rw [e1] at hi; omega
      subst this; exact ⟨c, h1⟩)
  rw [e1, show min enc.count 1 = 1 by omega] at g1 g3
  have g4 : Number.cast enc.ty t (elem enc.ty b 0) = some (elem t d 0) := g3 0 (by omega)
  rw [h1] at g4
  have hd : (0 + 1) * t.size ≤ d.length := by rw [g2, List.length_replicate]; omega
  have g5 := Number.read_elem (t := t) (i := 0) hd
  rw [Nat.zero_mul] at g5
  refine ⟨d, c, g1, ?_, h2, h3⟩
  rw [g5]
  exact g4.symm

/-- **C82.** DKSetIntegerProperty, DKSetFloatProperty and DKSetEnumProperty followed by any of their counterparts: the value set
    is the value read, if the property's type and the type it is read as have it.  For numbers of every shape (their first
    element) and enumerations. -/
theorem C82_scalar (T : List Definition) (o : Obj) (name : Name) (p : Definition) (hp : lookup T name = some p)
    (hr : p.readOnly = false) (off : Nat) (enc : Enc) (hk : p.kind = .number off enc ∨ ∃ e, p.kind = .enum off enc e)
    (hin : off + enc.size ≤ o.mem.length) (hc : 0 < enc.count) (t u : Ty) (b : Nat) (hb : b < 2 ^ t.bits) (hn : val t b ≠ .nan)
    (h1 : Fits enc.ty (val t b)) (h2 : Fits u (val t b)) :
    ∃ o' c, setScalar T o name t b = some o' ∧ getScalar T o' name u = some c ∧ c < 2 ^ u.bits ∧ val u c = val t b := by
  have he : elem t (leBytes t.size b) 0 = b := by
    unfold elem
    rw [Nat.zero_mul, List.drop_zero, List.take_of_length_le (by rw [Number.leBytes_length]), Number.leNat_leBytes, Number.pow_bits,
      Nat.mod_eq_of_lt hb]
  obtain ⟨c0, g1, g2, g3⟩ := Number.C31_value t enc.ty b hb hn h1
  have e1 : (vec t 1).count = 1 := rfl
  obtain ⟨m', k1, k2, _⟩ := convertTo_spec (m := o.mem) (off := off) (de := enc) (src := leBytes t.size b) (se := vec t 1)
    (by simp [Number.leBytes_length, Enc.size, Enc.count, vec]) hin (.inr (.inl rfl)) (fun i hi _ => by
      have : i = 0 := by rw [e1] at hi; omega
      subst this
      refine ⟨c0, ?_⟩
      show Number.cast t enc.ty (elem t (leBytes t.size b) 0) = some c0
      rw [he]; exact g1)
  have k3 := k2 0 (by rw [e1]; omega)
  have k4 : Number.cast t enc.ty (elem t (leBytes t.size b) 0) = some (elem enc.ty (bytesAt m' off enc.size) 0) := k3
  rw [he, g1] at k4
  have k5 : c0 = elem enc.ty (bytesAt m' off enc.size) 0 := Option.some.inj k4
  have hl : m'.length = o.mem.length := (convertTo_frame k1 (fitting_scalar _ _)).1
  have hv : val enc.ty (elem enc.ty (bytesAt m' off enc.size) 0) = val t b := by rw [← k5]; exact g3
  obtain ⟨d, c, q1, q2, q3, q4⟩ := convert_first (b := bytesAt m' off enc.size) (bytesAt_length (by rw [hl]; exact hin)) hc u
    (by rw [hv]; exact hn) (by rw [hv]; exact h2)
  refine ⟨{ o with mem := m' }, c, ?_, ?_, q3, by rw [q4, hv]⟩
  · rcases hk with hk | ⟨e, hk⟩ <;> simp only [setScalar, setNumber, hp, hr, hk, k1, Option.map_some] <;> rfl
  · have q5 : getNumber T { o with mem := m' } name (List.replicate u.size 0) (vec u 1) = some (1, d) := by
      rcases hk with hk | ⟨e, hk⟩ <;> simp only [getNumber, hp, hk] <;> exact q1
    simp only [getScalar, q5, Option.bind_some]
    rw [if_pos (by decide)]
    exact q2

example : Fits .i16 (val .i64 (2 ^ 64 - 300)) ∧ (setScalar sample fresh [97] .i64 (2 ^ 64 - 300)).bind (fun o => getScalar sample o [97] .f64) =
    some 0xc072c00000000000 := ⟨⟨2 ^ 16 - 300, by decide, by decide +kernel⟩, by decide +kernel⟩

/-! ### Enumerations -/

/-- Reading an enumeration, after its value is known. -/
theorem readName_eq {o : Obj} {off : Nat} {enc : Enc} {e : Enum.Enum} (hin : off + enc.size ≤ o.mem.length) (hc : 0 < enc.count) (v : BitVec 32)
    (hv : val enc.ty (elem enc.ty (bytesAt o.mem off enc.size) 0) = val .i32 v.toNat) :
    readName o off enc e = some (match Enum.stringFromEnum (some e) v with | some s => .str s | none => .null) := by
  have hn : val .i32 v.toNat ≠ .nan := by simp [val, Ty.fmt]
  obtain ⟨d, c, q1, q2, q3, q4⟩ := convert_first (bytesAt_length hin) hc .i32 (by rw [hv]; exact hn)
    ⟨v.toNat, v.isLt, hv.symm⟩
  have hcv : c = v.toNat := by
    have h5 : Number.intVal .i32 c = Number.intVal .i32 v.toNat := by
      have : val .i32 c = val .i32 v.toNat := q4.trans hv
      simp only [val, Ty.fmt, Number.Num.fin.injEq] at this
      exact Number.mul_scale_inj this
    exact Number.intVal_inj .i32 q3 v.isLt h5
  subst hcv
  have q1' : Number.convert (bytesAt o.mem off enc.size) enc (List.replicate 4 0) intEnc = some (1, d) := q1
  have q2' : Number.read d 0 4 = some v.toNat := q2
  simp only [readName, q1', Option.bind_some, q2', Option.map_some, BitVec.ofNat_toNat, BitVec.setWidth_eq]
  cases Enum.stringFromEnum (some e) v <;> rfl

/-- **C82.** Setting an enumeration by a value: it reads as a name with that value; NULL only if no name has it. -/
theorem C82_enum_value (T : List Definition) (o : Obj) (name : Name) (p : Definition) (hp : lookup T name = some p)
    (hr : p.readOnly = false) (off : Nat) (enc : Enc) (e : Enum.Enum) (hk : p.kind = .enum off enc e)
    (l : List (Name × BitVec 32)) (he : Enum.init32 l = .ok e)
    (hin : off + enc.size ≤ o.mem.length) (hc : 0 < enc.count) (v : BitVec 32) (hf : Fits enc.ty (val .i32 v.toNat)) :
    ∃ o' x, setScalar T o name .i32 v.toNat = some o' ∧ getObject T o' name = some x ∧
      ((∃ s, x = .str s ∧ Enum.valueOf l s = some v) ∨ (x = .null ∧ ∀ s, Enum.valueOf l s ≠ some v)) := by
  have hn : val .i32 v.toNat ≠ .nan := by simp [val, Ty.fmt]
  have hb : v.toNat < 2 ^ Ty.bits .i32 := v.isLt
  have heb : elem .i32 (leBytes 4 v.toNat) 0 = v.toNat := by
    unfold elem
    rw [Nat.zero_mul, List.drop_zero, List.take_of_length_le (by rw [Number.leBytes_length]; decide), Number.leNat_leBytes]
    exact Nat.mod_eq_of_lt v.isLt
  obtain ⟨c0, g1, g2, g3⟩ := Number.C31_value .i32 enc.ty v.toNat hb hn hf
  obtain ⟨m', k1, k2, _⟩ := convertTo_spec (m := o.mem) (off := off) (de := enc) (src := leBytes 4 v.toNat) (se := vec .i32 1)
    (by simp [Number.leBytes_length, Enc.size, Enc.count, vec, Ty.size]) hin (.inr (.inl rfl)) (fun i hi _ => by
      have : i = 0 := by have : (vec .i32 1).count = 1 := rfl; omega
      subst this
      refine ⟨c0, ?_⟩
      show Number.cast .i32 enc.ty (elem .i32 (leBytes 4 v.toNat) 0) = some c0
      rw [heb]; exact g1)
  have k4 : Number.cast .i32 enc.ty (elem .i32 (leBytes 4 v.toNat) 0) = some (elem enc.ty (bytesAt m' off enc.size) 0) :=
    k2 0 (by have : (vec .i32 1).count = 1 := rfl; omega)
  rw [heb, g1] at k4
  have k5 : c0 = elem enc.ty (bytesAt m' off enc.size) 0 := Option.some.inj k4
  have hl : m'.length = o.mem.length := (convertTo_frame k1 (fitting_scalar _ _)).1
  refine ⟨{ o with mem := m' }, match Enum.stringFromEnum (some e) v with | some s => .str s | none => .null, ?_, ?_, ?_⟩
  rotate_left
  · simp only [getObject, hp, readObject, hk]
    rw [readName_eq (o := { o with mem := m' }) (by show _ ≤ m'.length; rw [hl]; exact hin) hc v (by rw [← k5]; exact g3)]
  · have := (Enum.C56_int_partial l e he).2 v
    revert this
    cases Enum.stringFromEnum (some e) v with
    | none => intro h; exact .inr ⟨rfl, h⟩
    | some s => intro h; exact .inl ⟨s, rfl, h⟩
  · have k1' : convertTo o.mem off enc (leBytes (Ty.size .i32) v.toNat) (vec .i32 1) = some (min (vec .i32 1).count enc.count, m') := k1
    simp only [setScalar, setNumber, hp, hr, hk, k1', Option.map_some]; rfl

/-- **C82.** Setting an enumeration by a name is setting it by the value registered last for the name, 0 for a word that is not
    a name (so that misspelt names are not told from the name for 0), whenever the lookup finishes (C56: always, with up to
    ten names). -/
theorem C82_enum_name (T : List Definition) (o : Obj) (name : Name) (p : Definition) (hp : lookup T name = some p)
    (off : Nat) (enc : Enc) (e : Enum.Enum) (hk : p.kind = .enum off enc e)
    (l : List (Name × BitVec 32)) (he : Enum.init32 l = .ok e) (s : Name) (hs : ∃ v, Enum.fromString e (some s) = .ok v) :
    setObject T o name (.str s) = setScalar T o name .i32 ((Enum.valueOf l s).getD 0).toNat := by
  obtain ⟨v, hv⟩ := hs
  have := (Enum.C56_int_partial l e he).1 s v hv
  rw [← this]
  simp only [setObject, setScalar, setNumber, hp, writeObject, hk, writeName, hv]
  rfl

/-- **C82.** With up to ten names the lookup always finishes. -/
theorem C82_enum_short (l : List (Name × BitVec 32)) (hl : l.length ≤ 10) :
    ∃ e, Enum.init32 l = .ok e ∧ ∀ s, ∃ v, Enum.fromString e (some s) = .ok v := by
  obtain ⟨e, h1, h2⟩ := Enum.C56_short (l.map fun x => (x.1, x.2.signExtend 64)) (by simpa using hl)
  exact ⟨e, h1, fun s => by
    simp only [Enum.fromString, h2 s]
    exact ⟨_, rfl⟩⟩

example : (setObject sample fresh [101] (.str [97, 117, 116, 111])).bind (fun o => getScalar sample o [101] .i64) = some (2 ^ 64 - 1) := by
  decide +kernel

/-- C82 is false of truth values of enumerations, which are told from the first letter of the name: the name "off", a value
    of 0, and "on", a value of 1, both read as false; with the names "two" for 0 and "one" for 1 the one for 0 reads as true. -/
theorem C82_enum_bool_fails :
    ((setScalar sample fresh [101] .i32 1).bind fun o => getBool sample o [101]) = some false ∧
    (∃ e, Enum.init32 [([116, 119, 111], 0), ([111, 110, 101], 1)] = .ok e ∧
      getBool [named 101 none false (.enum 0 (vec .i8 1) e)] ⟨[0], []⟩ [101] = some true ∧
      getBool [named 101 none false (.enum 0 (vec .i8 1) e)] ⟨[1], []⟩ [101] = some false) := by
  refine ⟨by decide +kernel, _, rfl, by decide +kernel, by decide +kernel⟩

/-! ### Structures -/

/-- The semantic given is the one the property asks for, if it asks for one. -/
def Meets (p : Definition) (sem : Option Name) : Prop := p.semantic = none ∨ p.semantic = sem

theorem semanticOk_iff (p : Definition) (sem : Option Name) : semanticOk p sem = true ↔ Meets p sem := by
  unfold semanticOk Meets
  cases p.semantic with
  | none => simp
  | some s => cases sem with
    | none => simp [sameString]
    | some t => simp only [sameString, beq_iff_eq]; simp [eq_comm]

/-- **C82.** Setting a structure property to bytes of its size and semantic: the same bytes are read, by DKGetStructProperty and
    (if the property has a semantic) from the structure DKGetProperty gives. -/
theorem C82_struct (T : List Definition) (o : Obj) (name : Name) (p : Definition) (hp : lookup T name = some p)
    (hr : p.readOnly = false) (off size : Nat) (hk : p.kind = .struct off size) (hsz : size < 2 ^ 24)
    (hin : off + size ≤ o.mem.length) (sem : Option Name) (hsem : Meets p sem) (src : Mem) (hs : src.length = size) :
    ∃ o', setStruct T o name sem src = some o' ∧ getStruct T o' name sem size = some (some src) ∧
      (p.semantic ≠ none → 0 < size → getObject T o' name = some (.struct p.semantic src)) := by
  have hok := (semanticOk_iff p sem).mpr hsem
  obtain ⟨m', hm'⟩ : ∃ m', copyTo o.mem off src = some m' := by
    unfold copyTo; rw [if_pos (by omega)]; exact ⟨_, rfl⟩
  obtain ⟨h1, h2⟩ := copyTo_frame hm'
  have hl := h1.1
  rw [hs] at h2
  refine ⟨{ o with mem := m' }, ?_, ?_, ?_⟩
  · simp only [setStruct, hp, hr, hok, hk, hs, hm', if_true, Option.map_some]; rfl
  · simp only [getStruct, hp, hok, hk, if_true, hl, if_pos hin, h2]
  · intro hne hpos
    have hps : packedSize size = size := Nat.mod_eq_of_lt hsz
    cases hs' : p.semantic with
    | none => exact absurd hs' hne
    | some s =>
        simp only [getObject, hp, readObject, hk, readStruct, hs', hps, hl, if_pos hin, h2, newStruct]
        rw [if_neg (by omega)]

example : (setStruct sample fresh [115] (some [80]) [1, 2, 3]).bind (fun o => getStruct sample o [115] (some [80]) 3) = some (some [1, 2, 3]) := by
  decide +kernel

/-- **C82.** A structure set as an object is set like its bytes under its semantic, if the property has a semantic. -/
theorem C82_struct_object (T : List Definition) (o : Obj) (name : Name) (p : Definition) (hp : lookup T name = some p)
    (off size : Nat) (hk : p.kind = .struct off size) (hsz : size < 2 ^ 24) (hsem : p.semantic ≠ none)
    (sem : Option Name) (src : Mem) (hs : src.length < 2 ^ 24) :
    setObject T o name (.struct sem src) = setStruct T o name sem src := by
  have hps : packedSize size = size := Nat.mod_eq_of_lt hsz
  have hps' : packedSize src.length = src.length := Nat.mod_eq_of_lt hs
  have hq : ∀ b, semanticOk p sem = b → (sem = p.semantic ↔ b = true) := by
    intro b hb
    rw [← hb, semanticOk_iff, Meets]
    constructor
    · intro h; exact .inr h.symm
    · rintro (h | h)
      · exact absurd h hsem
      · exact h.symm
  simp only [setObject, setStruct, hp, writeObject, hk, writeStruct, structValue, hps, hps']
  by_cases h1 : p.readOnly = true
  · simp only [h1, if_true]
  · rw [if_neg h1, if_neg h1]
    by_cases h2 : size = src.length
    · rw [if_pos h2, if_pos h2]
      cases h3 : semanticOk p sem with
      | true => rw [if_pos ((hq _ h3).mpr rfl)]; rfl
      | false => rw [if_neg (fun h => by have := (hq _ h3).mp h; cases this)]; rfl
    · rw [if_neg h2, if_neg h2]
      cases semanticOk p sem <;> rfl

example : ∃ p, lookup sample [115] = some p ∧ p.kind = .struct 19 3 ∧ p.semantic ≠ none := ⟨_, rfl, rfl, by simp [named]⟩

/-- **C82.** Bytes of another semantic or size are not stored, and none are read. -/
theorem C82_struct_mismatch (T : List Definition) (o : Obj) (name : Name) (p : Definition) (hp : lookup T name = some p)
    (off size : Nat) (hk : p.kind = .struct off size) (hsz : size < 2 ^ 24) (sem : Option Name) (src : Mem) (hs : src.length < 2 ^ 24)
    (h : ¬ Meets p sem ∨ src.length ≠ size) :
    setStruct T o name sem src = some o ∧ getStruct T o name sem src.length = some none := by
  have hps : packedSize size = size := Nat.mod_eq_of_lt hsz
  have hps' : packedSize src.length = src.length := Nat.mod_eq_of_lt hs
  simp only [setStruct, getStruct, hp, hk, hps, hps']
  rcases h with h | h
  · have : semanticOk p sem = false := by
      cases hb : semanticOk p sem with
      | false => rfl
      | true => exact absurd ((semanticOk_iff p sem).mp hb) h
    simp [this]
  · have hne : ¬ size = src.length := fun e => h e.symm
    simp only [if_neg hne]
    constructor
    · split
      · rfl
      · split <;> rfl
    · split <;> rfl

example : ∃ p, lookup sample [115] = some p ∧ p.kind = .struct 19 3 ∧ ¬ Meets p (some [81]) := ⟨_, rfl, rfl, by simp [Meets, named]⟩

/-- C82 is false of structures whose size does not fit the 24 bits of an encoding: with 2^24 more bytes than the property has, the
    sizes are taken for equal and all the bytes are copied, past the end of the object. -/
theorem C82_large_struct_fails (src : Mem) (hs : src.length = 2 ^ 24 + 3) : setStruct sample fresh [115] (some [80]) src = none := by
  have h1 : lookup sample [115] = some (named 115 (some [80]) false (.struct 19 3)) := rfl
  have h3 : semanticOk (named 115 (some [80]) false (.struct 19 3)) (some [80]) = true := rfl
  simp only [setStruct, h1, h3]
  simp only [named, show packedSize 3 = 3 from rfl, if_true, copyTo, hs]
  rfl

/-! ### Boxed values -/

/-- **C82.** An object property that accepts it and is not weak holds the number or structure given; it reads back. -/
theorem C82_boxed_partial (T : List Definition) (o : Obj) (name : Name) (p : Definition) (hp : lookup T name = some p)
    (hr : p.readOnly = false) (slot : Nat) (acc : Val → Bool) (hk : p.kind = .object slot false acc) (hin : slot < o.refs.length) :
    (∀ src se, acc (.num ⟨se, src⟩) = true → ∃ o', setNumber T o name src se = some o' ∧
      getObject T o' name = some (.num ⟨se, src⟩) ∧ ∀ dst de, getNumber T o' name dst de = Number.convert src se dst de) ∧
    (∀ sem src, 0 < src.length → Meets p sem → acc (.struct sem src) = true → ∃ o', setStruct T o name sem src = some o' ∧
      getObject T o' name = some (.struct sem src) ∧ getStruct T o' name sem src.length = some (some src)) := by
  have hset : ∀ x, (o.refs.set slot x)[slot]? = some x := fun x => List.getElem?_set_self hin
  refine ⟨fun src se ha => ⟨{ o with refs := o.refs.set slot (.num ⟨se, src⟩) }, ?_, ?_, fun dst de => ?_⟩,
    fun sem src hl hm ha => ⟨{ o with refs := o.refs.set slot (.struct sem src) }, ?_, ?_, ?_⟩⟩
  · simp only [setNumber, hp, hr, hk, writeNew, ha, if_true, if_pos hin]; rfl
  · simp only [getObject, hp, readObject, hk, hset]
  · simp only [getNumber, hp, hk, hset, Option.bind_some, unpackNumber]
  · have hn : newStruct sem src = .struct sem src := by unfold newStruct; rw [if_neg (by omega)]
    simp only [setStruct, hp, hr, hk, (semanticOk_iff p sem).mpr hm, hn, writeNew, ha, if_true, if_pos hin]; rfl
  · simp only [getObject, hp, readObject, hk, hset]
  · simp only [getStruct, hp, hk, (semanticOk_iff p sem).mpr hm, if_true, hset, Option.map_some, unpackStruct, structValue]

example : (setNumber sample fresh [111] [7] (vec .u8 1)).bind (fun o => getScalar sample o [111] .f32) = some 0x40e00000 := by decide +kernel

/-- **C82.** What the predicate of an object property refuses is not stored. -/
theorem C82_rejected (T : List Definition) (o : Obj) (name : Name) (p : Definition) (hp : lookup T name = some p)
    (slot : Nat) (w : Bool) (acc : Val → Bool) (hk : p.kind = .object slot w acc) :
    (∀ x, acc x = false → setObject T o name x = some o) ∧
    (∀ src se, acc (.num ⟨se, src⟩) = false → setNumber T o name src se = some o) ∧
    (∀ sem src, 0 < src.length → acc (.struct sem src) = false → setStruct T o name sem src = some o) := by
  refine ⟨fun x hx => ?_, fun src se hx => ?_, fun sem src hl hx => ?_⟩
  · simp only [setObject, hp, writeObject, hk, writeRef, hx]
    split <;> rfl
  · simp only [setNumber, hp, hk, writeNew, hx]
    split <;> rfl
  · have hn : newStruct sem src = .struct sem src := by unfold newStruct; rw [if_neg (by omega)]
    simp only [setStruct, hp, hk, hn, writeNew, hx]
    split
    · rfl
    · split <;> rfl

/-- A property for truth values only. -/
def picky : List Definition := [named 112 none false (.object 0 false fun x => match x with | .num n => n.enc = vec .i8 1 | _ => false)]

example : (setScalar picky fresh [112] .i64 7).map (fun o => o.refs.length) = some 2 ∧
    (setScalar picky fresh [112] .i64 7).bind (fun o => getScalar picky o [112] .i8) = some 0 ∧
    (setScalar picky fresh [112] .i8 7).bind (fun o => getScalar picky o [112] .i8) = some 7 := ⟨rfl, by decide +kernel, by decide +kernel⟩

/-- **C82.** Reading an object property as numbers or as a structure when it holds something else: NULL reads as zeros, an object
    that is not a number as no number, one that is not a structure of the semantic and size asked for as no structure. -/
theorem C82_boxed_other (T : List Definition) (o : Obj) (name : Name) (p : Definition) (hp : lookup T name = some p)
    (slot : Nat) (w : Bool) (acc : Val → Bool) (hk : p.kind = .object slot w acc) (x : Val) (hx : getObject T o name = some x) :
    (x = .null → (∀ dst de, dst.length = de.size → getNumber T o name dst de = some (de.count, List.replicate de.size 0)) ∧
      ∀ sem size, Meets p sem → getStruct T o name sem size = some (some (List.replicate size 0))) ∧
    (x ≠ .null → (∀ n, x ≠ .num n) → ∀ dst de, getNumber T o name dst de = some (0, dst)) ∧
    (x ≠ .null → ∀ sem size, (∀ b, b.length = size → x ≠ .struct sem b) ∨ ¬ Meets p sem → getStruct T o name sem size = some none) := by
  have hr : o.refs[slot]? = some x := by simpa only [getObject, hp, readObject, hk] using hx
  refine ⟨?_, ?_, ?_⟩
  · rintro rfl
    refine ⟨fun dst de hd => ?_, fun sem size hm => ?_⟩
    · simp only [getNumber, hp, hk, hr, Option.bind_some, unpackNumber]
      rw [if_pos (by omega), List.drop_of_length_le (by omega), List.append_nil]
    · simp only [getStruct, hp, hk, (semanticOk_iff p sem).mpr hm, if_true, hr, Option.map_some, unpackStruct]
  · intro h1 h2 dst de
    simp only [getNumber, hp, hk, hr, Option.bind_some]
    cases x with
    | null => exact absurd rfl h1
    | num n => exact absurd rfl (h2 n)
    | struct s b => rfl
    | str s => rfl
    | other i => rfl
  · intro h1 sem size h2
    simp only [getStruct, hp, hk, hr, Option.map_some]
    split
    case isFalse => rfl
    rename_i hm
    rcases h2 with h2 | h2
    · cases x with
      | null => exact absurd rfl h1
      | num n => rfl
      | str s => rfl
      | other i => rfl
      | struct s b =>
          simp only [unpackStruct, structValue]
          split
          · rename_i hsz
            split
            · rename_i hse
              subst hse
              exact absurd rfl (h2 b hsz.symm)
            · rfl
          · rfl
    · exact absurd ((semanticOk_iff p sem).mp hm) h2

example : (setStruct sample fresh [111] (some [80]) [1, 2, 3]).bind (fun o => getStruct sample o [111] (some [81]) 3) = some none ∧
    (setStruct sample fresh [111] (some [80]) [1, 2, 3]).bind (fun o => getStruct sample o [111] (some [80]) 2) = some none ∧
    (setStruct sample fresh [111] (some [80]) [1, 2, 3]).bind (fun o => getScalar sample o [111] .i32) = some 0 :=
  ⟨by decide +kernel, by decide +kernel, by decide +kernel⟩

/-- C82 is false of weak object properties: the number made for the call is gone when it returns, and the property reads as 0,
    as if 0 had been set. -/
theorem C82_weak_fails : ((setScalar sample fresh [119] .i64 7).bind fun o => getNumber sample o [119] (List.replicate 8 9) (vec .i64 1)) =
    some (1, List.replicate 8 0) := by decide +kernel

/-! ### Truth values -/

/-- **C82.** DKSetBoolProperty then DKGetBoolProperty gives the truth value set, for numbers of every type and shape and for
    object properties that accept it. -/
theorem C82_bool (T : List Definition) (o : Obj) (name : Name) (p : Definition) (hp : lookup T name = some p) (hr : p.readOnly = false)
    (b : Bool) (hk : (∃ off enc, p.kind = .number off enc ∧ off + enc.size ≤ o.mem.length ∧ 0 < enc.count) ∨
      ∃ slot w acc, p.kind = .object slot w acc ∧ slot < o.refs.length ∧ acc (boolean b) = true) :
    ∃ o', setBool T o name b = some o' ∧ getBool T o' name = some b := by
  rcases hk with ⟨off, enc, hk, hin, hc⟩ | ⟨slot, w, acc, hk, hin, ha⟩
  · have hel : elem .i8 (leBytes 1 (if b then 1 else 0)) 0 = if b then 1 else 0 := by cases b <;> decide
    have hval : ∀ t, Fits t (val .i8 (if b then 1 else 0)) := by
      intro t
      cases b <;> cases t
      all_goals first
        | exact ⟨0, by decide, by decide +kernel⟩
        | exact ⟨1, by decide, by decide +kernel⟩
        | exact ⟨0x3f800000, by decide, by decide +kernel⟩
        | exact ⟨0x3ff0000000000000, by decide, by decide +kernel⟩
    have hnan : val .i8 (if b then 1 else 0) ≠ .nan := by simp [val, Ty.fmt]
    obtain ⟨o', n, n', h1, _, h3, h4, h5, h6, _⟩ := C82_number T o name p hp hr off enc hk hin (leBytes 1 (if b then 1 else 0)) (vec .i8 1)
      (by simp [Number.leBytes_length, Enc.size, Enc.count, vec, Ty.size]) (.inr (.inl rfl)) (fun i hi _ => by
        have : i = 0 := by have : (vec .i8 1).count = 1 := rfl; omega
        subst this
        show val .i8 (elem .i8 _ 0) ≠ .nan ∧ Fits enc.ty (val .i8 (elem .i8 _ 0))
        rw [hel]
        exact ⟨hnan, hval _⟩)
    refine ⟨o', ?_, ?_⟩
    · have := (C82_views T o name p hp off enc hk).1 ⟨vec .i8 1, leBytes 1 (if b then 1 else 0)⟩
      exact this.trans h1
    · have h7 : n'.at 0 = val .i8 (if b then 1 else 0) := by
        have : n'.at 0 = val .i8 (elem .i8 (leBytes 1 (if b then 1 else 0)) 0) := h6 0 (by decide) hc
        rw [this, hel]
      obtain ⟨d, c, q1, q2, _, q4⟩ := convert_first h5 (by rw [h4]; exact hc) .i32 (by show n'.at 0 ≠ _; rw [h7]; exact hnan)
        (by show Fits _ (n'.at 0); rw [h7]; exact hval _)
      have q5 : val .i32 c = val .i8 (if b then 1 else 0) := q4.trans h7
      have hcb : (c != 0) = b := by
        cases b with
        | false =>
            have h8 : Number.intVal .i32 c * Number.scale = Number.intVal .i8 0 * Number.scale := by
              simpa [val, Ty.fmt] using q5
            have h9 := Number.mul_scale_inj h8
            have h10 : Number.intVal .i8 0 = 0 := by decide
            rw [h10] at h9
            rename_i hlt
            have := Number.intVal_inj .i32 hlt (by decide : 0 < 2 ^ Ty.bits .i32) (h9.trans (by decide : (0 : Int) = Number.intVal .i32 0))
            rw [this]; rfl
        | true =>
            cases hc0 : (c != 0) with
            | true => rfl
            | false =>
                have : c = 0 := by simpa using hc0
                rw [this] at q5
                exact absurd q5 (by decide +kernel)
      simp only [getBool, h3, Option.bind_some, Number.getBool, Number.getScalar, q1, if_true, q2, Option.map_some, hcb]
  · have hset : (o.refs.set slot (boolean b))[slot]? = some (boolean b) := List.getElem?_set_self hin
    refine ⟨{ o with refs := o.refs.set slot (boolean b) }, ?_, ?_⟩
    · simp only [setBool, setObject, hp, hr, writeObject, hk, writeRef, ha, if_true, if_pos hin]; rfl
    · have hget : getObject T { o with refs := o.refs.set slot (boolean b) } name = some (boolean b) := by
        simp only [getObject, hp, readObject, hk, hset]
      rw [getBool, hget]
      cases b <;> decide +kernel

example : (setBool sample fresh [98] true).bind (fun o => getBool sample o [98]) = some true ∧
    (setBool sample fresh [111] true).bind (fun o => getBool sample o [111]) = some true := ⟨by decide +kernel, by decide +kernel⟩

end ValueProp
end Duck
