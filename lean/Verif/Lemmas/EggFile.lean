import Verif.Lemmas.EggArchive
import Mathlib.Tactic.IntervalCases
/-! Lemmas about the bytes of an egg archive: the unarchiver finds the tables the archiver wrote. -/
namespace Duck
namespace Egg
open Encoding (encode getType getCount getTypeSize getSize isNumber swapInt32 typeGetSize)

/-- A word written by one machine is read by the other, swapped if their byte orders differ. -/
theorem get32_put32 (w r : Order) (x : BitVec 32) (bs : Bytes) (off : Nat) (h : put32 w x <+: bs.drop off) :
    (get32 r bs off).map (fix (w.byte != r.byte)) = some x := by
  obtain ⟨t, ht⟩ := h
  unfold get32
  rw [← ht]
  have hbb : (Order.big.byte != Order.big.byte) = false := by decide
  have hbl : (Order.big.byte != Order.little.byte) = true := by decide
  have hlb : (Order.little.byte != Order.big.byte) = true := by decide
  have hll : (Order.little.byte != Order.little.byte) = false := by decide
  cases w <;> cases r <;> simp only [put32, List.cons_append, Option.map_some, of4, fix, hbb, hbl, hlb, hll, if_true, Bool.false_eq_true, if_false,
    Option.some.injEq, Encoding.swap32_eq, Encoding.builtin32] <;>
    (apply BitVec.eq_of_getLsbD_eq; intro i hi
     interval_cases i <;> (simp only [BitVec.getLsbD_cast, BitVec.getLsbD_append, BitVec.getLsbD_extractLsb']; simp))

theorem header_length (ord : Order) (s : Arch) : (header ord s).length = 48 := by
  unfold header; simp only [List.length_append, put32_length]; rfl

theorem header_words (ord : Order) (s : Arch) :
    (header ord s).drop 28 = put32 ord (BitVec.ofNat 32 s.objs.length) ++ (header ord s).drop 32 ∧
    (header ord s).drop 36 = put32 ord (BitVec.ofNat 32 (attrCount s.objs)) ++ (header ord s).drop 40 ∧
    (header ord s).drop 40 = put32 ord (BitVec.ofNat 32 (48 + 12 * s.objs.length + 12 * attrCount s.objs)) ++ (header ord s).drop 44 ∧
    (header ord s).drop 44 = put32 ord (BitVec.ofNat 32 s.data.length) := by
  cases ord <;> exact ⟨rfl, rfl, rfl, rfl⟩

theorem header_start (ord : Order) (s : Arch) (rest : Bytes) :
    headerOk (header ord s ++ rest) = true ∧ (header ord s ++ rest)[22]? = some ord.byte ∧
      (header ord s ++ rest)[23]? = some (if s.rootless then 1 else 0) := by
  cases ord <;> exact ⟨rfl, rfl, rfl⟩

theorem prefix_mid (A B C : Bytes) : B <+: (A ++ (B ++ C)).drop A.length := by
  rw [List.drop_left]; exact List.prefix_append _ _

theorem headerWord_ok {w r : Order} {H rest : Bytes} {off : Nat} {x : BitVec 32} {t : Bytes} (h : H.drop off = put32 w x ++ t) (hl : off ≤ H.length) :
    headerWord r (w.byte != r.byte) (H ++ rest) off = some x := by
  apply get32_put32
  rw [List.drop_append_of_le_length hl, h, List.append_assoc]
  exact List.prefix_append _ _

/-- The first attribute of object `i`. -/
def start (objs : List AObj) (i : Nat) : Nat := attrCount (objs.take i)

theorem objectTable_length (ord : Order) : ∀ (objs : List AObj) (k : Nat), (objectTable ord objs k).length = 12 * objs.length
  | [], _ => rfl
  | a :: objs, k => by
    rw [objectTable]; simp only [List.length_append, put32_length, objectTable_length ord objs, List.length_cons]; omega

theorem objectTable_at (ord : Order) : ∀ (objs : List AObj) (k i : Nat) (a : AObj), objs[i]? = some a →
    ∃ t, (objectTable ord objs k).drop (12 * i) =
      put32 ord a.className ++ (put32 ord (BitVec.ofNat 32 (k + start objs i)) ++ (put32 ord (BitVec.ofNat 32 a.attrs.length) ++ t))
  | [], _, _, _, h => by simp at h
  | b :: objs, k, 0, a, h => by
    simp only [List.getElem?_cons_zero, Option.some.injEq] at h; subst h
    refine ⟨objectTable ord objs (k + b.attrs.length), ?_⟩
    rw [objectTable, Nat.mul_zero, List.drop_zero]
    simp [start, attrCount]
  | b :: objs, k, i + 1, a, h => by
    simp only [List.getElem?_cons_succ] at h
    obtain ⟨t, ht⟩ := objectTable_at ord objs (k + b.attrs.length) i a h
    refine ⟨t, ?_⟩
    rw [objectTable, show 12 * (i + 1) = 12 + 12 * i by omega, ← List.drop_drop]
    have hl : (put32 ord b.className ++ put32 ord (BitVec.ofNat 32 k) ++ put32 ord (BitVec.ofNat 32 b.attrs.length)).length = 12 := by
      simp only [List.length_append, put32_length]
    rw [← hl, List.drop_left, hl, ht]
    have : k + b.attrs.length + start objs i = k + start (b :: objs) (i + 1) := by
      simp only [start, attrCount, List.take_succ_cons, List.map_cons, List.sum_cons]; omega
    rw [this]

/-- All attributes in the order of the attribute table. -/
def allAttrs (objs : List AObj) : List Attr := objs.flatMap (·.attrs)

theorem attributeTable_eq (ord : Order) (objs : List AObj) : attributeTable ord objs = (allAttrs objs).flatMap (attrBytes ord) := by
  unfold attributeTable allAttrs; rw [List.flatMap_assoc]

theorem attrBytes_length (ord : Order) (a : Attr) : (attrBytes ord a).length = 12 := by
  unfold attrBytes; simp only [List.length_append, put32_length]

theorem attrs_length (ord : Order) : ∀ as : List Attr, (as.flatMap (attrBytes ord)).length = 12 * as.length
  | [] => rfl
  | a :: as => by rw [List.flatMap_cons, List.length_append, attrBytes_length, attrs_length ord as, List.length_cons]; omega

theorem attrs_at (ord : Order) : ∀ (as : List Attr) (j : Nat) (a : Attr), as[j]? = some a →
    ∃ t, (as.flatMap (attrBytes ord)).drop (12 * j) = attrBytes ord a ++ t
  | [], _, _, h => by simp at h
  | b :: as, 0, a, h => by
    simp only [List.getElem?_cons_zero, Option.some.injEq] at h; subst h
    exact ⟨_, by rw [List.flatMap_cons, Nat.mul_zero, List.drop_zero]⟩
  | b :: as, j + 1, a, h => by
    simp only [List.getElem?_cons_succ] at h
    obtain ⟨t, ht⟩ := attrs_at ord as j a h
    refine ⟨t, ?_⟩
    rw [List.flatMap_cons, show 12 * (j + 1) = 12 + 12 * j by omega, ← List.drop_drop]
    rw [← attrBytes_length ord b, List.drop_left, attrBytes_length, ht]

theorem allAttrs_length (objs : List AObj) : (allAttrs objs).length = attrCount objs := by
  unfold allAttrs attrCount; rw [List.length_flatMap]

theorem allAttrs_at : ∀ (objs : List AObj) (i : Nat) (a : AObj), objs[i]? = some a → ∀ j x, a.attrs[j]? = some x →
    (allAttrs objs)[start objs i + j]? = some x
  | [], _, _, h, _, _, _ => by simp at h
  | b :: objs, 0, a, h, j, x, hx => by
    simp only [List.getElem?_cons_zero, Option.some.injEq] at h; subst h
    simp only [allAttrs, List.flatMap_cons, start, List.take_zero, attrCount, List.map_nil, List.sum_nil, Nat.zero_add]
    exact getElem?_append_some hx
  | b :: objs, i + 1, a, h, j, x, hx => by
    simp only [List.getElem?_cons_succ] at h
    have := allAttrs_at objs i a h j x hx
    have hs : start (b :: objs) (i + 1) = b.attrs.length + start objs i := by
      simp only [start, attrCount, List.take_succ_cons, List.map_cons, List.sum_cons]
    rw [hs]
    simp only [allAttrs, List.flatMap_cons] at this ⊢
    rw [List.getElem?_append_right (by omega), ← this]; congr 1; omega

theorem start_le (objs : List AObj) (i : Nat) (a : AObj) (h : objs[i]? = some a) : start objs i + a.attrs.length ≤ attrCount objs := by
  induction objs generalizing i with
  | nil => simp at h
  | cons b objs ih =>
    cases i with
    | zero =>
      simp only [List.getElem?_cons_zero, Option.some.injEq] at h; subst h
      simp [start, attrCount]
    | succ i =>
      simp only [List.getElem?_cons_succ] at h
      have := ih i h
      simp only [start, attrCount, List.take_succ_cons, List.map_cons, List.sum_cons] at this ⊢
      omega

/-- What the unarchiver finds in an archive. -/
structure Reads (s : Arch) (w r : Order) (u : Un) : Prop where
  order : u.order = r
  isForeign : u.foreign = (w.byte != r.byte)
  rootless : u.rootless = s.rootless
  nobj : u.nobj = s.objs.length
  obj : ∀ (i : Nat) a, s.objs[i]? = some a → objectAt u i = some (a.className, BitVec.ofNat 32 (start s.objs i), BitVec.ofNat 32 a.attrs.length)
  attr : ∀ (j : Nat) a, (allAttrs s.objs)[j]? = some a → attributeAt u j = some a
  data : ∀ off, dataFrom u off = s.data.drop off
  small : s.objs.length < 2 ^ 32 ∧ attrCount s.objs < 2 ^ 32 ∧ s.data.length < 2 ^ 32

/-- The archive is header, object table, attribute table, data. -/
theorem archivedData_eq (ord : Order) (s : Arch) (h : s.objs.length < 2 ^ 32) :
    archivedData ord s = header ord s ++ (objectTable ord s.objs 0 ++ ((allAttrs s.objs).flatMap (attrBytes ord) ++ s.data)) := by
  unfold archivedData
  rw [Nat.mod_eq_of_lt h, List.take_length, attributeTable_eq]; simp only [List.append_assoc]

theorem archivedData_length (ord : Order) (s : Arch) (h : s.objs.length < 2 ^ 32) :
    (archivedData ord s).length = tableEnd s.objs.length (attrCount s.objs) + s.data.length := by
  rw [archivedData_eq ord s h]
  simp only [List.length_append, header_length, objectTable_length, attrs_length, allAttrs_length, tableEnd]; omega

theorem drop_word {bs t : Bytes} {off : Nat} {w : Order} {x : BitVec 32} (h : bs.drop off = put32 w x ++ t) : bs.drop (off + 4) = t := by
  rw [← List.drop_drop, h]
  exact List.drop_left' (put32_length w x)

theorem reads_of {s : Arch} {w r : Order} {u : Un} (hsm : s.objs.length < 2 ^ 32) (hm : attrCount s.objs < 2 ^ 32) (hdl : s.data.length < 2 ^ 32)
    (ho : u.order = r) (hf : u.foreign = (w.byte != r.byte)) (hrl : u.rootless = s.rootless) (hb : u.bytes = archivedData w s) (hn : u.nobj = s.objs.length)
    (ha : u.nattr = attrCount s.objs) (hlim : tableEnd s.objs.length (attrCount s.objs) ≤ u.limit) : Reads s w r u := by
  have hw : ∀ off x, off + 4 ≤ tableEnd s.objs.length (attrCount s.objs) → put32 w x <+: u.bytes.drop off → tableWord u off = some x := by
    intro off x h1 h2
    unfold tableWord
    rw [if_pos (by omega), ho, hf]
    exact get32_put32 w r x _ _ h2
  have hbytes := hb.trans (archivedData_eq w s hsm)
  refine ⟨ho, hf, hrl, hn, ?_, ?_, ?_, hsm, hm, hdl⟩
  · intro i a h
    have hi := (List.getElem?_eq_some_iff.mp h).1
    obtain ⟨t, ht⟩ := objectTable_at w s.objs 0 i a h
    rw [Nat.zero_add] at ht
    have hd : u.bytes.drop (48 + 12 * i) = put32 w a.className ++ (put32 w (BitVec.ofNat 32 (start s.objs i)) ++ (put32 w (BitVec.ofNat 32 a.attrs.length) ++
        (t ++ ((allAttrs s.objs).flatMap (attrBytes w) ++ s.data)))) := by
      rw [hbytes, ← List.drop_drop, ← header_length w s, List.drop_left, List.drop_append_of_le_length (by rw [objectTable_length]; omega), ht]
      simp only [List.append_assoc]
    have h1 := drop_word hd
    have h2 := drop_word h1
    unfold objectAt
    rw [hw (48 + 12 * i) _ (by unfold tableEnd; omega) (by rw [hd]; exact List.prefix_append _ _),
      hw (48 + 12 * i + 4) _ (by unfold tableEnd; omega) (by rw [h1]; exact List.prefix_append _ _),
      hw (48 + 12 * i + 8) _ (by unfold tableEnd; omega) (by rw [h2]; exact List.prefix_append _ _)]
    rfl
  · intro j a h
    have hj := (List.getElem?_eq_some_iff.mp h).1
    rw [allAttrs_length] at hj
    obtain ⟨t, ht⟩ := attrs_at w (allAttrs s.objs) j a h
    have hd : u.bytes.drop (48 + 12 * u.nobj + 12 * j) = put32 w a.hashkey ++ (put32 w a.enc ++ (put32 w a.value ++ (t ++ s.data))) := by
      rw [hbytes, hn, ← List.drop_drop, ← List.drop_drop, ← header_length w s, List.drop_left, ← objectTable_length w s.objs 0, List.drop_left,
        List.drop_append_of_le_length (by rw [attrs_length, allAttrs_length]; omega), ht]
      simp only [attrBytes, List.append_assoc]
    have h1 := drop_word hd
    have h2 := drop_word h1
    unfold attributeAt
    rw [hw (48 + 12 * u.nobj + 12 * j) _ (by unfold tableEnd; omega) (by rw [hd]; exact List.prefix_append _ _),
      hw (48 + 12 * u.nobj + 12 * j + 4) _ (by unfold tableEnd; omega) (by rw [h1]; exact List.prefix_append _ _),
      hw (48 + 12 * u.nobj + 12 * j + 8) _ (by unfold tableEnd; omega) (by rw [h2]; exact List.prefix_append _ _)]
    rfl
  · intro off
    unfold dataFrom
    rw [hbytes, hn, ha, tableEnd, ← List.drop_drop, ← List.drop_drop, ← List.drop_drop, ← header_length w s, List.drop_left,
      ← objectTable_length w s.objs 0, List.drop_left, ← allAttrs_length, ← attrs_length w, List.drop_left]

theorem ofNat_toNat {n : Nat} (h : n < 2 ^ 32) : (BitVec.ofNat 32 n).toNat = n := by
  rw [BitVec.toNat_ofNat]; exact Nat.mod_eq_of_lt h

/-- Both ways to open an archive find what was written. -/
theorem init_ok (w r : Order) (s : Arch) (hsm : s.objs.length < 2 ^ 32) (h : (archivedData w s).length < 2 ^ 32) :
    (∃ u, initWithData r (archivedData w s) = some (some u) ∧ Reads s w r u) ∧
      ∀ more, ∃ u, initWithStream r (archivedData w s ++ more) = some (some u) ∧ Reads s w r u := by
  have hL := archivedData_length w s hsm
  rw [hL] at h
  have hm : attrCount s.objs < 2 ^ 32 := by unfold tableEnd at h; omega
  have hdl : s.data.length < 2 ^ 32 := by omega
  obtain ⟨w1, w2, w3, w4⟩ := header_words w s
  have hte : 48 + 12 * s.objs.length + 12 * attrCount s.objs < 2 ^ 32 := by unfold tableEnd at h; omega
  have hsum : (BitVec.ofNat 32 (48 + 12 * s.objs.length + 12 * attrCount s.objs) + BitVec.ofNat 32 s.data.length).toNat =
      tableEnd s.objs.length (attrCount s.objs) + s.data.length := by
    rw [BitVec.toNat_add, ofNat_toNat hte, ofNat_toNat hdl]; exact Nat.mod_eq_of_lt h
  have hrl : ((if s.rootless then (1 : UInt8) else 0) != 0) = s.rootless := by cases s.rootless <;> rfl
  have key : ∀ rest, let bs := header w s ++ rest
      headerOk bs = true ∧ bs[22]? = some w.byte ∧ bs[23]? = some (if s.rootless then 1 else 0) ∧
      headerWord r (w.byte != r.byte) bs 28 = some (BitVec.ofNat 32 s.objs.length) ∧ headerWord r (w.byte != r.byte) bs 36 = some (BitVec.ofNat 32 (attrCount s.objs)) ∧
      headerWord r (w.byte != r.byte) bs 40 = some (BitVec.ofNat 32 (48 + 12 * s.objs.length + 12 * attrCount s.objs)) ∧
      headerWord r (w.byte != r.byte) bs 44 = some (BitVec.ofNat 32 s.data.length) := by
    intro rest
    obtain ⟨s1, s2, s3⟩ := header_start w s rest
    exact ⟨s1, s2, s3, headerWord_ok w1 (by rw [header_length]; omega), headerWord_ok w2 (by rw [header_length]; omega),
      headerWord_ok w3 (by rw [header_length]; omega), headerWord_ok (t := []) (by rw [w4, List.append_nil]) (by rw [header_length]; omega)⟩
  constructor
  · obtain ⟨k1, k2, k3, k4, k5, k6, k7⟩ := key (objectTable w s.objs 0 ++ ((allAttrs s.objs).flatMap (attrBytes w) ++ s.data))
    rw [← archivedData_eq w s hsm] at k1 k2 k3 k4 k5 k6 k7
    unfold initWithData
    rw [if_neg (by rw [hL]; unfold tableEnd; omega), if_neg (by rw [k1]; nofun), k2, k3]
    simp only [Option.bind_some]
    rw [k4, k5, k6, k7]
    simp only [Option.bind_some, ofNat_toNat hsm, ofNat_toNat hm]
    rw [if_neg (by rw [hL]; omega), if_neg (by rw [hsum, hL]; omega)]
    refine ⟨_, rfl, reads_of hsm hm hdl rfl rfl hrl rfl rfl rfl ?_⟩
    simp only
    split
    · exact Nat.le_refl _
    · rw [hL]; omega
  · intro more
    obtain ⟨k1, k2, k3, k4, k5, k6, k7⟩ := key (objectTable w s.objs 0 ++ ((allAttrs s.objs).flatMap (attrBytes w) ++ s.data) ++ more)
    rw [← List.append_assoc, ← archivedData_eq w s hsm] at k1 k2 k3 k4 k5 k6 k7
    unfold initWithStream
    rw [if_neg (by rw [List.length_append, hL]; unfold tableEnd; omega), if_neg (by rw [k1]; nofun), k2, k3]
    simp only [Option.bind_some]
    rw [k4, k5, k6, k7]
    simp only [Option.bind_some, ofNat_toNat hsm, ofNat_toNat hm, hsum]
    rw [if_neg (by unfold tableEnd; omega), if_neg (by rw [List.length_append, hL]; omega)]
    refine ⟨_, rfl, reads_of hsm hm hdl rfl rfl hrl ?_ rfl rfl (by simp only; omega)⟩
    simp only
    rw [← hL, List.take_left]

theorem findAttr_ok {s : Arch} {w r : Order} {u : Un} (hr : Reads s w r u) (hash : BitVec 32) : ∀ (as : List Attr) (first i : Nat),
    (∀ j x, as[j]? = some x → (allAttrs s.objs)[first + i + j]? = some x) → first + i + as.length < 2 ^ 32 →
    findAttr u hash (BitVec.ofNat 32 first) as.length i = some (as.find? fun x => x.hashkey = hash)
  | [], _, _, _, _ => rfl
  | a :: as, first, i, h, hl => by
    rw [List.length_cons] at hl
    rw [List.length_cons, findAttr]
    have e : (BitVec.ofNat 32 first + BitVec.ofNat 32 i).toNat = first + i := by
      rw [BitVec.toNat_add, ofNat_toNat (by omega), ofNat_toNat (by omega)]; exact Nat.mod_eq_of_lt (by omega)
    rw [e, hr.attr (first + i) a (by simpa using h 0 a rfl)]
    simp only [Option.bind_some, List.find?_cons]
    by_cases hh : a.hashkey = hash
    · simp [hh]
    · rw [if_neg hh, findAttr_ok hr hash as first (i + 1) (fun j x hx => by
        have := h (j + 1) x (by simpa using hx)
        rwa [show first + i + (j + 1) = first + (i + 1) + j by omega] at this) (by omega)]
      simp [hh]

/-- GetAttribute finds the first attribute with the hash of the key. -/
theorem getAttr_ok {s : Arch} {w r : Order} {u : Un} (hr : Reads s w r u) {i : Nat} {a : AObj} (h : s.objs[i]? = some a) (rest : List Nat) (key : Bytes) :
    getAttr u (i :: rest) key = some (a.attrs.find? fun x => x.hashkey = strhash32 key) := by
  have hs := start_le s.objs i a h
  have hm := hr.small.2.1
  unfold getAttr
  simp only [hr.obj i a h]
  simp only [Option.bind_some, ofNat_toNat (show a.attrs.length < 2 ^ 32 by omega)]
  exact findAttr_ok hr _ a.attrs _ 0 (fun j x hx => allAttrs_at s.objs i a h j x hx) (by omega)

end Egg
end Duck
