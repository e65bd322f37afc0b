import Verif.Spec.LinkedList
import Verif.Props.ArrayOps
/-! Doubly linked segments and the effect of every list operation on them. -/
namespace Duck
namespace LList
open HTable (Policy)
variable {V P : Type}

theorem put_same (h : Heap V P) (p n) : put h p n p = n := by simp [put]
theorem put_other (h : Heap V P) {p q} (n) (hq : q ≠ p) : put h p n q = h q := by simp [put, hq]

/-- The nodes `as` hold the entries `xs`, doubly linked, between `prv` and `nxt`. -/
def Seg (h : Heap V P) : Option Nat → List Nat → List (V × P) → Option Nat → Prop
  | _, [], [], _ => True
  | prv, a :: as, x :: xs, nxt => h a = some ⟨prv, as.head?.or nxt, x.1, x.2⟩ ∧ Seg h (some a) as xs nxt
  | _, _, _, _ => False

theorem Seg.length {h : Heap V P} : ∀ {as : List Nat} {xs prv nxt}, Seg h prv as xs nxt → as.length = xs.length
  | [], [], _, _, _ => rfl
  | _ :: as, _ :: xs, _, _, h => by simp [Seg.length h.2]
  | [], _ :: _, _, _, h => h.elim
  | _ :: _, [], _, _, h => h.elim

theorem Seg.frame {h h' : Heap V P} : ∀ {as : List Nat} {xs prv nxt}, Seg h prv as xs nxt → (∀ a ∈ as, h' a = h a) →
    Seg h' prv as xs nxt
  | [], [], _, _, _, _ => trivial
  | a :: as, _ :: xs, _, _, hs, hf => ⟨by rw [hf a (by simp)]; exact hs.1, hs.2.frame (fun b hb => hf b (by simp [hb]))⟩
  | [], _ :: _, _, _, h, _ => h.elim
  | _ :: _, [], _, _, h, _ => h.elim

theorem head_append (A B : List Nat) : (A ++ B).head? = A.head?.or B.head? := by cases A <;> simp

theorem Seg.append {h : Heap V P} : ∀ {A : List Nat} {X : List (V × P)} {B Y prv nxt}, A.length = X.length →
    (Seg h prv (A ++ B) (X ++ Y) nxt ↔ Seg h prv A X (B.head?.or nxt) ∧ Seg h (A.getLast?.or prv) B Y nxt)
  | [], [], B, Y, prv, nxt, _ => by simp [Seg]
  | a :: A, x :: X, B, Y, prv, nxt, hl => by
    simp only [List.cons_append, Seg]
    rw [Seg.append (by simpa using hl)]
    have e1 : ((A ++ B).head?).or nxt = A.head?.or (B.head?.or nxt) := by
      rw [head_append, Option.or_assoc]
    have e2 : (a :: A).getLast?.or prv = A.getLast?.or (some a) := by
      cases A with
      | nil => rfl
      | cons b A => rw [List.getLast?_cons_cons]; simp [List.getLast?_cons]
    rw [e1, e2, and_assoc]
  | [], _ :: _, _, _, _, _, hl => by simp at hl
  | _ :: _, [], _, _, _, _, hl => by simp at hl

/-- Split a segment at a position. -/
theorem Seg.split {h : Heap V P} {as : List Nat} {xs prv nxt} (hs : Seg h prv as xs nxt) (i : Nat) :
    Seg h prv (as.take i) (xs.take i) ((as.drop i).head?.or nxt) ∧
    Seg h ((as.take i).getLast?.or prv) (as.drop i) (xs.drop i) nxt := by
  rw [← Seg.append (by simp [hs.length]), List.take_append_drop, List.take_append_drop]; exact hs

theorem Seg.get {h : Heap V P} : ∀ {as : List Nat} {xs prv nxt}, Seg h prv as xs nxt → ∀ {i : Nat} {a}, as[i]? = some a →
    ∃ x, xs[i]? = some x ∧ h a = some ⟨if i = 0 then prv else as[i - 1]?, as[i + 1]?.or nxt, x.1, x.2⟩
  | a :: as, x :: xs, prv, nxt, hs, 0, b, hb => by
    simp only [List.getElem?_cons_zero, Option.some.injEq] at hb; subst hb
    refine ⟨x, rfl, ?_⟩
    rw [hs.1]; simp [List.head?_eq_getElem?]
  | a :: as, x :: xs, prv, nxt, hs, i + 1, b, hb => by
    simp only [List.getElem?_cons_succ] at hb
    obtain ⟨y, h1, h2⟩ := hs.2.get hb
    refine ⟨y, by simpa using h1, ?_⟩
    rw [h2]
    by_cases hi : i = 0
    · subst hi; simp
    · simp only [hi, if_false, Nat.add_one_ne_zero, Nat.add_sub_cancel, List.getElem?_cons_succ]
      obtain ⟨j, rfl⟩ := Nat.exists_eq_succ_of_ne_zero hi
      simp
  | [], _, _, _, _, i, b, hb => by simp at hb
  | _ :: _, [], _, _, h, _, _, _ => h.elim

/-- Everything about the list but its cursor. -/
structure Links (l : LinkedList V P) (as : List Nat) (xs : List (V × P)) : Prop where
  seg : Seg l.heap none as xs none
  nodup : as.Nodup
  dom : ∀ p, l.heap p ≠ none → p ∈ as
  first : l.first = as.head?
  last : l.last = as.getLast?
  count : l.count = as.length

/-- The cursor is at a node of the list, or the list is empty. -/
def CursorOk (l : LinkedList V P) (as : List Nat) : Prop :=
  (as = [] ∧ l.cursor = none ∧ l.cursorIndex = 0) ∨ ∃ i : Nat, i < as.length ∧ l.cursorIndex = i ∧ l.cursor = as[i]?

theorem init_links : Links (init : LinkedList V P) [] [] :=
  ⟨trivial, List.nodup_nil, fun p h => absurd rfl h, rfl, rfl, rfl⟩

/-! ### Cursor -/

theorem walkNext_spec {h : Heap V P} {as : List Nat} {xs} (hs : Seg h none as xs none) : ∀ (n i : Nat), i + n < as.length →
    walkNext h n as[i]? = some as[i + n]?
  | 0, i, _ => rfl
  | n + 1, i, hi => by
    have hlt : i < as.length := by omega
    obtain ⟨x, _, h2⟩ := hs.get (List.getElem?_eq_getElem hlt)
    have : deref h as[i]? = h as[i] := by rw [List.getElem?_eq_getElem hlt]; rfl
    rw [walkNext, this, h2]
    simp only [Option.bind_some, Option.or_none]
    rw [walkNext_spec hs n (i + 1) (by omega)]
    congr 2; omega

theorem walkPrev_spec {h : Heap V P} {as : List Nat} {xs} (hs : Seg h none as xs none) : ∀ (n i : Nat), n ≤ i → i < as.length →
    walkPrev h n as[i]? = some as[i - n]?
  | 0, i, _, _ => rfl
  | n + 1, i, hn, hlt => by
    obtain ⟨x, _, h2⟩ := hs.get (List.getElem?_eq_getElem hlt)
    have : deref h as[i]? = h as[i] := by rw [List.getElem?_eq_getElem hlt]; rfl
    rw [walkPrev, this, h2]
    have hi : i ≠ 0 := by omega
    simp only [Option.bind_some, if_neg hi]
    rw [walkPrev_spec hs n (i - 1) (by omega) (by omega)]
    congr 2; omega

theorem moveTo_spec {l : LinkedList V P} {as xs} (hl : Links l as xs) (hc : CursorOk l as) {i : Nat} (hi : i < as.length) :
    moveTo l (i : Int) = some as[i]? := by
  rcases hc with ⟨rfl, _⟩ | ⟨c, hc1, hc2, hc3⟩
  · simp at hi
  · have hlast : l.last = as[as.length - 1]? := by rw [hl.last, List.getLast?_eq_getElem?]
    have hfirst : l.first = as[0]? := by rw [hl.first, List.head?_eq_getElem?]
    unfold moveTo
    rw [hc2, hl.count, hc3, hlast, hfirst]
    split
    · split
      · have : ((i : Int) - c).toNat = i - c := by omega
        rw [this, walkNext_spec hl.seg _ _ (by omega)]
        congr 2; omega
      · have : ((as.length : Int) - i - 1).toNat = as.length - 1 - i := by omega
        rw [this, walkPrev_spec hl.seg _ _ (by omega) (by omega)]
        congr 2; omega
    · split
      · split
        · have : ((c : Int) - i).toNat = c - i := by omega
          rw [this, walkPrev_spec hl.seg _ _ (by omega) (by omega)]
          congr 2; omega
        · rw [show ((i : Int)).toNat = i by omega, walkNext_spec hl.seg _ _ (by omega)]
          congr 2; omega
      · have : c = i := by omega
        rw [this]

theorem moveCursor_spec {l : LinkedList V P} {as xs} (hl : Links l as xs) (hc : CursorOk l as) {i : Nat} (hi : i < as.length) :
    moveCursor l (i : Int) = some ({ l with cursor := as[i]?, cursorIndex := i }, as[i]?) := by
  unfold moveCursor
  have : l.first ≠ none := by
    rw [hl.first]; cases as with
    | nil => simp at hi
    | cons => simp
  rw [if_neg this, moveTo_spec hl hc hi]; rfl

theorem Links.withCursor {l : LinkedList V P} {as xs} (hl : Links l as xs) (c i) :
    Links { l with cursor := c, cursorIndex := i } as xs :=
  ⟨hl.seg, hl.nodup, hl.dom, hl.first, hl.last, hl.count⟩

/-! ### Linking and unlinking -/

theorem modifyIf_last {h : Heap V P} {A : List Nat} {X : List (V × P)} {prv nxt} (hs : Seg h prv A X nxt) (hn : A.Nodup) (nxt') :
    ∃ h', modifyIf h A.getLast? (fun n => { n with next := nxt' }) = some h' ∧ Seg h' prv A X nxt' ∧
      (∀ r, r ∉ A → h' r = h r) ∧ (∀ r, h' r = none ↔ h r = none) := by
  rcases List.eq_nil_or_concat A with rfl | ⟨A0, q, rfl⟩
  · refine ⟨h, rfl, ?_, fun _ _ => rfl, fun _ => Iff.rfl⟩
    cases X with
    | nil => trivial
    | cons => exact hs.elim
  · obtain ⟨X0, x, rfl⟩ : ∃ X0 x, X = X0 ++ [x] := by
      rcases List.eq_nil_or_concat X with rfl | ⟨X0, x, rfl⟩
      · have := hs.length; simp at this
      · exact ⟨X0, x, by simp⟩
    rw [List.concat_eq_append] at *
    have hlen : A0.length = X0.length := by have := hs.length; simp at this; exact this
    obtain ⟨s1, s2⟩ := (Seg.append hlen).mp hs
    have hq : h q = some ⟨A0.getLast?.or prv, nxt, x.1, x.2⟩ := by simpa using s2.1
    rw [List.nodup_append] at hn
    refine ⟨put h q (some ⟨A0.getLast?.or prv, nxt', x.1, x.2⟩), ?_, ?_, ?_, ?_⟩
    · simp [modifyIf, modify, hq]
    · rw [Seg.append hlen]
      refine ⟨?_, ?_⟩
      · have := s1.frame (h' := put h q (some ⟨A0.getLast?.or prv, nxt', x.1, x.2⟩))
          (fun b hb => put_other _ _ (fun e => hn.2.2 b hb q (by simp) e))
        simpa using this
      · exact ⟨by simp [put_same], trivial⟩
    · intro r hr; exact put_other _ _ (by rintro rfl; exact hr (by simp))
    · intro r
      by_cases hr : r = q
      · subst hr; simp [put_same, hq]
      · rw [put_other _ _ hr]

theorem modifyIf_first {h : Heap V P} {B : List Nat} {Y : List (V × P)} {prv nxt} (hs : Seg h prv B Y nxt) (hn : B.Nodup) (prv') :
    ∃ h', modifyIf h B.head? (fun n => { n with prev := prv' }) = some h' ∧ Seg h' prv' B Y nxt ∧
      (∀ r, r ∉ B → h' r = h r) ∧ (∀ r, h' r = none ↔ h r = none) := by
  match B, Y, hs with
  | [], [], _ => exact ⟨h, rfl, trivial, fun _ _ => rfl, fun _ => Iff.rfl⟩
  | q :: B, y :: Y, hs =>
    have hq := hs.1
    rw [List.nodup_cons] at hn
    refine ⟨put h q (some ⟨prv', B.head?.or nxt, y.1, y.2⟩), ?_, ⟨?_, ?_⟩, ?_, ?_⟩
    · simp [modifyIf, modify, hq]
    · simp [put_same]
    · exact hs.2.frame (fun b hb => put_other _ _ (by rintro rfl; exact hn.1 hb))
    · intro r hr; exact put_other _ _ (by rintro rfl; exact hr (by simp))
    · intro r
      by_cases hr : r = q
      · subst hr; simp [put_same, hq]
      · rw [put_other _ _ hr]

/-- Linking a new node between two segments. -/
theorem link_spec {h : Heap V P} {A B : List Nat} {X Y : List (V × P)} (h1 : Seg h none A X B.head?)
    (h2 : Seg h A.getLast? B Y none) (hn : (A ++ B).Nodup) {a : Nat} (ha : h a = none) (hna : a ∉ A ++ B) (v : V) (p : P) :
    ∃ h' h'', modifyIf (put h a (some ⟨A.getLast?, B.head?, v, p⟩)) A.getLast? (fun n => { n with next := some a }) = some h' ∧
      modifyIf h' B.head? (fun n => { n with prev := some a }) = some h'' ∧
      Seg h'' none (A ++ a :: B) (X ++ (v, p) :: Y) none ∧ (∀ r, h'' r ≠ none → r = a ∨ h r ≠ none) := by
  have hA : a ∉ A := fun hm => hna (by simp [hm])
  have hB : a ∉ B := fun hm => hna (by simp [hm])
  rw [List.nodup_append] at hn
  have s1 : Seg (put h a (some ⟨A.getLast?, B.head?, v, p⟩)) none A X B.head? :=
    h1.frame (fun b hb => put_other _ _ (by rintro rfl; exact hA hb))
  have s2 : Seg (put h a (some ⟨A.getLast?, B.head?, v, p⟩)) A.getLast? B Y none :=
    h2.frame (fun b hb => put_other _ _ (by rintro rfl; exact hB hb))
  obtain ⟨h', e1, t1, f1, d1⟩ := modifyIf_last s1 hn.1 (some a)
  obtain ⟨h'', e2, t2, f2, d2⟩ := modifyIf_first (s2.frame (h' := h') (fun b hb => f1 b (fun hm => hn.2.2 b hm b hb rfl)))
    hn.2.1 (some a)
  refine ⟨h', h'', e1, e2, ?_, ?_⟩
  · rw [Seg.append h1.length]
    refine ⟨?_, ?_, t2⟩
    · exact t1.frame (fun b hb => f2 b (fun hm => hn.2.2 b hb b hm rfl))
    · rw [f2 a hB, f1 a hA, put_same]; simp
  · intro r hr
    by_cases hra : r = a
    · exact Or.inl hra
    · right
      rw [ne_eq, d2, d1, put_other _ _ hra] at hr
      exact hr

/-- Unlinking a node. -/
theorem unlink_spec {h : Heap V P} {A B : List Nat} {X Y : List (V × P)} {a x} (hs : Seg h none (A ++ a :: B) (X ++ x :: Y) none)
    (hlen : A.length = X.length) (hn : (A ++ a :: B).Nodup) :
    h a = some ⟨A.getLast?, B.head?, x.1, x.2⟩ ∧
    ∃ h' h'', modifyIf h A.getLast? (fun n => { n with next := B.head? }) = some h' ∧
      modifyIf h' B.head? (fun n => { n with prev := A.getLast? }) = some h'' ∧
      Seg (put h'' a none) none (A ++ B) (X ++ Y) none ∧ (∀ r, put h'' a none r ≠ none → r ≠ a ∧ h r ≠ none) := by
  obtain ⟨s1, s2, s3⟩ := (Seg.append hlen).mp hs
  simp only [Option.or_none] at s2
  rw [List.nodup_append, List.nodup_cons] at hn
  have hA : a ∉ A := fun hm => hn.2.2 a hm a (by simp) rfl
  refine ⟨s2, ?_⟩
  obtain ⟨h', e1, t1, f1, d1⟩ := modifyIf_last s1 hn.1 B.head?
  obtain ⟨h'', e2, t2, f2, d2⟩ := modifyIf_first (s3.frame (h' := h')
    (fun b hb => f1 b (fun hm => hn.2.2 b hm b (by simp [hb]) rfl))) hn.2.1.2 A.getLast?
  refine ⟨h', h'', e1, e2, ?_, ?_⟩
  · rw [Seg.append hlen]
    refine ⟨?_, ?_⟩
    · simp only [Option.or_none]
      refine (t1.frame (h' := h'') (fun b hb => f2 b (fun hm => hn.2.2 b hb b (by simp [hm]) rfl))).frame ?_
      intro b hb; exact put_other _ _ (by rintro rfl; exact hA hb)
    · simp only [Option.or_none]
      refine t2.frame ?_
      intro b hb; exact put_other _ _ (by rintro rfl; exact hn.2.1.1 hb)
  · intro r hr
    by_cases hra : r = a
    · subst hra; simp [put_same] at hr
    · rw [put_other _ _ hra, ne_eq, d2, d1] at hr
      exact ⟨hra, hr⟩

/-! ### Insertion -/

theorem modifyIf_some {h : Heap V P} {q : Nat} {f} : modifyIf h (some q) f = modify h (some q) f := by
  simp [modifyIf]

theorem insert_spec {zero : P} {pick : Nat → Heap V P → Nat} (hp : Fresh pick) {l : LinkedList V P} {as xs}
    (hl : Links l as xs) {i : Nat} (hi : i ≤ as.length) (hc : 0 < i → i < as.length → CursorOk l as) (v : V) :
    ∃ l' a, insertObject zero pick l i v = some l' ∧ Links l' (insertAt as i a) (insertAt xs i (v, zero)) ∧
      l'.cursor = some a ∧ l'.cursorIndex = i ∧ (∀ r ∈ as, r ≠ a) := by
  have hfresh : l.heap (pick l.allocs l.heap) = none := hp _ _ as hl.dom
  generalize ha : pick l.allocs l.heap = a at hfresh
  have hna : a ∉ as := by
    intro hm
    obtain ⟨j, hj⟩ := List.getElem?_of_mem hm
    obtain ⟨x, _, h2⟩ := hl.seg.get hj
    rw [h2] at hfresh; cases hfresh
  have hsplit := hl.seg.split i
  simp only [Option.or_none] at hsplit
  have hnd : (as.take i ++ as.drop i).Nodup := by rw [List.take_append_drop]; exact hl.nodup
  obtain ⟨h', h'', e1, e2, e3, e4⟩ := link_spec hsplit.1 hsplit.2 hnd hfresh (by rw [List.take_append_drop]; exact hna) v zero
  have hnd' : (insertAt as i a).Nodup := by
    have : (insertAt as i a).Perm (a :: as) := by
      unfold insertAt
      refine List.perm_middle.trans ?_
      rw [List.take_append_drop]
    rw [this.nodup_iff, List.nodup_cons]; exact ⟨hna, hl.nodup⟩
  have hlen : (insertAt as i a).length = as.length + 1 := by unfold insertAt; simp; omega
  have hdom : ∀ p, h'' p ≠ none → p ∈ insertAt as i a := by
    intro p hp
    have : p ∈ a :: as → p ∈ insertAt as i a := by
      intro hm
      have : (insertAt as i a).Perm (a :: as) := by
        unfold insertAt
        refine List.perm_middle.trans ?_
        rw [List.take_append_drop]
      exact this.mem_iff.mpr hm
    apply this
    rcases e4 p hp with rfl | h
    · simp
    · simp [hl.dom p h]
  by_cases h0 : as = []
  · subst h0
    have hxs : xs = [] := by have := hl.seg.length; simpa using this.symm
    subst hxs
    simp only [List.length_nil] at hi
    have : i = 0 := by omega
    subst this
    refine ⟨{ l with heap := h'', first := some a, last := some a, cursor := some a, cursorIndex := 0,
                     count := l.count + 1, allocs := l.allocs + 1 }, a, ?_, ⟨e3, hnd', hdom, ?_, ?_, ?_⟩, rfl, rfl, by simp⟩
    · unfold insertObject
      rw [if_pos (by rw [hl.first]; rfl)]
      simp [allocNode, ha, modifyIf] at e1 e2 ⊢
      rw [← e2, ← e1]
    · rfl
    · rfl
    · simp [hl.count, allocNode, insertAt]
  · have hfirst : l.first ≠ none := by rw [hl.first]; simpa using h0
    obtain ⟨b, B, rfl⟩ := List.exists_cons_of_ne_nil h0
    by_cases hi0 : i = 0
    · subst hi0
      refine ⟨{ l with heap := h'', first := some a, cursor := some a, cursorIndex := 0, count := l.count + 1,
                       allocs := l.allocs + 1 }, a, ?_, ⟨e3, hnd', hdom, ?_, ?_, ?_⟩, rfl, rfl,
              fun r hr => by rintro rfl; exact hna hr⟩
      · unfold insertObject
        rw [if_neg hfirst, if_pos (by rfl)]
        simp only [List.take_zero, List.getLast?_nil, List.drop_zero, List.head?_cons] at e1 e2
        simp only [modifyIf, if_true, Option.some.injEq] at e1
        subst e1
        rw [modifyIf_some] at e2
        have hf : l.first = some b := by rw [hl.first]; rfl
        have hm : modify (put l.heap a (some ⟨none, none, v, zero⟩)) (some a) (fun n => { n with next := some b }) =
            some (put l.heap a (some ⟨none, some b, v, zero⟩)) := by
          simp only [modify, Option.bind_some, put_same, Option.map_some, hf]
          congr 1; funext q; unfold put; split <;> simp_all
        simp only [allocNode, ha, hf, hm, Option.bind_some, e2, Option.map_some]
      · simp [insertAt]
      · have := hl.last; simp only [insertAt, List.take_zero, List.drop_zero, List.nil_append]
        rw [this, List.getLast?_cons_cons]
      · simp [hl.count, hlen]
    · by_cases hie : i = (b :: B).length
      · have htake : (b :: B).take i = b :: B := by rw [hie]; exact List.take_length
        have hdrop : (b :: B).drop i = [] := by rw [hie]; exact List.drop_length
        rw [htake, hdrop] at e1; rw [hdrop] at e2
        refine ⟨{ l with heap := h'', last := some a, cursor := some a, cursorIndex := i, count := l.count + 1,
                         allocs := l.allocs + 1 }, a, ?_, ⟨e3, hnd', hdom, ?_, ?_, ?_⟩, rfl, rfl,
                fun r hr => by rintro rfl; exact hna hr⟩
        · unfold insertObject
          rw [if_neg hfirst, if_neg (by omega), if_pos (by rw [hl.count]; omega)]
          simp only [List.head?_nil, modifyIf, if_true, Option.some.injEq] at e2
          subst e2
          have hlast : ∃ q, (b :: B).getLast? = some q := ⟨_, List.getLast?_eq_some_getLast (by simp)⟩
          obtain ⟨q, hq⟩ := hlast
          rw [hq, modifyIf_some] at e1
          have hm : modify (put l.heap a (some ⟨none, none, v, zero⟩)) (some a) (fun n => { n with prev := l.last }) =
              some (put l.heap a (some ⟨some q, none, v, zero⟩)) := by
            simp only [modify, Option.bind_some, put_same, Option.map_some, hl.last, hq]
            congr 1; funext q; unfold put; split <;> simp_all
          simp only [allocNode, ha, hm, Option.bind_some]
          rw [hl.last, hq]
          simp only [List.head?_nil] at e1
          rw [e1]
          simp only [Option.map_some, Option.some.injEq, LinkedList.mk.injEq, true_and, and_true]
          rw [hl.count]; omega
        · rw [insertAt, htake, hl.first]; rfl
        · rw [insertAt, hdrop]; simp
        · simp [hl.count, hlen]
      · have hilt : i < (b :: B).length := by omega
        have hmc := moveCursor_spec hl (hc (by omega) hilt) hilt
        have hgi := List.getElem?_eq_getElem hilt
        obtain ⟨x, _, hx⟩ := hl.seg.get hgi
        generalize hbi : (b :: B)[i] = c at hgi hx
        have hprev : (if i = 0 then none else (b :: B)[i - 1]?) = ((b :: B).take i).getLast? := by
          rw [if_neg hi0, List.getLast?_eq_getElem?, List.getElem?_take, List.length_take,
            if_pos (by omega), Nat.min_eq_left hi]
        rw [hprev] at hx
        have hhead : ((b :: B).drop i).head? = some c := by rw [List.head?_drop, hgi]
        rw [hhead] at e1 e2
        have hlq : ∃ q, ((b :: B).take i).getLast? = some q := by
          refine ⟨_, List.getLast?_eq_some_getLast ?_⟩
          simp [hi0]
        obtain ⟨q, hq⟩ := hlq
        rw [hq] at e1 hx
        rw [modifyIf_some] at e1 e2
        have hca : c ≠ a := by
          rintro rfl; exact hna (List.mem_of_getElem? hgi)
        refine ⟨{ l with heap := h'', cursor := some a, cursorIndex := i, count := l.count + 1,
                         allocs := l.allocs + 1 }, a, ?_, ⟨e3, hnd', hdom, ?_, ?_, ?_⟩, rfl, rfl,
                fun r hr => by rintro rfl; exact hna hr⟩
        · unfold insertObject
          rw [if_neg hfirst, if_neg (by omega), if_neg (by rw [hl.count]; omega), hmc, hgi]
          have hd : deref (put l.heap a (some ⟨none, none, v, zero⟩)) (some c) = l.heap c := by
            simp [deref, put_other _ _ hca]
          have hm : modify (put l.heap a (some ⟨none, none, v, zero⟩)) (some a)
              (fun n => { n with next := some c, prev := some q }) =
              some (put l.heap a (some ⟨some q, some c, v, zero⟩)) := by
            simp only [modify, Option.bind_some, put_same, Option.map_some]
            congr 1; funext q; unfold put; split <;> simp_all
          simp only [Option.bind_some, allocNode, ha, hd, hx, hm, e1, e2, Option.map_some]
        · rw [hl.first, insertAt]
          obtain ⟨j, rfl⟩ := Nat.exists_eq_succ_of_ne_zero hi0
          simp
        · have hne : (b :: B).drop i ≠ [] := by
            intro e; rw [List.drop_eq_nil_iff] at e; omega
          have : (b :: B).getLast? = ((b :: B).drop i).getLast? := by
            rw [List.getLast?_drop, if_neg (by omega)]
          rw [hl.last, this, insertAt, List.getLast?_append, List.getLast?_cons, List.getLast?_eq_some_getLast hne]; simp
        · simp [hl.count, hlen]

/-! ### Removal -/

theorem removeStep_spec {l : LinkedList V P} {A B : List Nat} {X Y : List (V × P)} {a x}
    (hl : Links l (A ++ a :: B) (X ++ x :: Y)) (hlen : A.length = X.length) (hc : l.cursor = some a) :
    ∃ l', removeStep l = some l' ∧ Links l' (A ++ B) (X ++ Y) ∧ l'.cursor = B.head? ∧ l'.cursorIndex = l.cursorIndex := by
  obtain ⟨ha, h', h'', e1, e2, e3, e4⟩ := unlink_spec hl.seg hlen hl.nodup
  have hn := hl.nodup
  rw [List.nodup_append, List.nodup_cons] at hn
  have hA : a ∉ A := fun hm => hn.2.2 a hm a (by simp) rfl
  refine ⟨{ l with heap := put h'' a none, first := if l.first = some a then B.head? else l.first,
                   last := if l.last = some a then A.getLast? else l.last, count := l.count - 1, cursor := B.head? },
    ?_, ⟨e3, ?_, ?_, ?_, ?_, ?_⟩, rfl, rfl⟩
  · unfold removeStep
    simp only [hc, ha, e1, e2, Option.bind_some, Option.map_some, freeNode]
  · rw [List.nodup_append]
    exact ⟨hn.1, hn.2.1.2, fun b hb c hcm => hn.2.2 b hb c (by simp [hcm])⟩
  · intro p hp
    have := e4 p hp
    have hm := hl.dom p this.2
    simp only [List.mem_append, List.mem_cons] at hm ⊢
    rcases hm with h | h | h
    · exact Or.inl h
    · exact absurd h this.1
    · exact Or.inr h
  · have := hl.first
    cases A with
    | nil => rw [this]; simp
    | cons b A =>
      have hb : b ≠ a := by rintro rfl; simp at hA
      simp only [List.cons_append, List.head?_cons] at this ⊢
      rw [this]; simp [hb]
  · have := hl.last
    rcases List.eq_nil_or_concat B with rfl | ⟨B0, b, rfl⟩
    · simp at this; simp [this]
    · have hb : b ≠ a := by rintro rfl; simp at hn
      rw [List.concat_eq_append] at *
      have hlast : l.last = some b := by rw [this]; simp [List.getLast?_append, List.getLast?_cons]
      simp [hlast, hb, List.getLast?_append]
  · have := hl.count
    simp only [List.length_append, List.length_cons] at this ⊢
    show l.count - 1 = _
    omega

theorem split_at {as : List Nat} {i : Nat} {a} (h : as[i]? = some a) : as = as.take i ++ a :: as.drop (i + 1) := by
  obtain ⟨hi, rfl⟩ := List.getElem?_eq_some_iff.mp h
  rw [← List.drop_eq_getElem_cons hi, List.take_append_drop]

theorem split_at' {α : Type} {xs : List α} {i : Nat} {x} (h : xs[i]? = some x) : xs = xs.take i ++ x :: xs.drop (i + 1) := by
  obtain ⟨hi, rfl⟩ := List.getElem?_eq_some_iff.mp h
  rw [← List.drop_eq_getElem_cons hi, List.take_append_drop]

theorem removeLoop_spec : ∀ (n i : Nat) {l : LinkedList V P} {as : List Nat} {xs : List (V × P)}, Links l as xs →
    i + n ≤ as.length → l.cursor = as[i]? →
    ∃ l', removeLoop n l = some l' ∧ Links l' (as.take i ++ as.drop (i + n)) (xs.take i ++ xs.drop (i + n)) ∧
      l'.cursor = as[i + n]? ∧ l'.cursorIndex = l.cursorIndex
  | 0, i, l, as, xs, hl, _, hc => ⟨l, rfl, by simpa using hl, hc, rfl⟩
  | n + 1, i, l, as, xs, hl, hi, hc => by
    have hlt : i < as.length := by omega
    have hlx : i < xs.length := by have := hl.seg.length; omega
    have ea := split_at (List.getElem?_eq_getElem hlt)
    have ex := split_at' (List.getElem?_eq_getElem hlx)
    have hl' := hl
    rw [ea, ex] at hl'
    obtain ⟨l1, r1, k1, c1, i1⟩ := removeStep_spec hl' (by simp [hl.seg.length]) (by rw [hc, List.getElem?_eq_getElem hlt])
    have hc1 : l1.cursor = (as.take i ++ as.drop (i + 1))[i]? := by
      rw [c1, List.head?_drop, List.getElem?_append_right (by simp; omega)]
      simp [Nat.min_eq_left (Nat.le_of_lt hlt)]
    obtain ⟨l2, r2, k2, c2, i2⟩ := removeLoop_spec n i k1 (by simp; omega) hc1
    refine ⟨l2, by rw [removeLoop, r1]; exact r2, ?_, ?_, by rw [i2, i1]⟩
    · have e : ∀ {α : Type} (zs : List α), i < zs.length → (zs.take i ++ zs.drop (i + 1)).take i ++
          (zs.take i ++ zs.drop (i + 1)).drop (i + n) = zs.take i ++ zs.drop (i + (n + 1)) := by
        intro α zs hz
        rw [List.take_append_of_le_length (by simp; omega), List.take_take, Nat.min_self, List.drop_append]
        rw [List.drop_eq_nil_of_le (by simp; omega), List.drop_drop, List.length_take]
        congr 2; simp [Nat.min_eq_left (Nat.le_of_lt hz)]; congr 1; omega
      rw [e as hlt, e xs hlx] at k2
      exact k2
    · rw [c2, List.getElem?_append_right (by simp; omega), List.getElem?_drop, List.length_take,
        Nat.min_eq_left (Nat.le_of_lt hlt)]
      congr 1; omega

theorem removeRange_spec {l : LinkedList V P} {as : List Nat} {xs : List (V × P)} (hl : Links l as xs) (hc : CursorOk l as)
    {i n : Nat} (h : i + n ≤ as.length) :
    ∃ l', removeRange l i n = some l' ∧ Links l' (as.take i ++ as.drop (i + n)) (xs.take i ++ xs.drop (i + n)) ∧
      CursorOk l' (as.take i ++ as.drop (i + n)) := by
  unfold removeRange
  by_cases hn : n = 0
  · subst hn
    rw [if_pos (by rfl)]
    exact ⟨l, rfl, by simpa using hl, by simpa using hc⟩
  · rw [if_neg (by omega), moveCursor_spec hl hc (by omega : i < as.length)]
    obtain ⟨l', r, k, c, ci⟩ := removeLoop_spec n i (hl.withCursor as[i]? i) h rfl
    simp only [Option.bind_some, Int.toNat_natCast, r, Option.map_some]
    refine ⟨fixCursor l', rfl, ?_, ?_⟩
    · unfold fixCursor
      split
      · split
        · exact k.withCursor _ _
        · exact k.withCursor _ _
      · exact k
    · unfold fixCursor
      have hcount := k.count
      simp only [List.length_append, List.length_take, List.length_drop] at hcount
      by_cases he : i + n = as.length
      · have : l'.cursor = none := by rw [c, he]; simp
        rw [if_pos this]
        by_cases h0 : i = 0
        · subst h0
          have hnil : as.take 0 ++ as.drop (0 + n) = [] := by rw [he]; simp
          rw [if_neg (by omega)]
          left
          exact ⟨hnil, by show l'.first = none; rw [k.first, hnil]; rfl, rfl⟩
        · rw [if_pos (by omega)]
          right
          refine ⟨i - 1, by simp; omega, by show l'.count - 1 = _; omega, ?_⟩
          show l'.last = _
          rw [k.last, List.getLast?_eq_getElem?]
          congr 1; simp; omega
      · have hlt : i + n < as.length := by omega
        have : l'.cursor ≠ none := by rw [c, List.getElem?_eq_getElem hlt]; simp
        rw [if_neg this]
        right
        refine ⟨i, by simp; omega, by rw [ci], ?_⟩
        rw [c, List.getElem?_append_right (by simp; omega), List.getElem?_drop, List.length_take, Nat.min_eq_left (by omega)]
        congr 1; omega

theorem insertAt_cursor {l : LinkedList V P} {as : List Nat} {i a} (hi : i ≤ as.length) (h1 : l.cursor = some a)
    (h2 : l.cursorIndex = (i : Nat)) : CursorOk l (insertAt as i a) := by
  right
  refine ⟨i, by unfold insertAt; simp; omega, h2, ?_⟩
  rw [h1, insertAt, List.getElem?_append_right (by simp; omega), List.length_take, Nat.min_eq_left hi]
  simp

theorem insertAt_length {α : Type} (xs : List α) (i : Nat) (x : α) : (insertAt xs i x).length = xs.length + 1 := by
  unfold insertAt; simp; omega

theorem insertAll_spec {zero : P} {pick : Nat → Heap V P → Nat} (hp : Fresh pick) : ∀ (vs : List V) {l : LinkedList V P}
    {as xs} (_ : Links l as xs) (_ : CursorOk l as) {i : Nat} (_ : i ≤ as.length),
    ∃ l' as', insertAll zero pick vs i l = some l' ∧ Links l' as' (xs.take i ++ vs.map (·, zero) ++ xs.drop i) ∧ CursorOk l' as'
  | [], l, as, xs, hl, hc, i, hi => ⟨l, as, rfl, by simpa using hl, hc⟩
  | v :: vs, l, as, xs, hl, hc, i, hi => by
    obtain ⟨l1, a, r1, k1, c1, i1, _⟩ := insert_spec (zero := zero) hp hl hi (fun _ _ => hc) v
    obtain ⟨l2, as2, r2, k2, c2⟩ := insertAll_spec (zero := zero) hp vs k1 (insertAt_cursor hi c1 i1) (i := i + 1)
      (by rw [insertAt_length]; omega)
    refine ⟨l2, as2, ?_, ?_, c2⟩
    · rw [insertAll, r1]; exact r2
    · have hix : i ≤ xs.length := by rw [← hl.seg.length]; exact hi
      have e1 : (insertAt xs i (v, zero)).take (i + 1) = xs.take i ++ [(v, zero)] := by
        rw [insertAt, List.take_append, List.take_take, List.length_take, Nat.min_eq_left hix]
        simp [Nat.min_eq_right]
      have e2 : (insertAt xs i (v, zero)).drop (i + 1) = xs.drop i := by
        rw [insertAt, List.drop_append, List.length_take, Nat.min_eq_left hix]
        rw [List.drop_eq_nil_of_le (by simp; omega)]; simp
      rw [e1, e2] at k2
      simpa using k2

/-! ### Reading -/

theorem nodeAt_spec {l : LinkedList V P} {as xs} (hl : Links l as xs) (hc : CursorOk l as) (i : Int) :
    ∃ l', nodeAt l i = some (l', if 0 ≤ i then xs[i.toNat]? else none) ∧ Links l' as xs ∧ CursorOk l' as := by
  unfold nodeAt
  have hlen := hl.seg.length
  by_cases h : i < 0 ∨ i ≥ l.count
  · rw [if_pos h]
    refine ⟨l, ?_, hl, hc⟩
    congr 2
    split
    · symm; rw [List.getElem?_eq_none_iff]
      have := hl.count; omega
    · rfl
  · rw [if_neg h]
    have hcount := hl.count
    obtain ⟨k, rfl⟩ := Int.eq_ofNat_of_zero_le (by omega : 0 ≤ i)
    have hk : k < as.length := by simp at h; omega
    rw [moveCursor_spec hl hc hk]
    obtain ⟨x, hx1, hx2⟩ := hl.seg.get (List.getElem?_eq_getElem hk)
    refine ⟨{ l with cursor := as[k]?, cursorIndex := k }, ?_, hl.withCursor _ _, Or.inr ⟨k, hk, rfl, rfl⟩⟩
    rw [if_pos (by omega)]
    simp only [Option.bind_some, List.getElem?_eq_getElem hk, deref, hx2, Option.map_some, Int.toNat_natCast, hx1]

theorem nodesFrom_spec {as : List Nat} {xs : List (V × P)} : ∀ (n i : Nat) {l : LinkedList V P}, Links l as xs → CursorOk l as →
    i + n ≤ as.length →
    ∃ l', nodesFrom n i l = some (l', ((xs.map (·.1)).drop i).take n) ∧ Links l' as xs ∧ CursorOk l' as
  | 0, i, l, hl, hc, _ => ⟨l, by simp [nodesFrom], hl, hc⟩
  | n + 1, i, l, hl, hc, hi => by
    have hk : i < as.length := by omega
    obtain ⟨x, hx1, hx2⟩ := hl.seg.get (List.getElem?_eq_getElem hk)
    obtain ⟨l', r, k, c⟩ := nodesFrom_spec n (i + 1) (hl.withCursor as[i]? i) (Or.inr ⟨i, hk, rfl, rfl⟩) (by omega)
    refine ⟨l', ?_, k, c⟩
    rw [nodesFrom, moveCursor_spec hl hc hk]
    simp only [Option.bind_some, List.getElem?_eq_getElem hk, deref, hx2]
    rw [List.getElem?_eq_getElem hk] at r
    rw [show ((i : Int) + 1) = ((i + 1 : Nat) : Int) by omega, r]
    simp only [Option.map_some, Option.some.injEq, Prod.mk.injEq, true_and]
    have hxl : i < (xs.map (·.1)).length := by rw [List.length_map, ← hl.seg.length]; exact hk
    obtain ⟨_, he⟩ := List.getElem?_eq_some_iff.mp hx1
    rw [List.drop_eq_getElem_cons hxl, List.take_succ_cons]
    simp [he]

theorem applyLoop_spec {S : Type} {h : Heap V P} (cb : V → S → Int × S) : ∀ {as : List Nat} {xs prv}, Seg h prv as xs none →
    ∀ {fuel}, as.length < fuel → ∀ s, (∀ v s, (cb v s).1 = 0) →
    applyLoop h cb fuel as.head? s = some (0, (xs.map (·.1)).foldl (fun s v => (cb v s).2) s)
  | [], [], _, _, fuel, _, s, _ => by cases fuel <;> rfl
  | a :: as, x :: xs, _, hs, 0, hf, _, _ => by simp at hf
  | a :: as, x :: xs, _, hs, fuel + 1, hf, s, hcb => by
    have := applyLoop_spec cb hs.2 (fuel := fuel) (by simp at hf; exact hf) (cb x.1 s).2 hcb
    simp only [List.head?_cons, applyLoop, hs.1, Option.bind_some, hcb, Option.or_none]
    simpa using this
  | [], _ :: _, _, h, _, _, _, _ => h.elim
  | _ :: _, [], _, h, _, _, _, _ => h.elim

theorem iterate_spec {l : LinkedList V P} {as xs} (hl : Links l as xs) : iterate l = some (xs.map (·.1)) := by
  have he : ∀ (ys acc : List V), ys.foldl (fun s v => s ++ [v]) acc = acc ++ ys := by
    intro ys; induction ys with
    | nil => intro acc; simp
    | cons y ys ih => intro acc; simp [ih]
  unfold iterate apply
  rw [hl.first, applyLoop_spec _ hl.seg (by have := hl.count; omega) _ (fun _ _ => rfl)]
  simp [he]

/-! ### Reversing and sorting -/

theorem reverseLoop_spec : ∀ (k : Nat) {h : Heap V P} {A R : List Nat} {XA XR : List (V × P)} {nxt fuel},
    A.length = k → Seg h none A XA nxt → Seg h none R XR A.getLast? → (A ++ R).Nodup → k < fuel →
    ∃ h', reverseLoop fuel h R.getLast? A.getLast? = some h' ∧ Seg h' none (R ++ A.reverse) (XR ++ XA.reverse) none ∧
      (∀ p, h' p = none ↔ h p = none)
  | 0, h, A, R, XA, XR, nxt, fuel, hk, hA, hR, _, hf => by
    have : A = [] := by simpa using hk
    subst this
    have : XA = [] := by have := hA.length; simpa using this.symm
    subst this
    refine ⟨h, ?_, by simpa using hR, fun _ => Iff.rfl⟩
    cases fuel <;> simp [reverseLoop]
  | k + 1, h, A, R, XA, XR, nxt, fuel, hk, hA, hR, hn, hf => by
    rcases List.eq_nil_or_concat A with rfl | ⟨A0, a, rfl⟩
    · simp at hk
    obtain ⟨X0, x, rfl⟩ : ∃ X0 x, XA = X0 ++ [x] := by
      rcases List.eq_nil_or_concat XA with rfl | ⟨X0, x, rfl⟩
      · have := hA.length; simp at this
      · exact ⟨X0, x, by simp⟩
    rw [List.concat_eq_append] at *
    have hlen : A0.length = X0.length := by have := hA.length; simp at this; exact this
    obtain ⟨s1, s2⟩ := (Seg.append hlen).mp hA
    have ha : h a = some ⟨A0.getLast?, nxt, x.1, x.2⟩ := by simpa using s2.1
    have hnd : A0.Nodup ∧ a ∉ A0 ∧ a ∉ R ∧ R.Nodup ∧ (∀ b ∈ A0, b ∉ R) := by
      simp only [List.nodup_append, List.mem_append, List.mem_singleton] at hn
      refine ⟨hn.1.1, fun hm => hn.1.2.2 a hm a rfl rfl, fun hm => hn.2.2 a (Or.inr rfl) a hm rfl, hn.2.1,
        fun b hb hm => hn.2.2 b (Or.inl hb) b hm rfl⟩
    obtain ⟨fuel, rfl⟩ : ∃ f, fuel = f + 1 := ⟨fuel - 1, by omega⟩
    let h1 := put h a (some ⟨R.getLast?, A0.getLast?, x.1, x.2⟩)
    have t1 : Seg h1 none A0 X0 (some a) := by
      have := s1.frame (h' := h1) (fun b hb => put_other _ _ (by rintro rfl; exact hnd.2.1 hb))
      simpa using this
    have t2 : Seg h1 none (R ++ [a]) (XR ++ [x]) A0.getLast? := by
      rw [Seg.append hR.length]
      refine ⟨?_, ?_, trivial⟩
      · have := hR.frame (h' := h1) (fun b hb => put_other _ _ (by rintro rfl; exact hnd.2.2.1 hb))
        simpa using this
      · simp [h1, put_same]
    have hn' : (A0 ++ (R ++ [a])).Nodup := by
      refine (List.Perm.nodup_iff ?_).mp hn
      rw [List.append_assoc]
      exact List.Perm.append_left _ (List.perm_append_comm)
    obtain ⟨h', r, k1, k2⟩ := reverseLoop_spec k (fuel := fuel) (by simp at hk; exact hk) t1 t2 hn' (by omega)
    refine ⟨h', ?_, ?_, ?_⟩
    · have hl : (A0 ++ [a]).getLast? = some a := by simp
      have hr : (R ++ [a]).getLast? = some a := by simp
      rw [hr] at r
      rw [hl, reverseLoop, ha]
      simp only [Option.bind_some, modify, ha, Option.map_some]
      exact r
    · simpa using k1
    · intro p
      rw [k2]
      by_cases hp : p = a
      · subst hp; simp [h1, put_same, ha]
      · simp [h1, put_other _ _ hp]

theorem reverse_spec {l : LinkedList V P} {as xs} (hl : Links l as xs) :
    ∃ l', reverse l = some l' ∧ Links l' as.reverse xs.reverse ∧ CursorOk l' as.reverse := by
  obtain ⟨h', r, k1, k2⟩ := reverseLoop_spec (R := []) (XR := []) as.length (fuel := l.count.toNat + 1) rfl hl.seg trivial
    (by simpa using hl.nodup) (by have := hl.count; omega)
  refine ⟨{ l with heap := h', first := l.last, last := l.first, cursor := l.last, cursorIndex := 0 }, ?_,
    ⟨by simpa using k1, ?_, ?_, ?_, ?_, ?_⟩, ?_⟩
  · unfold reverse
    have : reverseLoop (l.count.toNat + 1) l.heap none l.last = some h' := by rw [hl.last]; exact r
    rw [this]; rfl
  · exact (List.reverse_perm as).nodup_iff.mpr hl.nodup
  · intro p hp
    have : l.heap p ≠ none := fun e => hp ((k2 p).mpr e)
    simpa using hl.dom p this
  · show l.last = _; rw [hl.last]; simp
  · show l.first = _; rw [hl.first]; simp
  · show l.count = _; rw [hl.count]; simp
  · cases as with
    | nil => left; exact ⟨rfl, by show l.last = none; rw [hl.last]; rfl, rfl⟩
    | cons b B =>
      right
      refine ⟨0, by simp, rfl, ?_⟩
      show l.last = _
      rw [hl.last, List.getLast?_eq_head?_reverse, List.head?_eq_getElem?]

theorem listToArray_spec {h : Heap V P} {nxt} : ∀ {as : List Nat} {xs prv}, Seg h prv as xs nxt →
    listToArray h as.length (as.head?.or nxt) = some (xs.map (·.1))
  | [], [], _, _ => rfl
  | a :: as, x :: xs, _, hs => by
    have := listToArray_spec hs.2
    simp only [List.length_cons, List.head?_cons, Option.some_or, listToArray, deref, Option.bind_some, hs.1, this, Option.map_some,
      List.map_cons]
  | [], _ :: _, _, h => h.elim
  | _ :: _, [], _, h => h.elim

theorem arrayToList_spec {nxt} : ∀ {h : Heap V P} {as : List Nat} {xs : List (V × P)} {prv} {vs : List V}, Seg h prv as xs nxt → as.Nodup →
    vs.length = as.length →
    ∃ h', arrayToList as.length h (as.head?.or nxt) vs = some h' ∧ Seg h' prv as (vs.zip (xs.map (·.2))) nxt ∧
      (∀ p, p ∉ as → h' p = h p) ∧ (∀ p, h' p = none ↔ h p = none)
  | h, [], [], _, [], _, _, _ => ⟨h, rfl, trivial, fun _ _ => rfl, fun _ => Iff.rfl⟩
  | h, a :: as, x :: xs, prv, v :: vs, hs, hn, hl => by
    rw [List.nodup_cons] at hn
    let h1 := put h a (some ⟨prv, as.head?.or nxt, v, x.2⟩)
    have t : Seg h1 (some a) as xs nxt := hs.2.frame (fun b hb => put_other _ _ (by rintro rfl; exact hn.1 hb))
    obtain ⟨h', r, k, f, d⟩ := arrayToList_spec (vs := vs) t hn.2 (by simpa using hl)
    refine ⟨h', ?_, ⟨?_, k⟩, ?_, ?_⟩
    · simp only [List.length_cons, List.head?_cons, Option.some_or, arrayToList, deref, Option.bind_some, hs.1, modify, Option.map_some]
      exact r
    · rw [f a hn.1]; simp [h1, put_same]
    · intro p hp
      simp only [List.mem_cons, not_or] at hp
      rw [f p hp.2]; exact put_other _ _ hp.1
    · intro p
      rw [d]
      by_cases hp : p = a
      · subst hp; simp [h1, put_same, hs.1]
      · simp [h1, put_other _ _ hp]
  | _, [], _ :: _, _, _, h, _, _ => h.elim
  | _, _ :: _, [], _, _, h, _, _ => h.elim
  | _, [], [], _, _ :: _, _, _, hl => by simp at hl
  | _, _ :: _, _ :: _, _, [], _, _, hl => by simp at hl

theorem sort_spec {l : LinkedList V P} {as xs} (hl : Links l as xs) (hc : CursorOk l as) {cmp : V → V → Int}
    (ho : Spec.TotalPreorder cmp) :
    ∃ l' xs', sort cmp l = some l' ∧ Links l' as xs' ∧ CursorOk l' as ∧ (xs'.map (·.1)).Perm (xs.map (·.1)) ∧
      Spec.Sorted cmp (xs'.map (·.1)) ∧ xs'.map (·.2) = xs.map (·.2) := by
  have hlen := hl.seg.length
  have hcount := hl.count
  unfold sort
  by_cases h : l.count > 1
  · rw [if_pos h]
    have e : l.count.toNat = as.length := by omega
    have hf : l.first = as.head?.or none := by rw [hl.first]; simp
    rw [e, hf, listToArray_spec hl.seg]
    obtain ⟨b, hb, hp, hs⟩ := ArrayOps.C03_sort cmp ho (xs.map (·.1)) (as.length + 1) (by simp; omega)
    have hbl : b.length = as.length := by rw [hp.length_eq]; simp; omega
    obtain ⟨h', r, k, f, d⟩ := arrayToList_spec (vs := b) hl.seg hl.nodup hbl
    simp only [Option.bind_some, hb, r, Option.map_some]
    have hz1 : (b.zip (xs.map (·.2))).map (·.1) = b := by
      have := List.map_fst_zip (l₁ := b) (l₂ := xs.map (·.2)) (by simp; omega)
      simpa using this
    have hz2 : (b.zip (xs.map (·.2))).map (·.2) = xs.map (·.2) := by
      have := List.map_snd_zip (l₁ := b) (l₂ := xs.map (·.2)) (by simp; omega)
      simpa using this
    refine ⟨_, b.zip (xs.map (·.2)), rfl, ⟨k, hl.nodup, ?_, ?_, hl.last, hl.count⟩, ?_, by rw [hz1]; exact hp,
      by rw [hz1]; exact hs, hz2⟩
    · intro p hp
      exact hl.dom p (fun e => hp ((d p).mpr e))
    · exact hl.first ▸ (by simp [hl.first])
    · right
      refine ⟨0, by omega, rfl, ?_⟩
      simp [List.head?_eq_getElem?]
  · rw [if_neg h]
    refine ⟨l, xs, rfl, hl, hc, List.Perm.refl _, ?_, rfl⟩
    match xs, hlen with
    | [], _ => exact List.Pairwise.nil
    | [x], _ => exact List.pairwise_singleton _ _
    | _ :: _ :: _, hlen => simp at hlen; omega

/-! ### Priority insertion -/

/-- Position of the object's last entry. -/
def oldIdx [DecidableEq V] (xs : List (V × P)) (v : V) : Nat := xs.length - 1 - xs.reverse.findIdx (fun e => e.1 = v)

def insOf (gt : P → P → Bool) (as : List Nat) (last : Option Nat) (xs : List (V × P)) (p : P) : Option Nat × Int :=
  if slot gt xs p < xs.length then (as[slot gt xs p]?, (slot gt xs p : Nat)) else (last, as.length)

def remOf [DecidableEq V] (as : List Nat) (xs : List (V × P)) (v : V) : Option Nat × Int :=
  if v ∈ xs.map (·.1) then (as[oldIdx xs v]?, (oldIdx xs v : Nat)) else (none, -1)

theorem slot_le (gt : P → P → Bool) (xs : List (V × P)) (p : P) : slot gt xs p ≤ xs.length := List.findIdx_le_length

theorem slot_snoc (gt : P → P → Bool) (xs : List (V × P)) (y : V × P) (p : P) : slot gt (xs ++ [y]) p =
    if slot gt xs p < xs.length then slot gt xs p else if gt p y.2 then xs.length else xs.length + 1 := by
  unfold slot
  rw [List.findIdx_append]
  split
  · rfl
  · simp only [List.findIdx_cons, List.findIdx_nil]; cases gt p y.2 <;> simp; omega

theorem oldIdx_snoc [DecidableEq V] (xs : List (V × P)) (y : V × P) (v : V) (h : y.1 = v ∨ v ∈ xs.map (·.1)) :
    oldIdx (xs ++ [y]) v = if y.1 = v then xs.length else oldIdx xs v := by
  unfold oldIdx
  simp only [List.reverse_append, List.reverse_cons, List.reverse_nil, List.nil_append, List.singleton_append, List.findIdx_cons,
    List.length_append, List.length_cons, List.length_nil]
  by_cases hy : y.1 = v
  · simp [hy]
  · simp [hy]; omega

theorem oldIdx_lt [DecidableEq V] (xs : List (V × P)) (v : V) (h : v ∈ xs.map (·.1)) : oldIdx xs v < xs.length := by
  unfold oldIdx
  cases xs with
  | nil => simp at h
  | cons => simp; omega

theorem scan_spec [DecidableEq V] {gt : P → P → Bool} {h : Heap V P} {v : V} {p : P} {policy : Policy} {as : List Nat}
    {last : Option Nat} : ∀ {bs : List Nat} {ys : List (V × P)} {prv} {A : List Nat} {X : List (V × P)} {fuel : Nat},
    Seg h prv bs ys none → as = A ++ bs → A.length = X.length → bs.length < fuel →
    scan gt h v p policy as.length fuel bs.head? A.length (insOf gt as last X p) (remOf as X v) =
      some (if policy = .ifNotFound ∧ v ∈ ys.map (·.1) then none
        else some (insOf gt as last (X ++ ys) p, remOf as (X ++ ys) v))
  | [], [], _, A, X, fuel, _, _, _, hf => by
    cases fuel <;> simp [scan]
  | b :: bs, y :: ys, prv, A, X, fuel, hs, hA, hl, hf => by
    obtain ⟨fuel, rfl⟩ : ∃ f, fuel = f + 1 := ⟨fuel - 1, by omega⟩
    simp only [List.head?_cons, scan, hs.1, Option.bind_some, Option.or_none]
    by_cases hy : y.1 = v ∧ policy = .ifNotFound
    · rw [if_pos hy, if_pos ⟨hy.2, by simp [hy.1]⟩]
    · rw [if_neg hy]
      have ih := scan_spec (gt := gt) (v := v) (p := p) (policy := policy) (as := as) (last := last) (A := A ++ [b])
        (X := X ++ [y]) (fuel := fuel) hs.2 (by simp [hA]) (by simp [hl]) (by simp at hf; omega)
      have hget : as[X.length]? = some b := by rw [hA, ← hl]; simp
      have hlt : X.length < as.length := by rw [hA, ← hl]; simp
      have e1 : (if (insOf gt as last X p).2 = as.length ∧ gt p y.2 = true then (some b, (A.length : Int))
          else insOf gt as last X p) = insOf gt as last (X ++ [y]) p := by
        unfold insOf
        rw [slot_snoc]
        have := slot_le gt X p
        by_cases hsl : slot gt X p < X.length
        · simp only [hsl, if_true]
          rw [if_neg (by intro hh; have := hh.1; omega), if_pos (by simp; omega)]
        · simp only [hsl, if_false]
          by_cases hg : gt p y.2 = true
          · simp only [hg, if_true, and_self]
            rw [if_pos (by simp), hget, hl]
          · simp [hg]
      have e2 : (if y.1 = v then (some b, (A.length : Int)) else remOf as X v) = remOf as (X ++ [y]) v := by
        unfold remOf
        by_cases hyv : y.1 = v
        · rw [if_pos hyv, if_pos (by simp [hyv]), oldIdx_snoc _ _ _ (Or.inl hyv), if_pos hyv, hget, hl]
        · rw [if_neg hyv]
          by_cases hx : v ∈ X.map (·.1)
          · rw [if_pos hx, if_pos (by rw [List.map_append, List.mem_append]; exact Or.inl hx), oldIdx_snoc _ _ _ (Or.inr hx),
              if_neg hyv]
          · rw [if_neg hx, if_neg]
            rw [List.map_append, List.mem_append]
            rintro (hh | hh)
            · exact hx hh
            · simp at hh; exact hyv hh.symm
      rw [e1, e2, show ((A.length : Int) + 1) = ((A ++ [b]).length : Int) by simp, ih]
      have e3 : (policy = .ifNotFound ∧ v ∈ ys.map (·.1)) ↔ (policy = .ifNotFound ∧ v ∈ (y :: ys).map (·.1)) := by
        simp only [List.map_cons, List.mem_cons]
        constructor
        · rintro ⟨a, b⟩; exact ⟨a, Or.inr b⟩
        · rintro ⟨a, b | b⟩
          · exact absurd ⟨b.symm, a⟩ hy
          · exact ⟨a, b⟩
      simp only [e3, List.append_assoc, List.singleton_append]
  | [], _ :: _, _, _, _, _, h, _, _, _ => h.elim
  | _ :: _, [], _, _, _, _, h, _, _, _ => h.elim

/-- Changing one node's priority. -/
theorem setPriority_spec {l : LinkedList V P} {as xs} (hl : Links l as xs) {i : Nat} {a v q} (ha : as[i]? = some a)
    (hx : xs[i]? = some (v, q)) (p : P) :
    ∃ h', modify l.heap (some a) (fun n => { n with priority := p }) = some h' ∧
      Links { l with heap := h' } as (xs.take i ++ (v, p) :: xs.drop (i + 1)) := by
  have ea := split_at ha
  have ex := split_at' hx
  have hlen := hl.seg.length
  have hlt : (as.take i).length = (xs.take i).length := by simp [hlen]
  have hs := hl.seg
  rw [ea, ex] at hs
  obtain ⟨s1, s2, s3⟩ := (Seg.append hlt).mp hs
  have hn := hl.nodup
  rw [ea, List.nodup_append, List.nodup_cons] at hn
  have hA : a ∉ as.take i := fun hm => hn.2.2 a hm a (by simp) rfl
  simp only [Option.or_none] at s2
  refine ⟨put l.heap a (some ⟨(as.take i).getLast?, (as.drop (i + 1)).head?, v, p⟩), ?_,
    ⟨?_, hl.nodup, ?_, hl.first, hl.last, hl.count⟩⟩
  · simp [modify, s2]
  · show Seg (put l.heap a (some ⟨(as.take i).getLast?, (as.drop (i + 1)).head?, v, p⟩)) none as _ none
    rw [show Seg (put l.heap a (some ⟨(as.take i).getLast?, (as.drop (i + 1)).head?, v, p⟩)) none as
        (xs.take i ++ (v, p) :: xs.drop (i + 1)) none =
      Seg (put l.heap a (some ⟨(as.take i).getLast?, (as.drop (i + 1)).head?, v, p⟩)) none (as.take i ++ a :: as.drop (i + 1))
        (xs.take i ++ (v, p) :: xs.drop (i + 1)) none by rw [← ea]]
    rw [Seg.append hlt]
    refine ⟨s1.frame (fun b hb => put_other _ _ (by rintro rfl; exact hA hb)), ?_,
      s3.frame (fun b hb => put_other _ _ (by rintro rfl; exact hn.2.1.1 hb))⟩
    simp [put_same]
  · intro r hr
    by_cases hra : r = a
    · subst hra; exact List.mem_of_getElem? ha
    · exact hl.dom r (by rw [← put_other l.heap _ hra]; exact hr)

theorem insertAt_get {α : Type} {xs : List α} {i : Nat} (hi : i ≤ xs.length) (x : α) : (insertAt xs i x)[i]? = some x := by
  rw [insertAt, List.getElem?_append_right (by simp; omega), List.length_take, Nat.min_eq_left hi]; simp

theorem insertAt_set {α : Type} {xs : List α} {i : Nat} (hi : i ≤ xs.length) (x y : α) :
    (insertAt xs i x).take i ++ y :: (insertAt xs i x).drop (i + 1) = insertAt xs i y := by
  unfold insertAt
  rw [List.take_append_of_le_length (by simp; omega), List.take_take, Nat.min_self, List.drop_append]
  rw [List.drop_eq_nil_of_le (by simp; omega), List.length_take, Nat.min_eq_left hi]
  simp

theorem insertAt_get_old {α : Type} {xs : List α} {i k : Nat} (hi : i ≤ xs.length) (hk : k < xs.length) (x : α) :
    (insertAt xs i x)[if k ≥ i then k + 1 else k]? = xs[k]? := by
  unfold insertAt
  split
  · rw [List.getElem?_append_right (by simp; omega), List.length_take, Nat.min_eq_left hi,
      show k + 1 - i = (k - i) + 1 by omega, List.getElem?_cons_succ, List.getElem?_drop]
    congr 1; omega
  · rw [List.getElem?_append_left (by simp; omega), List.getElem?_take, if_pos (by omega)]

theorem eraseIdx_eq {α : Type} (xs : List α) (i : Nat) : xs.take i ++ xs.drop (i + 1) = xs.eraseIdx i := by
  rw [List.eraseIdx_eq_take_drop_succ]

theorem insertPriority_spec [DecidableEq V] {zero : P} {pick : Nat → Heap V P → Nat} (hp : Fresh pick) {gt : P → P → Bool}
    {l : LinkedList V P} {as xs} (hl : Links l as xs) (hc : CursorOk l as) (v : V) (p : P) (policy : Policy) :
    ∃ l' as', insertPriority zero pick gt l v p policy = some (l', (specPriority gt xs v p policy).2) ∧
      Links l' as' (specPriority gt xs v p policy).1 ∧ CursorOk l' as' := by
  have hlen := hl.seg.length
  have hcount := hl.count
  have hsc := scan_spec (gt := gt) (v := v) (p := p) (policy := policy) (as := as) (last := l.last) (A := []) (X := [])
    (fuel := l.count.toNat + 1) hl.seg rfl rfl (by omega)
  have i0 : insOf gt as l.last ([] : List (V × P)) p = (l.last, l.count) := by simp [insOf, slot, hcount]
  have r0 : remOf as ([] : List (V × P)) v = (none, -1) := by simp [remOf]
  rw [i0, r0, ← hl.first] at hsc
  simp only [List.length_nil, List.nil_append] at hsc
  unfold insertPriority
  rw [hcount] at hsc ⊢
  rw [show ((0 : Nat) : Int) = 0 by rfl] at hsc
  rw [hsc]
  simp only [Option.bind_some]
  by_cases hnf : policy = .ifNotFound ∧ v ∈ xs.map (·.1)
  · rw [if_pos hnf]
    have : specPriority gt xs v p policy = (xs, false) := by
      unfold specPriority; rw [if_pos (Or.inl ⟨hnf.2, hnf.1⟩)]
    rw [this]
    exact ⟨l, as, rfl, hl, hc⟩
  · rw [if_neg hnf]
    simp only
    have hmem : ((remOf as xs v).1 = none) ↔ v ∉ xs.map (·.1) := by
      unfold remOf
      split
      · rename_i hm
        have := oldIdx_lt xs v hm
        rw [← hlen] at this
        simp only [List.getElem?_eq_getElem this]
        simp [hm]
      · rename_i hm; simp [hm]
    by_cases hif : policy = .ifFound ∧ (remOf as xs v).1 = none
    · rw [if_pos hif]
      have : specPriority gt xs v p policy = (xs, false) := by
        unfold specPriority; rw [if_pos (Or.inr ⟨hmem.mp hif.2, hif.1⟩)]
      rw [this]
      exact ⟨l, as, rfl, hl, hc⟩
    · rw [if_neg hif]
      have hrefuse : ¬ ((v ∈ xs.map (·.1) ∧ policy = .ifNotFound) ∨ (v ∉ xs.map (·.1) ∧ policy = .ifFound)) := by
        rintro (⟨a, b⟩ | ⟨a, b⟩)
        · exact hnf ⟨b, a⟩
        · exact hif ⟨b, hmem.mpr a⟩
      have hsl := slot_le gt xs p
      generalize hS : slot gt xs p = s at hsl
      have hins2 : (insOf gt as l.last xs p).2 = (s : Nat) := by
        unfold insOf; rw [hS]; split
        · rfl
        · show (as.length : Int) = s; omega
      have hins : 0 < s → s < as.length →
          CursorOk { l with cursor := (insOf gt as l.last xs p).1, cursorIndex := (insOf gt as l.last xs p).2 } as := by
        intro _ hs
        right
        refine ⟨s, hs, hins2, ?_⟩
        show (insOf gt as l.last xs p).1 = _
        unfold insOf; rw [hS, if_pos (by omega)]
      obtain ⟨l1, a, q1, k1, c1, x1, f1⟩ := insert_spec (zero := zero) hp
        (hl.withCursor (insOf gt as l.last xs p).1 (insOf gt as l.last xs p).2) (by omega : s ≤ as.length) hins v
      rw [hins2] at q1 ⊢
      simp only [hcount] at q1
      rw [q1]
      simp only [Option.bind_some]
      rw [c1]
      obtain ⟨h2, q2, k2⟩ := setPriority_spec k1 (insertAt_get (by omega) a) (insertAt_get (by omega) (v, zero)) p
      rw [insertAt_set (by omega)] at k2
      rw [q2]
      simp only [Option.bind_some]
      by_cases hm : v ∈ xs.map (·.1)
      · have hspec : specPriority gt xs v p policy = ((insertAt xs s (v, p)).eraseIdx
            (if oldIdx xs v ≥ s then oldIdx xs v + 1 else oldIdx xs v), true) := by
          unfold specPriority
          rw [if_neg hrefuse, if_pos hm, hS]; rfl
        rw [if_pos (fun e => hmem.mp e hm), hspec]
        have hold := oldIdx_lt xs v hm
        have hrem : remOf as xs v = (as[oldIdx xs v]?, ((oldIdx xs v : Nat) : Int)) := by unfold remOf; rw [if_pos hm]
        rw [hrem]
        generalize hO : oldIdx xs v = o at hold
        have hi : (if ((o : Nat) : Int) ≥ (s : Nat) then ((o : Nat) : Int) + 1 else (o : Nat)) =
            ((if o ≥ s then o + 1 else o : Nat) : Int) := by
          split <;> split <;> omega
        simp only [hi]
        have hget := insertAt_get_old (xs := as) (i := s) (k := o) (by omega) (by omega) a
        have hlt : (if o ≥ s then o + 1 else o) < (insertAt as s a).length := by
          rw [insertAt_length]; split <;> omega
        generalize (if o ≥ s then o + 1 else o) = j at hget hlt
        have kc : CursorOk { l1 with heap := h2, cursor := as[o]?, cursorIndex := ((j : Nat) : Int) } (insertAt as s a) :=
          Or.inr ⟨j, hlt, rfl, hget.symm⟩
        obtain ⟨l3, q3, k3, c3⟩ := removeRange_spec (n := 1) (k2.withCursor as[o]? (j : Nat)) kc (by omega : j + 1 ≤ _)
        refine ⟨l3, _, ?_, ?_, c3⟩
        · have : ((1 : Nat) : Int) = 1 := rfl
          rw [this] at q3
          rw [show ({ l1 with heap := h2, cursor := as[o]?, cursorIndex := ((j : Nat) : Int) } : LinkedList V P) =
            { ({ l1 with heap := h2 } : LinkedList V P) with cursor := as[o]?, cursorIndex := ((j : Nat) : Int) } from rfl, q3]
          rfl
        · show Links l3 _ ((insertAt xs s (v, p)).eraseIdx j)
          rw [← eraseIdx_eq]; exact k3
      · have hspec : specPriority gt xs v p policy = (insertAt xs s (v, p), true) := by
          unfold specPriority; rw [if_neg hrefuse, if_neg hm, hS]
        rw [if_neg (fun e => e (hmem.mpr hm)), hspec]
        refine ⟨{ l1 with heap := h2 }, insertAt as s a, by rw [← c1], k2, insertAt_cursor (by omega) c1 x1⟩

/-! ### One call -/

theorem step_spec [DecidableEq V] {zero : P} {pick : Nat → Heap V P → Nat} (hp : Fresh pick) {gt : P → P → Bool}
    {l : LinkedList V P} {as xs} (hl : Links l as xs) (hc : CursorOk l as) (op : Op V P) (hop : OpOk op) :
    ∃ l' out as' xs', step zero pick gt l op = some (l', out) ∧ SpecStep zero gt xs op out xs' ∧ Links l' as' xs' ∧
      CursorOk l' as' := by
  have hlen := hl.seg.length
  have hcount := hl.count
  cases op with
  | replace loc len objs =>
    by_cases h : 0 ≤ loc ∧ 0 ≤ len ∧ loc + len ≤ xs.length
    · obtain ⟨i, rfl⟩ := Int.eq_ofNat_of_zero_le h.1
      obtain ⟨n, rfl⟩ := Int.eq_ofNat_of_zero_le h.2.1
      have hin : i + n ≤ as.length := by omega
      obtain ⟨l1, r1, k1, c1⟩ := removeRange_spec hl hc hin
      have hle : i ≤ (as.take i ++ as.drop (i + n)).length := by simp; omega
      obtain ⟨l2, as2, r2, k2, c2⟩ := insertAll_spec (zero := zero) hp objs k1 c1 hle
      refine ⟨l2, .done, as2, _, ?_, ⟨rfl, ?_⟩, k2, c2⟩
      · simp only [step, replaceRange]
        rw [if_pos (by unfold rangeOk; omega), r1]
        simp only [Option.bind_some, r2, Option.map_some]
      · rw [if_pos h]
        have e1 : (xs.take i ++ xs.drop (i + n)).take i = xs.take i := by
          rw [List.take_append_of_le_length (by simp; omega), List.take_take, Nat.min_self]
        have e2 : (xs.take i ++ xs.drop (i + n)).drop i = xs.drop (i + n) := by
          rw [List.drop_append, List.drop_eq_nil_of_le (by simp; omega), List.length_take, Nat.min_eq_left (by omega)]; simp
        rw [e1, e2]
        simp only [Int.toNat_natCast]
        rw [show ((i : Int) + n).toNat = i + n by omega]
    · refine ⟨l, .done, as, xs, ?_, ⟨rfl, by rw [if_neg h]⟩, hl, hc⟩
      simp only [step, replaceRange]
      have hop' : loc + len < 2 ^ 63 := hop
      rw [if_neg (by unfold rangeOk; omega), if_neg (by unfold rangeOverflows; omega)]; rfl
  | get i =>
    obtain ⟨l', r, k, c⟩ := nodeAt_spec hl hc i
    exact ⟨l', _, as, xs, by simp only [step, r, Option.map_some], ⟨rfl, rfl⟩, k, c⟩
  | getRange loc len =>
    by_cases h : 0 ≤ loc ∧ 0 ≤ len ∧ loc + len ≤ xs.length
    · obtain ⟨i, rfl⟩ := Int.eq_ofNat_of_zero_le h.1
      obtain ⟨n, rfl⟩ := Int.eq_ofNat_of_zero_le h.2.1
      obtain ⟨l1, r1, k1, c1⟩ := nodesFrom_spec n i hl hc (by omega)
      refine ⟨l1, _, as, xs, ?_, ⟨rfl, rfl⟩, k1, c1⟩
      simp only [step, objectsInRange]
      rw [if_pos (by unfold rangeOk; omega), if_pos h, Int.toNat_natCast, r1]
      simp
    · refine ⟨l, _, as, xs, ?_, ⟨rfl, rfl⟩, hl, hc⟩
      simp only [step, objectsInRange]
      have hop' : loc + len < 2 ^ 63 := hop
      rw [if_neg (by unfold rangeOk; omega), if_neg (by unfold rangeOverflows; omega), if_neg h]; rfl
  | insertPriority v p pol =>
    obtain ⟨l', as', r, k, c⟩ := insertPriority_spec (zero := zero) hp (gt := gt) hl hc v p pol
    exact ⟨l', _, as', _, by simp only [step, r, Option.map_some], ⟨rfl, rfl⟩, k, c⟩
  | reverse =>
    obtain ⟨l', r, k, c⟩ := reverse_spec hl
    exact ⟨l', _, _, _, by simp only [step, r, Option.map_some], ⟨rfl, rfl⟩, k, c⟩
  | sort cmp =>
    obtain ⟨l', xs', r, k, c, s1, s2, s3⟩ := sort_spec hl hc hop
    exact ⟨l', _, _, _, by simp only [step, r, Option.map_some], ⟨rfl, s1, s2, s3⟩, k, c⟩
  | count =>
    exact ⟨l, _, as, xs, rfl, ⟨rfl, by rw [hcount, hlen]⟩, hl, hc⟩

theorem run_spec [DecidableEq V] {zero : P} {pick : Nat → Heap V P → Nat} (hp : Fresh pick) {gt : P → P → Bool} :
    ∀ (ops : List (Op V P)) {l : LinkedList V P} {as xs}, Links l as xs → CursorOk l as → (∀ op ∈ ops, OpOk op) →
    ∃ l' outs as' xs', run zero pick gt l ops = some (l', outs) ∧ SpecRun zero gt xs ops outs xs' ∧ Links l' as' xs' ∧
      CursorOk l' as'
  | [], l, as, xs, hl, hc, _ => ⟨l, [], as, xs, rfl, .nil _, hl, hc⟩
  | op :: ops, l, as, xs, hl, hc, ho => by
    obtain ⟨l1, o1, as1, xs1, r1, s1, k1, c1⟩ := step_spec (zero := zero) hp (gt := gt) hl hc op (ho op (by simp))
    obtain ⟨l2, o2, as2, xs2, r2, s2, k2, c2⟩ := run_spec hp ops k1 c1 (fun o h => ho o (by simp [h]))
    refine ⟨l2, o1 :: o2, as2, xs2, ?_, .cons s1 s2, k2, c2⟩
    simp only [run, r1, r2, Option.bind_some, Option.map_some]

theorem Links.agree {l : LinkedList V P} {as xs} (hl : Links l as xs) : LinksAgree l := by
  have hget : ∀ a n, l.heap a = some n → ∃ i : Nat, as[i]? = some a ∧ n.prev = (if i = 0 then none else as[i - 1]?) ∧
      n.next = as[i + 1]? := by
    intro a n hn
    obtain ⟨i, hi⟩ := List.getElem?_of_mem (hl.dom a (by rw [hn]; simp))
    obtain ⟨x, _, h2⟩ := hl.seg.get hi
    rw [hn] at h2
    simp only [Option.some.injEq] at h2
    subst h2
    exact ⟨i, hi, rfl, by simp⟩
  refine ⟨?_, ?_, ?_, ?_⟩
  · intro a n b hn hb
    obtain ⟨i, hi, _, h3⟩ := hget a n hn
    rw [hb] at h3
    obtain ⟨y, _, hy⟩ := hl.seg.get h3.symm
    exact ⟨_, hy, by simp [hi]⟩
  · intro a n b hn hb
    obtain ⟨i, hi, h2, _⟩ := hget a n hn
    rw [hb] at h2
    by_cases h0 : i = 0
    · rw [if_pos h0] at h2; cases h2
    · rw [if_neg h0] at h2
      obtain ⟨y, _, hy⟩ := hl.seg.get h2.symm
      refine ⟨_, hy, ?_⟩
      simp only [Option.or_none]
      rw [show i - 1 + 1 = i by omega]; exact hi
  · intro a n hn
    obtain ⟨i, hi, h2, _⟩ := hget a n hn
    obtain ⟨hlt, he⟩ := List.getElem?_eq_some_iff.mp hi
    rw [hl.first, h2, List.head?_eq_getElem?]
    by_cases h0 : i = 0
    · subst h0; simp [hi]
    · rw [if_neg h0]
      have : i - 1 < as.length := by omega
      rw [List.getElem?_eq_getElem this]
      constructor
      · intro h; cases h
      · intro h
        exfalso
        have h00 : 0 < as.length := by omega
        rw [List.getElem?_eq_getElem h00] at h
        simp only [Option.some.injEq] at h
        have := (List.getElem_inj hl.nodup).mp (h.trans he.symm)
        omega
  · intro a n hn
    obtain ⟨i, hi, _, h3⟩ := hget a n hn
    obtain ⟨hlt, he⟩ := List.getElem?_eq_some_iff.mp hi
    rw [hl.last, h3, List.getLast?_eq_getElem?]
    by_cases h0 : i + 1 = as.length
    · rw [h0, show as.length - 1 = i by omega, hi]; simp
    · have : i + 1 < as.length := by omega
      rw [List.getElem?_eq_getElem this]
      constructor
      · intro h; cases h
      · intro h
        exfalso
        have h00 : as.length - 1 < as.length := by omega
        rw [List.getElem?_eq_getElem h00] at h
        simp only [Option.some.injEq] at h
        have := (List.getElem_inj hl.nodup).mp (h.trans he.symm)
        omega

end LList
end Duck
