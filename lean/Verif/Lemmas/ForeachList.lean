import Verif.Lemmas.Foreach
import Verif.Lemmas.LinkedList
/-! Enumerating a linked list that changes meanwhile. -/
namespace Duck
namespace Foreach
open LList (LinkedList Heap LNode Links CursorOk Seg Fresh)
variable {S V P : Type}

/-- The list consists of the nodes and entries `es`. -/
def LI (m : ListMem V P) (es : List (Nat × V × P)) : Prop :=
  Links m.list (es.map (·.1)) (es.map (·.2)) ∧ CursorOk m.list (es.map (·.1))

/-- The objects of the entries. -/
def objs (es : List (Nat × V × P)) : List V := es.map (·.2.1)

theorem LI.node {m : ListMem V P} {A B : List (Nat × V × P)} {a : Nat} {x : V × P} (h : LI m (A ++ (a, x) :: B)) :
    ∃ n, m.list.heap a = some n ∧ n.object = x.1 ∧ n.next = B.head?.map (·.1) := by
  have hs := h.1.seg
  rw [List.map_append, List.map_append, Seg.append (by simp)] at hs
  have := hs.2.1
  refine ⟨_, this, rfl, ?_⟩
  simp [List.head?_map]

theorem LI.addr {m : ListMem V P} {A B : List (Nat × V × P)} {a : Nat} {x : V × P} (h : LI m (A ++ (a, x) :: B)) :
    a ∉ (A ++ B).map (·.1) := by
  have hn := h.1.nodup
  rw [List.map_append, List.nodup_append, List.map_cons, List.nodup_cons] at hn
  rw [List.map_append, List.mem_append]
  rintro (h1 | h1)
  · exact hn.2.2 a h1 a (by simp) rfl
  · exact hn.2.1.1 h1

theorem LI.mem {m : ListMem V P} {A B : List (Nat × V × P)} {a : Nat} {x : V × P} (h : LI m (A ++ (a, x) :: B)) :
    ∃ n, memNode m a = some n ∧ n.object = x.1 ∧ n.next = B.head?.map (·.1) := by
  obtain ⟨n, h1, h2⟩ := h.node
  exact ⟨n, by rw [memNode, h1]; rfl, h2⟩

theorem nodes_seg {h : Heap V P} : ∀ {as : List Nat} {xs prv}, Seg h prv as xs none → nodes h as.length as.head? = as
  | [], [], _, _ => rfl
  | a :: as, x :: xs, _, hs => by
    have ih := nodes_seg hs.2
    simp only [List.length_cons, List.head?_cons, nodes, hs.1, Option.or_none, ih]
  | [], _ :: _, _, hs => hs.elim
  | _ :: _, [], _, hs => hs.elim

theorem position_eq {m : ListMem V P} {A B : List (Nat × V × P)} {a : Nat} {x : V × P} (h : LI m (A ++ (a, x) :: B)) :
    position m.list a = A.length := by
  unfold position
  have hn := nodes_seg h.1.seg
  rw [h.1.first, h.1.count, Int.toNat_natCast, hn, List.map_append, List.map_cons]
  have ha := h.addr
  rw [List.map_append, List.mem_append] at ha
  rw [List.findIdx_append]
  have h1 : (A.map (·.1)).findIdx (fun b => decide (b = a)) = (A.map (·.1)).length := by
    rw [List.findIdx_eq_length]
    intro b hb
    simp only [decide_eq_false_iff_not]
    rintro rfl
    exact ha (.inl hb)
  rw [h1, if_neg (by omega)]
  simp [List.findIdx_cons]

/-! ### Calls that only add or look -/

theorem insertAll_keep {zero : P} {pick : Nat → Heap V P → Nat} (hp : Fresh pick) : ∀ (vs : List V) {l : LinkedList V P}
    {es : List (Nat × V × P)}, Links l (es.map (·.1)) (es.map (·.2)) → CursorOk l (es.map (·.1)) → ∀ {i : Nat}, i ≤ es.length →
    ∃ l' es', LList.insertAll zero pick vs i l = some l' ∧ Links l' (es'.map (·.1)) (es'.map (·.2)) ∧
      CursorOk l' (es'.map (·.1)) ∧ es.Sublist es'
  | [], l, es, hl, hc, i, hi => ⟨l, es, rfl, hl, hc, List.Sublist.refl _⟩
  | v :: vs, l, es, hl, hc, i, hi => by
    obtain ⟨l1, a, r1, k1, c1, i1, _⟩ := LList.insert_spec (zero := zero) hp hl (i := i) (by simpa using hi) (fun _ _ => hc) v
    have e1 : LList.insertAt (es.map (·.1)) i a = (LList.insertAt es i (a, v, zero)).map (·.1) := by
      simp [LList.insertAt]
    have e2 : LList.insertAt (es.map (·.2)) i (v, zero) = (LList.insertAt es i (a, v, zero)).map (·.2) := by
      simp [LList.insertAt]
    have hc1 := LList.insertAt_cursor (as := es.map (·.1)) (by simpa using hi) c1 i1
    rw [e1, e2] at k1
    rw [e1] at hc1
    obtain ⟨l2, es2, r2, k2, c2, s2⟩ := insertAll_keep hp vs k1 hc1 (i := i + 1) (by rw [LList.insertAt_length]; omega)
    refine ⟨l2, es2, ?_, k2, c2, List.Sublist.trans ?_ s2⟩
    · rw [LList.insertAll, r1, Option.bind_some]; exact r2
    · have : es.Sublist (es.take i ++ (a, v, zero) :: es.drop i) := by
        conv_lhs => rw [← List.take_append_drop i es]
        exact List.Sublist.append (List.Sublist.refl _) (List.sublist_cons_self _ _)
      exact this

theorem call_get {zero : P} {pick : Nat → Heap V P → Nat} {m : ListMem V P} {es} (h : LI m es) (i : Int) :
    ∃ m', listCall zero pick m (.get i) = some m' ∧ LI m' es := by
  obtain ⟨l', r, k, c⟩ := LList.nodeAt_spec h.1 h.2 i
  refine ⟨⟨l', fun a => (m.list.heap a).or (m.old a)⟩, ?_, k, c⟩
  simp only [listCall, listDo, r]; rfl

theorem call_adds {zero : P} {pick : Nat → Heap V P → Nat} (hp : Fresh pick) {m : ListMem V P} {es} (h : LI m es)
    {op : ListCall V} (ho : Adds op) : ∃ m' es', listCall zero pick m op = some m' ∧ LI m' es' ∧ es.Sublist es' := by
  cases op with
  | get i => obtain ⟨m', e, k⟩ := call_get (zero := zero) (pick := pick) h i; exact ⟨m', es, e, k, List.Sublist.refl _⟩
  | reverse => exact ho.elim
  | replace loc len vs =>
    obtain ⟨hlen, hfit⟩ : len = 0 ∧ loc < 2 ^ 63 := ho
    subst hlen
    by_cases hr : LList.rangeOk loc 0 m.list.count
    · have hcount := h.1.count
      rw [List.length_map] at hcount
      have hloc : loc = ((loc.toNat : Nat) : Int) := by have := hr.1; omega
      obtain ⟨l', es', r, k, c, s⟩ := insertAll_keep (zero := zero) hp vs h.1 h.2 (i := loc.toNat) (by have := hr.2.2; omega)
      refine ⟨⟨l', fun a => (m.list.heap a).or (m.old a)⟩, es', ?_, ⟨k, c⟩, s⟩
      simp only [listCall, listDo, LList.replaceRange]
      rw [if_pos hr]
      simp only [LList.removeRange, if_true, Option.bind_some]
      rw [hloc, r]; rfl
    · refine ⟨⟨m.list, fun a => (m.list.heap a).or (m.old a)⟩, es, ?_, ⟨h.1, h.2⟩, List.Sublist.refl _⟩
      simp only [listCall, listDo, LList.replaceRange]
      rw [if_neg hr, if_neg (by unfold rangeOverflows; omega)]; rfl

theorem calls_adds {zero : P} {pick : Nat → Heap V P → Nat} (hp : Fresh pick) : ∀ (ops : List (ListCall V)) {m : ListMem V P}
    {es}, LI m es → (∀ op ∈ ops, Adds op) →
    ∃ m' es', calls (listCall zero pick) m ops = some m' ∧ LI m' es' ∧ es.Sublist es'
  | [], m, es, h, _ => ⟨m, es, rfl, h, List.Sublist.refl _⟩
  | op :: ops, m, es, h, ho => by
    obtain ⟨m1, es1, e1, k1, s1⟩ := call_adds (zero := zero) hp h (ho op (by simp))
    obtain ⟨m2, es2, e2, k2, s2⟩ := calls_adds hp ops k1 (fun o h => ho o (by simp [h]))
    exact ⟨m2, es2, by rw [calls, e1, Option.bind_some, e2], k2, s1.trans s2⟩

theorem calls_get {zero : P} {pick : Nat → Heap V P → Nat} : ∀ (ops : List (ListCall V)) {m : ListMem V P}
    {es}, LI m es → (∀ op ∈ ops, ∃ i, op = .get i) → ∃ m', calls (listCall zero pick) m ops = some m' ∧ LI m' es
  | [], m, es, h, _ => ⟨m, rfl, h⟩
  | op :: ops, m, es, h, ho => by
    obtain ⟨i, rfl⟩ := ho op (by simp)
    obtain ⟨m1, e1, k1⟩ := call_get (zero := zero) (pick := pick) h i
    obtain ⟨m2, e2, k2⟩ := calls_get ops k1 (fun o h => ho o (by simp [h]))
    exact ⟨m2, by rw [calls, e1, Option.bind_some, e2], k2⟩

theorem sub_split {α : Type} {A B E : List α} {a : α} (h : (A ++ a :: B).Sublist E) :
    ∃ A' B', E = A' ++ a :: B' ∧ A.Sublist A' ∧ B.Sublist B' := by
  obtain ⟨E1, E2, rfl, h1, h2⟩ := List.append_sublist_iff.mp h
  obtain ⟨F1, F2, rfl, h3, h4⟩ := List.cons_sublist_iff.mp h2
  obtain ⟨G1, G2, rfl⟩ := List.append_of_mem h3
  refine ⟨E1 ++ G1, G2 ++ F2, by simp, h1.trans (List.sublist_append_left _ _), h4.trans (List.sublist_append_right _ _)⟩

theorem listLoop_adds {zero : P} {pick : Nat → Heap V P → Nat} (hp : Fresh pick)
    (cb : Nat → Callback S (ListMem V P) V (ListCall V)) (h : ∀ a v s m, ∀ op ∈ (cb a v s m).1, Adds op) :
    ∀ (fuel : Nat) (A B : List (Nat × V × P)) (s : S) (m : ListMem V P), LI m (A ++ B) →
    listLoop zero pick cb fuel (B.head?.map (·.1)) s m = .more ∨
    ∃ r s' m' seen A' B', listLoop zero pick cb fuel (B.head?.map (·.1)) s m = .ret r s' m' seen ∧ LI m' (A' ++ B') ∧
      A.Sublist A' ∧ B.Sublist B' ∧ seen.Sublist (objs B') ∧ (r = 0 → (objs B).Sublist seen)
  | fuel, A, [], s, m, hi => by
    right
    refine ⟨0, s, m, [], A, [], by cases fuel <;> rfl, hi, List.Sublist.refl _, List.Sublist.refl _, by simp, ?_⟩
    intro _; simp [objs]
  | 0, A, (a, x) :: B, s, m, hi => .inl rfl
  | fuel + 1, A, (a, x) :: B, s, m, hi => by
    obtain ⟨n, hn, ho, hx⟩ := hi.mem
    obtain ⟨m1, es1, e1, k1, s1⟩ := calls_adds (zero := zero) hp _ hi (h a n.object s m)
    obtain ⟨A1, B1, rfl, sA, sB⟩ := sub_split s1
    obtain ⟨n1, hn1, ho1, hx1⟩ := k1.mem
    have hsee : visit (listCall zero pick) (cb a) n.object s m =
        .ret (cb a n.object s m).2.1 (cb a n.object s m).2.2 m1 [x.1] := by
      unfold visit; rw [e1]; simp [ho]
    simp only [List.head?_cons, Option.map_some, listLoop, hn, hsee, ret_andThen, listNext, hn1, hx1]
    split
    · rename_i hr
      right
      refine ⟨_, _, m1, [x.1], A1, (a, x) :: B1, rfl, k1, sA, sB.cons_cons _, ?_, fun h0 => absurd h0 hr⟩
      simp [objs]
    · rcases listLoop_adds hp cb h fuel (A1 ++ [(a, x)]) B1 (cb a n.object s m).2.2 m1 (by simpa using k1) with
        e | ⟨r, s', m', seen, A2, B2, e, k2, sA2, sB2, q1, q2⟩
      · left; rw [e]; rfl
      · right
        rw [e]
        obtain ⟨U, W, rfl, u1, w1⟩ := List.append_sublist_iff.mp sA2
        refine ⟨r, s', m', x.1 :: seen, U, W ++ B2, rfl, by simpa using k2, sA.trans u1, ?_, ?_, ?_⟩
        · have := w1.append (sB.trans sB2)
          simpa using this
        · have w2 : [x.1].Sublist (objs W) := w1.map (fun e : Nat × V × P => e.2.1)
          have := w2.append q1
          simpa [objs] using this
        · intro h0
          have := ((sB.map (fun e : Nat × V × P => e.2.1)).trans (q2 h0)).cons_cons x.1
          simpa [objs] using this

/-! ### Callbacks that look or remove their own entry -/

theorem call_remove {zero : P} {pick : Nat → Heap V P → Nat} {m : ListMem V P} {A B : List (Nat × V × P)} {a : Nat} {x : V × P}
    (h : LI m (A ++ (a, x) :: B)) : ∃ m', calls (listCall zero pick) m [.replace (position m.list a) 1 []] = some m' ∧
      LI m' (A ++ B) ∧ ∃ n, memNode m' a = some n ∧ n.next = B.head?.map (·.1) := by
  rw [position_eq h]
  have hcount := h.1.count
  obtain ⟨l', r, k, c⟩ := LList.removeRange_spec h.1 h.2 (i := A.length) (n := 1) (by simp)
  have e1 : (((A ++ (a, x) :: B).map (·.1)).take A.length ++ ((A ++ (a, x) :: B).map (·.1)).drop (A.length + 1)) =
      (A ++ B).map (·.1) := by simp [List.drop_append]
  have e2 : (((A ++ (a, x) :: B).map (·.2)).take A.length ++ ((A ++ (a, x) :: B).map (·.2)).drop (A.length + 1)) =
      (A ++ B).map (·.2) := by simp [List.drop_append]
  rw [e1, e2] at k
  rw [e1] at c
  obtain ⟨n, hn, _, hx⟩ := h.node
  refine ⟨⟨l', fun a => (m.list.heap a).or (m.old a)⟩, ?_, ⟨k, c⟩, n, ?_, hx⟩
  · have hr : LList.rangeOk (A.length : Int) 1 m.list.count := by
      rw [hcount]; refine ⟨by omega, by omega, ?_⟩; simp
    simp only [calls, listCall, listDo, LList.replaceRange]
    rw [if_pos hr]
    have r' : LList.removeRange m.list (A.length : Int) 1 = some l' := r
    rw [r']
    simp only [Option.bind_some, LList.insertAll, Option.map_some]
  · have hnone : l'.heap a = none := by
      cases hh : l'.heap a with
      | none => rfl
      | some y => exact absurd (k.dom a (by rw [hh]; simp)) h.addr
    simp only [memNode, hnone, hn]; rfl

theorem listLoop_self {zero : P} {pick : Nat → Heap V P → Nat}
    (cb : Nat → Callback S (ListMem V P) V (ListCall V)) (h : ∀ a v s m, LooksOrRemoves m.list a (cb a v s m).1) :
    ∀ (fuel : Nat) (A B : List (Nat × V × P)) (s : S) (m : ListMem V P), LI m (A ++ B) → B.length ≤ fuel →
    ∃ r s' m' seen B', listLoop zero pick cb fuel (B.head?.map (·.1)) s m = .ret r s' m' seen ∧ LI m' (A ++ B') ∧
      B'.Sublist B ∧ seen <+: objs B ∧ (r = 0 → seen = objs B)
  | fuel, A, [], s, m, hi, _ => by
    refine ⟨0, s, m, [], [], by cases fuel <;> rfl, hi, List.Sublist.refl _, by simp, ?_⟩
    intro _; simp [objs]
  | 0, A, (a, x) :: B, s, m, hi, hf => by simp at hf
  | fuel + 1, A, (a, x) :: B, s, m, hi, hf => by
    obtain ⟨n, hn, ho, hx⟩ := hi.mem
    have after : ∃ m1 K n1, calls (listCall zero pick) m (cb a n.object s m).1 = some m1 ∧ K.Sublist [(a, x)] ∧
        LI m1 (A ++ K ++ B) ∧ memNode m1 a = some n1 ∧ n1.next = B.head?.map (·.1) := by
      rcases h a n.object s m with hl | hl
      · obtain ⟨m1, e1, k1⟩ := calls_get (zero := zero) (pick := pick) _ hi hl
        obtain ⟨n1, hn1, _, hx1⟩ := k1.mem
        exact ⟨m1, [(a, x)], n1, e1, List.Sublist.refl _, by simpa using k1, hn1, hx1⟩
      · rw [hl]
        obtain ⟨m1, e1, k1, n1, hn1, hx1⟩ := call_remove (zero := zero) (pick := pick) hi
        exact ⟨m1, [], n1, e1, by simp, by simpa using k1, hn1, hx1⟩
    obtain ⟨m1, K, n1, e1, sK, k1, hn1, hx1⟩ := after
    have hsee : visit (listCall zero pick) (cb a) n.object s m =
        .ret (cb a n.object s m).2.1 (cb a n.object s m).2.2 m1 [x.1] := by
      unfold visit; rw [e1]; simp [ho]
    simp only [List.head?_cons, Option.map_some, listLoop, hn, hsee, ret_andThen, listNext, hn1, hx1]
    split
    · rename_i hr
      refine ⟨_, _, m1, [x.1], K ++ B, rfl, by simpa using k1, ?_, ?_, fun h0 => absurd h0 hr⟩
      · have := sK.append (List.Sublist.refl B); simpa using this
      · exact ⟨objs B, by simp [objs]⟩
    · obtain ⟨r, s', m', seen, B2, e, k2, sB2, q1, q2⟩ := listLoop_self cb h fuel (A ++ K) B (cb a n.object s m).2.2 m1
        (by simpa using k1) (by simp at hf; exact hf)
      rw [e]
      refine ⟨r, s', m', x.1 :: seen, K ++ B2, rfl, by simpa using k2, ?_, ?_, ?_⟩
      · have := sK.append sB2; simpa using this
      · have : objs ((a, x) :: B) = x.1 :: objs B := rfl
        rw [this, List.cons_prefix_cons]; exact ⟨rfl, q1⟩
      · intro h0
        have : objs ((a, x) :: B) = x.1 :: objs B := rfl
        rw [this, q2 h0]

/-! ### Callbacks that leave the list alone -/

theorem listLoop_plain {zero : P} {pick : Nat → Heap V P → Nat} (cb : Nat → Callback S (ListMem V P) V (ListCall V))
    (f : V → S → Int × S) (m : ListMem V P) (h : ∀ a v s, cb a v s m = ([], f v s)) :
    ∀ (fuel : Nat) (A B : List (Nat × V × P)) (s : S), LI m (A ++ B) → B.length ≤ fuel →
    listLoop zero pick cb fuel (B.head?.map (·.1)) s m =
      .ret (visits f (objs B) s).1 (visits f (objs B) s).2.1 m (visits f (objs B) s).2.2
  | fuel, A, [], s, hi, _ => by cases fuel <;> rfl
  | 0, A, (a, x) :: B, s, hi, hf => by simp at hf
  | fuel + 1, A, (a, x) :: B, s, hi, hf => by
    obtain ⟨n, hn, ho, hx⟩ := hi.mem
    have hsee : visit (listCall zero pick) (cb a) n.object s m = .ret (f x.1 s).1 (f x.1 s).2 m [x.1] := by
      unfold visit; rw [h, ho]; rfl
    have hob : objs ((a, x) :: B) = x.1 :: objs B := rfl
    simp only [List.head?_cons, Option.map_some, listLoop, hn, hsee, ret_andThen, listNext, hx, hob, visits]
    split
    · rfl
    · rw [listLoop_plain cb f m h fuel (A ++ [(a, x)]) B _ (by simpa using hi) (by simp at hf; exact hf)]; rfl

end Foreach
end Duck
