import Verif.Spec.Describe
import Verif.Lemmas.Printf
import Verif.Lemmas.Convert
import Verif.Lemmas.Decimal
/-! Lemmas for C107. -/
namespace Duck
namespace Describe
open Printf (Piece Outputs Arg printf writeData)

/-- The string holds the bytes and writes at their end. -/
def Holds (s : Data.Obj) (bs : List UInt8) : Prop := s.bytes.take s.cursor = bs ∧ s.bytes.drop s.cursor = []

theorem Holds.bytes {s : Data.Obj} {bs : List UInt8} (h : Holds s bs) : s.bytes = bs := by
  rw [← List.take_append_drop s.cursor s.bytes, h.1, h.2, List.append_nil]

theorem put_pieces {ps : List Piece} {outs : List (List UInt8)} (hw : Outputs libc ps outs) (hok : ∀ p ∈ ps, p.Ok) {s : Data.Obj} {bs : List UInt8}
    (hs : Holds s bs) {format : List UInt8} {args : List Arg} (hf : ps.flatMap Piece.format = format) (ha : ps.flatMap Piece.args = args) :
    ∃ s', put s format args = some s' ∧ Holds s' (bs ++ outs.flatten) := by
  obtain ⟨s', h1, h2⟩ := Printf.printf_pieces Printf.acts_data hw hok s []
  subst hf ha
  rw [List.append_nil] at h1
  refine ⟨s', by rw [put, h1]; rfl, ?_⟩
  simp only [Prod.mk.injEq] at h2
  exact ⟨by rw [h2.1, hs.1], by rw [h2.2, hs.2, List.drop_nil]⟩

/-- A member as it is written. -/
def shown (h : Heap) (o : Option Nat) (d : List UInt8) : List UInt8 := if isString h o then [0x22] ++ d ++ [0x22] else d

theorem text_ok (cs : List Char) (h : ('\x00' ∉ cs ∧ '%' ∉ cs)) : (Piece.text cs).Ok := h

theorem item_eq (h : Heap) (rec : Option Nat → Option (List UInt8)) {s : Data.Obj} {bs : List UInt8} (hs : Holds s bs) (n : Nat) (o : Option Nat) :
    match rec o with
    | none => item h rec s n o = none
    | some d => ∃ s', item h rec s n o = some s' ∧ Holds s' (bs ++ (pre n ++ shown h o d)) := by
  unfold item
  cases rec o with
  | none => rfl
  | some d =>
    simp only [Option.bind_some, shown]
    split
    · obtain ⟨s', h1, h2⟩ := put_pieces (ps := [.str [] (some (pre n)), .text ['"'], .obj d, .text ['"']])
        (outs := [pre n, [0x22], d, [0x22]]) (.cons rfl (.cons rfl (.cons rfl (.cons rfl .nil)))) (by simp [Piece.Ok]) hs
        (format := fmtQuoted) (args := [.cstr (some (pre n)), .obj d]) rfl rfl
      refine ⟨s', h1, ?_⟩
      simpa using h2
    · obtain ⟨s', h1, h2⟩ := put_pieces (ps := [.str [] (some (pre n)), .obj d])
        (outs := [pre n, d]) (.cons rfl (.cons rfl .nil)) (by simp [Piece.Ok]) hs
        (format := fmtPlain) (args := [.cstr (some (pre n)), .obj d]) rfl rfl
      refine ⟨s', h1, ?_⟩
      simpa using h2

/-- The lines of the members, or `none` if one of them has no description. -/
def linesOf (h : Heap) (rec : Option Nat → Option (List UInt8)) : List (Option Nat) → Option (List (List UInt8))
  | [] => some []
  | o :: os => (rec o).bind fun d => (linesOf h rec os).map fun ls => shown h o d :: ls

/-- Lines after `n` others. -/
def body : Nat → List (List UInt8) → List UInt8
  | _, [] => []
  | n, l :: ls => pre n ++ l ++ body (n + 1) ls

theorem items_eq (h : Heap) (rec : Option Nat → Option (List UInt8)) : ∀ (os : List (Option Nat)) {s : Data.Obj} {bs : List UInt8} (_ : Holds s bs) (n : Nat),
    match linesOf h rec os with
    | none => items h rec s n os = none
    | some ls => ∃ s', items h rec s n os = some s' ∧ Holds s' (bs ++ body n ls)
  | [], s, bs, hs, n => ⟨s, rfl, by simpa [body] using hs⟩
  | o :: os, s, bs, hs, n => by
    have hi := item_eq h rec hs n o
    unfold linesOf items
    cases hr : rec o with
    | none =>
      rw [hr] at hi
      simp only at hi
      simp [hi]
    | some d =>
      rw [hr] at hi
      obtain ⟨s1, h1, h2⟩ := hi
      simp only [h1, Option.bind_some]
      have ih := items_eq h rec os h2 (n + 1)
      cases hl : linesOf h rec os with
      | none => rw [hl] at ih; exact ih
      | some ls =>
        rw [hl] at ih
        obtain ⟨s', h3, h4⟩ := ih
        refine ⟨s', h3, ?_⟩
        simpa [body] using h4

theorem entry_eq (h : Heap) (rec : Option Nat → Option (List UInt8)) {s : Data.Obj} {bs : List UInt8} (hs : Holds s bs) (n : Nat) (e : Option Nat × Option Nat) :
    match (rec e.1).bind fun k => (rec e.2).map fun d => (k, d) with
    | none => entry h rec s n e = none
    | some p => ∃ s', entry h rec s n e = some s' ∧ Holds s' (bs ++ (pre n ++ (shown h e.1 p.1 ++ [0x20, 0x3d, 0x20] ++ shown h e.2 p.2))) := by
  unfold entry
  cases rec e.1 with
  | none => rfl
  | some k =>
    simp only [Option.bind_some]
    obtain ⟨s1, h1, h2⟩ : ∃ s1, (if isString h e.1 then put s fmtKeyQuoted [.cstr (some (pre n)), .obj k]
        else put s fmtKeyPlain [.cstr (some (pre n)), .obj k]) = some s1 ∧ Holds s1 (bs ++ (pre n ++ (shown h e.1 k ++ [0x20, 0x3d, 0x20]))) := by
      unfold shown
      split
      · obtain ⟨s', h1, h2⟩ := put_pieces (ps := [.str [] (some (pre n)), .text ['"'], .obj k, .text ['"', ' ', '=', ' ']])
          (outs := [pre n, [0x22], k, [0x22, 0x20, 0x3d, 0x20]]) (.cons rfl (.cons rfl (.cons rfl (.cons (show _ = _ by decide) .nil)))) (by simp [Piece.Ok]) hs
          (format := fmtKeyQuoted) (args := [.cstr (some (pre n)), .obj k]) rfl rfl
        refine ⟨s', h1, ?_⟩
        simpa using h2
      · obtain ⟨s', h1, h2⟩ := put_pieces (ps := [.str [] (some (pre n)), .obj k, .text [' ', '=', ' ']])
          (outs := [pre n, k, [0x20, 0x3d, 0x20]]) (.cons rfl (.cons rfl (.cons (show _ = _ by decide) .nil))) (by simp [Piece.Ok]) hs
          (format := fmtKeyPlain) (args := [.cstr (some (pre n)), .obj k]) rfl rfl
        refine ⟨s', h1, ?_⟩
        simpa using h2
    rw [h1]
    simp only [Option.bind_some]
    cases rec e.2 with
    | none => rfl
    | some d =>
      simp only [Option.bind_some, Option.map_some, shown]
      split
      · obtain ⟨s', h3, h4⟩ := put_pieces (ps := [.text ['"'], .obj d, .text ['"']])
          (outs := [[0x22], d, [0x22]]) (.cons rfl (.cons rfl (.cons rfl .nil))) (by simp [Piece.Ok]) h2
          (format := fmtObjQuoted) (args := [.obj d]) rfl rfl
        refine ⟨s', h3, ?_⟩
        simpa [shown] using h4
      · obtain ⟨s', h3, h4⟩ := put_pieces (ps := [.obj d])
          (outs := [d]) (.cons rfl .nil) (by simp [Piece.Ok]) h2
          (format := fmtObjPlain) (args := [.obj d]) rfl rfl
        refine ⟨s', h3, ?_⟩
        simpa [shown] using h4

def keyedOf (h : Heap) (rec : Option Nat → Option (List UInt8)) : List (Option Nat × Option Nat) → Option (List (List UInt8))
  | [] => some []
  | e :: es => ((rec e.1).bind fun k => (rec e.2).map fun d => (k, d)).bind fun p =>
    (keyedOf h rec es).map fun ls => (shown h e.1 p.1 ++ [0x20, 0x3d, 0x20] ++ shown h e.2 p.2) :: ls

theorem entries_eq (h : Heap) (rec : Option Nat → Option (List UInt8)) : ∀ (es : List (Option Nat × Option Nat)) {s : Data.Obj} {bs : List UInt8} (_ : Holds s bs)
    (n : Nat), match keyedOf h rec es with
    | none => entries h rec s n es = none
    | some ls => ∃ s', entries h rec s n es = some s' ∧ Holds s' (bs ++ body n ls)
  | [], s, bs, hs, n => ⟨s, rfl, by simpa [body] using hs⟩
  | e :: es, s, bs, hs, n => by
    have hi := entry_eq h rec hs n e
    unfold keyedOf entries
    cases hr : (rec e.1).bind fun k => (rec e.2).map fun d => (k, d) with
    | none =>
      rw [hr] at hi
      simp only at hi
      simp [hi]
    | some p =>
      rw [hr] at hi
      obtain ⟨s1, h1, h2⟩ := hi
      simp only [h1, Option.bind_some]
      have ih := entries_eq h rec es h2 (n + 1)
      cases hl : keyedOf h rec es with
      | none => rw [hl] at ih; exact ih
      | some ls =>
        rw [hl] at ih
        obtain ⟨s', h3, h4⟩ := ih
        refine ⟨s', h3, ?_⟩
        simpa [body] using h4

theorem body_succ (n : Nat) (l : List UInt8) (ls : List (List UInt8)) :
    body (n + 1) (l :: ls) = [0x2c] ++ Convert.joined [0x2c] ((l :: ls).map fun l => [0x0a, 0x20, 0x20, 0x20, 0x20] ++ l) := by
  induction ls generalizing n l with
  | nil => simp [body, pre, Convert.joined]
  | cons k ls ih => rw [body, ih]; simp [pre, Convert.joined]

theorem body_zero (ls : List (List UInt8)) : body 0 ls = Convert.joined [0x2c] (ls.map fun l => [0x0a, 0x20, 0x20, 0x20, 0x20] ++ l) := by
  cases ls with
  | nil => rfl
  | cons l ls =>
    cases ls with
    | nil => simp [body, pre, Convert.joined]
    | cons k ls => rw [body, body_succ]; simp [pre, Convert.joined]

theorem numeral_len (v : BitVec 32) : (numeral v.toInt).length < 120 := by
  have hd : ∀ fuel n, (Json.decimal fuel n).length ≤ fuel + 1 := by
    intro fuel
    induction fuel with
    | zero => intro n; simp [Json.decimal]
    | succ f ih =>
      intro n
      rw [Json.decimal]
      split
      · simp
      · have := ih (n / 10)
        simp only [List.length_append, List.length_cons, List.length_nil]; omega
  have := hd 19 v.toInt.natAbs
  unfold numeral
  split
  · simp only [List.length_cons]; omega
  · omega

/-- What `%d` shows of a count. -/
def countText (n : Nat) : List UInt8 := numeral (BitVec.ofNat 32 n).toInt

theorem collection_eq (name : List UInt8) (n : Nat) (f : Data.Obj → Option Data.Obj) (ls : Option (List (List UInt8)))
    (hf : ∀ {s : Data.Obj} {bs : List UInt8}, Holds s bs → match ls with
      | none => f s = none
      | some ls => ∃ s', f s = some s' ∧ Holds s' (bs ++ body 0 ls)) :
    collection name n f = ls.map (layout name (countText n)) := by
  have hhead : fmtHead = [0x25, 0x40, 0x2c, 0x20, 0x25, 0x64, 0x20, 0x6f, 0x62, 0x6a, 0x65, 0x63, 0x74, 0x73, 0x20, 0x3d, 0x20, 0x28] := by decide +kernel
  have ht1 : ", ".toUTF8.data.toList = [0x2c, 0x20] := by decide +kernel
  have ht2 : " objects = (".toUTF8.data.toList = [0x20, 0x6f, 0x62, 0x6a, 0x65, 0x63, 0x74, 0x73, 0x20, 0x3d, 0x20, 0x28] := by decide +kernel
  have ht3 : "\n    ".toUTF8.data.toList = [0x0a, 0x20, 0x20, 0x20, 0x20] := by decide +kernel
  have ht4 : "\n)".toUTF8.data.toList = [0x0a, 0x29] := by decide +kernel
  obtain ⟨s1, h1, h2⟩ := put_pieces
    (ps := [.obj name, .text [',', ' '], .int [] .none 0x64 (BitVec.ofNat 32 n), .text [' ', 'o', 'b', 'j', 'e', 'c', 't', 's', ' ', '=', ' ', '(']])
    (outs := [name, [0x2c, 0x20], countText n, [0x20, 0x6f, 0x62, 0x6a, 0x65, 0x63, 0x74, 0x73, 0x20, 0x3d, 0x20, 0x28]])
    (.cons rfl (.cons (show _ = _ by decide) (.cons ⟨rfl, numeral_len _⟩ (.cons (show _ = _ by decide) .nil))))
    (by
      intro p hp
      simp only [List.mem_cons, List.not_mem_nil, or_false] at hp
      rcases hp with rfl | rfl | rfl | rfl <;> simp only [Piece.Ok] <;> decide)
    (s := ⟨[], 0⟩) (bs := []) ⟨rfl, rfl⟩ (format := fmtHead) (args := [.obj name, countArg n]) (by rw [hhead]; simp only [List.flatMap_cons, Piece.format]; rfl) rfl
  unfold collection
  rw [h1]
  simp only [Option.bind_some]
  have := hf h2
  cases ls with
  | none => simp only at this; rw [this]; rfl
  | some ls =>
    obtain ⟨s2, h3, h4⟩ := this
    rw [h3]
    obtain ⟨s3, h5, h6⟩ := put_pieces (ps := [.text ['\n', ')']]) (outs := [[0x0a, 0x29]]) (.cons (show _ = _ by decide) .nil) (by simp [Piece.Ok]) h4
      (format := fmtTail) (args := []) (by decide) rfl
    simp only [Option.bind_some, h5, Option.map_some, Option.some.injEq]
    rw [h6.bytes, body_zero, layout, ht1, ht2, ht3, ht4]
    simp

/-- The description of an object from those of its members. -/
def plainly (h : Heap) (rec : Option Nat → Option (List UInt8)) : Obj → Option (List UInt8)
  | .string b => some b
  | .plain t => some t
  | .list name os => (linesOf h rec os).map (layout name (countText os.length))
  | .keyed name es => (keyedOf h rec es).map (layout name (countText es.length))

theorem ofObj_eq (h : Heap) (rec : Option Nat → Option (List UInt8)) (o : Obj) : ofObj h rec o = plainly h rec o := by
  cases o with
  | string b => rfl
  | plain t => rfl
  | list name os => exact collection_eq name os.length _ _ fun hs => items_eq h rec os hs 0
  | keyed name es => exact collection_eq name es.length _ _ fun hs => entries_eq h rec es hs 0

theorem describe_succ (h : Heap) (k i : Nat) : describe h (k + 1) (some i) = plainly h (describe h k) (h i) := ofObj_eq h _ _

/-! ### Depth -/

/-- One gives all descriptions that the other gives. -/
def Le (f g : Option Nat → Option (List UInt8)) : Prop := ∀ o d, f o = some d → g o = some d

theorem linesOf_le {h : Heap} {f g : Option Nat → Option (List UInt8)} (hfg : Le f g) : ∀ {os ls}, linesOf h f os = some ls → linesOf h g os = some ls
  | [], _, e => e
  | o :: os, ls, e => by
    unfold linesOf at e ⊢
    cases hr : f o with
    | none => rw [hr] at e; cases e
    | some d =>
      rw [hr] at e
      simp only [Option.bind_some, Option.map_eq_some_iff] at e
      obtain ⟨l, e1, e2⟩ := e
      rw [hfg o d hr, linesOf_le hfg e1]
      simp [e2]

theorem keyedOf_le {h : Heap} {f g : Option Nat → Option (List UInt8)} (hfg : Le f g) : ∀ {es ls}, keyedOf h f es = some ls → keyedOf h g es = some ls
  | [], _, e => e
  | (a, b) :: es, ls, e => by
    unfold keyedOf at e ⊢
    simp only at e ⊢
    cases hr : f a with
    | none => rw [hr] at e; cases e
    | some k =>
      cases hr2 : f b with
      | none => rw [hr, hr2] at e; cases e
      | some d =>
        rw [hr, hr2] at e
        simp only [Option.bind_some, Option.map_some, Option.map_eq_some_iff] at e
        obtain ⟨l, e1, e2⟩ := e
        rw [hfg a k hr, hfg b d hr2, keyedOf_le hfg e1, ← e2]
        rfl

theorem plainly_le {h : Heap} {f g : Option Nat → Option (List UInt8)} (hfg : Le f g) {o : Obj} {t : List UInt8} (e : plainly h f o = some t) :
    plainly h g o = some t := by
  cases o with
  | string b => exact e
  | plain t => exact e
  | list name os =>
    simp only [plainly, Option.map_eq_some_iff] at e ⊢
    obtain ⟨ls, e1, e2⟩ := e
    exact ⟨ls, linesOf_le hfg e1, e2⟩
  | keyed name es =>
    simp only [plainly, Option.map_eq_some_iff] at e ⊢
    obtain ⟨ls, e1, e2⟩ := e
    exact ⟨ls, keyedOf_le hfg e1, e2⟩

theorem describe_le_succ (h : Heap) : ∀ k, Le (describe h k) (describe h (k + 1))
  | 0, _, _, e => by cases e
  | k + 1, none, _, e => e
  | k + 1, some i, d, e => by
    rw [describe_succ] at e ⊢
    exact plainly_le (describe_le_succ h k) e

theorem describe_le {h : Heap} {k k' : Nat} (hk : k ≤ k') : Le (describe h k) (describe h k') := by
  induction hk with
  | refl => exact fun _ _ e => e
  | step _ ih => exact fun o d e => describe_le_succ h _ o d (ih o d e)

/-! ### Which calls return -/

theorem linesOf_some {h : Heap} {f : Option Nat → Option (List UInt8)} : ∀ {os : List (Option Nat)}, (∀ o ∈ os, ∃ d, f o = some d) → ∃ ls, linesOf h f os = some ls
  | [], _ => ⟨[], rfl⟩
  | o :: os, H => by
    obtain ⟨d, hd⟩ := H o (by simp)
    obtain ⟨ls, hl⟩ := linesOf_some (h := h) (os := os) (fun o ho => H o (List.mem_cons_of_mem _ ho))
    exact ⟨shown h o d :: ls, by simp [linesOf, hd, hl]⟩

theorem keyedOf_some {h : Heap} {f : Option Nat → Option (List UInt8)} : ∀ {es : List (Option Nat × Option Nat)},
    (∀ e ∈ es, (∃ d, f e.1 = some d) ∧ ∃ d, f e.2 = some d) → ∃ ls, keyedOf h f es = some ls
  | [], _ => ⟨[], rfl⟩
  | e :: es, H => by
    obtain ⟨⟨k, hk⟩, d, hd⟩ := H e (by simp)
    obtain ⟨ls, hl⟩ := keyedOf_some (h := h) (es := es) (fun o ho => H o (List.mem_cons_of_mem _ ho))
    exact ⟨(shown h e.1 k ++ [0x20, 0x3d, 0x20] ++ shown h e.2 d) :: ls, by simp [keyedOf, hk, hd, hl]⟩

theorem linesOf_mem {h : Heap} {f : Option Nat → Option (List UInt8)} : ∀ {os : List (Option Nat)} {ls}, linesOf h f os = some ls → ∀ o ∈ os, ∃ d, f o = some d
  | [], _, _ => nofun
  | o :: os, ls, e => by
    unfold linesOf at e
    cases hr : f o with
    | none => rw [hr] at e; cases e
    | some d =>
      rw [hr] at e
      simp only [Option.bind_some, Option.map_eq_some_iff] at e
      obtain ⟨l, e1, _⟩ := e
      intro x hx
      rcases List.mem_cons.mp hx with rfl | hx
      · exact ⟨d, hr⟩
      · exact linesOf_mem e1 x hx

theorem keyedOf_mem {h : Heap} {f : Option Nat → Option (List UInt8)} : ∀ {es : List (Option Nat × Option Nat)} {ls}, keyedOf h f es = some ls →
    ∀ e ∈ es, (∃ d, f e.1 = some d) ∧ ∃ d, f e.2 = some d
  | [], _, _ => nofun
  | (a, b) :: es, ls, e => by
    unfold keyedOf at e
    simp only at e
    cases hr : f a with
    | none => rw [hr] at e; cases e
    | some k =>
      cases hr2 : f b with
      | none => rw [hr, hr2] at e; cases e
      | some d =>
        rw [hr, hr2] at e
        simp only [Option.bind_some, Option.map_some, Option.map_eq_some_iff] at e
        obtain ⟨l, e1, _⟩ := e
        intro x hx
        rcases List.mem_cons.mp hx with rfl | hx
        · exact ⟨⟨k, hr⟩, d, hr2⟩
        · exact keyedOf_mem e1 x hx

theorem plainly_mem {h : Heap} {f : Option Nat → Option (List UInt8)} {o : Obj} {t : List UInt8} (e : plainly h f o = some t) :
    ∀ j ∈ o.members, ∃ d, f (some j) = some d := by
  cases o with
  | string b => nofun
  | plain t => nofun
  | list name os =>
    simp only [plainly, Option.map_eq_some_iff] at e
    obtain ⟨ls, e1, _⟩ := e
    intro j hj
    simp only [Obj.members, List.mem_filterMap, id] at hj
    obtain ⟨o, ho, rfl⟩ := hj
    exact linesOf_mem e1 _ ho
  | keyed name es =>
    simp only [plainly, Option.map_eq_some_iff] at e
    obtain ⟨ls, e1, _⟩ := e
    intro j hj
    simp only [Obj.members, List.mem_flatMap, List.mem_append, Option.mem_toList] at hj
    obtain ⟨x, hx, hj⟩ := hj
    have := keyedOf_mem e1 x hx
    rcases hj with hj | hj
    · rw [hj] at this; exact this.1
    · rw [hj] at this; exact this.2

theorem plainly_some {h : Heap} {f : Option Nat → Option (List UInt8)} {o : Obj} (hn : ∃ d, f none = some d) (H : ∀ j ∈ o.members, ∃ d, f (some j) = some d) :
    ∃ t, plainly h f o = some t := by
  have H' : ∀ x : Option Nat, (∀ j, x = some j → j ∈ o.members) → ∃ d, f x = some d := by
    intro x hx
    cases x with
    | none => exact hn
    | some j => exact H j (hx j rfl)
  cases o with
  | string b => exact ⟨_, rfl⟩
  | plain t => exact ⟨_, rfl⟩
  | list name os =>
    obtain ⟨ls, e⟩ := linesOf_some (h := h) (f := f) (os := os) fun x hx => H' x fun j hj => by
      subst hj
      simp only [Obj.members, List.mem_filterMap, id]
      exact ⟨_, hx, rfl⟩
    exact ⟨_, by rw [plainly, e]; rfl⟩
  | keyed name es =>
    obtain ⟨ls, e⟩ := keyedOf_some (h := h) (f := f) (es := es) fun x hx =>
      ⟨H' x.1 fun j hj => by
        simp only [Obj.members, List.mem_flatMap, List.mem_append, Option.mem_toList]
        exact ⟨x, hx, Or.inl hj⟩,
      H' x.2 fun j hj => by
        simp only [Obj.members, List.mem_flatMap, List.mem_append, Option.mem_toList]
        exact ⟨x, hx, Or.inr hj⟩⟩
    exact ⟨_, by rw [plainly, e]; rfl⟩

theorem bound (h : Heap) : ∀ l : List Nat, (∀ j ∈ l, ∃ k t, describe h k (some j) = some t) → ∃ k, ∀ j ∈ l, ∃ t, describe h k (some j) = some t
  | [], _ => ⟨0, nofun⟩
  | j :: l, H => by
    obtain ⟨k1, t, h1⟩ := H j (by simp)
    obtain ⟨k2, h2⟩ := bound h l fun x hx => H x (by simp [hx])
    refine ⟨max k1 k2, fun x hx => ?_⟩
    rcases List.mem_cons.mp hx with rfl | hx
    · exact ⟨t, describe_le (by omega) _ _ h1⟩
    · obtain ⟨t, e⟩ := h2 x hx
      exact ⟨t, describe_le (by omega) _ _ e⟩

theorem returns_acc {h : Heap} : ∀ {k i t}, describe h k (some i) = some t → Acc (Member h) i
  | 0, _, _, e => by cases e
  | k + 1, i, t, e => by
    rw [describe_succ] at e
    refine ⟨_, fun j hj => ?_⟩
    obtain ⟨d, hd⟩ := plainly_mem e j hj
    exact returns_acc hd

theorem acc_returns {h : Heap} {i : Nat} (a : Acc (Member h) i) : ∃ k t, describe h k (some i) = some t := by
  induction a with
  | intro i _ ih =>
    obtain ⟨k, hk⟩ := bound h (h i).members ih
    obtain ⟨t, ht⟩ := plainly_some (h := h) (f := describe h (k + 1)) (o := h i) ⟨_, rfl⟩ fun j hj => by
      obtain ⟨t, e⟩ := hk j hj
      exact ⟨t, describe_le_succ h k _ _ e⟩
    exact ⟨k + 2, t, by rw [describe_succ]; exact ht⟩

/-! ### What they return -/

theorem countText_writes {n : Nat} (h : n < 2 ^ 31) : Convert.Writes (countText n) n := by
  have e : (BitVec.ofNat 32 n).toInt = n := by
    rw [BitVec.toInt_eq_toNat_cond, BitVec.toNat_ofNat, Nat.mod_eq_of_lt (by omega), if_pos (by omega)]
  unfold countText numeral
  rw [e, if_neg (by omega)]
  have hn : (n : Int).natAbs < 10 ^ (19 + 1) := by rw [Int.natAbs_natCast]; omega
  obtain ⟨h1, h2, h3⟩ := Json.decimal_eq 19 _ hn
  exact ⟨_, h1, h2, by rw [h3], Convert.decimal_head 19 _ hn, by rw [if_neg (by omega)]; rfl⟩

theorem countText_unique {n : Nat} (h : n < 2 ^ 31) {t : List UInt8} (w : Convert.Writes t n) : t = countText n := by
  obtain ⟨ds, h1, h2, h3, h4, h5⟩ := w
  rw [if_neg (by omega), List.nil_append] at h5
  have e : (BitVec.ofNat 32 n).toInt = n := by
    rw [BitVec.toInt_eq_toNat_cond, BitVec.toNat_ofNat, Nat.mod_eq_of_lt (by omega), if_pos (by omega)]
  unfold countText numeral
  rw [e, if_neg (by omega), Int.natAbs_natCast, h5]
  have h3' : Num.value ds = n := by rw [Int.natAbs_natCast] at h3; exact_mod_cast h3
  rw [← h3', Decimal.decimal_unique h1 h2 h4 (by omega)]

theorem shown_some (h : Heap) (i : Nat) (t : List UInt8) : shown h (some i) t = quoted (h i) t := by
  cases hh : h i <;> simp [shown, isString, quoted, hh]

theorem shown_none (h : Heap) (t : List UInt8) : shown h none t = t := rfl

theorem null_eq : "null".toUTF8.data.toList = nullText := by decide +kernel
theorem eq_eq : " = ".toUTF8.data.toList = [0x20, 0x3d, 0x20] := by decide +kernel

theorem line_of {h : Heap} {k : Nat} (ih : ∀ i t, describe h k (some i) = some t → Describes h i t) {o : Option Nat} {d : List UInt8} (e : describe h k o = some d) :
    Line h o (shown h o d) := by
  cases o with
  | none =>
    cases k with
    | zero => cases e
    | succ k =>
      cases e
      rw [shown_none, ← null_eq]
      exact .null
  | some i => rw [shown_some]; exact .obj (ih i d e)

theorem lines_of {h : Heap} {k : Nat} (ih : ∀ i t, describe h k (some i) = some t → Describes h i t) : ∀ {os ls}, linesOf h (describe h k) os = some ls → Lines h os ls
  | [], _, e => by cases e; exact .nil
  | o :: os, ls, e => by
    unfold linesOf at e
    cases hr : describe h k o with
    | none => rw [hr] at e; cases e
    | some d =>
      rw [hr] at e
      simp only [Option.bind_some, Option.map_eq_some_iff] at e
      obtain ⟨l, e1, rfl⟩ := e
      exact .cons (line_of ih hr) (lines_of ih e1)

theorem keyed_of {h : Heap} {k : Nat} (ih : ∀ i t, describe h k (some i) = some t → Describes h i t) : ∀ {es ls}, keyedOf h (describe h k) es = some ls → KeyedLines h es ls
  | [], _, e => by cases e; exact .nil
  | (a, b) :: es, ls, e => by
    unfold keyedOf at e
    simp only at e
    cases hr : describe h k a with
    | none => rw [hr] at e; cases e
    | some x =>
      cases hr2 : describe h k b with
      | none => rw [hr, hr2] at e; cases e
      | some d =>
        rw [hr, hr2] at e
        simp only [Option.bind_some, Option.map_some, Option.map_eq_some_iff] at e
        obtain ⟨l, e1, rfl⟩ := e
        have := KeyedLines.cons (line_of ih hr) (line_of ih hr2) (keyed_of ih e1)
        rw [eq_eq] at this
        exact this

theorem describe_sound {h : Heap} (hs : Small h) : ∀ k i t, describe h k (some i) = some t → Describes h i t
  | 0, _, _, e => by cases e
  | k + 1, i, t, e => by
    rw [describe_succ] at e
    have ih := describe_sound hs k
    have hi := hs i
    cases hh : h i with
    | string b => rw [hh] at e; cases e; exact .string hh
    | plain b => rw [hh] at e; cases e; exact .plain hh
    | list name os =>
      rw [hh] at e hi
      simp only [plainly, Option.map_eq_some_iff] at e
      obtain ⟨ls, e1, rfl⟩ := e
      exact .list hh (countText_writes hi) (lines_of ih e1)
    | keyed name es =>
      rw [hh] at e hi
      simp only [plainly, Option.map_eq_some_iff] at e
      obtain ⟨ls, e1, rfl⟩ := e
      exact .keyed hh (countText_writes hi) (keyed_of ih e1)

mutual
theorem describe_complete {h : Heap} (hs : Small h) {i : Nat} {t : List UInt8} : Describes h i t → ∃ k, describe h k (some i) = some t
  | .string e => ⟨1, by rw [describe_succ, e]; rfl⟩
  | .plain e => ⟨1, by rw [describe_succ, e]; rfl⟩
  | .list e w ls => by
    obtain ⟨k, hk⟩ := lines_complete hs ls
    have hi := hs i
    rw [e] at hi
    exact ⟨k + 1, by rw [describe_succ, e, plainly, hk, countText_unique hi w]; rfl⟩
  | .keyed e w ls => by
    obtain ⟨k, hk⟩ := keyed_complete hs ls
    have hi := hs i
    rw [e] at hi
    exact ⟨k + 1, by rw [describe_succ, e, plainly, hk, countText_unique hi w]; rfl⟩
theorem lines_complete {h : Heap} (hs : Small h) {os : List (Option Nat)} {ls : List (List UInt8)} : Lines h os ls → ∃ k, linesOf h (describe h k) os = some ls
  | .nil => ⟨0, rfl⟩
  | .cons l r => by
    obtain ⟨k1, d, h1, rfl⟩ := line_complete hs l
    obtain ⟨k2, h2⟩ := lines_complete hs r
    refine ⟨max k1 k2, ?_⟩
    have a := describe_le (h := h) (k := k1) (k' := max k1 k2) (by omega) _ _ h1
    have b := linesOf_le (describe_le (h := h) (k := k2) (k' := max k1 k2) (by omega)) h2
    simp [linesOf, a, b]
theorem line_complete {h : Heap} (hs : Small h) {o : Option Nat} {l : List UInt8} : Line h o l → ∃ k d, describe h k o = some d ∧ l = shown h o d
  | .null => ⟨1, nullText, rfl, by rw [null_eq]; rfl⟩
  | .obj e => by
    obtain ⟨k, hk⟩ := describe_complete hs e
    exact ⟨k, _, hk, by rw [shown_some]⟩
theorem keyed_complete {h : Heap} (hs : Small h) {es : List (Option Nat × Option Nat)} {ls : List (List UInt8)} : KeyedLines h es ls →
    ∃ k, keyedOf h (describe h k) es = some ls
  | .nil => ⟨0, rfl⟩
  | .cons a b r => by
    obtain ⟨k1, d1, h1, rfl⟩ := line_complete hs a
    obtain ⟨k2, d2, h2, rfl⟩ := line_complete hs b
    obtain ⟨k3, h3⟩ := keyed_complete hs r
    refine ⟨max (max k1 k2) k3, ?_⟩
    have e1 := describe_le (h := h) (k := k1) (k' := max (max k1 k2) k3) (by omega) _ _ h1
    have e2 := describe_le (h := h) (k := k2) (k' := max (max k1 k2) k3) (by omega) _ _ h2
    have e3 := keyedOf_le (describe_le (h := h) (k := k3) (k' := max (max k1 k2) k3) (by omega)) h3
    rw [keyedOf, e1, e2, e3, eq_eq]
    rfl
end

end Describe
end Duck
