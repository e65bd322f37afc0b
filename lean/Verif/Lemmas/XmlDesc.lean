import Verif.Spec.XmlDesc
import Verif.Lemmas.Printf
namespace Duck
namespace Xml
open Printf Unicode

/-! ## The bytes of a description -/

def pad (n : Nat) : Bytes := List.replicate (2 * n) 0x20

def attrsLay (l : List (Bytes × Bytes)) : Bytes := l.flatMap fun a => 0x20 :: (a.1 ++ (0x3d :: 0x22 :: (a.2 ++ [0x22])))

section
variable (order : List (Bytes × Bytes) → List (Bytes × Bytes))

mutual
def lay (n : Nat) : Node → Bytes
  | .elem name attrs kids => pad n ++ (0x3c :: (name ++ (attrsLay (order attrs) ++ (0x3e :: 0x0a :: (layAll (n + 1) kids ++ (pad n ++ (0x3c :: 0x2f :: (name ++ [0x3e, 0x0a]))))))))
  | .text t => pad n ++ (t ++ [0x0a])
def layAll (n : Nat) : List Node → Bytes
  | [] => []
  | k :: ks => lay n k ++ layAll n ks
end

variable {σ : Type} {write : Write σ} {libc : Libc} {γ : Type} {content : σ → γ} {app : γ → List UInt8 → γ}

theorem put_indent (A : Acts write content app) (s : σ) : ∃ s', put write libc s [0x20, 0x20] [] = some s' ∧ content s' = app (content s) [0x20, 0x20] := by
  have hw : Outputs libc [.text [' ', ' ']] [utf8 [' ', ' ']] := .cons rfl .nil
  obtain ⟨s', h1, h2⟩ := printf_pieces A hw (by intro p hp; simp at hp; subst hp; simp [Piece.Ok]) s []
  exact ⟨s', by rw [put]; exact congrArg (Option.map _) h1, h2⟩

theorem put_open (A : Acts write content app) (s : σ) (t : Bytes) :
    ∃ s', put write libc s [0x3c, 0x25, 0x40] [.obj t] = some s' ∧ content s' = app (content s) (0x3c :: t) := by
  have hw : Outputs libc [.text ['<'], .obj t] [utf8 ['<'], t] := .cons rfl (.cons rfl .nil)
  obtain ⟨s', h1, h2⟩ := printf_pieces A hw (by intro p hp; simp at hp; rcases hp with rfl | rfl <;> simp [Piece.Ok]) s []
  exact ⟨s', by rw [put]; exact congrArg (Option.map _) h1, by rw [h2]; congr 1; simp only [List.flatten_cons, List.flatten_nil, List.append_nil]; rfl⟩

theorem put_attr (A : Acts write content app) (s : σ) (k v : Bytes) :
    ∃ s', put write libc s [0x20, 0x25, 0x40, 0x3d, 0x22, 0x25, 0x40, 0x22] [.obj k, .obj v] = some s' ∧
      content s' = app (content s) (0x20 :: (k ++ (0x3d :: 0x22 :: (v ++ [0x22])))) := by
  have hw : Outputs libc [.text [' '], .obj k, .text ['=', '"'], .obj v, .text ['"']] [utf8 [' '], k, utf8 ['=', '"'], v, utf8 ['"']] :=
    .cons rfl (.cons rfl (.cons rfl (.cons rfl (.cons rfl .nil))))
  obtain ⟨s', h1, h2⟩ := printf_pieces A hw (by
    intro p hp
    simp only [List.mem_cons, List.not_mem_nil, or_false] at hp
    rcases hp with rfl | rfl | rfl | rfl | rfl <;> simp [Piece.Ok]) s []
  exact ⟨s', by rw [put]; exact congrArg (Option.map _) h1, by rw [h2]; congr 1⟩

theorem put_close (A : Acts write content app) (s : σ) : ∃ s', put write libc s [0x3e, 0x0a] [] = some s' ∧ content s' = app (content s) [0x3e, 0x0a] := by
  have hw : Outputs libc [.text ['>', '\n']] [utf8 ['>', '\n']] := .cons rfl .nil
  obtain ⟨s', h1, h2⟩ := printf_pieces A hw (by intro p hp; simp at hp; subst hp; simp [Piece.Ok]) s []
  exact ⟨s', by rw [put]; exact congrArg (Option.map _) h1, h2⟩

theorem put_end (A : Acts write content app) (s : σ) (t : Bytes) :
    ∃ s', put write libc s [0x3c, 0x2f, 0x25, 0x40, 0x3e, 0x0a] [.obj t] = some s' ∧ content s' = app (content s) (0x3c :: 0x2f :: (t ++ [0x3e, 0x0a])) := by
  have hw : Outputs libc [.text ['<', '/'], .obj t, .text ['>', '\n']] [utf8 ['<', '/'], t, utf8 ['>', '\n']] := .cons rfl (.cons rfl (.cons rfl .nil))
  obtain ⟨s', h1, h2⟩ := printf_pieces A hw (by intro p hp; simp at hp; rcases hp with rfl | rfl | rfl <;> simp [Piece.Ok]) s []
  exact ⟨s', by rw [put]; exact congrArg (Option.map _) h1, by rw [h2]; congr 1⟩

theorem put_text (A : Acts write content app) (s : σ) (t : Bytes) :
    ∃ s', put write libc s [0x25, 0x40, 0x0a] [.obj t] = some s' ∧ content s' = app (content s) (t ++ [0x0a]) := by
  have hw : Outputs libc [.obj t, .text ['\n']] [t, utf8 ['\n']] := .cons rfl (.cons rfl .nil)
  obtain ⟨s', h1, h2⟩ := printf_pieces A hw (by intro p hp; simp at hp; rcases hp with rfl | rfl <;> simp [Piece.Ok]) s []
  exact ⟨s', by rw [put]; exact congrArg (Option.map _) h1, by rw [h2]; congr 1⟩

theorem indent_eq (A : Acts write content app) : ∀ (n : Nat) (s : σ), ∃ s', writeIndent write libc s n = some s' ∧ content s' = app (content s) (pad n)
  | 0, s => ⟨s, rfl, (A.nil _).symm⟩
  | n + 1, s => by
      obtain ⟨s1, h1, h2⟩ := put_indent (libc := libc) A s
      obtain ⟨s2, h3, h4⟩ := indent_eq A n s1
      refine ⟨s2, by rw [writeIndent, h1]; exact h3, ?_⟩
      rw [h4, h2, A.assoc]
      congr 1

theorem attributes_eq (A : Acts write content app) : ∀ (l : List (Bytes × Bytes)) (s : σ), ∃ s', writeAttributes write libc s l = some s' ∧
    content s' = app (content s) (attrsLay l)
  | [], s => ⟨s, rfl, (A.nil _).symm⟩
  | a :: l, s => by
      obtain ⟨s1, h1, h2⟩ := put_attr (libc := libc) A s a.1 a.2
      obtain ⟨s2, h3, h4⟩ := attributes_eq A l s1
      refine ⟨s2, by rw [writeAttributes, h1]; exact h3, ?_⟩
      rw [h4, h2, A.assoc]
      congr 1

mutual
theorem describe_eq (A : Acts write content app) : ∀ (t : Node) (n : Nat) (s : σ), ∃ s', describe write libc order n s t = some s' ∧
    content s' = app (content s) (lay order n t)
  | .text t, n, s => by
      obtain ⟨s1, h1, c1⟩ := indent_eq (libc := libc) A n s
      obtain ⟨s2, h2, c2⟩ := put_text (libc := libc) A s1 t
      refine ⟨s2, by rw [describe, h1]; exact h2, ?_⟩
      rw [c2, c1, A.assoc, lay]
  | .elem name attrs kids, n, s => by
      obtain ⟨s1, h1, c1⟩ := indent_eq (libc := libc) A n s
      obtain ⟨s2, h2, c2⟩ := put_open (libc := libc) A s1 name
      obtain ⟨s3, h3, c3⟩ := attributes_eq (libc := libc) A (order attrs) s2
      obtain ⟨s4, h4, c4⟩ := put_close (libc := libc) A s3
      obtain ⟨s5, h5, c5⟩ := describeAll_eq A kids (n + 1) s4
      obtain ⟨s6, h6, c6⟩ := indent_eq (libc := libc) A n s5
      obtain ⟨s7, h7, c7⟩ := put_end (libc := libc) A s6 name
      refine ⟨s7, by simp only [describe, h1, h2, h3, h4, h5, h6, h7, Option.bind_some], ?_⟩
      rw [c7, c6, c5, c4, c3, c2, c1, A.assoc, A.assoc, A.assoc, A.assoc, A.assoc, A.assoc, lay]
      congr 1
theorem describeAll_eq (A : Acts write content app) : ∀ (ks : List Node) (n : Nat) (s : σ), ∃ s', describeAll write libc order n s ks = some s' ∧
    content s' = app (content s) (layAll order n ks)
  | [], n, s => ⟨s, rfl, (A.nil _).symm⟩
  | k :: ks, n, s => by
      obtain ⟨s1, h1, c1⟩ := describe_eq A k n s
      obtain ⟨s2, h2, c2⟩ := describeAll_eq A ks n s1
      refine ⟨s2, by rw [describeAll, h1]; exact h2, ?_⟩
      rw [c2, c1, A.assoc, layAll]
end

theorem description_eq (t : Node) : description libc order t = some (lay order 0 t) := by
  obtain ⟨s', h1, h2⟩ := describe_eq (libc := libc) order acts_data t 0 ⟨[], 0⟩
  rw [description, h1]
  simp only [List.take_nil, List.drop_nil, List.nil_append] at h2
  injection h2 with e1 e2
  rw [Option.map_some, ← List.take_append_drop s'.cursor s'.bytes, e1, e2, List.append_nil]

/-! ## The description as a document -/

def pre (bs : Bytes) (c : Content) : Content := bs.foldr .char c

theorem pre_bytes : ∀ (bs : Bytes) (c : Content), (pre bs c).bytes = bs ++ c.bytes
  | [], _ => rfl
  | b :: bs, c => by
      have := pre_bytes bs c
      simp only [pre] at this
      simp only [pre, List.foldr_cons, Content.bytes, this, List.cons_append]

theorem pre_kids : ∀ (bs : Bytes) (c : Content) (run : Bytes), (pre bs c).kids run = c.kids (run ++ bs)
  | [], c, run => by simp [pre]
  | b :: bs, c, run => by
      have := pre_kids bs c (run ++ [b])
      simp only [pre] at this
      simp only [pre, List.foldr_cons, Content.kids, this, List.append_assoc, List.singleton_append]

theorem pre_ok : ∀ (bs : Bytes) (c : Content), (∀ b ∈ bs, Plain b ∧ b ≠ 0x3c ∧ b ≠ 0x26) → c.OK → (pre bs c).OK
  | [], _, _, h => h
  | b :: bs, c, hb, h => ⟨hb b (by simp), pre_ok bs c (fun x hx => hb x (by simp [hx])) h⟩

def attrOf (a : Bytes × Bytes) : Attr := ⟨[0x20], a.1, [], [], 0x22, a.2.map .char⟩

theorem attrOf_bytes (a : Bytes × Bytes) : (attrOf a).bytes = 0x20 :: (a.1 ++ (0x3d :: 0x22 :: (a.2 ++ [0x22]))) := by
  have : (a.2.map AItem.char).flatMap AItem.bytes = a.2 := by
    induction a.2 with
    | nil => rfl
    | cons b l ih => rw [List.map_cons, List.flatMap_cons, ih]; rfl
  simp [attrOf, Attr.bytes, this, ascii]

theorem attrsBytes_eq (l : List (Bytes × Bytes)) : attrsBytes (l.map attrOf) = attrsLay l := by
  rw [attrsBytes, attrsLay, List.flatMap_map]
  congr 1
  funext a
  exact attrOf_bytes a

theorem attrOf_value {a : Bytes × Bytes} (h : ValueOK a.2) : (attrOf a).value = a.2 := by
  obtain ⟨k, v⟩ := a
  simp only [attrOf, Attr.value]
  have : ∀ v : Bytes, ValueOK v → (v.map AItem.char).flatMap AItem.chars = v := by
    intro v
    induction v with
    | nil => intro _; rfl
    | cons b l ih =>
        intro h
        have hb := h b (by simp)
        rw [List.map_cons, List.flatMap_cons, ih fun x hx => h x (by simp [hx]), AItem.chars, if_neg (by
          rintro (e | e)
          · exact hb.2.2.2.2.1 e
          · exact hb.2.2.2.2.2 e)]
        rfl
  exact this v h

theorem attrsOf_value {l : List (Bytes × Bytes)} (h : ∀ a ∈ l, ValueOK a.2) : attrsValue (l.map attrOf) = l := by
  rw [attrsValue, List.map_map]
  conv => rhs; rw [← List.map_id l]
  refine List.map_congr_left fun a ha => ?_
  simp only [Function.comp, attrOf_value (h a ha)]
  rfl

theorem attrsOf_ok {l : List (Bytes × Bytes)} (h : ∀ a ∈ l, Name a.1 ∧ ValueOK a.2) (hn : (l.map Prod.fst).Nodup) : AttrsOK (l.map attrOf) := by
  refine ⟨?_, ?_⟩
  · intro x hx
    obtain ⟨a, ha, rfl⟩ := List.mem_map.mp hx
    obtain ⟨h1, h2⟩ := h a ha
    refine ⟨⟨by simp [attrOf], by intro b hb; simp [attrOf] at hb; exact Or.inl hb⟩, h1, nofun, nofun, Or.inl rfl, ?_⟩
    intro i hi
    obtain ⟨b, hb, rfl⟩ := List.mem_map.mp hi
    have := h2 b hb
    exact ⟨this.1, this.2.1, this.2.2.1, this.2.2.2.1⟩
  · rw [List.map_map]
    exact hn

/-- The children of an element, followed by `rest`. -/
def conts (n : Nat) : List Node → Content → Content
  | [], rest => rest
  | .text t :: ks, rest => pre (pad n ++ (t ++ [0x0a])) (conts n ks rest)
  | .elem name attrs kids :: ks, rest =>
      pre (pad n) (.elem name ((order attrs).map attrOf) [] (pre [0x0a] (conts (n + 1) kids (pre (pad n) .nil))) [] (pre [0x0a] (conts n ks rest)))

theorem conts_bytes (n : Nat) (ks : List Node) (rest : Content) : (conts order n ks rest).bytes = layAll order n ks ++ rest.bytes := by
  match ks with
  | [] => rw [conts, layAll, List.nil_append]
  | .text t :: ks =>
      rw [conts, pre_bytes, conts_bytes n ks rest, layAll, lay]
      simp
  | .elem name attrs kids :: ks =>
      rw [conts, pre_bytes, Content.bytes, pre_bytes, pre_bytes, conts_bytes (n + 1) kids, conts_bytes n ks rest, pre_bytes, layAll, lay, attrsBytes_eq]
      simp [ascii, Content.bytes]
termination_by ks

theorem pad_plain (n : Nat) : ∀ b ∈ pad n, Plain b ∧ b ≠ 0x3c ∧ b ≠ 0x26 := by
  intro b hb
  rw [List.eq_of_mem_replicate hb]
  exact ⟨⟨by decide, by decide⟩, by decide, by decide⟩

theorem nl_plain : ∀ b ∈ ([0x0a] : Bytes), Plain b ∧ b ≠ 0x3c ∧ b ≠ 0x26 := by
  intro b hb
  simp only [List.mem_singleton] at hb
  subst hb
  exact ⟨⟨by decide, by decide⟩, by decide, by decide⟩

theorem conts_ok (ho : ∀ l, (order l).Perm l) (n : Nat) (ks : List Node) (rest : Content) (h : WritableAll ks) (hr : rest.OK) : (conts order n ks rest).OK := by
  match ks, h with
  | [], _ => rw [conts]; exact hr
  | .text t :: ks, h =>
      rw [WritableAll, Writable] at h
      rw [conts]
      refine pre_ok _ _ ?_ (conts_ok ho n ks rest h.2.2 hr)
      intro b hb
      simp only [List.mem_append] at hb
      rcases hb with hb | hb | hb
      · exact pad_plain n b hb
      · exact h.1.2.2 b hb
      · exact nl_plain b hb
  | .elem name attrs kids :: ks, h =>
      rw [WritableAll, Writable] at h
      obtain ⟨⟨h1, h2, h3, h4⟩, _, h5⟩ := h
      rw [conts]
      refine pre_ok _ _ (pad_plain n) ⟨h1, attrsOf_ok ?_ ?_, nofun, ?_, nofun, ?_⟩
      · exact fun a ha => h2 a ((ho attrs).mem_iff.mp ha)
      · exact (((ho attrs).map Prod.fst).nodup_iff).mpr h3
      · exact pre_ok _ _ nl_plain (conts_ok ho (n + 1) kids _ h4 (pre_ok _ _ (pad_plain n) trivial))
      · exact pre_ok _ _ nl_plain (conts_ok ho n ks rest h5 hr)
termination_by ks

/-! ## White space -/

theorem squeeze_append : ∀ (x : Bytes) (a : Bool) (y : Bytes), squeeze a (x ++ y) = squeeze a x ++ squeeze (match x.getLast? with | some b => Num.isSpace b | none => a) y
  | [], a, y => rfl
  | [b], a, y => by
      simp only [List.singleton_append, squeeze, List.getLast?_singleton]
      cases hb : Num.isSpace b <;> cases a <;> simp
  | b :: c :: x, a, y => by
      have h := fun a => squeeze_append (c :: x) a y
      have hl : (b :: c :: x).getLast? = (c :: x).getLast? := by simp [List.getLast?_cons_cons]
      rw [hl, List.cons_append, squeeze]
      conv => rhs; rw [squeeze]
      have hs : ∀ a, (match (c :: x).getLast? with | some b => Num.isSpace b | none => a) = Num.isSpace ((c :: x).getLast (by simp)) := by
        intro a; rw [List.getLast?_eq_some_getLast (by simp)]
      rw [hs]
      simp only [hs] at h
      rw [h, h]
      cases Num.isSpace b <;> cases a <;> simp

theorem squeeze_blank : ∀ (w : Bytes), (∀ b ∈ w, Num.isSpace b = true) → squeeze true w = []
  | [], _ => rfl
  | b :: w, h => by
      rw [squeeze, if_pos (h b (by simp)), if_pos rfl, squeeze_blank w fun x hx => h x (by simp [hx])]

theorem squeeze_space : ∀ (x : Bytes) (a : Bool), ∀ b ∈ squeeze a x, Num.isSpace b = true → b = 0x20
  | [], _, b, hb, _ => nomatch hb
  | c :: x, a, b, hb, hs => by
      rw [squeeze] at hb
      cases hc : Num.isSpace c with
      | true =>
          rw [hc, if_pos rfl] at hb
          cases a with
          | true => exact squeeze_space x true b hb hs
          | false =>
              simp only [Bool.false_eq_true, if_false, List.mem_cons] at hb
              rcases hb with rfl | hb
              · rfl
              · exact squeeze_space x true b hb hs
      | false =>
          rw [hc] at hb
          simp only [Bool.false_eq_true, if_false, List.mem_cons] at hb
          rcases hb with rfl | hb
          · rw [hc] at hs; cases hs
          · exact squeeze_space x false b hb hs

theorem pad_blank (n : Nat) : ∀ b ∈ pad n, Num.isSpace b = true := by
  intro b hb
  rw [List.eq_of_mem_replicate hb]
  decide

theorem squeeze_more {run w : Bytes} (hr : run.getLast? = some 0x0a) (hw : ∀ b ∈ w, Num.isSpace b = true) : squeeze true (run ++ w) = squeeze true run := by
  rw [squeeze_append, hr]
  simp only
  rw [show Num.isSpace 0x0a = true by decide, squeeze_blank w hw, List.append_nil]

theorem squeeze_skip {run x : Bytes} (hr : run.getLast? = some 0x0a) (hb : squeeze true run = []) : squeeze true (run ++ x) = squeeze true x := by
  rw [squeeze_append, hr, hb]
  simp only
  rw [show Num.isSpace 0x0a = true by decide, List.nil_append]

theorem squeeze_blanks_append {w x : Bytes} (hw : ∀ b ∈ w, Num.isSpace b = true) : squeeze true (w ++ x) = squeeze true x := by
  induction w with
  | nil => rfl
  | cons b w ih => rw [List.cons_append, squeeze, if_pos (hw b (by simp)), if_pos rfl, ih fun x hx => hw x (by simp [hx])]

theorem squeeze_text {t : Bytes} (h : TextOK t) : squeeze true (t ++ [0x0a]) = if t.getLast? = some 0x20 then t else t ++ [0x20] := by
  obtain ⟨h1, h2, _⟩ := h
  rw [squeeze_append, h2]
  cases hl : t.getLast? with
  | none => exact absurd (List.getLast?_eq_none_iff.mp hl) h1
  | some b =>
      simp only [Option.some.injEq]
      have hm : b ∈ squeeze true t := by rw [h2]; exact List.mem_of_getLast? hl
      by_cases hb : b = 0x20
      · subst hb
        rw [if_pos rfl]
        have : squeeze (Num.isSpace 0x20) [0x0a] = [] := by decide
        rw [this, List.append_nil]
      · rw [if_neg hb]
        have hs : Num.isSpace b = false := by
          cases hs : Num.isSpace b with
          | false => rfl
          | true => exact absurd (squeeze_space t true b hm hs) hb
        rw [hs]
        congr 1

mutual
/-- The tree that comes back. -/
def result : Node → Node
  | .text t => .text (if t.getLast? = some 0x20 then t else t ++ [0x20])
  | .elem name attrs kids => .elem name (order attrs) (resultAll kids)
def resultAll : List Node → List Node
  | [] => []
  | k :: ks => result k :: resultAll ks
end

theorem textNode_congr {a b : Bytes} (h : squeeze true a = squeeze true b) : textNode a = textNode b := by rw [textNode, textNode, h]

theorem conts_kids (ho : ∀ l, (order l).Perm l) (n : Nat) (ks : List Node) (w run : Bytes) (h : WritableAll ks) (hw : ∀ b ∈ w, Num.isSpace b = true)
    (hr : run.getLast? = some 0x0a) (hs : startsWithText ks = true → squeeze true run = []) :
    (conts order n ks (pre w .nil)).kids run = textNode run ++ resultAll order ks := by
  match ks, h, hs with
  | [], _, _ =>
      rw [conts, pre_kids, Content.kids, textNode_congr (squeeze_more hr hw), resultAll, List.append_nil]
  | .text t :: ks, h, hs =>
      rw [WritableAll, Writable] at h
      obtain ⟨h1, h2, h3⟩ := h
      have hb := hs rfl
      have hsq : squeeze true (run ++ (pad n ++ (t ++ [0x0a]))) = if t.getLast? = some 0x20 then t else t ++ [0x20] := by
        rw [squeeze_skip hr hb, squeeze_blanks_append (pad_blank n), squeeze_text h1]
      have hne : (if t.getLast? = some 0x20 then t else t ++ [0x20]) ≠ [] := by
        split
        · exact h1.1
        · simp
      rw [conts, pre_kids, conts_kids ho n ks w _ h3 hw (by simp) (fun e => by rw [h2 rfl] at e; cases e), resultAll, result]
      have e1 : textNode run = [] := by rw [textNode, hb, if_pos rfl]
      have e2 : textNode (run ++ (pad n ++ (t ++ [0x0a]))) = [.text (if t.getLast? = some 0x20 then t else t ++ [0x20])] := by
        rw [textNode, hsq, if_neg hne]
      rw [e1, e2]
      rfl
  | .elem name attrs kids :: ks, h, hs =>
      rw [WritableAll, Writable] at h
      obtain ⟨⟨_, h2, _, h4⟩, _, h5⟩ := h
      have hnl : squeeze true [0x0a] = [] := by decide
      have htn : textNode [0x0a] = [] := by rw [textNode, hnl, if_pos rfl]
      rw [conts, pre_kids, Content.kids, textNode_congr (squeeze_more hr (pad_blank n)), attrsOf_value fun a ha => (h2 a ((ho attrs).mem_iff.mp ha)).2, pre_kids, pre_kids, List.nil_append,
        conts_kids ho (n + 1) kids (pad n) _ h4 (pad_blank n) (by rfl) (fun _ => hnl), conts_kids ho n ks w _ h5 hw (by rfl) (fun _ => hnl), resultAll, result]
      simp only [htn, List.nil_append]
termination_by ks

mutual
theorem same_result (ho : ∀ l, (order l).Perm l) : ∀ t : Node, Same (settle t) (result order t)
  | .text t => by rw [settle, result]; exact .text _
  | .elem name attrs kids => by rw [settle, result]; exact .elem name (ho attrs).symm (same_resultAll ho kids)
theorem same_resultAll (ho : ∀ l, (order l).Perm l) : ∀ ks : List Node, SameAll (settleAll ks) (resultAll order ks)
  | [] => by rw [settleAll, resultAll]; exact .nil
  | k :: ks => by rw [settleAll, resultAll]; exact .cons (same_result ho k) (same_resultAll ho ks)
end

/-- The document. -/
def docOf (name : Bytes) (attrs : List (Bytes × Bytes)) (kids : List Node) : Doc :=
  ⟨false, none, [], .elem name ((order attrs).map attrOf) [] (pre [0x0a] (conts order 1 kids (pre (pad 0) .nil))), [.blanks [0x0a]]⟩

theorem docOf_bytes (name : Bytes) (attrs : List (Bytes × Bytes)) (kids : List Node) : (docOf order name attrs kids).bytes = lay order 0 (.elem name attrs kids) := by
  simp [docOf, Doc.bytes, Root.bytes, Misc.bytes, pre_bytes, conts_bytes, attrsBytes_eq, lay, ascii, Content.bytes, pad]

theorem docOf_ok (ho : ∀ l, (order l).Perm l) {name : Bytes} {attrs : List (Bytes × Bytes)} {kids : List Node} (h : Writable (.elem name attrs kids)) :
    (docOf order name attrs kids).OK := by
  rw [Writable] at h
  obtain ⟨h1, h2, h3, h4⟩ := h
  refine ⟨nofun, nofun, ⟨h1, attrsOf_ok (fun a ha => h2 a ((ho attrs).mem_iff.mp ha)) (((ho attrs).map Prod.fst).nodup_iff.mpr h3), nofun,
    pre_ok _ _ nl_plain (conts_ok order ho 1 kids _ h4 (pre_ok _ _ (pad_plain 0) trivial))⟩, ?_⟩
  intro m hm
  simp only [docOf, List.mem_singleton] at hm
  subst hm
  intro b hb
  simp only [List.mem_singleton] at hb
  exact Or.inr (Or.inr hb)

theorem docOf_tree (ho : ∀ l, (order l).Perm l) {name : Bytes} {attrs : List (Bytes × Bytes)} {kids : List Node} (h : Writable (.elem name attrs kids)) :
    (docOf order name attrs kids).root.tree = result order (.elem name attrs kids) := by
  rw [Writable] at h
  obtain ⟨h1, h2, h3, h4⟩ := h
  have hnl : squeeze true [0x0a] = [] := by decide
  simp only [docOf, Root.tree]
  rw [attrsOf_value fun a ha => (h2 a ((ho attrs).mem_iff.mp ha)).2, pre_kids, List.nil_append, conts_kids order ho 1 kids (pad 0) _ h4 (pad_blank 0) (by rfl) (fun _ => hnl), result,
    textNode, hnl, if_pos rfl]
  rfl

end

/-! ## Trees of documents -/

theorem squeeze_idem : ∀ (x : Bytes) (a : Bool), squeeze a (squeeze a x) = squeeze a x
  | [], _ => rfl
  | b :: x, a => by
      cases hb : Num.isSpace b with
      | true =>
          cases a with
          | true =>
              have e : squeeze true (b :: x) = squeeze true x := by rw [squeeze, if_pos hb, if_pos rfl]
              rw [e]; exact squeeze_idem x true
          | false =>
              have e : squeeze false (b :: x) = 0x20 :: squeeze true x := by rw [squeeze, if_pos hb]; rfl
              rw [e, squeeze, if_pos (by decide)]
              simp only [Bool.false_eq_true, if_false, squeeze_idem x true]
      | false =>
          have e : ∀ a y, squeeze a (b :: y) = b :: squeeze false y := fun a y => by rw [squeeze, hb]; rfl
          rw [e, e, squeeze_idem x false]

theorem writable_append : ∀ {l ks : List Node}, WritableAll l → WritableAll ks → (startsWithText ks = false) → WritableAll (l ++ ks)
  | [], _, _, h, _ => h
  | k :: l, ks, h1, h2, h3 => by
      rw [WritableAll] at h1
      rw [List.cons_append, WritableAll]
      refine ⟨h1.1, fun e => ?_, writable_append h1.2.2 h2 h3⟩
      cases l with
      | nil => exact h3
      | cons x l => have := h1.2.1 e; cases x <;> exact this

theorem textNode_writable {run : Bytes} (h : NoMarkupAll (textNode run)) : WritableAll (textNode run) := by
  rw [textNode] at h ⊢
  split at h
  · rename_i he
    rw [if_pos he]; trivial
  · rename_i he
    rw [if_neg he]
    rw [NoMarkupAll, NoMarkup] at h
    rw [WritableAll, Writable]
    exact ⟨⟨he, squeeze_idem run true, h.1⟩, fun _ => rfl, trivial⟩

theorem noMarkup_append {l ks : List Node} (h : NoMarkupAll (l ++ ks)) : NoMarkupAll l ∧ NoMarkupAll ks := by
  induction l with
  | nil => exact ⟨trivial, h⟩
  | cons k l ih =>
      rw [List.cons_append, NoMarkupAll] at h
      rw [NoMarkupAll]
      exact ⟨⟨h.1, (ih h.2).1⟩, (ih h.2).2⟩

theorem attrs_names {l : List Attr} (h : AttrsOK l) (hv : ∀ a ∈ attrsValue l, ValueOK a.2) :
    (∀ a ∈ attrsValue l, Name a.1 ∧ ValueOK a.2) ∧ ((attrsValue l).map Prod.fst).Nodup := by
  refine ⟨fun a ha => ⟨?_, hv a ha⟩, ?_⟩
  · obtain ⟨x, hx, rfl⟩ := List.mem_map.mp ha
    exact (h.1 x hx).2.1
  · rw [attrsValue, List.map_map]
    exact h.2

theorem kids_writable : ∀ (c : Content) (run : Bytes), c.OK → NoMarkupAll (c.kids run) → WritableAll (c.kids run)
  | .nil, run, _, h => textNode_writable h
  | .char b c, run, ho, h => kids_writable c _ ho.2 h
  | .ref r c, run, ho, h => kids_writable c _ ho.2 h
  | .cdata s c, run, ho, h => kids_writable c _ ho.2 h
  | .comment s c, run, ho, h => kids_writable c _ ho.2 h
  | .pi p c, run, ho, h => kids_writable c _ ho.2 h
  | .elem n as w body wEnd c, run, ho, h => by
      rw [Content.kids] at h ⊢
      obtain ⟨h1, h2⟩ := noMarkup_append h
      rw [NoMarkupAll, NoMarkup] at h2
      obtain ⟨o1, o2, _, o3, _, o4⟩ := ho
      obtain ⟨n1, n2⟩ := attrs_names o2 h2.1.1
      refine writable_append (textNode_writable h1) ?_ rfl
      rw [WritableAll, Writable]
      exact ⟨⟨o1, n1, n2, kids_writable body [] o3 h2.1.2⟩, nofun, kids_writable c [] o4 h2.2⟩
  | .empty n as w c, run, ho, h => by
      rw [Content.kids] at h ⊢
      obtain ⟨h1, h2⟩ := noMarkup_append h
      rw [NoMarkupAll, NoMarkup] at h2
      obtain ⟨o1, o2, _, o4⟩ := ho
      obtain ⟨n1, n2⟩ := attrs_names o2 h2.1.1
      refine writable_append (textNode_writable h1) ?_ rfl
      rw [WritableAll, Writable]
      exact ⟨⟨o1, n1, n2, trivial⟩, nofun, kids_writable c [] o4 h2.2⟩

theorem tree_writable {d : Doc} (h : d.OK) (hm : NoMarkup d.root.tree) : Writable d.root.tree := by
  obtain ⟨_, _, hr, _⟩ := h
  cases hd : d.root with
  | elem n as w body =>
      rw [hd] at hr hm
      obtain ⟨o1, o2, _, o3⟩ := hr
      rw [Root.tree, NoMarkup] at hm
      obtain ⟨n1, n2⟩ := attrs_names o2 hm.1
      rw [Root.tree, Writable]
      exact ⟨o1, n1, n2, kids_writable body [] o3 hm.2⟩
  | empty n as w =>
      rw [hd] at hr hm
      obtain ⟨o1, o2, _⟩ := hr
      rw [Root.tree, NoMarkup] at hm
      obtain ⟨n1, n2⟩ := attrs_names o2 hm.1
      rw [Root.tree, Writable]
      exact ⟨o1, n1, n2, trivial⟩

mutual
theorem settle_idem : ∀ t : Node, settle (settle t) = settle t
  | .text t => by
      rw [settle, settle]
      split
      · rfl
      · simp
  | .elem name attrs kids => by rw [settle, settle, settleAll_idem kids]
theorem settleAll_idem : ∀ ks : List Node, settleAll (settleAll ks) = settleAll ks
  | [] => rfl
  | k :: ks => by rw [settleAll, settleAll, settle_idem k, settleAll_idem ks]
end

theorem settle_starts (ks : List Node) : startsWithText (settleAll ks) = startsWithText ks := by
  cases ks with
  | nil => rfl
  | cons k ks => cases k <;> rw [settleAll, settle] <;> rfl

mutual
theorem settle_writable : ∀ t : Node, Writable t → Writable (settle t)
  | .text t, h => by
      rw [Writable] at h
      rw [settle, Writable]
      split
      · exact h
      · rename_i hl
        obtain ⟨h1, h2, h3⟩ := h
        refine ⟨by simp, ?_, ?_⟩
        · have e := squeeze_text ⟨h1, h2, h3⟩
          rw [if_neg hl] at e
          have e2 : squeeze true (t ++ [0x20]) = squeeze true (t ++ [0x0a]) := by
            rw [squeeze_append, squeeze_append]
            congr 1
          rw [e2, e]
        · intro b hb
          simp only [List.mem_append, List.mem_singleton] at hb
          rcases hb with hb | rfl
          · exact h3 b hb
          · exact ⟨⟨by decide, by decide⟩, by decide, by decide⟩
  | .elem name attrs kids, h => by
      rw [Writable] at h
      rw [settle, Writable]
      exact ⟨h.1, h.2.1, h.2.2.1, settleAll_writable kids h.2.2.2⟩
theorem settleAll_writable : ∀ ks : List Node, WritableAll ks → WritableAll (settleAll ks)
  | [], _ => by rw [settleAll]; trivial
  | k :: ks, h => by
      rw [WritableAll] at h
      rw [settleAll, WritableAll]
      refine ⟨settle_writable k h.1, fun e => ?_, settleAll_writable ks h.2.2⟩
      rw [settle_starts]
      refine h.2.1 ?_
      have := settle_starts [k]
      rw [settleAll, settleAll] at this
      rw [← this]; exact e
end

end Xml
end Duck
