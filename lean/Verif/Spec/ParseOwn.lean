import Verif.Model.ParseOwn
/-
What C111 says of the objects that exist after a call: the value they show, and who owns them.
-/
namespace Duck
namespace ParseOwn

/-- The references in a cell -/
def cellHeld : Option (Nat × Obj) → List Nat
  | none => []
  | some c => c.2.held

/-- The number of references to an object in the objects that exist -/
def references (h : Heap) (i : Nat) : Nat := (h.flatMap cellHeld).count i

/-- From the object one gets to `i` by references. -/
inductive Reach (h : Heap) : Nat → Nat → Prop
  | here (i : Nat) : Reach h i i
  | step (i j k n : Nat) (o : Obj) : get h i = some (n, o) → j ∈ o.held → Reach h j k → Reach h i k

/-- Nothing is lost and nothing is owned too often or too rarely: what exists is found from the result `r`; an object has
    as many owners as there are references to it, the result one more (the pool); and no reference leads to nowhere. -/
structure Exact (h : Heap) (r : Ref) : Prop where
  found : ∀ i n o, get h i = some (n, o) → ∃ j ∈ r.ptrs, Reach h j i
  owners : ∀ i n o, get h i = some (n, o) → n = references h i + r.ptrs.count i
  there : ∀ i, 0 < references h i + r.ptrs.count i → ∃ n o, get h i = some (n, o)

/-- A string or number -/
def simple : Json.Json → Bool
  | .num _ | .vec _ _ _ | .str _ => true
  | _ => false

/-- The object at `r` shows the value. -/
inductive Val (h : Heap) : Ref → Json.Json → Prop
  | fixed (v : Json.Json) : Val h (.fixed v) v
  | leaf (i n : Nat) (v : Json.Json) : get h i = some (n, .leaf v) → simple v → Val h (.ptr i) v
  | list (i n : Nat) (l : List Ref) (vs : List Json.Json) : get h i = some (n, .list l) → l.length = vs.length →
      (∀ (j : Nat) r v, l[j]? = some r → vs[j]? = some v → Val h r v) → Val h (.ptr i) (.list vs)
  | dict (i n : Nat) (l : List (Bytes × Ref × Ref)) (vs : List (Bytes × Json.Json)) : get h i = some (n, .dict l) →
      l.map (·.1) = vs.map (·.1) → (∀ r, r ∈ l → Val h r.2.1 (.str r.1)) →
      (∀ (j : Nat) r v, l[j]? = some r → vs[j]? = some v → Val h r.2.2 v.2) → Val h (.ptr i) (.dict vs)

/-- The object at `r` shows the text or element. -/
inductive Shows (h : Heap) : Ref → Xml.Node → Prop
  | text (i n : Nat) (s : Bytes) : get h i = some (n, .leaf (.str s)) → Shows h (.ptr i) (.text s)
  | elem (i a b c n₁ n₂ n₃ n₄ : Nat) (name : Bytes) (attrs : List (Bytes × Bytes)) (kids : List Xml.Node)
      (rows : List (Bytes × Ref × Ref)) (l : List Ref) :
      get h i = some (n₁, .element (.ptr a) (.ptr b) (.ptr c)) → get h a = some (n₂, .leaf (.str name)) →
      get h b = some (n₃, .dict rows) → rows.map (·.1) = attrs.map (·.1) →
      (∀ (j : Nat) r p, rows[j]? = some r → attrs[j]? = some p → Val h r.2.1 (.str p.1) ∧ Val h r.2.2 (.str p.2)) →
      get h c = some (n₄, .list l) → l.length = kids.length →
      (∀ (j : Nat) r t, l[j]? = some r → kids[j]? = some t → Shows h r t) → Shows h (.ptr i) (.elem name attrs kids)

end ParseOwn
end Duck
