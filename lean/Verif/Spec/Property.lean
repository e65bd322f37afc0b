import Verif.Model.Property
/-! What property statements are about: callers that follow the ownership rules, and the histories of their calls. -/
namespace Duck
namespace Property

/-- The references held in the fields of the objects that exist. -/
def held (h : Heap) : List Id := h.flatMap fun c => match c with | some o => strongs o.fields | none => []

/-- Sensible classes: in a property table names and fields are not used twice, fields exist, and no property is both
    weak and copied. -/
def WellFormed (Γ : Classes) : Prop :=
  ∀ cls, (Γ.table cls).Pairwise (fun p q => p.name ≠ q.name ∧ p.offset ≠ q.offset) ∧
    ∀ p ∈ Γ.table cls, p.offset < Γ.size cls ∧ (p.weak = true → p.copy = false)

/-- An object the caller may use: it owns a reference or one is in the autorelease pool. -/
def Usable (s : State) (i : Id) : Prop := i ∈ s.client ∨ i ∈ s.pool

/-- The ownership rules: use only usable objects, release or autorelease only what you own; a class assigns fields
    that exist. -/
def Legal (Γ : Classes) (s : State) : Op → Prop
  | .alloc _ _ => True
  | .retain i => Usable s i
  | .release i => i ∈ s.client
  | .autorelease i => i ∈ s.client
  | .drain => True
  | .set i _ x => Usable s i ∧ ∀ y, x = some y → Usable s y
  | .get i _ => Usable s i
  | .assign i k x => Usable s i ∧ (∀ y, x = some y → Usable s y) ∧ ∀ o, live s.heap i = some o → k < Γ.size o.cls

/-- A history of calls that follow the rules. -/
inductive Run (Γ : Classes) : State → List Op → State → Prop
  | nil (s : State) : Run Γ s [] s
  | cons {s s1 s2 : State} {op : Op} {ops : List Op} {r : Option Id} : Legal Γ s op → step Γ s op = some (s1, r) → Run Γ s1 ops s2 →
      Run Γ s (op :: ops) s2

/-- Nothing allocated. -/
def start : State := ⟨[], [], []⟩

/-- The states a program can be in. -/
def Reachable (Γ : Classes) (s : State) : Prop := ∃ ops, Run Γ start ops s

/-- Does a call write the property `p` of object `i` (by its name, or as a field assigned by its class)? -/
def Writes (i : Id) (p : Definition) : Op → Prop
  | .set j name _ => j = i ∧ name = p.name
  | .assign j k _ => j = i ∧ k = p.offset
  | _ => False

/-- Follow a path of names: read each property of the object found so far; NULL has no properties. -/
inductive Follow (Γ : Classes) : State → Option Id → List Name → State → Option Id → Prop
  | done (s : State) (t : Option Id) : Follow Γ s t [] s t
  | next {s s1 s2 : State} {t t1 t2 : Option Id} {k : Name} {ks : List Name} : getProperty Γ s t k = some (s1, t1) →
      Follow Γ s1 t1 ks s2 t2 → Follow Γ s t (k :: ks) s2 t2

end Property
end Duck
