import Verif.Spec.Classes
namespace Duck
namespace Rt

/-! ### Tables -/

/-- Every cached interface is the one in the table. -/
def TOk (line : Nat → Nat) (t : Table) : Prop := ∀ n i, t.cache n = some i → line i.sel = n ∧ t.look i.sel = some i

theorem look_sel {t : Table} {sel : Nat} {i : Iface} (h : t.look sel = some i) : i.sel = sel := by
  have := List.find?_some h
  simpa using this

theorem look_put (t : Table) (i : Iface) (sel : Nat) : (t.put i).look sel = if i.sel = sel then some i else t.look sel := by
  unfold Table.put Table.look
  simp only [List.find?_cons]
  by_cases h : i.sel = sel
  · simp [h]
  · have hb : (i.sel == sel) = false := by simpa using h
    rw [hb, if_neg h]
    simp only
    rw [List.find?_filter]
    congr 1
    funext j
    by_cases hj : j.sel = sel
    · have : j.sel ≠ i.sel := by omega
      simp [hj, this]
      omega
    · simp [hj]

theorem find_fst {line : Nat → Nat} {t : Table} (ht : TOk line t) (sel : Nat) : (t.find line sel).1 = t.look sel := by
  unfold Table.find Table.search
  split
  · next i hc =>
    split
    · next hs => have := (ht _ _ hc).2; rw [hs] at this; exact this.symm
    · cases h : t.look sel <;> simp
  · cases h : t.look sel <;> simp

theorem find_look {line : Nat → Nat} {t : Table} (sel x : Nat) : ((t.find line sel).2).look x = t.look x := by
  unfold Table.find Table.search
  split
  · split
    · rfl
    · cases h : t.look sel <;> rfl
  · cases h : t.look sel <;> rfl

theorem search_ok {line : Nat → Nat} {t : Table} (ht : TOk line t) (sel : Nat) : TOk line (t.search line sel).2 := by
  unfold Table.search
  cases h : t.look sel with
  | none => exact ht
  | some e =>
      intro n i hc
      have hc' : (if n = line sel then some e else t.cache n) = some i := hc
      have hs := look_sel h
      split at hc'
      · next hn =>
        cases hc'
        exact ⟨by rw [hs, hn], by rw [hs]; exact h⟩
      · exact ht n i hc'

theorem find_ok {line : Nat → Nat} {t : Table} (ht : TOk line t) (sel : Nat) : TOk line (t.find line sel).2 := by
  unfold Table.find
  split
  · split
    · exact ht
    · exact search_ok ht sel
  · exact search_ok ht sel

theorem insert_look (line : Nat → Nat) (t : Table) (i : Iface) (sel : Nat) :
    (t.insert line i).look sel = if i.sel = sel then some i else t.look sel := by
  unfold Table.insert; rw [look_put]; rfl

theorem insert_ok {line : Nat → Nat} {t : Table} (ht : TOk line t) (i : Iface) : TOk line (t.insert line i) := by
  intro n j hc
  have hc' : (if n = line i.sel then some i else t.cache n) = some j := hc
  rw [insert_look]
  split at hc'
  · next hn => cases hc'; exact ⟨hn.symm, if_pos rfl⟩
  · next hn =>
    obtain ⟨h1, h2⟩ := ht n j hc'
    have : i.sel ≠ j.sel := fun h => hn (by rw [h, h1])
    exact ⟨h1, by rw [if_neg this]; exact h2⟩

theorem init_ok {line : Nat → Nat} {t : Table} (ht : TOk line t) : TOk line (Table.init (some t)) := by
  intro n i hc
  have hc' : (if n < staticLines then t.cache n else none) = some i := hc
  split at hc'
  · exact ht n i hc'
  · cases hc'

theorem init_look (t : Table) (sel : Nat) : (Table.init (some t)).look sel = t.look sel := rfl

theorem inherit_eq : ∀ (a b : List (Option Nat)), a.length = b.length →
    inherit a b = (a.zip b).map fun m => if m.1 = none then m.2 else m.1
  | [], [], _ => rfl
  | x :: a, y :: b, h => by
      simp only [inherit, List.zip_cons_cons, List.map_cons]
      rw [inherit_eq a b (by simpa using h)]
  | [], _ :: _, h => by simp at h
  | _ :: _, [], h => by simp at h

/-! ### Worlds -/

/-- The world represents the history. -/
structure WInv (line : Nat → Nat) (w₀ : World) (h : List Op) (w : World) : Prop where
  size : w.length = classes w₀ h
  super : ∀ (c : Nat) (k : Class), w[c]? = some k → k.super = superOf w₀ c h
  order : ∀ (c : Nat) (k : Class) (p : Nat), w[c]? = some k → k.super = some p → p < c
  inst : ∀ (c : Nat) (k : Class), w[c]? = some k → TOk line k.inst ∧ ∀ sel, k.inst.look sel = current w₀ h c sel
  cls : ∀ (c : Nat) (k : Class), w[c]? = some k → TOk line k.cls ∧ ∀ sel, k.cls.look sel = currentClass w₀ h c sel

theorem start_inv (line : Nat → Nat) {w₀ : World} (hs : Start w₀) : WInv line w₀ [] w₀ where
  size := rfl
  super c k hk := by simp [superOf, hk]
  order := hs.order
  inst c k hk := by
    refine ⟨fun n i hc => ?_, fun sel => ?_⟩
    · have := (hs.noCache k (List.mem_of_getElem? hk)).1 n
      rw [this] at hc; cases hc
    · simp [current, hk, Table.look]
  cls c k hk := by
    refine ⟨fun n i hc => ?_, fun sel => ?_⟩
    · have := (hs.noCache k (List.mem_of_getElem? hk)).2 n
      rw [this] at hc; cases hc
    · simp [currentClass, hk, Table.look]

theorem get_snoc {w : World} {x k : Class} {c : Nat} (h : (w ++ [x])[c]? = some k) :
    (c = w.length ∧ k = x) ∨ (c < w.length ∧ w[c]? = some k) := by
  by_cases hc : c < w.length
  · rw [List.getElem?_append_left hc] at h; exact Or.inr ⟨hc, h⟩
  · rw [List.getElem?_append_right (by omega)] at h
    by_cases h0 : c - w.length = 0
    · rw [h0] at h; cases h; exact Or.inl ⟨by omega, rfl⟩
    · have hn : ([x] : List Class)[c - w.length]? = none := List.getElem?_eq_none (by simp; omega)
      rw [hn] at h; cases h

theorem get_set {w : World} {x k : Class} {c d : Nat} (h : (w.set c x)[d]? = some k) : (d = c ∧ k = x) ∨ (d ≠ c ∧ w[d]? = some k) := by
  by_cases hc : c = d
  · subst hc
    rw [List.getElem?_set_self'] at h
    cases hw : w[c]? with
    | none => rw [hw] at h; cases h
    | some y => rw [hw] at h; cases h; exact Or.inl ⟨rfl, rfl⟩
  · rw [List.getElem?_set_ne hc] at h; exact Or.inr ⟨fun e => hc e.symm, h⟩

theorem classes_le (w₀ : World) (op : Op) (h : List Op) : classes w₀ h ≤ classes w₀ (op :: h) := by
  cases op <;> simp [classes]

/-- A call that only changes the caches of class `c`. -/
theorem WInv.touch {line : Nat → Nat} {w₀ : World} {h : List Op} {w : World} (hw : WInv line w₀ h w) {c : Nat} {k : Class} (hk : w[c]? = some k)
    (k' : Class) (hs : k'.super = k.super) (hi : TOk line k'.inst) (hil : ∀ sel, k'.inst.look sel = k.inst.look sel)
    (hc : TOk line k'.cls) (hcl : ∀ sel, k'.cls.look sel = k.cls.look sel) : WInv line w₀ h (w.set c k') where
  size := by rw [List.length_set]; exact hw.size
  super d x hx := by
    rcases get_set hx with ⟨rfl, rfl⟩ | ⟨_, hx⟩
    · rw [hs]; exact hw.super _ _ hk
    · exact hw.super _ _ hx
  order d x p hx hp := by
    rcases get_set hx with ⟨rfl, rfl⟩ | ⟨_, hx⟩
    · exact hw.order _ _ _ hk (by rw [← hs]; exact hp)
    · exact hw.order _ _ _ hx hp
  inst d x hx := by
    rcases get_set hx with ⟨rfl, rfl⟩ | ⟨_, hx⟩
    · exact ⟨hi, fun sel => by rw [hil]; exact (hw.inst _ _ hk).2 sel⟩
    · exact hw.inst _ _ hx
  cls d x hx := by
    rcases get_set hx with ⟨rfl, rfl⟩ | ⟨_, hx⟩
    · exact ⟨hc, fun sel => by rw [hcl]; exact (hw.cls _ _ hk).2 sel⟩
    · exact hw.cls _ _ hx

theorem bind_ok {ε α β : Type} {x : Except ε α} {f : α → Except ε β} {b : β} (h : x.bind f = .ok b) : ∃ a, x = .ok a ∧ f a = .ok b := by
  cases x with
  | error e => cases h
  | ok a => exact ⟨a, rfl, h⟩

/-- Inserting `i` in the instance table of `c`, when the history says so. -/
theorem WInv.put {line : Nat → Nat} {w₀ : World} {h : List Op} {w : World} (hw : WInv line w₀ h w) {c : Nat} {k : Class} (hk : w[c]? = some k)
    (i : Iface) (op : Op) (h1 : classes w₀ (op :: h) = classes w₀ h) (h2 : ∀ d, superOf w₀ d (op :: h) = superOf w₀ d h)
    (h3 : ∀ d sel, currentClass w₀ (op :: h) d sel = currentClass w₀ h d sel)
    (h4 : ∀ d sel, current w₀ (op :: h) d sel = if c = d ∧ i.sel = sel then some i else current w₀ h d sel) :
    WInv line w₀ (op :: h) (w.set c { k with inst := k.inst.insert line i }) where
  size := by rw [List.length_set, h1]; exact hw.size
  super d x hx := by
    rw [h2]
    rcases get_set hx with ⟨rfl, rfl⟩ | ⟨_, hx⟩
    · exact (hw.super d k hk :)
    · exact hw.super _ _ hx
  order d x p hx hp := by
    rcases get_set hx with ⟨rfl, rfl⟩ | ⟨_, hx⟩
    · exact hw.order _ _ _ hk hp
    · exact hw.order _ _ _ hx hp
  inst d x hx := by
    rcases get_set hx with ⟨rfl, rfl⟩ | ⟨hd, hx⟩
    · refine ⟨insert_ok (hw.inst _ _ hk).1 i, fun sel => ?_⟩
      rw [h4, insert_look, (hw.inst _ _ hk).2 sel]
      by_cases hs : i.sel = sel <;> simp [hs]
    · refine ⟨(hw.inst _ _ hx).1, fun sel => ?_⟩
      rw [h4, if_neg (fun h => hd h.1.symm)]; exact (hw.inst _ _ hx).2 sel
  cls d x hx := by
    rcases get_set hx with ⟨rfl, rfl⟩ | ⟨_, hx⟩
    · exact ⟨(hw.cls _ _ hk).1, fun sel => by rw [h3]; exact (hw.cls _ _ hk).2 sel⟩
    · exact ⟨(hw.cls _ _ hx).1, fun sel => by rw [h3]; exact (hw.cls _ _ hx).2 sel⟩

theorem step_inv {line : Nat → Nat} {w₀ : World} {h : List Op} {w w' : World} (hw : WInv line w₀ h w) (op : Op) (he : step line w op = .ok w') :
    WInv line w₀ (op :: h) w' := by
  cases op with
  | newClass p o =>
      have hsz := hw.size
      cases p with
      | none =>
          simp only [step, newClass] at he
          cases he
          refine ⟨by simp [classes, hsz], fun c k hk => ?_, fun c k p hk hp => ?_, fun c k hk => ?_, fun c k hk => ?_⟩
          · rcases get_snoc hk with ⟨rfl, rfl⟩ | ⟨hc, hk⟩
            · simp [superOf, hsz]
            · simp only [superOf]; rw [if_neg (by omega)]; exact hw.super _ _ hk
          · rcases get_snoc hk with ⟨rfl, rfl⟩ | ⟨hc, hk⟩
            · cases hp
            · exact hw.order _ _ _ hk hp
          · rcases get_snoc hk with ⟨rfl, rfl⟩ | ⟨hc, hk⟩
            · refine ⟨fun n i hc => (nomatch hc), fun sel => ?_⟩
              simp [current, hsz, Table.init, Table.look]
            · refine ⟨(hw.inst _ _ hk).1, fun sel => ?_⟩
              simp only [current]; rw [if_neg (by omega)]; exact (hw.inst _ _ hk).2 sel
          · rcases get_snoc hk with ⟨rfl, rfl⟩ | ⟨hc, hk⟩
            · refine ⟨fun n i hc => (nomatch hc), fun sel => ?_⟩
              simp [currentClass, hsz, Table.init, Table.look]
            · refine ⟨(hw.cls _ _ hk).1, fun sel => ?_⟩
              simp only [currentClass]; rw [if_neg (by omega)]; exact (hw.cls _ _ hk).2 sel
      | some p =>
          simp only [step, newClass] at he
          cases hp : w[p]? with
          | none => rw [hp] at he; cases he
          | some c₀ =>
              rw [hp] at he
              simp only at he
              split at he
              · cases he
              · cases he
                have hpl : p < w.length := by
                  have := (List.getElem?_eq_some_iff.mp hp).1; exact this
                refine ⟨by simp [classes, hsz], fun c k hk => ?_, fun c k q hk hq => ?_, fun c k hk => ?_, fun c k hk => ?_⟩
                · rcases get_snoc hk with ⟨rfl, rfl⟩ | ⟨hc, hk⟩
                  · simp [superOf, hsz]
                  · simp only [superOf]; rw [if_neg (by omega)]; exact hw.super _ _ hk
                · rcases get_snoc hk with ⟨rfl, rfl⟩ | ⟨hc, hk⟩
                  · cases hq; exact hpl
                  · exact hw.order _ _ _ hk hq
                · rcases get_snoc hk with ⟨rfl, rfl⟩ | ⟨hc, hk⟩
                  · refine ⟨init_ok (hw.inst _ _ hp).1, fun sel => ?_⟩
                    simp only [current]; rw [if_pos hsz, init_look]; exact (hw.inst _ _ hp).2 sel
                  · refine ⟨(hw.inst _ _ hk).1, fun sel => ?_⟩
                    simp only [current]; rw [if_neg (by omega)]; exact (hw.inst _ _ hk).2 sel
                · rcases get_snoc hk with ⟨rfl, rfl⟩ | ⟨hc, hk⟩
                  · refine ⟨init_ok (hw.cls _ _ hp).1, fun sel => ?_⟩
                    simp only [currentClass]; rw [if_pos hsz, init_look]; exact (hw.cls _ _ hp).2 sel
                  · refine ⟨(hw.cls _ _ hk).1, fun sel => ?_⟩
                    simp only [currentClass]; rw [if_neg (by omega)]; exact (hw.cls _ _ hk).2 sel
  | installRaw c i =>
      simp only [step, installRaw] at he
      cases hk : w[c]? with
      | none => rw [hk] at he; cases he
      | some k =>
          rw [hk] at he; cases he
          exact hw.put hk i _ rfl (fun _ => rfl) (fun _ _ => rfl) (fun _ _ => rfl)
  | installClass c i =>
      simp only [step, installClass] at he
      cases hk : w[c]? with
      | none => rw [hk] at he; cases he
      | some k =>
          rw [hk] at he; cases he
          refine ⟨by rw [List.length_set]; exact hw.size, fun d x hx => ?_, fun d x p hx hp => ?_, fun d x hx => ?_, fun d x hx => ?_⟩
          · rcases get_set hx with ⟨rfl, rfl⟩ | ⟨_, hx⟩
            · exact (hw.super d k hk :)
            · exact hw.super _ _ hx
          · rcases get_set hx with ⟨rfl, rfl⟩ | ⟨_, hx⟩
            · exact hw.order _ _ _ hk hp
            · exact hw.order _ _ _ hx hp
          · rcases get_set hx with ⟨rfl, rfl⟩ | ⟨_, hx⟩
            · exact (hw.inst d k hk :)
            · exact hw.inst _ _ hx
          · rcases get_set hx with ⟨rfl, rfl⟩ | ⟨hd, hx⟩
            · refine ⟨insert_ok (hw.cls _ _ hk).1 i, fun sel => ?_⟩
              simp only [currentClass]
              rw [insert_look, (hw.cls _ _ hk).2 sel]
              by_cases hs : i.sel = sel <;> simp [hs]
            · refine ⟨(hw.cls _ _ hx).1, fun sel => ?_⟩
              simp only [currentClass]
              rw [if_neg (fun h => hd h.1.symm)]; exact (hw.cls _ _ hx).2 sel
  | query c sel =>
      simp only [step, query] at he
      cases hk : w[c]? with
      | none => rw [hk] at he; cases he
      | some k =>
          rw [hk] at he; cases he
          have := hw.touch hk { k with inst := (k.inst.find line sel).2 } rfl (find_ok (hw.inst _ _ hk).1 sel) (fun x => find_look sel x)
            (hw.cls _ _ hk).1 (fun _ => rfl)
          exact ⟨this.size, this.super, this.order, this.inst, this.cls⟩
  | queryClass c sel =>
      simp only [step, queryClass] at he
      cases hk : w[c]? with
      | none => rw [hk] at he; cases he
      | some k =>
          rw [hk] at he; cases he
          have := hw.touch hk { k with cls := (k.cls.find line sel).2 } rfl (hw.inst _ _ hk).1 (fun _ => rfl)
            (find_ok (hw.cls _ _ hk).1 sel) (fun x => find_look sel x)
          exact ⟨this.size, this.super, this.order, this.inst, this.cls⟩
  | install c i =>
      simp only [step, install] at he
      cases hk : w[c]? with
      | none => rw [hk] at he; cases he
      | some k =>
          rw [hk] at he
          simp only at he
          cases hp : k.super with
          | none => rw [hp] at he; cases he
          | some p =>
              rw [hp] at he
              simp only at he
              obtain ⟨⟨i', w1⟩, h1, h2⟩ := bind_ok he
              simp only at h2
              have hpc := hw.order _ _ _ hk hp
              unfold inheritMethods at h1
              cases hkp : w[p]? with
              | none => rw [hkp] at h1; cases h1
              | some kp =>
                  rw [hkp] at h1
                  simp only at h1
                  have hlook := find_fst (hw.inst _ _ hkp).1 i.sel
                  rw [(hw.inst _ _ hkp).2 i.sel] at hlook
                  have hsup := hw.super _ _ hk
                  rw [hp] at hsup
                  have hw1 := hw.touch hkp { kp with inst := (kp.inst.find line i.sel).2 } rfl (find_ok (hw.inst _ _ hkp).1 i.sel) (fun x => find_look i.sel x)
                    (hw.cls _ _ hkp).1 (fun _ => rfl)
                  -- the interface installed is the filled one
                  have key : i' = filled i (current w₀ h p i.sel) ∧ w1 = w.set p { kp with inst := (kp.inst.find line i.sel).2 } := by
                    rw [← hlook]
                    cases hf : (kp.inst.find line i.sel).1 with
                    | none => rw [hf] at h1; cases h1; exact ⟨rfl, rfl⟩
                    | some s =>
                        rw [hf] at h1
                        simp only at h1
                        split at h1
                        · next hl => cases h1; exact ⟨by simp only [filled]; rw [inherit_eq _ _ hl], rfl⟩
                        · cases h1
                  obtain ⟨rfl, rfl⟩ := key
                  have hsel : (filled i (current w₀ h p i.sel)).sel = i.sel := by
                    unfold filled; split <;> rfl
                  have hk1 : (w.set p { kp with inst := (kp.inst.find line i.sel).2 })[c]? = some k := by
                    rw [List.getElem?_set_ne (by omega)]; exact hk
                  unfold installRaw at h2
                  rw [hk1] at h2
                  cases h2
                  refine hw1.put hk1 _ _ rfl (fun _ => rfl) (fun _ _ => rfl) (fun d sel => ?_)
                  simp only [current]
                  by_cases hc : c = d ∧ i.sel = sel
                  · obtain ⟨rfl, rfl⟩ := hc
                    rw [if_pos ⟨rfl, rfl⟩, if_pos ⟨rfl, hsel⟩, ← hsup]; rfl
                  · rw [if_neg hc, if_neg (by rw [hsel]; exact hc)]

theorem run_inv {line : Nat → Nat} {w₀ : World} (hs : Start w₀) : ∀ {h : List Op} {w : World}, run line w₀ h = .ok w → WInv line w₀ h w
  | [], w, he => by cases he; exact start_inv line hs
  | op :: h, w, he => by
      obtain ⟨w1, h1, h2⟩ := bind_ok he
      exact step_inv (run_inv hs h1) op h2

/-! ### Chains -/

theorem told_set {w : World} {c : Nat} {k k' : Class} (hk : w[c]? = some k) (h : k'.told = k.told) : (w.set c k').map Class.told = w.map Class.told := by
  rw [List.map_set, h]
  refine List.ext_getElem? fun n => ?_
  by_cases hn : c = n
  · subst hn
    rw [List.getElem?_set_self']
    simp [hk]
  · rw [List.getElem?_set_ne hn]

theorem step_told {line : Nat → Nat} {w₀ : World} {h : List Op} {w w' : World} (hw : w.map Class.told = told w₀ h) (op : Op) (he : step line w op = .ok w') :
    w'.map Class.told = told w₀ (op :: h) := by
  have raw : ∀ {w w' : World} {c : Nat} {i : Iface}, installRaw line w c i = .ok w' → w'.map Class.told = w.map Class.told := by
    intro w w' c i he
    unfold installRaw at he
    cases hk : w[c]? with
    | none => rw [hk] at he; cases he
    | some k => rw [hk] at he; cases he; exact told_set hk rfl
  cases op with
  | newClass p o =>
      simp only [step, newClass] at he
      cases p with
      | none => cases he; simp [told, hw, Class.told]
      | some p =>
          simp only at he
          cases hp : w[p]? with
          | none => rw [hp] at he; cases he
          | some c₀ =>
              rw [hp] at he
              simp only at he
              split at he
              · cases he
              · cases he; simp [told, hw, Class.told]
  | installRaw c i => simp only [step] at he; rw [raw he]; exact hw
  | installClass c i =>
      simp only [step, installClass] at he
      cases hk : w[c]? with
      | none => rw [hk] at he; cases he
      | some k => rw [hk] at he; cases he; exact (told_set hk (by rfl)).trans hw
  | query c sel =>
      simp only [step, query] at he
      cases hk : w[c]? with
      | none => rw [hk] at he; cases he
      | some k => rw [hk] at he; cases he; exact (told_set hk (by rfl)).trans hw
  | queryClass c sel =>
      simp only [step, queryClass] at he
      cases hk : w[c]? with
      | none => rw [hk] at he; cases he
      | some k => rw [hk] at he; cases he; exact (told_set hk (by rfl)).trans hw
  | install c i =>
      simp only [step, install] at he
      cases hk : w[c]? with
      | none => rw [hk] at he; cases he
      | some k =>
          rw [hk] at he
          simp only at he
          cases hp : k.super with
          | none => rw [hp] at he; cases he
          | some p =>
              rw [hp] at he
              simp only at he
              obtain ⟨⟨i', w1⟩, h1, h2⟩ := bind_ok he
              rw [raw h2]
              unfold inheritMethods at h1
              cases hkp : w[p]? with
              | none => rw [hkp] at h1; cases h1
              | some kp =>
                  rw [hkp] at h1
                  simp only at h1
                  have : w1 = w.set p { kp with inst := (kp.inst.find line i.sel).2 } := by
                    cases hf : (kp.inst.find line i.sel).1 with
                    | none => rw [hf] at h1; cases h1; rfl
                    | some s =>
                        rw [hf] at h1
                        simp only at h1
                        split at h1
                        · cases h1; rfl
                        · cases h1
                  rw [this]
                  show (w.set p _).map Class.told = _
                  exact (told_set hkp (by rfl)).trans hw

theorem run_told {line : Nat → Nat} {w₀ : World} : ∀ {h : List Op} {w : World}, run line w₀ h = .ok w → w.map Class.told = told w₀ h
  | [], w, he => by cases he; rfl
  | op :: h, w, he => by
      obtain ⟨w1, h1, h2⟩ := bind_ok he
      exact step_told (run_told h1) op h2

/-- No class has a sealed superclass. -/
def Open (w : World) : Prop := ∀ (c p : Nat) (k kp : Class), w[c]? = some k → k.super = some p → w[p]? = some kp → kp.sealed = false

theorem open_of_told {w w' : World} (ho : Open w) (h : w'.map Class.told = w.map Class.told) : Open w' := by
  have key : ∀ (c : Nat) (k : Class), w'[c]? = some k → ∃ k', w[c]? = some k' ∧ k'.told = k.told := by
    intro c k hk
    have h1 : (w'.map Class.told)[c]? = some k.told := by simp [hk]
    rw [h] at h1
    simpa using h1
  intro c p k kp hk hp hkp
  obtain ⟨k', h1, h2⟩ := key c k hk
  obtain ⟨kp', h3, h4⟩ := key p kp hkp
  simp only [Class.told, Prod.mk.injEq, Opts.mk.injEq] at h2 h4
  have := ho c p k' kp' h1 (by rw [h2.1]; exact hp) h3
  rw [← h4.2.2.2.1]; exact this

theorem run_open {line : Nat → Nat} {w₀ : World} (ho : Open w₀)
    (hs : Start w₀) : ∀ {h : List Op} {w : World}, run line w₀ h = .ok w → Open w
  | [], w, he => by cases he; exact ho
  | op :: h, w, he => by
      obtain ⟨w1, h1, h2⟩ := bind_ok he
      have ih := run_open ho hs h1
      have inv := run_inv hs h1
      have ht := run_told h1
      have ht' := step_told ht op h2
      cases op with
      | newClass p o =>
          simp only [step, newClass] at h2
          cases p with
          | none =>
              cases h2
              intro c q k kq hk hq hkq
              rcases get_snoc hk with ⟨rfl, rfl⟩ | ⟨hc, hk⟩
              · cases hq
              · have hqc := inv.order _ _ _ hk hq
                rcases get_snoc hkq with ⟨rfl, _⟩ | ⟨_, hkq⟩
                · omega
                · exact ih _ _ _ _ hk hq hkq
          | some p =>
              simp only at h2
              cases hp : w1[p]? with
              | none => rw [hp] at h2; cases h2
              | some c₀ =>
                  rw [hp] at h2
                  simp only at h2
                  split at h2
                  · cases h2
                  · next hsealed =>
                    cases h2
                    have hpl : p < w1.length := (List.getElem?_eq_some_iff.mp hp).1
                    intro c q k kq hk hq hkq
                    rcases get_snoc hk with ⟨rfl, rfl⟩ | ⟨hc, hk⟩
                    · cases hq
                      rcases get_snoc hkq with ⟨h', _⟩ | ⟨_, hkq⟩
                      · omega
                      · rw [hp] at hkq; cases hkq; simpa using hsealed
                    · have hqc := inv.order _ _ _ hk hq
                      rcases get_snoc hkq with ⟨rfl, _⟩ | ⟨_, hkq⟩
                      · omega
                      · exact ih _ _ _ _ hk hq hkq
      | install c i => exact open_of_told ih (ht'.trans (by simp only [told]; exact ht.symm))
      | installRaw c i => exact open_of_told ih (ht'.trans (by simp only [told]; exact ht.symm))
      | installClass c i => exact open_of_told ih (ht'.trans (by simp only [told]; exact ht.symm))
      | query c sel => exact open_of_told ih (ht'.trans (by simp only [told]; exact ht.symm))
      | queryClass c sel => exact open_of_told ih (ht'.trans (by simp only [told]; exact ht.symm))

theorem chain_exists {w : World} (ho : ∀ (c : Nat) (k : Class) (p : Nat), w[c]? = some k → k.super = some p → p < c) (c : Nat) (hc : c < w.length) :
    ∃ l, Chain w c l ∧ l.length ≤ c + 1 := by
  induction c using Nat.strongRecOn with
  | _ c ih =>
      have hk : w[c]? = some w[c] := List.getElem?_eq_getElem hc
      cases hs : w[c].super with
      | none => exact ⟨_, .root hk hs, by simp⟩
      | some p =>
          have hp := ho c _ p hk hs
          obtain ⟨l, hl, hn⟩ := ih p hp (by omega)
          exact ⟨_, .cons hk hs hl, by simp; omega⟩

theorem finalizeLoop_chain {w : World} {c : Nat} {l : List Class} (h : Chain w c l) : ∀ n, l.length ≤ n →
    finalizeLoop w n (some c) = some (l.filterMap (·.finalize)) := by
  induction h with
  | @root c k hk hs =>
      intro n hn
      obtain ⟨n, rfl⟩ : ∃ m, n = m + 1 := ⟨n - 1, by simp at hn; omega⟩
      unfold finalizeLoop
      rw [hk]
      simp only [Option.bind_some]
      rw [hs]
      unfold finalizeLoop
      cases hf : k.finalize <;> simp [hf]
  | @cons c p k l hk hs hl ih =>
      intro n hn
      obtain ⟨n, rfl⟩ : ∃ m, n = m + 1 := ⟨n - 1, by simp at hn; omega⟩
      unfold finalizeLoop
      rw [hk]
      simp only [Option.bind_some]
      rw [hs, ih n (by simp at hn; omega)]
      cases hf : k.finalize <;> simp [hf]

theorem initLoop_chain {w : World} {c : Nat} {l : List Class} (h : Chain w c l) : ∀ n, l.length ≤ n →
    initLoop w n (some c) = some (firstInit l) := by
  induction h with
  | @root c k hk hs =>
      intro n hn
      obtain ⟨n, rfl⟩ : ∃ m, n = m + 1 := ⟨n - 1, by simp at hn; omega⟩
      unfold initLoop firstInit
      rw [hk]
      simp only [Option.bind_some]
      cases hf : k.init with
      | some f => rfl
      | none =>
          simp only
          split
          · rfl
          · rw [hs]; unfold initLoop firstInit; rfl
  | @cons c p k l hk hs hl ih =>
      intro n hn
      obtain ⟨n, rfl⟩ : ∃ m, n = m + 1 := ⟨n - 1, by simp at hn; omega⟩
      unfold initLoop firstInit
      rw [hk]
      simp only [Option.bind_some]
      cases hf : k.init with
      | some f => rfl
      | none =>
          simp only
          split
          · rfl
          · rw [hs, ih n (by simp at hn; omega)]

theorem kindLoop_chain {w : World} {c : Nat} {l : List Class} (h : Chain w c l) (d : Option Nat) : ∀ n, l.length ≤ n →
    ∃ b, kindLoop w d n (some c) = some b ∧ (b = true ↔ ∃ t, d = some t ∧ Ancestor w c t) := by
  induction h with
  | @root c k hk hs =>
      intro n hn
      obtain ⟨n, rfl⟩ : ∃ m, n = m + 1 := ⟨n - 1, by simp at hn; omega⟩
      unfold kindLoop
      rw [hk]
      simp only [Option.bind_some]
      by_cases hd : d = some c
      · rw [if_pos hd]; exact ⟨true, rfl, by simp only [true_iff]; exact ⟨c, hd, .refl hk⟩⟩
      · rw [if_neg hd, hs]
        unfold kindLoop
        refine ⟨false, rfl, ?_⟩
        simp only [Bool.false_eq_true, false_iff]
        rintro ⟨t, ht, ha⟩
        cases ha with
        | refl _ => exact hd ht
        | up h1 h2 _ => rw [hk] at h1; cases h1; rw [hs] at h2; cases h2
  | @cons c p k l hk hs hl ih =>
      intro n hn
      obtain ⟨n, rfl⟩ : ∃ m, n = m + 1 := ⟨n - 1, by simp at hn; omega⟩
      unfold kindLoop
      rw [hk]
      simp only [Option.bind_some]
      by_cases hd : d = some c
      · rw [if_pos hd]; exact ⟨true, rfl, by simp only [true_iff]; exact ⟨c, hd, .refl hk⟩⟩
      · rw [if_neg hd, hs]
        obtain ⟨b, h1, h2⟩ := ih n (by simp at hn; omega)
        refine ⟨b, h1, h2.trans ⟨fun ⟨t, ht, ha⟩ => ⟨t, ht, .up hk hs ha⟩, ?_⟩⟩
        rintro ⟨t, ht, ha⟩
        cases ha with
        | refl _ => exact absurd ht hd
        | up h1 h2 h3 => rw [hk] at h1; cases h1; rw [hs] at h2; cases h2; exact ⟨t, ht, h3⟩

theorem Ancestor.le {w : World} (ho : ∀ (c : Nat) (k : Class) (p : Nat), w[c]? = some k → k.super = some p → p < c) {c d : Nat}
    (h : Ancestor w c d) : d ≤ c := by
  induction h with
  | refl _ => exact Nat.le_refl _
  | up h1 h2 _ ih => have := ho _ _ _ h1 h2; omega

theorem Ancestor.trans {w : World} {a b c : Nat} (h1 : Ancestor w a b) (h2 : Ancestor w b c) : Ancestor w a c := by
  induction h1 with
  | refl _ => exact h2
  | up e s _ ih => exact .up e s (ih h2)

/-! ### The unchecked lookup -/

/-- Cache line `n` always holds the interface for selector `s`, the only one on that line. -/
def SInv (line : Nat → Nat) (n s : Nat) (t : Table) : Prop := t.cache n = t.look s ∧ ∀ x, x ≠ s → line x = n → t.look x = none

theorem SInv.find {line : Nat → Nat} {n s : Nat} {t : Table} (h : SInv line n s t) (x : Nat) : SInv line n s (t.find line x).2 := by
  refine ⟨?_, fun y hy hn => by rw [find_look]; exact h.2 y hy hn⟩
  rw [find_look]
  have hsearch : ((t.search line x).2).cache n = t.look s := by
    unfold Table.search
    cases hx : t.look x with
    | none => exact h.1
    | some e =>
        show (if n = line x then some e else t.cache n) = _
        split
        · next hn =>
          by_cases hs : x = s
          · rw [← hs, hx]
          · have := h.2 x hs hn.symm; rw [hx] at this; cases this
        · exact h.1
  unfold Table.find
  split
  · split
    · exact h.1
    · exact hsearch
  · exact hsearch

theorem SInv.insert {line : Nat → Nat} {n s : Nat} (hl : line s = n) {t : Table} (h : SInv line n s t) (i : Iface) (hi : line i.sel = n → i.sel = s) :
    SInv line n s (t.insert line i) := by
  refine ⟨?_, fun y hy hn => ?_⟩
  · rw [insert_look]
    show (if n = line i.sel then some i else t.cache n) = _
    by_cases hs : i.sel = s
    · rw [if_pos hs, if_pos (by rw [hs, hl])]
    · rw [if_neg hs, if_neg (fun e => hs (hi e.symm))]; exact h.1
  · rw [insert_look, if_neg]
    · exact h.2 y hy hn
    · rintro rfl; exact hy (hi hn)

theorem SInv.init {line : Nat → Nat} {n s : Nat} (hn : n < staticLines) {t : Table} (h : SInv line n s t) : SInv line n s (Table.init (some t)) := by
  refine ⟨?_, h.2⟩
  show (if n < staticLines then t.cache n else none) = _
  rw [if_pos hn]; exact h.1

theorem step_sinv {line : Nat → Nat} {n s : Nat} (hl : line s = n) (hn : n < staticLines) {w w' : World} (op : Op)
    (hw : ∀ k ∈ w, SInv line n s k.inst) (ho : OnlyOn line n s [op]) (he : step line w op = .ok w') :
    ∀ k ∈ w', SInv line n s k.inst := by
  have memset : ∀ {w : World} {c : Nat} {x : Class}, (∀ k ∈ w, SInv line n s k.inst) → SInv line n s x.inst → ∀ k ∈ w.set c x, SInv line n s k.inst := by
    intro w c x hw hx k hk
    rcases List.mem_or_eq_of_mem_set hk with h | rfl
    · exact hw k h
    · exact hx
  have raw : ∀ {w w' : World} {c : Nat} {i : Iface}, (∀ k ∈ w, SInv line n s k.inst) → (line i.sel = n → i.sel = s) →
      installRaw line w c i = .ok w' → ∀ k ∈ w', SInv line n s k.inst := by
    intro w w' c i hw hi he
    unfold installRaw at he
    cases hk : w[c]? with
    | none => rw [hk] at he; cases he
    | some k =>
        rw [hk] at he; cases he
        exact memset hw ((hw k (List.mem_of_getElem? hk)).insert hl i hi)
  cases op with
  | newClass p o =>
      simp only [step, newClass] at he
      cases p with
      | none =>
          cases he
          intro k hk
          rcases List.mem_append.mp hk with hk | hk
          · exact hw k hk
          · rw [List.mem_singleton] at hk; subst hk
            exact ⟨rfl, fun _ _ _ => rfl⟩
      | some p =>
          simp only at he
          cases hp : w[p]? with
          | none => rw [hp] at he; cases he
          | some c₀ =>
              rw [hp] at he
              simp only at he
              split at he
              · cases he
              · cases he
                intro k hk
                rcases List.mem_append.mp hk with hk | hk
                · exact hw k hk
                · rw [List.mem_singleton] at hk; subst hk
                  exact (hw c₀ (List.mem_of_getElem? hp)).init hn
  | installRaw c i => exact raw hw (ho.2 c i (by simp)) he
  | installClass c i =>
      simp only [step, installClass] at he
      cases hk : w[c]? with
      | none => rw [hk] at he; cases he
      | some k => rw [hk] at he; cases he; exact memset hw (hw k (List.mem_of_getElem? hk))
  | query c sel =>
      simp only [step, query] at he
      cases hk : w[c]? with
      | none => rw [hk] at he; cases he
      | some k => rw [hk] at he; cases he; exact memset hw ((hw k (List.mem_of_getElem? hk)).find sel)
  | queryClass c sel =>
      simp only [step, queryClass] at he
      cases hk : w[c]? with
      | none => rw [hk] at he; cases he
      | some k => rw [hk] at he; cases he; exact memset hw (hw k (List.mem_of_getElem? hk))
  | install c i =>
      simp only [step, install] at he
      cases hk : w[c]? with
      | none => rw [hk] at he; cases he
      | some k =>
          rw [hk] at he
          simp only at he
          cases hp : k.super with
          | none => rw [hp] at he; cases he
          | some p =>
              rw [hp] at he
              simp only at he
              obtain ⟨⟨i', w1⟩, h1, h2⟩ := bind_ok he
              unfold inheritMethods at h1
              cases hkp : w[p]? with
              | none => rw [hkp] at h1; cases h1
              | some kp =>
                  rw [hkp] at h1
                  simp only at h1
                  have : i'.sel = i.sel ∧ w1 = w.set p { kp with inst := (kp.inst.find line i.sel).2 } := by
                    cases hf : (kp.inst.find line i.sel).1 with
                    | none => rw [hf] at h1; cases h1; exact ⟨rfl, rfl⟩
                    | some s =>
                        rw [hf] at h1
                        simp only at h1
                        split at h1
                        · cases h1; exact ⟨rfl, rfl⟩
                        · cases h1
                  refine raw (i := i') ?_ (by rw [this.1]; exact ho.1 c i (by simp)) h2
                  rw [this.2]
                  exact memset hw ((hw kp (List.mem_of_getElem? hkp)).find i.sel)

theorem run_sinv {line : Nat → Nat} {n s : Nat} (hl : line s = n) (hn : n < staticLines) {w₀ : World} (hs : Start w₀)
    (hempty : ∀ k ∈ w₀, ∀ i ∈ k.inst.entries, line i.sel ≠ n) :
    ∀ {h : List Op} {w : World}, OnlyOn line n s h → run line w₀ h = .ok w → ∀ k ∈ w, SInv line n s k.inst
  | [], w, _, he => by
      cases he
      intro k hk
      have hnone : ∀ x, line x = n → k.inst.look x = none := by
        intro x hx
        unfold Table.look
        rw [List.find?_eq_none]
        intro i hi hsel
        exact hempty k hk i hi (by rw [← hx]; congr 1; simpa using hsel)
      exact ⟨by rw [(hs.noCache k hk).1, hnone s hl], fun x _ hx => hnone x hx⟩
  | op :: h, w, ho, he => by
      obtain ⟨w1, h1, h2⟩ := bind_ok he
      refine step_sinv hl hn op (run_sinv hl hn hs hempty ⟨fun c i hm => ho.1 c i (by simp [hm]), fun c i hm => ho.2 c i (by simp [hm])⟩ h1)
        ⟨fun c i hm => ho.1 c i (by simp only [List.mem_singleton] at hm; simp [hm]), fun c i hm => ho.2 c i (by simp only [List.mem_singleton] at hm; simp [hm])⟩ h2

end Rt
end Duck
