import Verif.Model.Foreach
import Verif.Spec.LinkedList
import Verif.Spec.BinaryTree
import Verif.Spec.HashTable
/-! What enumerating a collection means. -/
namespace Duck
namespace Foreach
open HTable (Policy)
variable {S C A Op : Type}

/-- The callback is called for the members in turn until it returns something other than 0: what is returned, the
    callback's context, and the members it was called for. -/
def visits (f : A → S → Int × S) : List A → S → Int × S × List A
  | [], s => (0, s, [])
  | a :: as, s =>
    if (f a s).1 ≠ 0 then ((f a s).1, (f a s).2, [a])
    else ((visits f as (f a s).2).1, (visits f as (f a s).2).2.1, a :: (visits f as (f a s).2).2.2)

/-- The callback, as far as it does not touch the collection `c`. -/
def plain (cb : Callback S C A Op) (c : C) : A → S → Int × S := fun a s => (cb a s c).2

/-- Each of the calls is as `ok` says, for the collection as it is when the call is made. -/
def Only (call : C → Op → Option C) (ok : C → Op → Prop) : C → List Op → Prop
  | _, [] => True
  | c, op :: ops => ok c op ∧ ∀ c', call c op = some c' → Only call ok c' ops

/-- For each of the keys in turn: if it is there now, the callback is called with it and the object it has now. -/
def eachKey {K V : Type} (call : C → Op → Option C) (cb : Callback S C (K × V) Op) (look : C → K → Option V) :
    List K → S → C → End S C (K × V)
  | [], s, c => .ret 0 s c []
  | k :: ks, s, c =>
    match look c k with
    | none => eachKey call cb look ks s c
    | some v => (visit call cb (k, v) s c).andThen (eachKey call cb look ks)

/-- Objects only go to the end of the array. -/
def Appends {V : Type} (vs : List V) (op : Replace V) : Prop := op.location = vs.length ∧ op.length = 0

/-- A call of the list that removes nothing; its location is a 64-bit number. -/
def Adds {V : Type} : ListCall V → Prop
  | .replace loc len _ => len = 0 ∧ loc < 2 ^ 63
  | .get _ => True
  | .reverse => False

/-- The nodes of a list from `p` on. -/
def nodes {V P : Type} (h : LList.Heap V P) : Nat → Option Nat → List Nat
  | 0, _ => []
  | _ + 1, none => []
  | n + 1, some a => a :: (match h a with | some x => nodes h n x.next | none => [])

/-- The position of a node in its list. -/
def position {V P : Type} (l : LList.LinkedList V P) (a : Nat) : Nat :=
  (nodes l.heap l.count.toNat l.first).findIdx (· = a)

/-- What the callback called for node `a` may do: only look, or remove just that node's entry. -/
def LooksOrRemoves {V P : Type} (l : LList.LinkedList V P) (a : Nat) (ops : List (ListCall V)) : Prop :=
  (∀ op ∈ ops, ∃ i, op = .get i) ∨ ops = [.replace (position l a) 1 []]

/-- A call of the table that adds no key: the object of a key that is there may be replaced. -/
def NoNewKey {K V : Type} (eqv : K → K → Bool) (t : HTable.Table K V) : HTable.Op K V → Prop
  | .insert k _ p => p = .ifFound ∨ HTable.has eqv (HTable.entries t.rows) k = true
  | _ => True

/-- The keys of a table, in the order of its rows. -/
def tableKeys {K V : Type} (t : HTable.Table K V) : List K := (HTable.entries t.rows).map (·.1)

/-- A call of the tree that adds no key. -/
def Replaces {K V : Type} (cmp : K → K → Int) (t : BTree.Node K V) (op : TreeInsert K V) : Prop :=
  op.policy = .ifFound ∨ BTree.find cmp op.key t ≠ none

/-- The keys of a tree, in the order of the enumeration of a tree that nobody changes. -/
def treeKeys {K V : Type} (t : BTree.Node K V) : List K := (BTree.contents ⟨t, 0⟩).map (·.1)

end Foreach
end Duck
