import Verif.Model.LinkedList
import Verif.Model.BinaryTree
import Verif.Model.HashTable
/-! Several threads read the same collection at the same time, and none changes it: DKLinkedListGetObjectAtIndex (Source/DKLinkedList.c
    677-697) with MoveCursor (323-376), which moves the cursor kept in the list; DKLinkedListApplyFunction (950-968), which does not use
    it; FindNode of binary trees (Source/DKBinaryTree.c 464-483); Find of hash tables (Source/DKGenericHashTable.c 268-330).
    Every statement of MoveCursor that uses the cursor is one step, and the steps of the threads come in any order.  Simplified: memory
    is sequentially consistent and a statement is not interrupted (the machine may do worse: these are data races). -/
namespace Duck
namespace Readers
open LList (Heap LinkedList deref)
variable {V P : Type}

/-- struct DKLinkedListCursor (DKLinkedList.c 52-56), the only part of a list that reading writes. -/
structure Cursor where
  node : Option Nat
  index : Int
deriving DecidableEq

/-- A call of DKLinkedListGetObjectAtIndex with the index `i` of an object of the list (DKCheckIndex refuses the others, 691-693), before
    the statement of the given line. -/
inductive Pc (V : Type) where
  /-- `if( index > list->cursor.index )` (331-336) -/
  | enter (i : Int)
  /-- the loop 338-339, with `k` iterations to go -/
  | forward (i : Int) (k : Nat)
  /-- `list->cursor.node = list->last` (344); `k` is distFromBack -/
  | toLast (i : Int) (k : Nat)
  /-- the loop 346-347 -/
  | fromLast (i : Int) (k : Nat)
  /-- `if( index < list->cursor.index )` (351-356) -/
  | again (i : Int)
  /-- the loop 358-359 -/
  | backward (i : Int) (k : Nat)
  /-- `list->cursor.node = list->first` (364); `k` is distFromFront -/
  | toFirst (i : Int) (k : Nat)
  /-- the loop 366-367 -/
  | fromFirst (i : Int) (k : Nat)
  /-- `list->cursor.index = index` (371) -/
  | store (i : Int)
  /-- `return list->cursor.node` (375) -/
  | load
  /-- `return node->object` (695) -/
  | object (p : Option Nat)
  /-- the call has returned -/
  | done (v : V)
  /-- NULL was followed -/
  | crash
deriving DecidableEq

/-- One statement.  The links of the list `l` do not change; `c` is its cursor. -/
def step (l : LinkedList V P) (c : Cursor) : Pc V → Cursor × Pc V
  | .enter i =>
    if i > c.index then
      if i - c.index ≤ l.count - i - 1 then (c, .forward i (i - c.index).toNat) else (c, .toLast i (l.count - i - 1).toNat)
    else (c, .again i)
  | .forward i 0 => (c, .again i)
  | .forward i (k + 1) => match deref l.heap c.node with
    | some n => ({ c with node := n.next }, .forward i k)
    | none => (c, .crash)
  | .toLast i k => ({ c with node := l.last }, .fromLast i k)
  | .fromLast i 0 => (c, .again i)
  | .fromLast i (k + 1) => match deref l.heap c.node with
    | some n => ({ c with node := n.prev }, .fromLast i k)
    | none => (c, .crash)
  | .again i =>
    if i < c.index then
      if c.index - i ≤ i then (c, .backward i (c.index - i).toNat) else (c, .toFirst i i.toNat)
    else (c, .store i)
  | .backward i 0 => (c, .store i)
  | .backward i (k + 1) => match deref l.heap c.node with
    | some n => ({ c with node := n.prev }, .backward i k)
    | none => (c, .crash)
  | .toFirst i k => ({ c with node := l.first }, .fromFirst i k)
  | .fromFirst i 0 => (c, .store i)
  | .fromFirst i (k + 1) => match deref l.heap c.node with
    | some n => ({ c with node := n.next }, .fromFirst i k)
    | none => (c, .crash)
  | .store i => ({ c with index := i }, .load)
  | .load => (c, .object c.node)
  | .object p => match deref l.heap p with
    | some n => (c, .done n.object)
    | none => (c, .crash)
  | .done v => (c, .done v)
  | .crash => (c, .crash)

/-- What a thread does: it calls DKLinkedListGetObjectAtIndex, or it is in DKLinkedListApplyFunction (950-968) before the test of `node`,
    having passed `seen` to the callback, or it follows NULL. -/
inductive Task (V : Type) where
  | get (pc : Pc V)
  | each (node : Option Nat) (seen : List V)
  | lost

/-- One step of a thread. -/
def taskStep (l : LinkedList V P) (c : Cursor) : Task V → Cursor × Task V
  | .get pc => ((step l c pc).1, .get (step l c pc).2)
  | .each none seen => (c, .each none seen)
  | .each (some p) seen => match l.heap p with
    | some n => (c, .each n.next (seen ++ [n.object]))
    | none => (c, .lost)
  | .lost => (c, .lost)

/-- The cursor and the threads. -/
structure System (V : Type) where
  cursor : Cursor
  tasks : Nat → Task V

/-- Thread `t` takes a step. -/
def sysStep (l : LinkedList V P) (s : System V) (t : Nat) : System V :=
  ⟨(taskStep l s.cursor (s.tasks t)).1, fun u => if u = t then (taskStep l s.cursor (s.tasks t)).2 else s.tasks u⟩

/-- The threads take steps in the order of the schedule. -/
def sysRun (l : LinkedList V P) (s : System V) (sched : List Nat) : System V := sched.foldl (sysStep l) s

/-- One thread alone: `n` steps of a call. -/
def alone (l : LinkedList V P) : Nat → Cursor × Pc V → Cursor × Pc V
  | 0, s => s
  | n + 1, s => alone l n (step l s.1 s.2)

/-! ### Collections that reading does not write -/

section
variable {K : Type}

/-- Threads that write nothing but their own variables: `body u` is the loop body of thread `u`.  Thread `t` takes a step. -/
def readStep {S : Type} (body : Nat → S → S) (s : Nat → S) (t : Nat) : Nat → S := fun u => if u = t then body t (s t) else s u

/-- The threads take steps in the order of the schedule. -/
def readRun {S : Type} (body : Nat → S → S) (s : Nat → S) (sched : List Nat) : Nat → S := sched.foldl (readStep body) s

/-- A search in a binary tree: at a node, or finished. -/
inductive Search (K V : Type) where
  | at (node : BTree.Node K V)
  | found (v : Option V)

/-- One iteration of the loop of FindNode (DKBinaryTree.c 468-480), and the reading of the object (869-876). -/
def searchStep (cmp : K → K → Int) (key : K) : Search K V → Search K V
  | .at .nil => .found none
  | .at (.node l k v _ r) => if cmp k key < 0 then .at l else if cmp k key > 0 then .at r else .found (some v)
  | .found v => .found v

/-- A search in a hash table: the loop variables of Find (DKGenericHashTable.c 272-276), or finished with a row and its status, or
    outside the table. -/
inductive Probe where
  | at (i x : Nat) (firstDeleted : Option Nat)
  | found (row : Nat) (status : HTable.Status)
  | outside

/-- One iteration of the loop of Find (DKGenericHashTable.c 279-326). -/
def probeStep (eqv : K → K → Bool) (rows : List (HTable.Row K V)) (key : K) : Probe → Probe
  | .at i x fd => match rows[x]? with
    | none => .outside
    | some .empty => (match fd with | some d => .found d .deleted | none => .found x .empty)
    | some (.active k _) => if eqv k key then .found x .active else .at (i + 1) (HTable.next rows.length i x) fd
    | some .deleted => .at (i + 1) (HTable.next rows.length i x) (HTable.remember fd x)
  | .found r st => .found r st
  | .outside => .outside
end

end Readers
end Duck
