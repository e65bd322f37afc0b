import Verif.Model.BinaryTree
import Verif.Model.LinkedList
/-!
# Model of builds with integrity checks (DK_RUNTIME_INTEGRITY_CHECKS and DKAssert, DKBinaryTree.c 249-311, DKLinkedList.c 239-284)

Each function of the models `BinaryTree` and `LinkedList` is given a version with the checks and assertions of a debug build; `none` is an assertion that fails (the program ends), or undefined behaviour.
Where a check is made in the middle of a function, the version here makes it on the side and then calls the function without checks, which goes through the same state.
-/
namespace Duck

namespace BTree
open HTable (Policy)
variable {K V : Type}

/-- `node == &tree->null_node`. -/
def Node.isNull : Node K V → Bool
  | .nil => true
  | .node .. => false

/-- CheckTreeIntegrityRecursive (253-287): the number of nodes. -/
def checkRec : Node K V → Option Int
  | .nil => some 0
  | .node l _ _ lev r =>
    if (l.isNull = false → l.level = lev - 1) ∧ (r.isNull = false → r.level = lev ∨ r.level = lev - 1) ∧ (lev ≥ 2 → l.isNull = false ∧ r.isNull = false) ∧ (r.level ≠ lev → r.level = l.level) then
      (checkRec l).bind fun a => (checkRec r).map fun b => 1 + a + b
    else none

/-- CheckTreeIntegrity (297-308).  The sentinel (299-304) cannot be written in the model (`none`); its key and object are never written at all. -/
def check (t : Tree K V) : Option (Tree K V) := if checkRec t.root = some t.count then some t else none

/-- The assertion of Remove that the node it frees has no left child (527). -/
def eraseOk (cmp : K → K → Int) (key : K) : Node K V → Bool
  | .nil => true
  | .node l k _ _ r =>
    if cmp k key < 0 then (if l.isNull then true else eraseOk cmp key l)
    else if r.isNull then (if cmp k key = 0 then l.isNull else true) else eraseOk cmp key r

/-- One call in a build with checks: INTERNAL_DKBinaryTreeInsertObject (999-1010), INTERNAL_DKBinaryTreeAddObjectToSet (1086-1093), INTERNAL_DKBinaryTreeRemoveObject (1025-1033) and
    INTERNAL_DKBinaryTreeRemoveAllObjects (1061-1069). -/
def stepChecked (cmp : K → K → Int) (t : Tree K V) : Op K V → Option (Tree K V × Out V)
  | .insert k v p => (insert cmp t k v p).bind fun t => (check t).map fun t => (t, .done)
  | .remove k => if eraseOk cmp k t.root then (remove cmp t k).bind fun t => (check t).map fun t => (t, .done) else none
  | .removeAll => if (removeAll t).count = 0 then (check (removeAll t)).map fun t => (t, .done) else none
  | op => step cmp t op

/-- A history of calls in a build with checks. -/
def runChecked (cmp : K → K → Int) (t : Tree K V) : List (Op K V) → Option (Tree K V × List (Out V))
  | [] => some (t, [])
  | op :: ops => (stepChecked cmp t op).bind fun r => (runChecked cmp r.1 ops).map fun q => (q.1, r.2 :: q.2)

end BTree

namespace LList
open HTable (Policy)
variable {V P : Type}

/-- The loop of CheckListIntegrity (256-278). -/
def checkWalk (l : LinkedList V P) : Nat → Option Nat → Int → Option Unit
  | _, none, i => if i = l.count then some () else none
  | 0, some _, _ => none
  | fuel + 1, some a, i => (l.heap a).bind fun n =>
      if i < l.count ∧ (n.prev ≠ none → (deref l.heap n.prev).map (·.next) = some (some a)) ∧ (n.next ≠ none → (deref l.heap n.next).map (·.prev) = some (some a)) ∧
          (l.cursor = some a → l.cursorIndex = i) then checkWalk l fuel n.next (i + 1)
      else none

/-- CheckListIntegrity (243-281). -/
def check (l : LinkedList V P) : Option (LinkedList V P) :=
  if l.first = none ∧ ¬ (l.last = none ∧ l.cursor = none ∧ l.cursorIndex = 0) then none
  else (checkWalk l (l.count.toNat + 1) l.first 0).map fun _ => l

/-- MoveCursor (323-376): the checks of 327 and 373. -/
def moveCursorChecked (l : LinkedList V P) (index : Int) : Option (LinkedList V P × Option Nat) := (moveCursor l index).bind fun r => (check r.1).map fun _ => r

/-- The loop of RemoveRange (393-416) with the assertion of FreeNode (311). -/
def removeLoopChecked : Nat → LinkedList V P → Option (LinkedList V P)
  | 0, l => some l
  | n + 1, l => if l.count > 0 then (removeStep l).bind (removeLoopChecked n) else none

/-- RemoveRange (382-434) with its assertions (384-386) and checks. -/
def removeRangeChecked (l : LinkedList V P) (location length : Int) : Option (LinkedList V P) :=
  if location ≥ 0 ∧ length ≥ 0 ∧ location + length ≤ l.count then
    if length = 0 then some l
    else (moveCursorChecked l location).bind fun r => (removeLoopChecked length.toNat r.1).bind fun l => check (fixCursor l)
  else none

/-- InsertObject (440-498) with its assertions (442-443, 447) and checks. -/
def insertObjectChecked (zero : P) (pick : Nat → Heap V P → Nat) (l : LinkedList V P) (index : Int) (object : V) : Option (LinkedList V P) :=
  if index ≥ 0 ∧ index ≤ l.count ∧ (l.first = none → index = 0) then
    if l.first = none ∨ index = 0 ∨ index = l.count then (insertObject zero pick l index object).bind check
    else (moveCursorChecked l index).bind fun r => if r.2 = none then none else (insertObject zero pick l index object).bind check
  else none

/-- `insertAll` with checks (781-782, 804-813). -/
def insertAllChecked (zero : P) (pick : Nat → Heap V P → Nat) : List V → Int → LinkedList V P → Option (LinkedList V P)
  | [], _, l => some l
  | v :: vs, i, l => (insertObjectChecked zero pick l i v).bind (insertAllChecked zero pick vs (i + 1))

/-- `nodeAt` with checks (689-696, 1036-1049). -/
def nodeAtChecked (l : LinkedList V P) (index : Int) : Option (LinkedList V P × Option (V × P)) :=
  if index < 0 ∨ index ≥ l.count then some (l, none)
  else (moveCursorChecked l index).bind fun r => (deref r.1.heap r.2).map fun n => (r.1, some (n.object, n.priority))

/-- `nodesFrom` with checks (717-721). -/
def nodesFromChecked : Nat → Int → LinkedList V P → Option (LinkedList V P × List V)
  | 0, _, l => some (l, [])
  | n + 1, i, l => (moveCursorChecked l i).bind fun r => (deref r.1.heap r.2).bind fun x => (nodesFromChecked n (i + 1) r.1).map fun q => (q.1, x.object :: q.2)

/-- Lines 1005-1027 of DKLinkedListInsertObjectWithPriority with the checks of InsertObject and RemoveRange. -/
def placeChecked (zero : P) (pick : Nat → Heap V P → Nat) (l : LinkedList V P) (object : V) (priority : P) (policy : Policy) (ins rem : Option Nat × Int) : Option (LinkedList V P × Bool) :=
  if policy = .ifFound ∧ rem.1 = none then some (l, false)
  else
    (insertObjectChecked zero pick { l with cursor := ins.1, cursorIndex := ins.2 } ins.2 object).bind fun l =>
    (modify l.heap l.cursor fun n => { n with priority := priority }).bind fun h =>
      if rem.1 ≠ none then
        let i := if rem.2 ≥ ins.2 then rem.2 + 1 else rem.2
        (removeRangeChecked { l with heap := h, cursor := rem.1, cursorIndex := i } i 1).map fun l => (l, true)
      else some ({ l with heap := h }, true)

/-- DKLinkedListInsertObjectWithPriority (974-1030) with checks. -/
def insertPriorityChecked [DecidableEq V] (zero : P) (pick : Nat → Heap V P → Nat) (gt : P → P → Bool) (l : LinkedList V P) (object : V) (priority : P) (policy : Policy) : Option (LinkedList V P × Bool) :=
  (scan gt l.heap object priority policy l.count (l.count.toNat + 1) l.first 0 (l.last, l.count) (none, -1)).bind fun r =>
    match r with
    | none => some (l, false)
    | some (ins, rem) => placeChecked zero pick l object priority policy ins rem

/-- One call in a build with checks; DKLinkedListReverse and DKLinkedListSort make none. -/
def stepChecked [DecidableEq V] (zero : P) (pick : Nat → Heap V P → Nat) (gt : P → P → Bool) (l : LinkedList V P) : Op V P → Option (LinkedList V P × Out V P)
  | .replace loc len objs =>
    if rangeOk loc len l.count then ((removeRangeChecked l loc len).bind (insertAllChecked zero pick objs loc)).map fun l => (l, .done)
    else if rangeOverflows loc len then none else some (l, .done)
  | .get i => (nodeAtChecked l i).map fun r => (r.1, .value r.2)
  | .getRange loc len =>
    if rangeOk loc len l.count then (nodesFromChecked len.toNat loc l).map fun r => (r.1, .values r.2)
    else if rangeOverflows loc len then none else some (l, .values [])
  | .insertPriority v p pol => (insertPriorityChecked zero pick gt l v p pol).map fun r => (r.1, .changed r.2)
  | op => step zero pick gt l op

/-- A history of calls in a build with checks. -/
def runChecked [DecidableEq V] (zero : P) (pick : Nat → Heap V P → Nat) (gt : P → P → Bool) (l : LinkedList V P) : List (Op V P) → Option (LinkedList V P × List (Out V P))
  | [] => some (l, [])
  | op :: ops => (stepChecked zero pick gt l op).bind fun r => (runChecked zero pick gt r.1 ops).map fun q => (q.1, r.2 :: q.2)

end LList
end Duck
