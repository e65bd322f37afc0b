import Verif.Model.ArrayOps
import Verif.Model.HashTable
import Verif.Model.Range
/-! Model of `DKLinkedList` (Source/DKLinkedList.c) at pointer level.

    Nodes live in a heap; a freed node is absent from it, so following a NULL, dangling or wild pointer yields `none`.
    The address of a new node is chosen by `pick` (DKNodePoolAlloc, see C13), an arbitrary function of the number of
    allocations made so far and of the heap.  Objects are values of `V` (compared with `=`, as pointers are);
    priorities are values of `P`.  Retain and release are not modelled here.  Asserts are not executed (release build).
    Index arithmetic is on unbounded integers. -/
namespace Duck
namespace LList
open HTable (Policy)

/-- struct DKLinkedListNode (44-50). -/
structure LNode (V P : Type) where
  prev : Option Nat
  next : Option Nat
  object : V
  priority : P
deriving DecidableEq, Repr

/-- The nodes in use. -/
abbrev Heap (V P : Type) := Nat → Option (LNode V P)

/-- struct DKLinkedList (58-69); `allocs` counts the nodes allocated so far. -/
structure LinkedList (V P : Type) where
  heap : Heap V P
  first : Option Nat
  last : Option Nat
  count : Int
  cursor : Option Nat
  cursorIndex : Int
  allocs : Nat

variable {V P : Type}

/-- `*p`. -/
def deref (h : Heap V P) (p : Option Nat) : Option (LNode V P) := p.bind h

/-- A store to the heap. -/
def put (h : Heap V P) (p : Nat) (n : Option (LNode V P)) : Heap V P := fun q => if q = p then n else h q

/-- `p->prev = x`, `p->next = x`, `p->object = x`, `p->priority = x`: UB unless `p` is a node in use. -/
def modify (h : Heap V P) (p : Option Nat) (f : LNode V P → LNode V P) : Option (Heap V P) :=
  p.bind fun a => (h a).map fun n => put h a (some (f n))

/-- DKLinkedListInitialize (508-525). -/
def init : LinkedList V P := ⟨fun _ => none, none, none, 0, none, 0, 0⟩

/-- AllocNode (290-303): the new node's address is reported. -/
def allocNode (zero : P) (pick : Nat → Heap V P → Nat) (l : LinkedList V P) (object : V) : LinkedList V P × Nat :=
  let a := pick l.allocs l.heap
  ({ l with heap := put l.heap a (some ⟨none, none, object, zero⟩), count := l.count + 1, allocs := l.allocs + 1 }, a)

/-- FreeNode (309-317). -/
def freeNode (l : LinkedList V P) (a : Nat) : LinkedList V P :=
  { l with heap := put l.heap a none, count := l.count - 1 }

/-- `for( ; n > 0; --n ) p = p->next` (338-339, 366-367). -/
def walkNext (h : Heap V P) : Nat → Option Nat → Option (Option Nat)
  | 0, p => some p
  | n + 1, p => (deref h p).bind fun x => walkNext h n x.next

/-- `for( ; n > 0; --n ) p = p->prev` (346-347, 358-359). -/
def walkPrev (h : Heap V P) : Nat → Option Nat → Option (Option Nat)
  | 0, p => some p
  | n + 1, p => (deref h p).bind fun x => walkPrev h n x.prev

/-- The node reached by lines 331-369 of MoveCursor. -/
def moveTo (l : LinkedList V P) (index : Int) : Option (Option Nat) :=
  if index > l.cursorIndex then
    if index - l.cursorIndex ≤ l.count - index - 1 then walkNext l.heap (index - l.cursorIndex).toNat l.cursor
    else walkPrev l.heap (l.count - index - 1).toNat l.last
  else if index < l.cursorIndex then
    if l.cursorIndex - index ≤ index then walkPrev l.heap (l.cursorIndex - index).toNat l.cursor
    else walkNext l.heap index.toNat l.first
  else some l.cursor

/-- MoveCursor (323-376). -/
def moveCursor (l : LinkedList V P) (index : Int) : Option (LinkedList V P × Option Nat) :=
  if l.first = none then some (l, none)
  else (moveTo l index).map fun p => ({ l with cursor := p, cursorIndex := index }, p)

/-- `if( p ) p->... = ...` (401-405). -/
def modifyIf (h : Heap V P) (p : Option Nat) (f : LNode V P → LNode V P) : Option (Heap V P) :=
  if p = none then some h else modify h p f

/-- One iteration of RemoveRange (395-415). -/
def removeStep (l : LinkedList V P) : Option (LinkedList V P) :=
  l.cursor.bind fun a => (l.heap a).bind fun node =>
    (modifyIf l.heap node.prev fun n => { n with next := node.next }).bind fun h =>
    (modifyIf h node.next fun n => { n with prev := node.prev }).map fun h =>
      let l := { l with heap := h, first := if l.first = some a then node.next else l.first,
                        last := if l.last = some a then node.prev else l.last }
      { freeNode l a with cursor := node.next }

/-- The loop of RemoveRange (393-416). -/
def removeLoop : Nat → LinkedList V P → Option (LinkedList V P)
  | 0, l => some l
  | n + 1, l => (removeStep l).bind (removeLoop n)

/-- Lines 418-431: a cursor that ran off the end goes to the last node. -/
def fixCursor (l : LinkedList V P) : LinkedList V P :=
  if l.cursor = none then
    if l.count > 0 then { l with cursor := l.last, cursorIndex := l.count - 1 }
    else { l with cursor := l.first, cursorIndex := 0 }
  else l

/-- RemoveRange (382-434). -/
def removeRange (l : LinkedList V P) (location length : Int) : Option (LinkedList V P) :=
  if length = 0 then some l
  else (moveCursor l location).bind fun r => (removeLoop length.toNat r.1).map fixCursor

/-- InsertObject (440-498). -/
def insertObject (zero : P) (pick : Nat → Heap V P → Nat) (l : LinkedList V P) (index : Int) (object : V) :
    Option (LinkedList V P) :=
  if l.first = none then
    let r := allocNode zero pick l object
    some { r.1 with first := some r.2, last := some r.2, cursor := some r.2, cursorIndex := 0 }
  else if index = 0 then
    let r := allocNode zero pick l object
    (modify r.1.heap (some r.2) fun n => { n with next := l.first }).bind fun h =>
    (modify h l.first fun n => { n with prev := some r.2 }).map fun h =>
      { r.1 with heap := h, first := some r.2, cursor := some r.2, cursorIndex := 0 }
  else if index = l.count then
    let r := allocNode zero pick l object
    (modify r.1.heap (some r.2) fun n => { n with prev := l.last }).bind fun h =>
    (modify h l.last fun n => { n with next := some r.2 }).map fun h =>
      { r.1 with heap := h, last := some r.2, cursor := some r.2, cursorIndex := r.1.count - 1 }
  else
    (moveCursor l index).bind fun m =>
      let r := allocNode zero pick m.1 object
      (deref r.1.heap m.2).bind fun nextNode =>
      (modify r.1.heap (some r.2) fun n => { n with next := m.2, prev := nextNode.prev }).bind fun h =>
      (modify h nextNode.prev fun n => { n with next := some r.2 }).bind fun h =>
      (modify h m.2 fun n => { n with prev := some r.2 }).map fun h =>
        { r.1 with heap := h, cursor := some r.2 }

/-- `for( i = 0; i < count; i++ ) InsertObject( list, location + i, objects[i] )` (781-782), and the same insertions
    made by the callback of ReplaceRangeWithCollection (804-813) for a collection other than the list itself. -/
def insertAll (zero : P) (pick : Nat → Heap V P → Nat) : List V → Int → LinkedList V P → Option (LinkedList V P)
  | [], _, l => some l
  | v :: vs, i, l => (insertObject zero pick l i v).bind (insertAll zero pick vs (i + 1))

/-- DKRangeInsideOrEnd (DKPlatform.h 301), when the sum does not overflow; the callers below treat the overflow.  (A range that ends
    before `count`, a DKIndex, does not overflow.) -/
def rangeOk (location length count : Int) : Prop := location ≥ 0 ∧ length ≥ 0 ∧ location + length ≤ count

instance (a b c : Int) : Decidable (rangeOk a b c) := by unfold rangeOk; infer_instance

/-- INTERNAL_DKLinkedListReplaceRangeWithCArray (775-783) and ReplaceRangeWithCollection (815-826).  A bad range is
    reported (DKCheckRange) and nothing is done. -/
def replaceRange (zero : P) (pick : Nat → Heap V P → Nat) (l : LinkedList V P) (location length : Int) (objects : List V) :
    Option (LinkedList V P) :=
  if rangeOk location length l.count then
    (removeRange l location length).bind (insertAll zero pick objects location)
  else if rangeOverflows location length then none else some l

/-- INTERNAL_DKLinkedListGetObjectAtIndex (689-696); `some none` is the NULL returned for a bad index.
    DKLinkedListGetPriorityOfObjectAtIndex (1036-1049) reads the other field of the same node. -/
def nodeAt (l : LinkedList V P) (index : Int) : Option (LinkedList V P × Option (V × P)) :=
  if index < 0 ∨ index ≥ l.count then some (l, none)
  else (moveCursor l index).bind fun r => (deref r.1.heap r.2).map fun n => (r.1, some (n.object, n.priority))

/-- The loop of INTERNAL_DKLinkedListGetObjectsInRange (717-721). -/
def nodesFrom : Nat → Int → LinkedList V P → Option (LinkedList V P × List V)
  | 0, _, l => some (l, [])
  | n + 1, i, l => (moveCursor l i).bind fun r => (deref r.1.heap r.2).bind fun x =>
      (nodesFrom n (i + 1) r.1).map fun q => (q.1, x.object :: q.2)

/-- INTERNAL_DKLinkedListGetObjectsInRange (713-724). -/
def objectsInRange (l : LinkedList V P) (location length : Int) : Option (LinkedList V P × List V) :=
  if rangeOk location length l.count then nodesFrom length.toNat location l
  else if rangeOverflows location length then none else some (l, [])

/-- DKLinkedListApplyFunction (950-968): at most `fuel` nodes are visited (`none`: more were needed). -/
def applyLoop {S : Type} (h : Heap V P) (callback : V → S → Int × S) : Nat → Option Nat → S → Option (Int × S)
  | _, none, s => some (0, s)
  | 0, some _, _ => none
  | fuel + 1, some a, s => (h a).bind fun n =>
      if (callback n.object s).1 ≠ 0 then some (callback n.object s)
      else applyLoop h callback fuel n.next (callback n.object s).2

/-- DKLinkedListApplyFunction with enough fuel for any acyclic list. -/
def apply {S : Type} (l : LinkedList V P) (callback : V → S → Int × S) (s : S) : Option (Int × S) :=
  applyLoop l.heap callback (l.count.toNat + 1) l.first s

/-- The loop of DKLinkedListReverse (897-906). -/
def reverseLoop : Nat → Heap V P → Option Nat → Option Nat → Option (Heap V P)
  | _, h, _, none => some h
  | 0, _, _, some _ => none
  | fuel + 1, h, prev, some a => (h a).bind fun n =>
      (modify h (some a) fun x => { x with prev := prev, next := n.prev }).bind fun h =>
        reverseLoop fuel h (some a) n.prev

/-- DKLinkedListReverse (886-914). -/
def reverse (l : LinkedList V P) : Option (LinkedList V P) :=
  (reverseLoop (l.count.toNat + 1) l.heap none l.last).map fun h =>
    { l with heap := h, first := l.last, last := l.first, cursor := l.last, cursorIndex := 0 }

/-- ListToArray (832-843). -/
def listToArray (h : Heap V P) : Nat → Option Nat → Option (List V)
  | 0, _ => some []
  | n + 1, p => (deref h p).bind fun x => (listToArray h n x.next).map (x.object :: ·)

/-- ArrayToList (845-854). -/
def arrayToList : Nat → Heap V P → Option Nat → List V → Option (Heap V P)
  | 0, h, _, _ => some h
  | _ + 1, _, _, [] => none
  | n + 1, h, p, v :: vs => (deref h p).bind fun x =>
      (modify h p fun y => { y with object := v }).bind fun h => arrayToList n h x.next vs

/-- DKLinkedListSort (856-880). -/
def sort (cmp : V → V → Int) (l : LinkedList V P) : Option (LinkedList V P) :=
  if l.count > 1 then
    (listToArray l.heap l.count.toNat l.first).bind fun a =>
    (ArrayOps.sortObjects cmp (l.count.toNat + 1) a).bind fun a =>
    (arrayToList l.count.toNat l.heap l.first a).map fun h => { l with heap := h, cursor := l.first, cursorIndex := 0 }
  else some l

/-- DKLinkedListShuffle (920-944) up to its first store: DKGenericArrayReserve leaves the array's length at 0, so
    DKGenericArrayGetPointerToElementAtIndex( &array, 0 ) reports a bad index and returns NULL (DKGenericArray.c
    249-253), and ListToArray (838) stores through it.  A list of at most one element is left alone. -/
def shuffle (l : LinkedList V P) : Option (LinkedList V P) := if l.count > 1 then none else some l

/-- The scan of DKLinkedListInsertObjectWithPriority (984-1003): position and node to insert at, index and node of the
    object's existing entry; `some none`: the early return of line 990.  `gt a b` is `a > b`. -/
def scan [DecidableEq V] (gt : P → P → Bool) (h : Heap V P) (object : V) (priority : P) (policy : Policy) (count : Int) :
    Nat → Option Nat → Int → (Option Nat × Int) → (Option Nat × Int) →
    Option (Option ((Option Nat × Int) × (Option Nat × Int)))
  | _, none, _, ins, rem => some (some (ins, rem))
  | 0, some _, _, _, _ => none
  | fuel + 1, some a, i, ins, rem => (h a).bind fun n =>
      if n.object = object ∧ policy = .ifNotFound then some none
      else scan gt h object priority policy count fuel n.next (i + 1)
        (if ins.2 = count ∧ gt priority n.priority then (some a, i) else ins)
        (if n.object = object then (some a, i) else rem)

/-- DKLinkedListInsertObjectWithPriority (974-1030). -/
def insertPriority [DecidableEq V] (zero : P) (pick : Nat → Heap V P → Nat) (gt : P → P → Bool) (l : LinkedList V P)
    (object : V) (priority : P) (policy : Policy) : Option (LinkedList V P × Bool) :=
  (scan gt l.heap object priority policy l.count (l.count.toNat + 1) l.first 0 (l.last, l.count) (none, -1)).bind fun r =>
    match r with
    | none => some (l, false)
    | some (ins, rem) =>
      if policy = .ifFound ∧ rem.1 = none then some (l, false)
      else
        (insertObject zero pick { l with cursor := ins.1, cursorIndex := ins.2 } ins.2 object).bind fun l =>
        (modify l.heap l.cursor fun n => { n with priority := priority }).bind fun h =>
          if rem.1 ≠ none then
            let i := if rem.2 ≥ ins.2 then rem.2 + 1 else rem.2
            (removeRange { l with heap := h, cursor := rem.1, cursorIndex := i } i 1).map fun l => (l, true)
          else some ({ l with heap := h }, true)

/-- Calls of the API. -/
inductive Op (V P : Type) where
  | replace (location length : Int) (objects : List V)
  | get (index : Int)
  | getRange (location length : Int)
  | insertPriority (object : V) (priority : P) (policy : Policy)
  | reverse
  | sort (cmp : V → V → Int)
  | count

/-- What a call reports. -/
inductive Out (V P : Type) where
  | done
  | value (v : Option (V × P))
  | values (vs : List V)
  | changed (b : Bool)
  | count (n : Int)

/-- One call. -/
def step [DecidableEq V] (zero : P) (pick : Nat → Heap V P → Nat) (gt : P → P → Bool) (l : LinkedList V P) :
    Op V P → Option (LinkedList V P × Out V P)
  | .replace loc len objs => (replaceRange zero pick l loc len objs).map fun l => (l, .done)
  | .get i => (nodeAt l i).map fun r => (r.1, .value r.2)
  | .getRange loc len => (objectsInRange l loc len).map fun r => (r.1, .values r.2)
  | .insertPriority v p pol => (insertPriority zero pick gt l v p pol).map fun r => (r.1, .changed r.2)
  | .reverse => (reverse l).map fun l => (l, .done)
  | .sort cmp => (sort cmp l).map fun l => (l, .done)
  | .count => some (l, .count l.count)

/-- A history of calls. -/
def run [DecidableEq V] (zero : P) (pick : Nat → Heap V P → Nat) (gt : P → P → Bool) (l : LinkedList V P) :
    List (Op V P) → Option (LinkedList V P × List (Out V P))
  | [] => some (l, [])
  | op :: ops => (step zero pick gt l op).bind fun r => (run zero pick gt r.1 ops).map fun q => (q.1, r.2 :: q.2)

/-- The callback loop of ReplaceRangeWithCollection (804-826) when the collection is the list itself: DKForeachObject
    walks the nodes (950-968) while each callback inserts at `index`.  `none`: the fuel ran out (or UB). -/
def selfLoop (zero : P) (pick : Nat → Heap V P → Nat) : Nat → LinkedList V P → Option Nat → Int → Option (LinkedList V P)
  | _, l, none, _ => some l
  | 0, _, some _, _ => none
  | fuel + 1, l, some a, index => (l.heap a).bind fun n => (insertObject zero pick l index n.object).bind fun l =>
      (l.heap a).bind fun n => selfLoop zero pick fuel l n.next (index + 1)

/-- DKLinkedListAppendCollection( list, list ) (748-760). -/
def appendSelf (zero : P) (pick : Nat → Heap V P → Nat) (fuel : Nat) (l : LinkedList V P) : Option (LinkedList V P) :=
  selfLoop zero pick fuel l l.first l.count

end LList
end Duck
