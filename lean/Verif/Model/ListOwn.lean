import Verif.Model.LinkedList
import Verif.Model.TreeOwn
/-! The references a `DKLinkedList` (Source/DKLinkedList.c) takes and gives back, added to the list of Model/LinkedList.lean.  An object is
    its reference count here: what its finalizer does (other objects losing references) and the reference count of the list itself are not
    modelled.  The list may hold NULLs. -/
namespace Duck
namespace ListOwn
open LList
open HTable (Policy)
open TreeOwn (Id Ev Counts setCount happens replay retainO releaseO)

/-- A pointer to an object, or NULL. -/
abbrev Obj := Option Id

variable {P : Type}

/-- FreeNode (309-317) as called by one iteration of RemoveRange (395-415). -/
def removeStepLog (l : LinkedList Obj P) : List Ev :=
  match l.cursor.bind l.heap with
  | some n => releaseO n.object
  | none => []

/-- The loop of RemoveRange (393-416). -/
def removeLoopLog : Nat → LinkedList Obj P → List Ev
  | 0, _ => []
  | n + 1, l => removeStepLog l ++ match removeStep l with | some l => removeLoopLog n l | none => []

/-- RemoveRange (382-434). -/
def removeRangeLog (l : LinkedList Obj P) (location length : Int) : List Ev :=
  if length = 0 then []
  else match moveCursor l location with | some r => removeLoopLog length.toNat r.1 | none => []

/-- InsertObject (440-498) with AllocNode (290-303), for each of the objects. -/
def insertAllLog (objects : List Obj) : List Ev := objects.flatMap retainO

/-- INTERNAL_DKLinkedListReplaceRangeWithCArray (775-783), ReplaceRangeWithCollection (815-826): the old objects are released before the
    new ones are retained. -/
def replaceLog (l : LinkedList Obj P) (location length : Int) (objects : List Obj) : List Ev :=
  if rangeOk location length l.count then removeRangeLog l location length ++ insertAllLog objects else []

/-- Lines 1014-1027 of DKLinkedListInsertObjectWithPriority: the list when the old entry is about to be removed. -/
def beforeRemoval (zero : P) (pick : Nat → Heap Obj P → Nat) (l : LinkedList Obj P) (object : Obj) (priority : P)
    (ins rem : Option Nat × Int) : Option (LinkedList Obj P) :=
  (insertObject zero pick { l with cursor := ins.1, cursorIndex := ins.2 } ins.2 object).bind fun l =>
  (modify l.heap l.cursor fun n => { n with priority := priority }).map fun h =>
    { l with heap := h, cursor := rem.1, cursorIndex := if rem.2 ≥ ins.2 then rem.2 + 1 else rem.2 }

/-- DKLinkedListInsertObjectWithPriority (974-1030). -/
def priorityLog (zero : P) (pick : Nat → Heap Obj P → Nat) (gt : P → P → Bool) (l : LinkedList Obj P) (object : Obj) (priority : P)
    (policy : Policy) : List Ev :=
  match scan gt l.heap object priority policy l.count (l.count.toNat + 1) l.first 0 (l.last, l.count) (none, -1) with
  | some (some (ins, rem)) =>
    if policy = .ifFound ∧ rem.1 = none then []
    else retainO object ++
      if rem.1 ≠ none then
        match beforeRemoval zero pick l object priority ins rem with
        | some l => removeRangeLog l l.cursorIndex 1
        | none => []
      else []
  | _ => []

/-- The references taken and given back by a call.  Reading, reversing and sorting (832-914) take and give back none. -/
def logOf (zero : P) (pick : Nat → Heap Obj P → Nat) (gt : P → P → Bool) (l : LinkedList Obj P) : LList.Op Obj P → List Ev
  | .replace loc len objs => replaceLog l loc len objs
  | .insertPriority v p pol => priorityLog zero pick gt l v p pol
  | _ => []

/-- A list, the references of its user to objects, and the reference counts. -/
structure World (P : Type) where
  list : LinkedList Obj P
  client : Id → Nat
  counts : Counts

/-- DKNew( DKMutableLinkedListClass() ) (508-525). -/
def start : World P := ⟨LList.init, fun _ => 0, fun _ => 0⟩

/-- What the user does: makes an object, retains one, gives up a reference, calls the list, gives up the list. -/
inductive Op (P : Type) where
  | create (x : Id)
  | retain (x : Id)
  | release (x : Id)
  | call (op : LList.Op Obj P)
  | drop

/-- One step; `none`: an object is touched after it was freed, or memory is.  DKLinkedListFinalize (531-538) removes everything; the empty
    list it leaves stands for the list that is gone. -/
def step (zero : P) (pick : Nat → Heap Obj P → Nat) (gt : P → P → Bool) (w : World P) : Op P → Option (World P)
  | .create x => (happens w.counts (.create x)).map fun c => { w with counts := c, client := setCount w.client x (w.client x + 1) }
  | .retain x => (happens w.counts (.retain x)).map fun c => { w with counts := c, client := setCount w.client x (w.client x + 1) }
  | .release x => (happens w.counts (.release x)).map fun c => { w with counts := c, client := setCount w.client x (w.client x - 1) }
  | .call op => (replay w.counts (logOf zero pick gt w.list op)).bind fun c =>
      (LList.step zero pick gt w.list op).map fun r => { w with list := r.1, counts := c }
  | .drop => (replay w.counts (removeRangeLog w.list 0 w.list.count)).bind fun c =>
      (removeRange w.list 0 w.list.count).map fun l => { w with list := l, counts := c }

end ListOwn
end Duck
