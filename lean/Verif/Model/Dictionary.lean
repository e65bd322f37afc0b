import Verif.Model.HashTable
/-!
Model of dictionaries and sets: Source/DKDictionary.c 121-373, Source/DKSet.c 155-345, Source/DKHashTable.c 302-792, on top of
the hash table of Model/HashTable.lean.

A NULL object is `none`; keys are never NULL (DKRequire, DKHashTable.c 719, 785).  `cp` is DKCopy on keys.  Reference counting
is not part of this file.  Iteration (DKHashTableApplyFunction, 615-637) visits the active rows in row order and stops at the
first callback that returns non-zero.
-/
namespace Duck
namespace Dict
open HTable
variable {K V : Type} (hash : K → Nat) (eqv : K → K → Bool) (cp : K → K)

/-- A DKDictionary: a hash table whose objects may be NULL. -/
abbrev Dict (K V : Type) := HTable.Table K (Option V)

/-- DKDictionaryGetObject (DKDictionary.c 136-145, DKHashTable.c 597-609): NULL when absent. -/
def getObject (d : Dict K V) (k : K) : Except Fail (Option V) := (HTable.get hash eqv d k).map Option.join

/-- DKDictionaryContainsKey (151-154). -/
def containsKey (d : Dict K V) (k : K) : Except Fail Bool := (getObject hash eqv d k).map Option.isSome

/-- DKDictionaryGetCount (121-130). -/
def getCount (d : Dict K V) : Int := d.activeCount

/-- INTERNAL_DKHashTableInsertObject (DKHashTable.c 717-728). -/
def insertObject (d : Dict K V) (k : K) (o : Option V) (p : Policy) : Except Fail (Dict K V) := (HTable.insert hash eqv d (cp k) o p).map (·.1)

/-- DKDictionarySetObject (212-219). -/
def setObject (d : Dict K V) (k : K) (o : Option V) : Except Fail (Dict K V) := insertObject hash eqv cp d k o .always

/-- DKDictionaryAddObject (225-232). -/
def addObject (d : Dict K V) (k : K) (o : Option V) : Except Fail (Dict K V) := insertObject hash eqv cp d k o .ifNotFound

/-- DKDictionaryReplaceObject (238-245). -/
def replaceObject (d : Dict K V) (k : K) (o : Option V) : Except Fail (Dict K V) := insertObject hash eqv cp d k o .ifFound

/-- DKDictionaryRemoveObject (297-304). -/
def removeObject (d : Dict K V) (k : K) : Except Fail (Dict K V) := HTable.remove hash eqv d k

/-- DKDictionaryInsertEntriesFromDictionary (271-291), from another dictionary. -/
def insertEntries (d src : Dict K V) (p : Policy) : Except Fail (Dict K V) :=
  (entries src.rows).foldlM (fun d e => insertObject hash eqv cp d e.1 e.2 p) d

/-- DKHashTableCopy (DKHashTable.c 526-540), DKHashTableInitDictionaryWithDictionary (411-422), InsertKeyAndObject (305-318). -/
def copy (src : Dict K V) : Except Fail (Dict K V) := insertEntries hash eqv cp HTable.init src .always

/-- DKHashTableApplyFunction (615-637) with a callback that does not change the table; whether a callback returned non-zero. -/
def foreach {E : Type} (f : E → Except Fail Bool) : List E → Except Fail Bool
  | [] => .ok false
  | e :: es => (f e).bind fun r => if r then .ok true else foreach f es

/-- DKEqual (DKComparison.c 75-89) on object references; `veq` is the objects' own equality. -/
def eqObj (veq : V → V → Bool) : Option V → Option V → Bool
  | none, none => true
  | some a, some b => veq a b
  | _, _ => false

/-- DKDictionaryEqualCallback (323-331). -/
def equalCallback (veq : V → V → Bool) (other : Dict K V) (e : K × Option V) : Except Fail Bool :=
  (getObject hash eqv other e.1).map fun o => !eqObj veq e.2 o

/-- DKDictionaryIsSubsetOfDictionary (358-373). -/
def isSubset (veq : V → V → Bool) (d other : Dict K V) : Except Fail Bool :=
  (foreach (equalCallback hash eqv veq other) (entries d.rows)).map (!·)

/-- DKDictionaryEqual (333-352). -/
def equal (veq : V → V → Bool) (d other : Dict K V) : Except Fail Bool :=
  if getCount d = getCount other then isSubset hash eqv veq d other else .ok false

/-- A call that changes a dictionary. -/
inductive Op (K V : Type) where
  | set (k : K) (o : Option V)
  | add (k : K) (o : Option V)
  | replace (k : K) (o : Option V)
  | remove (k : K)
  | removeAll

/-- One call. -/
def step (d : Dict K V) : Op K V → Except Fail (Dict K V)
  | .set k o => setObject hash eqv cp d k o
  | .add k o => addObject hash eqv cp d k o
  | .replace k o => replaceObject hash eqv cp d k o
  | .remove k => removeObject hash eqv d k
  | .removeAll => .ok (HTable.removeAll d)

/-- The dictionary after a history, most recent call first. -/
def run : List (Op K V) → Except Fail (Dict K V)
  | [] => .ok HTable.init
  | op :: h => (run h).bind fun d => step hash eqv cp d op

/-! ### Sets -/

/-- A DKSet: a hash table whose keys and objects are the members. -/
abbrev HSet (K : Type) := HTable.Table K K

/-- INTERNAL_DKHashTableAddObjectToSet (DKHashTable.c 783-792). -/
def setAdd (s : HSet K) (x : K) : Except Fail (HSet K) := (HTable.insert hash eqv s x x .ifNotFound).map (·.1)

/-- DKSetRemoveObject (DKSet.c 226-233). -/
def setRemove (s : HSet K) (x : K) : Except Fail (HSet K) := HTable.remove hash eqv s x

/-- DKHashTableInitSetWithCArray, -WithVAObjects, -WithCollection (DKHashTable.c 428-490). -/
def setInit (xs : List K) : Except Fail (HSet K) := xs.foldlM (fun s x => (HTable.insert hash eqv s x x .always).map (·.1)) HTable.init

/-- DKSetGetMember (DKSet.c 170-179). -/
def setMember (s : HSet K) (x : K) : Except Fail (Option K) := HTable.get hash eqv s x

/-- DKSetContainsObject (185-188). -/
def setContains (s : HSet K) (x : K) : Except Fail Bool := (setMember hash eqv s x).map Option.isSome

/-- The objects visited by DKHashTableApplyFunctionToObjects (DKHashTable.c 671-693). -/
def members (s : HSet K) : List K := (entries s.rows).map (·.2)

/-- DKSetIsSubsetOfSet (262-272). -/
def setIsSubset (s t : HSet K) : Except Fail Bool := (foreach (fun x => (setContains hash eqv t x).map (!·)) (members s)).map (!·)

/-- DKSetEqualToSet (252-256). -/
def setEqual (s t : HSet K) : Except Fail Bool := if s.activeCount = t.activeCount then setIsSubset hash eqv s t else .ok false

/-- DKSetIntersectsSet (278-288). -/
def setIntersects (s t : HSet K) : Except Fail Bool := (foreach (fun x => setContains hash eqv t x) (members s)).map (!·)

/-- DKSetUnion (294-303), with another set. -/
def setUnion (s t : HSet K) : Except Fail (HSet K) := (members t).foldlM (fun s x => setAdd hash eqv s x) s

/-- DKSetMinus (309-318), with another set. -/
def setMinus (s t : HSet K) : Except Fail (HSet K) := (members t).foldlM (fun s x => setRemove hash eqv s x) s

/-- The body of the loop of DKSetIntersect (335-341). -/
def intersectStep (t : HSet K) (s : HSet K) (x : K) : Except Fail (HSet K) :=
  (setMember hash eqv t x).bind fun r => if r.isSome then setAdd hash eqv s x else .ok s

/-- DKSetIntersect (324-345): the array of members is made first. -/
def setIntersect (s t : HSet K) : Except Fail (HSet K) := (members s).foldlM (intersectStep hash eqv t) s

/-- DKHashTableApplyFunctionToObjects (671-693) over the set that the callback changes: row `i`, in the table as it is by then. -/
def foreachSelf (f : HSet K → K → Except Fail (HSet K)) : Nat → Nat → HSet K → Except Fail (HSet K)
  | 0, _, s => .ok s
  | n + 1, i, s =>
    match s.rows[i]? with
    | some (.active _ o) => (f s o).bind (foreachSelf f n (i + 1))
    | _ => foreachSelf f n (i + 1) s

/-- DKSetUnion of a set with itself.  (Adding never changes the number of rows here: `C25_self`.) -/
def setUnionSelf (s : HSet K) : Except Fail (HSet K) := foreachSelf (setAdd hash eqv) s.rows.length 0 s

/-- DKSetMinus of a set with itself. -/
def setMinusSelf (s : HSet K) : Except Fail (HSet K) := foreachSelf (setRemove hash eqv) s.rows.length 0 s

end Dict
end Duck
