import Verif.Model.Json
import Verif.Model.Xml
/-
The parsers of Source/DKJSON.c and Source/DKXML.c once more, now with the objects they make: which objects exist, how
often each is owned, and what is released when.  The heap contains the objects made by the call and nothing else, so an
access to any other object is undefined, `none`; so are the use of a freed object and the wrong class of object.
References to NULL and to objects that are not counted (the booleans, DKBoolean.c:41-51; the empty constant string,
DKString.c:321-324) are `fixed`.  Simplified: the scanning of tokens and the automaton of yxml are those of Model.Json
and Model.Xml; a dictionary is the list of its rows (C06, C72; so the insertions that never return, C07, are left out);
the memory of numbers, strings, arrays and tables is part of the object; messages (DKError) are not modelled.
-/
namespace Duck
namespace ParseOwn

abbrev Bytes := List UInt8

/-- A DKObjectRef: NULL or an object that is not counted, or an object of the heap. -/
inductive Ref
  | fixed (v : Json.Json)
  | ptr (i : Nat)

/-- NULL -/
def null : Ref := .fixed .null

/-- The contents of an object: a string or a number; a DKMutableArray; a DKMutableHashTable, rows with the key's bytes, the
    key and the object (DKHashTable.c:44-60); a DKXMLElement (DKXML.c:46-53). -/
inductive Obj
  | leaf (v : Json.Json)
  | list (l : List Ref)
  | dict (l : List (Bytes × Ref × Ref))
  | element (name attrs kids : Ref)

/-- The objects in order of creation, with the number of owners; `none` once freed. -/
abbrev Heap := List (Option (Nat × Obj))

/-- The counted object a reference refers to -/
def Ref.ptrs : Ref → List Nat
  | .fixed _ => []
  | .ptr i => [i]

/-- The objects an object owns -/
def Obj.held : Obj → List Nat
  | .leaf _ => []
  | .list l => l.flatMap Ref.ptrs
  | .dict l => l.flatMap fun r => r.2.1.ptrs ++ r.2.2.ptrs
  | .element a b c => a.ptrs ++ b.ptrs ++ c.ptrs

/-- The object at an address, if there is one -/
def get (h : Heap) (i : Nat) : Option (Nat × Obj) := (h[i]?).join

/-- DKAlloc and the initializers: an object with one owner (DKRuntime.c:511-550) -/
def alloc (h : Heap) (o : Obj) : Heap := h ++ [some (1, o)]

/-- DKRetain, DKRuntime+RefCount.c:48-68 -/
def retain (h : Heap) : Ref → Option Heap
  | .fixed _ => some h
  | .ptr i => (get h i).map fun c => h.set i (some (c.1 + 1, c.2))

/-- DKRelease of each of the objects, DKRuntime+RefCount.c:74-119: the last owner frees the object and releases what it owns
    (DKArrayFinalize, DKHashTableFinalize, DKXMLElementFinalize, DKXML.c:80-87) before the next object is released.  The
    first argument bounds the number of releases. -/
def releaseAll : Nat → Heap → List Nat → Option Heap
  | _, h, [] => some h
  | 0, _, _ :: _ => none
  | fuel + 1, h, i :: w => (get h i).bind fun c =>
    match c.1 with
    | 0 => none
    | 1 => releaseAll fuel (h.set i none) (c.2.held ++ w)
    | n + 2 => releaseAll fuel (h.set i (some (n + 1, c.2))) w

/-- The owners of a cell -/
def owners : Option (Nat × Obj) → Nat
  | none => 0
  | some c => c.1

/-- DKRelease -/
def release (h : Heap) (r : Ref) : Option Heap := releaseAll ((h.map owners).sum) h r.ptrs

/-- Storing the contents of an object -/
def store (h : Heap) (i : Nat) (o : Obj) : Option Heap := (get h i).map fun c => h.set i (some (c.1, o))

/-- The entries of a DKMutableArray -/
def listOf (h : Heap) (i : Nat) : Option (List Ref) := (get h i).bind fun c =>
  match c.2 with
  | .list l => some l
  | _ => none

/-- The rows of a DKMutableHashTable -/
def rowsOf (h : Heap) (i : Nat) : Option (List (Bytes × Ref × Ref)) := (get h i).bind fun c =>
  match c.2 with
  | .dict l => some l
  | _ => none

/-- DKListAppendObject, DKList.c:385-394, of an array (DKArray.c:560-610): the array becomes an owner -/
def listAppend (h : Heap) (x : Nat) (v : Ref) : Option Heap :=
  (retain h v).bind fun h => (listOf h x).bind fun l => store h x (.list (l ++ [v]))

/-- The object of the row with a key -/
def findRow (k : Bytes) : List (Bytes × Ref × Ref) → Option Ref
  | [] => none
  | r :: l => if r.1 = k then some r.2.2 else findRow k l

/-- The rows with another object for a key -/
def setRow (k : Bytes) (v : Ref) : List (Bytes × Ref × Ref) → List (Bytes × Ref × Ref)
  | [] => []
  | r :: l => if r.1 = k then (r.1, r.2.1, v) :: l else r :: setRow k v l

/-- `row->object != src->object`; for objects that are not counted the answer has no effect -/
def Ref.same : Ref → Ref → Bool
  | .ptr i, .ptr j => i == j
  | _, _ => false

/-- RowUpdate of a row that is in use, DKHashTable.c:279-283; the row is shown empty while the old object is released -/
def replaceRow (h : Heap) (x : Nat) (l : List (Bytes × Ref × Ref)) (s : Bytes) (old v : Ref) : Option Heap :=
  if old.same v then some h
  else (store h x (.dict (setRow s null l))).bind fun h => (release h old).bind fun h => (retain h v).bind fun h =>
    store h x (.dict (setRow s v l))

/-- RowUpdate of an empty row, DKHashTable.c:274-283 -/
def newRow (h : Heap) (x : Nat) (l : List (Bytes × Ref × Ref)) (s : Bytes) (k v : Ref) : Option Heap :=
  (retain h k).bind fun h => (retain h v).bind fun h => store h x (.dict (l ++ [(s, k, v)]))

/-- RowUpdate, DKHashTable.c:269-284, of the row found -/
def updateRow (h : Heap) (x : Nat) (l : List (Bytes × Ref × Ref)) (s : Bytes) (k v : Ref) : Option Ref → Option Heap
  | some old => replaceRow h x l s old v
  | none => newRow h x l s k v

/-- INTERNAL_DKHashTableInsertObject, DKHashTable.c:717-728, after `row.key = DKCopy( key )` gave `k`, a key with the bytes
    `s` -/
def insertRow (h : Heap) (x : Nat) (s : Bytes) (k v : Ref) : Option Heap :=
  (rowsOf h x).bind fun l => (updateRow h x l s k v (findRow s l)).bind fun h => release h k

/-! ## DKJSON.c -/

/-- DKCopy of a mutable string, DKString.c:697-700 and 342-347: a new string, or the constant empty string -/
def copyString (h : Heap) (s : Bytes) : Heap × Ref :=
  if s = [] then (h, .fixed (.str [])) else (alloc h (.leaf (.str s)), .ptr h.length)

/-- DKDictionarySetObject with a mutable string as the key, DKDictionary.c:212-219 -/
def dictSet (h : Heap) (x : Nat) (s : Bytes) (v : Ref) : Option Heap :=
  insertRow (copyString h s).1 x s (copyString h s).2 v

/-- `DKIsKindOfClass( key, DKStringClass() )`: the bytes if it is a string -/
def stringOf (h : Heap) : Ref → Option (Option Bytes)
  | .fixed _ => some none
  | .ptr i => (get h i).map fun c =>
    match c.2 with
    | .leaf (.str s) => some s
    | _ => none

/-- The result of ParseObject: 0 with an object, ']', '}', or -1 -/
inductive Res
  | ok (r : Ref)
  | closeList
  | closeDict
  | error

/-- The tests for "true", "false" and "null", DKJSON.c:497-522: no object is made -/
def word : Json.Res → Res
  | .ok v => .ok (.fixed v)
  | _ => .error

/-- The end of ParseObject, DKJSON.c:517-522: `*obj` and the key are released (`value` is NULL there) -/
def giveUp (h : Heap) (x : Nat) (k : Ref) (m : Unicode.Mem) : Option (Res × Unicode.Mem × Heap) :=
  (release h (.ptr x)).bind fun h => (release h k).map fun h => (.error, m, h)

mutual
/-- ParseObject, DKJSON.c:358-523 -/
def parseObject (H : Json.Host) : Nat → Unicode.Mem → Heap → Option (Res × Unicode.Mem × Heap)
  | 0, _, _ => none
  | fuel + 1, m, h => (Json.scanToken H true m).bind fun t =>
    if t.empty then some (.error, t.cur, h)
    else match t.obj with
      | some v => some (.ok (.ptr h.length), t.cur, alloc h (.leaf v))
      | none => t.str.head?.bind fun ch =>
        if ch = 0x5b then parseList H fuel t.cur h.length (alloc h (.list []))
        else if ch = 0x5d then some (.closeList, t.cur, h)
        else if ch = 0x7b then parseDict H fuel t.cur h.length (alloc h (.dict []))
        else if ch = 0x7d then some (.closeDict, t.cur, h)
        else if ch = 0x2d ∨ Num.isDigit ch then
          (Num.strtonum t.str).map fun n => (.ok (.ptr h.length), t.cur, alloc h (.leaf (.num n.1)))
        else (Json.parseWord t.str).map fun r => (word r, t.cur, h)
/-- The loop over elements, DKJSON.c:383-409, of the list `x` -/
def parseList (H : Json.Host) : Nat → Unicode.Mem → Nat → Heap → Option (Res × Unicode.Mem × Heap)
  | 0, _, _, _ => none
  | fuel + 1, m, x, h => (parseObject H fuel m h).bind fun r =>
    match r with
    | (.closeList, m, h) => some (.ok (.ptr x), m, h)
    | (.ok v, m, h) => (listAppend h x v).bind fun h => (release h v).bind fun h =>
        (Json.scanToken H false m).bind fun t => t.str.head?.bind fun ch =>
        if ch = 0x5d then some (.ok (.ptr x), t.cur, h)
        else if ch = 0x2c then parseList H fuel t.cur x h
        else giveUp h x null t.cur
    | (_, m, h) => giveUp h x null m
/-- The loop over members, DKJSON.c:423-468, of the dictionary `x` -/
def parseDict (H : Json.Host) : Nat → Unicode.Mem → Nat → Heap → Option (Res × Unicode.Mem × Heap)
  | 0, _, _, _ => none
  | fuel + 1, m, x, h => (parseObject H fuel m h).bind fun r =>
    match r with
    | (.closeDict, m, h) => some (.ok (.ptr x), m, h)
    | (.ok k, m, h) => (stringOf h k).bind fun s =>
      match s with
      | none => giveUp h x k m
      | some s => (Json.scanToken H false m).bind fun t => t.str.head?.bind fun ch =>
        if ch = 0x3a then (parseObject H fuel t.cur h).bind fun r =>
          match r with
          | (.ok v, m, h) => (dictSet h x s v).bind fun h => (release h k).bind fun h => (release h v).bind fun h =>
              (Json.scanToken H false m).bind fun t => t.str.head?.bind fun ch =>
              if ch = 0x7d then some (.ok (.ptr x), t.cur, h)
              else if ch = 0x2c then parseDict H fuel t.cur x h
              else giveUp h x null t.cur
          | (_, m, h) => giveUp h x k m
        else giveUp h x k t.cur
    | (_, m, h) => giveUp h x null m
end

/-- What DKJSONParse returns -/
def Res.object : Res → Ref
  | .ok r => r
  | _ => null

/-- DKJSONParse, DKJSON.c:335-352, of the memory at the text: the object, which an autorelease pool owns from now on, and
    the objects that exist -/
def parseJson (H : Json.Host) (m : Unicode.Mem) : Option (Ref × Heap) :=
  (parseObject H (2 * m.length) m []).map fun r => (r.1.object, r.2.2)

/-! ## DKXML.c -/

/-- The variables of INTERNAL_DKXMLParse, DKXML.c:218-226: `root`, the array `stack` and `attrValue` -/
structure Vars where
  root : Ref
  stack : Nat
  attr : Ref

/-- DKListGetLastObject, DKList.c:366-379, of the stack, as an element that is used at once: NULL is undefined -/
def top (h : Heap) (stack : Nat) : Option Nat := (listOf h stack).bind fun l =>
  match l.getLast? with
  | some (.ptr i) => some i
  | _ => none

/-- `parent->elements` -/
def kidsOf (h : Heap) (e : Nat) : Option Nat := (get h e).bind fun c =>
  match c.2 with
  | .element _ _ (.ptr k) => some k
  | _ => none

/-- `parent->attributes` -/
def attrsOf (h : Heap) (e : Nat) : Option Nat := (get h e).bind fun c =>
  match c.2 with
  | .element _ (.ptr a) _ => some a
  | _ => none

/-- The new element, its name, its dictionary and its list, DKXML.c:259-262 -/
def newElement (h : Heap) (name : Bytes) : Heap :=
  alloc (alloc (alloc (alloc h (.element (.ptr (h.length + 1)) (.ptr (h.length + 2)) (.ptr (h.length + 3))))
    (.leaf (.str name))) (.dict [])) (.list [])

/-- Linking the element into the tree, DKXML.c:264-276: the root is owned by the variable, other elements by their parent -/
def link (v : Vars) (h : Heap) (e : Nat) : Option (Vars × Heap) :=
  match v.root with
  | .fixed _ => some ({ v with root := .ptr e }, h)
  | .ptr _ => (top h v.stack).bind fun p => (kidsOf h p).bind fun k => (listAppend h k (.ptr e)).bind fun h =>
      (release h (.ptr e)).map fun h => (v, h)

/-- The start of an element, DKXML.c:257-280 -/
def elemStart (v : Vars) (h : Heap) (name : Bytes) : Option (Vars × Heap) :=
  (link v (newElement h name) h.length).bind fun q =>
    (listAppend q.2 q.1.stack (.ptr h.length)).map fun h => (q.1, h)

/-- The text at the end of the list of elements, DKXML.c:181-184: NULL if the list is empty or ends with an element -/
def lastText (h : Heap) (k : Nat) : Option (Option (Nat × Bytes)) := (listOf h k).bind fun l =>
  match l.getLast? with
  | none => some none
  | some (.fixed _) => some none
  | some (.ptr i) => (get h i).map fun c =>
    match c.2 with
    | .leaf (.str s) => some (i, s)
    | _ => none

/-- Writing to a text that exists, DKXML.c:199-208 -/
def writeText (h : Heap) (i : Nat) (s ch : Bytes) : Option Heap :=
  if !Num.isSpace (ch.headD 0) then store h i (.leaf (.str (s ++ ch)))
  else if !Xml.endsInSpace s && s ≠ [] then store h i (.leaf (.str (s ++ [0x20])))
  else some h

/-- DKXMLAppendTextContent, DKXML.c:178-209, on the list of elements -/
def appendText (h : Heap) (k : Nat) (ch : Bytes) : Option Heap := (lastText h k).bind fun t =>
  match t with
  | some (i, s) => writeText h i s ch
  | none =>
    if Num.isSpace (ch.headD 0) then some h
    else (listAppend (alloc h (.leaf (.str []))) k (.ptr h.length)).bind fun h' => (release h' (.ptr h.length)).bind fun h' =>
      writeText h' h.length [] ch

/-- `DKListRemoveLastObject( stack )`, DKList.c:587-601 -/
def removeLast (h : Heap) (x : Nat) : Option Heap := (listOf h x).bind fun l =>
  match l.getLast? with
  | none => some h
  | some r => (store h x (.list l.dropLast)).bind fun h => release h r

/-- `DKStringAppendCString( attrValue, ... )`, DKXML.c:298: nothing for NULL -/
def appendAttr (h : Heap) (s : Bytes) : Ref → Option Heap
  | .fixed _ => some h
  | .ptr i => (get h i).bind fun c =>
    match c.2 with
    | .leaf (.str t) => store h i (.leaf (.str (t ++ s)))
    | _ => none

/-- The end of an attribute, DKXML.c:301-310; DKCopy of the name, an immutable string, is DKRetain (DKString.c:124) -/
def attrEnd (v : Vars) (h : Heap) (name : Bytes) : Option (Vars × Heap) :=
  (top h v.stack).bind fun p =>
    (retain (alloc h (.leaf (.str name))) (.ptr h.length)).bind fun h₁ => (attrsOf h₁ p).bind fun a =>
      (insertRow h₁ a name (.ptr h.length) v.attr).bind fun h₁ => (release h₁ (.ptr h.length)).bind fun h₁ =>
        (release h₁ v.attr).map fun h₁ => ({ v with attr := null }, h₁)

/-- The switch of INTERNAL_DKXMLParse, DKXML.c:253-320, for the codes that are not errors; `s` is the string the case reads
    from the parser -/
def build (v : Vars) (h : Heap) (r : Xml.Ret) (s : Bytes) : Option (Vars × Heap) :=
  match r with
  | .elemstart => elemStart v h s
  | .content => (top h v.stack).bind fun p => (kidsOf h p).bind fun k => (appendText h k s).map fun h => (v, h)
  | .elemend => (removeLast h v.stack).map fun h => (v, h)
  | .attrstart => some ({ v with attr := .ptr h.length }, alloc h (.leaf (.str [])))
  | .attrval => (appendAttr h s v.attr).map fun h => (v, h)
  | .attrend => attrEnd v h s
  | _ => some (v, h)

/-- How the loop ends -/
inductive Outcome
  | error (r : Xml.Ret) (v : Vars) (h : Heap)
  | done (p : Xml.Parser) (v : Vars) (h : Heap)

/-- What the loop does with one code, DKXML.c:232-320 -/
def handle (v : Vars) (h : Heap) (q : Xml.Parser × Xml.Ret) : Option (Outcome) :=
  if q.2.isError then some (.error q.2 v h)
  else (Xml.token q.1 q.2).bind fun s => (build v h q.2 s).map fun b => .done q.1 b.1 b.2

/-- The loop of INTERNAL_DKXMLParse, DKXML.c:228-321 -/
def loop (p : Xml.Parser) (v : Vars) (h : Heap) : Bytes → Option Outcome
  | [] => some (.done p v h)
  | ch :: l => ((Xml.step p ch).bind (handle v h)).bind fun
      | .error r v h => some (.error r v h)
      | .done p v h => loop p v h l

/-- After the loop, DKXML.c:323-330: the stack and the value are released, the root is returned -/
def finish (v : Vars) (h : Heap) : Option Heap := (release h (.ptr v.stack)).bind fun h => release h v.attr

/-- DKXML.c:335-338: everything is released -/
def abandon (v : Vars) (h : Heap) : Option Heap := (release h v.root).bind (finish v)

/-- INTERNAL_DKXMLParse without the retry, DKXML.c:216-340: the last code, the result and the objects -/
def parseOnce (junk : Nat → UInt8) (size : Nat) (xml : Bytes) (h : Heap) : Option (Xml.Ret × Ref × Heap) :=
  (Xml.initParser junk size).bind fun p => (loop p ⟨null, h.length, null⟩ (alloc h (.list [])) xml).bind fun
    | .error r v h => (abandon v h).map fun h => (r, null, h)
    | .done p v h => if Xml.atEnd p then (finish v h).map fun h => (.ok, v.root, h)
        else (abandon v h).map fun h => (.ok, null, h)

/-- INTERNAL_DKXMLParse, DKXML.c:216-344 -/
def parseFrom (junk : Nat → UInt8) : Nat → Nat → Bytes → Heap → Option (Ref × Heap)
  | 0, _, _, _ => none
  | fuel + 1, size, xml, h => (parseOnce junk size xml h).bind fun
      | (.estack, _, h) => parseFrom junk fuel (size * 2) xml h
      | (_, r, h) => some (r, h)

/-- DKXMLParse, DKXML.c:350-356, of a string without a zero byte: the element, which an autorelease pool owns from now on,
    and the objects that exist -/
def parseXml (junk : Nat → UInt8) (fuel : Nat) (xml : Bytes) : Option (Ref × Heap) :=
  if xml.length = 0 then some (null, []) else parseFrom junk fuel (16 * 1024) xml []

end ParseOwn
end Duck
