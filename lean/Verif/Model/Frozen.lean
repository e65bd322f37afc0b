import Verif.Model.Text
/-! Which calls change which objects (DKArray.c, DKLinkedList.c, DKBinaryTree.c, DKHashTable.c, DKData.c, DKString.c,
DKNumber.c and the interface calls of DKList.c, DKSet.c, DKDictionary.c, DKBuffer.c, DKStream.c,
DKRuntime+Properties.c).  What a change does to the contents is a parameter: the theorems hold for every effect. -/
namespace Duck
namespace Frozen

/-- The classes, DKArray.c:74, 164, DKLinkedList.c:94, 184, DKBinaryTree.c:88, 192, DKHashTable.c:80, 184, DKData.c:67,
    133, DKString.c:103, 192, 203, DKNumber.c:345, 404, DKBoolean.c:74 -/
inductive Base
  | array | mutableArray | linkedList | mutableLinkedList | binaryTree | mutableBinaryTree | hashTable | mutableHashTable
  | data | mutableData | string | constantString | mutableString | number | variableNumber | boolean
deriving DecidableEq, Repr

/-- A class of the library, or a subclass made by the program (DKNewClass, DKRuntime.c:439-470) without interfaces of
    its own for the calls below.  Simplified: that constant strings cannot have subclasses is not modelled. -/
inductive Cls
  | base (b : Base)
  | sub (c : Cls)
deriving DecidableEq, Repr

/-- The superclass given to DKNewClass, in the lines of `Base`; `none` is DKObjectClass -/
def superOf : Base → Option Base
  | .mutableArray => some .array
  | .mutableLinkedList => some .linkedList
  | .mutableBinaryTree => some .binaryTree
  | .mutableHashTable => some .hashTable
  | .mutableData => some .data
  | .constantString => some .string
  | .mutableString => some .string
  | .variableNumber => some .number
  | .boolean => some .number
  | _ => none

/-- DKIsKindOfClass, DKRuntime+Reflection.c:135-160: the class or one of its superclasses -/
def kindOf : Cls → Base → Bool
  | .base b, k => b == k || superOf b == some k
  | .sub c, k => kindOf c k

/-- DKIsMemberOfClass, DKRuntime+Reflection.c: the class itself -/
def memberOf : Cls → Base → Bool
  | .base b, k => b == k
  | .sub _, _ => false

/-- The calls DKArrayAppendObject ..., DKArray.h:64-73 -/
inductive ArrayCall
  | appendObject | appendCArray | appendCollection | replaceRangeWithCArray | replaceRangeWithCollection | sort
  | reverse | shuffle
deriving DecidableEq, Repr

/-- The calls DKLinkedListAppendCArray ..., DKLinkedList.h:63-75 -/
inductive LinkedCall
  | appendCArray | appendCollection | replaceRangeWithCArray | replaceRangeWithCollection | sort | reverse | shuffle
  | insertObjectWithPriority
deriving DecidableEq, Repr

/-- The calls DKBinaryTreeInsertObject ..., DKBinaryTree.h:70-74, and DKHashTableInsertObject ..., DKHashTable.h:65-69 -/
inductive KeyedCall
  | insertObject | removeObject | removeAllObjects | addObjectToSet
deriving DecidableEq, Repr

/-- The calls DKDataSetLength ..., DKData.h:74-103 (without DKDataSetEncodingType) -/
inductive DataCall
  | setLength | increaseLength | getMutableBytePtr | getMutableByteRange | appendData | appendBytes | replaceBytes
  | deleteBytes | write
deriving DecidableEq, Repr

/-- The calls DKStringSetByteLength ..., DKString.h:95-168 (without DKStringReplaceOccurrencesOfString) -/
inductive StringCall
  | setByteLength | getMutableBytePtr | setString | setCString | setBytes | appendString | appendFormat | appendFormatv
  | appendCString | appendBytes | replaceSubstring | escape | unescape | deleteSubstring | appendPathComponent
  | deleteLastPathComponent | appendPathExtension | deletePathExtension | standardizePath | write
deriving DecidableEq, Repr

/-- The calls DKNumberSetValue, DKNumberGetVariableValuePtr, DKNumberSetEnumeratedValue and
    DKNumberSetEnumeratedMatrixValue, DKNumber.h:92-112 -/
inductive NumberCall
  | setValue | getVariableValuePtr | setEnumeratedValue | setEnumeratedMatrixValue
deriving DecidableEq, Repr

/-- The calls that name a class -/
inductive Direct
  | array (c : ArrayCall)
  | linkedList (c : LinkedCall)
  | binaryTree (c : KeyedCall)
  | hashTable (c : KeyedCall)
  | data (c : DataCall)
  | string (c : StringCall)
  | number (c : NumberCall)
deriving DecidableEq, Repr

/-- What a call does first: DKCheckKindOfClass (DKPlatform.h:546-557) returns from the call, in every configuration;
    DKAssertKindOfClass (DKPlatform.h:484-495, 534) ends the program when the library is built for debugging and is
    nothing otherwise. -/
inductive Guard
  | check (k : Base)
  | assert (k : Base)
deriving DecidableEq, Repr

/-- The guard of each call: DKArray.c:465-650, DKLinkedList.c:734-978, DKBinaryTree.c:994-1081, DKHashTable.c:712-778,
    DKData.c:546-851, DKString.c:923-2388, DKNumber.c:677, 720, 783, 847 -/
def guard : Direct → Guard
  | .array .appendObject => .check .mutableArray
  | .array .appendCArray => .check .mutableArray
  | .array .appendCollection => .check .mutableArray
  | .array .replaceRangeWithCArray => .check .mutableArray
  | .array .replaceRangeWithCollection => .check .mutableArray
  | .array .sort => .check .mutableArray
  | .array .reverse => .check .mutableArray
  | .array .shuffle => .check .mutableArray
  | .linkedList .appendCArray => .check .mutableLinkedList
  | .linkedList .appendCollection => .check .mutableLinkedList
  | .linkedList .replaceRangeWithCArray => .check .mutableLinkedList
  | .linkedList .replaceRangeWithCollection => .check .mutableLinkedList
  | .linkedList .sort => .check .mutableLinkedList
  | .linkedList .reverse => .check .mutableLinkedList
  | .linkedList .shuffle => .check .mutableLinkedList
  | .linkedList .insertObjectWithPriority => .check .mutableLinkedList
  | .binaryTree .insertObject => .check .mutableBinaryTree
  | .binaryTree .removeObject => .check .mutableBinaryTree
  | .binaryTree .removeAllObjects => .check .mutableBinaryTree
  | .binaryTree .addObjectToSet => .check .mutableBinaryTree
  | .hashTable .insertObject => .check .mutableHashTable
  | .hashTable .removeObject => .check .mutableHashTable
  | .hashTable .removeAllObjects => .check .mutableHashTable
  | .hashTable .addObjectToSet => .check .mutableHashTable
  | .data .setLength => .check .mutableData
  | .data .increaseLength => .check .mutableData
  | .data .getMutableBytePtr => .check .mutableData
  | .data .getMutableByteRange => .check .mutableData
  | .data .appendData => .check .mutableData
  | .data .appendBytes => .check .mutableData
  | .data .replaceBytes => .check .mutableData
  | .data .deleteBytes => .check .mutableData
  | .data .write => .check .mutableData
  | .string .setByteLength => .check .mutableString
  | .string .getMutableBytePtr => .check .mutableString
  | .string .setString => .check .mutableString
  | .string .setCString => .check .mutableString
  | .string .setBytes => .check .mutableString
  | .string .appendString => .check .mutableString
  | .string .appendFormat => .check .mutableString
  | .string .appendFormatv => .check .mutableString
  | .string .appendCString => .check .mutableString
  | .string .appendBytes => .check .mutableString
  | .string .replaceSubstring => .check .mutableString
  | .string .escape => .check .mutableString
  | .string .unescape => .check .mutableString
  | .string .deleteSubstring => .check .mutableString
  | .string .appendPathComponent => .check .mutableString
  | .string .deleteLastPathComponent => .check .mutableString
  | .string .appendPathExtension => .check .mutableString
  | .string .deletePathExtension => .check .mutableString
  | .string .standardizePath => .check .mutableString
  | .string .write => .check .mutableString
  | .number .setValue => .assert .variableNumber
  | .number .getVariableValuePtr => .assert .variableNumber
  | .number .setEnumeratedValue => .assert .variableNumber
  | .number .setEnumeratedMatrixValue => .assert .variableNumber

/-- The functions of the interfaces that change the object: of DKListInterface (DKList.h:60-82), DKSetInterface
    (DKSet.h:56-70), DKDictionaryInterface (DKDictionary.h:53-68), DKBufferInterface (DKBuffer.h:46-58),
    DKStreamInterface (DKStream.h:51-62) and DKPropertyInterface -/
inductive Slot
  | appendCArray | appendCollection | replaceRangeWithCArray | replaceRangeWithCollection | sort | reverse | shuffle
  | addObject | removeObject | removeAllObjects
  | insertEntry | removeEntry | removeAllEntries
  | setLength | getMutableBytePtr
  | write
  | setProperty
deriving DecidableEq, Repr

/-- What is installed in a slot: DKImmutableObjectAccessError (DKPlatform.c:272-275), a function that changes the object
    without a check (INTERNAL_...), one of the calls above with its check, or one of DKListAddObjectToSet,
    DKListRemoveObject and DKListRemoveAllObjects, which go through the named slot of the object's list interface -/
inductive Fn
  | refuse
  | change
  | call (d : Direct)
  | throughList (s : Slot)
deriving DecidableEq, Repr

/-- The slots a class installs, DKArray.c:120-142, 182-208, DKLinkedList.c:140-162, 204-226, DKBinaryTree.c:144-170,
    210-236, DKHashTable.c:136-162, 202-228, DKData.c:98-109, 146-160, DKString.c:142-153, 225-237; `none` when the
    class does not install the interface.  Constant strings (DKString.c:192), variable numbers and booleans install none of
    these. -/
def own : Base → Slot → Option Fn
  | .array, .appendCArray => some .refuse
  | .array, .appendCollection => some .refuse
  | .array, .replaceRangeWithCArray => some .refuse
  | .array, .replaceRangeWithCollection => some .refuse
  | .array, .sort => some .refuse
  | .array, .reverse => some .refuse
  | .array, .shuffle => some .refuse
  | .array, .addObject => some .refuse
  | .array, .removeObject => some .refuse
  | .array, .removeAllObjects => some .refuse
  | .mutableArray, .appendCArray => some .change
  | .mutableArray, .appendCollection => some .change
  | .mutableArray, .replaceRangeWithCArray => some .change
  | .mutableArray, .replaceRangeWithCollection => some .change
  | .mutableArray, .sort => some (.call (.array .sort))
  | .mutableArray, .reverse => some (.call (.array .reverse))
  | .mutableArray, .shuffle => some (.call (.array .shuffle))
  | .mutableArray, .addObject => some (.throughList .appendCArray)
  | .mutableArray, .removeObject => some (.throughList .replaceRangeWithCArray)
  | .mutableArray, .removeAllObjects => some (.throughList .replaceRangeWithCArray)
  | .linkedList, .appendCArray => some .refuse
  | .linkedList, .appendCollection => some .refuse
  | .linkedList, .replaceRangeWithCArray => some .refuse
  | .linkedList, .replaceRangeWithCollection => some .refuse
  | .linkedList, .sort => some .refuse
  | .linkedList, .reverse => some .refuse
  | .linkedList, .shuffle => some .refuse
  | .linkedList, .addObject => some .refuse
  | .linkedList, .removeObject => some .refuse
  | .linkedList, .removeAllObjects => some .refuse
  | .mutableLinkedList, .appendCArray => some .change
  | .mutableLinkedList, .appendCollection => some .change
  | .mutableLinkedList, .replaceRangeWithCArray => some .change
  | .mutableLinkedList, .replaceRangeWithCollection => some .change
  | .mutableLinkedList, .sort => some (.call (.linkedList .sort))
  | .mutableLinkedList, .reverse => some (.call (.linkedList .reverse))
  | .mutableLinkedList, .shuffle => some (.call (.linkedList .shuffle))
  | .mutableLinkedList, .addObject => some (.throughList .appendCArray)
  | .mutableLinkedList, .removeObject => some (.throughList .replaceRangeWithCArray)
  | .mutableLinkedList, .removeAllObjects => some (.throughList .replaceRangeWithCArray)
  | .binaryTree, .insertEntry => some .refuse
  | .binaryTree, .removeEntry => some .refuse
  | .binaryTree, .removeAllEntries => some .refuse
  | .binaryTree, .addObject => some .refuse
  | .binaryTree, .removeObject => some .refuse
  | .binaryTree, .removeAllObjects => some .refuse
  | .binaryTree, .setProperty => some .refuse
  | .mutableBinaryTree, .insertEntry => some .change
  | .mutableBinaryTree, .removeEntry => some .change
  | .mutableBinaryTree, .removeAllEntries => some .change
  | .mutableBinaryTree, .addObject => some .change
  | .mutableBinaryTree, .removeObject => some .change
  | .mutableBinaryTree, .removeAllObjects => some .change
  | .mutableBinaryTree, .setProperty => some .change
  | .hashTable, .insertEntry => some .refuse
  | .hashTable, .removeEntry => some .refuse
  | .hashTable, .removeAllEntries => some .refuse
  | .hashTable, .addObject => some .refuse
  | .hashTable, .removeObject => some .refuse
  | .hashTable, .removeAllObjects => some .refuse
  | .hashTable, .setProperty => some .refuse
  | .mutableHashTable, .insertEntry => some .change
  | .mutableHashTable, .removeEntry => some .change
  | .mutableHashTable, .removeAllEntries => some .change
  | .mutableHashTable, .addObject => some .change
  | .mutableHashTable, .removeObject => some .change
  | .mutableHashTable, .removeAllObjects => some .change
  | .mutableHashTable, .setProperty => some .change
  | .data, .setLength => some .refuse
  | .data, .getMutableBytePtr => some .refuse
  | .data, .write => some .refuse
  | .mutableData, .setLength => some (.call (.data .setLength))
  | .mutableData, .getMutableBytePtr => some (.call (.data .getMutableBytePtr))
  | .mutableData, .write => some (.call (.data .write))
  | .string, .setLength => some .refuse
  | .string, .getMutableBytePtr => some .refuse
  | .string, .write => some .refuse
  | .mutableString, .setLength => some (.call (.string .setByteLength))
  | .mutableString, .getMutableBytePtr => some (.call (.string .getMutableBytePtr))
  | .mutableString, .write => some (.call (.string .write))
  | _, _ => none

/-- The slot DKGetInterface finds, DKRuntime+Interfaces.c:398-410: of the class, else of its superclass -/
def slot : Cls → Slot → Option Fn
  | .base b, s => match own b s with
    | some f => some f
    | none => (superOf b).bind fun c => own c s
  | .sub c, s => slot c s

/-- The calls that go through an interface -/
inductive Generic
  | listAppendObject | listAppendCArray | listAppendCollection | listSetObjectAtIndex | listInsertObjectAtIndex
  | listReplaceRangeWithCArray | listReplaceRangeWithCollection | listAddObjectToSet | listRemoveObject
  | listRemoveObjectAtIndex | listRemoveObjectsInRange | listRemoveAllObjects | listRemoveFirstObject
  | listRemoveLastObject | listSort | listReverse | listShuffle
  | setAddObject | setRemoveObject | setRemoveAllObjects | setUnion | setMinus | setIntersect
  | dictionarySetObject | dictionaryAddObject | dictionaryReplaceObject | dictionaryInsertObject
  | dictionaryInsertEntriesFromDictionary | dictionaryRemoveObject | dictionaryRemoveAllObjects
  | bufferSetLength | bufferGetMutableBytePtr
  | streamWrite | streamPrintf | streamPuts | streamPutc
  | setProperty
deriving DecidableEq, Repr

/-- The slot each of them calls, DKList.c:385-715, DKSet.c:213-345, DKDictionary.c:212-320, DKBuffer.c:62-76,
    DKStream.c:90-100, 275-480, 555-594, DKRuntime+Properties.c:672-702 (for a name that is not a declared property) -/
def Generic.slot : Generic → Slot
  | .listAppendObject => .appendCArray
  | .listAppendCArray => .appendCArray
  | .listAppendCollection => .appendCollection
  | .listSetObjectAtIndex => .replaceRangeWithCArray
  | .listInsertObjectAtIndex => .replaceRangeWithCArray
  | .listReplaceRangeWithCArray => .replaceRangeWithCArray
  | .listReplaceRangeWithCollection => .replaceRangeWithCollection
  | .listAddObjectToSet => .appendCArray
  | .listRemoveObject => .replaceRangeWithCArray
  | .listRemoveObjectAtIndex => .replaceRangeWithCArray
  | .listRemoveObjectsInRange => .replaceRangeWithCArray
  | .listRemoveAllObjects => .replaceRangeWithCArray
  | .listRemoveFirstObject => .replaceRangeWithCArray
  | .listRemoveLastObject => .replaceRangeWithCArray
  | .listSort => .sort
  | .listReverse => .reverse
  | .listShuffle => .shuffle
  | .setAddObject => .addObject
  | .setRemoveObject => .removeObject
  | .setRemoveAllObjects => .removeAllObjects
  | .setUnion => .addObject
  | .setMinus => .removeObject
  | .setIntersect => .addObject
  | .dictionarySetObject => .insertEntry
  | .dictionaryAddObject => .insertEntry
  | .dictionaryReplaceObject => .insertEntry
  | .dictionaryInsertObject => .insertEntry
  | .dictionaryInsertEntriesFromDictionary => .insertEntry
  | .dictionaryRemoveObject => .removeEntry
  | .dictionaryRemoveAllObjects => .removeAllEntries
  | .bufferSetLength => .setLength
  | .bufferGetMutableBytePtr => .getMutableBytePtr
  | .streamWrite => .write
  | .streamPrintf => .write
  | .streamPuts => .write
  | .streamPutc => .write
  | .setProperty => .setProperty

/-- An object: its class, its contents (bytes, members, entries or value; not the position of the stream) and its tag,
    in which data keep their encoding type and numbers their encoding -/
structure Obj (K : Type) where
  cls : Cls
  contents : K
  tag : Nat
deriving DecidableEq, Repr

/-- A change: by a call or by the function in a slot -/
inductive Edit
  | direct (d : Direct)
  | slot (s : Slot)
deriving DecidableEq, Repr

/-- What the caller learns: the call was done; it was refused (an error is printed; NULL, zero, false or nothing is
    returned); or what it returns is unspecified -/
inductive Answer
  | done | refused | unspecified
deriving DecidableEq, Repr

/-- The effects of the changes: `e x n k` are the contents after `x` with the arguments numbered `n` on the contents `k` -/
abbrev Effects (K : Type) := Edit → Nat → K → K

/-- A call with its guard, see `guard`.  For DKDataGetMutableBytePtr and the like the change is what the program writes
    through the pointer.  `none`: the program is ended by the assertion or, without it, writes over a structure that is
    not a number. -/
def callDirect {K : Type} (debug : Bool) (e : Effects K) (d : Direct) (n : Nat) (o : Obj K) : Option (Obj K × Answer) :=
  match guard d with
  | .check k => if kindOf o.cls k then some ({ o with contents := e (.direct d) n o.contents }, .done) else some (o, .refused)
  | .assert k =>
    if kindOf o.cls k then some ({ o with contents := e (.direct d) n o.contents }, .done)
    else if debug then none
    else if kindOf o.cls .number then some ({ o with contents := e (.direct d) n o.contents }, .done) else none

/-- The slots with a result that the callers use: DKBufferGetMutableBytePtrMethod (DKBuffer.h:43) and DKStreamWriteMethod
    (DKStream.h:45); DKImmutableObjectAccessError, called in their place, returns nothing. -/
def hasResult : Slot → Bool
  | .getMutableBytePtr => true
  | .write => true
  | _ => false

/-- A call of a slot; `none`: the class does not have the interface (DKFatalError, DKRuntime+Interfaces.c:392-396) -/
def callSlot {K : Type} (debug : Bool) (e : Effects K) (s : Slot) (n : Nat) (o : Obj K) : Option (Obj K × Answer) :=
  match slot o.cls s with
  | none => none
  | some .refuse => some (o, if hasResult s then .unspecified else .refused)
  | some .change => some ({ o with contents := e (.slot s) n o.contents }, .done)
  | some (.call d) => callDirect debug e d n o
  | some (.throughList t) => match slot o.cls t with
    | some .refuse => some (o, .refused)
    | some .change => some ({ o with contents := e (.slot t) n o.contents }, .done)
    | some (.call d) => callDirect debug e d n o
    | _ => none

/-- A call that calls the slot again and again, as often as its arguments and the contents of the objects say (`ns`):
    DKSetUnion, DKListRemoveObject, DKVSPrintf; most call it once, some not at all (DKListRemoveFirstObject of an empty
    list).  The interface is looked up once in any case; simplified: a call of no slot needs no interface. -/
def repeated {K : Type} (f : Nat → Obj K → Option (Obj K × Answer)) : List Nat → Obj K → Option (Obj K × Answer)
  | [], o => some (o, .done)
  | [n], o => f n o
  | n :: ns, o => (f n o).bind fun r => repeated f ns r.1

/-- DKDataMakeImmutable, DKData.c:397-406, and DKStringMakeImmutable, DKString.c:673-682: the class is exchanged -/
def makeImmutable : Cls → Cls
  | c => if memberOf c .mutableData then .base .data else if memberOf c .mutableString then .base .string else c

/-- A step of the program; objects are numbered in the order in which they are made.
    `replaceOccurrences` is DKStringReplaceOccurrencesOfString (DKString.c:1638-1656), which has no check of its own and
    calls DKStringReplaceSubstring for each occurrence (whether it returns is `refusedReplace`).
    `setEncodingType` is DKDataSetEncodingType, DKData.c:589-595, without a check. -/
inductive Op (K : Type)
  | make (o : Obj K)
  | direct (i : Nat) (d : Direct) (n : Nat)
  | generic (i : Nat) (g : Generic) (ns : List Nat)
  | replaceOccurrences (i : Nat) (ns : List Nat)
  | setEncodingType (i : Nat) (tag : Nat)
  | makeImmutable (i : Nat)
deriving DecidableEq, Repr

/-- Apply a call to object `i` -/
def at' {K : Type} (h : List (Obj K)) (i : Nat) (f : Obj K → Option (Obj K × Answer)) : Option (List (Obj K) × Answer) :=
  match h[i]? with
  | none => none
  | some o => (f o).map fun r => (h.set i r.1, r.2)

/-- A step, with the definitions cited at `Op` -/
def step {K : Type} (debug : Bool) (e : Effects K) (h : List (Obj K)) : Op K → Option (List (Obj K) × Answer)
  | .make o => some (h ++ [o], .done)
  | .direct i d n => at' h i (callDirect debug e d n)
  | .generic i g ns => at' h i (repeated (callSlot debug e g.slot) ns)
  | .replaceOccurrences i ns => at' h i (repeated (callDirect debug e (.string .replaceSubstring)) ns)
  | .setEncodingType i tag => at' h i fun o => some ({ o with tag := tag }, .done)
  | .makeImmutable i => at' h i fun o => some ({ o with cls := makeImmutable o.cls }, .done)

/-- A program -/
def run {K : Type} (debug : Bool) (e : Effects K) : List (Op K) → List (Obj K) → Option (List (Obj K) × List Answer)
  | [], h => some (h, [])
  | op :: ops, h => (step debug e h op).bind fun r => (run debug e ops r.1).map fun q => (q.1, r.2 :: q.2)

/-- How a call ends: it returns after printing `errors` errors, it is still running, or it has read through NULL -/
inductive End
  | back (errors : Nat) | running | crash
deriving DecidableEq, Repr

/-- The loop of DKStringReplaceOccurrencesOfString (DKString.c:1643-1647) on an immutable string: DKStringReplaceSubstring
    refuses and the string stays, the search goes on after the length of the replacement.  `fuel` bounds the rounds. -/
def refusedGo (s pat : List UInt8) (length : Nat) (fuel errors : Nat) (range : Int × Int) : End :=
  if range.1 ≠ -1 then match fuel with
    | 0 => .running
    | fuel + 1 => match Text.rangeOfString s pat (range.1 + length) with
      | none => .crash
      | some r => refusedGo s pat length fuel (errors + 1) r
  else .back errors

/-- DKStringReplaceOccurrencesOfString, DKString.c:1638-1656, on an immutable string -/
def refusedReplace (fuel : Nat) (s pat rep : List UInt8) : End :=
  match Text.rangeOfString s pat 0, Text.getLength rep with
  | some r, some n => refusedGo s pat n fuel 0 r
  | _, _ => .crash

end Frozen
end Duck
