import Verif.Model.Frozen
/-! What C127 talks about. -/
namespace Duck
namespace Frozen

/-- The classes whose objects do not change: DKArray, DKLinkedList, DKBinaryTree, DKHashTable, DKData, DKString, constant
    strings, DKNumber, DKBoolean, and the subclasses of them that a program makes (of subclasses of the mutable classes
    the objects change). -/
inductive Immutable : Cls → Prop
  | array : Immutable (.base .array)
  | linkedList : Immutable (.base .linkedList)
  | binaryTree : Immutable (.base .binaryTree)
  | hashTable : Immutable (.base .hashTable)
  | data : Immutable (.base .data)
  | string : Immutable (.base .string)
  | constantString : Immutable (.base .constantString)
  | number : Immutable (.base .number)
  | boolean : Immutable (.base .boolean)
  | sub {c : Cls} : Immutable c → Immutable (.sub c)

/-- The class a call is for -/
def subject : Direct → Base
  | .array _ => .mutableArray
  | .linkedList _ => .mutableLinkedList
  | .binaryTree _ => .mutableBinaryTree
  | .hashTable _ => .mutableHashTable
  | .data _ => .mutableData
  | .string _ => .mutableString
  | .number _ => .variableNumber

/-- The class `b` or a subclass of it made by the program -/
inductive DescendsFrom (b : Base) : Cls → Prop
  | self : DescendsFrom b (.base b)
  | sub {c : Cls} : DescendsFrom b c → DescendsFrom b (.sub c)

/-- The calls through interfaces, by the kind of object they are for -/
inductive Kind
  | list | set | dictionary | bytes
deriving DecidableEq

def kinds : Generic → Kind
  | .listAppendObject | .listAppendCArray | .listAppendCollection | .listSetObjectAtIndex | .listInsertObjectAtIndex
  | .listReplaceRangeWithCArray | .listReplaceRangeWithCollection | .listAddObjectToSet | .listRemoveObject
  | .listRemoveObjectAtIndex | .listRemoveObjectsInRange | .listRemoveAllObjects | .listRemoveFirstObject
  | .listRemoveLastObject | .listSort | .listReverse | .listShuffle => .list
  | .setAddObject | .setRemoveObject | .setRemoveAllObjects | .setUnion | .setMinus | .setIntersect => .set
  | .dictionarySetObject | .dictionaryAddObject | .dictionaryReplaceObject | .dictionaryInsertObject
  | .dictionaryInsertEntriesFromDictionary | .dictionaryRemoveObject | .dictionaryRemoveAllObjects
  | .setProperty => .dictionary
  | .bufferSetLength | .bufferGetMutableBytePtr | .streamWrite | .streamPrintf | .streamPuts | .streamPutc => .bytes

/-- Which mutable objects are of which kinds -/
inductive Offers : Kind → Base → Prop
  | arrayList : Offers .list .mutableArray
  | linkedList : Offers .list .mutableLinkedList
  | arraySet : Offers .set .mutableArray
  | linkedSet : Offers .set .mutableLinkedList
  | treeSet : Offers .set .mutableBinaryTree
  | tableSet : Offers .set .mutableHashTable
  | tree : Offers .dictionary .mutableBinaryTree
  | table : Offers .dictionary .mutableHashTable
  | data : Offers .bytes .mutableData
  | string : Offers .bytes .mutableString

/-- The changes a call may make, by name: those of the function it is named after -/
def means : Generic → List Edit
  | .listAppendObject | .listAppendCArray | .listAddObjectToSet => [.slot .appendCArray]
  | .listAppendCollection => [.slot .appendCollection]
  | .listSetObjectAtIndex | .listInsertObjectAtIndex | .listReplaceRangeWithCArray | .listRemoveObject
  | .listRemoveObjectAtIndex | .listRemoveObjectsInRange | .listRemoveAllObjects | .listRemoveFirstObject
  | .listRemoveLastObject => [.slot .replaceRangeWithCArray]
  | .listReplaceRangeWithCollection => [.slot .replaceRangeWithCollection]
  | .listSort => [.direct (.array .sort), .direct (.linkedList .sort)]
  | .listReverse => [.direct (.array .reverse), .direct (.linkedList .reverse)]
  | .listShuffle => [.direct (.array .shuffle), .direct (.linkedList .shuffle)]
  | .setAddObject | .setUnion | .setIntersect => [.slot .addObject, .slot .appendCArray]
  | .setRemoveObject | .setMinus => [.slot .removeObject, .slot .replaceRangeWithCArray]
  | .setRemoveAllObjects => [.slot .removeAllObjects, .slot .replaceRangeWithCArray]
  | .dictionarySetObject | .dictionaryAddObject | .dictionaryReplaceObject | .dictionaryInsertObject
  | .dictionaryInsertEntriesFromDictionary => [.slot .insertEntry]
  | .dictionaryRemoveObject => [.slot .removeEntry]
  | .dictionaryRemoveAllObjects => [.slot .removeAllEntries]
  | .setProperty => [.slot .setProperty]
  | .bufferSetLength => [.direct (.data .setLength), .direct (.string .setByteLength)]
  | .bufferGetMutableBytePtr => [.direct (.data .getMutableBytePtr), .direct (.string .getMutableBytePtr)]
  | .streamWrite | .streamPrintf | .streamPuts | .streamPutc => [.direct (.data .write), .direct (.string .write)]

/-- The step sets the value of a number -/
def setsNumber {K : Type} (i : Nat) : Op K → Prop
  | .direct j (.number _) _ => j = i
  | _ => False

/-- The step sets the encoding type -/
def setsEncoding {K : Type} (i : Nat) : Op K → Prop
  | .setEncodingType j _ => j = i
  | _ => False

end Frozen
end Duck
