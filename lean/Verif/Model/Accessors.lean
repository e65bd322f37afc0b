import Verif.Model.NestedInit
/-!
# The accessors of the library that create their object when first called, and the accessors each of them calls while it does (release build)

Every DKThreadSafeClassInit, DKThreadSafeStaticClassInit, DKThreadSafeSharedObjectInit, DKThreadSafeStaticObjectInit, DKThreadSafeSelectorInit and
DKThreadSafeFastSelectorInit in Source.  A string constant (DKSTR) calls DKConstantStringClass (DKString.c 2678).  DKNewMutableDictionary calls
DKMutableHashTableClass (DKDictionary.c 68-74; the default class), and initialising and filling a dictionary DKHashTableClass, the selector Dictionary and, to compare keys, DKStringClass;
DKNewNumberWithInt32 calls DKNumberClass (DKNumber.c 569).  The classes and selectors that DKRuntimeInit sets up are no such accessors (DKRuntime.c 74-120).  An accessor
called several times is listed once.  Assumed: no properties are installed in a superclass while its subclasses are created (DKNewClass would copy them).
-/
namespace Duck
namespace Nested

/-- The accessors, `selX` for DKSelector(X). -/
inductive Accessor where
  /-- DKArray.c 72 -/
  | DKArrayClass
  /-- DKArray.c 162 -/
  | DKMutableArrayClass
  /-- DKBinaryTree.c 86 -/
  | DKBinaryTreeClass
  /-- DKBinaryTree.c 190 -/
  | DKMutableBinaryTreeClass
  /-- DKBitList.c 69 -/
  | DKBitListClass
  /-- DKBoolean.c 72 -/
  | DKBooleanClass
  /-- DKCollection.c 36 -/
  | selCollection
  /-- DKCollection.c 37 -/
  | selKeyedCollection
  /-- DKCondition.c 54 -/
  | DKConditionClass
  /-- DKData.c 65 -/
  | DKDataClass
  /-- DKData.c 131 -/
  | DKMutableDataClass
  /-- DKDictionary.c 41 -/
  | selDictionary
  /-- DKEgg.c 147 -/
  | DKEggUnarchiverClass
  /-- DKEgg.c 910 -/
  | DKEggArchiverClass
  /-- DKEnum.c 59 -/
  | DKEnumClass
  /-- DKFile.c 50 -/
  | DKFileClass
  /-- DKGraph.c 56 -/
  | DKGraphEdgeClass
  /-- DKGraph.c 154 -/
  | DKGraphNodeClass
  /-- DKGraph.c 217 -/
  | DKGraphClass
  /-- DKHashTable.c 78 -/
  | DKHashTableClass
  /-- DKHashTable.c 182 -/
  | DKMutableHashTableClass
  /-- DKLinkedList.c 92 -/
  | DKLinkedListClass
  /-- DKLinkedList.c 182 -/
  | DKMutableLinkedListClass
  /-- DKList.c 41 -/
  | selList
  /-- DKMutex.c 42 -/
  | DKMutexClass
  /-- DKNumber.c 340 -/
  | DKNumberClass
  /-- DKNumber.c 399 -/
  | DKVariableNumberClass
  /-- DKPair.c 47 -/
  | DKPairClass
  /-- DKPredicate.c 89 -/
  | DKPredicateClass
  /-- DKPredicate.c 616 -/
  | PredicateOpInfoTable
  /-- DKPredicate.c 676 -/
  | PredicateOpLookupTable
  /-- DKReadWriteLock.c 56 -/
  | DKReadWriteLockClass
  /-- DKRuntime+Interfaces.c 42 -/
  | selDKDynamicMsgHandler
  /-- DKRuntime+Interfaces.c 43 -/
  | selDKRespondsToDynamicMsg
  /-- DKRuntime+Interfaces.c 62 -/
  | selMsgHandlerNotFound
  /-- DKRuntime+Interfaces.c 69 -/
  | DKMsgHandlerNotFound
  /-- DKRuntime+Properties.c 54 -/
  | DKPropertyClass
  /-- DKRuntime+Properties.c 61 -/
  | selProperty
  /-- DKSemaphore.c 57 -/
  | DKSemaphoreClass
  /-- DKSet.c 40 -/
  | selSet
  /-- DKShell.c 77 -/
  | DKShellEncoderClass
  /-- DKShell.c 85 -/
  | DKShellEncoders
  /-- DKString.c 99 -/
  | DKStringClass
  /-- DKString.c 188 -/
  | DKConstantStringClass
  /-- DKString.c 201 -/
  | DKMutableStringClass
  /-- DKString.c 2106 -/
  | DKStringURLPercentEscapePatterns
  /-- DKStruct.c 66 -/
  | DKStructClass
  /-- DKThread.c 270 -/
  | DKThreadClass
  /-- DKThreadPool.c 113 -/
  | DKThreadPoolClass
  /-- DKXML.c 60 -/
  | DKXMLElementClass
deriving DecidableEq, Repr

open Accessor in
/-- What `_Create` of an accessor calls. -/
def needs : Accessor → List Accessor
  | .DKArrayClass => [DKConstantStringClass, selCollection, selList, selSet]
  | .DKMutableArrayClass => [DKConstantStringClass, DKArrayClass, selList, selSet]
  | .DKBinaryTreeClass => [DKConstantStringClass, selCollection, selKeyedCollection, selDictionary, selSet, selProperty]
  | .DKMutableBinaryTreeClass => [DKConstantStringClass, DKBinaryTreeClass, selDictionary, selSet, selProperty]
  | .DKBitListClass => [DKConstantStringClass]
  | .DKBooleanClass => [DKConstantStringClass, DKNumberClass]
  | .selCollection => [DKConstantStringClass]
  | .selKeyedCollection => [DKConstantStringClass]
  | .DKConditionClass => [DKConstantStringClass]
  | .DKDataClass => [DKConstantStringClass]
  | .DKMutableDataClass => [DKConstantStringClass, DKDataClass]
  | .selDictionary => [DKConstantStringClass]
  | .DKEggUnarchiverClass => [DKConstantStringClass]
  | .DKEggArchiverClass => [DKConstantStringClass]
  | .DKEnumClass => [DKConstantStringClass]
  | .DKFileClass => [DKConstantStringClass]
  | .DKGraphEdgeClass => [DKConstantStringClass]
  | .DKGraphNodeClass => [DKConstantStringClass]
  | .DKGraphClass => [DKConstantStringClass]
  | .DKHashTableClass => [DKConstantStringClass, selCollection, selKeyedCollection, selDictionary, selSet, selProperty]
  | .DKMutableHashTableClass => [DKConstantStringClass, DKHashTableClass, selDictionary, selSet, selProperty]
  | .DKLinkedListClass => [DKConstantStringClass, selCollection, selList, selSet]
  | .DKMutableLinkedListClass => [DKConstantStringClass, DKLinkedListClass, selList, selSet]
  | .selList => [DKConstantStringClass]
  | .DKMutexClass => [DKConstantStringClass]
  | .DKNumberClass => [DKConstantStringClass]
  | .DKVariableNumberClass => [DKConstantStringClass, DKNumberClass]
  | .DKPairClass => [DKConstantStringClass]
  | .DKPredicateClass => [DKConstantStringClass]
  | .PredicateOpInfoTable => [DKConstantStringClass]
  | .PredicateOpLookupTable => [DKMutableHashTableClass, DKHashTableClass, selDictionary, PredicateOpInfoTable, DKNumberClass, DKConstantStringClass, DKStringClass]
  | .DKReadWriteLockClass => [DKConstantStringClass]
  | .selDKDynamicMsgHandler => [DKConstantStringClass]
  | .selDKRespondsToDynamicMsg => [DKConstantStringClass]
  | .selMsgHandlerNotFound => [DKConstantStringClass]
  | .DKMsgHandlerNotFound => [selMsgHandlerNotFound]
  | .DKPropertyClass => [DKConstantStringClass]
  | .selProperty => [DKConstantStringClass]
  | .DKSemaphoreClass => [DKConstantStringClass]
  | .selSet => [DKConstantStringClass]
  | .DKShellEncoderClass => [DKConstantStringClass]
  | .DKShellEncoders => [DKMutableHashTableClass, DKHashTableClass, selDictionary, DKShellEncoderClass, DKConstantStringClass, DKStringClass]
  | .DKStringClass => []
  | .DKConstantStringClass => [DKStringClass]
  | .DKMutableStringClass => [DKConstantStringClass, DKStringClass]
  | .DKStringURLPercentEscapePatterns => [DKHashTableClass, DKConstantStringClass, selDictionary, DKStringClass]
  | .DKStructClass => [DKConstantStringClass]
  | .DKThreadClass => [DKConstantStringClass]
  | .DKThreadPoolClass => [DKConstantStringClass]
  | .DKXMLElementClass => [DKConstantStringClass]

end Nested
end Duck
