import Verif.Model.Startup
/-! The names of the built-in classes and selectors, as their accessors are called: DKXClass() is the class `X`, DKSelector( X ) the selector `X`. -/
namespace Duck
namespace Startup
open Nested (Accessor)

/-- The classes that DKRuntimeInit makes available to DKClassFromString, according to the comment in DKRuntime+Symbols.c. -/
def builtinClasses : List (String × Obj Root) :=
  [("DKRootClass", .static .DKRootClass), ("DKClass", .static .DKClassClass), ("DKSelector", .static .DKSelectorClass), ("DKInterface", .static .DKInterfaceClass),
   ("DKMsgHandler", .static .DKMsgHandlerClass), ("DKMetadata", .static .DKMetadataClass), ("DKObject", .static .DKObjectClass), ("DKZombie", .static .DKZombieClass),
   ("DKArray", .made .DKArrayClass), ("DKMutableArray", .made .DKMutableArrayClass), ("DKBinaryTree", .made .DKBinaryTreeClass),
   ("DKMutableBinaryTree", .made .DKMutableBinaryTreeClass), ("DKHashTable", .made .DKHashTableClass), ("DKMutableHashTable", .made .DKMutableHashTableClass),
   ("DKGraph", .made .DKGraphClass), ("DKGraphEdge", .made .DKGraphEdgeClass), ("DKLinkedList", .made .DKLinkedListClass),
   ("DKMutableLinkedList", .made .DKMutableLinkedListClass), ("DKBoolean", .made .DKBooleanClass), ("DKData", .made .DKDataClass),
   ("DKMutableData", .made .DKMutableDataClass), ("DKNumber", .made .DKNumberClass), ("DKPair", .made .DKPairClass), ("DKString", .made .DKStringClass),
   ("DKConstantString", .made .DKConstantStringClass), ("DKMutableString", .made .DKMutableStringClass), ("DKStruct", .made .DKStructClass),
   ("DKThread", .made .DKThreadClass), ("DKThreadPool", .made .DKThreadPoolClass), ("DKMutex", .made .DKMutexClass), ("DKCondition", .made .DKConditionClass),
   ("DKReadWriteLock", .made .DKReadWriteLockClass), ("DKSemaphore", .made .DKSemaphoreClass), ("DKEggArchiver", .made .DKEggArchiverClass),
   ("DKEggUnarchiver", .made .DKEggUnarchiverClass), ("DKEnum", .made .DKEnumClass), ("DKFile", .made .DKFileClass), ("DKPredicate", .made .DKPredicateClass)]

/-- The selectors. -/
def builtinSelectors : List (String × Obj Static) :=
  [("Allocation", .static .Allocation), ("Comparison", .static .Comparison), ("Copying", .static .Copying), ("Description", .static .Description), ("Locking", .static .Locking),
   ("Buffer", .static .Buffer), ("Stream", .static .Stream), ("Egg", .static .Egg), ("Conversion", .static .Conversion),
   ("Collection", .made .selCollection), ("KeyedCollection", .made .selKeyedCollection), ("Dictionary", .made .selDictionary), ("List", .made .selList), ("Set", .made .selSet),
   ("Property", .made .selProperty)]

/-- The only class that is found under another name. -/
def misnamed : String × Obj Root := ("DKMutablehashTable", .made .DKMutableHashTableClass)

end Startup
end Duck
