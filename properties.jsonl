{"id": "C01", "title": "Array splice is exact", "statement": "Replacing a range of a generic array (or of DKArray/DKByteArray/DKData contents) leaves exactly: the old elements before the range, then the new elements (zeros when the source is NULL), then the old elements after the range. No other element changes, whether the storage is edited in place or reallocated.", "quantifier": "every array content, capacity, in-range range and every replacement of any length, in every history of operations", "why_tests_cant": "Each test uses one size and one capacity; grow/shrink/realloc boundaries (32, x1.25) multiply with range positions.", "anchors": ["Source/DKGenericArray.c: DKGenericArrayReplaceElements, ResizeArray, DKGenericArrayReserve", "Source/DKByteArray.c: DKByteArrayReplaceBytes"]}
{"id": "C02", "title": "Byte storage is always NUL terminated", "statement": "After any sequence of byte-array operations the bytes immediately after the content are four zero bytes inside the allocation, so the pointer returned as a C string (char, 16- or 32-bit) is always terminated at the reported length or earlier.", "quantifier": "every finite sequence of init/append/replace/set-length/reserve/align operations with arbitrary bytes", "why_tests_cant": "A missing terminator only shows for particular capacities and leftovers in memory.", "anchors": ["Source/DKByteArray.c: SetNullTerminator, DKByteArrayReplaceBytes, DKByteArraySetLength, DKByteArrayReserve", "Source/DKString.c: DKStringGetCStringPtr"]}
{"id": "C03", "title": "Sorting sorts", "statement": "Sorting an object array (DKArray and DKLinkedList sort) terminates, touches no element outside the array, and leaves a permutation of the input ordered by the comparator, for every comparator that is a total preorder.", "quantifier": "every array length and contents, every total-preorder comparator (duplicates included)", "why_tests_cant": "Hoare partition off-by-ones depend on duplicates and sizes around the insertion-sort cutoff.", "anchors": ["Source/DKGenericArray.c: InsertionSort, QuickSortPivot, QuickSortPartition, QuickSort, DKGenericArraySortObjects"]}
{"id": "C04", "title": "Reverse is exact and self-inverse", "statement": "Reversing an array yields exactly the reversed sequence; reversing twice restores it.", "quantifier": "every element size class, every length and contents", "why_tests_cant": "Odd/even and per-size specialised loops.", "anchors": ["Source/DKGenericArray.c: DKGenericArrayReverse"]}
{"id": "C05", "title": "Shuffle permutes, and can reach every arrangement", "statement": "Shuffling yields a permutation of the input, and every permutation of the input is a possible outcome of some random sequence.", "quantifier": "every array and every random sequence", "why_tests_cant": "Reachability of all n! outcomes is not testable.", "anchors": ["Source/DKGenericArray.c: DKGenericArrayShuffle, Shuffle32, Shuffle64, Shuffle"]}
{"id": "C06", "title": "Hash table behaves as a finite map", "statement": "After any sequence of insert (always / if-found / if-not-found), remove and remove-all, lookup of a key returns the value of the last effective insert and nothing otherwise; counts equal the number of distinct live keys; insert's boolean result says whether the table changed; foreach visits each live entry exactly once.", "quantifier": "every sequence of operations, every hash function compatible with key equality (including constant ones)", "why_tests_cant": "Tombstones, rehash and collision chains interact over long histories.", "anchors": ["Source/DKGenericHashTable.c: DKGenericHashTableInsert, DKGenericHashTableFind, DKGenericHashTableRemove, ResizeAndRehash, Find", "Source/DKHashTable.c: DKHashTableInsertObject, DKHashTableGetObject"]}
{"id": "C07", "title": "Hash lookups terminate in bounds", "statement": "Every probe sequence used by a lookup, insert or removal terminates and only touches rows inside the table, in every reachable table and for every hash code.", "quantifier": "every reachable table (any history) and every key/hash code", "why_tests_cant": "The failing combination needs one specific table size, an almost full table and an unlucky residue.", "anchors": ["Source/DKGenericHashTable.c: Find, HashTableSizes, NextHashTableSize"]}
{"id": "C08", "title": "Binary tree behaves as a sorted map", "statement": "After any sequence of inserts (three policies) and removals a DKBinaryTree contains exactly the keys of the corresponding finite map with the right objects; lookups find exactly those; in-order traversal visits them once each in comparator order.", "quantifier": "every comparator that is a total order on keys and every history of operations", "why_tests_cant": "AA-tree rebalancing has many shapes; level bookkeeping errors need specific histories.", "anchors": ["Source/DKBinaryTree.c: InsertRecursive, Remove, Skew, Split, FindNode, DKBinaryTreeTraverseInOrder"]}
{"id": "C09", "title": "Binary tree stays balanced", "statement": "Every reachable tree satisfies the AA level discipline, so its height is at most 2*log2(n+1) and lookups are logarithmic.", "quantifier": "every history of inserts and removals", "why_tests_cant": "Depth bounds over all histories.", "anchors": ["Source/DKBinaryTree.c: Skew, Split, InsertRecursive, Remove"]}
{"id": "C10", "title": "First object of a tree", "statement": "DKBinaryTreeGetFirstObject returns the smallest entry of any non-empty tree (and NULL on an empty one).", "quantifier": "every reachable tree", "why_tests_cant": "Termination of the walk for every shape.", "anchors": ["Source/DKBinaryTree.c: DKBinaryTreeGetFirstObject, DKBinaryTreeInitialize"]}
{"id": "C11", "title": "Linked list behaves as a sequence", "statement": "A DKLinkedList under any sequence of range replacements, removals and indexed reads behaves exactly like a sequence: get-at-index, count and iteration agree with it whatever the position of the internal cursor left by earlier calls; forward and backward links agree.", "quantifier": "every history of operations, with ranges whose end is a 64-bit number (C115), and every cursor position", "why_tests_cant": "The remembered cursor makes every read depend on history.", "anchors": ["Source/DKLinkedList.c: MoveCursor, RemoveRange, InsertObject, DKLinkedListReplaceRangeWithCArray"]}
{"id": "C12", "title": "Priority insertion order", "statement": "Inserting objects with priorities keeps a linked list in non-increasing (queue) priority order, with equal priorities in insertion order.", "quantifier": "every sequence of priority insertions into a list built only by them", "why_tests_cant": "Stability across all interleavings of priorities.", "anchors": ["Source/DKLinkedList.c: DKLinkedListInsertObjectWithPriority"]}
{"id": "C13", "title": "Node pool never double-allocates", "statement": "A node handed out by the pool is zeroed and distinct from every node currently in use; freeing makes it available again; growing never moves or reissues live nodes.", "quantifier": "every history of alloc/free in which only live nodes are freed", "why_tests_cant": "Aliasing bugs appear only after particular alloc/free histories.", "anchors": ["Source/DKNodePool.c: DKNodePoolAllocBlock, DKNodePoolAlloc, DKNodePoolFree"]}
{"id": "C14", "title": "Bit list is a set of indexes", "statement": "Set/clear/flip of one index changes only that index; counts equal the number of set/clear indexes below the length; first-set/first-clear return the least such index, or DKNotFound; merges are bitwise.", "quantifier": "every length, contents and index", "why_tests_cant": "Word-boundary and size-rounding errors need particular lengths.", "anchors": ["Source/DKBitList.c: DKBitListInit, DKBitListSetBit, DKBitListCountSetBits, DKBitListCountClearBits, DKBitListGetFirstSetBit, DKBitListGetFirstClearBit, DKBitListMergeBitsAND"]}
{"id": "C15", "title": "Encodings round-trip", "statement": "Encoding a type and count (or rows and columns) into 32 bits and reading back type, count, rows, columns returns what was encoded, for all in-range values; matrix and vector encodings never collide; size is type size times count.", "quantifier": "all types, all counts < 2^24, all rows/cols < 2^12", "why_tests_cant": "2^31 encodings.", "anchors": ["Source/DKEncoding.h: DKEncode, DKEncodeMatrix, DKEncodingGetType, DKEncodingGetCount", "Source/DKEncoding.c: DKEncodingGetTypeSize"]}
{"id": "C16", "title": "Byte swapping is an involution", "statement": "Swapping the byte order of a 16/32/64-bit value reverses its bytes; swapping twice is the identity, on every platform branch.", "quantifier": "all 2^16/2^32/2^64 values, both implementations", "why_tests_cant": "Exhaustive value space.", "anchors": ["Source/DKPlatform.h: DKSwapInt16, DKSwapInt32, DKSwapInt64"]}
{"id": "C17", "title": "Objects are freed exactly once, only when unreferenced", "statement": "Under any interleaving of threads that each only use references they own, an object is finalized and deallocated exactly once, exactly when the last owned reference is released, and never while a reference is owned; refcount never under- or overflows into flag bits.", "quantifier": "every number of threads, every schedule of retain/release/try-release", "why_tests_cant": "Races are schedule dependent.", "anchors": ["Source/DKRuntime+RefCount.c: DKRetain, DKRelease, DKTryRelease"]}
{"id": "C18", "title": "Weak references never dangle", "statement": "Resolving a weak reference returns either the still-live object with an extra owned reference, or NULL once deallocation has begun; never a freed object.", "quantifier": "every interleaving of retain/release/retain-weak/resolve-weak on all threads", "why_tests_cant": "The race window is a few instructions.", "anchors": ["Source/DKRuntime+RefCount.c: DKRelease, DKRetainWeak, DKResolveWeak", "Source/DKRuntime+Metadata.c: DKMetadataFindOrInsert"]}
{"id": "C19", "title": "Autorelease pools release each object once, at pop", "statement": "Every autorelease is balanced by exactly one release when its pool (the innermost at the time) is popped; nested pools behave as a stack; objects autoreleased during a drain are also released.", "quantifier": "every nesting (up to the stack limit) and every sequence of push/autorelease/pop, including finalizers that autorelease", "why_tests_cant": "Histories and re-entrancy.", "anchors": ["Source/DKRuntime+RefCount.c: INTERNAL_DKDrainAutoreleasePool, DKPushAutoreleasePool, DKPopAutoreleasePool, DKAutorelease"]}
{"id": "C20", "title": "Interface lookup returns the current most-derived implementation", "statement": "Looking up an interface by selector returns the interface most recently installed for it on the class, else the one inherited from the superclass at class creation, else the not-found handler, regardless of what is in the lookup cache.", "quantifier": "every history of class creation, installs and lookups, every assignment of cache lines (collisions included)", "why_tests_cant": "Cache hits mask stale entries depending on history.", "anchors": ["Source/DKRuntime+Interfaces.c: DKInterfaceTableFind, DKInterfaceTableInsert, DKInterfaceTableInit"]}
{"id": "C21", "title": "Finalizer and initializer chains", "statement": "Finalizing an object runs every finalizer of its class chain exactly once from most derived to base; default initialization runs the nearest initializer in the chain.", "quantifier": "every class hierarchy", "why_tests_cant": "Arbitrary depth hierarchies.", "anchors": ["Source/DKRuntime.c: DKFinalize, DKInit, DKSuperInit"]}
{"id": "C22", "title": "Kind-of is the subclass order", "statement": "DKIsKindOfClass is true exactly for the object's class and its ancestors; subclassing is reflexive and transitive.", "quantifier": "every class hierarchy", "why_tests_cant": "All hierarchies.", "anchors": ["Source/DKRuntime+Reflection.c: DKIsKindOfClass, DKIsSubclass"]}
{"id": "C23", "title": "Dictionary insert policies", "statement": "Set replaces or adds, Add only adds when absent, Replace only replaces when present; the stored key is a copy and is kept on replace; no other key is affected.", "quantifier": "every dictionary state and key", "why_tests_cant": "Policy times state combinations over histories.", "anchors": ["Source/DKDictionary.c: DKDictionarySetObject, DKDictionaryAddObject, DKDictionaryReplaceObject", "Source/DKHashTable.c: RowUpdate"]}
{"id": "C24", "title": "Dictionary equality is mathematical equality", "statement": "Two dictionaries are equal iff they have the same keys with equal objects; equality is reflexive, symmetric and transitive.", "quantifier": "all pairs of dictionaries (NULL values included)", "why_tests_cant": "All pairs of maps.", "anchors": ["Source/DKDictionary.c: DKDictionaryEqual, DKDictionaryIsSubsetOfDictionary"]}
{"id": "C25", "title": "Set algebra", "statement": "Union, minus, intersect, subset and intersects produce/decide the mathematical result.", "quantifier": "all pairs of sets", "why_tests_cant": "All pairs of sets.", "anchors": ["Source/DKSet.c: DKSetUnion, DKSetMinus, DKSetIntersect, DKSetIsSubsetOfSet, DKSetIntersectsSet"]}
{"id": "C26", "title": "Array/list range replacement, contents and ownership", "statement": "DKArray range replacement yields the spliced sequence; every object in the array is retained exactly once per occurrence, replaced objects are released exactly once, also when the new objects are already in the array; out-of-range calls change nothing.", "quantifier": "every array state, in- or out-of-range range, every source including elements of the array itself and the array itself", "why_tests_cant": "Aliasing and refcount balance need particular overlaps.", "anchors": ["Source/DKArray.c: DKArrayReplaceRangeWithCArray, DKArrayReplaceRangeWithCollection"]}
{"id": "C27", "title": "List queries", "statement": "First/last index, count and contains agree with the sequence; remove-object removes all occurrences and nothing else, and keeps the order of the rest.", "quantifier": "every list and object, any equality", "why_tests_cant": "All positions and multiplicities.", "anchors": ["Source/DKList.c: DKListGetFirstIndexOfObject, DKListGetLastIndexOfObject, DKListGetCountOfObject, DKListRemoveObject"]}
{"id": "C28", "title": "List equality and ordering", "statement": "List equality is element-wise equality with equal length; list comparison is an antisymmetric lexicographic order consistent with equality.", "quantifier": "all pairs of lists", "why_tests_cant": "All pairs, esp. proper prefixes.", "anchors": ["Source/DKList.c: DKListEqual, DKListCompare"]}
{"id": "C29", "title": "Equal objects have equal hashes", "statement": "For strings, data, numbers, pairs and structs: DKEqual(a,b) implies DKHash(a)=DKHash(b), in every state reached by mutations.", "quantifier": "all pairs of objects and all mutation histories", "why_tests_cant": "All pairs of values.", "anchors": ["Source/DKString.c: TestEquality, UpdateHash, DKStringSetByteLength", "Source/DKData.c: DKDataHash", "Source/DKNumber.c: DKNumberHash, DKNumberCompare", "Source/DKPair.c: DKPairHash"]}
{"id": "C30", "title": "Number comparison is numeric order", "statement": "DKNumberCompare orders scalar numbers by numeric value whatever their stored types; it is reflexive, antisymmetric and transitive.", "quantifier": "all pairs of values of all integer types", "why_tests_cant": "2^64 x 2^64 pairs over 8x8 type combinations.", "anchors": ["Source/DKNumber.c: DefineCmpFunction, DKNumberCompare"]}
{"id": "C31", "title": "Number conversion", "statement": "Conversion between integer encodings preserves every value representable in the target; vector conversions convert min(count) elements and write nothing beyond; matrix conversions copy the common sub-matrix.", "quantifier": "all encodings and values", "why_tests_cant": "All pairs of shapes and types.", "anchors": ["Source/DKNumber.c: DefineCastFunction, DKNumberConvert, DKNumberGetBool, DKNumberEnumerateMatrixValue"]}
{"id": "C32", "title": "Data stream semantics", "statement": "Read/write/seek/tell on DKData (and mutable strings) behave like a file: write overwrites/extends at the cursor, read returns the bytes at the cursor and advances, seek positions relative to start/current/end clamped to the content; write then seek back then read returns the bytes written.", "quantifier": "every content, cursor and every sequence of operations", "why_tests_cant": "Cursor/length histories.", "anchors": ["Source/DKData.c: DKDataRead, DKDataWrite, DKDataSeek, DKDataSetCursor", "Source/DKString.c: DKStringRead, DKStringWrite, DKStringSeek"]}
{"id": "C33", "title": "UTF-8 encode/decode round-trip", "statement": "Writing any Unicode scalar value other than the terminator U+0000 and scanning it back returns the same value and byte count; scanning any byte string always makes progress, never steps over the terminator, and ASCII bytes are never swallowed by a malformed sequence.", "quantifier": "all scalar values and all byte strings", "why_tests_cant": "1.1M code points and all malformed strings.", "anchors": ["Source/DKUnicode.c: dk_ustrscan, dk_ustrwrite, dk_ustrlen", "ThirdParty/icu/unicode/utf8.h: U8_NEXT, U8_APPEND", "ThirdParty/icu/utf_impl.c: utf8_nextCharSafeBody, utf8_appendCharSafeBody"]}
{"id": "C34", "title": "String index and substring laws", "statement": "Character count, character-at-index and substring extraction agree with the sequence of scanned characters; substring(0,i)+substring(i..) is the string.", "quantifier": "every string and index", "why_tests_cant": "All strings.", "anchors": ["Source/DKUnicode.c: dk_ustridx, dk_ustrlen", "Source/DKString.c: DKStringCopySubstring, DKStringCopySubstringFromIndex, DKStringCopySubstringToIndex"]}
{"id": "C35", "title": "Substring search", "statement": "Range-of-string returns the first occurrence (character index and length) or not-found; prefix/suffix/substring tests agree with it; character search returns the position of the character.", "quantifier": "every haystack/needle", "why_tests_cant": "All pairs of strings, incl. malformed UTF-8.", "anchors": ["Source/DKUnicode.c: dk_ustrstr, dk_ustrstr_range, dk_ustrchr", "Source/DKString.c: DKStringGetRangeOfString, DKStringHasPrefix, DKStringHasSuffix"]}
{"id": "C36", "title": "String replacement", "statement": "Replacing all occurrences of a pattern replaces exactly the left-to-right non-overlapping occurrences and terminates.", "quantifier": "every string, non-empty pattern and replacement (non-ASCII included)", "why_tests_cant": "Byte/character index confusion only shows for multi-byte text.", "anchors": ["Source/DKString.c: INTERNAL_DKStringReplaceOccurrencesOfString, DKStringReplaceSubstring"]}
{"id": "C37", "title": "Split and combine", "statement": "Joining the result of splitting a string on a separator with the same separator gives back the string; no component contains the separator.", "quantifier": "every string and non-empty separator", "why_tests_cant": "Empty, leading, trailing and doubled separators.", "anchors": ["Source/DKString.c: DKStringSplit, DKStringCombine"]}
{"id": "C38", "title": "Path operations", "statement": "Standardizing a path removes redundant and trailing slashes, never changes components, and is idempotent; deleting the last component of a path after appending one gives back the standardized path.", "quantifier": "every path string", "why_tests_cant": "All strings.", "anchors": ["Source/DKString.c: DKStringStandardizePath, DKStringAppendPathComponent, DKStringDeleteLastPathComponent, DKStringGetLastPathComponent"]}
{"id": "C39", "title": "URL percent escapes round-trip", "statement": "Removing percent escapes after adding them gives back the original string.", "quantifier": "every string, every dictionary iteration order", "why_tests_cant": "Iteration order of the pattern table matters.", "anchors": ["Source/DKString.c: DKStringEscape, DKStringUnescape, DKStringURLPercentEscapePatterns"]}
{"id": "C40", "title": "JSON string round-trip", "statement": "Writing a string as a JSON literal and parsing the literal gives the same bytes.", "quantifier": "every NUL-free byte string", "why_tests_cant": "All strings incl. malformed UTF-8 and all escapes.", "anchors": ["Source/DKJSON.c: WriteEscapedString, ScanStringToken"]}
{"id": "C41", "title": "JSON document round-trip", "statement": "Parsing the JSON text written for a tree of null/booleans/integers/strings/lists/dictionaries gives back an equal tree.", "quantifier": "every finite tree", "why_tests_cant": "Unbounded nesting and key contents.", "anchors": ["Source/DKJSON.c: DKJSONWrite, WriteObject, ParseObject, ScanToken"]}
{"id": "C42", "title": "JSON parser memory safety", "statement": "Parsing any NUL-terminated text terminates and never reads beyond the terminator.", "quantifier": "every byte string", "why_tests_cant": "All malformed inputs.", "anchors": ["Source/DKJSON.c: ScanToken, ScanStringToken, ScanUnicodeCodePoint"]}
{"id": "C43", "title": "Number parsing", "statement": "The numeric scanner consumes exactly the longest prefix of the number grammar and yields its value (integers exactly).", "quantifier": "every string", "why_tests_cant": "All numerals incl. overflow and signed exponents.", "anchors": ["Source/DKPlatform.c: dk_strtonum"]}
{"id": "C44", "title": "Egg archives round-trip", "statement": "Unarchiving an archive reproduces the object graph: attributes by key, shared references stay shared, cycles are preserved, collections keep order and NULLs.", "quantifier": "every finite object graph", "why_tests_cant": "Arbitrary sharing/cycles.", "anchors": ["Source/DKEgg.c: AddObject, DKEggAddObject, DKEggAddCollection, DKEggUnarchiverGetObject, GetAttribute, AddEncodedData"]}
{"id": "C45", "title": "Egg data layout", "statement": "Numeric, text and binary attributes read back exactly the bytes added, at aligned offsets, regardless of what else is archived before or after.", "quantifier": "every sequence of adds", "why_tests_cant": "Alignment/overlap depends on history.", "anchors": ["Source/DKEgg.c: AddEncodedData, DKEggGetNumberData, DKEggGetTextDataPtr, DKEggGetBinaryDataPtr"]}
{"id": "C46", "title": "Predicates", "statement": "Evaluation follows boolean logic: AND/OR/NOT, the comparison operators follow the order (exactly one of <,=,> holds), ANY/ALL/NONE quantify over the collection.", "quantifier": "every predicate tree and assignment", "why_tests_cant": "Unbounded nesting.", "anchors": ["Source/DKPredicate.c: DKPredicateEvaluateWithObject, EvaluateAND, EvaluateLT, EvaluateALL, EvaluateANY, EvaluateCONTAINS, PredicateOpInfoTable"]}
{"id": "C47", "title": "Graph edges", "statement": "After any sequence of add/remove edge, an edge query returns exactly the edge added last and not removed.", "quantifier": "every history of edge operations", "why_tests_cant": "Histories.", "anchors": ["Source/DKGraph.c: FindEdge, DKGraphAddEdge, DKGraphRemoveEdge"]}
{"id": "C48", "title": "Graph traversal", "statement": "Traversal terminates and calls back each vertex reachable from the start exactly once.", "quantifier": "every finite graph (cycles, diamonds)", "why_tests_cant": "All graphs.", "anchors": ["Source/DKGraph.c: DKGraphTraverse"]}
{"id": "C49", "title": "Thread pool runs each task once, in order", "statement": "Under every schedule each added task is executed at most once, tasks of one group start in submission order, and a completion starts only after every task of its group has finished.", "quantifier": "every number of workers and every interleaving of add/finish", "why_tests_cant": "Schedules.", "anchors": ["Source/DKThreadPool.c: DKThreadPoolScheduleTask, DKThreadPoolGetNextTask, DKThreadPoolCompleteTask, DKThreadPoolScheduleCompletion"]}
{"id": "C50", "title": "Thread pool waits mean finished", "statement": "When WaitForTasks / WaitUntilIdle returns, all tasks (and completions) of the group / pool have finished.", "quantifier": "every schedule", "why_tests_cant": "Schedules.", "anchors": ["Source/DKThreadPool.c: DKThreadPoolWaitForTasks, DKThreadPoolWaitUntilIdle"]}
{"id": "C51", "title": "Thread state machine", "statement": "A cancelled thread stays cancelled until finished; states only move forward; join/stop eventually observe finish.", "quantifier": "every schedule of start/cancel/exec", "why_tests_cant": "Schedules.", "anchors": ["Source/DKThread.c: DKThreadExec, DKThreadStart, DKThreadCancel", "Source/DKThreadPool.c: DKThreadPoolStop"]}
{"id": "C52", "title": "Semaphore counter", "statement": "The counter equals increments minus decrements and never goes negative; a waiter returns only in a state where the counter had the awaited value.", "quantifier": "every schedule", "why_tests_cant": "Schedules.", "anchors": ["Source/DKSemaphore.c: DKSemaphoreIncrement, DKSemaphoreDecrement, DKSemaphoreWait"]}
{"id": "C53", "title": "Shared objects are created once", "statement": "A shared accessor (class, selector, shared object) creates its object exactly once and every caller on every thread gets that object.", "quantifier": "every number of threads and every interleaving", "why_tests_cant": "Schedules.", "anchors": ["Source/DKRuntime.h: DKThreadSafeSharedObjectInit", "Source/DKPlatform.h: DKSpinLockLock"]}
{"id": "C54", "title": "Constant strings are interned", "statement": "Two constant-string requests with equal text return the same pointer, on all threads.", "quantifier": "every interleaving of requests with arbitrary texts", "why_tests_cant": "Schedules.", "anchors": ["Source/DKString.c: __DKStringGetConstantString"]}
{"id": "C55", "title": "Property reads see writes", "statement": "Setting an object, weak or copied property then reading it returns the object set (or NULL if weak and dead / an equal copy), with balanced reference counts; read-only properties never change; key paths resolve step by step.", "quantifier": "every object graph, property kind and history", "why_tests_cant": "Histories of references.", "anchors": ["Source/DKRuntime+Properties.c: DKWritePropertyObject, DKReadPropertyObject, DKResolveTargetForKeyPath"]}
{"id": "C56", "title": "Enum names", "statement": "The value of a name is the last value registered for it; the name of a value maps back to that value.", "quantifier": "every registration sequence", "why_tests_cant": "Histories.", "anchors": ["Source/DKEnum.c: DKEnumFromString64, DKStringFromEnum64"]}
{"id": "C57", "title": "Appending a container to itself", "statement": "Appending an array's, data object's or string's own contents to itself yields the contents twice.", "quantifier": "every content and every capacity", "why_tests_cant": "Only fails when the append has to reallocate.", "anchors": ["Source/DKGenericArray.c: DKGenericArrayReplaceElements", "Source/DKByteArray.c: DKByteArrayReplaceBytes", "Source/DKString.c: DKStringAppendString"]}
{"id": "C58", "title": "Fast static dispatch agrees with lookup", "statement": "The unchecked dispatch used internally for the built-in interfaces returns the same interface as the ordinary lookup on every object that has the interface.", "quantifier": "every class hierarchy and every history of installs and lookups", "why_tests_cant": "Depends on cache state left by the whole history.", "anchors": ["Source/DKRuntime.h: DKGetStaticInterfaceFastUnsafe", "Source/DKRuntime+Interfaces.c: DKInterfaceTableInsert, DKInterfaceTableInit"]}
{"id": "C59", "title": "Sealed and abstract classes", "statement": "A class created as not to be subclassed never gets a subclass; no instance of an abstract class is ever created.", "quantifier": "every history of class creations", "why_tests_cant": "Histories.", "anchors": ["Source/DKRuntime.c: DKNewClass, DKAllocObject"]}
{"id": "C60", "title": "String equality is equality of texts", "statement": "After any history of string calls two strings compare equal exactly if their texts are the same.", "quantifier": "all histories of creating, changing, copying, hashing and comparing strings", "why_tests_cant": "The cached hash makes equality depend on the whole history.", "anchors": ["Source/DKString.c: TestEquality, UpdateHash, DKStringSetByteLength"]}
{"id": "C61", "title": "String comparison is the code point order", "statement": "Comparing two strings gives zero exactly when they are equal, positive exactly when the first precedes the second in the lexicographic order of code points, negative exactly when it follows.", "quantifier": "all pairs of strings, malformed ones included", "why_tests_cant": "All pairs of strings.", "anchors": ["Source/DKString.c: DKStringCompareString", "Source/DKUnicode.c: dk_ustrcmp"]}
{"id": "C62", "title": "Path extensions", "statement": "The extension of a path is what follows the last dot of its last component (empty if there is none); after appending an extension to a path it is the path's extension, and deleting the extension gives back the standardized path.", "quantifier": "all paths and extensions", "why_tests_cant": "All strings, any number of dots and slashes.", "anchors": ["Source/DKString.c: DKStringHasPathExtension, DKStringGetPathExtension, DKStringAppendPathExtension, DKStringDeletePathExtension"]}
{"id": "C63", "title": "JSON texts are understood", "statement": "Parsing a text of the JSON grammar yields the value it denotes (last of duplicate keys, escapes decoded, white space ignored), and a text outside the grammar yields NULL.", "quantifier": "every text of the grammar, unbounded nesting", "why_tests_cant": "Unbounded nesting and all string and number forms; which malformed texts are rejected.", "anchors": ["Source/DKJSON.c: DKJSONParse, ParseObject, ScanToken, ScanStringToken"]}
{"id": "C64", "title": "Shortest paths", "statement": "Asking a graph for the shortest path between two vertices returns a list of vertices joined by edges of least total cost, or NULL if there is none.", "quantifier": "every graph, start, goal and cost function", "why_tests_cant": "All graphs and costs; termination.", "anchors": ["Source/DKGraph.c: DKGraphGetShortestPath"]}
{"id": "C65", "title": "Predicate operator names", "statement": "The text of an operator converts back to that operator, the usual symbols are accepted, and other texts mean Unspecified.", "quantifier": "every operator and every text", "why_tests_cant": "All texts.", "anchors": ["Source/DKPredicate.c: DKStringFromPredicateOp, DKPredicateOpFromString, PredicateOpLookupTable"]}
{"id": "C66", "title": "Membership predicates", "statement": "IN, CONTAINS, KEYIN, CONTAINSKEY, ISA, LIKE, BEGINSWITH and ENDSWITH test membership, keys, class, equality, prefix and suffix, and CONTAINS is IN with the operands exchanged.", "quantifier": "every operand", "why_tests_cant": "All pairs of operands.", "anchors": ["Source/DKPredicate.c: EvaluateIN, EvaluateCONTAINS, EvaluateKEYIN, EvaluateISA, EvaluateLIKE, EvaluateBEGINSWITH"]}
{"id": "C67", "title": "Malformed archives", "statement": "Opening and reading bytes that are not a well-formed archive reads nothing outside of them: such bytes are refused or read as missing data.", "quantifier": "every byte string, from memory or a stream, of either byte order", "why_tests_cant": "All byte strings.", "anchors": ["Source/DKEgg.c: DKEggUnarchiverInitWithData, DKEggUnarchiverInitWithStream, DKEggUnarchiverGetObject, GetAttribute"]}
{"id": "C68", "title": "A running pool finishes its work", "statement": "A started thread pool never loses a wakeup: once nothing new is added it comes to rest, and then every task and completion added has been executed.", "quantifier": "every reachable pool with threads, every schedule, both scheduling modes", "why_tests_cant": "Schedules; liveness.", "anchors": ["Source/DKThreadPool.c: DKThreadPoolExec, DKThreadPoolRealTimeExec, DKThreadPoolAddTask"]}
{"id": "C69", "title": "Stopping a pool", "statement": "DKThreadPoolStop returns, and when it does every worker has ended and every task that was started has returned.", "quantifier": "every reachable pool and every schedule", "why_tests_cant": "Schedules; liveness.", "anchors": ["Source/DKThreadPool.c: DKThreadPoolStop, DKThreadPoolExec", "Source/DKThread.c: DKThreadCancel, DKThreadExec"]}
{"id": "C70", "title": "Thread pools do not crash", "statement": "No sequence of calls on a pool, from any number of threads, makes a worker use a queue that is gone or violates an internal requirement.", "quantifier": "every reachable pool, every call and every schedule", "why_tests_cant": "Schedules.", "anchors": ["Source/DKThreadPool.c: DKThreadPoolCompleteTask, DKThreadPoolRemoveAllTasks, DKThreadPoolGetNextTask"]}
{"id": "C71", "title": "A thread object outlives its thread", "statement": "A started thread keeps its object alive until it has ended, whatever references the callers drop meanwhile, and does not keep it alive afterwards; nobody ever uses a freed thread object.", "quantifier": "every schedule of any number of callers that start, cancel, retain and release a thread", "why_tests_cant": "Schedules; memory.", "anchors": ["Source/DKThread.c: DKThreadStart, DKThreadExec, DKThreadContextFinalize, DKThreadExit"]}
{"id": "C72", "title": "Dictionaries and sets own what they hold", "statement": "A dictionary or set holds a reference to each key and object in it from the moment it is inserted until it is replaced, removed, cleared or the table is deallocated, and then gives it back; objects with no references left are deallocated, nothing else is, and no call touches a deallocated object.", "quantifier": "every history of allocations, retains, releases and calls on any number of tables, every key class", "why_tests_cant": "All histories including rehashes, borrowed keys and objects, and cascades of deallocations.", "anchors": ["Source/DKHashTable.c: RowUpdate, RowDelete, DKHashTableCopy, INTERNAL_DKHashTableInsertObject, INTERNAL_DKHashTableAddObjectToSet, INTERNAL_DKHashTableRemoveObject", "Source/DKGenericHashTable.c: ResizeAndRehash, DKGenericHashTableInsert, DKGenericHashTableRemove, DKGenericHashTableFinalize"]}
{"id": "C73", "title": "XML documents are understood", "statement": "Parsing a well-formed XML document yields the tree of elements, attributes and text it denotes (references replaced, line ends and white space normalized, comments, instructions and the document type ignored); a text that is not well formed yields NULL.", "quantifier": "every document of the grammar: unbounded nesting, any attributes, references, CDATA sections, comments, declarations", "why_tests_cant": "Unbounded nesting and all combinations of constructs; which malformed texts are rejected.", "anchors": ["Source/DKXML.c: DKXMLParse, INTERNAL_DKXMLParse, DKXMLAppendTextContent", "ThirdParty/yxml/yxml.c: yxml_parse, yxml_refend, yxml_elemcloseend, yxml_selfclose"]}
{"id": "C74", "title": "XML parsing always answers", "statement": "Parsing any bytes as XML returns a tree or NULL: it never reads or writes outside its buffer, never dereferences NULL, never recurs forever, and the answer does not depend on what memory held before.", "quantifier": "every byte string, every initial content of the buffer", "why_tests_cant": "All byte strings, including those that overflow the name stack.", "anchors": ["Source/DKXML.c: INTERNAL_DKXMLParse", "ThirdParty/yxml/yxml.c: yxml_pushstack, yxml_popstack, yxml_init, yxml_selfclose"]}
{"id": "C75", "title": "Trimming white space", "statement": "Trimming a string removes exactly the white space characters at its two ends and keeps everything between them.", "quantifier": "every string", "why_tests_cant": "All strings, all characters.", "anchors": ["Source/DKString.c: DKStringByTrimmingWhitespace, CopySubstring"]}
{"id": "C76", "title": "Filtering a string", "statement": "Filtering a string asks the filter function about each character in order, with its position, the position it would have in the result, its bytes and its code, until the function says stop; the result consists of exactly the characters kept.", "quantifier": "every string (malformed ones included) and every filter function, with any state", "why_tests_cant": "All functions and strings.", "anchors": ["Source/DKString.c: DKStringByFilteringString"]}
{"id": "C77", "title": "Wrapping a string", "statement": "Wrapping a string to a number of characters per line keeps the words and their order, never breaks a word, never makes a line longer than the limit unless it is a single word, fills lines greedily, and ends lines at line feeds.", "quantifier": "every string and limit", "why_tests_cant": "All strings, runs of blanks, line ends and limits.", "anchors": ["Source/DKString.c: DKStringWrap, DKStringByTrimmingWhitespace"]}
{"id": "C78", "title": "Formatted output", "statement": "DKSPrintf writes the literal text of the format and the rendering of each argument, in order, to the stream, and returns the number of bytes written; %@ writes an object's description, a NULL string is written as a placeholder, and %f without precision drops superfluous zeros.", "quantifier": "every sequence of texts and directives with matching arguments, every stream, every behaviour of the C library's own formatting", "why_tests_cant": "All combinations of directives, flags, modifiers and arguments; buffers of fixed size.", "anchors": ["Source/DKStream.c: DKVSPrintf, DKSPrintf, IntegerSize, FloatSize, IsUnformattedFloat, TrimZeroes, CopyFormat, WriteCounter"]}
{"id": "C79", "title": "Lines and characters of streams", "statement": "Lines written to a stream are read back one by one, with an end of stream that can be told from an empty line; a character written is the character read, and no byte is mistaken for the end.", "quantifier": "every list of lines, every byte, every position of the stream", "why_tests_cant": "All contents and positions.", "anchors": ["Source/DKStream.c: DKGets, DKPuts, DKGetc, DKPutc", "Source/DKData.c: DKDataRead, DKDataWrite"]}
{"id": "C80", "title": "Query parameters", "statement": "Splitting a URL query gives a dictionary with the decoded value (or NULL) of each decoded name, the last one if a name is repeated; combining a dictionary of parameters gives a query from which splitting gives the same dictionary back.", "quantifier": "every list of parameters, every dictionary, all names and values", "why_tests_cant": "All names and values, empty ones and reserved characters included; the order of a hash table.", "anchors": ["Source/DKString.c: DKStringSplitQueryParameters, DKStringCombineQueryParameters, DKStringURLPercentEscapePatterns"]}
{"id": "C81", "title": "Style declarations", "statement": "Splitting CSS style declarations gives a dictionary with the value of each name, without the white space around it, the last one if a name is repeated.", "quantifier": "every list of declarations, all names, values and white space", "why_tests_cant": "All values, empty declarations and colons in values included.", "anchors": ["Source/DKString.c: DKStringSplitCSSStyles"]}
{"id": "C82", "title": "Value properties", "statement": "Setting a number, enumeration or structure property, by bytes, by object or as a truth value, changes that property only; reading it in any of the ways gives the value set, converted if the types differ; enumerations convert between names and values; structures are checked for semantic and size; read-only properties never change.", "quantifier": "every class, object, property, encoding (types and shapes), value and enumeration", "why_tests_cant": "All pairs of types and shapes, all layouts of neighbouring properties.", "anchors": ["Source/DKRuntime+Properties.c: DKWritePropertyObject, DKReadPropertyObject, DKSetNumberProperty, DKGetNumberProperty, DKSetStructProperty, DKGetStructProperty, DKSetBoolProperty, DKGetBoolProperty, UnpackNumber, UnpackStructure", "Source/DKStruct.c: DKStructInit, DKStructGetValue", "Source/DKNumber.c: DKNumberConvert"]}
{"id": "C83", "title": "Object locks", "statement": "DKLockObject and DKUnlockObject give every object a lock of its own: between the return of one and the call of the other no other thread gets the lock of that object, also when several threads lock it for the first time together; nobody waits for the lock of another object; nothing made for the lock outlives the object.", "quantifier": "every schedule of any number of threads, objects, calls and deallocations", "why_tests_cant": "Schedules.", "anchors": ["Source/DKRuntime.c: DKLockObject, DKUnlockObject", "Source/DKRuntime+Metadata.c: DKMetadataFindOrInsert, DKMetadataRemove, DKMetadataFinalize", "Source/DKMutex.c: DKMutexLock, DKMutexUnlock"]}
{"id": "C84", "title": "Read-write locks", "statement": "A thread that has a read-write lock for writing is the only one that has it; threads that have it for reading share it; an attempt to lock returns at once and says truly whether the lock was taken; unlocking gives back what was taken.", "quantifier": "every schedule of any number of threads, on POSIX and on Windows", "why_tests_cant": "Schedules; platforms.", "anchors": ["Source/DKReadWriteLock.c: DKReadWriteLockLock, DKReadWriteLockTryLock, DKReadWriteLockUnlock"]}
{"id": "C85", "title": "Timed waits", "statement": "A timed wait for a condition ends, at the latest, when the timeout is over: the end is the present time plus the timeout, in the form the system accepts.", "quantifier": "every present time and timeout", "why_tests_cant": "All fractions of seconds; carries.", "anchors": ["Source/DKCondition.c: DKConditionTimedWait"]}
{"id": "C86", "title": "Segments of a stream", "statement": "Segments written to a stream one after the other (object, content type, annotation) are read back one by one with the same content type, annotation and object, encoded and decoded by the encoder registered last for the content type.", "quantifier": "every list of segments, every registry of encoders, every content", "why_tests_cant": "All contents, annotations, types and positions in the stream; what a reader takes for a header.", "anchors": ["Source/DKShell.c: DKShellWrite, DKShellRead, DKShellRegisterContentType, GetHeaderValue", "Source/DKStream.c: DKGets, DKSPrintf"]}
{"id": "C87", "title": "Reading segments is safe", "statement": "Reading a segment from a stream of any bytes returns success or failure: it never reads or writes outside its buffers and never runs forever.", "quantifier": "every content and position of the stream, every registry of encoders", "why_tests_cant": "All byte strings.", "anchors": ["Source/DKShell.c: DKShellRead, GetHeaderValue"]}
{"id": "C88", "title": "Names of classes and selectors", "statement": "DKClassFromString and DKSelectorFromString give the class or selector with that name, from its creation until it is deallocated, and NULL if there is none; no two classes or selectors with the same name exist at a time; a class or selector without a name is never found.", "quantifier": "every history of creations, deallocations and searches by any number of threads", "why_tests_cant": "Histories; what was in the table before.", "anchors": ["Source/DKRuntime+Reflection.c: DKNameDatabaseInsertClass, DKNameDatabaseRemoveClass, DKClassFromString, DKSelectorFromString, DKStringFromClass", "Source/DKRuntime.c: DKNewClass, DKClassFinalize", "Source/DKRuntime+Interfaces.c: DKAllocSelector, DKSelectorFinalize"]}
{"id": "C89", "title": "Descriptions of XML elements", "statement": "The description of an XML element is an XML document; parsing it gives the same tree of elements, attributes and texts.", "quantifier": "every tree, every order of the attributes", "why_tests_cant": "All trees, unbounded nesting; escaping.", "anchors": ["Source/DKXML.c: DKXMLElementGetDescription, INTERNAL_DKXMLElementGetDescription, WriteAttribute, WriteIndent, DKXMLParse"]}
{"id": "C90", "title": "JSON vectors", "statement": "With the vector syntax extension a number of several elements is written as #[...] and read back as the same number; reading #[...] gives a number with these elements, of integers if all are integers, else of floating point numbers, of the size asked for; other texts after # are refused.", "quantifier": "every vector of any length, every text, both sizes", "why_tests_cant": "All lengths and values; mixtures of integers and fractions in any order; malformed vectors.", "anchors": ["Source/DKJSON.c: ScanVectorToken64, ScanVectorToken32, WriteObject, ScanToken", "Source/DKNumber.c: DKNumberFormatString, DKNumberInit", "Source/DKEncoding.h: DKEncode"]}
{"id": "C91", "title": "Clocks", "statement": "The current date is the number of seconds since the start of 2001 at Greenwich, on every platform; the local date is the current date moved by the offset of the time zone; later readings of the host's clock give later dates.", "quantifier": "every reading of the host's clock, every time zone", "why_tests_cant": "All instants and zones; a test sees the instant and the zone it runs in, and one platform.", "anchors": ["Source/DKPlatform.c: dk_datetime, dk_localtime", "Source/DKPlatform.h: DKAbsoluteTimeSince1970, DKDateTime"]}
{"id": "C92", "title": "Generated identifiers", "statement": "A generated identifier is the one the host generated, byte for byte in the order of its text, on every platform; generation cannot yield an indeterminate identifier.", "quantifier": "every identifier the host can generate, every content of the kernel's file", "why_tests_cant": "2^128 identifiers; tests on one platform cannot show the order of bytes on another.", "anchors": ["Source/DKPlatform.c: dk_uuid_generate, dk_uuid_readbyte"]}
{"id": "C93", "title": "Wide strings", "statement": "On Windows converting a string to a wide string gives the UTF-16 text of its characters, converting a wide string gives the string with its characters, and both together give the string.", "quantifier": "every string, every wide string", "why_tests_cant": "All texts, surrogate pairs; tests on other platforms do not compile the code.", "anchors": ["Source/DKString.c: DKStringInitWithWString, DKStringGetWString, DKStringGetWStringAsData", "Source/DKData.c: DKDataGetMutableBytePtr"]}
{"id": "C94", "title": "Thread contexts", "statement": "Every thread that uses Duck has its own thread object, dictionary and autorelease pools: what a thread stores in its dictionary only it reads back, the current thread is the same object each time it asks and never that of another thread; when the thread ends, all of it is released exactly once and nothing crashes.", "quantifier": "every number of threads, made by Duck or attached, every interleaving of their calls", "why_tests_cant": "All interleavings and histories; crashes at the end of a thread depend on what is left in the dictionary.", "anchors": ["Source/DKThread.c: DKThreadContextInit, DKThreadContextFinalize, DKAllocThreadContext, DKFreeThreadContext, DKThreadContextDestructor, DKGetCurrentThreadDictionary, DKThreadGetCurrentThread, DKThreadGetMainThread, DKThreadExec", "Source/DKRuntime+RefCount.c: DKPushAutoreleasePool, DKPopAutoreleasePool, DKAutorelease"]}
{"id": "C95", "title": "Observers, getters and setters of properties", "statement": "Setting a property, in any way, tells its observers once before and once after the write and otherwise does what it does without observers; reading does the same with the observers of reads; a write that is refused tells no one; a custom setter is given the value and a custom getter's answer is the value, whichever way the property is set or read; properties a class does not define go to its Property interface.", "quantifier": "every class, object, property, value, way of setting and reading, every observer, getter and setter", "why_tests_cant": "All functions as observers, getters and setters; all ways combined with all kinds of properties.", "anchors": ["Source/DKRuntime+Properties.c: DKWritePropertyObject, DKReadPropertyObject, DKTrySetProperty, DKTryGetProperty, DKSetNumberProperty, DKGetNumberProperty, DKSetStructProperty, DKGetStructProperty"]}
{"id": "C96", "title": "Objects of tasks", "statement": "A thread pool keeps the target and parameter of a task alive from the moment the task is added until it has returned or has been removed, and then gives up its references once; when the pool is deallocated nothing is left.", "quantifier": "every schedule of any number of threads and tasks, every call", "why_tests_cant": "Schedules; references.", "anchors": ["Source/DKThreadPool.c: DKThreadPoolAllocObjectTask, DKThreadPoolFreeTasks, DKThreadPoolCompleteTask, DKThreadPoolRemoveAllTasks, DKThreadPoolFinalize"]}
{"id": "C97", "title": "Trees own what they hold", "statement": "A binary tree holds a reference to each key and object in it from the moment it is inserted until it is replaced, removed, cleared or the tree is deallocated, and then gives it back; no call touches a freed object, whoever owns the objects passed to it; the memory of a tree is proportional to what it holds.", "quantifier": "every history of creations, retains, releases and calls, every total order of keys", "why_tests_cant": "All histories, borrowed keys and objects included.", "anchors": ["Source/DKBinaryTree.c: AllocNode, FreeNode, InsertRecursive, Remove, RemoveAllRecursive, DKBinaryTreeFinalize, DKBinaryTreeInsertObject"]}
{"id": "C98", "title": "Archived values", "statement": "A structure of strings, numbers, booleans, data, arrays, linked lists, dictionaries, sets, trees, pairs, structures and predicates that is archived and unarchived, by the same or another program, on a machine of the same or the other byte order, has the same value: the same classes, texts, numbers, elements, pairs and members, to any depth; shared objects stay shared.", "quantifier": "every structure, of any size and nesting, with sharing and cycles; both byte orders; every set of constant strings of the reading program", "why_tests_cant": "All structures; two machines of different byte order; programs that know different classes.", "anchors": ["Source/DKString.c: DKStringInitWithEgg, DKStringAddToEgg, InitString, CopySubstring", "Source/DKNumber.c: DKNumberInitWithEgg, DKNumberAddToEgg", "Source/DKBoolean.c: DKBooleanInitWithEgg, DKBooleanAddToEgg", "Source/DKData.c: DKDataInitWithEgg, DKDataAddToEgg", "Source/DKArray.c: DKArrayInitWithEgg, DKArrayAddToEgg", "Source/DKLinkedList.c: DKLinkedListInitWithEgg, DKLinkedListAddToEgg", "Source/DKHashTable.c: DKHashTableInitWithEgg, DKHashTableAddToEgg", "Source/DKBinaryTree.c: DKBinaryTreeInitWithEgg, DKBinaryTreeAddToEgg", "Source/DKPair.c: DKPairInitWithEgg, DKPairAddToEgg", "Source/DKStruct.c: DKStructInitWithEgg, DKStructAddToEgg", "Source/DKPredicate.c: DKPredicateInitWithEgg, DKPredicateAddToEgg", "Source/DKEgg.c: DKEggGetEncoding", "Source/DKRuntime+Symbols.c: DKRuntimeInitSymbols"]}
{"id": "C99", "title": "Conversions between numbers and texts", "statement": "The text of a number shows its elements in order, integers by their decimal numerals, with the separator between them; an integer read from a string is the number the string begins with after white space, or the nearest one that can be represented, and 0 if there is none; a number and its text convert to the same integer and to the same truth value; booleans and no object convert as 1, 0 and false.", "quantifier": "every number of every type and count, every separator, every string of bytes", "why_tests_cant": "All integers of all types and all strings; agreement of two conversions on every value.", "anchors": ["Source/DKConversion.c: DKGetString, DKGetBool, DKGetInt32, DKGetInt64", "Source/DKNumber.c: DKNumberFormatString, DKNumberGetDescription, DKNumberGetBool, DKNumberGetInt32, DKNumberGetInt64", "Source/DKString.c: DKStringGetBool, DKStringGetInt32, DKStringGetInt64", "Source/DKBoolean.c: DKBooleanGetDescription, DKTrue, DKFalse", "Source/DKPlatform.h: dk_strtoi32, dk_strtoi64"]}
{"id": "C100", "title": "Files", "statement": "A file is bytes and a position: reads, writes, seeks and positions are those of the bytes, however the library buffers them, and when it is closed or disposed of the bytes are on the disk and no other file has changed; what is written to a file is what loading it as data or string gives; loading takes the whole file and tells when there is none; data, strings and files behave the same as streams; after closing every operation fails.", "quantifier": "every disk, mode, history of operations, division into writes and moment of flushing", "why_tests_cant": "All histories of operations; when a buffer is flushed is not under the control of a test.", "anchors": ["Source/DKFile.c: DKFileOpen, DKFileClose, DKFileFinalize, DKFileSeek, DKFileTell, DKFileRead, DKFileWrite, DKFileGetLength, DKFileGetStatus, DKFileExists, DKFileInitWithStreamPtr", "Source/DKData.c: DKDataInitWithContentsOfFile, DKDataSeek, DKDataRead, DKDataWrite", "Source/DKString.c: DKStringInitWithContentsOfFile, DKStringGetLength", "Source/DKStream.c: DKSeek, DKTell, DKRead, DKWrite, DKStreamGetLength"]}
{"id": "C101", "title": "Floating point numbers as text", "statement": "The text of a floating point number is the number rounded to six decimals, without zeros that say nothing; a decimal fraction read as a number and written again is the same text; a number written and read again is the same number, through strings and through JSON.", "quantifier": "every bit pattern of both sizes, every decimal fraction", "why_tests_cant": "2^64 numbers; rounding at each step of a sum.", "anchors": ["Source/DKNumber.c: DKNumberFormatString, DKNewNumberWithDouble", "Source/DKStream.c: DKVSPrintf, IsUnformattedFloat, TrimZeroes", "Source/DKString.c: DKStringGetFloat, DKStringGetDouble", "Source/DKPlatform.c: dk_strtonum", "Source/DKPlatform.h: dk_strtof32, dk_strtof64", "Source/DKJSON.c: ParseObject, WriteObject"]}
{"id": "C102", "title": "Copies", "statement": "DKCopy returns an object with the contents of the original that no later change of the original affects: the original itself if it is immutable, a new immutable object otherwise; DKMutableCopy returns a new mutable object; changes of the copies do not affect the original; a dictionary or set that keeps a copy of a key finds it again.", "quantifier": "every program that creates, copies, changes and releases strings, data, arrays and lists; every address of a key", "why_tests_cant": "An aliased copy looks right until the original changes; hashing by address depends on the allocator.", "anchors": ["Source/DKCopying.c: DKCopy, DKMutableCopy", "Source/DKString.c: DKStringCopy, DKStringMutableCopy", "Source/DKData.c: DKDataCopy, DKDataMutableCopy", "Source/DKArray.c: DKArrayCopy, DKArrayMutableCopy", "Source/DKLinkedList.c: DKLinkedListCopy, DKLinkedListMutableCopy", "Source/DKHashTable.c: DKHashTableCopy, InsertKeyAndObject", "Source/DKComparison.c: DKPointerHash"]}
{"id": "C103", "title": "Linked lists own what they hold", "statement": "A linked list holds one reference to an object for each entry with it: objects in it stay alive, an object leaves with its reference given back exactly once, giving up the list gives back all of them and no node is leaked; no legal call touches a freed object.", "quantifier": "every sequence of creations, retains, releases, range replacements, priority insertions, reads, reversals and sorts of a list and the objects in it, NULLs and repeated objects included", "why_tests_cant": "A missing or extra release shows as a leak or as a use after free later, in other code, for particular ownerships only.", "anchors": ["Source/DKLinkedList.c: AllocNode, FreeNode, RemoveRange, InsertObject, INTERNAL_DKLinkedListReplaceRangeWithCArray, INTERNAL_DKLinkedListReplaceRangeWithCollection, DKLinkedListInsertObjectWithPriority, DKLinkedListFinalize"]}
{"id": "C104", "title": "Interface lookups by many threads", "statement": "Any number of threads may look up interfaces and message handlers of a class, and install new ones, at the same time: a lookup gives the interface that is installed for the selector, never touches freed memory, and does not miss an interface installed before it began.", "quantifier": "every interleaving of lookups and installations by any number of threads, all assignments of cache lines, all sizes at which the table grows", "why_tests_cant": "The races are a few instructions wide and depend on cache collisions, table growth and who else owns the interface.", "anchors": ["Source/DKRuntime+Interfaces.c: DKInterfaceTableFind, DKInterfaceTableInsert, InterfaceTableRowUpdate, DKGetInterface, DKQueryInterface, DKInstallInterface, DKInstallMsgHandler", "Source/DKGenericHashTable.c: DKGenericHashTableInsert, ResizeAndRehash"]}
{"id": "C105", "title": "Memory given without copying", "statement": "Data and strings made without copying (DKDataInitWithBytesNoCopy, DKStringInitWithCStringNoCopy) show the memory of the caller as it is; the library never writes or frees it; other objects have memory of their own, which is given back when they are; copies do not depend on the memory of the original.", "quantifier": "every program of any number of objects: creations with and without copying, retains, releases, copies, edits, resizes, writes through pointers, reads, and writes and frees of the memory by the caller", "why_tests_cant": "Whether freed or foreign memory is touched depends on capacities, ownership and the order of releases; the failing programs usually appear to work.", "anchors": ["Source/DKByteArray.c: DKByteArrayInitWithExternalStorage, DKByteArrayReplaceBytes, DKByteArrayReserve, DKByteArrayFinalize, ResizeArray", "Source/DKData.c: DKDataInitWithBytesNoCopy, DKDataCopy, DKDataSetLength, DKDataMakeImmutable", "Source/DKString.c: DKStringInitWithCStringNoCopy, CopySubstring, DKStringCopy"]}
{"id": "C106", "title": "Shared strings", "statement": "Immutable and constant strings never change.  Strings compare and hash by their texts alone; a literal is one object for one text throughout the program; the empty immutable string is the shared literal.  What is done with other strings does not change this.", "quantifier": "every program of any number of constant, immutable and mutable strings: literals, creations, copies, edits, resizes, substrings, comparisons, hashes", "why_tests_cant": "The shared object is changed by a call on an unrelated string, and the damage shows in another part of the program.", "anchors": ["Source/DKString.c: DKStringInitWithString, CopySubstring, InitString, __DKStringGetConstantString, UpdateHash, TestEquality, DKStringSetByteLength, DKStringCopy, DKConstantStringTableRowEqual", "Source/DKPlatform.h: DKSTR"]}
{"id": "C107", "title": "Descriptions of collections", "statement": "The description of a collection names its class and the number of its members and then shows each member once, in the order of the collection, strings in quotation marks, other objects by their own descriptions, a dictionary as key = object.  Every object has a description; different collections have different ones.", "quantifier": "all object graphs of lists, dictionaries and sets of any size and depth, with NULLs", "why_tests_cant": "The text depends on the whole graph; it fails to end only on cyclic graphs, and counts go wrong only beyond two thousand million members.", "anchors": ["Source/DKCollection.c: DKCollectionGetDescription, DKKeyedCollectionGetDescription, PrintDescriptionCallback, PrintKeyedDescriptionCallback", "Source/DKDescription.c: DKGetDescription"]}
{"id": "C108", "title": "Messages", "statement": "Each message (printed, logged, warning, error, fatal error) is written whole, once and in order, with the prefix and suffix last set for its kind, to the callback last set for its kind, or to standard output or, for errors, standard error.  A fatal error ends the program; an error ends it only if that is the setting.", "quantifier": "all sequences of settings and messages with any formats and arguments", "why_tests_cant": "Six functions with eight strings and five callbacks combine in too many ways; a wrong one is seen only in the combination that uses it.", "anchors": ["Source/DKPlatform.c: _DKPrintf, _DKLog, _DKWarning, _DKError, _DKFatalError, _DKFailedAssert, _DKPrintfInternal, DKSetLogFormat, DKSetErrorCallback, DKSetAbortOnErrors"]}
{"id": "C109", "title": "Collections made of given objects", "statement": "A list made of given objects contains them in the order given, each retained once per occurrence; a set contains of equal objects one, the last; a dictionary contains for each key the key given first (a copy) and the object given last; a list without equal objects contains each object once, in the order given.  Arguments end with the first NULL.", "quantifier": "all lists of arguments, arrays and collections, with equal objects and NULLs, for hash tables and trees", "why_tests_cant": "Which of equal objects is kept and in which order depends on hashes, comparisons and the sizes of tables; arguments that were not given are read without any error.", "anchors": ["Source/DKArray.c: DKArrayInitWithVAObjects, DKArrayInitWithCArray, DKArrayInitWithCollection", "Source/DKList.c: DKListInitSetWithCArray, DKListInitSetWithCollection", "Source/DKHashTable.c: DKHashTableInitSetWithVAObjects, DKHashTableInitSetWithCArray, DKHashTableInitDictionaryWithVAKeysAndObjects", "Source/DKBinaryTree.c: DKBinaryTreeInitSetWithCArray, DKBinaryTreeInitDictionaryWithVAKeysAndObjects"]}
{"id": "C110", "title": "Classes live as long as they are needed", "statement": "A class exists while the client owns a reference to it, while an instance of it has not been freed, and while a subclass of it exists, and is finalized exactly once when the last of these ends.  The finalizers of an object, from its class to the base, all run while these classes exist, even when the client has released the classes before.  When the client owns nothing, no object and no class is left.", "quantifier": "every legal history of making classes, subclasses and instances, of retaining and releasing them, with any calls between the steps of a finalization", "why_tests_cant": "Histories: the order of releases of classes and instances, hierarchies of any depth, finalizers that call the runtime.", "anchors": ["Source/DKRuntime.c: DKNewClass, DKClassFinalize, DKAllocObject, DKDeallocObject, DKDealloc, DKFinalize", "Source/DKRuntime+RefCount.c: DKRetain, DKRelease"]}
{"id": "C111", "title": "Parsers leave nothing behind", "statement": "Whatever text is given to the JSON or XML parser, nothing is freed twice or used after it was freed, the result shows the value the text stands for, exactly the objects that belong to the result exist when the call returns, each with one owner per reference to it, and when the result is released nothing is left.  A rejected text leaves no object at all, wherever the error is and however often the XML parser started again with a larger buffer.", "quantifier": "every JSON text with a defined parse, every XML text, any nesting, repeated keys and attributes, an error at any byte, any garbage in the parser's buffer", "why_tests_cant": "Every pair of position and kind of error takes its own path through the releases; a leak or an early release there shows no effect on the returned value.", "anchors": ["Source/DKJSON.c: DKJSONParse, ParseObject", "Source/DKXML.c: DKXMLParse, INTERNAL_DKXMLParse, DKXMLAppendTextContent, DKXMLElementFinalize", "Source/DKHashTable.c: INTERNAL_DKHashTableInsertObject, RowUpdate", "Source/DKRuntime+RefCount.c: DKRetain, DKRelease"]}
{"id": "C112", "title": "Enumerating a collection, also while the callback changes it", "statement": "DKForeachObject, DKForeachKey and DKForeachKeyAndObject call the callback for every member of an array, linked list, hash table or binary tree, in order, each once, until the callback returns something other than 0, which is then returned (0 otherwise). If the callback itself changes the collection, every member that is in it throughout is still visited exactly once and no member is visited after it was removed.", "quantifier": "all collections reached by any history of calls, all callbacks with any state of their own that may look at the whole collection, return any numbers and make any calls of the stated kinds on the collection being enumerated", "why_tests_cant": "a test enumerates one small collection with a callback that does not touch it; what matters is which rows move, which nodes are used again and which subtrees are rotated under the running loop, for every table size and every order of calls", "anchors": ["Source/DKArray.c: DKArrayApplyFunction", "Source/DKLinkedList.c: DKLinkedListApplyFunction", "Source/DKHashTable.c: DKHashTableApplyFunction, DKHashTableApplyFunctionToKeys, DKHashTableApplyFunctionToObjects", "Source/DKBinaryTree.c: DKBinaryTreeTraverseInOrderInternal, DKBinaryTreeTraverseInOrder", "Source/DKCollection.c: DKForeachObject, DKForeachKey, DKForeachKeyAndObject"]}
{"id": "C113", "title": "Memory of archives", "statement": "While an archiver exists, every object it archived exists, so that two objects that are added get the same index if and only if they are the same object, also if the methods that archive an object make and release objects of their own; the archiver owns each archived object once, however often it is added. An unarchiver gives the same object for an index each time, and the object exists as long as the unarchiver; it owns an object once for each index. When an archiver or unarchiver is destroyed the objects it knew exist exactly if somebody else owns them. None of this uses an object that was freed.", "quantifier": "all sequences of making, retaining, releasing, adding and requesting objects, nested in any way, with an allocator that may use freed memory again, all results of initialization methods including NULL and another object", "why_tests_cant": "a use after free and an address that is used again show up only for certain orders of releases and certain choices of the allocator, and a test sees neither in general", "anchors": ["Source/DKEgg.c: AddObject, DKEggArchiverFinalize, DKEggArchiverInitWithObject, DKEggUnarchiverGetObject, DKEggUnarchiverFinalize, DKEggUnarchiverInitWithData, DKEggUnarchiverInitWithStream, VisitedObjectsRowEqual", "Source/DKRuntime+RefCount.c: DKRetain, DKRelease"]}
{"id": "C114", "title": "Immutable strings shared by threads", "statement": "Any number of threads may hash, compare and copy the same immutable strings at the same time without locking: each call returns the hash of the text, whether the texts are the same, a string with the same text; no text changes, and no call waits for another thread.", "quantifier": "every set of strings, every number of threads, every sequence of calls by each, every interleaving of their loads and stores", "why_tests_cant": "the cached hash is filled without a lock; a test sees a few interleavings only", "anchors": ["Source/DKString.c: UpdateHash, TestEquality, DKStringHash, DKStringInitWithString"]}
{"id": "C115", "title": "Ranges out of bounds are refused", "statement": "A call given a range that does not lie inside the sequence (negative location or length, or an end beyond the sequence) changes nothing and gives nothing: DKArrayGetObjectsInRange and the replacements of arrays, the same of linked lists, DKDataGetByteRange, DKDataReplaceBytes, DKDataDeleteBytes, DKStringReplaceSubstring, DKStringDeleteSubstring. A range inside is not refused.", "quantifier": "every range of two 64-bit numbers, every sequence and every other argument", "why_tests_cant": "the check adds two 64-bit numbers; no test tries all of them, and a sanitizer sees only the sums that occur", "anchors": ["Source/DKPlatform.h: DKRangeEnd, DKRangeInsideOrEnd, DKCheckRange", "Source/DKArray.c: INTERNAL_DKArrayGetObjectsInRange, INTERNAL_DKArrayReplaceRangeWithCArray, INTERNAL_DKArrayReplaceRangeWithCollection", "Source/DKLinkedList.c: INTERNAL_DKLinkedListGetObjectsInRange, INTERNAL_DKLinkedListReplaceRangeWithCArray", "Source/DKData.c: DKDataGetByteRange, DKDataReplaceBytes, DKDataDeleteBytes", "Source/DKString.c: DKStringReplaceSubstring, DKStringDeleteSubstring"]}
{"id": "C116", "title": "Objects have one order", "statement": "DKCompare orders the objects of one kind (strings, data, numbers of one type and count, structures, pairs and lists of one class and length of such, at any depth) by value: it is antisymmetric and transitive, zero exactly for objects with the same value, and DKEqual is true exactly for these. NULL is after everything. Hence DKArraySort of such objects with DKCompare, or with DKReverseCompare, puts them in order.", "quantifier": "every kind, any two or three objects of it in any memory, arrays of any length, any nesting", "why_tests_cant": "a test compares a few objects; whether the order is transitive is a question about all triples, and the addresses decide between objects of different classes", "anchors": ["Source/DKComparison.c: DKPointerCompare, DKEqual, DKCompare, DKReverseCompare", "Source/DKString.c: DKStringEqual, DKStringCompare", "Source/DKData.c: DKDataEqual, DKDataCompare", "Source/DKNumber.c: DKNumberEqual, DKNumberCompare", "Source/DKPair.c: DKPairEqual, DKPairCompare", "Source/DKStruct.c: DKStructEqual, DKStructCompare", "Source/DKList.c: DKListEqual, DKListCompare"]}
{"id": "C117", "title": "Objects as keys", "statement": "Strings, data, numbers of one type, structures, pairs of these and objects without a value can be mixed as keys of a dictionary or members of a set: DKEqual between any two of them, of whatever classes, says whether they have the same value, DKHash is the same for the same value, and the dictionary finds an object under every key with the value of the one it was inserted with, and under no other.", "quantifier": "any keys of any of these classes in any memory, any nesting of pairs, any history of calls", "why_tests_cant": "all pairs and triples of keys of all classes; a collision of hashes between classes has to be constructed", "anchors": ["Source/DKComparison.c: DKEqual, DKHash, DKPointerHash", "Source/DKString.c: DKStringEqual, DKStringHash", "Source/DKData.c: DKDataEqual, DKDataHash", "Source/DKNumber.c: DKNumberEqual, DKNumberHash", "Source/DKPair.c: DKPairEqual, DKPairHash", "Source/DKStruct.c: DKStructEqual, DKStructHash", "Source/DKHashTable.c: DKHashTableSetObject, DKHashTableGetObject"]}
{"id": "C118", "title": "Creating shared objects never deadlocks", "statement": "However many threads call any of the functions that return a shared class, selector or table, while these functions create their objects by calling each other, no thread waits for ever for another: every execution ends with every call returned, and all calls of one function have returned the one object that was created.", "quantifier": "any number of threads, any lists of calls, any interleaving of their statements; all 50 such functions of the library, and any other set that does not call itself in a circle", "why_tests_cant": "a deadlock needs two threads at two statements of two functions at the same time, and each function creates its object only once per process", "anchors": ["Source/DKRuntime.h: DKThreadSafeSharedObjectInit, DKThreadSafeStaticObjectInit, DKThreadSafeClassInit", "Source/DKPlatform.h: DKSpinLockLock, DKSpinLockUnlock", "Source/DKString.c: DKStringClass, DKConstantStringClass, __DKStringGetConstantString", "Source/DKHashTable.c: DKMutableHashTableClass", "Source/DKPredicate.c: DKPredicateClass"]}
{"id": "C119", "title": "Shared objects are complete when seen", "statement": "When a function that returns a shared class, selector or table has returned it to a thread, that thread sees the object as its creator made it: every field that was written while it was created is seen as written, whichever thread created it.", "quantifier": "any number of threads, any interleaving of their statements, any delay of their writes, objects with any number of fields; machines that keep the order of writes and machines that do not", "why_tests_cant": "the order in which writes are seen depends on the processor; a machine that keeps the order never shows the fault, and on others it shows in nanoseconds once per process", "anchors": ["Source/DKRuntime.h: DKThreadSafeSharedObjectInit, DKThreadSafeStaticObjectInit", "Source/DKPlatform.h: DKSpinLockLock, DKSpinLockUnlock, DKAtomicCmpAndSwap32, DKAtomicAnd32"]}
{"id": "C120", "title": "The finalizer sees every write", "statement": "When the last reference to an object is released, by DKRelease or DKTryRelease and by whichever thread, the finalizer sees each field of the object as it was last written by any thread through one of its references, and no write reaches the memory of the object after it was freed; no barriers other than those of the reference count are needed, provided references are given to other threads through a lock and two threads do not write one field at the same time.", "quantifier": "any number of threads and references, any sequence of writes, retains, releases and hand-overs, any delay and order in which the writes reach memory", "why_tests_cant": "a write that is seen late needs two processors and a window of nanoseconds, and shows as a stale field in a finalizer or as a damaged heap much later", "anchors": ["Source/DKRuntime+RefCount.c: DKRetain, DKRelease, DKTryRelease, DKResolveWeak", "Source/DKPlatform.h: DKAtomicIncrement32, DKAtomicDecrement32, DKAtomicCmpAndSwap32"]}
{"id": "C121", "title": "Integrity checks never fail", "statement": "In a build with integrity checks and assertions, no history of calls on a binary tree or a linked list makes a check fail, whatever the comparison function of the tree answers; each call does what it does in a build without checks, and the checks do find a wrong count, level or cursor.", "quantifier": "every history of calls on a tree or list, every comparison function (also one that is not an order), every allocation of nodes", "why_tests_cant": "a check that fails in a rare state aborts the program of a developer who did nothing wrong; tests visit few shapes of trees and cursor positions", "anchors": ["Source/DKBinaryTree.c: CheckTreeIntegrity, CheckTreeIntegrityRecursive, Remove, INTERNAL_DKBinaryTreeRemoveAllObjects", "Source/DKLinkedList.c: CheckListIntegrity, MoveCursor, RemoveRange, InsertObject, DKLinkedListInsertObjectWithPriority"]}
{"id": "C122", "title": "The runtime starts", "statement": "DKRuntimeInit completes whatever its options; afterwards every built-in class and selector has its name and is found under it, no search for a name fails, whatever classes the program adds, further calls of DKRuntimeInit change nothing, and a call by any thread returns only when the runtime is ready; a class is recognised as one wherever a class can be given.", "quantifier": "all options, every name searched for, every history of creations, releases and searches of classes after the start, every number of threads that call DKRuntimeInit in every interleaving", "why_tests_cant": "the start runs once per process, in one order, in one thread; a wrong name shows only when a program asks for it, and the tables of names fail only for unlucky sets of names", "anchors": ["Source/DKRuntime.c: DKRuntimeInit, InitRootClass, SetRootClassName, SetStaticSelectorName, DKRootClass, DKNewClass", "Source/DKRuntime+Symbols.c: DKRuntimeInitSymbols", "Source/DKRuntime+Reflection.c: DKNameDatabaseInit, DKNameDatabaseInsertClass, DKNameDatabaseInsertSelector, DKClassFromString, DKSelectorFromString, DKStringFromClass, DKStringFromSelector, DKIsKindOfClass", "Source/DKThread.c: DKMainThreadContextInit, DKThreadGetCurrentThread", "Source/DKPredicate.c: EvaluateISA"]}
{"id": "C123", "title": "Memory goes back where it came from, once", "statement": "Whatever a program does with arrays, byte arrays, hash tables, node pools and objects, every block of memory is freed at most once, by the allocator it came from, memory of the program is never freed, and nothing is read or written outside a block or after it was freed; when everything is finalized all memory has been given back, and until then there is exactly what the containers need.  With DKSetExternalAllocator only the functions of the program are used.", "quantifier": "all programs: any number of containers, any sequence of operations on them, both allocators, with and without zombies", "why_tests_cant": "tests follow a few sequences of operations; a leak or a double free shows only for one length at the moment of growth, and mixed allocators only crash on some systems", "anchors": ["Source/DKPlatform.c: DKSetExternalAllocator, dk_malloc, dk_free", "Source/DKGenericArray.c: DKGenericArrayInit, DKGenericArrayInitWithExternalStorage, DKGenericArrayFinalize, DKGenericArrayReserve, DKGenericArraySetLength, DKGenericArrayReplaceElements, DKGenericArrayReverse, DKGenericArrayShuffle", "Source/DKByteArray.c: DKByteArrayInit, DKByteArrayFinalize, DKByteArrayReserve, DKByteArraySetLength, DKByteArrayReplaceBytes, DKByteArrayAlignLength", "Source/DKGenericHashTable.c: DKGenericHashTableInit, DKGenericHashTableFinalize, DKGenericHashTableInsert, DKGenericHashTableRemove, DKGenericHashTableRemoveAll, ResizeAndRehash", "Source/DKNodePool.c: DKNodePoolInit, DKNodePoolFinalize, DKNodePoolAlloc, DKNodePoolFree", "Source/DKRuntime.c: DKAllocObject, DKDeallocObject"]}
{"id": "C124", "title": "Lists, sets and dictionaries behave the same whichever class implements them", "statement": "Code that receives a list, a set or a dictionary and uses it only through the interface gets the same answers whichever class implements it. Every call on an array and on a linked list gives the answer of a sequence; every call on a set gives the answer of a set whether it is held in an array, a linked list, a binary tree or a hash table; every call on a dictionary gives the same answer from a hash table and from a binary tree. A set built from objects holds the last of each group of equal objects. The exceptions are: shuffling a linked list, hash tables that run out, sets whose default class is a list class, and members whose equality, order and hash disagree.", "quantifier": "every program of calls, every class of objects with consistent equality, order and hash, every allocator, every sequence of objects a set is built from", "why_tests_cant": "the claim compares four implementations on every program of calls of any length; a test compares two of them on a few programs and never meets members that make them differ", "anchors": ["Source/DKList.c: DKListGetFirstIndexOfObject, DKListRemoveObject, DKListAddObjectToSet, DKListGetMemberOfSet, DKListInitSetWithCArray", "Source/DKSet.c: DKSetDefaultSetClass, DKSetInitWithCArray", "Source/DKArray.c: DKArraySort, DKArrayReverse", "Source/DKLinkedList.c: DKLinkedListShuffle", "Source/DKHashTable.c: DKHashTableInitSetWithCArray", "Source/DKBinaryTree.c: DKBinaryTreeInitSetWithCArray"]}
{"id": "C125", "title": "Collections that nobody changes can be read by several threads at once", "statement": "A collection that no thread changes can be read by any number of threads at the same time: every thread gets what it would get alone. Looking up keys in binary trees and hash tables, and iterating over linked lists, have this property in every interleaving. Reading a linked list by index has it only when no two calls overlap: the call moves a cursor that is kept in the list, even if the list is immutable.", "quantifier": "every list, tree and table, every number of reading threads, every interleaving of their steps", "why_tests_cant": "a wrong result needs an interleaving that a test run almost never produces, and a test cannot try them all", "anchors": ["Source/DKLinkedList.c: MoveCursor, DKLinkedListGetObjectAtIndex, DKLinkedListApplyFunction", "Source/DKBinaryTree.c: FindNode", "Source/DKGenericHashTable.c: Find"]}
{"id": "C126", "title": "Growing costs in proportion to what is put in", "statement": "An array, data or a string that is filled piece by piece allocates in total (and so copies) no more than a fixed multiple of what has been put in, whatever is replaced and deleted in between; a hash table allocates at most sixteen rows for each insertion, however insertions and removals alternate. An array for which room has been reserved is not moved while its length stays within that room. Reading a linked list by index in order takes a fixed number of steps for each object, and any read at most half the length of the list.", "quantifier": "every sequence of edits of any length, every element size, every capacity, every list and pair of indices", "why_tests_cant": "a cost that grows with the square of the size shows in no test of a fixed size; a pointer that dangles after an edit needs the edit at exactly the capacity", "anchors": ["Source/DKGenericArray.c: ResizeArray, DKGenericArrayReserve, DKGenericArrayReplaceElements", "Source/DKByteArray.c: ResizeArray, DKByteArrayReserve, DKByteArraySetLength, DKByteArrayReplaceBytes", "Source/DKGenericHashTable.c: ResizeAndRehash, NextHashTableSize", "Source/DKLinkedList.c: MoveCursor"]}
{"id": "C127", "title": "Immutable objects never change", "statement": "An object of an immutable class (array, list, tree, hash table, data, string, number, boolean) keeps its contents: every call that would change it, whether it names a class or goes through an interface, prints an error, returns NULL, zero, false or nothing, and leaves the object alone. The same call changes an object of the mutable class. DKDataMakeImmutable and DKStringMakeImmutable keep the contents and make the object immutable from then on.", "quantifier": "all programs of any length over any number of objects of all container, byte and number classes and of subclasses made by the program, all calls that change objects, all arguments and all effects of the changes, debug and release builds", "why_tests_cant": "More than fifty calls with a check each and seventeen slots in six interfaces of twelve classes, inherited by subclasses; a test tries a few of the combinations, and a missing check only shows where the call is made on an object of the wrong class.", "anchors": ["Source/DKArray.c: DKArrayClass, DKArraySort, DKArrayReverse", "Source/DKLinkedList.c: DKLinkedListClass", "Source/DKBinaryTree.c: DKBinaryTreeClass", "Source/DKHashTable.c: DKHashTableClass", "Source/DKData.c: DKDataClass, DKDataMakeImmutable, DKDataSetEncodingType", "Source/DKString.c: DKStringMakeImmutable, DKStringReplaceOccurrencesOfString, DKStringReplaceSubstring", "Source/DKNumber.c: DKNumberSetValue, DKNumberGetVariableValuePtr", "Source/DKPlatform.c: DKImmutableObjectAccessError", "Source/DKPlatform.h: DKCheckKindOfClass, DKAssertKindOfClass"]}
{"id": "C128", "title": "Mutexes exclude and conditions lose no wakeup", "statement": "Whatever calls any number of threads make on a mutex and a condition, two threads are never inside the mutex together. DKMutexLock returns, and DKMutexTryLock returns true, exactly when no other thread is inside and the thread itself is not, or may lock again. A thread that waits gives the mutex up until the wait returns, and has it then. Threads that wait in a loop under the mutex all return once another thread has set what they wait for and signalled all under the mutex. A mutex behaves the same on every platform.", "quantifier": "all numbers of threads, both kinds of mutex, both platforms, all sequences of lock, try, unlock, wait, signal and signal-all in all schedules, with wakeups without a signal at any point", "why_tests_cant": "Exclusion and lost wakeups depend on the schedule; a run of a test sees one schedule, on one platform", "anchors": ["Source/DKMutex.c: DKMutexInit, DKRecursiveMutexInit, DKMutexLock, DKMutexTryLock, DKMutexUnlock", "Source/DKCondition.c: DKConditionWait, DKConditionTimedWait, DKConditionSignal, DKConditionSignalAll", "Source/DKThreadPool.c: DKThreadPoolWaitForTasks"]}
