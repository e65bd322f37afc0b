# A formal model of hurlybird/Duck in Lean 4

`properties.jsonl` lists the properties (C01, C02, ...).  `MANIFEST.json` maps each
property to the theorems that carry it.  This file says what is modelled, how, and what is trusted.

## Layout

* `lean/Verif/Model/*.lean`  – the model, function by function; every definition cites file and lines in `/repo`.
* `lean/Verif/Spec/*.lean`   – small specifications, independent of the model (lists, finite maps, orders...).
* `lean/Verif/Lemmas/*.lean` – proofs of helper lemmas and invariants.
* `lean/Verif/Props/*.lean`  – the property theorems only (named `Cnn_...`), each followed by an
  `example` showing that its hypotheses are met by a concrete, non-trivial case.

## Conventions

* A C function that mutates through a pointer becomes a function returning the new value.
* Undefined behaviour, fatal errors and non-termination are explicit outcomes (`Option`, `Except`
  or a dedicated outcome type), never silently totalised.
* A loop becomes structural recursion, or recursion on explicit fuel; where fuel is used, a theorem shows
  that the stated amount of fuel is always enough (or that no amount is, when the code diverges).
* Where the code violates the property, the full property is stated, its negation is proved with a concrete
  witness (`Cnn_..._fails`, `..._violated`), and what does hold is proved under the suffix `_partial`.
* Release configuration is assumed: `DKAssert` is a no-op, `DKCheck*` guards return early, `DKRequire`
  and `DKFatalError` abort.  Allocation never fails (the code treats failure as fatal).
* Comparators follow the code's convention: `cmp(a,b) > 0` iff `a` is ordered before `b`.

## Plan, property by property

| id | what is modelled | how it is proved |
|----|------------------|------------------|
| C01 | `DKGenericArray` storage as a memory block (list of cells with capacity); `ResizeArray`, `ReplaceElements` with its memmove / memcpy steps | refinement: contents = prefix ++ new ++ suffix; induction over operation lists |
| C02 | `DKByteArray` storage with the 4 terminator cells | invariant by induction over operation lists |
| C03 | `InsertionSort`, `QuickSortPivot`, `QuickSortPartition`, `QuickSort` on an array with bounds-checked accesses | Hoare-partition invariants; result sorted + permutation; fuel bound; no out-of-bounds access |
| C04 | the swap loop of `Reverse*` | loop invariant, equality with `List.reverse` |
| C05 | the swap loop of `Shuffle*` with the random sequence as input | permutation proved; reachability of every arrangement refuted (last element never moves / is never target) |
| C06 | `DKGenericHashTable` rows, counts, probing, tombstones, rehash | refinement to a finite map by induction over histories; partial where size 25 makes a probe fail |
| C07 | same | quadratic probing on prime sizes visits (p+1)/2 distinct rows; witness for 25 rows |
| C08, C09 | AA tree: nodes with level, `Skew`, `Split`, recursive insert and remove | BST + AA invariants by induction, in-order list refinement, height bound |
| C10 | leftmost walk on sentinel-terminated nodes | divergence proved for every tree |
| C11 | heap of doubly linked nodes with cursor, first, last, count | representation invariant `heap represents list`, preserved by every operation |
| C12 | priority insertion over that list | sortedness + stability invariant |
| C13 | block/free-list allocator over addresses | invariant: free list is duplicate-free and disjoint from live nodes |
| C14 | words and bits | single-bit laws proved; counts and first-set/clear refuted by witness, partial where the length makes it right |
| C15 | bit fields as 32-bit vectors | bit-vector algebra for all values |
| C16 | shift/or expressions as bit vectors | extensional bit proofs |
| C17, C18 | transition system of threads performing the atomic steps of retain/release/try-release/weak | inductive invariant over all reachable states; race witness for weak refs |
| C19 | pool stack per thread, drain loop with finalizers that autorelease | induction; witnesses for stale pointer and the stack limit |
| C20 | interface table with static/dynamic cache lines | invariant: cache content agrees with the table |
| C21, C22 | class chains | induction over the chain |
| C23, C24 | dictionaries over the finite-map model | case analysis; counterexample for NULL values |
| C25 | set operations as folds with the code's callbacks | membership laws; counterexamples for intersect / intersects |
| C26 | array of references with a reference-count heap | multiset balance of counts and contents |
| C27, C28 | list queries and comparison loops | induction; counterexamples for compare |
| C29 | hash functions on bytes, cached hash state | induction; counterexample for truncated string and mixed-type numbers |
| C30, C31 | integer values with type widths, cast and compare functions | `Int` arithmetic; counterexamples |
| C32 | data/string cursor machine | refinement to a file spec; counterexample for seek-from-end |
| C33–C35 | byte-level UTF-8 scanning (`U8_NEXT`, `utf8_nextCharSafeBody`, `U8_APPEND`), search loops | round trip for all scalars, progress, concatenation laws |
| C36–C39 | string replace / split / combine / path / escape functions on byte lists | induction; counterexamples for non-ASCII, empty components, escape order |
| C40–C42 | JSON writer and scanner on byte lists | round-trip inductions; out-of-bounds witness for `\u` |
| C43 | `dk_strtonum` scanner | induction; counterexample for signed exponents |
| C44, C45 | egg archiver and unarchiver on object graphs, data section | invariants, offsets, counterexample for NULL elements |
| C46 | predicate evaluation | induction on predicates; counterexamples |
| C47, C48 | graph adjacency and traversal queue | reachability invariant; counterexample for visited-once |
| C49, C50 | thread pool bookkeeping under its lock as a transition system | inductive invariants; schedules as witnesses |
| C51, C52 | thread states, semaphore counter as transition systems | inductive invariants; schedule as witness |
| C53, C54 | double-checked locking and intern table as transition systems | inductive invariants |
| C55 | objects with fields, reference counts and an autorelease pool; set, get, copy, key paths | exact-count invariant over all legal histories; field frame lemma; witness for weak and copied |
| C56 | enum tables over the hash table of C06 | induction over the definitions; witness with eleven names |
| C57 | self-append of arrays, byte arrays, linked lists on the storage models of C01, C11 | witnesses (use after free, endless loop); equality when there is room |
| C58 | the unchecked cache read on the interface tables of C20 | cache invariant; witness for root classes |
| C59 | class creation and allocation options of C20's world | induction over histories |
| C60 | strings with their cached hash and equality | induction over histories; witness after shortening |
| C61 | the comparison loop on UTF-8 bytes | decoding lemmas of C33; lexicographic order; witness on malformed bytes |
| C62 | path extension functions on bytes | case analysis on the last dot and slash; witness for dot files |
| C63 | the JSON parser of C41 | induction over a grammar of JSON texts; witnesses; a looser grammar (Spec/JsonLoose) that is shown to be exactly what is answered |
| C64 | the shortest-path search of DKGraph | no amount of fuel is enough, for any two vertices |
| C65 | the operator name table | exhaustive over the finite table; other texts by case analysis |
| C66 | membership operators over the predicate model of C46 | refinement to list membership; witnesses |
| C67 | the unarchiver of C44 on arbitrary bytes | bounds check analysis for all byte strings; witnesses |
| C68–C70 | the thread pool transition system of C49 | inductive invariant, decreasing measure; schedules as witnesses |
| C71 | the thread transition system of C51 | inductive invariant on the reference count |
| C72 | the row callbacks and rehash of the hash table over the heap of C55 (reference counts, fields, cascading deallocation) | simulation of the table model call by call, with exact counts as invariant; the map statement follows from C06 |
| C73 | DKXMLParse: the 66-state tokenizer of yxml with its buffer, and the tree builder | simulation of the buffer by lists of names; the automaton run over a grammar of documents by structural induction; conversely, an accepting run is taken apart byte by byte into a text of a loose grammar (Spec/XmlLoose.lean), which gives an exact description of the accepted texts; witnesses for the deviations |
| C74 | same | invariant tying the control state to the stack of names and the open elements; buffer doubling as measure |
| C75 | DKStringByTrimmingWhitespace: the two scanning loops over the string's memory | induction over the units the scanner sees; uniqueness of the trimmed part |
| C76 | DKStringByFilteringString with a filter function and its context as parameters | induction over the units the scanner sees, for an arbitrary function |
| C77 | DKStringWrap byte by byte | equality with a pure recursion on ASCII texts, then induction for words, width, line feeds and greedy filling |
| C78 | DKVSPrintf with the C library's formatting and the stream as parameters; fixed buffers overflow to `none` | a specification of formats as lists of pieces; one lemma per kind of directive, then induction over the pieces with the pending literal text as invariant |
| C79 | DKGets, DKPuts, DKGetc, DKPutc on data objects and strings | induction over the line and over the list of lines |
| C82 | an object as its bytes and references; numbers, enumerations, structures and truth values on top of Number and Enum | frame lemmas for the conversion loops; C31 for the values; C56 for the names |
| C83 | threads, metadata table, metadata and mutexes as a transition system; every access to shared memory is a step | inductive invariant over all reachable states; measure for the number of steps |
| C84 | the system's lock as its holders, both platforms, `exclusive` as shared memory | inductive invariant; witness for Windows |
| C85 | the end time as integers | induction over the carries; witness for negative timeouts |
| C86 | DKShellWrite on any stream, DKShellRead on data objects; encoders are parameters | C78 and C79 for the lines; the layout of a segment as a specification; induction over the segments; witnesses |
| C87 | the same reader, buffers that are too large are `none` | the headers consume the stream; witness for lengths from 2^63 up |
| C88 | the table of names as the hash table of C06, classes as a list with their phase of life | the table holds exactly the classes that can be found, by induction over the history; C06 for each call; witnesses |
| C89 | the description on top of DKSPrintf (C78), attributes in any order | the description is laid out as a document of the grammar of C73, whose tree is computed; witnesses |
| C90 | vectors as tokens of the scanner of C41 | vectors added to the grammar of C63; witnesses |
| C91 | clock readings as integers of 10^-7 s, the calendar as the specification | arithmetic; negation for local dates and Windows |
| C92 | the table of digits, the offsets in the text, GUIDs in memory | texts of identifiers as an inductive relation; finite checks of the table of digits (`decide`) |
| C93 | the conversions of Windows as a parameter, assumed right where needed | computation; negation for every string |
| C94 | contexts in memory by address, the key per thread, histories of calls | refinement of a world in which every thread has its own record; a balance of references as an invariant; witnesses |
| C95 | the property functions of C82 with a log of what is called; observers, getters and setters are arbitrary functions | reduction to C82 by cases; witnesses |
| C96 | the steps of C49 with the tasks whose objects are retained and released | a balance as an invariant over the steps |
| C97 | the tree of C08 with the trace of creations, uses, retains and releases of every call, replayed on reference counts | an invariant over histories; a family of witnesses |
| C98 | the methods of each class as instances of the parameters of C44; the value of an object as a tree cut at any depth | refinement: corresponding objects agree, so trees of any depth are equal; witnesses |
| C99 | strtol and decimal numerals in the model; the conversions of numbers are those of C31 | texts as white space, sign, digits and rest, by induction over each; both directions compared; witnesses |
| C100 | streams of the C library with a buffer that is flushed at arbitrary moments, over a disk of named files | refinement of a file without buffers, by simulation; data streams refine the same file; witnesses |
| C101 | the bit patterns of C31; rounding of quotients to nearest-even; strtod, "%f" and the sum of dk_strtonum in exact integer arithmetic | half a unit of the last place at each rounding, added up over the digits; uniqueness of digits; witnesses |
| C102 | the copy methods of the classes on the heap of C55; dictionaries of C23 with keys hashed by address | invariant of the reference counts; what a call leaves alone, by induction over programs; first insertion in an empty table; witnesses |
| C103 | the list of C11 with the trace of retains and releases | the trace as a function of the contents; counts = references of the user + entries, invariant of legal histories; failure for every sole owner |
| C104 | one interface table, threads looking up and installing, one step for each access outside of the lock | invariant of disciplined executions; schedules for the failures |
| C105 | programs of data and string objects over two memories, of the caller and of the library | simulation of sequences of bytes; blocks are owned by exactly one object |
| C106 | programs of strings with cached hash codes and the table of constant strings | simulation of plain texts; immutable strings kept by every call |
| C107 | object graphs, depth of recursion, output through the model of DKSPrintf | induction on depth; accessibility of the member relation |
| C108 | the static variables, calls in any order | the variables show the last settings of the history |
| C109 | the initialisers as folds over the models of arrays, hash tables and trees | induction over the objects given |
| C110 | classes and objects with reference counts, the loop of DKFinalize one call at a time | invariant: the count of a class is the number of references of the client, of instances and of subclasses |
| C111 | both parsers with the objects they make in a heap with reference counts | invariant: the count of each object is the number of references in live objects, variables and the stack; simulation by the parsers without objects |
| C112 | the four enumeration loops with a callback that may call the collection while it runs; the memory of list nodes given back to the pool | induction over the steps of the loop with an invariant relating the rest of the enumeration to the collection as it is now; concrete witnesses where the property fails |
| C113 | who owns which object while archivers and unarchivers exist; addresses that are used again | invariant over all sequences of events: the count of every object is the references of the program plus those of the archiver or unarchiver; serial numbers tell objects at one address apart |
| C114 | the calls that read or fill the cached hash of a string, one step for each load and store of it | invariant: the cache is empty or right, and right for the strings a thread has updated |
| C115 | the check of ranges in 64-bit arithmetic, in the C standard (overflow undefined) and as the machine computes it; the calls of C11, C26, C32 with it | case analysis; two-complement sums of non-negative numbers; failure for every range that overflows |
| C116 | DKCompare, DKEqual and DKReverseCompare with the methods of strings, data, numbers, pairs, structures, lists and classes without one; objects are trees with addresses | induction over the kind; lexicographic combination of total preorders; C03 for sorting; cycles and undefined calls as witnesses |
| C117 | DKHash of all classes beside DKEqual of C116; the dictionary of C06 with these | the value of an object as a separate function; induction over objects; instance of C06 |
| C118 | the accessors of DKRuntime.h with stacks of nested calls, over any table of which accessor calls which; the table of all 50 accessors of the library | invariant over all interleavings (each lock has one holder whose call is creating; calls nest downwards in rank); the waiting thread of lowest rank; a weight that every step lowers |
| C119 | the accessors of C53 on a machine with store buffers, in order or not, and objects with fields | invariants over all executions: one buffer is not empty, every field is in it or in memory, the pointer is behind the fields; a general witness for the other order |
| C120 | reference counting on a machine with a store buffer for each thread, whose writes reach memory in any order except those to one field | invariants over all executions: only owners have writes on their way, the count is the number of references, what is on its way or in memory is what was written last |
| C121 | the checks and assertions of debug builds in trees and lists, beside the functions of C08 and C11 | each checked function equals the unchecked one in the states of the invariants of C08 and C11; the levels of a tree do not depend on the comparison |
| C122 | DKRuntimeInit statement by statement, over the accessors of C118 and the name databases of C88; threads that call it | the one execution is computed in the kernel; from the state it ends in, the invariant of C88 and the fact that tables never shrink give every later history and every name |
| C123 | the calls of the allocator and the accesses of the containers, written down as a trace | a specification judges traces; an invariant says which blocks each container owns, every operation keeps it whatever else there is |
| C124 | The interface tables of lists and sets, the functions of DKList.c, DKSet.c that use them, for arrays, linked lists, hash tables and binary trees | Both list classes refine a sequence, all four set classes refine a list of pairwise different members; induction over the program |
| C125 | MoveCursor statement by statement with a shared cursor, iteration, FindNode and Find iteration by iteration, in any interleaving | Iteration: invariant over the schedule; trees and tables: a thread that writes nothing shared makes the steps it makes alone; lists by index: explicit schedules that fail for every list of two resp. three objects |
| C126 | The calls of the allocator made by arrays, bytes and hash tables (the traces of C123), the steps of MoveCursor (C125) | Potential arguments: induction over the edits with the invariant that the total is at most a multiple of the capacity; for tables over the whole list of sizes |
| C127 | the classes and their superclasses, the guard of each of the 57 calls that name a class, the slots each class installs in its interfaces and the slot each interface call uses; what a change does is a parameter; the loop of DKStringReplaceOccurrencesOfString on an immutable string | immutable classes are of no mutable kind and have only refusing slots (induction over the class); one step keeps an immutable object, induction over the program; the loop by the search of C35 |
| C128 | a mutex of either kind on either platform and a condition, over the documented behaviour of the host calls (undefined where the host says so); the waiting loop and the setter as a transition system over those calls | invariant over all executions relating the owner and depth to what each thread was given and gave back; invariant that a sleeper implies a setter about to signal, and a measure that every step lowers once the condition holds |
| C80, C81 | the table of escapes as the hash table the program builds; query and style splitting on top of Text, Printf, Dictionary | the table is enumerated by evaluation (`decide +kernel` over its 26 entries); texts as sequences of tokens, one check per ASCII character and pass; C37, C75, C78, C23 for the rest |

Not expressible: real timing, memory-model reorderings weaker than sequential consistency, allocation failure,
`printf`-style formatting of reals.  Those parts are out of the model everywhere.  The rounding of `double`
arithmetic is modelled for conversions and comparisons of numbers (C30, C31) and left symbolic in number parsing (C43).

## Trusted base

1. **Lean's kernel** (Lean 4.33.0), and that `lake build` hands it the files of this repository.
2. **Axioms.**  No axiom is declared here.  The theorems use at most `propext`, `Classical.choice` and
   `Quot.sound`, the three axioms of Lean's standard library; none uses `sorryAx`, `Lean.ofReduceBool` or
   `Lean.trustCompiler`.  The list at the end of this file gives the axioms of each theorem of `MANIFEST.json`
   (output of `#print axioms`).
3. **The model.**  Nothing connects the Lean definitions to the C code mechanically.  Each definition cites the file
   and lines it models and was written from them by hand; the next section says what was left out.
4. **The C semantics assumed by the model**: 64-bit pointers, little-endian memory, two's complement, IEEE 754,
   `DKIndex` = `intptr_t`, `size_t` arithmetic that does not overflow unless a definition says otherwise; undefined
   behaviour is an outcome of the model (a crash), never an arbitrary continuation.
5. **The specifications** in `Verif/Spec` and the theorem statements in `Verif/Props`, which are to be read against
   `properties.jsonl`.

Mathlib is used in a few lemma files (primes, permutations, interval cases); it adds proofs, not trust.

## What the seeded log shows

Each line of `seeded/LOG.jsonl` is a wrong program tried on the theorems.  `theorems_failed` are the declarations Lean
reported.  Mostly these are helper lemmas, after which the property theorems are not built at all.
`property_theorems_using_a_failed_lemma` are those whose proof terms, in the unchanged development, use one of them;
`property_theorems_not_rebuilt` are the others of the same files, about which the attempt says nothing.  Limits:

* A failed lemma shows that the proof no longer goes through, not that the property theorem became false.
* The dependencies were computed afterwards, from the theorems as they are now.  Earlier versions of this log listed all
  theorems of a file as depending on the failed lemma, which was wrong.
* Attempts that survived were not logged until near the end, so `theorems_tightened` is far from complete.
* Where no property theorem used what failed, the attempt was repeated with that lemma taken out; the lines marked
  `retest` give the result.  This found two theorems that were too weak (`C33_step_back`, `C52_wait_partial`);
  `C33_step_back_sound` and `C52_returned` say what was missing.
  Two attempts stayed inconclusive (`Egg.startup`, `parseWord`): nothing is known about the theorems they aimed at.

## What is modelled

| model file | source | left out |
|---|---|---|
| `GenericArray`, `ArrayOps` | DKGenericArray.c | external storage |
| `ByteArray` | DKByteArray.c | external storage |
| `HashTable` | DKGenericHashTable.c, row callbacks of DKHashTable.c | reference counts of rows |
| `BinaryTree` | DKBinaryTree.c (trees; the fix-up of new leaves, skew and split at pointer level) | reference counts |
| `NodePool` | DKNodePool.c | |
| `LinkedList` | DKLinkedList.c at pointer level, with cursor and priorities | reference counts |
| `BitList` | DKBitList.c | |
| `Encoding` | DKEncoding.h/.c, byte order macros of DKPlatform.h | |
| `RefCount` | DKRuntime+RefCount.c 50-231, DKRuntime+Metadata.c | weaker memory orders |
| `Autorelease` | DKRuntime+RefCount.c 239-347 | |
| `Classes` | DKRuntime.c 439-725, DKRuntime+Interfaces.c, DKRuntime+Reflection.c 264-311 | concurrent installs |
| `Dictionary` | DKDictionary.c, DKSet.c, DKHashTable.c | reference counts |
| `Array` | DKArray.c, DKList.c | sort/reverse/shuffle of objects (see `ArrayOps`) |
| `Number` | DKNumber.c | |
| `Data` | DKData.c, stream, hash and equality of DKString.c, DKPair.c, DKStruct.c equality and hash | |
| `Unicode` | DKUnicode.c and the ICU macros it uses | case conversion |
| `Text`, `Path`, `Url` | DKString.c: lengths, characters, ranges, search, compare, replace, split, combine, paths, extensions, URL escapes | trim, filter, wrap (`TextTrim`), query parameters and styles (`Query`) |
| `StrToNum` | `dk_strtonum` (DKPlatform.c) | `double` arithmetic |
| `Json` | DKJSON.c writer and parser, vector syntax included | floating point digits, element types the parser does not make |
| `Egg` | DKEgg.c archiver, byte layout and unarchiver | reference counts |
| `Graph` | DKGraph.c | |
| `Predicate` | DKPredicate.c | |
| `ThreadPool` | DKThreadPool.c | what tasks do |
| `Thread` | DKThread.c | platform thread creation errors |
| `Semaphore` | DKSemaphore.c | |
| `SharedInit` | once-only macros of DKRuntime.h, spin lock of DKPlatform.h | |
| `ConstString` | DKString.c 2590-2736 | |
| `Enum` | DKEnum.c | |
| `Property` | DKRuntime+Properties.c for object properties, key paths | number, enumeration, structure and boolean properties, observers |
| `DictOwn` | DKHashTable.c row callbacks, insert, add, remove, remove all, get, copy, finalize; the retains and releases of ResizeAndRehash | the reference count of the table object itself; keys whose contents change while in a table |
| `Xml` | DKXML.c 178-356, ThirdParty/yxml/yxml.c | reference counts, error messages, strings with a zero byte inside, description and attribute queries of elements |
| `TextTrim` | DKString.c 1238-1310, 1348-1453 | reference counts; `isspace` is that of the C locale and undefined outside -1..255 |
| `Printf` | DKStream.c 143-526, 532-594 | NULL streams; the rendering of one directive by the C library is a parameter; arguments are typed, a mismatch is undefined; DKFile streams only as far as they append what is written |
| `Query` | DKString.c 2106-2307 | autoreleased temporaries; keys are immutable strings (their copy is the string itself) |
| `ValueProp` | DKRuntime+Properties.c 123-291, 469-633, 672-744, 763-1196 (values), DKStruct.c, DKBoolean.c 129-153, DKString.c 2420-2441 | custom getters and setters, observers, classes with a Property interface, reference counts (see `Property`) |
| `ObjLock` | DKRuntime.c 693-726, DKRuntime+Metadata.c 90-204, DKMutex.c 106-173 | weaker memory orders; the hash table behind the metadata table (see `HashTable`) |
| `Shell` | DKShell.c 47-418 | the encoders themselves (see `Egg`, `Json`, `Xml`); reading from other streams than data objects and strings |
| `Names` | DKRuntime+Reflection.c 54-178, 316-409, DKRuntime.c 438-501, DKRuntime+Interfaces.c 265-296 | the references of a class (only whether it has some) |
| `XmlDesc` | DKXML.c 121-173 | |
| `Clock` | DKPlatform.c 413-531, 699-764 | rounding of doubles (see `RealTime`); dk_systemtime; identifiers of Linux and Apple (host functions) |
| `WString` | DKString.c 2514-2585 (Windows) | what Windows converts (a parameter) |
| `ThreadCtx` | DKThread.c 65-240, 324-356, 415-461, DKRuntime+RefCount.c 302-347 | what finalizers do (only whether they need the context); the limit on nested pools (C19) |
| `Observe` | DKRuntime+Properties.c 423-633, 672-744, 763-1127 |
| `PoolRefs` | DKThreadPool.c 155-171, 212-268, 293-310, 511-543, 964-982, 1022-1067 |
| `TreeOwn` | DKBinaryTree.c 315-348, 407-483, 504-553, 593-628, 990-1080 |
| `EggClasses` | DKString.c 320-373, 647-667, DKNumber.c 528-563, DKBoolean.c 159-177, DKData.c 334-391, DKArray.c 343-368, DKLinkedList.c 610-634, DKHashTable.c 496-520, DKBinaryTree.c 760-784, DKPair.c 104-127, DKStruct.c 147-203, DKPredicate.c 148-176, DKRuntime+Symbols.c 81-134 | members of collections that are classes or selectors; the comparison function of a tree |
| `Convert` | DKConversion.c 41-101, DKNumber.c 980-1031, DKString.c 2417-2475, DKBoolean.c 45-57, 129-153, 183-189, DKDescription.c 71-80, DKPlatform.h 874-878 | floating point texts and numbers; locales |
| `File` | DKFile.c 36-311, DKData.c 273-311, DKString.c 573-624, DKStream.c 45-127 | links, permissions, full disks, several streams for a file, text streams |
| `Decimal` | DKNumber.c 574-602, 980-1031, DKStream.c 195-221, 462-501, DKString.c 2477-2509, DKPlatform.c 596-696 (arithmetic), DKJSON.c 477-493 | infinities, NaNs and hexadecimal numbers in strtod; pow; other rounding modes |
| `Copying` | DKCopying.c 42-66, DKString.c 697-709, DKData.c 497-521, DKArray.c 374-386, DKLinkedList.c 640-652, DKHashTable.c 305-318, 526-540 (keys), DKComparison.c 66-69 | the order of the steps of a copy; subclasses of these classes |
| `ListOwn` | DKLinkedList.c 290-317, 382-434, 508-538, 775-826, 974-1030 (references) | finalizers of the objects; the reference count of the list |
| `Dispatch` | DKRuntime+Interfaces.c 110-121, 179-252 (by many threads), DKGenericHashTable.c 391-424 (as a map) | the creation of tables of subclasses; weak memory |
| `External` | DKByteArray.c 33-253, DKData.c 223-328, 397-406, 497-560, 653-664, 714-754, DKString.c 321-365, 490-511, 630-641, 673-709, 919-937 (memory) | arrays of objects without copying; debug assertions |
| `Intern` | DKString.c 265-373, 423-484, 517-522, 673-725, 815-827, 919-937, 2590-2736 (one thread) | DKStringInitWithString for the class of constant strings |
| `Describe` | DKCollection.c 161-252, DKDescription.c 45-83 | descriptions of other classes (a parameter), memory of the texts |
| `Messages` | DKPlatform.c 37-107, 113-266 | debugger output of Windows, failures of the C library |
| `Making` | DKArray.c 260-311, DKList.c 85-222, DKSet.c 85-149, DKDictionary.c 85-115, DKHashTable.c 305-335, 382-490, DKBinaryTree.c 558-584, 650-754 | references held by hash tables and trees (C72, C103), linked lists (C11) |
| `ClassLife` | DKRuntime.c 439-470, 476-501, 511-584, 607-616, 678-690, DKRuntime+RefCount.c 48-119 | static root classes; names, interfaces and properties of classes (C20, C55, C88); weak references (C18) |
| `ParseOwn` | DKJSON.c 335-523, DKXML.c 80-87, 178-356, DKHashTable.c 269-284, 717-728 with reference counts | bytes of strings, arrays and tables (part of the object); messages; insertions that never return (C07) |
| `Foreach` | DKArray.c 657-677; DKLinkedList.c 950-968 with DKNodePool.c 136-141; DKHashTable.c 612-690; DKBinaryTree.c 926-955; DKCollection.c 122-160 | removal from a tree by its callback; priority insertion, sorting and shuffling by a list's callback; retain and release during the enumeration |
| `EggOwn` | DKEgg.c 159-175, 227-444 (what is owned), 512-560, 855-893, 927-1005, 1229-1269; DKRuntime+RefCount.c 48-119 | the contents of archives (`Egg`); threads; unarchivers of a foreign byte order, which copy the tables but not the data; `initWithEgg` methods that release their object before they have finished |
| `StrShare` | DKString.c 270-295, 449-469, 815-827 | tearing of the load or store of the hash code; mutable strings, which need a lock |
| `Range`, `RangeCalls` | DKPlatform.h 298-301, 617-626, DKArray.c 445-455, DKString.c 1622-1632, 1704-1713 | what the machine does after it accepted a range that overflows, beyond reading the objects of an array |
| `Compare` | DKComparison.c 44-118, DKString.c 715-764, DKData.c 424-474, DKNumber.c 877-924, DKPair.c 151-183, DKStruct.c 209-268, DKList.c 607-679 | dictionaries and sets (C24; compared by address), objects that contain themselves |
| `Keys` | DKComparison.c 66-69, 124-134, DKString.c 815-827, DKData.c 480-491, DKNumber.c 930-962, DKPair.c 189-197, DKStruct.c 274-287 | the copies that tables make of their keys (C102) |
| `NestedInit` | DKRuntime.h 214-259, DKPlatform.h 714-733 | what else creating does; weak memory |
| `Accessors` | every DKThreadSafe…Init in Source, and the accessors its body calls | the locks of tables (name database, constant strings, properties), which are released before anything else is called; properties inherited from superclasses |
| `Visible` | DKRuntime.h 214-259, DKPlatform.h 714-733 | reads out of order and rewriting by the compiler (also possible in C, as the pointer is not atomic) |
| `LastWrites` | DKRuntime+RefCount.c 48-181, 209-229, DKPlatform.h 655-733 | the steps inside each function (C17, C18), reads out of order, writes by the finalizer, objects without reference counting |
| `Integrity` | DKBinaryTree.c 249-311 and 527, DKLinkedList.c 239-284 and the assertions of FreeNode, RemoveRange and InsertObject | assertions about classes of objects |
| `Startup` | DKRuntime.c 74-120, 276-429, DKRuntime+Symbols.c 73-129, the names in all calls of DKNewClass; DKPredicate.c 570-582 on classes | interface tables of the root classes (C20, C58), locks (C53, C88, C118), reference counts |
| `Memory` | DKPlatform.c 281-408, DKGenericArray.c 40-245, 412-434, 512-538, DKByteArray.c, DKGenericHashTable.c 219-262, 336-467, DKNodePool.c, DKRuntime.c 508-589, as far as memory is concerned | contents (C01, C06, C13), allocations that fail, sizes of 2^63 bytes and more, sources of replacements (C57), calls of finalizers by tables |
| `Interchange` | DKList.c 190-203, 228-237, 269-287, 317-392, 411-446, 474-522, 555-563, 685-705; DKSet.c 48-59, 125-246; DKArray.c 174-211, 445-455, 620-653; DKLinkedList.c 194-231; DKHashTable.c 219-234, 453-473, 783-792; DKBinaryTree.c 207-242, 721-737, 1086-1093 | The references a linked list holds (C40); immutable instances; NULL as a member of a set |
| `SharedReads` | DKLinkedList.c 52-56, 323-376, 677-697, 950-968; DKBinaryTree.c 464-483; DKGenericHashTable.c 268-330 | Data races below the level of statements; DKLinkedListGetObjectsInRange (the same MoveCursor); arrays, which write nothing when read |
| `Cost` | (only a specification; the code is in `Memory` and `SharedReads`) | The time of comparisons, hashing and moving elements within a block |
| `Frozen` | DKArray.c 74-208, 461-650, DKLinkedList.c 94-226, 730-978, DKBinaryTree.c 88-236, 990-1081, DKHashTable.c 80-228, 708-778, DKData.c 67-160, 397-406, 542-851, DKString.c 103-237, 673-682, 919-2388, DKNumber.c 673-847, DKList.c 385-715, DKSet.c 213-345, DKDictionary.c 212-320, DKBuffer.c 62-76, DKStream.c 90-100, 555-594, DKPlatform.h 484-557: which calls reach a change | the changes themselves (a parameter; they are in the other models), the position of streams, pointers into the bytes kept across DKDataMakeImmutable, initialising an object twice, declared properties (C55, C82) |
| `Mutex` | DKMutex.c 61-173, DKCondition.c 100-211, the shape of DKThreadPool.c 571-573, 486-490, 907-923 | NULL objects, finalizers, the end time and the results of the waits; the host mutexes and condition variables are taken as documented |
| `RwLock` | DKReadWriteLock.c 72-207, DKCondition.c 127-175 | POSIX error codes of rwlocks used against their rules; rounding of timeouts (see `RealTime`) |
| `RealTime` | DKCondition.c 135-158, DKPlatform.c 703-711 with IEEE 754 rounding | dates before 2001 |

Not modelled at all: DKFile, DKBuffer, DKDescription, DKConversion,
DKMutex and DKCondition on their own (they are calls of the system), DKRuntime+Symbols, platform layers for Windows.

## Disagreements between the code and its properties

Each is a theorem: the property's negation with a concrete witness.

* C05: shuffles leave the last element in place.  C07: the hash table size 25 is not prime, and a table of 25 rows with 11
  occupied rows is probed outside its memory; C56: an enumeration of eleven one-letter names does it.
* C10: the first object of a tree is never found (endless loop).  C11: shuffling a linked list crashes; C57: appending a list to
  itself never ends, appending an array to itself reads freed memory when it grows.
* C14: bit lists count and search 32 times as many words as they have.  C16: the portable 64-bit byte swap is wrong.
* C18: a release racing with the first weak reference frees an object that the weak reference still resolves to.
* C19: a finalizer that uses a pool of its own during a drain makes the drain read freed memory.
* C24: dictionary equality with NULL objects.  C25: set intersection does nothing, the intersects test is negated.
* C26, C27: replacing or removing the only reference to an object releases it before it is used again.
* C28: a list and its extension compare as equal.  C29–C31: number hashes, comparisons across types, matrix casts.
* C32: seeking from the end ignores the offset; asking DKDataRead for 2^63 bytes or more calls memcpy with that size.  C60: shortening a string keeps its old hash, and so does writing through DKStringGetMutableBytePtr.
* C34–C38, C61, C62: empty strings, starts outside the string, malformed UTF-8, replacement in non-ASCII text, trailing
  separators, paths made of slashes, dot files.
* C39: percent escapes depend on the order of a hash table.  C41–C43, C63: JSON keys are not escaped, `\u` near the end of
  the text reads outside it, malformed texts are accepted, signed exponents.
* C44, C45, C67: archives with a reference to the root, NULL elements, colliding keys; truncated archives.
* C46, C66: key paths of second operands; CONTAINS on strings; C47, C48, C64: graph queries and traversals.
* C50, C68–C70: thread pool waits, restarts, stops and removals.  DKThreadPoolWaitForCurrentTasks waits for the last group only: tasks of earlier groups may still be executed when it returns.  C51: cancelling a thread before it runs, joining, exiting.
* C52: semaphores beyond 2^31.  C55: a property declared both weak and copied.  C58: fast lookup on root classes.
* C73: white space in the end tag of the root element, character references beyond seven characters or to U+E000–U+E7FD, surrogates
  accepted, `]` before white space in CDATA sections, repeated attributes, `??` in processing instructions; `]]>` in text, white space before the XML declaration and second document types accepted.
* C75: a character from U+0100 on is passed to `isspace`, whose behaviour is undefined for it.
* C77: the number of characters of a word is used as its number of bytes, so words with multibyte characters are broken, even inside a
  character; a carriage return without line feed joins two words; blanks at the start of a line longer than the limit allows make an empty line;
  vertical tabs and form feeds are trimmed from words.
* C78: `%c` is counted only when the character is 'c', and its width is ignored; `%p` takes an `int`; a directive of eight bytes or more and a
  number rendered with 120 bytes or more overflow buffers on the stack; a `%` at the end of a format makes the scan run past the terminator.
* C79: DKGets drops NUL bytes and returns an empty string both for an empty line and at the end; DKGetc returns a negative number for
  bytes from 0x80 up, EOF for 0xFF.
* C39, C80: with the order in which the table of escapes is really enumerated, sixteen characters (blank, `=`, `?`, `#`, …) are escaped
  twice: a blank becomes `%2520` and comes back as `%20`.  Empty values are read as NULL, an empty parameter joins the rest of the query,
  `a=b=c` loses `c`.
* C81: declarations whose value has a colon (`url(http://…)`) are dropped; an empty declaration joins the rest.
* C82: setting a matrix of another shape with larger elements overwrites the property stored after it; the truth value of an
  enumeration is told from the first letter of its name; a number set on a weak property reads as 0; structures of 2^24 bytes
  and more pass the size check.
* C86: an empty annotation is not written, but its line is read: no segment without annotation comes back; empty contents come back as
  NULL; a content type loses leading blanks and may inject headers.  C87: a Content-Length of 2^63 or more, or `-1`, writes outside
  the buffer.
* C88: releasing a class or selector without a name searches the table for NULL and crashes if the first row is in use; a search finds a
  class whose last reference is gone while another thread deallocates it.
* C89: descriptions of XML elements do not escape anything, and add a blank to texts.
* C90: 32 bit vectors wrap large integers before they become floating point numbers; the count is cut to 24 bits.
* C91: local dates add the offset west of Greenwich instead of subtracting it; on Windows the fraction of a second is computed as
  ticks minus seconds, so dates run at twice the rate.
* C92: the file of the kernel is read without checking that it was opened.
* C93: wide strings are always empty: the data they are converted into has capacity but no bytes, so its pointer is NULL.
* C94: the dictionary of a thread is released when the thread has no context any more; contexts freed as the header says are freed
  twice; objects autoreleased outside any pool are never released.
* C95: the getter of a structure falls through to the bytes at offset 0 when the answer of a custom getter is not the structure
  asked for; observers are told of writes that fail.
* C97: the nodes of removed entries of a binary tree are never returned to its pool.
* C98: DKRuntimeInitSymbols does not create DKVariableNumberClass, so an archived variable number is read as NULL by a program that has not used one; data with a type of numbers loses an incomplete element, its type if it is empty, and everything if it has 2^24 elements; an array that contains itself contains NULL after reading.
* C99: "4294967297" as a 32-bit integer is 1; an unsigned number from 2^63 up is negative but its text is 2^63 - 1; -1 is true and its text
  false; the text of DKTrue is "1" and its description "true".
* C100: loading a missing file gives empty data without an error, a directory uninitialised memory of the size it reports, an open file that is
  not at its start what is left and uninitialised memory; the length of a file does not count buffered output; data ignores the offset of
  seeks from the end and clamps others; DKStreamGetLength of a string counts characters although the header says bytes; DKFileClose closes
  a stream it was told not to close.
* C101: a number is written with six decimals, so that a ten-millionth becomes 0.0; JSON texts are summed up digit by digit, so that "0.15"
  is not the number 0.15; the text of a `double` from about 10^112 up is written beyond a buffer of 120 bytes; JSON writes infinities as `inf`.
* C102: DKCopy of mutable data, arrays and lists (not of strings) returns a mutable object; a mutable array or list that is the key of a dictionary
  is stored as a copy that hashes differently, so that it is not found again; the copy of a set that contains one can fail to contain it; DKCopy of
  a mutable set that contains itself never returns.
* C103: DKLinkedList releases the objects of a replaced range before it retains the new ones: replacing an entry by the object it holds is a use
  after free when the list is its only owner.
* C104: DKInterfaceTableFind reads the row it found after giving up the lock, and writes it to the cache: when an interface is installed meanwhile,
  the row can be in freed memory, and a replaced interface can stay in the cache, freed or stale, for good.
* C105: DKCopy of data and strings made without copying does not copy them: the copy dangles when the memory of the caller is given back.  Mutable data made
  without copying, which only a debug build refuses, frees the memory of the caller at the first change.
* C106: DKStringInitWithString writes the hash code of its argument to the string it makes, which is the shared constant string `""` when the argument is empty:
  with a stale hash code (C60) the shared empty string is damaged for good.  DKStringInitWithBytes for the class of constant strings ignores the length.
* C107: a collection that contains itself has no description: endless recursion.  The count is passed as a `long` for `%d`: undefined in ISO C, modulo 2^32 in practice.
* C108: messages are cut at a zero byte; NULL as a prefix or suffix is undefined.
* C109: arguments of a dictionary are read past their end after a NULL object; a set can contain a NULL that it says it does not contain; lists without equal objects lose the order given.
* C110: with zombies enabled a class of which an instance was freed is never deallocated (intended).
* C111: no violation found.
* C112: changing a collection while it is enumerated goes wrong: an array skips the successor of a removed member (`C112_array_fails`); a list calls the callback for an entry that was already removed (`C112_list_fails`) or skips the rest when a removed node is used again (`C112_list_reuse_fails`); a hash table that grows visits keys twice and skips others (`C112_table_fails`); a tree that is rebalanced skips keys (`C112_tree_fails`).
* C113: `DKEggUnarchiverInitWithData` keeps pointers into the data object but does not retain it; after the program has released the data every request reads freed memory (`C113_data_fails`). A request for an index whose `initWithEgg` is still running gives the object being initialized; if `initWithEgg` then returns another one the first is freed and later requests give the other (`C113_replaced_fails`).
* C114: nothing found, except that the cached hash is a plain field that several threads write.
* C115: the check of ranges computes location + length without regard to overflow: location 1 and length 2^63 - 1 are accepted for every sequence.
* C116: DKCompare of a string with an object of another class goes by address, so "a" < "b" < object < "a" can hold and nothing that contains all three can be sorted.
* C116: DKCompare of a number with anything else uses the other object as a number. DKCompare of an array with a linked list calls the method of the one on the other.
* C116: structures without a semantic and with the same bytes compare as zero but are not equal; DKEqual of a structure with a semantic and one without dereferences NULL.
* C116: data sorts in descending order of bytes, everything else ascending.
* C117: arrays and lists are equal by content but hashed by address, so a dictionary does not find an array under an equal one.
* C117: DKEqual of numbers of different types is not symmetric: the byte 44 equals 300, 300 does not equal 44.
* C118: an accessor that called itself while it creates its object would wait for itself for ever (C118_self); none of the library does.  DKStringClass is created with no name for this reason: a name would be a string constant, which calls DKStringClass.
* C119: the accessors of shared objects test the pointer without a barrier; where writes are not seen in order (ARM), a thread can be given a class none of whose fields it sees.
* C120: the full barriers of the reference count are enough for finalizers; a reference handed to another thread through a plain variable is not covered (a write can land in freed memory).
* C121: nothing found; the levels of a binary tree stay right even when the keys have no order (C116 shows that mixed keys can have none).
* C122: DKRuntimeInit gives no name to the selector Locking, so it is not found and its name is NULL; the class of mutable hash tables is misspelt; DKRuntimeInit called by two threads ends the program or returns before the runtime is ready; a predicate "x ISA DKObject" is false of every object.  The failing probe of small tables (C07) is not met by the names of the library, and after the start the tables are past the size at which it happens.
* C123: the assertions that keep arrays with memory of the program from being changed are not in release builds; there the memory of the program is freed.  DKSetExternalAllocator takes any combination of functions, and takes them after memory was allocated as long as DKRuntimeInit was not called.
* C124: if the default class of sets is a list class, making a set recurses until the stack ends (`C124_default_fails`): DKListInitSetWithCArray
  makes a set of the default class first.
* C124: a set built from objects keeps the last of equal objects, adding them one by one keeps the first (`C124_built_differs_fails`).
* C124: dictionaries are equal by content but hash and compare by address, lists are equal and compare by content but hash by address. As
  members of sets they give different answers in different classes (`C124_inconsistent_fails`, `C124_lists_as_members_fails`).
* C125: reading a linked list by index writes the cursor in the list without a lock, even if the list is immutable. Two threads that read at
  the same time get wrong objects, and the cursor can stay wrong: then the last object of the list cannot be read any more
  (`C125_wrong_fails`). With three objects, a reader can follow NULL (`C125_crash_fails`).
* C126: DKByteArray compares with `<` where DKGenericArray compares with `<=`: bytes that reach their capacity exactly are moved although they
  fit (`C126_reserved_fails`), and overwriting a byte of data made of 64 bytes or more moves all of it, so that pointers into it dangle
  although the length does not change (`C126_overwrite_fails`).
* C126: the comment says the storage grows by half; it grows by a quarter. DKByteArraySetLength and DKGenericArraySetLength do not grow it by
  more than asked (`C126_set_length_fails`); the public calls for data and strings use the other function.
* C127: in release builds DKNumberSetValue, DKNumberGetVariableValuePtr, DKNumberSetEnumeratedValue and
  DKNumberSetEnumeratedMatrixValue change immutable numbers and the shared DKTrue and DKFalse: the class is only asserted
  (`C127_number_fails`). DKDataSetEncodingType has no check (`C127_encoding_fails`). DKImmutableObjectAccessError returns
  nothing but is called for DKWrite, DKPuts, DKPutc, DKSPrintf and DKBufferGetMutableBytePtr, which use its result
  (`C127_result_fails`). DKStringReplaceOccurrencesOfString does not check the class: on an immutable string every single
  replacement is refused, so with an empty replacement it never returns (`C127_replace_hangs_fails`) and with a long
  replacement it searches past the end and reads through NULL (`C127_replace_crash_fails`).
* C128: a wait gives back one level of the mutex only: a thread that has locked a recursive mutex twice keeps it while it
  sleeps (`C128_wait_frees_fails`). DKNewMutex is reentrant on Windows and not on POSIX, where the owner blocks for ever in
  DKMutexLock and is refused by DKMutexTryLock (`C128_platforms_fails`).
* C84: on Windows an attempt to lock for writing returns true when the lock is refused, so two threads write, and the one that was
  refused releases a lock it does not hold.  C85: a negative timeout gives a malformed time.

Seen while reading, outside the properties: the stream interface of mutable strings has no getStatus and getLength (DKString.c 231-236); FailedSemanticRequirement prints a string object with `%s`
(DKRuntime+Properties.c 406); the finalizer of a property leaks its enumeration type; DKWritePropertyObject releases the old
object while the field still refers to it; sorting a linked list does not carry priorities along;
the message for an overflow of the XML name stack has a malformed format (`%ud` without an argument, DKXML.c 248), and in debug builds
it aborts before the retry with a larger buffer.

## Axioms of each theorem

**no axioms** (16 theorems): `BTree.C10_never_returns`, `Number.C31_enumerate_partial`, `Number.C31_enumerate_fails`, `Url.C39_table`, `Num.C43_exponent_fails`, `Num.C43_fraction_fails`, `Num.C43_no_number_fails`, `Graph.C47_equal_fails`, `GArray.C57_self_append_fails`, `BArray.C57_bytes_self_append_fails`, `Graph.C64_never_returns`, `Printf.C79_nul_fails`, `RwLock.C85_negative_fails`, `Make.C109_arguments`, `Make.C109_tree_set_arguments`, `Make.C109_arguments_fails`.

**propext** (146 theorems): `HTable.C07_fails`, `BTree.C08_traverse_stops`, `Dict.C24_null_fails`, `Dict.C24_contains_key_fails`, `Dict.C25_intersect_fails`, `Arr.C26_swap_fails`, `Arr.C26_self_fails`, `Arr.C27_remove_fails`, `Arr.C28_prefix_fails`, `Number.C29_number_fails`, `Data.C29_string`, `Number.C30_types_fail`, `Number.C30_nan_fails`, `Number.C31_matrix_fails`, `Number.C31_reshape_fails`, `Number.C31_bool_fails`, `Text.C34_cut_empty_fails`, `Text.C35_start_fails`, `Text.C35_negative_start_fails`, `Text.C35_malformed_fails`, `Text.C36_corrupts_fails`, `Text.C37_combine`, `Text.C37_combine_none`, `Text.C37_empty_component_fails`, `Text.C37_trailing_fails`, `Text.C37_malformed_fails`, `Path.C38_last_fails`, `Query.C39_order`, `Json.C41_key_fails`, `Json.C41_min_fails`, `Json.C42_bounds_fails`, `Json.C42_defined_fails`, `Pred.C46_key_fails`, `Graph.C48_once_fails`, `Pool.C50_completion_fails`, `Pool.C50_removed_fails`, `Pool.C50_idle_fails`, `Pool.C50_current_fails`, `Thr.C51_cancel_fails`, `Thr.C51_exit_fails`, `Sem.C52_decrement_fails`, `Sem.C52_increment_fails`, `Enum.C56_fails`, `Rt.C58_root_fails`, `Data.C60_shortened_fails`, `Data.C60_poked_fails`, `Text.C61_malformed_fails`, `Path.C62_cases`, `Path.C62_dotfile_fails`, `Json.C63_malformed_fails`, `Json.C63_valid_fails`, `Pred.C66_contains_fails`, `Pred.C66_isa_fails`, `Pool.C70_remove_fails`, `Text.C75_spec`, `Text.C77_return_fails`, `Text.C77_indent_fails`, `Text.C77_formfeed_fails`, `Printf.C78_pointer_fails`, `Printf.C78_directive_fails`, `Printf.C78_percent_fails`, `Printf.C78_width_fails`, `Query.C80_empty_value_fails`, `Query.C80_empty_parameter_fails`, `Query.C80_empty_name_fails`, `Query.C80_equals_fails`, `Query.C80_none_fails`, `Query.C81_empty_fails`, `ValueProp.C82_readonly`, `ValueProp.C82_no_conversion`, `ValueProp.C82_views`, `ValueProp.C82_struct_object`, `ValueProp.C82_struct_mismatch`, `ValueProp.C82_matrix_fails`, `ValueProp.C82_enum_bool_fails`, `ValueProp.C82_large_struct_fails`, `ValueProp.C82_weak_fails`, `ObjLock.C83_held`, `RealTime.C85_real_fails`, `Shell.C86_register`, `Shell.C86_shifted_fails`, `Shell.C86_type_fails`, `Names.C88_dying_fails`, `Names.C88_unnamed_fails`, `Json.C90_refused`, `Json.C90_empty_fails`, `Json.C90_narrow_fails`, `Json.C90_string_fails`, `Observe.C95_refused`, `Observe.C95_interface_set`, `Observe.C95_interface_get`, `Observe.C95_struct_getter_fails`, `Observe.C95_notified_fails`, `Convert.C99_int32_fails`, `Convert.C99_large_fails`, `Convert.C99_bool_fails`, `Convert.C99_boolean`, `Convert.C99_description_fails`, `File.C100_contents_fails`, `File.C100_handle_fails`, `File.C100_stream_fails`, `File.C100_string_length_fails`, `File.C100_closed`, `File.C100_close_fails`, `Decimal.C101_large_fails`, `Decimal.C101_small_fails`, `Decimal.C101_json_fails`, `Copying.C102_key_fails`, `Copying.C102_circle_fails`, `Dispatch.C104_not_missed`, `Dispatch.C104_grow_fails`, `Dispatch.C104_use_fails`, `External.C105_copy_fails`, `Intern.C106_empty_fails`, `Intern.C106_length_fails`, `Describe.C107_count_undefined`, `Describe.C107_ambiguous_fails`, `Messages.C108_nul_fails`, `Messages.C108_null_fails`, `Make.C109_null_fails`, `Make.C109_list_set_fails`, `ParseOwn.C111_null`, `Foreach.C112_array_fails`, `Foreach.C112_table_fails`, `Foreach.C112_tree_fails`, `EggOwn.C113_replaced_fails`, `Range.C115_check_partial`, `Compare.C116_self`, `Compare.C116_mixed_fails`, `Compare.C116_number_fails`, `Compare.C116_classes_fails`, `Compare.C116_direction`, `Compare.C117_types_fail`, `Startup.C122_isa_partial`, `Startup.C122_isa_fails`, `Memory.C123_refused`, `Memory.C123_external_fails`, `Memory.C123_half_fails`, `Memory.C123_late_fails`, `Inter.C124_default_fails`, `Frozen.C127_refused_through_partial`, `Frozen.C127_result_fails`, `Frozen.C127_number_fails`, `Frozen.C127_encoding_fails`, `Frozen.C127_make_immutable`, `Frozen.C127_replace_crash_fails`.

**propext, Quot.sound** (158 theorems): `ArrayOps.C05_shuffle_perm_partial`, `ArrayOps.C05_last_fixed`, `ArrayOps.C05_reachability_fails`, `BTree.PtrNode.C08_new_leaf`, `BTree.PtrNode.C08_skew_refines`, `BTree.PtrNode.C08_split_refines`, `LList.C11_shuffle_crashes`, `BitList.C14_merge_overflow`, `Encoding.C15_no_collision`, `Encoding.C15_size`, `Encoding.C15_type_sizes`, `Encoding.C16_swap64_fails`, `RefCount.C17_static`, `RefCount.C18_dangling`, `Arp.C19_nested_fails`, `Arp.C19_eighth_pool_drain`, `Arp.C19_reentrant_drain`, `Arr.C26_out_of_range`, `Arr.C27_first_index`, `Arr.C27_last_index`, `Arr.C27_count`, `Arr.C27_member`, `Arr.C28_equal`, `Arr.C28_compare_partial`, `Number.C31_defined`, `Data.C32_seek_end_fails`, `Data.C32_read_fails`, `Text.C35_first_occurrence`, `Text.C35_empty_fails`, `Url.C39_fails`, `Num.C43_numeral_partial`, `Num.C43_safe`, `Num.C43_overflow_fails`, `Egg.C44_root_fails`, `Egg.C44_null_fails`, `Egg.C44_class_fails`, `Egg.C44_collision_fails`, `Egg.C45_alignment_fails`, `Egg.C45_text_length_fails`, `Egg.C45_binary_length`, `Pred.C46_deterministic`, `Pred.C46_substitution`, `Pred.C46_trichotomy`, `Pred.C46_cycle_fails`, `Graph.C48_stop`, `Sem.C52_mod_partial`, `Sem.C52_counter_partial`, `Sem.C52_abort_partial`, `Sem.C52_wait_partial`, `Sem.C52_returned`, `Sem.C52_wake`, `Shared.C53_once`, `Shared.C53_progress`, `Const.C54_same`, `Const.C54_text`, `Const.C54_safe`, `Const.C54_nothing_left`, `Const.C54_progress`, `Property.C55_weak_copy_fails`, `Rt.C59_abstract`, `Pred.C65`, `Pred.C65_unspecified`, `Pred.C66_collections`, `Pred.C66_contains_partial`, `Pred.C66_isa`, `Egg.C67_truncated_fails`, `Egg.C67_stream_fails`, `Egg.C67_overflow_fails`, `Pool.C68_realtime_fails`, `Pool.C69_cancel_fails`, `Pool.C69_wakeup_fails`, `DictOwn.C72_borrowed_fails`, `Printf.C78_pretty`, `Printf.C78_number_fails`, `Printf.C79_line_partial`, `Printf.C79_rest_partial`, `Printf.C79_end_fails`, `Printf.C79_byte_fails`, `Printf.C79_eof_fails`, `ValueProp.C82_struct`, `ValueProp.C82_boxed_partial`, `ValueProp.C82_rejected`, `ValueProp.C82_boxed_other`, `ObjLock.C83_bounded`, `RwLock.C84_held`, `RwLock.C84_windows_fails`, `RwLock.C84_windows_release_fails`, `RwLock.C85_end_partial`, `Shell.C86_refused_object`, `Clock.C91_date`, `Clock.C91_windows_exact`, `Clock.C91_fileTime`, `Uuid.C92_zero`, `Uuid.C92_file_fails`, `WString.C93_wide_fails`, `WString.C93_only_empty`, `WString.C93_unconverted_fails`, `ThreadCtx.C94_distinct`, `ThreadCtx.C94_documented_fails`, `ThreadCtx.C94_finalizer_fails`, `ThreadCtx.C94_pool_fails`, `ThreadCtx.C94_open_pool`, `Observe.C95_write`, `Observe.C95_read`, `Observe.C95_setter`, `Observe.C95_getter_partial`, `Observe.C95_struct_getter_header_fails`, `File.C100_contents_partial`, `File.C100_handle_partial`, `Copying.C102_other_fails`, `Copying.C102_set_fails`, `Copying.C102_nested_returns`, `Dispatch.C104_safe_partial`, `Dispatch.C104_found_partial`, `Dispatch.C104_progress`, `Dispatch.C104_replace_fails`, `Dispatch.C104_stale_fails`, `External.C105_mutable_fails`, `Foreach.C112_array`, `Foreach.C112_table`, `StrShare.C114_answers`, `StrShare.C114_texts`, `StrShare.C114_returns`, `Range.C115_machine_partial`, `Range.C115_refused_partial`, `Range.C115_calls_fail`, `Compare.C117_list_fails`, `Compare.C117_zero_fails`, `Nested.C118_ends`, `Nested.C118_stuck`, `Nested.C118_once`, `Nested.C118_alone`, `Nested.C118_library`, `Nested.C118_self`, `Visible.C119_visible_partial`, `Visible.C119_one`, `Visible.C119_released`, `Visible.C119_order_fails`, `LastWrites.C120_try`, `LastWrites.C120_plain_fails`, `Inter.C124_shuffle_fails`, `Inter.C124_inconsistent_fails`, `Inter.C124_lists_as_members_fails`, `Cost.C126_reserved`, `Cost.C126_reserved_bytes_partial`, `Cost.C126_overwrite_fails`, `Frozen.C127_changes`, `Frozen.C127_changes_through`, `Frozen.C127_refused`, `Mutex.C128_exclusion`, `Mutex.C128_lock`, `Mutex.C128_signal`, `Mutex.C128_wait_returns`, `Mutex.C128_wait_frees_partial`, `Mutex.C128_wait_frees_fails`, `Mutex.C128_platforms_fails`, `Mutex.C128_no_lost_wakeup`, `Mutex.C128_waiters_return`.

**propext, Classical.choice, Quot.sound** (443 theorems): `GArray.C01_array_history`, `BArray.C01_bytes_history`, `BArray.C02_terminated`, `ArrayOps.C03_sort`, `ArrayOps.C04_reverse`, `ArrayOps.C04_reverse_twice`, `HTable.C06_map_partial`, `HTable.C06_map_short`, `HTable.C07_in_bounds_partial`, `HTable.C07_in_bounds_short`, `BTree.C08_sorted_map`, `BTree.C08_copy`, `BTree.C09_balanced`, `LList.C11_sequence`, `LList.C11_iteration_stops`, `LList.C12_priority_order`, `NodePool.C13_alloc_fresh`, `NodePool.C13_live_untouched`, `NodePool.C13_free_reusable`, `NodePool.C13_no_leak`, `BitList.C14_bits`, `BitList.C14_first_partial`, `BitList.C14_count_partial`, `BitList.C14_count_exact`, `BitList.C14_count_set_fails`, `BitList.C14_count_clear_fails`, `BitList.C14_first_clear_fails`, `BitList.C14_merge`, `Encoding.C15_vector`, `Encoding.C15_matrix`, `Encoding.C15_injective`, `Encoding.C15_number_kinds`, `Encoding.C16_swap16`, `Encoding.C16_swap32`, `Encoding.C16_swap64_partial`, `Encoding.C16_host_order`, `RefCount.C17_freed_once`, `RefCount.C18_weak_partial`, `Arp.C19_balance_partial`, `Arp.C19_pool_partial`, `Rt.C20_lookup`, `Rt.C20_install_outcome`, `Rt.C21_finalize`, `Rt.C21_init`, `Rt.C22_kind_of`, `Rt.C22_order`, `Dict.C23_policies_partial`, `Dict.C23_contains_key`, `Dict.C23_merge`, `Dict.C23_copy`, `Dict.C24_equal_partial`, `Dict.C24_subset_partial`, `Dict.C24_equivalence_partial`, `Dict.C25_membership`, `Dict.C25_union`, `Dict.C25_minus`, `Dict.C25_self`, `Dict.C25_subset`, `Dict.C25_equal`, `Dict.C25_intersect_is_noop`, `Dict.C25_intersects_is_negated`, `Arr.C26_ownership_partial`, `Arr.C27_add_to_set`, `Arr.C27_remove_partial`, `Arr.C28_order_partial`, `Number.C29_number_partial`, `Number.C29_integers_partial`, `Data.C29_data`, `Data.C29_objects_partial`, `Number.C30_compare_partial`, `Number.C30_order_partial`, `Number.C31_value`, `Number.C31_vector`, `Number.C31_init`, `Number.C31_get`, `Number.C31_matrix_partial`, `Data.C32_defined`, `Data.C32_file_partial`, `Data.C32_write_read`, `Unicode.C33_write`, `Unicode.C33_write_refused`, `Unicode.C33_write_scan`, `Unicode.C33_scan_progress`, `Unicode.C33_scan_keeps_ascii`, `Unicode.C33_scan_wellformed`, `Unicode.C33_step_back`, `Unicode.C33_step_back_sound`, `Text.C34_characters_exist`, `Text.C34_text`, `Text.C34_length`, `Text.C34_char_at`, `Text.C34_substring`, `Text.C34_cut`, `Text.C35_range_partial`, `Text.C35_range_scanned`, `Text.C35_tests_partial`, `Text.C35_backwards`, `Text.C35_forwards_fails`, `Text.C36_spec`, `Text.C36_ascii_partial`, `Text.C36_absent_partial`, `Text.C36_terminates_fails`, `Text.C37_join_partial`, `Text.C37_split_partial`, `Path.C38_standardize`, `Path.C38_spelling`, `Path.C38_idempotent`, `Path.C38_append`, `Path.C38_delete`, `Path.C38_append_delete`, `Path.C38_last_partial`, `Url.C39_partial`, `Query.C39_add`, `Query.C39_remove_partial`, `Query.C39_back`, `Query.C39_exact`, `Json.C40`, `Json.C40_literal`, `Json.C41_partial`, `Json.C41_valid_partial`, `Json.C42_bounds_partial`, `Json.C42_defined_partial`, `Egg.C44_partial`, `Egg.C44_stream_partial`, `Egg.C44_rootless_partial`, `Egg.C45_partial`, `Pred.C46_partial`, `Pred.C46_texts`, `Graph.C47_query_partial`, `Graph.C47_stable`, `Graph.C47_list`, `Graph.C47_info`, `Graph.C48_terminates`, `Graph.C48_reaches_partial`, `Graph.C48_once_partial`, `Graph.C48_exponential_fails`, `Pool.C49_order`, `Pool.C49_once`, `Pool.C49_completion`, `Pool.C50_wait_partial`, `Pool.C50_idle_partial`, `Pool.C50_current_partial`, `Thr.C51_once`, `Thr.C51_forward_partial`, `Thr.C51_step_partial`, `Thr.C51_finished`, `Thr.C51_finishes`, `Thr.C51_join_fails`, `Const.C54_later`, `Property.C55_safe`, `Property.C55_balanced`, `Property.C55_strong`, `Property.C55_weak`, `Property.C55_copied`, `Property.C55_null`, `Property.C55_rejected`, `Property.C55_readonly`, `Property.C55_path_get`, `Property.C55_path_set`, `Enum.C56_value_partial`, `Enum.C56_name`, `Enum.C56_int_partial`, `Enum.C56_short`, `GArray.C57_self_append_partial`, `LList.C57_list_self_append_never_returns`, `Rt.C58_fast_lookup_partial`, `Rt.C59_sealed`, `Data.C60_equal_partial`, `Text.C61_order_partial`, `Text.C61_defined`, `Path.C62_get`, `Path.C62_has`, `Path.C62_append`, `Path.C62_append_empty`, `Path.C62_delete`, `Json.C63_accepts_partial`, `Json.C63_exact`, `Json.C63_unambiguous`, `Json.C63_refused`, `Json.C63_legal_answered`, `Pred.C66_texts_partial`, `Egg.C67_open_partial`, `Pool.C68_partial`, `Pool.C69_partial`, `Pool.C69_idle_partial`, `Pool.C70_partial`, `Thr.C71_alive_partial`, `Thr.C71_dealloc`, `DictOwn.C72_safe`, `DictOwn.C72_owned`, `DictOwn.C72_alive`, `DictOwn.C72_map`, `DictOwn.C72_get`, `DictOwn.C72_copy`, `DictOwn.C72_fails_only`, `Xml.C73_document_partial`, `Xml.C73_line_ends`, `Xml.C73_mismatched_tags`, `Xml.C73_truncated`, `Xml.C73_trailing`, `Xml.C73_unknown_entity`, `Xml.C73_bad_number`, `Xml.C73_accepted`, `Xml.C73_rejected`, `Xml.C73_root_space_refuted`, `Xml.C73_reference_refuted`, `Xml.C73_cdata_refuted`, `Xml.C73_duplicate_refuted`, `Xml.C73_instruction_refuted`, `Xml.C73_malformed_refuted`, `Xml.C74_total`, `Text.C75_text_partial`, `Text.C75_bytes_partial`, `Text.C75_again_partial`, `Text.C75_wide_fails`, `Text.C76_filter`, `Text.C76_text`, `Text.C76_stop`, `Text.C76_positions`, `Text.C77_words_partial`, `Text.C77_width_partial`, `Text.C77_newline_partial`, `Text.C77_fill_partial`, `Text.C77_multibyte_fails`, `Printf.C78_format_partial`, `Printf.C78_data_partial`, `Printf.C78_char_fails`, `Printf.C79_lines_partial`, `Printf.C79_char_partial`, `Query.C80_read_partial`, `Query.C80_write_partial`, `Query.C80_back`, `Query.C80_roundtrip_partial`, `Query.C80_blank_fails`, `Query.C81_read_partial`, `Query.C81_colon_fails`, `ValueProp.C82_apart`, `ValueProp.C82_number`, `ValueProp.C82_scalar`, `ValueProp.C82_enum_value`, `ValueProp.C82_enum_name`, `ValueProp.C82_enum_short`, `ValueProp.C82_bool`, `ObjLock.C83_safe`, `ObjLock.C83_exclusive`, `ObjLock.C83_progress`, `ObjLock.C83_nothing_left`, `ObjLock.C83_dealloc`, `RwLock.C84_safe_partial`, `RwLock.C84_exclusive_partial`, `RwLock.C84_posix_progress`, `RwLock.C84_posix_try`, `RealTime.C85_real_partial`, `RealTime.C85_order_partial`, `Shell.C86_round_trip_partial`, `Shell.C86_layout_partial`, `Shell.C86_refused`, `Shell.C86_annotation_fails`, `Shell.C86_empty_fails`, `Shell.C87_read_partial`, `Shell.C87_length_fails`, `Names.C88_database_partial`, `Names.C88_short`, `Names.C88_name_partial`, `Names.C88_unique`, `Names.C88_alive_partial`, `Xml.C89_description_partial`, `Xml.C89_again_partial`, `Xml.C89_document_partial`, `Xml.C89_blank_fails`, `Xml.C89_markup_fails`, `Xml.C89_quote_fails`, `Json.C90_read_partial`, `Json.C90_round_trip_partial`, `Json.C90_count_fails`, `Clock.C91_order`, `Clock.C91_local_fails`, `Clock.C91_windows_fails`, `Clock.C91_windows_local_fails`, `RealTime.C91_real_partial`, `RealTime.C91_real_order_partial`, `Uuid.C92_android`, `Uuid.C92_all`, `Uuid.C92_windows`, `WString.C93_init_partial`, `ThreadCtx.C94_contexts_partial`, `ThreadCtx.C94_references`, `Pool.C96_once`, `Pool.C96_alive`, `Pool.C96_when`, `Pool.C96_all`, `Pool.C96_finalizer`, `TreeOwn.C97_safe`, `TreeOwn.C97_owned`, `TreeOwn.C97_released`, `TreeOwn.C97_nodes_fails`, `Egg.C98_values_partial`, `Egg.C98_variable_fails`, `Egg.C98_rest_fails`, `Egg.C98_empty_fails`, `Egg.C98_long_fails`, `Egg.C98_root_fails`, `Convert.C99_text`, `Convert.C99_int64`, `Convert.C99_int32_partial`, `Convert.C99_back_partial`, `Convert.C99_back32_partial`, `Convert.C99_bool`, `Convert.C99_bool_back_partial`, `File.C100_file`, `File.C100_save`, `File.C100_length_partial`, `File.C100_stream_partial`, `File.C100_dispose`, `Decimal.C101_text`, `Decimal.C101_defined_partial`, `Decimal.C101_back_partial`, `Decimal.C101_exact_partial`, `Decimal.C101_json_partial`, `Decimal.C101_json_integer_partial`, `Copying.C102_copy`, `Copying.C102_mutable`, `Copying.C102_independent`, `Copying.C102_mutable_independent`, `Copying.C102_change`, `Copying.C102_set_bytes`, `Copying.C102_alive`, `Copying.C102_copy_mutable_fails`, `ListOwn.C103_safe`, `ListOwn.C103_counts`, `ListOwn.C103_replace`, `ListOwn.C103_drop`, `ListOwn.C103_nodes`, `ListOwn.C103_replace_fails`, `External.C105_program_partial`, `External.C105_no_leak`, `Intern.C106_program_partial`, `Intern.C106_immutable`, `Intern.C106_literal_partial`, `Describe.C107_description_partial`, `Describe.C107_unique_partial`, `Describe.C107_returns`, `Describe.C107_cycle_fails`, `Describe.C107_count_fails`, `Messages.C108_messages_partial`, `Make.C109_array`, `Make.C109_array_of`, `Make.C109_set_partial`, `Make.C109_dictionary_partial`, `Make.C109_tree_set`, `Make.C109_tree_dictionary`, `Make.C109_list_set_partial`, `ClassLife.C110_safe`, `ClassLife.C110_lifetime`, `ClassLife.C110_class_once`, `ClassLife.C110_objects`, `ClassLife.C110_finalizers`, `ClassLife.C110_progress`, `ClassLife.C110_no_leak`, `ClassLife.C110_zombies_keep_classes`, `ParseOwn.C111_json`, `ParseOwn.C111_xml`, `Foreach.C112_list`, `Foreach.C112_tree_partial`, `Foreach.C112_array_appends_partial`, `Foreach.C112_list_adds_partial`, `Foreach.C112_list_own_entry_partial`, `Foreach.C112_table_partial`, `Foreach.C112_list_fails`, `Foreach.C112_list_reuse_fails`, `EggOwn.C113_index`, `EggOwn.C113_archivable`, `EggOwn.C113_archive_safe`, `EggOwn.C113_archive_alive`, `EggOwn.C113_archive_owners`, `EggOwn.C113_archive_end`, `EggOwn.C113_stream_safe`, `EggOwn.C113_same_object`, `EggOwn.C113_running`, `EggOwn.C113_unarchive_owners`, `EggOwn.C113_unarchive_end`, `EggOwn.C113_data_partial`, `EggOwn.C113_data_fails`, `Range.C115_accepted`, `Range.C115_check_fails`, `Range.C115_reads_outside`, `Compare.C116_meaning_partial`, `Compare.C116_order_partial`, `Compare.C116_sort_partial`, `Compare.C116_equal_partial`, `Compare.C116_struct_fails`, `Compare.C117_equal_partial`, `Compare.C117_hash_partial`, `Compare.C117_key_class_partial`, `Compare.C117_dictionary_partial`, `Compare.C117_dictionary_long_partial`, `LastWrites.C120_seen`, `LastWrites.C120_quiet`, `LastWrites.C120_once`, `BTree.C121_tree`, `BTree.C121_tree_finds`, `LList.C121_list`, `LList.C121_list_finds`, `Startup.C122_starts`, `Startup.C122_repeat`, `Startup.C122_classes_partial`, `Startup.C122_class_names_partial`, `Startup.C122_class_fails`, `Startup.C122_selectors_partial`, `Startup.C122_selector_names_partial`, `Startup.C122_selector_fails`, `Startup.C122_history`, `Startup.C122_threads_partial`, `Startup.C122_threads_fails`, `Startup.C122_race_fails`, `Memory.C123_safe`, `Memory.C123_exact`, `Memory.C123_returned`, `Memory.C123_functions`, `Memory.C123_zombies`, `Inter.C124_lists`, `Inter.C124_array_shuffle`, `Inter.C124_sets_partial`, `Inter.C124_small_sets`, `Inter.C124_dictionaries_partial`, `Inter.C124_built`, `Inter.C124_built_differs_fails`, `Readers.C125_iterate`, `Readers.C125_iterate_ends`, `Readers.C125_in_turn_partial`, `Readers.C125_wrong_fails`, `Readers.C125_crash_fails`, `Readers.C125_tree`, `Readers.C125_table`, `Cost.C126_arrays`, `Cost.C126_bytes`, `Cost.C126_tables`, `Cost.C126_reserved_fails`, `Cost.C126_set_length_fails`, `Cost.C126_list`, `Frozen.C127_contents_partial`, `Frozen.C127_replace_returns_partial`, `Frozen.C127_replace_hangs_fails`.
