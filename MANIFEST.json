{
 "claims": [
  {
   "property": "C01",
   "status": "proved",
   "theorems": [
    "Duck.GArray.C01_array_history",
    "Duck.BArray.C01_bytes_history"
   ],
   "note": "Element and byte storage, every history of in-contract operations; aliasing sources are the subject of C57."
  },
  {
   "property": "C02",
   "status": "proved",
   "theorems": [
    "Duck.BArray.C02_terminated"
   ],
   "note": "All histories."
  },
  {
   "property": "C03",
   "status": "proved",
   "theorems": [
    "Duck.ArrayOps.C03_sort"
   ],
   "note": "Total preorders, all lengths; includes termination and memory safety."
  },
  {
   "property": "C04",
   "status": "proved",
   "theorems": [
    "Duck.ArrayOps.C04_reverse",
    "Duck.ArrayOps.C04_reverse_twice"
   ],
   "note": ""
  },
  {
   "property": "C05",
   "status": "partial",
   "theorems": [
    "Duck.ArrayOps.C05_shuffle_perm_partial",
    "Duck.ArrayOps.C05_last_fixed",
    "Duck.ArrayOps.C05_reachability_fails"
   ],
   "note": "Permutation proved; reachability of all arrangements is refuted (the last element never moves)."
  },
  {
   "property": "C06",
   "status": "partial",
   "theorems": [
    "Duck.HTable.C06_map_partial",
    "Duck.HTable.C06_map_short",
    "Duck.HTable.C07_fails"
   ],
   "note": "Every history refines the finite map, except calls on a table of 25 rows with 11 occupied (25 is not prime; witness C07_fails) or beyond the last size. Without exception for histories of at most ten insertions."
  },
  {
   "property": "C07",
   "status": "partial",
   "theorems": [
    "Duck.HTable.C07_in_bounds_partial",
    "Duck.HTable.C07_in_bounds_short",
    "Duck.HTable.C07_fails"
   ],
   "note": "Proved for every reachable table except 25 rows with 11 occupied, where it is refuted by a concrete history."
  },
  {
   "property": "C08",
   "status": "proved",
   "theorems": [
    "Duck.BTree.C08_sorted_map",
    "Duck.BTree.C08_traverse_stops",
    "Duck.BTree.C08_copy",
    "Duck.BTree.PtrNode.C08_new_leaf",
    "Duck.BTree.PtrNode.C08_skew_refines",
    "Duck.BTree.PtrNode.C08_split_refines"
   ],
   "note": ""
  },
  {
   "property": "C09",
   "status": "proved",
   "theorems": [
    "Duck.BTree.C09_balanced"
   ],
   "note": ""
  },
  {
   "property": "C10",
   "status": "partial",
   "theorems": [
    "Duck.BTree.C10_never_returns"
   ],
   "note": "The property is false of the code: the walk never terminates, on any tree (proved)."
  },
  {
   "property": "C11",
   "status": "proved",
   "theorems": [
    "Duck.LList.C11_sequence",
    "Duck.LList.C11_iteration_stops",
    "Duck.LList.C11_shuffle_crashes"
   ],
   "note": "All histories of the operations named, down to node pointers, with ranges whose end is a 64-bit number (others are undefined behaviour, C115). DKLinkedListShuffle is outside: it crashes on two or more elements (C11_shuffle_crashes)."
  },
  {
   "property": "C12",
   "status": "proved",
   "theorems": [
    "Duck.LList.C12_priority_order"
   ],
   "note": "All insertion histories and policies, priorities without NaN."
  },
  {
   "property": "C13",
   "status": "proved",
   "theorems": [
    "Duck.NodePool.C13_alloc_fresh",
    "Duck.NodePool.C13_live_untouched",
    "Duck.NodePool.C13_free_reusable",
    "Duck.NodePool.C13_no_leak"
   ],
   "note": ""
  },
  {
   "property": "C14",
   "status": "partial",
   "theorems": [
    "Duck.BitList.C14_bits",
    "Duck.BitList.C14_first_partial",
    "Duck.BitList.C14_count_partial",
    "Duck.BitList.C14_count_exact",
    "Duck.BitList.C14_count_set_fails",
    "Duck.BitList.C14_count_clear_fails",
    "Duck.BitList.C14_first_clear_fails",
    "Duck.BitList.C14_merge",
    "Duck.BitList.C14_merge_overflow"
   ],
   "note": "Bits and merges proved. Counts and searches are refuted in general (the list allocates 32 times too many words and counts them): witnesses C14_*_fails, exact description C14_count_exact."
  },
  {
   "property": "C15",
   "status": "proved",
   "theorems": [
    "Duck.Encoding.C15_vector",
    "Duck.Encoding.C15_matrix",
    "Duck.Encoding.C15_no_collision",
    "Duck.Encoding.C15_injective",
    "Duck.Encoding.C15_size",
    "Duck.Encoding.C15_type_sizes",
    "Duck.Encoding.C15_number_kinds"
   ],
   "note": ""
  },
  {
   "property": "C16",
   "status": "partial",
   "theorems": [
    "Duck.Encoding.C16_swap16",
    "Duck.Encoding.C16_swap32",
    "Duck.Encoding.C16_swap64_partial",
    "Duck.Encoding.C16_swap64_fails",
    "Duck.Encoding.C16_host_order"
   ],
   "note": "The fallback 64-bit swap used without GCC builtins is wrong (C16_swap64_fails); everything else proved."
  },
  {
   "property": "C17",
   "status": "proved",
   "theorems": [
    "Duck.RefCount.C17_freed_once",
    "Duck.RefCount.C17_static"
   ],
   "note": "Interleaving semantics over any number of threads and any schedule of atomic steps; fewer than 2^28 references."
  },
  {
   "property": "C18",
   "status": "partial",
   "theorems": [
    "Duck.RefCount.C18_weak_partial",
    "Duck.RefCount.C18_dangling"
   ],
   "note": "Proved for every schedule in which metadata is not attached between the read and the decrement of a concurrent release; C18_dangling proves that without this the code resolves a freed object."
  },
  {
   "property": "C19",
   "status": "partial",
   "theorems": [
    "Duck.Arp.C19_balance_partial",
    "Duck.Arp.C19_pool_partial",
    "Duck.Arp.C19_nested_fails",
    "Duck.Arp.C19_eighth_pool_drain",
    "Duck.Arp.C19_reentrant_drain"
   ],
   "note": "Proved for every client program whose finalizers autorelease but use no pools of their own, and for every program with at most 32 autoreleases. C19_nested_fails: a finalizer with its own pool makes the drain read freed memory."
  },
  {
   "property": "C20",
   "status": "proved",
   "theorems": [
    "Duck.Rt.C20_lookup",
    "Duck.Rt.C20_install_outcome"
   ],
   "note": "Every history of class creation, installs and lookups, every assignment of cache lines; sequential (installs concurrent with lookups are documented as unsupported)."
  },
  {
   "property": "C21",
   "status": "proved",
   "theorems": [
    "Duck.Rt.C21_finalize",
    "Duck.Rt.C21_init"
   ],
   "note": ""
  },
  {
   "property": "C22",
   "status": "proved",
   "theorems": [
    "Duck.Rt.C22_kind_of",
    "Duck.Rt.C22_order"
   ],
   "note": ""
  },
  {
   "property": "C23",
   "status": "partial",
   "theorems": [
    "Duck.Dict.C23_policies_partial",
    "Duck.Dict.C23_contains_key",
    "Duck.Dict.C23_merge",
    "Duck.Dict.C23_copy"
   ],
   "note": "Every history of dictionary calls that return; calls fail to return only on the hash table sizes of C07."
  },
  {
   "property": "C24",
   "status": "partial",
   "theorems": [
    "Duck.Dict.C24_equal_partial",
    "Duck.Dict.C24_subset_partial",
    "Duck.Dict.C24_equivalence_partial",
    "Duck.Dict.C24_null_fails",
    "Duck.Dict.C24_contains_key_fails"
   ],
   "note": "Proved for dictionaries without NULL objects; refuted with NULL objects."
  },
  {
   "property": "C25",
   "status": "partial",
   "theorems": [
    "Duck.Dict.C25_membership",
    "Duck.Dict.C25_union",
    "Duck.Dict.C25_minus",
    "Duck.Dict.C25_self",
    "Duck.Dict.C25_subset",
    "Duck.Dict.C25_equal",
    "Duck.Dict.C25_intersect_is_noop",
    "Duck.Dict.C25_intersect_fails",
    "Duck.Dict.C25_intersects_is_negated"
   ],
   "note": "Membership, union, difference, subset and equality proved; intersection is a no-op and the intersects test is negated (both proved)."
  },
  {
   "property": "C26",
   "status": "partial",
   "theorems": [
    "Duck.Arr.C26_ownership_partial",
    "Duck.Arr.C26_out_of_range",
    "Duck.Arr.C26_swap_fails",
    "Duck.Arr.C26_self_fails"
   ],
   "note": "Every history of a client that owns the objects it passes; refuted for several objects owned by the array alone, for the array as its own source, and for ranges whose end overflows (C115)."
  },
  {
   "property": "C27",
   "status": "partial",
   "theorems": [
    "Duck.Arr.C27_first_index",
    "Duck.Arr.C27_last_index",
    "Duck.Arr.C27_count",
    "Duck.Arr.C27_member",
    "Duck.Arr.C27_add_to_set",
    "Duck.Arr.C27_remove_partial",
    "Duck.Arr.C27_remove_fails"
   ],
   "note": "Queries proved; removal proved for an object owned elsewhere, refuted for one only the list owns."
  },
  {
   "property": "C28",
   "status": "partial",
   "theorems": [
    "Duck.Arr.C28_equal",
    "Duck.Arr.C28_compare_partial",
    "Duck.Arr.C28_order_partial",
    "Duck.Arr.C28_prefix_fails"
   ],
   "note": "Equality proved; comparison proved for lists of equal length, refuted for a list and its extension."
  },
  {
   "property": "C29",
   "status": "partial",
   "theorems": [
    "Duck.Number.C29_number_partial",
    "Duck.Number.C29_integers_partial",
    "Duck.Number.C29_number_fails",
    "Duck.Data.C29_string",
    "Duck.Data.C29_data",
    "Duck.Data.C29_objects_partial"
   ],
   "note": "Strings, data, pairs and structs proved. Numbers: proved for one type without NaNs and zeros and across integer types; refuted otherwise."
  },
  {
   "property": "C30",
   "status": "partial",
   "theorems": [
    "Duck.Number.C30_compare_partial",
    "Duck.Number.C30_order_partial",
    "Duck.Number.C30_types_fail",
    "Duck.Number.C30_nan_fails"
   ],
   "note": "All ten types and all counts, at the bit level (IEEE rounding included), when the second number's values exist in the first's type; refuted otherwise."
  },
  {
   "property": "C31",
   "status": "partial",
   "theorems": [
    "Duck.Number.C31_value",
    "Duck.Number.C31_defined",
    "Duck.Number.C31_vector",
    "Duck.Number.C31_init",
    "Duck.Number.C31_get",
    "Duck.Number.C31_matrix_partial",
    "Duck.Number.C31_matrix_fails",
    "Duck.Number.C31_reshape_fails",
    "Duck.Number.C31_bool_fails",
    "Duck.Number.C31_enumerate_partial",
    "Duck.Number.C31_enumerate_fails"
   ],
   "note": "Values and vectors proved. Matrices proved for equal element sizes or shapes; refuted otherwise (out of bounds write)."
  },
  {
   "property": "C32",
   "status": "partial",
   "theorems": [
    "Duck.Data.C32_defined",
    "Duck.Data.C32_file_partial",
    "Duck.Data.C32_write_read",
    "Duck.Data.C32_seek_end_fails",
    "Duck.Data.C32_read_fails"
   ],
   "note": "Every history of calls that are defined (exactly described) refines a file, except seeking backwards from the end, where the offset is ignored, and asking for 2^63 bytes or more, which overflows (refuted)."
  },
  {
   "property": "C33",
   "status": "proved",
   "theorems": [
    "Duck.Unicode.C33_write",
    "Duck.Unicode.C33_write_refused",
    "Duck.Unicode.C33_write_scan",
    "Duck.Unicode.C33_scan_progress",
    "Duck.Unicode.C33_scan_keeps_ascii",
    "Duck.Unicode.C33_scan_wellformed",
    "Duck.Unicode.C33_step_back",
    "Duck.Unicode.C33_step_back_sound"
   ],
   "note": "All scalar values and all byte strings, in both directions."
  },
  {
   "property": "C34",
   "status": "partial",
   "theorems": [
    "Duck.Text.C34_characters_exist",
    "Duck.Text.C34_text",
    "Duck.Text.C34_length",
    "Duck.Text.C34_char_at",
    "Duck.Text.C34_substring",
    "Duck.Text.C34_cut",
    "Duck.Text.C34_cut_empty_fails"
   ],
   "note": "All strings, malformed ones included; the cut law is refuted for the empty string only (NULL results)."
  },
  {
   "property": "C35",
   "status": "partial",
   "theorems": [
    "Duck.Text.C35_first_occurrence",
    "Duck.Text.C35_range_partial",
    "Duck.Text.C35_range_scanned",
    "Duck.Text.C35_tests_partial",
    "Duck.Text.C35_backwards",
    "Duck.Text.C35_forwards_fails",
    "Duck.Text.C35_start_fails",
    "Duck.Text.C35_negative_start_fails",
    "Duck.Text.C35_malformed_fails",
    "Duck.Text.C35_empty_fails"
   ],
   "note": "Texts and nonempty patterns, start within the string. Refuted: forward character search, start past the end (NULL read), negative start, malformed strings, empty pattern."
  },
  {
   "property": "C36",
   "status": "partial",
   "theorems": [
    "Duck.Text.C36_spec",
    "Duck.Text.C36_ascii_partial",
    "Duck.Text.C36_absent_partial",
    "Duck.Text.C36_corrupts_fails",
    "Duck.Text.C36_terminates_fails"
   ],
   "note": "ASCII strings and replacements of any length, or no occurrence; refuted for non-ASCII text, where it corrupts characters or never ends."
  },
  {
   "property": "C37",
   "status": "partial",
   "theorems": [
    "Duck.Text.C37_combine",
    "Duck.Text.C37_combine_none",
    "Duck.Text.C37_join_partial",
    "Duck.Text.C37_split_partial",
    "Duck.Text.C37_empty_component_fails",
    "Duck.Text.C37_trailing_fails",
    "Duck.Text.C37_malformed_fails"
   ],
   "note": "All texts and separators up to a trailing separator; refuted for empty components, trailing separators and malformed strings."
  },
  {
   "property": "C38",
   "status": "partial",
   "theorems": [
    "Duck.Path.C38_standardize",
    "Duck.Path.C38_spelling",
    "Duck.Path.C38_idempotent",
    "Duck.Path.C38_append",
    "Duck.Path.C38_delete",
    "Duck.Path.C38_append_delete",
    "Duck.Path.C38_last_partial",
    "Duck.Path.C38_last_fails"
   ],
   "note": "Proved for all paths; only the last component of a path of two or more slashes is wrong (proved)."
  },
  {
   "property": "C39",
   "status": "partial",
   "theorems": [
    "Duck.Url.C39_table",
    "Duck.Url.C39_partial",
    "Duck.Url.C39_fails",
    "Duck.Query.C39_order",
    "Duck.Query.C39_add",
    "Duck.Query.C39_remove_partial",
    "Duck.Query.C39_back",
    "Duck.Query.C39_exact"
   ],
   "note": "Refuted for every enumeration order of the table. With the order of the program: exactly determined for ASCII texts without %; those with a blank or one of =>?@}{|~[\\]^#$ do not come back, all others do. Removing escapes alone is right for all ASCII texts without %."
  },
  {
   "property": "C40",
   "status": "proved",
   "theorems": [
    "Duck.Json.C40",
    "Duck.Json.C40_literal"
   ],
   "note": "All NUL-free byte strings, malformed UTF-8 included, both styles."
  },
  {
   "property": "C41",
   "status": "partial",
   "theorems": [
    "Duck.Json.C41_partial",
    "Duck.Json.C41_valid_partial",
    "Duck.Json.C41_key_fails",
    "Duck.Json.C41_min_fails"
   ],
   "note": "All trees whose keys contain no quotation mark or backslash and whose integers are not -2^63; refuted for those. Floating point numbers are C101, vectors C90."
  },
  {
   "property": "C42",
   "status": "partial",
   "theorems": [
    "Duck.Json.C42_bounds_partial",
    "Duck.Json.C42_defined_partial",
    "Duck.Json.C42_bounds_fails",
    "Duck.Json.C42_defined_fails"
   ],
   "note": "Every text in which each \\u is followed by four bytes; refuted for a \\u near the end, wide characters outside strings and surrogates. With and without the vector syntax."
  },
  {
   "property": "C43",
   "status": "partial",
   "theorems": [
    "Duck.Num.C43_numeral_partial",
    "Duck.Num.C43_safe",
    "Duck.Num.C43_exponent_fails",
    "Duck.Num.C43_overflow_fails",
    "Duck.Num.C43_fraction_fails",
    "Duck.Num.C43_no_number_fails"
   ],
   "note": "Every numeral in range is consumed exactly and yields its value (floating point results up to rounding); refuted for signed exponents, integers from 2^63 up, 18 fraction digits and text without a number."
  },
  {
   "property": "C44",
   "status": "partial",
   "theorems": [
    "Duck.Egg.C44_partial",
    "Duck.Egg.C44_stream_partial",
    "Duck.Egg.C44_rootless_partial",
    "Duck.Egg.C44_root_fails",
    "Duck.Egg.C44_null_fails",
    "Duck.Egg.C44_class_fails",
    "Duck.Egg.C44_collision_fails"
   ],
   "note": "All finite graphs (sharing, cycles, both byte orders, data and stream) that do not refer back to the root or its class, without NULLs in collections and with keys of different hashes; refuted for each of these."
  },
  {
   "property": "C45",
   "status": "partial",
   "theorems": [
    "Duck.Egg.C45_partial",
    "Duck.Egg.C45_alignment_fails",
    "Duck.Egg.C45_text_length_fails",
    "Duck.Egg.C45_binary_length"
   ],
   "note": "All sequences of calls; offsets aligned within the data section; refuted for the address in the archive and for the length DKEggGetTextData returns."
  },
  {
   "property": "C46",
   "status": "partial",
   "theorems": [
    "Duck.Pred.C46_partial",
    "Duck.Pred.C46_deterministic",
    "Duck.Pred.C46_substitution",
    "Duck.Pred.C46_trichotomy",
    "Duck.Pred.C46_texts",
    "Duck.Pred.C46_key_fails",
    "Duck.Pred.C46_cycle_fails"
   ],
   "note": "All predicate trees whose second operands have no key path of their own; refuted for those and for predicates that contain themselves."
  },
  {
   "property": "C47",
   "status": "partial",
   "theorems": [
    "Duck.Graph.C47_query_partial",
    "Duck.Graph.C47_stable",
    "Duck.Graph.C47_list",
    "Duck.Graph.C47_info",
    "Duck.Graph.C47_equal_fails"
   ],
   "note": "All histories; second vertices are matched by identity, so refuted for equal vertices that are distinct objects."
  },
  {
   "property": "C48",
   "status": "partial",
   "theorems": [
    "Duck.Graph.C48_terminates",
    "Duck.Graph.C48_reaches_partial",
    "Duck.Graph.C48_stop",
    "Duck.Graph.C48_once_partial",
    "Duck.Graph.C48_once_fails",
    "Duck.Graph.C48_exponential_fails"
   ],
   "note": "Termination, coverage and stopping for all graphs; exactly once only when no vertex has two ways to it, refuted otherwise (callbacks can be exponential in number)."
  },
  {
   "property": "C49",
   "status": "proved",
   "theorems": [
    "Duck.Pool.C49_order",
    "Duck.Pool.C49_once",
    "Duck.Pool.C49_completion"
   ],
   "note": "Transition system over all interleavings of any number of callers and workers, both scheduling modes."
  },
  {
   "property": "C50",
   "status": "partial",
   "theorems": [
    "Duck.Pool.C50_wait_partial",
    "Duck.Pool.C50_idle_partial",
    "Duck.Pool.C50_completion_fails",
    "Duck.Pool.C50_removed_fails",
    "Duck.Pool.C50_idle_fails",
    "Duck.Pool.C50_current_partial",
    "Duck.Pool.C50_current_fails"
   ],
   "note": "WaitForTasks waits for all tasks of the group, WaitUntilIdle until nothing is executed, WaitForCurrentTasks for all tasks if there is one group; refuted for completions, after RemoveAllTasks, for queued tasks, and for WaitForCurrentTasks with several groups."
  },
  {
   "property": "C51",
   "status": "partial",
   "theorems": [
    "Duck.Thr.C51_once",
    "Duck.Thr.C51_forward_partial",
    "Duck.Thr.C51_step_partial",
    "Duck.Thr.C51_finished",
    "Duck.Thr.C51_finishes",
    "Duck.Thr.C51_cancel_fails",
    "Duck.Thr.C51_join_fails",
    "Duck.Thr.C51_exit_fails"
   ],
   "note": "All schedules of any number of callers. Refuted: a cancellation before the thread runs is forgotten; DKThreadJoin joins a detached thread; DKThreadExit aborts."
  },
  {
   "property": "C52",
   "status": "partial",
   "theorems": [
    "Duck.Sem.C52_mod_partial",
    "Duck.Sem.C52_counter_partial",
    "Duck.Sem.C52_abort_partial",
    "Duck.Sem.C52_wait_partial",
    "Duck.Sem.C52_returned",
    "Duck.Sem.C52_wake",
    "Duck.Sem.C52_decrement_fails",
    "Duck.Sem.C52_increment_fails"
   ],
   "note": "For numbers below 2^31; refuted beyond."
  },
  {
   "property": "C53",
   "status": "proved",
   "theorems": [
    "Duck.Shared.C53_once",
    "Duck.Shared.C53_progress"
   ],
   "note": "Statement by statement with the spin lock, sequentially consistent memory."
  },
  {
   "property": "C54",
   "status": "proved",
   "theorems": [
    "Duck.Const.C54_same",
    "Duck.Const.C54_text",
    "Duck.Const.C54_later",
    "Duck.Const.C54_safe",
    "Duck.Const.C54_nothing_left",
    "Duck.Const.C54_progress"
   ],
   "note": "Statement by statement with the spin lock, sequentially consistent memory; texts do not change."
  },
  {
   "property": "C55",
   "status": "partial",
   "theorems": [
    "Duck.Property.C55_safe",
    "Duck.Property.C55_balanced",
    "Duck.Property.C55_strong",
    "Duck.Property.C55_weak",
    "Duck.Property.C55_copied",
    "Duck.Property.C55_null",
    "Duck.Property.C55_rejected",
    "Duck.Property.C55_readonly",
    "Duck.Property.C55_path_get",
    "Duck.Property.C55_path_set",
    "Duck.Property.C55_weak_copy_fails"
   ],
   "note": "Object, weak and copied properties of any object graph and history, and key paths of nonempty names; refuted for a property declared both weak and copied. Number, enumeration and structure properties are C82; observers (willRead, didWrite) are C95."
  },
  {
   "property": "C56",
   "status": "partial",
   "theorems": [
    "Duck.Enum.C56_value_partial",
    "Duck.Enum.C56_name",
    "Duck.Enum.C56_int_partial",
    "Duck.Enum.C56_short",
    "Duck.Enum.C56_fails"
   ],
   "note": "All enumerations and lookups, as long as the hash tables are not the 25 rows of C07; refuted for an enumeration of eleven names."
  },
  {
   "property": "C57",
   "status": "partial",
   "theorems": [
    "Duck.GArray.C57_self_append_partial",
    "Duck.GArray.C57_self_append_fails",
    "Duck.BArray.C57_bytes_self_append_fails",
    "Duck.LList.C57_list_self_append_never_returns"
   ],
   "note": "Self-append is a use-after-free when the array must grow (witness); exact when the allocation has room. A non-empty linked list appended to itself never returns (proved)."
  },
  {
   "property": "C58",
   "status": "partial",
   "theorems": [
    "Duck.Rt.C58_fast_lookup_partial",
    "Duck.Rt.C58_root_fails"
   ],
   "note": "Proved for interfaces installed after start-up on lines used by one selector; refuted for interfaces given to the root classes at start-up, which are not in the cache until first looked up."
  },
  {
   "property": "C59",
   "status": "proved",
   "theorems": [
    "Duck.Rt.C59_sealed",
    "Duck.Rt.C59_abstract"
   ],
   "note": ""
  },
  {
   "property": "C60",
   "status": "partial",
   "theorems": [
    "Duck.Data.C60_equal_partial",
    "Duck.Data.C60_shortened_fails",
    "Duck.Data.C60_poked_fails"
   ],
   "note": "All histories, for strings that were not shortened or written to in place after a hash was taken and not changed since; refuted for those."
  },
  {
   "property": "C61",
   "status": "partial",
   "theorems": [
    "Duck.Text.C61_order_partial",
    "Duck.Text.C61_defined",
    "Duck.Text.C61_malformed_fails"
   ],
   "note": "All texts; distinct malformed strings compare as equal (proved)."
  },
  {
   "property": "C62",
   "status": "partial",
   "theorems": [
    "Duck.Path.C62_cases",
    "Duck.Path.C62_get",
    "Duck.Path.C62_has",
    "Duck.Path.C62_append",
    "Duck.Path.C62_append_empty",
    "Duck.Path.C62_delete",
    "Duck.Path.C62_dotfile_fails"
   ],
   "note": "Proved for all paths; deleting the extension of a dot file leaves an unstandardized path (proved)."
  },
  {
   "property": "C63",
   "status": "partial",
   "theorems": [
    "Duck.Json.C63_accepts_partial",
    "Duck.Json.C63_malformed_fails",
    "Duck.Json.C63_valid_fails",
    "Duck.Json.C63_exact",
    "Duck.Json.C63_unambiguous",
    "Duck.Json.C63_refused",
    "Duck.Json.C63_legal_answered"
   ],
   "note": "Every text of the grammar without signed exponents, surrogate pairs and out-of-range numbers; refuted for those and for rejection of malformed texts. Which texts are answered, and with what, is determined exactly (C63_exact, without the vector syntax)."
  },
  {
   "property": "C64",
   "status": "partial",
   "theorems": [
    "Duck.Graph.C64_never_returns"
   ],
   "note": "Refuted: the search never returns."
  },
  {
   "property": "C65",
   "status": "proved",
   "theorems": [
    "Duck.Pred.C65",
    "Duck.Pred.C65_unspecified"
   ],
   "note": "All operators and texts."
  },
  {
   "property": "C66",
   "status": "partial",
   "theorems": [
    "Duck.Pred.C66_texts_partial",
    "Duck.Pred.C66_collections",
    "Duck.Pred.C66_contains_partial",
    "Duck.Pred.C66_contains_fails",
    "Duck.Pred.C66_isa",
    "Duck.Pred.C66_isa_fails"
   ],
   "note": "Non-empty texts and collections; refuted for CONTAINS on a collection of strings and ISA on NULL."
  },
  {
   "property": "C67",
   "status": "partial",
   "theorems": [
    "Duck.Egg.C67_open_partial",
    "Duck.Egg.C67_truncated_fails",
    "Duck.Egg.C67_stream_fails",
    "Duck.Egg.C67_overflow_fails"
   ],
   "note": "Opening from memory is safe for all byte strings; refuted for reading objects and for streams."
  },
  {
   "property": "C68",
   "status": "partial",
   "theorems": [
    "Duck.Pool.C68_partial",
    "Duck.Pool.C68_realtime_fails"
   ],
   "note": "Default scheduling: bounded number of steps, then everything is finished. Refuted for real time scheduling after Stop and Start."
  },
  {
   "property": "C69",
   "status": "partial",
   "theorems": [
    "Duck.Pool.C69_partial",
    "Duck.Pool.C69_idle_partial",
    "Duck.Pool.C69_cancel_fails",
    "Duck.Pool.C69_wakeup_fails"
   ],
   "note": "What holds when Stop returns, and that it returns for an idle pool; refuted in general (lost cancellation, lost wakeup)."
  },
  {
   "property": "C70",
   "status": "partial",
   "theorems": [
    "Duck.Pool.C70_partial",
    "Duck.Pool.C70_remove_fails"
   ],
   "note": "No crash without RemoveAllTasks; with it a worker dereferences NULL."
  },
  {
   "property": "C71",
   "status": "partial",
   "theorems": [
    "Duck.Thr.C71_alive_partial",
    "Duck.Thr.C71_dealloc"
   ],
   "note": "Everything except procedures that call DKThreadExit (C51_exit_fails)."
  },
  {
   "property": "C72",
   "status": "proved",
   "theorems": [
    "Duck.DictOwn.C72_safe",
    "Duck.DictOwn.C72_owned",
    "Duck.DictOwn.C72_alive",
    "Duck.DictOwn.C72_map",
    "Duck.DictOwn.C72_get",
    "Duck.DictOwn.C72_copy",
    "Duck.DictOwn.C72_fails_only",
    "Duck.DictOwn.C72_borrowed_fails"
   ],
   "note": "For every history of legal calls (keys and objects owned by the caller or borrowed from a table). C72_borrowed_fails shows what happens outside the rules: storing an object that only the replaced object holds."
  },
  {
   "property": "C73",
   "status": "partial",
   "theorems": [
    "Duck.Xml.C73_document_partial",
    "Duck.Xml.C73_line_ends",
    "Duck.Xml.C73_mismatched_tags",
    "Duck.Xml.C73_truncated",
    "Duck.Xml.C73_trailing",
    "Duck.Xml.C73_unknown_entity",
    "Duck.Xml.C73_bad_number",
    "Duck.Xml.C73_accepted",
    "Duck.Xml.C73_rejected",
    "Duck.Xml.C73_root_space_refuted",
    "Duck.Xml.C73_reference_refuted",
    "Duck.Xml.C73_cdata_refuted",
    "Duck.Xml.C73_duplicate_refuted",
    "Duck.Xml.C73_instruction_refuted",
    "Duck.Xml.C73_malformed_refuted"
   ],
   "note": "Documents of the grammar in Spec/Xml.lean are answered with their trees; a text is answered with a tree if and only if it is in the grammar of Spec/XmlLoose.lean, and every other text with NULL. Partial because the code is wrong where the two grammars differ. Refuted: white space in the end tag of the root, references to some characters, white space after ] in CDATA, repeated attributes, ?? in processing instructions, ]]> in text, white space before the XML declaration, two document types."
  },
  {
   "property": "C74",
   "status": "proved",
   "theorems": [
    "Duck.Xml.C74_total"
   ],
   "note": "For every byte string, with the stack buffer modelled byte by byte."
  },
  {
   "property": "C75",
   "status": "partial",
   "theorems": [
    "Duck.Text.C75_spec",
    "Duck.Text.C75_text_partial",
    "Duck.Text.C75_bytes_partial",
    "Duck.Text.C75_again_partial",
    "Duck.Text.C75_wide_fails"
   ],
   "note": "All texts of characters below U+0100 and all byte strings of such units; refuted (undefined behaviour of isspace) for every text with another character."
  },
  {
   "property": "C76",
   "status": "proved",
   "theorems": [
    "Duck.Text.C76_filter",
    "Duck.Text.C76_text",
    "Duck.Text.C76_stop",
    "Duck.Text.C76_positions"
   ],
   "note": "All byte strings and all filter functions with any state."
  },
  {
   "property": "C77",
   "status": "partial",
   "theorems": [
    "Duck.Text.C77_words_partial",
    "Duck.Text.C77_width_partial",
    "Duck.Text.C77_newline_partial",
    "Duck.Text.C77_fill_partial",
    "Duck.Text.C77_multibyte_fails",
    "Duck.Text.C77_return_fails",
    "Duck.Text.C77_indent_fails",
    "Duck.Text.C77_formfeed_fails"
   ],
   "note": "All ASCII texts (words and width: without vertical tabs, form feeds and, for words, lone carriage returns); refuted for multibyte characters, lone carriage returns, blanks at the start of a line, and form feeds."
  },
  {
   "property": "C78",
   "status": "partial",
   "theorems": [
    "Duck.Printf.C78_format_partial",
    "Duck.Printf.C78_data_partial",
    "Duck.Printf.C78_pretty",
    "Duck.Printf.C78_char_fails",
    "Duck.Printf.C78_pointer_fails",
    "Duck.Printf.C78_directive_fails",
    "Duck.Printf.C78_number_fails",
    "Duck.Printf.C78_percent_fails",
    "Duck.Printf.C78_width_fails"
   ],
   "note": "Every sequence of texts and directives of at most seven bytes whose numbers are rendered with less than 120 bytes, every stream, every library; the result is the number of bytes when there is no %c. Refuted for %c (not counted, width ignored), %p (takes an int), longer directives and renderings (buffer overflow) and a % at the end."
  },
  {
   "property": "C79",
   "status": "partial",
   "theorems": [
    "Duck.Printf.C79_line_partial",
    "Duck.Printf.C79_rest_partial",
    "Duck.Printf.C79_lines_partial",
    "Duck.Printf.C79_char_partial",
    "Duck.Printf.C79_nul_fails",
    "Duck.Printf.C79_end_fails",
    "Duck.Printf.C79_byte_fails",
    "Duck.Printf.C79_eof_fails"
   ],
   "note": "Lines without NUL; characters below 128. Refuted: NUL bytes are dropped, the end of the stream looks like an empty line, bytes from 0x80 up are negative and 0xFF is EOF."
  },
  {
   "property": "C80",
   "status": "partial",
   "theorems": [
    "Duck.Query.C80_read_partial",
    "Duck.Query.C80_write_partial",
    "Duck.Query.C80_back",
    "Duck.Query.C80_roundtrip_partial",
    "Duck.Query.C80_empty_value_fails",
    "Duck.Query.C80_empty_parameter_fails",
    "Duck.Query.C80_empty_name_fails",
    "Duck.Query.C80_equals_fails",
    "Duck.Query.C80_none_fails",
    "Duck.Query.C80_blank_fails"
   ],
   "note": "All lists of nonempty ASCII names and values without %. Refuted: values with blanks or other characters escaped twice do not come back, empty names, values and parameters, several =, the empty dictionary."
  },
  {
   "property": "C81",
   "status": "partial",
   "theorems": [
    "Duck.Query.C81_read_partial",
    "Duck.Query.C81_colon_fails",
    "Duck.Query.C81_empty_fails"
   ],
   "note": "All lists of declarations of nonempty names and values of characters below U+0100, any white space, text without colons between them. Refuted: values with a colon are dropped, an empty declaration joins the rest."
  },
  {
   "property": "C82",
   "status": "partial",
   "theorems": [
    "Duck.ValueProp.C82_apart",
    "Duck.ValueProp.C82_readonly",
    "Duck.ValueProp.C82_no_conversion",
    "Duck.ValueProp.C82_number",
    "Duck.ValueProp.C82_views",
    "Duck.ValueProp.C82_scalar",
    "Duck.ValueProp.C82_enum_value",
    "Duck.ValueProp.C82_enum_name",
    "Duck.ValueProp.C82_enum_short",
    "Duck.ValueProp.C82_struct",
    "Duck.ValueProp.C82_struct_object",
    "Duck.ValueProp.C82_struct_mismatch",
    "Duck.ValueProp.C82_boxed_partial",
    "Duck.ValueProp.C82_rejected",
    "Duck.ValueProp.C82_boxed_other",
    "Duck.ValueProp.C82_bool",
    "Duck.ValueProp.C82_matrix_fails",
    "Duck.ValueProp.C82_enum_bool_fails",
    "Duck.ValueProp.C82_large_struct_fails",
    "Duck.ValueProp.C82_weak_fails"
   ],
   "note": "All classes, objects, encodings and values. Refuted: matrices of different shapes with larger elements overwrite the next property, truth values of enumerations, boxed values in weak properties, structures of 2^24 bytes and more. Custom getters, setters, observers and classes with a Property interface are C95."
  },
  {
   "property": "C83",
   "status": "proved",
   "theorems": [
    "Duck.ObjLock.C83_safe",
    "Duck.ObjLock.C83_held",
    "Duck.ObjLock.C83_exclusive",
    "Duck.ObjLock.C83_progress",
    "Duck.ObjLock.C83_bounded",
    "Duck.ObjLock.C83_nothing_left",
    "Duck.ObjLock.C83_dealloc"
   ],
   "note": "All interleavings of any number of threads and objects. The metadata table is a map; weak references to the object are C18."
  },
  {
   "property": "C84",
   "status": "partial",
   "theorems": [
    "Duck.RwLock.C84_safe_partial",
    "Duck.RwLock.C84_held",
    "Duck.RwLock.C84_exclusive_partial",
    "Duck.RwLock.C84_posix_progress",
    "Duck.RwLock.C84_posix_try",
    "Duck.RwLock.C84_windows_fails",
    "Duck.RwLock.C84_windows_release_fails"
   ],
   "note": "POSIX: everything. Windows: everything but attempts to lock for writing, which are refuted: a refused attempt returns true."
  },
  {
   "property": "C85",
   "status": "partial",
   "theorems": [
    "Duck.RwLock.C85_end_partial",
    "Duck.RwLock.C85_negative_fails",
    "Duck.RealTime.C85_real_partial",
    "Duck.RealTime.C85_order_partial",
    "Duck.RealTime.C85_real_fails"
   ],
   "note": "All timeouts that are not negative, in the range of time_t; as doubles with the rounding of IEEE 754: truncated to nanoseconds up to 2^-24 ns, longer timeouts end no earlier. Refuted for negative timeouts (a malformed time)."
  },
  {
   "property": "C86",
   "status": "partial",
   "theorems": [
    "Duck.Shell.C86_round_trip_partial",
    "Duck.Shell.C86_layout_partial",
    "Duck.Shell.C86_refused",
    "Duck.Shell.C86_refused_object",
    "Duck.Shell.C86_register",
    "Duck.Shell.C86_annotation_fails",
    "Duck.Shell.C86_shifted_fails",
    "Duck.Shell.C86_empty_fails",
    "Duck.Shell.C86_type_fails"
   ],
   "note": "All lists of segments with annotations of one line, nonempty contents of less than 2^63 bytes and content types of one line without leading blanks. Refuted: segments without annotation, empty contents, other content types."
  },
  {
   "property": "C87",
   "status": "partial",
   "theorems": [
    "Duck.Shell.C87_read_partial",
    "Duck.Shell.C87_length_fails"
   ],
   "note": "All streams whose Content-Length is below 2^63. Refuted for others."
  },
  {
   "property": "C88",
   "status": "partial",
   "theorems": [
    "Duck.Names.C88_database_partial",
    "Duck.Names.C88_short",
    "Duck.Names.C88_name_partial",
    "Duck.Names.C88_unique",
    "Duck.Names.C88_alive_partial",
    "Duck.Names.C88_dying_fails",
    "Duck.Names.C88_unnamed_fails"
   ],
   "note": "All histories, as long as the hash table is not the 25 rows of C07, which it no longer is once the runtime has started (C122_history). Refuted: classes without references are still found while they are deallocated; deallocating a class without a name may crash."
  },
  {
   "property": "C89",
   "status": "partial",
   "theorems": [
    "Duck.Xml.C89_description_partial",
    "Duck.Xml.C89_again_partial",
    "Duck.Xml.C89_document_partial",
    "Duck.Xml.C89_blank_fails",
    "Duck.Xml.C89_markup_fails",
    "Duck.Xml.C89_quote_fails"
   ],
   "note": "All trees without markup in texts and values, up to a blank at the end of texts. Refuted: texts that do not end in a blank, markup in texts, quotes in values."
  },
  {
   "property": "C90",
   "status": "partial",
   "theorems": [
    "Duck.Json.C90_read_partial",
    "Duck.Json.C90_round_trip_partial",
    "Duck.Json.C90_refused",
    "Duck.Json.C90_empty_fails",
    "Duck.Json.C90_narrow_fails",
    "Duck.Json.C90_count_fails",
    "Duck.Json.C90_string_fails"
   ],
   "note": "All vectors of at least one and less than 2^24 numerals of C43, 32 bit integers in range; round trip for integers. Refuted: integers that wrap in 32 bit vectors, 2^24 elements, no elements, malformed numbers, vectors without the extension."
  },
  {
   "property": "C91",
   "status": "partial",
   "theorems": [
    "Duck.Clock.C91_date",
    "Duck.Clock.C91_order",
    "Duck.Clock.C91_local_fails",
    "Duck.Clock.C91_windows_exact",
    "Duck.Clock.C91_windows_fails",
    "Duck.Clock.C91_windows_local_fails",
    "Duck.Clock.C91_fileTime",
    "Duck.RealTime.C91_real_partial",
    "Duck.RealTime.C91_real_order_partial"
   ],
   "note": "POSIX dates: every reading without rounding; with the rounding of IEEE 754 every reading from 2001 until 2^33 seconds later (the date rounds to the exact microsecond, and dates are ordered as readings). Refuted: local dates have the sign of the zone wrong; on Windows dates are wrong from one second after 1970, they run at twice the rate."
  },
  {
   "property": "C92",
   "status": "partial",
   "theorems": [
    "Duck.Uuid.C92_android",
    "Duck.Uuid.C92_all",
    "Duck.Uuid.C92_windows",
    "Duck.Uuid.C92_zero",
    "Duck.Uuid.C92_file_fails"
   ],
   "note": "Every identifier, Android and Windows (Linux and Apple call the host). Refuted when the file of the kernel is missing or short."
  },
  {
   "property": "C93",
   "status": "partial",
   "theorems": [
    "Duck.WString.C93_init_partial",
    "Duck.WString.C93_wide_fails",
    "Duck.WString.C93_only_empty",
    "Duck.WString.C93_unconverted_fails"
   ],
   "note": "From wide strings: every text without NUL, given conversions of Windows that are right. To wide strings it is refuted: the result is always empty."
  },
  {
   "property": "C94",
   "status": "partial",
   "theorems": [
    "Duck.ThreadCtx.C94_contexts_partial",
    "Duck.ThreadCtx.C94_distinct",
    "Duck.ThreadCtx.C94_references",
    "Duck.ThreadCtx.C94_documented_fails",
    "Duck.ThreadCtx.C94_finalizer_fails",
    "Duck.ThreadCtx.C94_pool_fails",
    "Duck.ThreadCtx.C94_open_pool"
   ],
   "note": "Every history of any number of threads on POSIX, with objects in the dictionary whose release does not need the context. Refuted: objects whose release needs it crash at the end of the thread; contexts freed as documented are freed twice; objects autoreleased outside pools are never released."
  },
  {
   "property": "C95",
   "status": "partial",
   "theorems": [
    "Duck.Observe.C95_write",
    "Duck.Observe.C95_read",
    "Duck.Observe.C95_refused",
    "Duck.Observe.C95_interface_set",
    "Duck.Observe.C95_interface_get",
    "Duck.Observe.C95_setter",
    "Duck.Observe.C95_getter_partial",
    "Duck.Observe.C95_struct_getter_fails",
    "Duck.Observe.C95_struct_getter_header_fails",
    "Duck.Observe.C95_notified_fails"
   ],
   "note": "All classes, properties, values and functions. Refuted: structures with a custom getter whose answer is not the structure asked for (the bytes of the object are read instead); observers are told of writes that fail in the conversion."
  },
  {
   "property": "C96",
   "status": "proved",
   "theorems": [
    "Duck.Pool.C96_once",
    "Duck.Pool.C96_alive",
    "Duck.Pool.C96_when",
    "Duck.Pool.C96_all",
    "Duck.Pool.C96_finalizer"
   ],
   "note": "All interleavings, as long as no worker has failed (C70)."
  },
  {
   "property": "C97",
   "status": "partial",
   "theorems": [
    "Duck.TreeOwn.C97_safe",
    "Duck.TreeOwn.C97_owned",
    "Duck.TreeOwn.C97_released",
    "Duck.TreeOwn.C97_nodes_fails"
   ],
   "note": "Every history. Refuted: the nodes of removed entries are never given back, an empty tree can have any number of them. What finalizers of objects do is not modelled."
  },
  {
   "property": "C98",
   "status": "partial",
   "theorems": [
    "Duck.Egg.C98_values_partial",
    "Duck.Egg.C98_variable_fails",
    "Duck.Egg.C98_rest_fails",
    "Duck.Egg.C98_empty_fails",
    "Duck.Egg.C98_long_fails",
    "Duck.Egg.C98_root_fails"
   ],
   "note": "Every structure that does not refer to its root, with fewer than 2^24 elements in each part; lists of several objects without NULLs. Refuted: variable numbers are not known to a program that has not used one, typed data loses incomplete or 2^24 elements or the type when empty, an array that contains itself. The bytes of structures are not converted. The comparison function of a tree is not archived (not modelled)."
  },
  {
   "property": "C99",
   "status": "partial",
   "theorems": [
    "Duck.Convert.C99_text",
    "Duck.Convert.C99_int64",
    "Duck.Convert.C99_int32_partial",
    "Duck.Convert.C99_int32_fails",
    "Duck.Convert.C99_back_partial",
    "Duck.Convert.C99_back32_partial",
    "Duck.Convert.C99_large_fails",
    "Duck.Convert.C99_bool",
    "Duck.Convert.C99_bool_back_partial",
    "Duck.Convert.C99_bool_fails",
    "Duck.Convert.C99_boolean",
    "Duck.Convert.C99_description_fails"
   ],
   "note": "Texts of all numbers and integers of all strings are covered, to 64 bits completely.  False of strings out of the range of 32 bits, which are truncated, of unsigned numbers from 2^63 up, and of the truth of negative numbers, whose texts are false; the description of a boolean is not its text.  The text of floating point elements is a parameter; reading floating point numbers from strings is not modelled."
  },
  {
   "property": "C100",
   "status": "partial",
   "theorems": [
    "Duck.File.C100_file",
    "Duck.File.C100_contents_partial",
    "Duck.File.C100_save",
    "Duck.File.C100_contents_fails",
    "Duck.File.C100_handle_partial",
    "Duck.File.C100_handle_fails",
    "Duck.File.C100_length_partial",
    "Duck.File.C100_stream_partial",
    "Duck.File.C100_stream_fails",
    "Duck.File.C100_string_length_fails",
    "Duck.File.C100_closed",
    "Duck.File.C100_dispose",
    "Duck.File.C100_close_fails"
   ],
   "note": "Every history of operations on a file opened by name, whatever is buffered.  False of loading: no file gives empty data without an error, a directory and an open file not at its start give uninitialised bytes, and buffered output is not loaded; of lengths after writes; of seeks beyond the content, which data clamps, and from the end, where data ignores the offset; the length of a string as a stream is in characters; closing closes streams that are not its own."
  },
  {
   "property": "C101",
   "status": "partial",
   "theorems": [
    "Duck.Decimal.C101_text",
    "Duck.Decimal.C101_defined_partial",
    "Duck.Decimal.C101_large_fails",
    "Duck.Decimal.C101_back_partial",
    "Duck.Decimal.C101_exact_partial",
    "Duck.Decimal.C101_small_fails",
    "Duck.Decimal.C101_json_partial",
    "Duck.Decimal.C101_json_integer_partial",
    "Duck.Decimal.C101_json_fails"
   ],
   "note": "The text of every finite number below 10^110.  Fractions of up to six decimals keep their text through strings below 2^33 (16 for float) and through JSON below 2^33 - 1; multiples of 1/64 keep their value through strings, and integers below 2^63 through JSON.  False of numbers that need more than six decimals, of fractions in JSON (0.15 becomes another number), and of numbers of more than 112 digits, which overflow a buffer; infinities are written to JSON as inf.  Exponents are modelled in strtod and dk_strtonum, and the theorems are about texts without."
  },
  {
   "property": "C102",
   "status": "partial",
   "theorems": [
    "Duck.Copying.C102_copy",
    "Duck.Copying.C102_mutable",
    "Duck.Copying.C102_independent",
    "Duck.Copying.C102_mutable_independent",
    "Duck.Copying.C102_change",
    "Duck.Copying.C102_set_bytes",
    "Duck.Copying.C102_alive",
    "Duck.Copying.C102_copy_mutable_fails",
    "Duck.Copying.C102_other_fails",
    "Duck.Copying.C102_key_fails",
    "Duck.Copying.C102_set_fails",
    "Duck.Copying.C102_nested_returns",
    "Duck.Copying.C102_circle_fails"
   ],
   "note": "Contents and independence for strings, data, arrays and lists in every program.  False: DKCopy of mutable data, arrays and lists is mutable; a mutable array or list used as a key is not found again, and the copy of a set can lose it; DKCopy of a set that contains itself never returns.  Copies of dictionaries with other keys are C23 and C72."
  },
  {
   "property": "C103",
   "status": "partial",
   "theorems": [
    "Duck.ListOwn.C103_safe",
    "Duck.ListOwn.C103_counts",
    "Duck.ListOwn.C103_replace",
    "Duck.ListOwn.C103_drop",
    "Duck.ListOwn.C103_nodes",
    "Duck.ListOwn.C103_replace_fails"
   ],
   "note": "Safety and exact reference counts in every legal history.  False of the code: replacing an entry by the object it holds, when nobody else owns it, touches the object after it was freed (C103_replace_fails, for every such state); so the legal histories pass to a replacement only objects owned by somebody else.  Finalizers of the objects are not modelled."
  },
  {
   "property": "C104",
   "status": "partial",
   "theorems": [
    "Duck.Dispatch.C104_safe_partial",
    "Duck.Dispatch.C104_found_partial",
    "Duck.Dispatch.C104_not_missed",
    "Duck.Dispatch.C104_progress",
    "Duck.Dispatch.C104_grow_fails",
    "Duck.Dispatch.C104_replace_fails",
    "Duck.Dispatch.C104_stale_fails",
    "Duck.Dispatch.C104_use_fails"
   ],
   "note": "Executions in which an interface is installed while no other thread uses the table, or is the first for its selector and the table does not grow.  False otherwise: a lookup reads a row after the table moved, puts a replaced interface back into the cache for good (freed, or stale if somebody else owns it), and an interface in use is freed when it is replaced; the comment in the code says that an extra lookup is the worst that can happen."
  },
  {
   "property": "C105",
   "status": "partial",
   "theorems": [
    "Duck.External.C105_program_partial",
    "Duck.External.C105_no_leak",
    "Duck.External.C105_mutable_fails",
    "Duck.External.C105_copy_fails"
   ],
   "note": "Every program that keeps the rules: memory of the caller is kept until no object shows it, and only immutable objects show it.  False otherwise: DKCopy of such an object does not copy, so a copy is read from freed memory when the caller gives up the original and the memory; mutable data made without copying (only refused in debug builds) frees the memory of the caller at the first change.  Arrays of objects without copying are not modelled."
  },
  {
   "property": "C106",
   "status": "partial",
   "theorems": [
    "Duck.Intern.C106_program_partial",
    "Duck.Intern.C106_immutable",
    "Duck.Intern.C106_literal_partial",
    "Duck.Intern.C106_empty_fails",
    "Duck.Intern.C106_length_fails"
   ],
   "note": "Bytes of immutable strings: any program.  Comparisons, hashes and sharing: programs that call DKStringSetByteLength only for strings not hashed or compared since their last edit, and use the class of constant strings only with whole C strings.  False otherwise: copying a string that was hashed and then shortened to nothing gives the shared empty string the old hash code, for good; strings made for the class of constant strings ignore the given length.  DKStringInitWithString for the class of constant strings is not modelled."
  },
  {
   "property": "C107",
   "status": "partial",
   "theorems": [
    "Duck.Describe.C107_description_partial",
    "Duck.Describe.C107_unique_partial",
    "Duck.Describe.C107_returns",
    "Duck.Describe.C107_cycle_fails",
    "Duck.Describe.C107_count_fails",
    "Duck.Describe.C107_count_undefined",
    "Duck.Describe.C107_ambiguous_fails"
   ],
   "note": "All graphs whose collections have less than 2^31 members: the exact text, and for which objects the call returns.  False: a collection that contains itself has no description (endless recursion); 2^31 members are shown as a negative number, and in ISO C passing the count is undefined; strings are not escaped, so different lists can look the same."
  },
  {
   "property": "C108",
   "status": "partial",
   "theorems": [
    "Duck.Messages.C108_messages_partial",
    "Duck.Messages.C108_nul_fails",
    "Duck.Messages.C108_null_fails"
   ],
   "note": "Every program whose messages follow the rules of C78 and contain no zero bytes, and whose prefixes and suffixes are not NULL.  False: a message is cut at a zero byte; a NULL prefix is undefined."
  },
  {
   "property": "C109",
   "status": "partial",
   "theorems": [
    "Duck.Make.C109_arguments",
    "Duck.Make.C109_array",
    "Duck.Make.C109_array_of",
    "Duck.Make.C109_set_partial",
    "Duck.Make.C109_dictionary_partial",
    "Duck.Make.C109_tree_set",
    "Duck.Make.C109_tree_set_arguments",
    "Duck.Make.C109_tree_dictionary",
    "Duck.Make.C109_list_set_partial",
    "Duck.Make.C109_arguments_fails",
    "Duck.Make.C109_null_fails",
    "Duck.Make.C109_list_set_fails"
   ],
   "note": "Arrays and trees: always.  Hash tables: whenever the call returns (C07).  False: arguments of a dictionary that end with a NULL in the place of an object are read past their end; a set made of a C array with a NULL has a member that it says it does not contain; lists without equal objects have the order of the hash table."
  },
  {
   "property": "C110",
   "status": "proved",
   "theorems": [
    "Duck.ClassLife.C110_safe",
    "Duck.ClassLife.C110_lifetime",
    "Duck.ClassLife.C110_class_once",
    "Duck.ClassLife.C110_objects",
    "Duck.ClassLife.C110_finalizers",
    "Duck.ClassLife.C110_progress",
    "Duck.ClassLife.C110_no_leak",
    "Duck.ClassLife.C110_zombies_keep_classes"
   ],
   "note": "Zombies (a debugging option) keep their class for ever, as intended.  Instances of a class with DKDisableReferenceCounting live for ever."
  },
  {
   "property": "C111",
   "status": "proved",
   "theorems": [
    "Duck.ParseOwn.C111_json",
    "Duck.ParseOwn.C111_xml",
    "Duck.ParseOwn.C111_null"
   ],
   "note": "JSON texts whose parse is undefined (C90: surrogate pairs) are excluded; dictionaries are lists of rows, so insertions that never return (C07) are left out."
  },
  {
   "property": "C112",
   "status": "partial",
   "theorems": [
    "Duck.Foreach.C112_array",
    "Duck.Foreach.C112_table",
    "Duck.Foreach.C112_list",
    "Duck.Foreach.C112_tree_partial",
    "Duck.Foreach.C112_array_appends_partial",
    "Duck.Foreach.C112_list_adds_partial",
    "Duck.Foreach.C112_list_own_entry_partial",
    "Duck.Foreach.C112_table_partial",
    "Duck.Foreach.C112_array_fails",
    "Duck.Foreach.C112_list_fails",
    "Duck.Foreach.C112_list_reuse_fails",
    "Duck.Foreach.C112_table_fails",
    "Duck.Foreach.C112_tree_fails"
   ],
   "note": "Callbacks that leave the collection alone: proved. Callbacks that change it: proved for appending to an array, adding anywhere in a list, removing the current entry of a list, removing or replacing in a table, replacing in a tree. For other changes the property is false; witnesses are proved for each kind of collection."
  },
  {
   "property": "C113",
   "status": "partial",
   "theorems": [
    "Duck.EggOwn.C113_index",
    "Duck.EggOwn.C113_archivable",
    "Duck.EggOwn.C113_archive_safe",
    "Duck.EggOwn.C113_archive_alive",
    "Duck.EggOwn.C113_archive_owners",
    "Duck.EggOwn.C113_archive_end",
    "Duck.EggOwn.C113_stream_safe",
    "Duck.EggOwn.C113_same_object",
    "Duck.EggOwn.C113_running",
    "Duck.EggOwn.C113_unarchive_owners",
    "Duck.EggOwn.C113_unarchive_end",
    "Duck.EggOwn.C113_data_partial",
    "Duck.EggOwn.C113_data_fails",
    "Duck.EggOwn.C113_replaced_fails"
   ],
   "note": "Proved for archivers and for unarchivers that read from a stream. An unarchiver that reads from a data object does not retain it (C113_data_fails), so it is safe only as long as the program keeps the data object. A request made while the object is being initialized may give one that is replaced and freed (C113_replaced_fails)."
  },
  {
   "property": "C114",
   "status": "proved",
   "theorems": [
    "Duck.StrShare.C114_answers",
    "Duck.StrShare.C114_texts",
    "Duck.StrShare.C114_returns"
   ],
   "note": "For loads and stores of the cached hash that are atomic; in C11 the code has a data race there."
  },
  {
   "property": "C115",
   "status": "partial",
   "theorems": [
    "Duck.Range.C115_check_partial",
    "Duck.Range.C115_machine_partial",
    "Duck.Range.C115_refused_partial",
    "Duck.Range.C115_accepted",
    "Duck.Range.C115_check_fails",
    "Duck.Range.C115_calls_fail",
    "Duck.Range.C115_reads_outside"
   ],
   "note": "Proved for ranges whose end is a 64-bit number. False of the others: location + length overflows, which is undefined; as the machine computes it the sum is negative and the range is accepted, and memory behind the sequence is accessed."
  },
  {
   "property": "C116",
   "status": "partial",
   "theorems": [
    "Duck.Compare.C116_meaning_partial",
    "Duck.Compare.C116_order_partial",
    "Duck.Compare.C116_sort_partial",
    "Duck.Compare.C116_equal_partial",
    "Duck.Compare.C116_self",
    "Duck.Compare.C116_mixed_fails",
    "Duck.Compare.C116_number_fails",
    "Duck.Compare.C116_classes_fails",
    "Duck.Compare.C116_struct_fails",
    "Duck.Compare.C116_direction"
   ],
   "note": "Proved for objects of one kind. False of objects of different classes (the order by address makes cycles with the order by text), of numbers compared with other objects (undefined), of arrays compared with linked lists (undefined), and of structures without a semantic (compare as zero, but are not equal)."
  },
  {
   "property": "C117",
   "status": "partial",
   "theorems": [
    "Duck.Compare.C117_equal_partial",
    "Duck.Compare.C117_hash_partial",
    "Duck.Compare.C117_key_class_partial",
    "Duck.Compare.C117_dictionary_partial",
    "Duck.Compare.C117_dictionary_long_partial",
    "Duck.Compare.C117_list_fails",
    "Duck.Compare.C117_types_fail",
    "Duck.Compare.C117_zero_fails"
   ],
   "note": "Proved for mixtures of strings without NUL, data, numbers of one type and count (no NaN, no floating-point zero), structures with a semantic, pairs, and objects compared by identity. False of arrays and lists (equal, but hashed by address), of numbers of different types (not symmetric) and of zeros."
  },
  {
   "property": "C118",
   "status": "proved",
   "theorems": [
    "Duck.Nested.C118_ends",
    "Duck.Nested.C118_stuck",
    "Duck.Nested.C118_once",
    "Duck.Nested.C118_alone",
    "Duck.Nested.C118_library",
    "Duck.Nested.C118_self"
   ],
   "note": "For every acyclic table of calls, and so for the table of the 50 accessors of the library, which was collected from the source by reading its call graph. Sequentially consistent memory; a thread that spins is not counted as making a step. Creating takes no other lock while an accessor is called."
  },
  {
   "property": "C119",
   "status": "partial",
   "theorems": [
    "Duck.Visible.C119_visible_partial",
    "Duck.Visible.C119_one",
    "Duck.Visible.C119_released",
    "Duck.Visible.C119_order_fails"
   ],
   "note": "Proved for machines that keep the order of writes (x86); on every machine one object is created and returned, and it is complete for everyone once its creator has released the lock. False of machines that do not keep the order (ARM, POWER): the test without a lock can find the pointer before any field of the object."
  },
  {
   "property": "C120",
   "status": "proved",
   "theorems": [
    "Duck.LastWrites.C120_seen",
    "Duck.LastWrites.C120_quiet",
    "Duck.LastWrites.C120_once",
    "Duck.LastWrites.C120_try",
    "Duck.LastWrites.C120_plain_fails"
   ],
   "note": "Holds because the atomic operations on the count are full barriers. C120_plain_fails shows that the rule about hand-overs is needed."
  },
  {
   "property": "C121",
   "status": "proved",
   "theorems": [
    "Duck.BTree.C121_tree",
    "Duck.BTree.C121_tree_finds",
    "Duck.LList.C121_list",
    "Duck.LList.C121_list_finds"
   ],
   "note": "Trees for any comparison function at all; lists for ranges whose end is a 64-bit number and sorts by an order, as in C11. Shuffling a list crashes in every build (C11)."
  },
  {
   "property": "C122",
   "status": "partial",
   "theorems": [
    "Duck.Startup.C122_starts",
    "Duck.Startup.C122_repeat",
    "Duck.Startup.C122_classes_partial",
    "Duck.Startup.C122_class_names_partial",
    "Duck.Startup.C122_class_fails",
    "Duck.Startup.C122_selectors_partial",
    "Duck.Startup.C122_selector_names_partial",
    "Duck.Startup.C122_selector_fails",
    "Duck.Startup.C122_history",
    "Duck.Startup.C122_threads_partial",
    "Duck.Startup.C122_threads_fails",
    "Duck.Startup.C122_race_fails",
    "Duck.Startup.C122_isa_partial",
    "Duck.Startup.C122_isa_fails"
   ],
   "note": "The selector Locking gets no name; the class of mutable hash tables is called DKMutablehashTable; DKBitList, DKVariableNumber, DKXMLElement and DKProperty are not created at the start; the flag is set before the work is done and without a lock, so only calls after the first has returned are safe; root classes are not of the class DKClass, so ISA DKObject is never true."
  },
  {
   "property": "C123",
   "status": "proved",
   "theorems": [
    "Duck.Memory.C123_safe",
    "Duck.Memory.C123_exact",
    "Duck.Memory.C123_returned",
    "Duck.Memory.C123_functions",
    "Duck.Memory.C123_zombies",
    "Duck.Memory.C123_refused",
    "Duck.Memory.C123_external_fails",
    "Duck.Memory.C123_half_fails",
    "Duck.Memory.C123_late_fails"
   ],
   "note": "Of programs that keep the rules of Spec/Memory.lean. The last three theorems show that the rules are needed: memory of the program shown by an array is freed when the array is changed, and allocators get mixed when only one function is given or the functions are given after memory was allocated."
  },
  {
   "property": "C124",
   "status": "partial",
   "theorems": [
    "Duck.Inter.C124_lists",
    "Duck.Inter.C124_array_shuffle",
    "Duck.Inter.C124_shuffle_fails",
    "Duck.Inter.C124_sets_partial",
    "Duck.Inter.C124_small_sets",
    "Duck.Inter.C124_dictionaries_partial",
    "Duck.Inter.C124_built",
    "Duck.Inter.C124_default_fails",
    "Duck.Inter.C124_built_differs_fails",
    "Duck.Inter.C124_inconsistent_fails",
    "Duck.Inter.C124_lists_as_members_fails"
   ],
   "note": "Lists: proved for arrays and linked lists on all programs (shuffle excepted, which crashes on linked lists). Sets and dictionaries: proved, except where a hash table itself fails (C06, C07). Refuted: default class a list class, members with inconsistent comparison."
  },
  {
   "property": "C125",
   "status": "partial",
   "theorems": [
    "Duck.Readers.C125_iterate",
    "Duck.Readers.C125_iterate_ends",
    "Duck.Readers.C125_in_turn_partial",
    "Duck.Readers.C125_wrong_fails",
    "Duck.Readers.C125_crash_fails",
    "Duck.Readers.C125_tree",
    "Duck.Readers.C125_table"
   ],
   "note": "Proved for iteration over lists, for lookups in trees and in hash tables, and for calls by index that do not overlap. Refuted for reads of linked lists by index that overlap: wrong objects, an object that cannot be read any more, NULL followed."
  },
  {
   "property": "C126",
   "status": "partial",
   "theorems": [
    "Duck.Cost.C126_arrays",
    "Duck.Cost.C126_bytes",
    "Duck.Cost.C126_tables",
    "Duck.Cost.C126_reserved",
    "Duck.Cost.C126_reserved_bytes_partial",
    "Duck.Cost.C126_reserved_fails",
    "Duck.Cost.C126_overwrite_fails",
    "Duck.Cost.C126_set_length_fails",
    "Duck.Cost.C126_list"
   ],
   "note": "Proved for all edits of arrays, data and strings, for hash tables, for reserved arrays and for reads of lists. Refuted: bytes filled exactly to the reserved capacity, and bytes overwritten at full capacity, are moved; DKByteArraySetLength grows by the exact amount and costs quadratically when called in steps."
  },
  {
   "property": "C127",
   "status": "partial",
   "theorems": [
    "Duck.Frozen.C127_contents_partial",
    "Duck.Frozen.C127_changes",
    "Duck.Frozen.C127_changes_through",
    "Duck.Frozen.C127_refused",
    "Duck.Frozen.C127_refused_through_partial",
    "Duck.Frozen.C127_result_fails",
    "Duck.Frozen.C127_number_fails",
    "Duck.Frozen.C127_encoding_fails",
    "Duck.Frozen.C127_make_immutable",
    "Duck.Frozen.C127_replace_returns_partial",
    "Duck.Frozen.C127_replace_hangs_fails",
    "Duck.Frozen.C127_replace_crash_fails"
   ],
   "note": "Proved for all programs: contents and class of immutable objects stay, the number setters in release builds excepted. Refuted: those setters change immutable numbers and the shared DKTrue and DKFalse; DKDataSetEncodingType changes immutable data; refused writes and pointers through interfaces return garbage; DKStringReplaceOccurrencesOfString on an immutable string does not return for an empty replacement and crashes for a long one."
  },
  {
   "property": "C128",
   "status": "partial",
   "theorems": [
    "Duck.Mutex.C128_exclusion",
    "Duck.Mutex.C128_lock",
    "Duck.Mutex.C128_signal",
    "Duck.Mutex.C128_wait_returns",
    "Duck.Mutex.C128_wait_frees_partial",
    "Duck.Mutex.C128_wait_frees_fails",
    "Duck.Mutex.C128_platforms_fails",
    "Duck.Mutex.C128_no_lost_wakeup",
    "Duck.Mutex.C128_waiters_return"
   ],
   "note": "Partial because the code differs: a mutex locked twice is not given up by a wait, and a plain mutex can be locked again by its owner on Windows but not on POSIX. The mutexes and condition variables of the host are trusted to be what POSIX and Windows document."
  }
 ]
}