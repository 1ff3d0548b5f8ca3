{
 "claims": [
  {
   "property": "C01",
   "status": "proved",
   "theorems": [
    "Verif.Sort.C01_sort_ascending",
    "Verif.Sort.C01_C05_order_on_elements"
   ],
   "note": "pdqsort with insertion sort, heap sort, partial insertion sort, both partitions; second theorem needs the order on the elements only"
  },
  {
   "property": "C02",
   "status": "proved",
   "theorems": [
    "Verif.Sort.C02_sort_rearranges",
    "Verif.Sort.C02_stable_rearranges"
   ],
   "note": "any comparator, also stateful; any pair of functions for < and >="
  },
  {
   "property": "C03",
   "status": "proved",
   "theorems": [
    "Verif.Sort.C03_returns_normally"
   ],
   "note": "index failures and exhausted fuel are errors in the model; shown unreachable"
  },
  {
   "property": "C04",
   "status": "proved",
   "theorems": [
    "Verif.Sort.C04_stable_sorts",
    "Verif.Sort.C01_C05_order_on_elements"
   ],
   "note": ""
  },
  {
   "property": "C05",
   "status": "proved",
   "theorems": [
    "Verif.Sort.C05_stable_is_stable",
    "Verif.Sort.C01_C05_order_on_elements"
   ],
   "note": ""
  },
  {
   "property": "C06",
   "status": "proved",
   "theorems": [
    "Verif.Sort.C06_ordered_variants",
    "Verif.Sort.C06_sort_eq_stable",
    "Verif.Sort.Ordered.C06_as_written",
    "Verif.Sort.Ordered.C06_written_variants"
   ],
   "note": "sort_ordered.go is also transcribed on its own, with unbounded loops, 64-bit halving and division towards zero (OrderedModel); C06_as_written shows that it ends and does what the common model says, for any operators."
  },
  {
   "property": "C07",
   "status": "partial",
   "theorems": [
    "Verif.Sort.C07_lessFloat_partial",
    "Verif.Sort.C07_sortOrdered_partial",
    "Verif.Sort.C07_sortOrdered_false",
    "Verif.Xfn.sort_lessFloat",
    "Verif.Xfn.sortOrdered_float64_false",
    "Verif.Sort.NaN.C07_short",
    "Verif.Sort.NaN.C07_short_iff"
   ],
   "note": "second sentence proved; first sentence is false of the code ([2,NaN,1] stays as it is), proved for slices without NaN. For slices of at most 12 elements (StableOrdered: 20) C07_short says exactly what is left (each stretch between NaN is sorted by itself) and C07_short_iff exactly when the first sentence holds; not decided for longer slices."
  },
  {
   "property": "C08",
   "status": "proved",
   "theorems": [
    "Verif.Algo.C08_lowerBound",
    "Verif.Algo.C08_invalid",
    "Verif.Algo.C08_C09_sorted"
   ],
   "note": "Over every view of iterators (slices forwards and backwards)."
  },
  {
   "property": "C09",
   "status": "proved",
   "theorems": [
    "Verif.Algo.C09_upperBound",
    "Verif.Algo.C08_invalid",
    "Verif.Algo.C08_C09_sorted"
   ],
   "note": "Over every view of iterators."
  },
  {
   "property": "C10",
   "status": "proved",
   "theorems": [
    "Verif.Algo.C10_isSortedUntil",
    "Verif.Algo.C10_isSorted_ascending"
   ],
   "note": ""
  },
  {
   "property": "C11",
   "status": "proved",
   "theorems": [
    "Verif.Algo.C11_nextPermutation"
   ],
   "note": ""
  },
  {
   "property": "C12",
   "status": "proved",
   "theorems": [
    "Verif.Algo.C12_enumerates"
   ],
   "note": ""
  },
  {
   "property": "C13",
   "status": "proved",
   "theorems": [
    "Verif.Algo.C13_reverse",
    "Verif.Algo.C13_swap",
    "Verif.Algo.C13_reverse_slice"
   ],
   "note": ""
  },
  {
   "property": "C14",
   "status": "proved",
   "theorems": [
    "Verif.Algo.C14_fillN",
    "Verif.Algo.C14_fillN_append"
   ],
   "note": ""
  },
  {
   "property": "C15",
   "status": "partial",
   "theorems": [
    "Verif.Algo.C15_reverseRange_partial",
    "Verif.Algo.C15_write",
    "Verif.Algo.C15_reverseRandomRange_wrong",
    "Verif.Algo.C15_full_false"
   ],
   "note": "iter.ReverseRandomRange does not exchange the ends of the range: walking its result on a non-empty range never returns the elements. Proved for xslice.ReverseRange/ReverseSubRange."
  },
  {
   "property": "C16",
   "status": "proved",
   "theorems": [
    "Verif.Slice.C16_insertAt",
    "Verif.Slice.C16_delete",
    "Verif.Slice.C16_unorderedDelete",
    "Verif.Slice.C16_deleteLast"
   ],
   "note": "Every valid slice, every Int index, every spare capacity chosen by append; spec is List.insertIdx/eraseIdx/dropLast. Panics exactly out of range, memory unchanged then."
  },
  {
   "property": "C17",
   "status": "proved",
   "theorems": [
    "Verif.Slice.C17_writes_in_window",
    "Verif.Slice.C17_other_slices"
   ],
   "note": "Memory is a heap of arrays; every operation changes at most cells of the slice window; nothing existing is written when capacity is exceeded or on panic."
  },
  {
   "property": "C18",
   "status": "proved",
   "theorems": [
    "Verif.Slice.C18_add",
    "Verif.Slice.C18_next_prev",
    "Verif.Slice.C18_stays_inside",
    "Verif.Slice.C18_add_add",
    "Verif.Slice.C18_next_prev_inverse",
    "Verif.Slice.C18_get_set"
   ],
   "note": "All 64-bit offsets; the sum is computed with wrap-around."
  },
  {
   "property": "C19",
   "status": "proved",
   "theorems": [
    "Verif.Slice.C19_insert",
    "Verif.Slice.C19_fill",
    "Verif.Slice.C19_foreign"
   ],
   "note": "Across reallocations; foreign means another data pointer, as the code compares. Sizes are bounded by 2^63."
  },
  {
   "property": "C20",
   "status": "proved",
   "theorems": [
    "Verif.Slice.C20_copy",
    "Verif.Slice.C20_reversed",
    "Verif.Slice.C20_later_writes",
    "Verif.Slice.C20_later_ops"
   ],
   "note": "Independence: no write within the capacity of one slice changes the contents of the other."
  },
  {
   "property": "C21",
   "status": "partial",
   "theorems": [
    "Verif.Slice.C21_newLenCap_partial",
    "Verif.Slice.C21_newLenCap_wrong",
    "Verif.Slice.C21_newLenCap_false",
    "Verif.Slice.C21_newLen"
   ],
   "note": "The ring constructor is right; xslice.NewLenCap(len, cap) returns length cap, so the full claim is false for len < cap (C21_newLenCap_false); proved for len = cap."
  },
  {
   "property": "C22",
   "status": "proved",
   "theorems": [
    "Verif.Ring.C22_ring_is_deque"
   ],
   "note": "Every operation sequence from every constructor gives the same results and panics as a plain list."
  },
  {
   "property": "C23",
   "status": "proved",
   "theorems": [
    "Verif.Ring.C23_fifo"
   ],
   "note": ""
  },
  {
   "property": "C24",
   "status": "proved",
   "theorems": [
    "Verif.Ring.C24_capacity_bounds",
    "Verif.Ring.C24_growth_rule"
   ],
   "note": ""
  },
  {
   "property": "C25",
   "status": "proved",
   "theorems": [
    "Verif.Ring.C25_dead_slots_zero"
   ],
   "note": ""
  },
  {
   "property": "C26",
   "status": "partial",
   "theorems": [
    "Verif.Ring.C26_toSlice_disjoint_partial",
    "Verif.Ring.C26_toSlice_history_partial",
    "Verif.Ring.C26_aliased_unrotated",
    "Verif.Ring.C26_fails_when_aliased",
    "Verif.Ring.C26_full_false",
    "Verif.Ring.C26_exact",
    "Verif.Ring.C26_keeps_iff",
    "Verif.Ring.C26_returns_iff"
   ],
   "note": "The full claim is false: a wrapped ring copied into the array it was built from is corrupted (witness proved). Proved for nil and for every buffer not overlapping the ring storage (in memory, and for the ring as a value after any history), and for an overlapping buffer when the ring is unrotated. C26_exact says for every window, overlapping or not, whether it holds whatever the cells contain."
  },
  {
   "property": "C27",
   "status": "partial",
   "theorems": [
    "Verif.ArrayMap.C27_arrayMap_partial",
    "Verif.ArrayMap.C27_delete_damages",
    "Verif.ArrayMap.C27_full_false",
    "Verif.ArrayMap.C27_wrong_value",
    "Verif.ArrayMap.C27_comes_back",
    "Verif.ArrayMap.C27_exact"
   ],
   "note": "Delete of a key not in the last slot records the wrong position of the moved entry: later lookups panic or return another key's value, and a deleted key can come back. Proved for histories whose deletions undo the latest Set. C27_exact: lookups are right after every part of a history if and only if every deletion in it undoes the latest Set still standing."
  },
  {
   "property": "C28",
   "status": "partial",
   "theorems": [
    "Verif.ArrayMap.C28_len_at_partial",
    "Verif.ArrayMap.C28_full_false",
    "Verif.ArrayMap.C28_delete_false",
    "Verif.ArrayMap.C28_exact"
   ],
   "note": "Set of a present key adds a second slot, so Len counts it twice. Proved for histories that set only absent keys and delete in reverse order. C28_exact: Len and At are right after every part of a history if and only if each Set is of an absent key and no Delete is of a key that an earlier Delete has moved."
  },
  {
   "property": "C29",
   "status": "partial",
   "theorems": [
    "Verif.CustomMap.C29_C30_partial",
    "Verif.CustomMap.C29_C30_injective_partial",
    "Verif.CustomMap.C29_hits_partial",
    "Verif.CustomMap.C29_full_false",
    "Verif.CustomMap.C29_clash_loses",
    "Verif.CustomMap.C29_exact"
   ],
   "note": "The overflow table is created in a copy of the receiver and lost, so colliding keys are dropped. Proved for histories without collisions; on all histories whatever is found is right. C29_exact: lookups are right after every part of a history if and only if no Set in it is of a key whose hash another live key has."
  },
  {
   "property": "C30",
   "status": "partial",
   "theorems": [
    "Verif.CustomMap.C29_C30_partial",
    "Verif.CustomMap.C29_C30_injective_partial",
    "Verif.CustomMap.C29_hits_partial",
    "Verif.CustomMap.C30_full_false",
    "Verif.CustomMap.C30_zero_false",
    "Verif.CustomMap.C29_clash_loses",
    "Verif.CustomMap.C30_exact"
   ],
   "note": "As C29; on a collision Get returns another key's value with ok=false and Set reports added although nothing was stored. C30_exact: everything is right after every part of a history if and only if no Set is of a key whose hash another live key has, and live keys sharing their hash with any other key have the zero value."
  },
  {
   "property": "C31",
   "status": "proved",
   "theorems": [
    "Verif.GoMap.C31_set"
   ],
   "note": ""
  },
  {
   "property": "C32",
   "status": "partial",
   "theorems": [
    "Verif.GoMap.C32_enumerate",
    "Verif.GoMap.C32_entries_lookup",
    "Verif.GoMap.C32_clear_partial",
    "Verif.GoMap.C32_full_false"
   ],
   "note": "Enumeration is proved for all key types. Clear leaves exactly the entries whose key is not == itself (NaN); it empties maps over key types with reflexive ==."
  },
  {
   "property": "C33",
   "status": "proved",
   "theorems": [
    "Verif.Sharded.Props.C33_sharded_sequential"
   ],
   "note": ""
  },
  {
   "property": "C34",
   "status": "proved",
   "theorems": [
    "Verif.Sharded.Props.C34_sharded_linearizable"
   ],
   "note": "Operations that read all shards may run concurrently; they are shown to change nothing."
  },
  {
   "property": "C35",
   "status": "proved",
   "theorems": [
    "Verif.Sharded.Props.C35_one_value"
   ],
   "note": ""
  },
  {
   "property": "C36",
   "status": "partial",
   "theorems": [
    "Verif.Sharded.Props.C36_race_free_partial",
    "Verif.Sharded.Props.C36_clear_races",
    "Verif.Sharded.Props.C36_only_clear_races",
    "Verif.Sharded.RaceExact.C36_exact"
   ],
   "note": "Clear replaces the table while holding only the read lock, so it races with readers and other Clears (C36_clear_races). Proved for executions without Clear; with Clear, that the writer in any race is a Clear and that both sides hold the read lock. C36_exact: for every hash and number of shards, two methods can race if and only if one is Clear and the other one is not Set, TrySet, Delete or IterateShards."
  },
  {
   "property": "C37",
   "status": "partial",
   "theorems": [
    "Verif.Sharded.Props.C37_len_empty_partial",
    "Verif.Sharded.Props.C37_full_false",
    "Verif.Sharded.Props.C37_len_false",
    "Verif.Sharded.C37_exact"
   ],
   "note": "With several shards and both additions and deletions Len and Empty can report a state that never was. Proved shard by shard, for one shard, and when nobody deletes or nobody adds during the call. C37_exact: the maps for which every call is right are exactly those whose keys all fall into one shard; for every other hash and number of shards a wrong call of Len and of Empty is constructed."
  },
  {
   "property": "C38",
   "status": "proved",
   "theorems": [
    "Verif.Sharded.Props.C38_no_deadlock"
   ],
   "note": ""
  },
  {
   "property": "C39",
   "status": "partial",
   "theorems": [
    "Verif.AtomicValue.C39_linearizable_partial",
    "Verif.AtomicValue.C39_exact_partial",
    "Verif.AtomicValue.C39_full_false",
    "Verif.AtomicValue.C39_iff"
   ],
   "note": "Proved exactly for types on which == is equality, and up to == for all types. CompareAndSwap(0, -0) on a float says it stored -0 but keeps 0, so the full statement is false for such types. C39_iff: the types for which it holds are exactly those on which == implies equality."
  },
  {
   "property": "C40",
   "status": "partial",
   "theorems": [
    "Verif.AtomicValue.C40_strict_partial",
    "Verif.AtomicValue.C40_cas_only_partial",
    "Verif.AtomicValue.C40_moment_partial",
    "Verif.AtomicValue.C40_full_false",
    "Verif.AtomicValue.C40_exact",
    "Verif.AtomicValue.C40_alone",
    "Verif.AtomicValue.C40_in_vain",
    "Verif.AtomicValue.C40_fails"
   ],
   "note": "A Store of the same value between the load and the pointer compare makes CompareAndSwap fail without cause. Proved for executions in which no Store or Swap writes a value equal to the one held. C40_exact gives the result of every call in every execution: false if the value at its load is not == old, true if it is and new == old, and otherwise true exactly if no other goroutine writes between its load and its compare and swap. C40_fails: the full claim fails on every type with a value o == o and a value n != o."
  },
  {
   "property": "C41",
   "status": "proved",
   "theorems": [
    "Verif.AtomicValue.C41_zero_value"
   ],
   "note": ""
  },
  {
   "property": "C42",
   "status": "partial",
   "theorems": [
    "Verif.Stream.pipeline_partial",
    "Verif.Stream.pipeline_slice_partial",
    "Verif.Stream.pipeline_false",
    "Verif.Stream.C42_slice_exact",
    "Verif.Stream.C42_slice_iff",
    "Verif.Stream.C42_slice_skips",
    "Verif.Stream.C42_slice_partial",
    "Verif.Stream.C42_comes_back"
   ],
   "note": "Proved for every finite source that behaves like a list, every chain of Map/Filter/Skip/Limit/Peek with legal arguments, if the source can move by the sum of the Skips. For slices C42_slice_exact says for every chain what comes out, also when Skips overflow, and C42_slice_iff when that is the list pipeline. It is not always: pipeline_false (Of(...).Skip(1).Skip(MaxInt64) panics), C42_comes_back (Skip(MaxInt64) three times: the last two elements are back)."
  },
  {
   "property": "C43",
   "status": "partial",
   "theorems": [
    "Verif.Stream.peek_parts",
    "Verif.Stream.peek_partial",
    "Verif.Stream.peek_prefix_partial",
    "Verif.Stream.peek_misses",
    "Verif.Stream.peek_overreads"
   ],
   "note": "peek_partial: exact for chains in which no Limit follows the Peek; peek_prefix_partial: with later Limits the events are a prefix-closed over-read as stated there; both if no later Skip is pushed into the source. peek_misses and peek_overreads show what fails in the code: a Skip after Peek without Filter/Limit is pushed to the source so Peek misses elements, and Peek before Limit sees one element too many. What happens exactly is C113."
  },
  {
   "property": "C44",
   "status": "partial",
   "theorems": [
    "Verif.Stream.limit_partial",
    "Verif.Stream.generator_returns",
    "Verif.Stream.limit_overreads",
    "Verif.Stream.limit_diverges"
   ],
   "note": "limit_partial: a chain with Limit(n) not preceded by a Filter ends on every source, delivers at most n elements and asks for at most (skipped elements) + n + 1. The code over-reads by one (limit_overreads) and diverges with Filter before Limit on an infinite source (limit_diverges). What happens exactly is C113."
  },
  {
   "property": "C45",
   "status": "proved",
   "theorems": [
    "Verif.Stream.reduce_lists",
    "Verif.Stream.slice_lists",
    "Verif.Stream.count_lists",
    "Verif.Stream.reduce_foldl",
    "Verif.Stream.collect_lists",
    "Verif.Stream.all_lists",
    "Verif.Stream.any_lists",
    "Verif.Stream.noneOf_lists",
    "Verif.Stream.first_lists"
   ],
   "note": "For every stream that yields a finite list."
  },
  {
   "property": "C46",
   "status": "partial",
   "theorems": [
    "Verif.Stream.finished_stays_partial",
    "Verif.Stream.finished_skip_panics",
    "Verif.Stream.next_none_finished",
    "Verif.Stream.finished_next",
    "Verif.Stream.C46_exact"
   ],
   "note": "Proved for every stream and every later sequence of calls other than a pushed Skip; finished_skip_panics shows Skip(n>0) on a finished stream without Filter/Limit dereferences nil. C46_exact decides every later sequence of legal calls: it panics exactly if a positive Skip comes before any Filter or Limit, otherwise every Next reports the end."
  },
  {
   "property": "C47",
   "status": "partial",
   "theorems": [
    "Verif.Stream.terms_exist",
    "Verif.Stream.terms_unique",
    "Verif.Stream.range_partial",
    "Verif.Stream.range_runs_on",
    "Verif.Stream.range_endless",
    "Verif.Stream.rangeN_partial",
    "Verif.Stream.rangeN_false",
    "Verif.Stream.C47_exact",
    "Verif.Stream.C47_endless",
    "Verif.Stream.C47_stops_iff",
    "Verif.Stream.C47_iff",
    "Verif.Stream.C47_sequence"
   ],
   "note": "Proved whenever the first term past end is representable, and C47_iff proves that this condition is necessary. In every other case the range does not stop at the end of the progression (range_runs_on): C47_exact gives the values it then produces, wrapped around, C47_endless that it never stops if none of them is past end, C47_stops_iff which ranges stop; range_endless and rangeN_false are concrete endless ranges."
  },
  {
   "property": "C48",
   "status": "partial",
   "theorems": [
    "Verif.Stream.skip_slice_partial",
    "Verif.Stream.skip_slice_false",
    "Verif.Stream.skip_range_partial",
    "Verif.Stream.skip_range_false",
    "Verif.Stream.skip_sequence",
    "Verif.Stream.skip_generator",
    "Verif.Stream.skip_bounded_partial",
    "Verif.Stream.skip_bounded_false",
    "Verif.Stream.skip_rand",
    "Verif.Stream.skip_fwd",
    "Verif.Stream.skip_mapped_partial",
    "Verif.Stream.skip_mapped_pred",
    "Verif.Stream.skip_mapped_false",
    "Verif.Stream.C48_range_iff",
    "Verif.Stream.C48_bounded_iff",
    "Verif.Stream.C48_mapped_iff"
   ],
   "note": "Every source kind; exact condition for slices. Fails on int overflow (slice, range), on generators that go on after the end, on finished mapped streams; each with a counterexample theorem. Exact conditions also for ranges (C48_range_iff), bounded generators (C48_bounded_iff) and type-mapped streams that have not ended (C48_mapped_iff)."
  },
  {
   "property": "C49",
   "status": "partial",
   "theorems": [
    "Verif.Stream.mapTo_next",
    "Verif.Stream.mapped_partial",
    "Verif.Stream.mapped_false",
    "Verif.Stream.C49_slice_exact"
   ],
   "note": "Element-wise for every stream; chains for every stream over a finite source at any nesting depth. Missing: Skip on a Map of a finished stream panics (mapped_false); Skips whose sum overflows. Over slices C49_slice_exact says what comes out for all chains before and after the Map, also when Skips overflow."
  },
  {
   "property": "C50",
   "status": "partial",
   "theorems": [
    "Verif.Xfn.or_spec",
    "Verif.Xfn.not_spec",
    "Verif.Xfn.neg_spec",
    "Verif.Xfn.method_or_spec",
    "Verif.Xfn.or_shortCircuit",
    "Verif.Xfn.and_is_or",
    "Verif.Xfn.not_andIsAll",
    "Verif.Xfn.and_spec_partial",
    "Verif.Xfn.and_correct_iff"
   ],
   "note": "And is implemented as Or, so the And part is false (not_andIsAll); and_correct_iff says exactly when And is right."
  },
  {
   "property": "C51",
   "status": "proved",
   "theorems": [
    "Verif.Xfn.signed_total",
    "Verif.Xfn.unsigned_total",
    "Verif.Xfn.string_total",
    "Verif.Xfn.isEqAny_spec",
    "Verif.Xfn.isEqAny_mem",
    "Verif.Xfn.isNeqAny_spec",
    "Verif.Xfn.complementary",
    "Verif.Xfn.hasPrefix_spec",
    "Verif.Xfn.hasSuffix_spec"
   ],
   "note": "Integers of every width, strings as byte sequences; floats in C52."
  },
  {
   "property": "C52",
   "status": "proved",
   "theorems": [
    "Verif.Xfn.lessFloat_nan",
    "Verif.Xfn.lessFloat_num",
    "Verif.Xfn.lessFloat_strictWeak",
    "Verif.Xfn.finite_lt_inf"
   ],
   "note": "Bit-level IEEE floats of every format."
  },
  {
   "property": "C53",
   "status": "partial",
   "theorems": [
    "Verif.Xfn.fullComparatorOf_spec",
    "Verif.Xfn.fullComparatorOf_zero",
    "Verif.Xfn.min_max_spec",
    "Verif.Xfn.not_minCommFloat",
    "Verif.Xfn.min_max_nan",
    "Verif.Xfn.min_max_float_partial",
    "Verif.Xfn.min_zeros",
    "Verif.Xfn.C53_float_exact"
   ],
   "note": "Min and Max with a NaN depend on the order of the arguments (not_minCommFloat, min_max_nan); proved for all total orders and for floats without NaN. C53_float_exact says for which floats the order of the arguments matters."
  },
  {
   "property": "C54",
   "status": "partial",
   "theorems": [
    "Verif.Xfn.bind_routes_partial",
    "Verif.Xfn.bind_variadic",
    "Verif.Xfn.not_bindRoutes"
   ],
   "note": "Proved for every src that is not variadic. For a variadic src the last slice is passed as one element (bind_variadic), so the property fails (not_bindRoutes)."
  },
  {
   "property": "C55",
   "status": "partial",
   "theorems": [
    "Verif.Xfn.bind_returns_iff",
    "Verif.Xfn.bind_checks_partial",
    "Verif.Xfn.bind_variadic",
    "Verif.Xfn.not_bindChecks"
   ],
   "note": "The exact condition for returning is proved for all signatures, variadic too; that a bound function never fails is proved for src that is not variadic and false otherwise (not_bindChecks)."
  },
  {
   "property": "C56",
   "status": "proved",
   "theorems": [
    "Verif.Xhash.uint64_bijective",
    "Verif.Xhash.uint64Seed_bijective",
    "Verif.Xhash.uint64Seed_seed_bijective"
   ],
   "note": "Injective and onto; also injective in the seed."
  },
  {
   "property": "C57",
   "status": "partial",
   "theorems": [
    "Verif.Xhash.write_aligned_partial",
    "Verif.Xhash.write_determined_partial",
    "Verif.Xhash.write_spec",
    "Verif.Xhash.write_panics_iff",
    "Verif.Xhash.write_short_panics",
    "Verif.Xhash.write_returns_too_much",
    "Verif.Xhash.write_reads_beyond",
    "Verif.Xhash.not_writeDetermined",
    "Verif.Xhash.reset_spec"
   ],
   "note": "Proved for lengths divisible by 8. For other lengths Write panics without spare capacity, else reads beyond the slice and returns too much; write_spec says exactly what it does."
  },
  {
   "property": "C58",
   "status": "proved",
   "theorems": [
    "Verif.Xhash.last_word",
    "Verif.Xhash.sum_spec"
   ],
   "note": ""
  },
  {
   "property": "C59",
   "status": "proved",
   "theorems": [
    "Verif.Secrand.new_returns_iff",
    "Verif.Secrand.read_returns",
    "Verif.Secrand.calls_return",
    "Verif.Secrand.readN_fuel"
   ],
   "note": "ChaCha is an arbitrary keystream function."
  },
  {
   "property": "C60",
   "status": "proved",
   "theorems": [
    "Verif.Secrand.erased"
   ],
   "note": ""
  },
  {
   "property": "C61",
   "status": "proved",
   "theorems": [
    "Verif.Secrand.uint64_is_read",
    "Verif.Secrand.int63_spec"
   ],
   "note": ""
  },
  {
   "property": "C62",
   "status": "proved",
   "theorems": [
    "Verif.Secrand.split_same"
   ],
   "note": "The bytes of one Read of at most bufsize bytes; that later output may differ is C70."
  },
  {
   "property": "C63",
   "status": "partial",
   "theorems": [
    "Verif.Secrand.not_readXors",
    "Verif.Secrand.read_overwrites",
    "Verif.Secrand.read_xors_partial",
    "Verif.Secrand.C63_exact"
   ],
   "note": "False of every generator: Read overwrites up to what is left plus one filling, and xors only for larger slices. C63_exact: it xors onto slices of length n if and only if n is 0 or larger than what is left plus one filling."
  },
  {
   "property": "C64",
   "status": "proved",
   "theorems": [
    "Verif.Xsync.lock_excludes",
    "Verif.Xsync.accesses_hold",
    "Verif.Xsync.sections_linearizable",
    "Verif.Xsync.no_deadlock",
    "Verif.Xsync.no_lost_update"
   ],
   "note": "Any number of goroutines, any interleaving, any code between Lock and Unlock (only reading under RLock). Goroutines are assumed to use the value only between Lock and Unlock, as the type asks."
  },
  {
   "property": "C65",
   "status": "proved",
   "theorems": [
    "Verif.Xsync.Rand.never_shared",
    "Verif.Xsync.Rand.uses_own",
    "Verif.Xsync.Rand.put_back",
    "Verif.Xsync.Rand.put_back_at_return",
    "Verif.Xsync.Rand.master_locked",
    "Verif.Xsync.Rand.seeds_used_once"
   ],
   "note": "Methods of generators are arbitrary draws, panics and nested package-level calls (callbacks of Shuffle); the pool may lose anything and may miss."
  },
  {
   "property": "C66",
   "status": "partial",
   "theorems": [
    "Verif.Xsync.Pool.get_usable_partial",
    "Verif.Xsync.Pool.get_cases",
    "Verif.Xsync.Pool.not_getUsable",
    "Verif.Xsync.Pool.zero_pool_panics",
    "Verif.Xsync.Pool.put_nil",
    "Verif.Xsync.Pool.get_not_more_than_put"
   ],
   "note": "False as stated: Get on a zero Pool panics (not_getUsable) and Put(nil) can come back (put_nil). Proved when New returns non-nil *T and nil is never Put; get_cases says exactly what Get does otherwise."
  },
  {
   "property": "C67",
   "status": "proved",
   "theorems": [
    "Verif.Sharded.Props.C67_entries_weakly_consistent"
   ],
   "note": ""
  },
  {
   "property": "C68",
   "status": "proved",
   "theorems": [
    "Verif.AtomicValue.C68_wait_free"
   ],
   "note": ""
  },
  {
   "property": "C69",
   "status": "proved",
   "theorems": [
    "Verif.Xhash.one_word",
    "Verif.Xhash.different_states",
    "Verif.Xhash.write_one_word"
   ],
   "note": ""
  },
  {
   "property": "C70",
   "status": "partial",
   "theorems": [
    "Verif.Secrand.split_free_partial",
    "Verif.Secrand.bytewise_noStraddles",
    "Verif.Secrand.straddle_differs",
    "Verif.Secrand.not_splitFree",
    "Verif.Secrand.C70_exact"
   ],
   "note": "Proved if no Read straddles two fillings; otherwise bytes that were handed out but not erased get xored into the next filling, and the later output differs (not_splitFree, with ChaCha8). C70_exact: reads no larger than the buffer give the bytes and leave the generator that reading byte by byte does, if and only if every straddling one finds only zeros left of the old filling."
  },
  {
   "property": "C71",
   "status": "proved",
   "theorems": [
    "Verif.Secrand.key_kept",
    "Verif.Secrand.once_only"
   ],
   "note": ""
  },
  {
   "property": "C72",
   "status": "proved",
   "theorems": [
    "Verif.Sort.C72_sort_comparisons"
   ],
   "note": ""
  },
  {
   "property": "C73",
   "status": "proved",
   "theorems": [
    "Verif.Sort.C73_stable_comparisons",
    "Verif.Sort.C73_stable_comparisons_pure"
   ],
   "note": ""
  },
  {
   "property": "C74",
   "status": "proved",
   "theorems": [
    "Verif.Sort.C74_sort_comparisons_any"
   ],
   "note": ""
  },
  {
   "property": "C75",
   "status": "proved",
   "theorems": [
    "Verif.Sort.C75_ascending_unchanged",
    "Verif.Sort.C75_idempotent",
    "Verif.Sort.C75_stable_unchanged"
   ],
   "note": ""
  },
  {
   "property": "C76",
   "status": "proved",
   "theorems": [
    "Verif.Sort.C76_panicking_comparator",
    "Verif.Sort.C76_no_panic"
   ],
   "note": ""
  },
  {
   "property": "C77",
   "status": "proved",
   "theorems": [
    "Verif.Ring.C77_amortised_resize",
    "Verif.Ring.C77_amortised_suffix",
    "Verif.Ring.C77_reads_free"
   ],
   "note": "Potential-function argument over the modelled buffers; cost = elements copied by a resize."
  },
  {
   "property": "C78",
   "status": "proved",
   "theorems": [
    "Verif.Xfn.C78_signed",
    "Verif.Xfn.C78_unsigned",
    "Verif.Xfn.C78_divide_by_zero",
    "Verif.Xfn.C78_unsigned_div",
    "Verif.Xfn.C78_signed_div",
    "Verif.Xfn.C78_plus_minus"
   ],
   "note": "Integers of every width; floats, complex numbers and strings are instances of the definitions but no law is claimed for them."
  },
  {
   "property": "C79",
   "status": "proved",
   "theorems": [
    "Verif.Algo.C79_search_calls",
    "Verif.Algo.C79_isSorted_calls",
    "Verif.Algo.lowerBoundM_pure",
    "Verif.Algo.upperBoundM_pure",
    "Verif.Algo.isSortedUntilM_pure"
   ],
   "note": "The effectful versions erase to the models of C08-C10 (…_pure theorems)."
  },
  {
   "property": "C80",
   "status": "proved",
   "theorems": [
    "Verif.Algo.C80_nextPermutation_any",
    "Verif.Algo.nextPermutationM_pure"
   ],
   "note": "The effectful version erases to the model of C11."
  },
  {
   "property": "C81",
   "status": "proved",
   "theorems": [
    "Verif.AtomicPtr.C81_linearizable",
    "Verif.AtomicPtr.C81_wait_free",
    "Verif.AtomicPtr.C81_single_winner"
   ],
   "note": "Sequentially consistent interleavings, as for atomic.Value."
  },
  {
   "property": "C82",
   "status": "partial",
   "theorems": [
    "Verif.Stream.C82_slice_partial",
    "Verif.Stream.C82_slice_false",
    "Verif.Stream.C82_generator",
    "Verif.Stream.C82_bounded",
    "Verif.Stream.C82_rand",
    "Verif.Stream.C82_fwd",
    "Verif.Stream.C82_range",
    "Verif.Stream.C82_mapped"
   ],
   "note": "Proved for every source; for slices exactly when position + n does not overflow (an iff), with the counterexample C82_slice_false."
  },
  {
   "property": "C83",
   "status": "proved",
   "theorems": [
    "Verif.Stream.C83_slice",
    "Verif.Stream.C83_generator",
    "Verif.Stream.C83_bounded",
    "Verif.Stream.C83_rand",
    "Verif.Stream.C83_fwd"
   ],
   "note": "Integer ranges are C47."
  },
  {
   "property": "C84",
   "status": "proved",
   "theorems": [
    "Verif.Algo.C84_iteratorAt",
    "Verif.Algo.C84_range",
    "Verif.Algo.C84_subRange",
    "Verif.Algo.C84_exchanged",
    "Verif.Algo.C84_iterSubRange"
   ],
   "note": ""
  },
  {
   "property": "C85",
   "status": "proved",
   "theorems": [
    "Verif.Sharded.Props.C85_entries",
    "Verif.Sharded.Props.C85_keys",
    "Verif.Sharded.Props.C85_values",
    "Verif.Sharded.Props.C85_toMap",
    "Verif.Sharded.Props.C85_iterate",
    "Verif.Sharded.Props.C85_throughout"
   ],
   "note": ""
  },
  {
   "property": "C86",
   "status": "proved",
   "theorems": [
    "Verif.Sharded.Props.C86_user_code_under_lock",
    "Verif.Sharded.Props.C86_call_under_write_lock",
    "Verif.Sharded.Props.C86_write_under_read_lock",
    "Verif.Sharded.Props.C86_read_under_read_lock",
    "Verif.Sharded.Props.C86_crossed_calls",
    "Verif.Sharded.Props.C86_factory_deadlock"
   ],
   "note": ""
  },
  {
   "property": "C87",
   "status": "proved",
   "theorems": [
    "Verif.Sort.C87_sort_exchanges",
    "Verif.Sort.C87_sort_exchanges_order",
    "Verif.Sort.C87_stable_exchanges",
    "Verif.Sort.C87_exchanges_only"
   ],
   "note": "Counted on the trace of a run (Sort/Events.lean): comparator calls, exchanges and recursive calls in order."
  },
  {
   "property": "C88",
   "status": "proved",
   "theorems": [
    "Verif.Sort.C88_sort_depth",
    "Verif.Sort.C88_sort_depth_log",
    "Verif.Sort.C88_stable_depth",
    "Verif.Sort.C88_stable_depth_log"
   ],
   "note": "AtMostDeep: in every prefix of the trace the calls entered exceed those left by at most k. The second, tail-position call of pdqsort is a loop iteration in the code and is not counted."
  },
  {
   "property": "C89",
   "status": "proved",
   "theorems": [
    "Verif.Algo.C89_sort_then_search",
    "Verif.Algo.C89_sort_then_enumerate"
   ],
   "note": ""
  },
  {
   "property": "C90",
   "status": "proved",
   "theorems": [
    "Verif.Sharded.Props.C90_clear_empties",
    "Verif.Sharded.Props.C90_clear_removes",
    "Verif.Sharded.Props.C90_left_after_clear",
    "Verif.Sharded.Props.C90_not_atomic"
   ],
   "note": ""
  },
  {
   "property": "C91",
   "status": "proved",
   "theorems": [
    "Verif.Sharded.Props.C91_shard_linearizable",
    "Verif.Sharded.Props.C91_one_shard",
    "Verif.Sharded.Props.C91_clear_not_linearizable"
   ],
   "note": "Each table access is one step of the model, although Clear writes under the read lock (C36)."
  },
  {
   "property": "C92",
   "status": "proved",
   "theorems": [
    "Verif.Stream.C92_terminal_fails",
    "Verif.Stream.C92_endless",
    "Verif.Stream.C92_chain_fails"
   ],
   "note": "Faults of a source (a panic, or a read that does not return) and endless streams."
  },
  {
   "property": "C93",
   "status": "proved",
   "theorems": [
    "Verif.Sort.C93_linear",
    "Verif.Sort.C93_zero",
    "Verif.Sort.C93_injective",
    "Verif.Sort.C93_never_zero"
   ],
   "note": "The exact periods are C118."
  },
  {
   "property": "C94",
   "status": "proved",
   "theorems": [
    "Verif.Xrand.C94_value",
    "Verif.Xrand.C94_uniform"
   ],
   "note": "crypto/rand.Read is an arbitrary function of a state that fills the slice or fails."
  },
  {
   "property": "C95",
   "status": "proved",
   "theorems": [
    "Verif.GoMap.C95_stream",
    "Verif.GoMap.C95_order_free"
   ],
   "note": ""
  },
  {
   "property": "C96",
   "status": "proved",
   "theorems": [
    "Verif.Sort.C96_choosePivot"
   ],
   "note": ""
  },
  {
   "property": "C97",
   "status": "proved",
   "theorems": [
    "Verif.Sort.C97_descending"
   ],
   "note": ""
  },
  {
   "property": "C98",
   "status": "proved",
   "theorems": [
    "Verif.Sort.C98_breakPatterns"
   ],
   "note": ""
  },
  {
   "property": "C99",
   "status": "proved",
   "theorems": [
    "Verif.Stream.C99_forward",
    "Verif.Stream.C99_random"
   ],
   "note": "The fault is a panic of a method; the methods are functions of the iterator and the memory, which the source does not change."
  },
  {
   "property": "C100",
   "status": "partial",
   "theorems": [
    "Verif.Xhash.not_chunked",
    "Verif.Xhash.C100_empty_write",
    "Verif.Xhash.C100_two_writes",
    "Verif.Xhash.C100_writes_partial",
    "Verif.Xhash.C100_sizes",
    "Verif.Xhash.C100_later",
    "Verif.Xhash.C100_empty_iff",
    "Verif.Xhash.C100_cut"
   ],
   "note": "The first sentence is false: an empty Write changes the sum, and so does cutting 16 bytes in two. C100_writes_partial: the sum depends only on the sequence of the slices written. C100_empty_iff: an empty Write changes the sum exactly unless the state is a fixed point of mixing in 0. C100_cut: a condition on the state, the bytes before a cut and the number of those after it that decides whether the cut changes the sum; later writes make no difference (C100_later)."
  },
  {
   "property": "C101",
   "status": "partial",
   "theorems": [
    "Verif.Sharded.C101_released_partial",
    "Verif.Sharded.C101_locked_forever",
    "Verif.Sharded.C101_leaves_locked",
    "Verif.Sharded.C101_reader_forever",
    "Verif.Sharded.C101_leaves_reader",
    "Verif.Sharded.not_locksReleased",
    "Verif.Sharded.C101_exact"
   ],
   "note": "Set, TrySet, Delete, TryGet and Has use the map between Lock and Unlock without defer, and leave the lock held if choosing the shard did not panic first. C101_released_partial: it holds if choosing the shard panics for all such keys. C101_exact: all calls release their locks if and only if choosing the shard panics for every key the map panics on."
  },
  {
   "property": "C102",
   "status": "proved",
   "theorems": [
    "Verif.Sharded.C102_one_map",
    "Verif.Sharded.C102_lost",
    "Verif.Sharded.C102_counted",
    "Verif.Sharded.body2_self"
   ],
   "note": "body2_self says that the methods with two hash calls are those of the concurrent model when the hash answers the same twice."
  },
  {
   "property": "C103",
   "status": "proved",
   "theorems": [
    "Verif.RingMem.C103_own",
    "Verif.RingMem.C103_shared",
    "Verif.RingMem.C103_atRef",
    "Verif.RingMem.C103_toSlice"
   ],
   "note": "Buffers below 2^61 elements. ToSlice into memory that overlaps the ring is C26."
  },
  {
   "property": "C104",
   "status": "proved",
   "theorems": [
    "Verif.Algo.C104_reverse",
    "Verif.Algo.C104_reverse_covers",
    "Verif.Algo.C104_isSorted",
    "Verif.Algo.C104_nextPermutation",
    "Verif.Algo.C104_slice",
    "Verif.Algo.C104_foreign",
    "Verif.Algo.C104_foreign_slice"
   ],
   "note": "The binary searches on such ranges are C08_invalid."
  },
  {
   "property": "C105",
   "status": "proved",
   "theorems": [
    "Verif.Secrand.C105_every",
    "Verif.Secrand.C105_formula",
    "Verif.Secrand.C105_output",
    "Verif.Secrand.C105_large",
    "Verif.Secrand.C105_newRNG",
    "Verif.Secrand.C105_reader"
   ],
   "note": "C105_every is for all sequences of Reads; C105_output is the simpler formula when no Read straddles two fillings."
  },
  {
   "property": "C106",
   "status": "proved",
   "theorems": [
    "Verif.Stream.Panics.C106_pipeline",
    "Verif.Stream.Panics.C106_mapTo",
    "Verif.Stream.Panics.C106_terminal",
    "Verif.Stream.Panics.C106_slice",
    "Verif.Stream.Panics.C106_all_any",
    "Verif.Stream.Panics.C106_reduce",
    "Verif.Stream.Panics.agrees",
    "Verif.Stream.Panics.C106_generator",
    "Verif.Stream.Panics.C106_sliceSource"
   ],
   "note": "SkipNext and effects of callbacks other than panics are not in this model; without panics it is the model of the other stream properties (agrees)."
  },
  {
   "property": "C107",
   "status": "proved",
   "theorems": [
    "Verif.Stream.C107_string",
    "Verif.Stream.C107_injective",
    "Verif.Stream.C107_ambiguous"
   ],
   "note": "reflect and fmt.Sprint are parameters."
  },
  {
   "property": "C108",
   "status": "proved",
   "theorems": [
    "Verif.Sharded.C108_ways",
    "Verif.Sharded.C108_hash",
    "Verif.Sharded.C108_newSharded",
    "Verif.Sharded.C108_defaultSeed"
   ],
   "note": "That hasher.Of finds the hash function in the runtime type description is trusted; so is that the runtime hash respects ==."
  },
  {
   "property": "C109",
   "status": "partial",
   "theorems": [
    "Verif.Xfn.C109_message",
    "Verif.Xfn.C109_unique",
    "Verif.Xfn.C109_ordinal",
    "Verif.Xfn.C109_message_partial",
    "Verif.Xfn.C109_eleven",
    "Verif.Xfn.C109_false"
   ],
   "note": "Everything but the spelling of ordinals holds without restriction (C109_message); the code writes 11st, 12nd, 13rd (C109_false), and exactly these and those congruent to them mod 100 (C109_ordinal)."
  },
  {
   "property": "C110",
   "status": "proved",
   "theorems": [
    "Verif.Xfn.C110_twice",
    "Verif.Xfn.C110_values",
    "Verif.Xfn.C110_none"
   ],
   "note": "The function bound may be variadic in C110_twice and C110_values (both ways then do the same wrong call, see C54); the first Dest may not."
  },
  {
   "property": "C111",
   "status": "proved",
   "theorems": [
    "Verif.Slice.Stale.C111_iterators",
    "Verif.Slice.Stale.C111_belongs_iff",
    "Verif.Slice.Stale.C111_attached",
    "Verif.Slice.Stale.C111_detached"
   ],
   "note": "C111_iterators is the exact behaviour, including panics and the elements left behind; the others are read off it."
  },
  {
   "property": "C112",
   "status": "partial",
   "theorems": [
    "Verif.CustomMap.Panics.C112_custom",
    "Verif.CustomMap.Panics.C112_custom_agrees",
    "Verif.ArrayMap.Panics.C112_arrayMap_partial",
    "Verif.ArrayMap.Panics.C112_arrayMap_agrees",
    "Verif.ArrayMap.Panics.C112_set",
    "Verif.ArrayMap.Panics.C112_get",
    "Verif.ArrayMap.Panics.C112_false",
    "Verif.ArrayMap.Panics.C112_exact"
   ],
   "note": "Holds for Custom. Fails for ArrayMap: Set appends the entry before the key is hashed (C112_set, C112_false), after which another key can get its value (C112_get). C112_arrayMap_partial: it holds on every history without such a Set. C112_exact: it holds in a history if and only if there is no such Set in it."
  },
  {
   "property": "C113",
   "status": "proved",
   "theorems": [
    "Verif.Stream.Exact.C113_to_the_end",
    "Verif.Stream.Exact.C113_to_the_limit",
    "Verif.Stream.Exact.C113_forever",
    "Verif.Stream.Exact.C113_returns_iff",
    "Verif.Stream.Exact.C113_lazy",
    "Verif.Stream.Exact.C113_lazy_forever",
    "Verif.Stream.Exact.C113_peek",
    "Verif.Stream.Exact.loud_steady",
    "Verif.Stream.Exact.loud_behaves"
   ],
   "note": "This is also what exactly happens where C43 and C44 fail."
  },
  {
   "property": "C114",
   "status": "proved",
   "theorems": [
    "Verif.CustomMap.C114_every_history",
    "Verif.CustomMap.C114_determined",
    "Verif.CustomMap.C114_found"
   ],
   "note": "What exactly happens where C29 and C30 fail."
  },
  {
   "property": "C115",
   "status": "proved",
   "theorems": [
    "Verif.Sort.C115_parametric",
    "Verif.Sort.C115_map",
    "Verif.Sort.C115_rearrangement",
    "Verif.Sort.C115_panics"
   ],
   "note": ""
  },
  {
   "property": "C116",
   "status": "proved",
   "theorems": [
    "Verif.Sort.C116_sort_determined",
    "Verif.Sort.C116_sort_stable_agree",
    "Verif.Sort.C116_stable_determined",
    "Verif.Sort.C116_stable_twice"
   ],
   "note": ""
  },
  {
   "property": "C117",
   "status": "proved",
   "theorems": [
    "Verif.RingMem.C117_shared",
    "Verif.RingMem.C117_after_copy",
    "Verif.RingMem.C117_apart",
    "Verif.RingMem.C117_copies",
    "Verif.RingMem.C117_adding",
    "Verif.RingMem.C117_independent_false"
   ],
   "note": "Buffers below 2^61 elements."
  },
  {
   "property": "C118",
   "status": "partial",
   "theorems": [
    "Verif.Sort.C118_distinct_partial",
    "Verif.Sort.C118_cycles",
    "Verif.Sort.C118_period",
    "Verif.Sort.C118_short",
    "Verif.Sort.C118_false"
   ],
   "note": "False: the shifts 13, 17, 5 are those of a 32-bit generator. C118_cycles gives the exact period of every seed: all repeat after 6914497698226755 steps, some after 4095. C118_distinct_partial: 4095 words in a row are different from any seed but 0."
  },
  {
   "property": "C119",
   "status": "proved",
   "theorems": [
    "Verif.Stream.Mem.C119_counters",
    "Verif.Stream.Mem.C119_counters_slice",
    "Verif.Stream.Mem.C119_chain",
    "Verif.Stream.Mem.C119_source",
    "Verif.Stream.Mem.C119_slice"
   ],
   "note": "C119_chain: every list of operations is covered. C119_source and C119_slice are the loops without counters. SkipNext is not part of C119. Callbacks do not touch the stream they are called from (C124 is about those that do)."
  },
  {
   "property": "C120",
   "status": "proved",
   "theorems": [
    "Verif.Stream.Mem.C120_reads",
    "Verif.Stream.Mem.C120_intact",
    "Verif.Stream.Mem.C120_in_place",
    "Verif.Stream.Mem.C120_append"
   ],
   "note": "The callbacks of the chain are functions, the one of the terminal operation may do anything to memory. That the cells must be intact is needed: see the example with two appends per element."
  },
  {
   "property": "C121",
   "status": "proved",
   "theorems": [
    "Verif.Stream.Mem.C121_new",
    "Verif.Stream.Mem.C121_map",
    "Verif.Stream.Mem.C121_compose",
    "Verif.Stream.Mem.C121_replace",
    "Verif.Stream.Mem.C121_terminal"
   ],
   "note": "The operations are those in Stream.ops. Skip on a stream without a predicate goes to the source instead (SkipNext), which is not part of C121."
  },
  {
   "property": "C122",
   "status": "partial",
   "theorems": [
    "Verif.Sharded.C122_sharded_partial",
    "Verif.Sharded.C122_clear_unordered",
    "Verif.Sharded.C122_sharded_exact",
    "Verif.Xsync.C122_synchronized",
    "Verif.Xsync.Rand.C122_generator",
    "Verif.Xsync.Rand.C122_master",
    "Verif.AtomicValue.C122_published"
   ],
   "note": "False for Sharded.Clear, which writes under RLock (C122_clear_unordered); proved for everything else, and for Clear against methods that only use Lock. C122_sharded_exact: for every hash and number of shards, conflicting accesses of two calls can be unordered if and only if one is Clear and the other one is not Set, TrySet, Delete or IterateShards."
  },
  {
   "property": "C123",
   "status": "proved",
   "theorems": [
    "Verif.Sort.C123_by_place",
    "Verif.Sort.C123_safe",
    "Verif.Sort.C123_keys",
    "Verif.Sort.C123_determined",
    "Verif.Sort.C123_agrees",
    "Verif.Sort.C123_not_sorted"
   ],
   "note": "The run is that of a program of comparisons and exchanges by place (Ix); C123_by_place says there is one for every length, C123_determined that the choice does not matter."
  },
  {
   "property": "C124",
   "status": "partial",
   "theorems": [
    "Verif.Stream.Reenter.C124_returns",
    "Verif.Stream.Reenter.C124_panic_ended",
    "Verif.Stream.Reenter.C124_no_panic_partial",
    "Verif.Stream.Reenter.C124_counts_partial",
    "Verif.Stream.Reenter.C124_counts_reads",
    "Verif.Stream.Reenter.C124_lookahead_panics",
    "Verif.Stream.Reenter.C124_filter_panics",
    "Verif.Stream.Reenter.C124_limit_exceeded",
    "Verif.Stream.Reenter.C124_next_eq",
    "Verif.Stream.Reenter.C124_agrees",
    "Verif.Stream.Reenter.C124_build",
    "Verif.Stream.Reenter.C124_limit_kept"
   ],
   "note": "The code violates this: a read nested in a callback that finds the end sets s.ops and s.src to nil, and the outer call then indexes s.ops or reads s.src (C124_lookahead_panics, C124_filter_panics); an append that moves s.ops makes the outer call go on with old counters (C124_limit_exceeded). Proved: every call ends; panics only after the end, none with only Map and Peek; counters are exact as long as s.ops is not moved, in particular when callbacks only read."
  },
  {
   "property": "C125",
   "status": "proved",
   "theorems": [
    "Verif.Sort.C125_at_least",
    "Verif.Sort.C125_few",
    "Verif.Sort.C125_worst"
   ],
   "note": "The first by exchanging two groups of elements that were never compared with each other; the second by counting the branches of the decision tree (C123_by_place)."
  },
  {
   "property": "C126",
   "status": "proved",
   "theorems": [
    "Verif.Conc.Client.atomic",
    "Verif.AtomicPtr.C126_ptr",
    "Verif.AtomicPtr.C126_put_once",
    "Verif.AtomicValue.C126_value",
    "Verif.AtomicValue.C126_value_cas_only",
    "Verif.AtomicValue.C126_updates",
    "Verif.AtomicValue.C126_tickets",
    "Verif.Sharded.C126_sharded",
    "Verif.Sharded.C126_lock",
    "Verif.Xsync.C126_sync"
   ],
   "note": "Client.atomic is general: linearizable histories are enough. Programs share nothing but the one object."
  },
  {
   "property": "C127",
   "status": "proved",
   "theorems": [
    "Verif.Conc.linearizable_local",
    "Verif.Conc.Family.linearizable",
    "Verif.Together.C127_linearizable",
    "Verif.Together.C127_atomic",
    "Verif.Together.C127_publish"
   ],
   "note": "linearizable_local is the locality of linearizability, for any family of specifications."
  },
  {
   "property": "C128",
   "status": "proved",
   "theorems": [
    "Verif.Conc.Locking.returns",
    "Verif.AtomicValue.C128_value",
    "Verif.AtomicPtr.C128_ptr",
    "Verif.Sharded.C128_sharded",
    "Verif.Sharded.Props.C128_weak_false",
    "Verif.Xsync.C128_sync",
    "Verif.Conc.Family.returns",
    "Verif.Together.C128_together"
   ],
   "note": "Fairness of the scheduler and of sync.RWMutex is an assumption, in the theorems. Sections and callbacks are finite and take no further locks, as everywhere in the model."
  },
  {
   "property": "C129",
   "status": "proved",
   "theorems": [
    "Verif.Rand.C129_words",
    "Verif.Rand.C129_bounded",
    "Verif.Rand.C129_index",
    "Verif.Rand.C129_perm",
    "Verif.Rand.C129_shuffle",
    "Verif.Rand.C129_slice",
    "Verif.Rand.C129_panics",
    "Verif.Rand.C129_read",
    "Verif.Rand.C129_secrand",
    "Verif.Rand.C129_sources"
   ],
   "note": "The methods of math/rand (Go 1.18) are written down from knowledge of that package, which is not in /repo. Float32 and Float64: C134. NormFloat64, ExpFloat64 are not modelled. That a loop which draws again ends depends on the source."
  },
  {
   "property": "C130",
   "status": "proved",
   "theorems": [
    "Verif.Algo.C130_step",
    "Verif.Algo.C130_enumeration"
   ],
   "note": "Comparator calls are counted; exchanges are not."
  },
  {
   "property": "C131",
   "status": "proved",
   "theorems": [
    "Verif.Sort.Written.C131_as_written",
    "Verif.Sort.Written.C131_ends",
    "Verif.Sort.Written.C131_counted",
    "Verif.Sort.Written.C131_sorts",
    "Verif.Sort.Written.C131_ascending"
   ],
   "note": "sort_any.go transcribed on its own, without fuel; shown to do what the common model of C01–C07 and C72–C76 does, so those theorems hold of it too."
  },
  {
   "property": "C132",
   "status": "proved",
   "theorems": [
    "Verif.Ring.Inserters.C132_writes",
    "Verif.Ring.Inserters.C132_fill",
    "Verif.Ring.Inserters.C132_methods"
   ],
   "note": ""
  },
  {
   "property": "C133",
   "status": "proved",
   "theorems": [
    "Verif.Sort.Written.C133_ends",
    "Verif.Sort.Written.C133_calls"
   ],
   "note": ""
  },
  {
   "property": "C134",
   "status": "proved",
   "theorems": [
    "Verif.Rand.C134_float64",
    "Verif.Rand.C134_float32",
    "Verif.Rand.C134_panics",
    "Verif.Rand.C134_share"
   ],
   "note": ""
  },
  {
   "property": "C135",
   "status": "proved",
   "theorems": [
    "Verif.Slice.Inserters.C135_writes",
    "Verif.Slice.Inserters.C135_two",
    "Verif.Slice.Inserters.C135_full",
    "Verif.Slice.Inserters.C135_fill",
    "Verif.Slice.Inserters.laid_one",
    "Verif.Slice.Inserters.laid_two",
    "Verif.Slice.Inserters.write_good",
    "Verif.Slice.Inserters.write_stale",
    "Verif.Slice.Inserters.C135_beside"
   ],
   "note": ""
  },
  {
   "property": "C136",
   "status": "proved",
   "theorems": [
    "Verif.Algo.Dummies.C136_dummy",
    "Verif.Algo.Dummies.C136_walk"
   ],
   "note": ""
  },
  {
   "property": "C137",
   "status": "proved",
   "theorems": [
    "Verif.Slice.Views.C137_views",
    "Verif.Slice.Views.C137_sub",
    "Verif.Slice.Views.C137_append",
    "Verif.Slice.Views.C137_deleted",
    "Verif.Slice.Views.C137_access"
   ],
   "note": ""
  },
  {
   "property": "C138",
   "status": "proved",
   "theorems": [
    "Verif.Xfn.Kept.C138_current",
    "Verif.Xfn.Kept.C138_replaced",
    "Verif.Xfn.Kept.C138_copied",
    "Verif.Xfn.Kept.C138_values",
    "Verif.Xfn.Kept.C138_bytes",
    "Verif.Xfn.Kept.C138_bound",
    "Verif.Xfn.Kept.C138_goes_on"
   ],
   "note": "And means what the code does, which is what Or does (C50)."
  },
  {
   "property": "C139",
   "status": "proved",
   "theorems": [
    "Verif.Algo.Unsorted.C139_lower_said",
    "Verif.Algo.Unsorted.C139_upper_said",
    "Verif.Algo.Unsorted.C139_lowerBound",
    "Verif.Algo.Unsorted.C139_upperBound",
    "Verif.Algo.Unsorted.C139_only"
   ],
   "note": ""
  },
  {
   "property": "C140",
   "status": "proved",
   "theorems": [
    "Verif.Algo.Raced.C140_searches",
    "Verif.Algo.Raced.C140_writers"
   ],
   "note": "That the comparator is only called on such elements is in the contract of the comparator, which says nothing about what it does when called on others."
  },
  {
   "property": "C141",
   "status": "proved",
   "theorems": [
    "Verif.Secrand.Gen.C141_seed32",
    "Verif.Secrand.Gen.C141_words",
    "Verif.Secrand.Gen.C141_raw",
    "Verif.Secrand.Gen.C141_same",
    "Verif.Secrand.Gen.C141_differ",
    "Verif.Secrand.Gen.C141_nonce",
    "Verif.Xhash.Gen.C141_uint64",
    "Verif.Xhash.Gen.C141_seed",
    "Verif.Xhash.Gen.C141_incr64",
    "Verif.Xhash.Gen.C141_bytes"
   ],
   "note": ""
  },
  {
   "property": "C142",
   "status": "proved",
   "theorems": [
    "Verif.Sharded.Ascending.C142_no_deadlock",
    "Verif.Sharded.Ascending.C142_methods",
    "Verif.Sharded.Ascending.C142_user",
    "Verif.Sharded.Ascending.C142_marshal"
   ],
   "note": "The counterpart of C86, where user code that does not go to higher shards blocks for ever. For C142_marshal no program may put a key into a wrong shard."
  },
  {
   "property": "C143",
   "status": "proved",
   "theorems": [
    "Verif.Sort.OrderedRaced.C143_returns",
    "Verif.Sort.OrderedRaced.C143_comparisons",
    "Verif.Sort.OrderedRaced.C143_alone",
    "Verif.Sort.OrderedRaced.C143_loses"
   ],
   "note": "The counterpart of C133 for sort_ordered.go. For element types of more than one word a racing read may in Go give a mixture of values; it may give anything here (World.torn)."
  },
  {
   "property": "C144",
   "status": "proved",
   "theorems": [
    "Verif.Sharded.Layout.C144_layout",
    "Verif.Sharded.Layout.C144_offset",
    "Verif.Sharded.Layout.C144_of",
    "Verif.Sharded.Layout.C144_exact"
   ],
   "note": "That the runtime of a given Go version has this layout is not in the repository and is a hypothesis."
  },
  {
   "property": "C145",
   "status": "proved",
   "theorems": [
    "Verif.Xhash.Xxh3.C145_seed",
    "Verif.Xhash.Xxh3.C145_uint64",
    "Verif.Xhash.Xxh3.C145_every",
    "Verif.Xhash.Xxh3.C145_no_collision",
    "Verif.Xhash.Xxh3.C145_incremental"
   ],
   "note": "XXH3 for inputs of 4 to 8 bytes is specified on natural numbers from its published description."
  },
  {
   "property": "C146",
   "status": "proved",
   "theorems": [
    "Verif.AtomicValue.Tests.C146_swap",
    "Verif.AtomicValue.Tests.C146_swap_test",
    "Verif.AtomicValue.Tests.C146_load_test",
    "Verif.AtomicValue.Tests.C146_cas_test",
    "Verif.AtomicValue.Tests.C146_cas_ends"
   ],
   "note": "The goroutines of the tests are client programs; the fair runs are those in which no goroutine that can go on waits for ever."
  },
  {
   "property": "C147",
   "status": "proved",
   "theorems": [
    "Verif.Conformance.RingLarge.C147_large",
    "Verif.Conformance.RingLarge.C147_contents",
    "Verif.Conformance.RingLarge.C147_passes_iff"
   ],
   "note": "The test is a program over the model of the ring (Conformance/Ring.lean: testLarge)."
  },
  {
   "property": "C148",
   "status": "proved",
   "theorems": [
    "Verif.Src.Ring.C148_text",
    "Verif.Src.Ring.C148_call",
    "Verif.Src.Ring.C148_run",
    "Verif.Src.Ring.C148_spec",
    "Verif.Src.Ring.append_src",
    "Verif.Src.Ring.push_src",
    "Verif.Src.Ring.prepend_src",
    "Verif.Src.Ring.deleteFirst_src",
    "Verif.Src.Ring.deleteLast_src",
    "Verif.Src.Ring.pop_src",
    "Verif.Src.Ring.checkGrowth_src",
    "Verif.Src.Ring.checkShrink_src",
    "Verif.Src.Ring.set_src",
    "Verif.Src.Ring.at_src",
    "Verif.Src.Ring.atRef_src",
    "Verif.Src.Ring.first_src",
    "Verif.Src.Ring.last_src",
    "Verif.Src.Ring.len_src",
    "Verif.Src.Ring.cap_src",
    "Verif.Src.Ring.empty_src",
    "Verif.Src.Ring.toSlice_src",
    "Verif.Src.Ring.toSlice_src_nil",
    "Verif.Src.Ring.toSlice_src_any",
    "Verif.Src.Ring.toSlice_src_empty",
    "Verif.Src.Ring.new_src",
    "Verif.Src.Ring.newLen_src",
    "Verif.Src.Ring.newLenCap_src",
    "Verif.Src.Ring.of_src",
    "Verif.Src.Ring.ofSlice_src",
    "Verif.Src.Ring.copy_of_src"
   ],
   "note": "C148_spec relates the text to the list specification of C22 without mention of the model. After a panic nothing is said about the memory."
  },
  {
   "property": "C149",
   "status": "proved",
   "theorems": [
    "Verif.Src.Sort.C149_text",
    "Verif.Src.Sort.C149_sort",
    "Verif.Src.Sort.C149_stable",
    "Verif.Src.Sort.C149_ordered",
    "Verif.Src.Sort.C149_any",
    "Verif.Src.Sort.C149_model",
    "Verif.Src.Sort.next_src",
    "Verif.Src.Sort.power_src",
    "Verif.Src.Sort.Any.insertionSort_src",
    "Verif.Src.Sort.Any.siftDown_src",
    "Verif.Src.Sort.Any.heapSort_src",
    "Verif.Src.Sort.Any.partition_src",
    "Verif.Src.Sort.Any.partitionEqual_src",
    "Verif.Src.Sort.Any.partialInsertionSort_src",
    "Verif.Src.Sort.Any.reverseRange_src",
    "Verif.Src.Sort.Any.swapRange_src",
    "Verif.Src.Sort.Any.rotate_src",
    "Verif.Src.Sort.Any.symMerge_src",
    "Verif.Src.Sort.Any.stable_src",
    "Verif.Src.Sort.Any.order2_src",
    "Verif.Src.Sort.Any.median_src",
    "Verif.Src.Sort.Any.medianAdjacent_src",
    "Verif.Src.Sort.Any.choosePivot_src",
    "Verif.Src.Sort.Any.breakPatterns_src",
    "Verif.Src.Sort.Any.pdqsort_src",
    "Verif.Src.Sort.Any.sort_src",
    "Verif.Src.Sort.Any.stableSort_src",
    "Verif.Src.Sort.Ordered.insertionSort_src",
    "Verif.Src.Sort.Ordered.siftDown_src",
    "Verif.Src.Sort.Ordered.heapSort_src",
    "Verif.Src.Sort.Ordered.partition_src",
    "Verif.Src.Sort.Ordered.partitionEqual_src",
    "Verif.Src.Sort.Ordered.partialInsertionSort_src",
    "Verif.Src.Sort.Ordered.reverseRange_src",
    "Verif.Src.Sort.Ordered.swapRange_src",
    "Verif.Src.Sort.Ordered.rotate_src",
    "Verif.Src.Sort.Ordered.symMerge_src",
    "Verif.Src.Sort.Ordered.stable_src",
    "Verif.Src.Sort.Ordered.order2_src",
    "Verif.Src.Sort.Ordered.median_src",
    "Verif.Src.Sort.Ordered.medianAdjacent_src",
    "Verif.Src.Sort.Ordered.choosePivot_src",
    "Verif.Src.Sort.Ordered.breakPatterns_src",
    "Verif.Src.Sort.Ordered.pdqsort_src",
    "Verif.Src.Sort.Ordered.sort_src",
    "Verif.Src.Sort.Ordered.stableSort_src"
   ],
   "note": "bits.Len and the call of the comparator are the only parts that are not text. The comparator is a function of its arguments; comparators with state, and that panic, are in the claims about the model. The depth of calls needed is at most the number of elements plus 8."
  },
  {
   "property": "C150",
   "status": "proved",
   "theorems": [
    "Verif.Src.Algo.C150_text",
    "Verif.Src.Algo.C150_lowerBound",
    "Verif.Src.Algo.C150_upperBound",
    "Verif.Src.Algo.C150_bound_invalid",
    "Verif.Src.Algo.C150_isSortedUntil",
    "Verif.Src.Algo.C150_isSorted",
    "Verif.Src.Algo.C150_nextPermutation",
    "Verif.Src.Algo.C150_reverse",
    "Verif.Src.Algo.C150_swap",
    "Verif.Src.Algo.C150_fillN",
    "Verif.Src.Algo.distance_src",
    "Verif.Src.Algo.upper_src",
    "Verif.Src.Algo.upperAny_src",
    "Verif.Src.Algo.upperOrd_src",
    "Verif.Src.Algo.lower_src",
    "Verif.Src.Algo.lowerAny_src",
    "Verif.Src.Algo.lowerOrd_src",
    "Verif.Src.Algo.reverseRandom_src",
    "Verif.Src.Algo.base_src",
    "Verif.Src.Algo.nextPermutation_src",
    "Verif.Src.Algo.nextPermutationAny_src",
    "Verif.Src.Algo.nextPermutationOrd_src",
    "Verif.Src.Algo.makeRange_src",
    "Verif.Src.Algo.reverseRange_src",
    "Verif.Src.Algo.subRange_src",
    "Verif.Src.Algo.rangeDistance_src",
    "Verif.Src.Algo.sortedUntil_src",
    "Verif.Src.Algo.sorted_src",
    "Verif.Src.Algo.sortedUntilAny_src",
    "Verif.Src.Algo.sortedUntilOrd_src",
    "Verif.Src.Algo.sortedAny_src",
    "Verif.Src.Algo.sortedOrd_src",
    "Verif.Src.Algo.swap_src",
    "Verif.Src.Algo.fill_src",
    "Verif.Src.Algo.reverse_src",
    "Verif.Src.Algo.slice_impl",
    "Verif.Src.Algo.rev_impl",
    "Verif.Src.Algo.Walks.impl",
    "Verif.Src.Algo.forward_iff",
    "Verif.Src.Algo.backward_iff"
   ],
   "note": "ReferenceEqual (addresses of arrays) and the call of the comparator are the only parts that are not text. The comparator is a function of its arguments. The theorems named …_src are for iterators of any type whose methods do what a model of them does (RandImpl); slice_impl and rev_impl give the two instances."
  },
  {
   "property": "C151",
   "status": "proved",
   "theorems": [
    "Verif.Src.Algo.C151_call",
    "Verif.Src.Algo.C151_history",
    "Verif.Src.Algo.C151_ranges",
    "Verif.Src.Algo.C151_new",
    "Verif.Src.Algo.C151_newLen",
    "Verif.Src.Algo.C151_newLenCap",
    "Verif.Src.Algo.C151_of",
    "Verif.Src.Algo.C151_ofSlice",
    "Verif.Src.Algo.C151_copy",
    "Verif.Src.Algo.C151_reversed",
    "Verif.Src.Algo.C151_sub",
    "Verif.Src.Algo.C151_slice",
    "Verif.Src.Algo.C151_cap",
    "Verif.Src.Algo.C151_reverseSubRange",
    "Verif.Src.Algo.C151_insert",
    "Verif.Src.Algo.delete_src",
    "Verif.Src.Algo.deleteLast_src",
    "Verif.Src.Algo.unorderedDelete_src",
    "Verif.Src.Algo.insert_src"
   ],
   "note": "The text is the one that C150_text says is parsed. ReferenceEqual compares addresses and is not text. NewLenCap is as in C21: the code passes the capacity for the length."
  },
  {
   "property": "C152",
   "status": "proved",
   "theorems": [
    "Verif.Src.XMap.C152_text",
    "Verif.Src.XMap.C152_arrayMap_call",
    "Verif.Src.XMap.C152_arrayMap_history",
    "Verif.Src.XMap.C152_arrayMap_text",
    "Verif.Src.XMap.C152_arrayMap_list",
    "Verif.Src.XMap.C152_arrayMap_panics",
    "Verif.Src.XMap.C152_arrayMap_wrong",
    "Verif.Src.XMap.C152_custom_call",
    "Verif.Src.XMap.C152_custom_history",
    "Verif.Src.XMap.C152_custom_text",
    "Verif.Src.XMap.C152_custom_loses",
    "Verif.Src.XMap.C152_set_call",
    "Verif.Src.XMap.C152_set_history",
    "Verif.Src.XMap.C152_set_text",
    "Verif.Src.XMap.C152_enumerate",
    "Verif.Src.XMap.C152_clear"
   ],
   "note": "Map.Stream is left out (it is in stream). Histories go up to the first panic. The keys of ArrayMap have ordinary equality in the histories; Clear and the enumerations allow keys that are not equal to themselves."
  },
  {
   "property": "C153",
   "status": "proved",
   "theorems": [
    "Verif.Src.Hash.C153_text",
    "Verif.Src.Hash.C153_xxh3",
    "Verif.Src.Hash.C153_injective",
    "Verif.Src.Hash.C153_calls",
    "Verif.Src.Hash.C153_toUint64",
    "Verif.Src.Hash.C153_putUint64",
    "Verif.Src.Hash.C153_sum",
    "Verif.Src.Hash.C153_write",
    "Verif.Src.Hash.C153_history",
    "Verif.Src.Hash.C153_chain",
    "Verif.Src.Hash.C153_one_word",
    "Verif.Src.Hash.C153_short",
    "Verif.Src.Hash.C153_beyond"
   ],
   "note": "The functions that call package xxh3 (xhash/xxh3.go) are left out. A slice given to Write is not in the array that holds the object, and its capacity is at most 2^63 - 9. bits.RotateLeft64 and bits.ReverseBytes32 are parameters with the meaning of their documentation."
  },
  {
   "property": "C154",
   "status": "proved",
   "theorems": [
    "Verif.CustomMap.Overflow.C154_exact",
    "Verif.CustomMap.Overflow.C154_spec",
    "Verif.CustomMap.Overflow.C154_loses",
    "Verif.Src.XMap.C154_text_call",
    "Verif.Src.XMap.C154_text_history",
    "Verif.Src.XMap.C154_text",
    "Verif.Src.XMap.C154_text_loses"
   ],
   "note": "The struct with an overflow table is not one that NewCustom makes (see C30); these are the branches of the methods that C29, C30 and C152 do not reach. C154_exact and C154_loses say exactly up to where the methods are right."
  },
  {
   "property": "C155",
   "status": "proved",
   "theorems": [
    "Verif.Src.Shard.C155_text",
    "Verif.Src.Shard.C155_text_history",
    "Verif.Src.Shard.C155_text_all"
   ],
   "note": "One goroutine; C34 to C38 are about any number of them, on the model. The lock is given by four functions written for this (Src/ShardProg.lean), which panic where sync.RWMutex would block or fail. NewShardedCustom and the methods with defer or function literals (GetOrSet, GetOrSetDefault, Iterate and its kin, Keys, Values, Entries, ToMap, Clear) are not in the program."
  },
  {
   "property": "C156",
   "status": "proved",
   "theorems": [
    "Verif.Src.IterRest.C156_text",
    "Verif.Src.IterRest.C156_ConstReverse",
    "Verif.Src.IterRest.C156_Reverse",
    "Verif.Src.IterRest.C156_ConstReverseRandom",
    "Verif.Src.IterRest.C156_Dummy",
    "Verif.Src.IterRest.C156_Append",
    "Verif.Src.IterRest.C156_Prepend",
    "Verif.Src.IterRest.C156_Insert"
   ],
   "note": "ReverseRandomIterator is in C150. == of the containers is what the semantics makes of it for their encoding (SameIs); pointers as such cannot be compared in the semantics, so a container is an element of the program in the case beside the theorems. For InsertIterator, Insert and Next must leave the cell of the iterator alone and not read it."
  },
  {
   "property": "C157",
   "status": "proved",
   "theorems": [
    "Verif.Src.Fns.C157_text",
    "Verif.Src.Fns.C157_elems",
    "Verif.Src.Fns.C157_lessFloat",
    "Verif.Src.Fns.C157_ints",
    "Verif.Src.Fns.C157_arith"
   ],
   "note": "The kinds of the semantics are int, uint, uint64, uint32, uint8 and named types over uint64; arithmetic of floats and complex numbers and + of strings are not in it. The functions of xfn that make functions are on the model only (C78 and the claims about predicates)."
  },
  {
   "property": "C158",
   "status": "proved",
   "theorems": [
    "Verif.Src.Rng.C158_text",
    "Verif.Src.Rng.C158_erase",
    "Verif.Src.Rng.C158_copyAndErase",
    "Verif.Src.Rng.C158_uint64",
    "Verif.Src.Rng.C158_uint64_slow"
   ],
   "note": "Uint64 with fewer than eight bytes left calls Read, which may be any function here (C158_uint64_slow) and is on the model only (C59-C63): arrays inside structs and array types with a named length are not in Src/Syntax.lean and Src/Sem.lean. copyAndErase is for slices of different arrays, as the code uses it."
  }
 ]
}
