{"id": "C01", "title": "Sort leaves the slice in ascending order", "statement": "After xsort.Sort(data, less) with less a strict weak order, no later element is less than an earlier one: for all i < j, less(data[j], data[i]) is false.", "quantifier": "every element type, every slice of every length, every strict weak order", "why_tests_cant": "pdqsort has many data-dependent paths (ninther pivots, pattern breaking, heapsort fallback, equal-partition, bounded insertion sort); tests reach a handful of inputs.", "anchors": ["xsort/sort_any.go:pdqsortLessFunc", "xsort/sort.go:Sort"]}
{"id": "C02", "title": "Sort only rearranges", "statement": "After xsort.Sort or xsort.SortOrdered the slice holds exactly the elements it held before (same multiset, same length), whatever the comparator answers, including comparators that are not a consistent order and floats with NaN.", "quantifier": "every slice and every pair of boolean comparison functions", "why_tests_cant": "inconsistent comparators drive the algorithm into states no sorted-input test reaches.", "anchors": ["xsort/sort_any.go:pdqsortLessFunc", "xsort/sort_ordered.go:pdqsortOrdered"]}
{"id": "C03", "title": "Sort and Stable always terminate without an out-of-range access", "statement": "xsort.Sort, SortOrdered, Stable and StableOrdered return normally (no panic, no infinite loop) on every slice and every comparator, including inconsistent ones.", "quantifier": "every slice and every pair of boolean comparison functions", "why_tests_cant": "termination and index safety are universal claims over all executions; a test can only time out on one.", "anchors": ["xsort/sort_any.go:pdqsortLessFunc", "xsort/sort_any.go:stableLessFunc", "xsort/sort_any.go:symMergeLessFunc", "xsort/sort_any.go:rotateLessFunc"]}
{"id": "C04", "title": "Stable leaves the slice in ascending order and only rearranges", "statement": "After xsort.Stable(data, less) with less a strict weak order the slice is ascending under less and is a permutation of the input.", "quantifier": "every slice and every strict weak order", "why_tests_cant": "block sizes double from 20 and SymMerge recurses; boundary cases depend on length and on every interleaving of equal elements.", "anchors": ["xsort/sort_any.go:stableLessFunc", "xsort/sort_any.go:symMergeLessFunc"]}
{"id": "C05", "title": "Stable keeps equal elements in their original order", "statement": "For every value x, the subsequence of elements equivalent to x under less is the same before and after xsort.Stable.", "quantifier": "every slice and every strict weak order", "why_tests_cant": "stability can be broken by one wrong comparison direction in a rare SymMerge branch; tests would need that exact shape.", "anchors": ["xsort/sort_any.go:symMergeLessFunc", "xsort/sort_any.go:rotateLessFunc", "xsort/sort_any.go:insertionSortLessFunc"]}
{"id": "C06", "title": "SortOrdered and StableOrdered agree with Sort and Stable under <", "statement": "On a type whose < is a total order, SortOrdered(data) produces exactly the result of Sort(data, Less) and StableOrdered(data) exactly that of Stable(data, Less); in particular both leave data ascending.", "quantifier": "every slice over every totally ordered element type", "why_tests_cant": "the two files are separately generated texts; equality of behaviour is a claim about all inputs.", "anchors": ["xsort/sort_ordered.go", "xsort/sort_any.go", "xsort/sort.go:SortOrdered", "xsort/sort.go:StableOrdered"]}
{"id": "C07", "title": "Sorting floats: NaN", "statement": "xsort.SortOrdered on a float slice leaves the non-NaN elements ascending even if NaN is present. Sort(data, xfn.LessFloat) puts every NaN before every number and leaves the numbers ascending.", "quantifier": "every float slice, with any number and position of NaN", "why_tests_cant": "NaN makes < not a strict weak order; the outcome depends on the positions of NaN.", "anchors": ["xsort/sort_ordered.go:insertionSortOrdered", "xfn/predicate.go:LessFloat"]}
{"id": "C08", "title": "LowerBound returns the first position not less than the value", "statement": "On a range partitioned by (element < value), LowerBound returns the iterator at the partition point: everything before it is less than value, nothing from it on is; it stays within [begin, end] and panics only when end precedes begin.", "quantifier": "every range length and content, every comparator, every value; for the search to be exact the range must be partitioned with respect to value", "why_tests_cant": "off-by-one errors in binary search show only for particular lengths and positions.", "anchors": ["algo/binary_search.go:LowerBoundIterators"]}
{"id": "C09", "title": "UpperBound returns the first position greater than the value", "statement": "On a range partitioned by not (value < element), UpperBound returns the iterator at the partition point: value is less than nothing before it and is less than everything from it on.", "quantifier": "every range length and content, every comparator, every value", "why_tests_cant": "off-by-one errors in binary search show only for particular lengths and positions.", "anchors": ["algo/binary_search.go:UpperBoundIterators"]}
{"id": "C10", "title": "IsSortedUntil returns the longest sorted prefix", "statement": "IsSortedUntil returns the end of the longest prefix in which no element is less than its predecessor; IsSorted is true exactly when that prefix is the whole range.", "quantifier": "every range and comparator", "why_tests_cant": "quantifies over all ranges.", "anchors": ["algo/is_sorted.go:IsSortedUntilIterators", "algo/is_sorted.go:IsSortedIterators"]}
{"id": "C11", "title": "NextPermutation moves to the next permutation in lexicographic order", "statement": "If the range has a lexicographically greater rearrangement, NextPermutation turns it into the least such rearrangement and returns true; otherwise it turns it into the ascending arrangement and returns false.", "quantifier": "every range, every strict weak order (with repeated or equivalent elements)", "why_tests_cant": "the claim 'least greater rearrangement' quantifies over all n! rearrangements.", "anchors": ["algo/next_permutation.go:NextPermutationIterators"]}
{"id": "C12", "title": "Repeated NextPermutation enumerates every arrangement exactly once", "statement": "Starting from the ascending arrangement and calling NextPermutation until it returns false visits every distinct rearrangement exactly once.", "quantifier": "every range over a linearly ordered element type", "why_tests_cant": "the number of arrangements is factorial; tests cover n <= 4 or so.", "anchors": ["algo/next_permutation.go:NextPermutationIterators"]}
{"id": "C13", "title": "Reverse and Swap", "statement": "algo.Reverse(first, last) reverses exactly the elements of [first, last) and leaves all others unchanged; algo.Swap exchanges two elements and is a no-op on equal iterators.", "quantifier": "every slice, every valid sub-range", "why_tests_cant": "quantifies over all lengths and sub-ranges.", "anchors": ["algo/generic.go:Reverse", "algo/generic.go:Swap"]}
{"id": "C14", "title": "FillN writes exactly count elements", "statement": "FillN(first, count, v) on a slice iterator sets the next count elements to v, leaves all others unchanged, returns first advanced by count, does nothing for count <= 0, and panics when fewer than count elements remain; on an append iterator it appends count copies.", "quantifier": "every slice, position, count and value", "why_tests_cant": "quantifies over all sizes and positions.", "anchors": ["algo/fill.go:FillN", "ds/iter/inserter.go:AppendIterator"]}
{"id": "C15", "title": "Reverse iterators traverse backwards", "statement": "Walking a reverse range (xslice ReverseRange, ReverseSubRange, or iter.ReverseRandomRange of a range) from Begin to End yields the underlying elements in reverse order, and writing through it changes the element it reads.", "quantifier": "every slice, sub-range and position", "why_tests_cant": "quantifies over all ranges; the adaptor ReverseRandomRange has no test.", "anchors": ["ds/iter/reverse.go:ReverseRandomIterator", "ds/iter/range.go:ReverseRandomRange", "ds/xslice/slice.go:ReverseRange"]}
{"id": "C16", "title": "Slice insert and delete have list semantics", "statement": "InsertAt(i, v), Delete(i), UnorderedDelete(i), DeleteLast() change the slice contents to exactly: v inserted before position i; element i removed, order kept; element i replaced by the last and the last dropped; last dropped. They panic exactly when i is out of range (or the slice is empty).", "quantifier": "every slice (length, spare capacity, contents), every index including negative", "why_tests_cant": "behaviour differs with spare capacity and boundary indices; tests pick a few.", "anchors": ["ds/xslice/ops.go:Insert", "ds/xslice/ops.go:Delete", "ds/xslice/ops.go:UnorderedDelete", "ds/xslice/ops.go:DeleteLast"]}
{"id": "C17", "title": "Slice operations write only inside their own window of the backing array", "statement": "InsertAt, Delete, UnorderedDelete, Append on a slice write no element of the backing array outside the slice's old or new window, so another slice of the same array sees changes only inside that window; when an append exceeds capacity the old array is not written at all.", "quantifier": "every backing array, every window (offset, length, capacity), every operation", "why_tests_cant": "aliasing effects depend on offset, length and capacity at once.", "anchors": ["ds/xslice/ops.go", "ds/xslice/slice.go:Append"]}
{"id": "C18", "title": "Iterators never leave the slice", "statement": "Next, Prev, Add, Inc, Dec, Advance on a valid xslice iterator either panic or give an iterator with position in [0, len], for every machine integer offset including those that overflow when added; Add(x) then Add(y) is Add(x+y) when all are in range, and Next/Prev are inverse.", "quantifier": "every slice, position and 64-bit offset", "why_tests_cant": "overflowing offsets and all positions cannot be enumerated.", "anchors": ["ds/xslice/iterator.go:Advance", "ds/xslice/iterator.go:Inc", "ds/xslice/iterator.go:Dec"]}
{"id": "C19", "title": "Insert through an iterator", "statement": "Slice.Insert(it, v) inserts v at it's position and returns an iterator that reads v and belongs to the updated slice; filling through iter.Insert(pos, slice) inserts the values in order starting at pos; an iterator of a slice with another backing array is rejected by panic before any change.", "quantifier": "every slice, every iterator position, every number of inserted values", "why_tests_cant": "reallocation happens at capacity boundaries; sequences of inserts cross them.", "anchors": ["ds/xslice/slice.go:Insert", "ds/iter/inserter.go:InsertIterator"]}
{"id": "C20", "title": "Reversed and Copy are fresh", "statement": "Reversed returns the elements in reverse order and Copy the same elements, in storage that no later write through either slice shares with the other.", "quantifier": "every slice and every later write", "why_tests_cant": "independence quantifies over all later writes.", "anchors": ["ds/xslice/slice.go:Reversed", "ds/xslice/slice.go:Copy"]}
{"id": "C21", "title": "NewLenCap gives the requested length", "statement": "xslice.NewLenCap(len, cap) returns a slice with Len() = len holding zero values and Cap() >= cap; xring.NewLenCap(len, cap) returns a ring with Len() = len of zero values.", "quantifier": "every 0 <= len <= cap", "why_tests_cant": "quantifies over all pairs; no test exists.", "anchors": ["ds/xslice/slice.go:NewLenCap", "ds/xring/ring.go:NewLenCap"]}
{"id": "C22", "title": "Ring behaves as a double-ended queue", "statement": "Any sequence of Append, Push, Prepend, Pop, DeleteFirst, DeleteLast, Set, At, First, Last, Len, Empty, ToSlice on a ring returns exactly what the same sequence on a plain list returns, including which calls panic.", "quantifier": "every initial ring (any constructor) and every finite operation sequence", "why_tests_cant": "wrap-around, growth and shrink combine differently for every history.", "anchors": ["ds/xring/ring.go"]}
{"id": "C23", "title": "Ring is first-in first-out", "statement": "Values taken with Pop come out in the order they were put in with Push, none lost or repeated, whatever the interleaving of Push and Pop.", "quantifier": "every interleaving of Push and Pop", "why_tests_cant": "histories are unbounded.", "anchors": ["ds/xring/ring.go:Push", "ds/xring/ring.go:Pop"]}
{"id": "C24", "title": "Ring capacity stays sufficient and proportionate", "statement": "Len() <= Cap() always; growing doubles Cap() below 1024 and adds a quarter from there on; after every operation Cap() <= 1024 or Cap()/8 <= Len()+1, so a ring drained to empty has Cap() <= 1024.", "quantifier": "every operation sequence", "why_tests_cant": "capacity depends on the whole history.", "anchors": ["ds/xring/ring.go:checkGrowth", "ds/xring/ring.go:checkShrink"]}
{"id": "C25", "title": "Ring forgets removed elements", "statement": "After any operation sequence starting from New or NewLen, every slot of the ring's storage that is not part of the current contents holds the zero value, so removed elements are not retained.", "quantifier": "every operation sequence", "why_tests_cant": "depends on the whole history; not observable through the tested API.", "anchors": ["ds/xring/ring.go:DeleteFirst", "ds/xring/ring.go:DeleteLast", "ds/xring/ring.go:checkShrink"]}
{"id": "C26", "title": "ToSlice copies out without touching the ring", "statement": "ToSlice(s) returns the contents in order and leaves the ring unchanged, both for s = nil and for a caller-supplied buffer of any length and capacity, including a buffer that is the array the ring was built from.", "quantifier": "every ring state, every destination buffer including one aliasing the ring", "why_tests_cant": "aliasing and wrap-around combine.", "anchors": ["ds/xring/ring.go:ToSlice", "ds/xring/ring.go:OfSlice"]}
{"id": "C27", "title": "ArrayMap behaves as a map", "statement": "Any sequence of Set, Delete, Has, TryGet, Get, Clear on an ArrayMap returns what the same sequence on a mathematical map returns: TryGet gives the last value set and not since deleted, and no such call fails with an index error.", "quantifier": "every operation sequence", "why_tests_cant": "errors need particular set/delete orders; there is no test.", "anchors": ["ds/xmap/arraymap.go"]}
{"id": "C28", "title": "ArrayMap Len and At enumerate the live entries", "statement": "Len() is the number of distinct live keys and At(0..Len()-1) lists each live key exactly once with its current value.", "quantifier": "every operation sequence", "why_tests_cant": "depends on the history of overwrites and deletes.", "anchors": ["ds/xmap/arraymap.go:Set", "ds/xmap/arraymap.go:Delete", "ds/xmap/arraymap.go:At"]}
{"id": "C29", "title": "Custom map behaves as a map keyed by the supplied equality", "statement": "For an equivalence comparator and a hash that agrees on equivalent keys, any sequence of Set, Get, Delete on a Custom map returns what a mathematical map keyed up to that equivalence returns, including when distinct keys have the same hash.", "quantifier": "every hash function, equivalence and operation sequence", "why_tests_cant": "64-bit hash collisions never occur in tests with a good hash.", "anchors": ["ds/xmap/custom.go"]}
{"id": "C30", "title": "Custom map reports additions and deletions correctly", "statement": "Custom.Set returns true exactly when the key was absent; Delete returns true exactly when it was present; Get of an absent key returns the zero value and false.", "quantifier": "every operation sequence", "why_tests_cant": "needs colliding keys.", "anchors": ["ds/xmap/custom.go"]}
{"id": "C31", "title": "Set behaves as a mathematical set", "statement": "Add, TryAdd, Delete, TryDelete, Has, Len, Values, Clear behave as on a finite set: TryAdd/TryDelete return whether the set changed, Len is the number of members, Values lists each member once.", "quantifier": "every operation sequence over keys whose == is reflexive", "why_tests_cant": "unbounded histories.", "anchors": ["ds/xmap/set.go", "ds/xmap/ops.go"]}
{"id": "C32", "title": "Keys, Values, Entries enumerate a map exactly; Clear empties it", "statement": "Keys, Values and Entries of a map list every entry exactly once in some order; after Clear the map has no entries, for every key type allowed by comparable.", "quantifier": "every map content and every iteration order, including key types with NaN", "why_tests_cant": "iteration order is random and NaN keys cannot be deleted by key.", "anchors": ["ds/xmap/ops.go:Entries", "ds/xmap/ops.go:Clear"]}
{"id": "C33", "title": "Sharded map behaves as one map when used sequentially", "statement": "For every shard count and hash function, any sequential history of Set, TrySet, TryGet, Get, GetOrSetFactory, GetOrSetDefault, Has, Delete, Len, Empty, Keys, Values, Entries, ToMap, Clear gives the results of a single map; Keys/Entries list each entry exactly once.", "quantifier": "every shard count >= 1, hash function, seed, and operation sequence", "why_tests_cant": "hash placement varies by seed; unbounded histories.", "anchors": ["ds/xmap/sharded.go"]}
{"id": "C34", "title": "Sharded single-key operations are linearizable", "statement": "In every concurrent execution of Set, TrySet, TryGet, Has, Delete, GetOrSetDefault and GetOrSetFactory by any number of goroutines, there is a sequential order of the calls, consistent with real-time order, in which a plain map gives the same results.", "quantifier": "every number of goroutines, every program and every interleaving", "why_tests_cant": "interleavings are unbounded; races show rarely.", "anchors": ["ds/xmap/sharded.go:Set", "ds/xmap/sharded.go:TrySet", "ds/xmap/sharded.go:GetOrSetFactory"]}
{"id": "C35", "title": "GetOrSet creates at most one value per key", "statement": "If several goroutines call GetOrSetFactory or GetOrSetDefault for an absent key and nobody deletes it, exactly one call reports found = false, the factory result of only that call is used, and every call returns that same value; a factory runs only if its result gets stored.", "quantifier": "every number of goroutines and every interleaving", "why_tests_cant": "double-checked locking errors need a precise interleaving.", "anchors": ["ds/xmap/sharded.go:GetOrSetFactory", "ds/xmap/sharded.go:GetOrSetDefault"]}
{"id": "C36", "title": "Sharded map is free of data races", "statement": "In every execution no goroutine writes a shard's table while another goroutine is reading or writing it: writers hold the shard's lock exclusively, readers at least shared. This must include Clear.", "quantifier": "every number of goroutines, every mix of operations including Clear, every interleaving", "why_tests_cant": "race detectors only see executed schedules.", "anchors": ["ds/xmap/sharded.go:Clear", "ds/xmap/sharded.go:Iterate"]}
{"id": "C37", "title": "Sharded Len and Empty report a state the map was in", "statement": "The value returned by a concurrent Len() equals the number of entries at some moment during the call, and Empty() returns true only if the map was empty at some moment during the call.", "quantifier": "every interleaving of Len/Empty with updates", "why_tests_cant": "needs updates landing between two shard visits.", "anchors": ["ds/xmap/sharded.go:Len", "ds/xmap/sharded.go:Empty"]}
{"id": "C38", "title": "Sharded operations do not deadlock", "statement": "In every reachable state in which some operation is unfinished, some goroutine can take a step, and every operation (with factories and callbacks that return and do not call back into the map) finishes.", "quantifier": "every number of goroutines and every interleaving", "why_tests_cant": "liveness over all schedules.", "anchors": ["ds/xmap/sharded.go"]}
{"id": "C39", "title": "atomic.Value Load, Store, Swap and successful CompareAndSwap are linearizable", "statement": "In every concurrent execution of Load, Store, Swap, CompareAndSwap by any number of goroutines, the calls can be ordered consistently with real time so that a plain variable gives the same results, except that CompareAndSwap may report false without cause (see next).", "quantifier": "every number of goroutines, every program, every interleaving", "why_tests_cant": "interleavings are unbounded.", "anchors": ["atomic/value.go"]}
{"id": "C40", "title": "atomic.Value CompareAndSwap fails only if the value differed", "statement": "CompareAndSwap(old, new) returns false only if at some moment during the call the stored value was different from old (so the whole object, failures included, is linearizable).", "quantifier": "every number of goroutines and every interleaving", "why_tests_cant": "needs a same-value Store between two instructions of another goroutine.", "anchors": ["atomic/value.go:CompareAndSwap"]}
{"id": "C41", "title": "A zero atomic.Value holds the zero value", "statement": "Before any Store, Load and Swap return the zero value and CompareAndSwap(zero, new) can succeed; after Store(v) an undisturbed Load returns v.", "quantifier": "every type and every value", "why_tests_cant": "quantifies over all values and histories.", "anchors": ["atomic/value.go:Load", "atomic/value.go:Swap"]}
{"id": "C42", "title": "A stream pipeline computes the list pipeline", "statement": "For a finite source with elements xs and any chain of Map, Filter, Skip, Limit, Peek, Slice() returns the list obtained by applying map, filter, drop, take in the same order to xs.", "quantifier": "every source list and every chain of intermediate operations of any length", "why_tests_cant": "Skip is sometimes pushed into the source and counters are mutated in place; correctness depends on the order of the whole chain.", "anchors": ["stream/stream.go:Next", "stream/stream.go:Skip", "stream/stream.go:Limit"]}
{"id": "C43", "title": "Peek sees exactly the elements that reach it", "statement": "A consumer added with Peek is called once, in order, for every element that reaches that point of the chain in list semantics, up to the elements the terminal operation needs.", "quantifier": "every source and chain", "why_tests_cant": "depends on the order of Peek, Skip, Limit.", "anchors": ["stream/stream.go:Peek", "stream/stream.go:Skip"]}
{"id": "C44", "title": "Limit takes no more than n elements from its source", "statement": "A stream limited to n elements asks its source for at most n elements and terminates once n elements have been delivered, also on an infinite source.", "quantifier": "every source, finite or infinite, every chain and n", "why_tests_cant": "over-reading by one is invisible in results; divergence cannot be tested.", "anchors": ["stream/stream.go:Next", "stream/stream.go:Limit"]}
{"id": "C45", "title": "Terminal operations agree with their list meaning", "statement": "Count, Slice, Collect, Reduce, All, Any, None, First on a stream that yields xs equal length, xs, in-order calls, left fold, for-all, exists, not-exists, head of xs (First panics on empty); All and Any consume only up to the deciding element, leaving the rest in the stream.", "quantifier": "every stream yielding a finite list, every predicate and accumulator", "why_tests_cant": "quantifies over all lists and functions.", "anchors": ["stream/stream.go:All", "stream/stream.go:Reduce", "stream/stream.go:First"]}
{"id": "C46", "title": "A finished stream stays finished", "statement": "Once Next has returned false every later Next returns the zero value and false, whatever the source would do, and intermediate operations added later do not revive it or panic.", "quantifier": "every stream, every later sequence of calls", "why_tests_cant": "unbounded call sequences.", "anchors": ["stream/stream.go:clear", "stream/stream.go:Skip"]}
{"id": "C47", "title": "Range yields the arithmetic progression", "statement": "Range(start, end, step) yields start, start+step, ... while not past end (inclusive) and then stops; RangeN(n) yields 0..n-1; for every integer type including fixed-width and unsigned ones.", "quantifier": "every start, end, step != 0 of every machine integer type", "why_tests_cant": "overflow at type bounds; the state space is 2^192 for 64-bit.", "anchors": ["stream/source.go:intSource", "stream/source.go:RangeN"]}
{"id": "C48", "title": "Skipping is the same as taking and dropping", "statement": "For every source kind (slice, range, generator, bounded generator, iterator range, type-mapped stream), SkipNext(n) followed by reading yields what reading and discarding n elements first yields.", "quantifier": "every source state and every n >= 0", "why_tests_cant": "quantifies over states and n, including n beyond the end.", "anchors": ["stream/source.go:SkipNext"]}
{"id": "C49", "title": "Type-changing Map commutes with the pipeline", "statement": "stream.Map(s, f) yields f applied to each element of s in order, and any further chain on it behaves as on the mapped list, including Skip.", "quantifier": "every stream, function and chain", "why_tests_cant": "Skip is forwarded through nested streams.", "anchors": ["stream/stream.go:typeTransformerStream", "stream/stream.go:Map"]}
{"id": "C50", "title": "Predicate combinators mean and, or, not", "statement": "And(ps...)(v) is true exactly when every p(v) is; Or(ps...)(v) exactly when some p(v) is; Not(ps...)(v) exactly when no p(v) is; p.Neg() is the negation; p.And, p.Or include p.", "quantifier": "every list of predicates (including empty) and every value", "why_tests_cant": "universal over predicate lists; And has no test.", "anchors": ["xfn/predicate.go:And", "xfn/predicate.go:Or", "xfn/predicate.go:Not"]}
{"id": "C51", "title": "Comparison predicates are consistent", "statement": "IsEqAny(xs...) is membership and IsNeqAny its negation; IsEq/IsNeq, Less/GreaterEq and Greater/LessEq are complementary on totally ordered types; HasPrefix/HasSuffix (string and bytes) hold exactly when v = prefix + rest (v = rest + suffix).", "quantifier": "every value and argument", "why_tests_cant": "universal over strings and values.", "anchors": ["xfn/predicate.go"]}
{"id": "C52", "title": "LessFloat is a strict weak order with NaN first", "statement": "LessFloat is irreflexive, transitive, has transitive incomparability, orders every NaN before every non-NaN and agrees with < on non-NaN.", "quantifier": "every triple of floats", "why_tests_cant": "2^192 triples.", "anchors": ["xfn/predicate.go:LessFloat"]}
{"id": "C53", "title": "FullComparatorOf, Min and Max", "statement": "FullComparatorOf(a,b) is negative, zero or positive as a < b, neither, a > b, and swaps sign when arguments are swapped; Min and Max return one of their arguments, a bound of both, on totally ordered types; Min(a,b) = Min(b,a) also for floats with NaN.", "quantifier": "every pair of values", "why_tests_cant": "universal.", "anchors": ["xfn/comparator.go:FullComparatorOf", "xmath/number.go:Min"]}
{"id": "C54", "title": "Bind routes arguments as documented", "statement": "If Bind[Dest](src, args...) returns, calling the result with inputs ys calls src exactly once with, at each bound position, the converted bound argument, at each placeholder Pk, the k-th input, and at the remaining positions the inputs after the highest placeholder used, in order; the outputs are src's outputs.", "quantifier": "every src and dest signature, every bound argument list and input list", "why_tests_cant": "unbounded arities and placeholder patterns.", "anchors": ["xfn/bind.go:Bind"]}
{"id": "C55", "title": "Bind checks everything up front", "statement": "Bind panics exactly when signatures are incompatible (outputs differ, too many arguments, placeholder out of range, type mismatch, not enough inputs); a bound function that Bind returned never fails on argument types or counts when called.", "quantifier": "every signature and argument list, including variadic src", "why_tests_cant": "unbounded signatures.", "anchors": ["xfn/bind.go:Bind"]}
{"id": "C56", "title": "Uint64 and Uint64Seed are collision-free on 64-bit keys", "statement": "xhash.Uint64 maps distinct 64-bit values to distinct hashes, and so does Uint64Seed for every fixed seed.", "quantifier": "all 2^64 values, all seeds", "why_tests_cant": "2^128 pairs.", "anchors": ["xhash/fast64.go:rrmxmx", "xhash/fast64.go:Uint64Seed"]}
{"id": "C57", "title": "Incremental64 is determined by what was written", "statement": "Write(p) changes the state as a function of the bytes of p only (not of memory beyond p), never panics, and returns len(p), nil; Reset returns to the initial state.", "quantifier": "every byte slice of every length and capacity, every prior state", "why_tests_cant": "depends on length modulo 8 and on capacity.", "anchors": ["xhash/fast64.go:Write"]}
{"id": "C58", "title": "Incremental64 distinguishes the last word", "statement": "Two hash states that were equal and are then fed different 64-bit words have different Sum64; Sum appends the 8 little-endian bytes of Sum64 and changes nothing.", "quantifier": "every state and pair of words", "why_tests_cant": "2^192 cases.", "anchors": ["xhash/fast64.go:WriteUint64", "xhash/fast64.go:Sum", "xhash/binary.go"]}
{"id": "C59", "title": "RNG Read always fills its argument", "statement": "For every RNG made by a constructor that did not panic, every sequence of Read and Uint64 calls returns normally, Read(b) returns len(b), nil; constructors panic exactly when bufsize < 64 or rounds is not 8, 12 or 20.", "quantifier": "every seed, nonce, buffer size, round count and call sequence (ChaCha as an arbitrary keystream function)", "why_tests_cant": "unbounded histories; buffer refill depends on the exact offset.", "anchors": ["secrand/rng.go:Read", "secrand/rng.go:NewRNGCustom"]}
{"id": "C60", "title": "RNG erases output it has handed out", "statement": "After any call sequence, every byte position of the internal buffer that has been handed out since the last refill is zero.", "quantifier": "every call sequence", "why_tests_cant": "depends on the whole history; internal state.", "anchors": ["secrand/rng.go:copyAndErase", "secrand/rng.go:Read"]}
{"id": "C61", "title": "RNG Uint64 is the next eight bytes", "statement": "Uint64 returns the little-endian value of the eight bytes a Read of eight bytes would have produced and leaves the generator in the same state; Int63 is that value with the top bit cleared, hence non-negative.", "quantifier": "every generator state", "why_tests_cant": "the two code paths differ; equality is over all states.", "anchors": ["secrand/rng.go:Uint64", "secrand/rng.go:Int63"]}
{"id": "C62", "title": "RNG output does not depend on how reads are split", "statement": "Reading n bytes in several small Reads gives the same bytes as one Read, as long as every single Read is no larger than the internal buffer.", "quantifier": "every state and every split", "why_tests_cant": "unbounded splits; refill boundary.", "anchors": ["secrand/rng.go:Read"]}
{"id": "C63", "title": "RNG Read overwrites or xors as documented", "statement": "Read xors the random data onto the previous contents of b (documented), the same way for every length.", "quantifier": "every state, length and previous content", "why_tests_cant": "the branches differ by length.", "anchors": ["secrand/rng.go:Read"]}
{"id": "C64", "title": "Synchronized gives mutual exclusion", "statement": "With Synchronized/RWSynchronized, between a goroutine's Lock and Unlock no other goroutine holds the value; readers exclude writers; in particular counters incremented under Lock lose no update.", "quantifier": "every number of goroutines and every interleaving", "why_tests_cant": "schedules are unbounded.", "anchors": ["xsync/synchronized.go"]}
{"id": "C65", "title": "Pooled generators are never shared", "statement": "The package-level functions of xrand and secrand never let two goroutines use the same generator at the same time, and return it to the pool even when the call panics.", "quantifier": "every number of goroutines, every interleaving, every pool eviction", "why_tests_cant": "schedules and GC evictions are unbounded.", "anchors": ["xrand/pool.go", "secrand/pool.go", "xrand/xrand.go:Intn"]}
{"id": "C66", "title": "xsync.Pool Get returns a usable pointer", "statement": "Pool[T].Get returns a non-nil *T that was Put before or was made by New, and does not panic for a zero Pool.", "quantifier": "every history of Get and Put and evictions", "why_tests_cant": "eviction is nondeterministic.", "anchors": ["xsync/pool.go:Get"]}
{"id": "C67", "title": "Sharded Entries during updates is weakly consistent", "statement": "Entries() run concurrently with other calls lists each key at most once, lists only entries that were in the map at some moment of the call, and lists every entry that was in the map throughout the call.", "quantifier": "every execution by any number of goroutines, every shard count and hash function", "why_tests_cant": "depends on interleavings between the shard scans and the updates.", "anchors": ["ds/xmap/sharded.go:Entries", "ds/xmap/sharded.go:Iterate"]}
{"id": "C68", "title": "atomic.Value methods are wait-free", "statement": "A goroutine inside Load, Store, Swap or CompareAndSwap can always take its next step, whatever the other goroutines do (in particular no nil or unallocated pointer is dereferenced), and returns after at most four atomic steps of its own.", "quantifier": "every execution by any number of goroutines", "why_tests_cant": "tests cannot show the absence of blocking over all interleavings.", "anchors": ["atomic/value.go"]}
{"id": "C69", "title": "Incremental64 detects every change of one word", "statement": "Writing two equally long sequences of 64-bit words that differ at exactly one position (also through Write, for slices whose length is divisible by 8 that differ in one aligned word) gives different Sum64; hash states that differ still have different Sum64 after the same words are written to both.", "quantifier": "every state, every pair of word sequences of any length", "why_tests_cant": "2^64 words at each of unboundedly many positions.", "anchors": ["xhash/fast64.go:WriteUint64", "xhash/fast64.go:Write", "xhash/fast64.go:Sum64"]}
{"id": "C70", "title": "RNG later output does not depend on how earlier reads were split", "statement": "Two sequences of Reads on the same generator that ask for the same total number of bytes, each Read no larger than the internal buffer, give the same bytes and leave the generator in the same state.", "quantifier": "every generator state, every pair of splits", "why_tests_cant": "unbounded splits; the difference only shows after a refill.", "anchors": ["secrand/rng.go:Read"]}
{"id": "C71", "title": "RNG never hands out its key or a byte twice", "statement": "After any call sequence, the first 32 bytes of the buffer (the next key) have never been handed out, and no position of the buffer has been handed out twice between two refills.", "quantifier": "every call sequence on a new generator", "why_tests_cant": "depends on the whole history; internal state.", "anchors": ["secrand/rng.go:Read", "secrand/rng.go:Uint64"]}
{"id": "C72", "title": "Sort calls the comparator O(n log n) times", "statement": "With less a strict weak order, xsort.Sort and xsort.SortOrdered call the comparator at most n*(130*(floor(log2 n)+1)+29) times on a slice of n elements.", "quantifier": "every slice of every length, every strict weak order", "why_tests_cant": "worst cases of pdqsort are adversarial inputs (unbalanced partitions, many equal elements, almost sorted prefixes); no finite set of inputs bounds them.", "anchors": ["xsort/sort_any.go:pdqsortLessFunc", "xsort/sort_any.go:heapSortLessFunc", "xsort/sort_any.go:breakPatternsLessFunc"]}
{"id": "C73", "title": "Stable calls the comparator O(n log n) times", "statement": "xsort.Stable and StableOrdered call the comparator at most n*(4*(floor(log2 n)+1)+19) times on a slice of n elements, whatever the comparator answers.", "quantifier": "every slice of every length, every comparator, including stateful and inconsistent ones", "why_tests_cant": "the bound is over all answer sequences.", "anchors": ["xsort/sort_any.go:stableLessFunc", "xsort/sort_any.go:symMergeLessFunc"]}
{"id": "C74", "title": "Sort stays quadratic against any comparator", "statement": "Against a comparator that is not an order, or that answers from a state, xsort.Sort calls it at most n*(7n+4*(floor(log2 n)+1)+18) times.", "quantifier": "every slice, every answer sequence", "why_tests_cant": "inconsistent comparators are not tested.", "anchors": ["xsort/sort_any.go:pdqsortLessFunc", "xsort/sort_any.go:partialInsertionSortLessFunc"]}
{"id": "C75", "title": "An ascending slice is left alone", "statement": "On a slice that is ascending already, xsort.Sort changes nothing and calls the comparator at most n+11 times; hence sorting a sorted slice again changes nothing. xsort.Stable changes nothing either.", "quantifier": "every ascending slice (Sort: whatever the comparator answers on other pairs; Stable: every strict weak order)", "why_tests_cant": "all lengths; equal elements could be moved by the quicksort branch.", "anchors": ["xsort/sort_any.go:pdqsortLessFunc", "xsort/sort_any.go:choosePivotLessFunc", "xsort/sort_any.go:partialInsertionSortLessFunc"]}
{"id": "C76", "title": "A panicking comparator loses no element", "statement": "If the comparator panics during xsort.Sort or xsort.Stable, the panic is the one the caller sees (raised on two elements of the slice) and the slice holds exactly the elements it held before, in some order.", "quantifier": "every slice, every comparator that may keep state and may panic at any call", "why_tests_cant": "the panic can come at any of the comparator calls.", "anchors": ["xsort/sort_any.go:pdqsortLessFunc", "xsort/sort_any.go:stableLessFunc"]}
{"id": "C77", "title": "Ring resizing is amortised constant time", "statement": "Over any sequence of ring operations starting from any well-formed ring, the total number of elements copied by growing and shrinking is at most 24 times the number of calls plus three times the initial length; reads copy nothing.", "quantifier": "every ring state and every sequence of operations", "why_tests_cant": "the bound is about sums over unbounded histories, including adversarial alternation around the thresholds.", "anchors": ["ds/xring/ring.go:checkGrowth", "ds/xring/ring.go:checkShrink"]}
{"id": "C78", "title": "Arithmetic operators compute modulo the width", "statement": "xfn.Plus, Minus, Mult, Div, Mod on signed and unsigned integers are the mathematical operation reduced to the width; division truncates towards zero, x = (x/y)*y + x%y, only division by zero panics, MinInt / -1 is MinInt, Plus(rhs), Minus(rhs), ... are functions of the left operand, PlusOp(lhs, rhs), ... take both in the written order.", "quantifier": "every width, every pair of operands", "why_tests_cant": "2^128 operand pairs for 64-bit types.", "anchors": ["xfn/arithmetic.go"]}
{"id": "C79", "title": "Searches call the comparator at most log2(n)+1 times and only they can make it panic", "statement": "LowerBound and UpperBound call the comparator at most b times on a range of fewer than 2^b elements, IsSortedUntil at most n-1 times; none of them changes the range and they panic only if the comparator does. The comparator may keep state and answer anything.", "quantifier": "every sequence, every comparator with state", "why_tests_cant": "stateful and panicking comparators cannot be enumerated.", "anchors": ["algo/binary_search.go:LowerBoundIterators", "algo/binary_search.go:UpperBoundIterators", "algo/is_sorted.go:IsSortedUntilIterators"]}
{"id": "C80", "title": "NextPermutation with any comparator only rearranges", "statement": "NextPermutation with a comparator that may keep state, answer inconsistently or panic leaves [first,last) a permutation of what it was and everything else unchanged, calls the comparator at most (n-1)+log2(n)+1 times, and if the comparator panics no element has been moved.", "quantifier": "every sequence, every comparator with state", "why_tests_cant": "stateful and panicking comparators cannot be enumerated.", "anchors": ["algo/next_permutation.go:NextPermutationIterators"]}
{"id": "C81", "title": "atomic.Ptr is a linearizable, wait-free register", "statement": "Load, Store, Swap and CompareAndSwap of atomic.Ptr are linearizable against a register of pointers, every call takes a bounded number of its own steps, and if all writes are CompareAndSwap(nil, p) with p not nil (the init-once idiom), at most one ever succeeds, and exactly one has when the pointer is no longer nil.", "quantifier": "every number of threads, every program, every interleaving", "why_tests_cant": "interleavings cannot be enumerated.", "anchors": ["atomic/ptr.go"]}
{"id": "C82", "title": "SkipNext reports how many elements it skipped", "statement": "SkipNext(n) of a source returns the number of elements that n calls of Next would have given, or -1 for integer ranges and mapped streams, which evaluate lazily.", "quantifier": "every source, every state, every n >= 0", "why_tests_cant": "every source state and n, including n near the largest int.", "anchors": ["stream/stream.go:SkipNext", "stream/source.go:SkipNext"]}
{"id": "C83", "title": "A source yields its data in order", "statement": "Of and OfSlice yield the elements of the slice, Generate the results of successive calls, BoundedGenerate those up to the first ok=false, OfRange and OfIterators the elements between the iterators; each in order and each once.", "quantifier": "every slice, generator with state, iterator range; every number of reads", "why_tests_cant": "generators with arbitrary state, arbitrary data.", "anchors": ["stream/source.go:Next", "stream/conv.go"]}
{"id": "C84", "title": "Ranges of a slice cover what they say", "statement": "IteratorAt(pos) panics exactly if pos is outside [0,len]; SubRange(first,last) panics exactly if an end is outside; walking Range gives the whole slice, walking SubRange(i,j) with i<=j gives s[i:j], RangeDistance is j-i; iter.SubRange does the same relative to the beginning of any range. A sub-range with exchanged ends is accepted but walking it panics.", "quantifier": "every valid slice and every integer", "why_tests_cant": "every position and length.", "anchors": ["ds/xslice/slice.go:IteratorAt", "ds/xslice/slice.go:SubRange", "ds/iter/range.go:SubRange", "ds/iter/range.go:RangeDistance"]}
{"id": "C85", "title": "Going through a sharded map sees one moment per shard", "statement": "Entries, Keys, Values, ToMap and Iterate (if its fn does not panic) run concurrently with other calls see, for each shard, exactly the entries that the map held in that shard at one moment of the call, each key once; an Iterate whose fn panics has been called on each key at most once and only with entries that were there at a moment of the call. Hence a key that is in the map throughout is listed even if its value changes.", "quantifier": "every execution by any number of goroutines calling operations on single keys and operations that read, every shard count and hash function", "why_tests_cant": "depends on interleavings between the shard scans and the updates.", "anchors": ["ds/xmap/sharded.go:Iterate", "ds/xmap/sharded.go:IterateShardsReadOnly", "ds/xmap/sharded.go:Keys", "ds/xmap/sharded.go:Values", "ds/xmap/sharded.go:ToMap"]}
{"id": "C86", "title": "User code called by a sharded map runs under the shard's lock and must stay off the shard", "statement": "Factories run while the caller holds the shard of the key for writing and nobody else is inside; fn of Iterate and IterateShardsReadOnly runs under a read lock, fn of IterateShards under a write lock. A factory that calls any method on a key of the same shard never returns, whatever other goroutines do; the same holds for a write in fn of Iterate; a read in fn of Iterate never returns if a writer is waiting; two factories that set keys of each other's shard never return.", "quantifier": "every shard count and hash function, every key, every behaviour of all other goroutines", "why_tests_cant": "a claim about all continuations; some of the deadlocks need a writer to arrive between two steps.", "anchors": ["ds/xmap/sharded.go:GetOrSetFactory", "ds/xmap/sharded.go:Iterate", "ds/xmap/sharded.go:IterateShards", "ds/xmap/sharded.go:IterateShardsReadOnly"]}
{"id": "C87", "title": "Exchanges of elements", "statement": "Sort exchanges elements at most 2n times more often than it calls the comparator, whatever the comparator answers; with a strict weak order that is O(n log n). Stable exchanges elements at most n*((log2 n + 1)^2 + 19) times. The slice left behind arises from the original one by exactly these exchanges.", "quantifier": "every slice of every length and every comparator, also stateful and inconsistent ones", "why_tests_cant": "a bound over all inputs and all answer sequences; inconsistent comparators are unbounded in number.", "anchors": ["xsort/sort_any.go:pdqsortLessFunc", "xsort/sort_any.go:stableLessFunc", "xsort/sort_any.go:symMergeLessFunc", "xsort/sort_any.go:rotateLessFunc", "xsort/sort_ordered.go:pdqsortOrdered"]}
{"id": "C88", "title": "Depth of recursion", "statement": "During Sort at most k recursive calls of pdqsort are in progress at any time on a slice of fewer than 13*2^k elements, in particular at most log2 n; during Stable at most k recursive calls of symMerge on a slice of at most 3*2^k elements; all calls have returned at the end. This holds whatever the comparator answers.", "quantifier": "every slice of every length, every comparator, every moment of the run", "why_tests_cant": "the worst case depends on adversarial answers; a stack overflow would only show on sizes that cannot be tried.", "anchors": ["xsort/sort_any.go:pdqsortLessFunc", "xsort/sort_any.go:symMergeLessFunc", "xsort/sort_ordered.go:pdqsortOrdered", "xsort/sort_ordered.go:symMergeOrdered"]}
{"id": "C89", "title": "Sorting, then searching or enumerating", "statement": "After Sort or Stable with a strict weak order, IsSorted is true; LowerBound and UpperBound delimit exactly the elements equivalent to the value, as many as the unsorted data had; reading at the lower bound finds an equivalent element iff the unsorted data has one. After Sort with a strict linear order, the loop over NextPermutation visits every distinct arrangement of the data exactly once.", "quantifier": "every random access sequence, every comparator that is a strict weak (linear) order, every value", "why_tests_cant": "the properties of the functions are composed through the contents of memory, for all lengths and orders", "anchors": ["xsort/sort.go:Sort", "xsort/sort.go:Stable", "algo/binary_search.go:LowerBoundIterators", "algo/binary_search.go:UpperBoundIterators", "algo/is_sorted.go:IsSortedIterators", "algo/next_permutation.go:NextPermutationIterators"]}
{"id": "C90", "title": "Clear while others use the map", "statement": "A call of Clear empties every shard at some moment of the call, whatever other goroutines call meanwhile; when it returns, every key that no concurrent call can add is absent; a key still present was absent at one moment of the call and some concurrent call could add it. Over several shards there need not be a moment at which the whole map is empty.", "quantifier": "all executions with any number of goroutines calling any methods, any number of shards, any hash", "why_tests_cant": "interleavings are unbounded", "anchors": ["ds/xmap/sharded.go:Clear"]}
{"id": "C91", "title": "Each shard is linearizable, also with Clear", "statement": "In every execution of all methods except IterateShards, the history is linearizable for each single shard seen as one map that calls on its keys act on and that Clear empties; with one shard the whole map is linearizable including Clear, Len and Empty. With several shards, single-key operations and Clear are not linearizable as one map.", "quantifier": "all executions with any number of goroutines, any number of shards, any hash; each shard", "why_tests_cant": "needs a sequential order for every interleaving", "anchors": ["ds/xmap/sharded.go:Clear", "ds/xmap/sharded.go:Set", "ds/xmap/sharded.go:GetOrSetFactory", "ds/xmap/sharded.go:Len", "ds/xmap/sharded.go:Empty"]}
{"id": "C92", "title": "Streams that panic, hang or never end", "statement": "If reading a stream yields values vs and the next read panics (or does not return), then every terminal operation that consumes vs without a verdict panics with the same message (or does not return), and All, Any, None, First and Next that can decide from vs return the value they return for any stream starting with vs. On an endless stream Reduce, Collect, Count and Slice never return, and All, Any and None return exactly when some element decides. If the source gives xs and then fails, a chain of Map, Filter and Peek gives what the chain makes of xs and then fails the same way.", "quantifier": "all sources, all element types, all operation chains and callbacks, all numbers of values before the fault", "why_tests_cant": "divergence cannot be observed by running", "anchors": ["stream/stream.go:Reduce", "stream/stream.go:Collect", "stream/stream.go:All", "stream/stream.go:Any", "stream/stream.go:None", "stream/stream.go:First", "stream/stream.go:Count", "stream/stream.go:Slice", "stream/stream.go:Next"]}
{"id": "C93", "title": "The pattern-breaking generator of pdqsort never gets stuck", "statement": "xorshift.Next is an invertible linear map on 64-bit words over xor; 0 is its only state mapped to 0; started from a non-zero seed it never reaches 0, and it runs through the seed again.", "quantifier": "all 64-bit seeds, all numbers of steps", "why_tests_cant": "2^64 seeds", "anchors": ["xsort/sort.go:Next", "xsort/sort_any.go:breakPatternsLessFunc"]}
{"id": "C94", "title": "Crypto source: value, failure, nothing lost", "statement": "Crypto().Uint64 makes one read of eight bytes of the system's entropy and returns their little-endian value, or panics if the read fails; Int63 is the same value without its highest bit and is never negative; Seed has no effect. Different bytes give different Uint64 values and every value is reached; two byte strings give the same Int63 exactly if they agree up to the highest bit of the last byte.", "quantifier": "all entropy sources, all byte strings", "why_tests_cant": "2^64 byte strings; the entropy source cannot be controlled", "anchors": ["xrand/crypto.go:Uint64", "xrand/crypto.go:Int63", "xrand/crypto.go:Seed"]}
{"id": "C95", "title": "Map.Stream streams every entry once", "statement": "m.Stream() followed by any chain of stream operations gives what the list operations make of the map's entries, each once, in the order of some range over the map; through Map, Filter and Peek the results of Count, All, Any, None and of Reduce by an order-insensitive accumulator do not depend on that order.", "quantifier": "all maps including nil, all key equalities, all iteration orders, all chains whose skips fit (as in C42)", "why_tests_cant": "iteration orders are chosen by the runtime", "anchors": ["ds/xmap/map.go:Stream", "ds/xmap/ops.go:Entries"]}
{"id": "C96", "title": "Which pivot pdqsort takes", "statement": "For a strict weak order, choosePivot changes nothing and returns a position in its range: the element at 2*(l/4) of a range of l < 8 elements without comparing, a median of the elements at l/4, 2*(l/4), 3*(l/4) for l < 50 with three comparisons, a median of the medians of these with their neighbours from 50 on with twelve comparisons. The hint is 'increasing' just if no triple looked at descends anywhere, 'decreasing' just if four triples were looked at and all descend strictly; with a hint the pivot is the one in the middle.", "quantifier": "all strict weak orders, all slices, all non-empty ranges", "why_tests_cant": "all contents and lengths; a wrong pivot still sorts", "anchors": ["xsort/sort_any.go:choosePivotLessFunc", "xsort/sort_any.go:medianLessFunc", "xsort/sort_any.go:order2LessFunc", "xsort/sort_any.go:medianAdjacentLessFunc"]}
{"id": "C97", "title": "Descending slices are turned round", "statement": "Sort of a strictly descending slice of n >= 50 elements returns it reversed, with exactly n + 11 calls of the comparator and exactly n/2 (rounded down) exchanges.", "quantifier": "all comparators, all strictly descending slices of at least 50 elements", "why_tests_cant": "all lengths; a slower path gives the same result", "anchors": ["xsort/sort_any.go:pdqsortLessFunc", "xsort/sort_any.go:reverseRangeLessFunc", "xsort/sort_any.go:partialInsertionSortLessFunc", "xsort/sort_any.go:choosePivotLessFunc"]}
{"id": "C98", "title": "What breakPatterns does", "statement": "breakPatterns on a range of l elements compares nothing; for l < 8 it does nothing; otherwise it makes exactly three exchanges, of the elements around position 2*(l/4) of the range, each with a partner inside the range: the next number of the xorshift generator seeded with l, cut to the bits of l, less l if not below l. Nothing outside the range changes.", "quantifier": "all slices, all ranges shorter than 2^63", "why_tests_cant": "all lengths; a different shuffle still sorts", "anchors": ["xsort/sort_any.go:breakPatternsLessFunc", "xsort/sort.go:nextPowerOfTwo"]}
{"id": "C99", "title": "Streams over iterators that panic", "statement": "OfIterators and OfRange panic if comparing the two iterators panics. Otherwise, if from the first iterator one meets the elements xs before Equal, Get or Next of the iterator panics, any chain of Map, Filter and Peek gives exactly what it makes of xs and then panics with the iterator's panic.", "quantifier": "all iterator types, all states, all chains of Map, Filter and Peek", "why_tests_cant": "all iterator implementations and all fault positions", "anchors": ["stream/source.go:OfRange", "stream/source.go:OfIterators", "stream/source.go:iteratorSource.Next"]}
{"id": "C100", "title": "Incremental64 as a hash.Hash", "statement": "The sum depends on the bytes written and not on how they were cut into Write calls; writing nothing changes nothing. Sum appends Size bytes, and Write takes every slice whose length is a multiple of n just if BlockSize divides n.", "quantifier": "all states, all sequences of writes", "why_tests_cant": "all ways to cut all inputs", "anchors": ["xhash/fast64.go:Incremental64.Write", "xhash/fast64.go:Incremental64.Sum", "xhash/fast64.go:Incremental64.Size", "xhash/fast64.go:Incremental64.BlockSize"]}
{"id": "C101", "title": "Panicking calls release their locks", "statement": "When the use of a map panics because the key cannot be hashed, the call holds no lock afterwards, so other goroutines can go on.", "quantifier": "all executions, any number of goroutines, any set of keys that cannot be hashed", "why_tests_cant": "all interleavings", "anchors": ["ds/xmap/sharded.go:Sharded.Set", "ds/xmap/sharded.go:Sharded.TrySet", "ds/xmap/sharded.go:Sharded.TryGet", "ds/xmap/sharded.go:Sharded.Has", "ds/xmap/sharded.go:Sharded.Delete", "ds/xmap/sharded.go:Sharded.GetShard"]}
{"id": "C102", "title": "A sharded map over any key type", "statement": "Called one after the other, the methods of a sharded map (IterateShards excepted) return, with the results of one Go map, also for keys that are not == to themselves and whose hash differs at each call. Such a key is never found again; each Set of it makes Len larger by one, Delete of it changes nothing.", "quantifier": "all symmetric and transitive ==, all hashes that agree on == keys, all sequences of calls", "why_tests_cant": "all key types and hashes", "anchors": ["ds/xmap/sharded.go:Sharded.Set", "ds/xmap/sharded.go:Sharded.GetOrSetFactory", "ds/xmap/sharded.go:Sharded.GetOrSetDefault", "ds/xmap/sharded.go:Sharded.Len", "ds/xmap/sharded.go:Sharded.ToMap", "ds/xmap/sharded.go:Sharded.GetShard"]}
{"id": "C103", "title": "Whose memory a ring uses", "statement": "A ring made by New, NewLen, NewLenCap or Copy is a double-ended queue whatever the program writes elsewhere, and changes no memory but arrays of its own. A ring made by OfSlice works in the caller's slice until its capacity first changes, and never touches it afterwards. A pointer from AtRef refers to its slot of the buffer until the capacity changes and to nothing of the ring afterwards. ToSlice gives the elements in a new array or in the slice passed to it and writes nothing else.", "quantifier": "all memory contents, all sequences of calls with arbitrary other writes in between", "why_tests_cant": "all interleavings of calls with writes to other memory", "anchors": ["ds/xring/ring.go:OfSlice", "ds/xring/ring.go:Copy", "ds/xring/ring.go:Ring.checkGrowth", "ds/xring/ring.go:Ring.checkShrink", "ds/xring/ring.go:Ring.AtRef", "ds/xring/ring.go:Ring.ToSlice", "ds/xring/ring.go:Ring.DeleteFirst"]}
{"id": "C104", "title": "Ranges given back to front", "statement": "If first lies behind last, or in another slice, no algorithm loops for ever, loses an element or writes outside the slice. Reverse exchanges the elements before last with those from first on, mirrored, until it meets an end of the slice, and panics. IsSorted never returns true and changes nothing. NextPermutation works on everything before last: it makes its next permutation if there is one, and otherwise panics having changed nothing. With ends in different slices every algorithm panics before anything else.", "quantifier": "all iterators that panic outside their sequence, all sequences, positions and comparators", "why_tests_cant": "all sequences, pairs of positions and comparators", "anchors": ["algo/generic.go:Reverse", "algo/is_sorted.go:IsSortedUntilIterators", "algo/next_permutation.go:NextPermutationIterators", "algo/binary_search.go:LowerBoundIterators", "ds/xslice/iterator.go:Iterator.Equal"]}
{"id": "C105", "title": "Which bytes an RNG hands out, and the seeds of NewRNG", "statement": "Byte p of an RNG's output is byte 32 + p mod size of the keystream of the key for filling p div size, xored with byte p - size of the output if that byte was handed out by the same Read as the first byte of filling p div size (a Read that straddles two fillings), and with nothing otherwise; the first key is the seed, the second the first 32 bytes of its keystream, each further one the one before xored with the first 32 bytes of its own keystream. A Read too large for two fillings takes the next 32 bytes as a key and xors its keystream onto the argument. The i-th NewRNG is seeded with bytes 32i to 32i+31 of the master's output, so no byte is used for two seeds. NewRNGFromReader panics unless the reader gives 32 bytes.", "quantifier": "every cipher, seed, nonce, round count, buffer size and sequence of Reads of any lengths; any number of NewRNG calls", "why_tests_cant": "all sequences of reads; needs a formula for the whole output", "anchors": ["secrand/rng.go:RNG.Read", "secrand/rng.go:NewRNG", "secrand/rng.go:NewRNGFromReader", "secrand/rng.go:NewRNGCustom"]}
{"id": "C106", "title": "Callbacks of a stream that panic", "statement": "If a mapper, predicate or consumer in a pipeline panics and the caller recovers, exactly the element being processed is lost: what the caller gets from further calls is what the pipeline makes of the source's items, with a panic in place of each such element; neither Skip nor Limit counts an element that panicked before reaching it, and counts one that panicked behind it. The end of the stream, once reported, is reported forever. A terminal operation stops at the first panic, its own callback's or the pipeline's; what it had gathered is lost and the stream goes on with the rest.", "quantifier": "every source (also one that panics, or is endless), every pipeline, every choice of elements on which callbacks panic, any number of calls", "why_tests_cant": "needs all combinations of panicking callbacks and counters and the state left behind by each", "anchors": ["stream/stream.go:Stream.Next", "stream/stream.go:typeTransformerStream.Next", "stream/stream.go:Stream.Collect", "stream/stream.go:Stream.All", "stream/stream.go:Stream.Any", "stream/stream.go:Stream.Slice", "stream/stream.go:Stream.Reduce"]}
{"id": "C107", "title": "Stream.String", "statement": "String prints the name of the element type and all elements of the stream in order, separated by a comma and a space, and uses the stream up, so that printing again shows an empty stream. If elements print differently, not as nothing and without commas, the string determines the elements; otherwise different streams can print the same.", "quantifier": "every stream that yields a finite list, every way of printing elements", "why_tests_cant": "all lists; injectivity is about pairs of streams", "anchors": ["stream/stream.go:Stream.String"]}
{"id": "C108", "title": "Package hasher and NewSharded", "statement": "Hash, HashSeed, HashPointer and HashPointerSeed agree with one another; keys that are == have the same hash at any time, a hash is below 2^w and only the low w bits of a seed count, w being the width of uintptr; the default seed is the low w bits of eight random bytes. NewSharded panics iff DefaultShards is not positive; otherwise it always uses the same shard for keys that are ==, so the map it makes behaves as one map for every key type.", "quantifier": "every key type, every runtime hash that respects ==, every width of uintptr, every seed and number of shards, every sequence of calls", "why_tests_cant": "the hash is random per process, for NaNs per call, and depends on the machine's word size", "anchors": ["hasher/hasher.go:Hasher.Hash", "hasher/hasher.go:Hasher.HashSeed", "hasher/hasher.go:Hasher.HashPointer", "hasher/hasher.go:Hasher.HashPointerSeed", "hasher/hasher.go:defaultSeed", "ds/xmap/sharded.go:NewSharded"]}
{"id": "C109", "title": "What Bind says when it panics", "statement": "A call of Bind that does not return panics with a message about the first thing that is wrong with it: the function types, then the outputs, the number of arguments, the arguments from left to right, the number of inputs left, the inputs left from left to right; the message names the position, the types at that position, the placeholder, or the types of the missing inputs. Making the message never panics. Positions are written as English ordinals.", "quantifier": "all signatures, all arguments, all type systems of reflect, all type names", "why_tests_cant": "several things can be wrong at once, at any position", "anchors": ["xfn/bind.go:Bind", "xfn/bind.go:_ith", "xfn/bind.go:Placeholder.String"]}
{"id": "C110", "title": "Binding twice is binding once", "statement": "If Bind returns f1 for a function with some arguments and returns f2 for f1 with further arguments, then Bind also returns for the function with the arguments put together (each placeholder of the first call replaced by what the second call put at that input), and calling that does exactly what calling f2 does. In particular values can be bound one after the other or together, and Bind without arguments to the function's own type changes nothing.", "quantifier": "all signatures with a first Dest that is not variadic, all arguments and placeholders, all values passed, all type systems of reflect", "why_tests_cant": "any number of inputs, any permutation and repetition of placeholders in both calls, conversions between any types", "anchors": ["xfn/bind.go:Bind"]}
{"id": "C111", "title": "Iterators of a slice that has changed since", "statement": "Iterators made from a slice belong to it (Insert takes them, Equal compares them with its iterators, reading and writing through them is At and Set) exactly as long as the slice has never been longer than its capacity when they were made; deleting leaves the removed or last element in the freed cell, where an old iterator finds it. From then on they never belong to it again, calls on the slice do not change what they read and writing through them does not change the slice.", "quantifier": "all slices, all sequences of Append, AppendMany, InsertAt, Insert, Delete, UnorderedDelete, DeleteLast, Set and of calls on iterators, all capacities chosen by append", "why_tests_cant": "all histories and all growth policies of append", "anchors": ["ds/xslice/iterator.go:Iterator.Get", "ds/xslice/iterator.go:Iterator.Set", "ds/xslice/iterator.go:Iterator.Equal", "ds/xslice/slice.go:Slice.Insert", "ds/xslice/slice.go:Slice.checkIterator", "ds/xslice/ops.go:ReferenceEqual"]}
{"id": "C112", "title": "A map call that panics leaves the map as it was", "statement": "If a call on an ArrayMap or a Custom panics (a key that cannot be hashed, a hash function or comparator that panics, a key that is not there), the map is afterwards what it was before the call.", "quantifier": "all histories, all keys and values, all hash functions and comparators and every call of them that panics", "why_tests_cant": "all histories and all functions, panicking at any place", "anchors": ["ds/xmap/arraymap.go:ArrayMap.Set", "ds/xmap/arraymap.go:ArrayMap.Delete", "ds/xmap/arraymap.go:ArrayMap.Get", "ds/xmap/custom.go:Custom.Set", "ds/xmap/custom.go:Custom.Delete", "ds/xmap/custom.go:Custom.Get"]}
{"id": "C113", "title": "Exactly what a stream reads and when its callbacks run", "statement": "Taking k elements from a stream reads the source up to the element that makes the k-th come through, and no further; reading to the end reads up to the first element that is one too many for some Limit, or to the end of the source, and never returns if there is neither. Each read is followed by the calls of those Peek consumers the element comes to, in the order of the chain, before the next read. Skips that no Filter or Limit comes before are done by the source, with no reads.", "quantifier": "all chains with legal arguments, all sources that behave like a finite or infinite sequence, all k", "why_tests_cant": "infinite sources, all chains, non-termination", "anchors": ["stream/stream.go:Stream.Next", "stream/stream.go:Stream.Skip", "stream/stream.go:Stream.Limit", "stream/stream.go:Stream.Peek", "stream/stream.go:Stream.Filter", "stream/stream.go:Stream.Slice"]}
{"id": "C114", "title": "Custom map on every history, collisions included", "statement": "A Custom map holds at most one key for each hash: the first Set of a key while its hash is free takes it until that key is deleted. For a key whose hash is taken by another key Set returns true and changes nothing, Get returns the value of the other key and false, Delete returns false; all other calls act as on a mathematical map. This determines the results of every history.", "quantifier": "all key types with an equivalence comparator and a hash agreeing with it, all histories", "why_tests_cant": "all histories and hash functions", "anchors": ["ds/xmap/custom.go:Custom.Get", "ds/xmap/custom.go:Custom.Set", "ds/xmap/custom.go:Custom.Delete"]}
{"id": "C115", "title": "Sorting looks at elements only through the comparator", "statement": "Two runs of Sort (or of Stable) on slices of the same length, of any element types, with comparators that may keep state or panic and that give the same answers about elements at the same places, take the same steps: equally many comparator calls, the same exchanges, the same panic. So the rearrangement depends only on the length and on the answers, and sorting by a function of the elements and then applying it is applying it and then sorting.", "quantifier": "all element types, slices, comparators", "why_tests_cant": "all types and comparators", "anchors": ["xsort/sort.go:Sort", "xsort/sort.go:Stable", "xsort/sort.go:SortOrdered", "xsort/sort.go:StableOrdered"]}
{"id": "C116", "title": "What sorting determines", "statement": "With a strict weak order, every ascending rearrangement has equivalent elements at the same places as the result of Sort; Sort and Stable agree up to equivalence whatever order the elements come in, and leave the same slice if different elements are never equivalent. The result of Stable is the only ascending list with the same equivalent elements in the same order; Stable by one order and then by another is Stable by the second with ties broken by the first.", "quantifier": "all slices, all strict weak orders", "why_tests_cant": "all slices and orders", "anchors": ["xsort/sort.go:Sort", "xsort/sort.go:Stable"]}
{"id": "C117", "title": "Copies of a ring value", "statement": "After q := r the two rings use the same buffer until one of them changes its capacity, and have no memory in common from then on: they are then independent queues for ever. Until then a call on one writes at most one cell, and the other sees exactly that: what is taken out of one becomes zero in the other, what is set is set in both. So they are not independent queues before, but adding is safe: whatever is added to r at either end, q keeps its elements.", "quantifier": "all rings, all sequences of calls on the two copies", "why_tests_cant": "all sequences of calls, all positions in the buffer", "anchors": ["ds/xring/ring.go:Ring", "ds/xring/ring.go:Append", "ds/xring/ring.go:Prepend", "ds/xring/ring.go:DeleteFirst", "ds/xring/ring.go:DeleteLast", "ds/xring/ring.go:checkGrowth", "ds/xring/ring.go:checkShrink"]}
{"id": "C118", "title": "The pattern-breaking generator goes through all words", "statement": "From any 64-bit word but 0, repeated calls of xorshift.Next go through all 2^64-1 words other than 0 before one comes again (the property the cited paper gives for 64-bit shift triples).", "quantifier": "all 64-bit seeds, all numbers of steps", "why_tests_cant": "2^64 seeds, cycles of up to 7*10^15 steps", "anchors": ["xsort/sort.go:Next", "xsort/sort_any.go:breakPatternsLessFunc"]}
{"id": "C119", "title": "A stream is the loop one would write", "statement": "A terminal operation on a stream with any chain of Map, Filter, Peek, Skip and Limit does exactly what the hand-written loop does (v = f(v), if !p(v) { continue }, c(v), if x > 0 { x--; continue } for Skip, if x > 0 { x-- } else { break } for Limit, then the terminal operation's callback): the callbacks run in the same order on the same values and see the same memory, which they and the source may change; the result or panic is the same, the stream is left with the source and the counters in the state where the loop leaves them (or empty, if the source has ended or a Limit was used up), and the one does not return iff the other does not. Over a slice the loop is `for _, v := range s`: the header is taken once and each element is read when its turn comes.", "quantifier": "all element types, memories, sources (infinite, panicking, with effects), chains, callbacks with arbitrary effects on memory and panics, accumulators", "why_tests_cant": "arbitrary effectful callbacks and sources, including ones that never return; exact interleaving of effects", "anchors": ["stream/stream.go:Next", "stream/stream.go:Collect", "stream/stream.go:All", "stream/stream.go:Any", "stream/stream.go:Reduce", "stream/source.go:sliceSource"]}
{"id": "C120", "title": "Streams over a slice that changes while it is streamed", "statement": "Each element of the slice is read when its turn comes, not earlier. So a callback that changes memory sees the chain applied to the original contents as long as every cell is untouched until it is read. In particular filtering in place works: with out := s[:0] and out = append(out, v) in Collect, out has what the chain makes of s, in the same array and without allocating. And appending one value per element to the streamed slice itself gives the original contents followed by the new values; the appended ones are not streamed. Two appends per element into s[:0] do not work.", "quantifier": "all heaps, slices, capacities, growth rules, chains of Map, Filter, Skip, Limit and Peek with pure callbacks, terminal callbacks with arbitrary effects", "why_tests_cant": "aliasing between the streamed slice and what callbacks write, for all chains and capacities", "anchors": ["stream/source.go:sliceSource", "stream/conv.go:OfSlice", "stream/stream.go:Next", "stream/stream.go:Collect"]}
{"id": "C121", "title": "Streams of streams", "statement": "A stream used as the source of another adds nothing: New(s) with operations cannot be told apart from s with these operations, stream.Map(s, t) with t from T to T cannot be told apart from s.Map(t) (with any operations before and after), stream.Map(stream.Map(s, t), u) not from stream.Map(s, u after t), and replacing s under stream.Map by a stream that cannot be told apart from it changes nothing. Cannot be told apart: after any calls of Next, the next one gives the same value, end or panic and leaves the same memory, or neither returns; every terminal operation then does the same too and leaves streams that cannot be told apart.", "quantifier": "all sources (infinite, panicking, with effects), streams in any state, also ended ones, operations with arbitrary effects on memory, panics and counters, all numbers of Next calls", "why_tests_cant": "observational equivalence over all effectful callbacks and sources, including calls that do not return and streams used again after a panic", "anchors": ["stream/stream.go:New", "stream/stream.go:Map", "stream/stream.go:typeTransformerStream", "stream/stream.go:Next"]}
{"id": "C122", "title": "Conflicting accesses are ordered by synchronisation", "statement": "In every execution, of two accesses to the same memory by different goroutines, one of them writing, the earlier happens before the later in the sense of the Go memory model: by program order and the edges that locks (Unlock to a later Lock or RLock, RUnlock to a later Lock), atomic pointers (a write to the read that finds it) and sync.Pool (Put of x to a Get that returns x) give. For the tables of the sharded map, the value in Synchronized and RWSynchronized (only read under RLock), the pooled generators and the master generator of xrand and secrand, and the cells behind atomic.Value.", "quantifier": "every number of goroutines, every mix of calls, every interleaving, evictions from the pool, panics in pooled calls", "why_tests_cant": "race detectors see only executed schedules; the order must exist in all of them", "anchors": ["ds/xmap/sharded.go", "xsync/synchronized.go", "xrand/pool.go", "secrand/pool.go", "atomic/value.go"]}
{"id": "C123", "title": "Sorting a slice that the comparator changes", "statement": "Sort and Stable with a comparator that, at each call, answers anything and overwrites the slice in any way: they return without an access out of range, within the number of calls of C74 and C73, and write nothing of their own (whatever is true of the contents regardless of order and is kept by the comparator's writes is true afterwards). If the comparator compares keys and its writes leave the keys in place, the keys end up as if they alone had been sorted. With a comparator that writes nothing it is the run of the model. Order is not promised otherwise.", "quantifier": "every length, contents, element type, comparator with state and writes", "why_tests_cant": "the comparator may do anything at each of unboundedly many calls", "anchors": ["xsort/sort_any.go", "xsort/sort.go"]}
{"id": "C124", "title": "Streams used by their own callbacks", "statement": "The callbacks of a stream may use that stream: read from it and add operations to it. Every call then returns, without a panic, and exactly the first n elements that arrive at a Skip(n) or Limit(n) are counted by it, whether they are read by the program or by a callback.", "quantifier": "every source list, operations, callbacks (programs over their own variables and the stream), growth policy of append", "why_tests_cant": "callbacks nest to any depth, and where append moves the slice depends on its growth", "anchors": ["stream/stream.go:67-103", "stream/stream.go:112-160"]}
{"id": "C125", "title": "Sorting takes the comparisons it has to", "statement": "Sort and Stable call the comparator at least n-1 times on every slice of n elements. Of the arrangements of given elements at most 2^k are sorted with at most k calls, so for n different elements some arrangement takes at least log2(n!), and n/2*log2(n/2), calls: the upper bounds of C72 and C73 cannot be improved by more than a constant factor.", "quantifier": "all strict weak orders, all element types and slices; for the second part elements of which no two different ones are equivalent", "why_tests_cant": "a lower bound over all inputs and lengths; counts all arrangements", "anchors": ["xsort/sort.go:Sort", "xsort/sort.go:Stable", "xsort/sort_any.go"]}
{"id": "C126", "title": "Programs over the concurrent types may take each call as one step", "statement": "If goroutines run any programs that call the methods of a Ptr, of a Value (of a type on which == is equality), the single-key and read-only operations of a Sharded map, or sections of a Synchronized value, then at every moment each goroutine that is not in a call is in a state of its program it can be in if every call took effect at once on a plain variable or map (a goroutine in a call: before or after it; CompareAndSwap of a Value may fail without cause unless only Load and CompareAndSwap are called). Hence: an update loop of Load and CompareAndSwap on a Value loses no update, and fails at most once for each success of another goroutine; goroutines that put an object into a nil Ptr with CompareAndSwap and then Load it all get the same; a key of a Sharded map is a lock, taken with TrySet and given back with Delete.", "quantifier": "all programs (deterministic, possibly endless), all numbers of goroutines, all interleavings", "why_tests_cant": "all programs and all interleavings", "anchors": ["atomic/value.go:CompareAndSwap", "atomic/value.go:Load", "atomic/ptr.go:CompareAndSwap", "ds/xmap/sharded.go:TrySet", "ds/xmap/sharded.go:Delete", "xsync/synchronized.go"]}
{"id": "C127", "title": "Several concurrent objects used together", "statement": "If goroutines use any family of Ptrs, Values (of types on which == is equality), Sharded maps (single-key and read-only operations) and Synchronized values together, in any interleaving of their steps, the history of all calls is explained by one order of all calls, which respects real time, on plain variables and maps (a CompareAndSwap of a Value may fail without cause). So programs that use several of the objects may take each call as one step, too. For example: if one goroutine stores x in a Value and then sets a key of a Sharded map, whoever sees the key and then loads the Value gets x.", "quantifier": "all families of objects, all programs, all interleavings", "why_tests_cant": "all families, programs and interleavings", "anchors": ["atomic/value.go:CompareAndSwap", "atomic/value.go:Load", "atomic/ptr.go", "ds/xmap/sharded.go", "xsync/synchronized.go"]}
{"id": "C128", "title": "No call starves", "statement": "In executions that go on for ever, with ever new calls by any number of goroutines: a call on a Value or a Ptr returns as soon as its own goroutine is treated weakly fairly (if it can always go on, it does), even if others are stopped in the middle of a call. A call on a Sharded map (Clear, Iterate and the like included), a section of a Synchronized or RWSynchronized, and every call when any number of these objects are used together, returns if all goroutines are treated strongly fairly (who can go on again and again does): writers are not starved by readers, readers not by writers, and no two calls wait for each other. For locks weak fairness is not enough: there is a weakly fair execution in which a Delete waits for ever.", "quantifier": "all endless executions, all numbers of goroutines and calls", "why_tests_cant": "a test sees finite executions", "anchors": ["ds/xmap/sharded.go", "atomic/value.go:CompareAndSwap", "atomic/ptr.go", "xsync/synchronized.go"]}
{"id": "C129", "title": "What the package-level random functions return", "statement": "For every source of non-negative 63-bit numbers (a secrand.RNG and xrand.Crypto() are such): Uint32, Int31, Int, Int63n, Int31n, Intn and the index Shuffle draws for i take the first of the source's numbers that lies in a certain set of more than half of all numbers, and return a function of it whose values are exactly 0 \u2026 n-1, each for the same count of numbers of the set. Int63n, Int31n, Intn panic exactly for n \u2264 0, Perm and Shuffle for n < 0; there are no other panics but the source's. Perm returns a permutation of 0 \u2026 n-1, Shuffle calls swap(i, j) with j \u2264 i for i from n-1 down to 1 and permutes a slice, and there is a bijection between the permutations and the possible lists of drawn indices. Read gives the bytes left over from last time and then seven bytes of each number, lowest first, draws only as many numbers as needed, and does not depend on how it is split into calls; byte p read from a new secrand generator is byte p/7*8 + p%7 of the generator's output.", "quantifier": "all sources, states, arguments", "why_tests_cant": "which numbers lead to which result is a statement about 2^63 numbers; bias of one in 2^32 is invisible to tests", "anchors": ["xrand/xrand.go", "secrand/secrand.go", "secrand/pool.go", "secrand/rng.go:Int63"]}
{"id": "C130", "title": "Enumerating all arrangements costs a constant number of comparisons each", "statement": "Calling NextPermutation from the ascending arrangement of n elements until it returns false calls the comparator at most 4\u00b7n! times in all; if the elements are distinct these are n! arrangements, so at most four calls per arrangement on average, whatever n. A single call makes at most d + b calls, where d < 2^b is the number of elements after the last ascent. This holds for every comparator that answers by a strict linear order, also if it counts, logs or writes elsewhere, and with it NextPermutation does what it does with a pure one.", "quantifier": "all ranges, element types, strict linear orders, comparators with effects outside the range", "why_tests_cant": "an average over n! calls for all n; tests can run to n = 10", "anchors": ["algo/next_permutation.go:NextPermutationIterators", "algo/is_sorted.go:IsSortedUntilIterators", "algo/binary_search.go:UpperBoundIterators"]}
{"id": "C131", "title": "Sort and Stable, with their loops unbounded and the comparator called where it stands, end and sort", "statement": "For every slice and every comparator \u2014 which may keep state, contradict itself and panic \u2014 Sort and Stable end: they return, or they end with a panic the comparator raised on two elements of the slice, and in both cases the slice holds exactly the original elements. If the comparator orders the elements of the slice (strict weak order), both return with the slice ascending, Stable keeping equivalent elements in their order, after O(n log n) calls of the comparator as counted by the comparator itself; an ascending slice is left as it is after at most n + 11 calls.", "quantifier": "all slices shorter than 2^63, element types, comparators with state and panics", "why_tests_cant": "termination and the call count over all comparators, including ones that are not orders, and all lengths", "anchors": ["xsort/sort.go:Sort", "xsort/sort.go:Stable", "xsort/sort_any.go:pdqsortLessFunc", "xsort/sort_any.go:stableLessFunc", "xsort/sort_any.go:symMergeLessFunc", "xsort/sort_any.go:partitionLessFunc"]}
{"id": "C132", "title": "Writing to rings through append and prepend iterators", "statement": "Any sequence of writes through iter.Append and iter.Prepend iterators on any number of rings, in any order, never panics, and leaves every ring with what was written to its front (last first), what it held, and what was written to its end (in order). FillN through such an iterator adds exactly count copies at that end, returns the iterator it was given and touches no other ring. Next and Get of these iterators have no effect; Equal says whether two iterators write to the same container, and panics exactly for two containers of one uncomparable type; writing through an iterator made from a nil container panics without effect.", "quantifier": "all rings, values, counts and interleavings of writes", "why_tests_cant": "all interleavings over any number of rings in all states of wrap-around and growth", "anchors": ["ds/iter/inserter.go:Append", "ds/iter/inserter.go:Prepend", "ds/xring/ring.go:Append", "ds/xring/ring.go:Prepend", "algo/fill.go:FillN"]}
{"id": "C133", "title": "Sort and Stable while the comparator or other goroutines write to the slice", "statement": "If the comparator assigns to elements of the slice while it is sorted, or other goroutines do so at any time, Sort and Stable still end: they return, or end with a panic the comparator raised; they never index out of range. The slice then holds only values it held before or that the others wrote, and the comparator is only called with such values. It is called at most n*(7n+4(log2 n+1)+18) times by Sort and n*(4(log2 n+1)+19) times by Stable.", "quantifier": "all slices, comparators with state and panics, and all writes by the comparator and by others before any access", "why_tests_cant": "all interleavings of writes with the accesses of the sort, and all comparators", "anchors": ["xsort/sort.go:Sort", "xsort/sort.go:Stable", "xsort/sort_any.go"]}
{"id": "C134", "title": "Float64 and Float32 of the random packages", "statement": "Float64 and Float32 of xrand and secrand return a number in [0,1), never 1. They draw again for exactly 512 of the 2^63 words of the source (Float64) and 2^38+512 of them (Float32). The result is the word divided by 2^63, rounded to nearest, ties to even (Float32: twice). For every number x of the format in [0,1], the share of words that lead to a result below x differs from x by at most 2^-54 (Float64) or 2^-25+2^-54 (Float32), and every number of the format in [0,1) that is a multiple of 2^-63 is a result. Neither panics unless the source does.", "quantifier": "all sources with non-negative Int63, all their states, all words", "why_tests_cant": "the exceptional words are 512 of 2^63, and a distribution is a statement about all words", "anchors": ["xrand/xrand.go:Float64", "xrand/xrand.go:Float32", "secrand/secrand.go:Float64", "secrand/secrand.go:Float32"]}
{"id": "C135", "title": "Several insert iterators on one slice", "statement": "Writes through any number of iter.Insert iterators on one Slice, in any order: they all return exactly if those that no longer fit the capacity the slice had at first all go through the same iterator; a write through an iterator made before a reallocation by another panics and changes nothing. Each write inserts at the index its own iterator holds and moves only that index. With room, two iterators written through from back to front put their values where they were made to; from front to back the second puts them too far to the front by as many elements as the first inserted. FillN inserts count copies at the position whatever reallocations happen and returns its iterator. Next and Get have no effect; Equal ignores positions.", "quantifier": "every valid slice, every growth policy of append, all positions and all sequences of writes", "why_tests_cant": "interleavings of iterators and capacities are unbounded", "anchors": ["ds/iter/inserter.go:InsertIterator", "ds/xslice/slice.go:Insert", "algo/fill.go:FillN"]}
{"id": "C136", "title": "The algorithms on dummy iterators", "statement": "A pair of DummyIterators is an empty range: every algorithm of package algo, and SubRange, Distance and RangeDistance, returns at once with the answer for an empty range and changes no memory; FillN writes nothing. However a DummyIterator is moved and written to, it stays at position 0 and reads the zero value.", "quantifier": "all comparators, values and counts", "why_tests_cant": "generic code over every value and comparator", "anchors": ["ds/iter/dummy.go:DummyIterator"]}
{"id": "C137", "title": "Sub-slices share the array of the slice they were taken from", "statement": "Sub(a, b) returns exactly for 0 <= a <= b <= cap (not len) and holds the cells a..b of the whole capacity, so elements removed by DeleteLast can be had back. For any number of variables holding sub-slices of one slice, overlapping or not, and any history of Append, AppendMany, InsertAt, Delete, UnorderedDelete, DeleteLast, At, Set, iterator Get, Set, Equal and Insert on them: every result and panic, every variable's list and the shared cells are those of a list of shared cells in which a call on one view rewrites only what that view sees, until it outgrows the capacity and gets a list of its own. In particular AppendMany on Sub(a, b) overwrites the elements of the slice behind b when they fit its capacity, and leaves the slice alone otherwise. At, Set, First and Last panic exactly outside the length.", "quantifier": "every valid slice, every family of sub-slices, all histories, every growth policy of append", "why_tests_cant": "aliasing depends on offsets, lengths, capacities and the order of calls; the combinations are unbounded", "anchors": ["ds/xslice/slice.go:Sub", "ds/xslice/slice.go:Append", "ds/xslice/slice.go:At", "ds/xslice/slice.go:Set", "ds/xslice/slice.go:First", "ds/xslice/slice.go:Last"]}
{"id": "C138", "title": "What the functions made by package xfn keep", "statement": "Or, And, Not, IsEqAny, IsNeqAny, HasPrefixBytes and HasSuffixBytes keep the slice they are given: each call means what they mean for the elements the slice holds at the time of that call, so storing another function or value in the slice replaces it in every function already made from it. p.Or(fns...) and p.And(fns...) keep a new slice holding p and the functions of fns at that time; no change of memory outside that slice changes what they mean. However the calls of a function made by Bind overlap, in other goroutines or because src calls it again, each passes to src what it would pass alone: its own inputs where the placeholders say and the bound arguments; none panics before src is called, and one that has begun can always go on.", "quantifier": "all slices, heaps, later changes of memory, inputs; all interleavings of any number of calls of a bound function", "why_tests_cant": "aliasing of variadic slices and interleavings of overlapping calls are unbounded", "anchors": ["xfn/predicate.go:Or", "xfn/predicate.go:And", "xfn/predicate.go:Not", "xfn/predicate.go:IsEqAny", "xfn/predicate.go:IsNeqAny", "xfn/predicate.go:HasPrefixBytes", "xfn/predicate.go:HasSuffixBytes", "xfn/bind.go:Bind"]}
{"id": "C139", "title": "LowerBound and UpperBound on a range that need not be sorted", "statement": "Whatever the range holds and whatever the comparator answers, also if it answers the same question differently, a position k returned by LowerBound on [i, j) satisfies: if i < k, the comparator has said that the element before k is less than the value; if k < j, it has said that the element at k is not. For UpperBound: it has said that the value is not less than the element before k, and that it is less than the element at k. For a comparator that is a function of its arguments both always return such a position, and it is the only one with this property exactly if the range is partitioned.", "quantifier": "all ranges, memories, comparators, positions", "why_tests_cant": "unsorted ranges and inconsistent comparators are unbounded", "anchors": ["algo/binary_search.go:LowerBoundIterators", "algo/binary_search.go:UpperBoundIterators"]}
{"id": "C140", "title": "The algorithms while the range is being changed", "statement": "Let the comparator assign to elements of the range, and let others do so before every access, where all they assign satisfies a predicate that the elements satisfied at the start. On positions i..j, fewer than 2^b apart, LowerBound and UpperBound end after at most b calls of the comparator, IsSortedUntil after at most j-i-1, NextPermutation after at most j-i-1+b; all arguments of these calls satisfy the predicate, and so do all elements afterwards; what they return is a position from i to j; the only panic is one of the comparator. Swap, Reverse and FillN always return, and all elements afterwards satisfy the predicate.", "quantifier": "all ranges, memories, predicates, comparators, behaviours of the others between accesses", "why_tests_cant": "interleavings with writers are unbounded", "anchors": ["algo/binary_search.go:LowerBoundIterators", "algo/binary_search.go:UpperBoundIterators", "algo/is_sorted.go:IsSortedUntilIterators", "algo/next_permutation.go:NextPermutationIterators", "algo/generic.go:Swap", "algo/generic.go:Reverse", "algo/fill.go:FillN"]}
{"id": "C141", "title": "What the two programs for dieharder print", "statement": "secrand/dieharder_test without -raw prints, for every seed, nonce and number of turns, the output of the generator from the first byte on (the formula of C105). With -raw it prints 499 bytes per turn; byte i of filling k is that of the formula, xored with the byte printed 1024 places before if 1024 <= i + 1024k mod 499. So both print the same up to byte 2022 and in the first 526 bytes of every filling, and of the 26 bytes from 2022 on each is the same exactly if the byte 1024 places before is zero. The seed does not determine what is printed, because the nonce is drawn by the process. xhash/diehard_gen prints eight bytes per turn, or nothing without a flag: with -uint64 and with -uint64_seed every 64-bit word exactly once in 2^64 turns, then the same again; with -incr64 words that come back to the first after p <= 2^64 turns, with no word twice before.", "quantifier": "all seeds, nonces, flags, numbers of turns", "why_tests_cant": "periods of 2^64 words", "anchors": ["secrand/dieharder_test/main.go:main", "xhash/diehard_gen/main.go:main"]}
{"id": "C142", "title": "User code that goes to higher shards only cannot deadlock; MarshalJSON", "statement": "Let goroutines run any programs over the shards (in particular methods with user code that calls methods of the map) that ask for the lock of a shard only while all locks they hold are of lower shards, and that give back what they take. Then in every reachable state in which some call is unfinished some unfinished call can go on, and there is no infinite sequence of steps without new calls. Every method may be called under locks of lower shards than those it locks itself. A factory called on k may go to higher shards than that of k, the fn of Iterate, IterateShards and IterateShardsReadOnly called for shard i to higher ones than i, and what MarshalJSON calls to any. What MarshalJSON returns is an encoding of a map that agrees on each shard with the map at some moment of the call.", "quantifier": "all numbers of shards, hashes, programs of goroutines, schedules", "why_tests_cant": "deadlock needs a particular interleaving", "anchors": ["ds/xmap/sharded.go:GetOrSetFactory", "ds/xmap/sharded.go:Iterate", "ds/xmap/sharded.go:IterateShards", "ds/xmap/sharded.go:IterateShardsReadOnly", "ds/xmap/sharded.go:MarshalJSON"]}
{"id": "C143", "title": "SortOrdered and StableOrdered while other goroutines write to the slice", "statement": "For every slice, all operators < and >= (as with floats, one need not be the negation of the other), and whatever other goroutines write to the slice before each single access: SortOrdered and StableOrdered return, they never index out of range, the length stays, they compare at most n(7n+4(log2 n+1)+18) resp. n(4(log2 n+1)+19) times, and every value in the slice afterwards was there before or was written by the others. With nobody else they leave what the transcription without others leaves. Values can be lost.", "quantifier": "all element types, operators, slices, and behaviours of the other goroutines", "why_tests_cant": "data races have too many interleavings to test", "anchors": ["xsort/sort.go:SortOrdered", "xsort/sort.go:StableOrdered", "xsort/sort_ordered.go"]}
{"id": "C144", "title": "Where hasher.Of finds the runtime's hash function", "statement": "With structures laid out as the Go compiler does it, hasher.Of reads, for words of 8 and of 4 bytes, the word at offset 72 resp. 44 of the description that the interface value points to. If the runtime's description of a map type begins with the fields maptype has up to hasher, whatever follows, Of returns the function that is in that field, without reading anything else; and it does so in every memory if and only if the runtime has that field at this offset.", "quantifier": "all memories, byte orders, addresses and layouts of the runtime's description", "why_tests_cant": "a test sees one version of the runtime on one machine", "anchors": ["hasher/hasher.go:Of", "hasher/runtime_go118.go:_type", "hasher/runtime_go118.go:maptype"]}
{"id": "C145", "title": "Uint64 and Uint64Seed compute XXH3", "statement": "Uint64Seed(v, seed) is the 64-bit XXH3 hash with that seed of the eight bytes of v, upper half first, each half little endian; Uint64(v) is the one without a seed; every input of eight bytes is covered. So XXH3 has no collisions on inputs of eight bytes, and an Incremental64 chains XXH3: each word is hashed with what came before as the seed, starting from the first word of XXH3's secret, and Sum64 hashes the result once more.", "quantifier": "all words, seeds, inputs of eight bytes and sequences of words", "why_tests_cant": "the tests compare some thousand values with another implementation", "anchors": ["xhash/fast64.go:Uint64", "xhash/fast64.go:Uint64Seed", "xhash/fast64.go:rrmxmx", "xhash/fast64.go:Incremental64", "xhash/fast64_test.go:TestUint64"]}
{"id": "C146", "title": "The repository's concurrent tests of atomic.Value cannot fail in any interleaving", "statement": "TestValueSwap_Concurrent: for any number of goroutines and rounds whose square stays below 2^64 the sum it checks comes out, because what the Swaps return together with what is loaded last is what they were given together with the zero value, each as often. The concurrent Store/Load test: every Load gives one of the values stored. TestValueCompareAndSwap_Concurrent: the final Load gives m*n, and under fair scheduling every goroutine leaves its loop, in every run.", "quantifier": "all numbers of goroutines and rounds (within the integer range), all lists of test values, all interleavings, all fair runs", "why_tests_cant": "the tests run a few interleavings for one choice of m and n; whether they are flaky, or can hang, depends on all of them", "anchors": ["atomic/value_test.go:TestValueSwap_Concurrent", "atomic/value_test.go:TestValueCompareAndSwap_Concurrent", "atomic/value_test.go:TestValue_Concurrent", "atomic/value.go:Swap", "atomic/value.go:CompareAndSwap", "atomic/value.go:Load", "atomic/value.go:Store"]}
{"id": "C147", "title": "TestRing_Large holds for every n, except for its assertion on the final capacity", "statement": "With n in place of 100 or 100000, every assertion of TestRing_Large on the contents of the ring holds for every n from 2 on, and the capacity at the end is what growing to the largest length and dividing by eight while above 1024 gives. The last assertion (Cap < 1024), and with it the test, fails for n = 0, 1 and 172 to 342 and for no other n below 2^60.", "quantifier": "all n (below 2^60 for the list of exceptions)", "why_tests_cant": "the test runs with two values of n; for others its last assertion is false", "anchors": ["ds/xring/ring_test.go:TestRing_Large", "ds/xring/ring.go:checkGrowth", "ds/xring/ring.go:checkShrink", "ds/xring/ring.go:Append", "ds/xring/ring.go:Prepend", "ds/xring/ring.go:DeleteFirst", "ds/xring/ring.go:DeleteLast"]}
{"id": "C148", "title": "The text of ring.go does what the model of the ring says", "statement": "The functions of ds/xring/ring.go, quoted line by line, parsed, and run by a semantics of Go with memory, do what the model does: constructors, every method with its results and panic messages, and any sequence of calls up to the first panic gives the results of the same calls on a list. Nothing but the ring, its buffer and new memory is written. ToSlice into a slice of any length and capacity with memory of its own returns the contents.", "quantifier": "all rings, memories, arguments and sequences of calls, with capacity plus number of calls below 2^58; every way append may grow", "why_tests_cant": "it is about the relation between the text and the model, for all inputs", "anchors": ["ds/xring/ring.go:Append", "ds/xring/ring.go:Prepend", "ds/xring/ring.go:Pop", "ds/xring/ring.go:DeleteFirst", "ds/xring/ring.go:DeleteLast", "ds/xring/ring.go:ToSlice", "ds/xring/ring.go:checkGrowth", "ds/xring/ring.go:checkShrink", "ds/xring/ring.go:Copy", "ds/xring/ring.go:Set"]}
{"id": "C149", "title": "The text of xsort sorts", "statement": "The functions of xsort/sort.go, sort_any.go and sort_ordered.go, quoted line by line, parsed, and run by a semantics of Go with memory, sort: Sort and Stable return normally, leave the elements of the slice rearranged in ascending order of less (Stable: equivalent elements in their old order), SortOrdered and StableOrdered likewise for <, and nothing but the elements of the slice is written. For any less at all they return normally and rearrange, and they leave what the model leaves.", "quantifier": "all memories, slices of fewer than 2^60 elements at any offset and capacity, all comparators without state", "why_tests_cant": "it is about the text, for all inputs", "anchors": ["xsort/sort.go:Sort", "xsort/sort.go:SortOrdered", "xsort/sort.go:Stable", "xsort/sort.go:StableOrdered", "xsort/sort_any.go:pdqsortLessFunc", "xsort/sort_any.go:symMergeLessFunc", "xsort/sort_ordered.go:pdqsortOrdered", "xsort/sort_ordered.go:symMergeOrdered"]}
{"id": "C150", "title": "The text of algo does on slices what it should, in both directions", "statement": "The functions of algo (binary_search.go, is_sorted.go, next_permutation.go, generic.go, fill.go), of the reverse iterators and ranges of ds/iter and of the iterators of ds/xslice, quoted line by line, parsed, and run by a semantics of Go with memory: on a slice walked by its iterators or by reverse iterators over these, LowerBound and UpperBound return the partition point (and panic if the end comes before the begin), IsSortedUntil the end of the longest sorted prefix, IsSorted whether the range is sorted, NextPermutation the next permutation or the first, Reverse, Swap and FillN reverse, exchange and fill; each in its three forms; nothing but the elements of the slice is written, and by those that only look not even these. Over any iterators whatever they do what the model does.", "quantifier": "all memories, slices of fewer than 2^63 elements at any offset and capacity, all ranges, values and comparators without state", "why_tests_cant": "it is about the text, for all inputs", "anchors": ["algo/binary_search.go:UpperBoundIterators", "algo/binary_search.go:LowerBoundIterators", "algo/is_sorted.go:IsSortedUntilIterators", "algo/next_permutation.go:NextPermutationIterators", "algo/generic.go:Reverse", "algo/fill.go:FillN", "ds/iter/reverse_random.go:ReverseRandomIterator", "ds/xslice/iterator.go:Iterator"]}
{"id": "C151", "title": "The text of ds/xslice does to slices in memory what it should", "statement": "The functions of ds/xslice/slice.go and ops.go, quoted line by line, parsed, and run by a semantics of Go with memory: any sequence of Append, AppendMany, Delete, DeleteLast, UnorderedDelete, InsertAt, Len, Empty, At, Set, First and Last on a slice variable gives the results of the list operations, up to the panic if there is one, and leaves the variable with the list; a call writes only the variable and cells of the windows of the old and the new slice. Insert by an iterator inserts there and returns the iterator in the new slice, and refuses iterators of other slices. Iterators and ranges are those that the text of algo walks forwards and backwards (C150), and out of bounds they panic. New, NewLen, Of, Copy and Reversed return new arrays; OfSlice and Slice alias; Sub is a window; NewLenCap has as many elements as its capacity.", "quantifier": "all memories, variables, slices at any offset and capacity, all sequences of calls and arguments that keep the length below 2^63, all growth policies of append", "why_tests_cant": "it is about the text, for all inputs and sequences", "anchors": ["ds/xslice/slice.go:Append", "ds/xslice/slice.go:Insert", "ds/xslice/slice.go:Reversed", "ds/xslice/slice.go:ReverseSubRange", "ds/xslice/ops.go:UnorderedDelete", "ds/xslice/ops.go:Delete", "ds/xslice/ops.go:Insert"]}
{"id": "C152", "title": "The text of ds/xmap does what its models say, in memory with maps", "statement": "The functions of ds/xmap (arraymap.go, custom.go, set.go, ops.go, map.go), quoted line by line, parsed, and run by a semantics of Go with memory and maps: any sequence of calls of the methods of Set returns what a mathematical set gives; Entries, Keys and Values return new slices that list the entries each once, Clear leaves exactly the entries whose key is not equal to itself; any sequence of calls of the methods of ArrayMap and of Custom gives the results of their models, so those of a mathematical map on the histories for which C27 to C30 are true of the code, and the wrong ones (a panic or the value of another key after Delete; a key lost when hashes collide) elsewhere. Nothing in memory changes but the map, and for ArrayMap the struct and its slice.", "quantifier": "all memories, key and value types, sequences of calls, orders of range, growth policies of append, hash and equality functions", "why_tests_cant": "it is about the text, for all inputs, sequences and orders of visiting", "anchors": ["ds/xmap/arraymap.go:Set", "ds/xmap/arraymap.go:Delete", "ds/xmap/arraymap.go:Clear", "ds/xmap/custom.go:Get", "ds/xmap/custom.go:Set", "ds/xmap/custom.go:Delete", "ds/xmap/set.go:TryAdd", "ds/xmap/ops.go:Clear", "ds/xmap/ops.go:Entries"]}
{"id": "C153", "title": "The text of xhash computes XXH3, and does to memory what its model says", "statement": "The functions of xhash/fast64.go and xhash/binary.go, quoted line by line, parsed, and run by a semantics of Go with memory: Uint64 and Uint64Seed return XXH3 of the eight bytes of the number and are one-to-one in each argument; toUint64 and putUint64 read and write eight bytes, the lowest first, and panic for fewer before they write; Sum appends the eight bytes of Sum64 and changes neither the object nor any array but that of its argument; any sequence of WriteUint64, Write and Reset followed by Sum64 returns what the model gives, for words the chain of XXH3; two sequences of words that differ in one word end in different sums. Write pads the length to a multiple of 8 with whatever is in the array beyond the slice, returns that multiple, and panics exactly if it is beyond the capacity.", "quantifier": "all numbers, seeds, memories, slices, sequences of calls, growth policies of append", "why_tests_cant": "it is about the text, for all inputs, memories and sequences of calls", "anchors": ["xhash/fast64.go:Uint64", "xhash/fast64.go:Uint64Seed", "xhash/fast64.go:rrmxmx", "xhash/fast64.go:Write", "xhash/fast64.go:WriteUint64", "xhash/fast64.go:Sum", "xhash/fast64.go:Sum64", "xhash/binary.go:toUint64", "xhash/binary.go:putUint64"]}
{"id": "C154", "title": "Custom with an overflow table, from the model and from the text", "statement": "If the overflow table of a Custom map is there (which NewCustom does not make), then any history of Set, Get and Delete, with any number of keys of the same hash, returns what a mathematical map gives (a Get that misses returns, with false, the value of the live key that was added first with the hash), as long as no Delete takes the key that was added first of several live keys with its hash. A Delete that does loses the others: Get does not find them and Set says that it adds them. Both hold of the model and of the text of ds/xmap/custom.go run by the semantics of Go, with the entries of the table in slices in memory.", "quantifier": "all hash functions, all equivalences that respect the hash, all histories (for the text: of at most 2^63 calls), all memories, all growth policies of append", "why_tests_cant": "it is about all histories and all hash functions; and the branches are dead code in programs that use NewCustom, so no test of the package reaches them", "anchors": ["ds/xmap/custom.go:Get", "ds/xmap/custom.go:Set", "ds/xmap/custom.go:Delete", "ds/xslice/ops.go:UnorderedDelete"]}
{"id": "C155", "title": "The text of ds/xmap/sharded.go used by one goroutine", "statement": "GetShard, Set, TrySet, Get, TryGet, Len, Empty, Has and Delete of Sharded, as quoted from ds/xmap/sharded.go and parsed, run by the semantics of Go on shards in memory (each a map and a read-write lock), give exactly the histories of one mathematical map: every result is the one map's, every history of the one map is one of the text, every lock is free after every call, no call blocks or gives back a lock that is not held, and only Get of a missing key panics.", "quantifier": "all numbers of shards, all seeds and hash functions, all places of the shards and their maps in memory, all keys and values, all histories of fewer than 2^63 calls", "why_tests_cant": "it is about all histories, all hash functions and all numbers of shards, and about the text of the functions rather than a model of them", "anchors": ["ds/xmap/sharded.go:GetShard", "ds/xmap/sharded.go:Set", "ds/xmap/sharded.go:TrySet", "ds/xmap/sharded.go:Get", "ds/xmap/sharded.go:TryGet", "ds/xmap/sharded.go:Len", "ds/xmap/sharded.go:Empty", "ds/xmap/sharded.go:Has", "ds/xmap/sharded.go:Delete"]}
{"id": "C156", "title": "The text of the other iterators of ds/iter", "statement": "ConstReverseIterator, ReverseIterator, ConstReverseRandomIterator, DummyIterator, AppendIterator, PrependIterator and InsertIterator, as quoted from ds/iter and parsed, run by the semantics of Go over any values that have the methods they call: each constructor makes the iterator, and each method does, panics included, what the model's operation does (a reverse iterator goes and reads one before its base and needs only the methods of its constraint; an append or prepend iterator stays where it is, hands each written value to its container, and equals another if the containers are ==; an insert iterator is one cell, moves its position behind what it inserted, and compares inserters but not positions).", "quantifier": "all base iterators and containers whose methods do what the model's do, all positions, values, offsets in int range, memories and call depths", "why_tests_cant": "it is about all iterator and container types that can be given to the generic functions, and about the text of the functions rather than a model of them", "anchors": ["ds/iter/reverse.go:ConstReverse", "ds/iter/reverse.go:Reverse", "ds/iter/reverse.go:ConstReverseRandom", "ds/iter/dummy.go:Dummy", "ds/iter/inserter.go:Append", "ds/iter/inserter.go:Prepend", "ds/iter/inserter.go:Insert"]}
{"id": "C157", "title": "The text of xmath and of the plain functions of xfn", "statement": "Min, Max, FullComparatorOf, Equal, NotEqual, Greater, GreaterEq, Less, LessEq, LessFloat, PlusOp, MultOp, DivOp and ModOp, as quoted and parsed, run by the semantics of Go: on elements with any comparison operators they return what these say and change nothing; on integers of every kind of the semantics the comparisons are those of integers, FullComparatorOf is the sign of the difference (without the overflow of a subtraction), sums, products, quotients and remainders are the mathematical ones taken into the range of the kind, and only division by zero panics; LessFloat on every IEEE format is a strict weak order with the NaNs first.", "quantifier": "all element types and operators, all integers of all kinds, all bit patterns of all IEEE formats, all memories and call depths", "why_tests_cant": "the functions are generic over all ordered types, and the claim is about all pairs of values and about the text rather than a model", "anchors": ["xmath/number.go:Min", "xmath/number.go:Max", "xfn/comparator.go:FullComparatorOf", "xfn/predicate.go:LessFloat", "xfn/arithmetic.go:PlusOp", "xfn/arithmetic.go:DivOp"]}
{"id": "C158", "title": "The text of erase, copyAndErase and of Uint64 from the buffer", "statement": "erase, copyAndErase, toUint64 and RNG.Uint64 of secrand/rng.go, as quoted and parsed, run by the semantics of Go: erase makes every byte of its argument zero and changes nothing else, also when the array is longer than the slice; copyAndErase between different arrays moves as many bytes as the shorter slice has and leaves zeroes where they were; Uint64, when eight bytes are left in the buffer, returns their little-endian value, leaves zeroes in their place, moves n behind them, and changes nothing else; otherwise it calls Read once with eight new zero bytes and returns their value afterwards, whatever Read is.", "quantifier": "all slices, contents, memories, positions and buffer sizes below 2^63", "why_tests_cant": "that nothing else in memory changes and that no byte handed out stays behind is about all memories and offsets", "anchors": ["secrand/rng.go:erase", "secrand/rng.go:copyAndErase", "secrand/rng.go:toUint64", "secrand/rng.go:Uint64"]}
