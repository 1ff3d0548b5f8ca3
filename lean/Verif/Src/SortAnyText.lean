import Verif.Src.Embed

/-!
# xsort/sort_any.go: the text

Written by a script from /repo; each function is quoted line by line, with the tree the parser makes of it.
-/

namespace Verif.Src.Sort

/-- xsort/sort_any.go:9-15 -/
def insertionSortLessFunc_text : List String := [
  "func insertionSortLessFunc[E any](data []E, a, b int, less func(a, b E) bool) {",
  "	for i := a + 1; i < b; i++ {",
  "		for j := i; j > a && less(data[j], data[j-1]); j-- {",
  "			data[j], data[j-1] = data[j-1], data[j]",
  "		}",
  "	}",
  "}"]

def insertionSortLessFunc_fn : Fn := parsed% insertionSortLessFunc_text

theorem insertionSortLessFunc_parse : parseFn insertionSortLessFunc_text = some insertionSortLessFunc_fn := by kernel_rfl

/-- xsort/sort_any.go:19-35 -/
def siftDownLessFunc_text : List String := [
  "func siftDownLessFunc[E any](data []E, lo, hi, first int, less func(a, b E) bool) {",
  "	root := lo",
  "	for {",
  "		child := 2*root + 1",
  "		if child >= hi {",
  "			break",
  "		}",
  "		if child+1 < hi && less(data[first+child], data[first+child+1]) {",
  "			child++",
  "		}",
  "		if !less(data[first+root], data[first+child]) {",
  "			return",
  "		}",
  "		data[first+root], data[first+child] = data[first+child], data[first+root]",
  "		root = child",
  "	}",
  "}"]

def siftDownLessFunc_fn : Fn := parsed% siftDownLessFunc_text

theorem siftDownLessFunc_parse : parseFn siftDownLessFunc_text = some siftDownLessFunc_fn := by kernel_rfl

/-- xsort/sort_any.go:36-49 -/
def heapSortLessFunc_text : List String := [
  "func heapSortLessFunc[E any](data []E, a, b int, less func(a, b E) bool) {",
  "	first := a",
  "	lo := 0",
  "	hi := b - a",
  "	// Build heap with greatest element at top.",
  "	for i := (hi - 1) / 2; i >= 0; i-- {",
  "		siftDownLessFunc(data, i, hi, first, less)",
  "	}",
  "	// Pop elements, largest first, into end of data.",
  "	for i := hi - 1; i >= 0; i-- {",
  "		data[first], data[first+i] = data[first+i], data[first]",
  "		siftDownLessFunc(data, lo, i, first, less)",
  "	}",
  "}"]

def heapSortLessFunc_fn : Fn := parsed% heapSortLessFunc_text

theorem heapSortLessFunc_parse : parseFn heapSortLessFunc_text = some heapSortLessFunc_fn := by kernel_rfl

/-- xsort/sort_any.go:57-115 -/
def pdqsortLessFunc_text : List String := [
  "func pdqsortLessFunc[E any](data []E, a, b, limit int, less func(a, b E) bool) {",
  "	const maxInsertion = 12",
  "	var (",
  "		wasBalanced    = true // whether the last partitioning was reasonably balanced",
  "		wasPartitioned = true // whether the slice was already partitioned",
  "	)",
  "	for {",
  "		length := b - a",
  "		if length <= maxInsertion {",
  "			insertionSortLessFunc(data, a, b, less)",
  "			return",
  "		}",
  "		// Fall back to heapsort if too many bad choices were made.",
  "		if limit == 0 {",
  "			heapSortLessFunc(data, a, b, less)",
  "			return",
  "		}",
  "		// If the last partitioning was imbalanced, we need to breaking patterns.",
  "		if !wasBalanced {",
  "			breakPatternsLessFunc(data, a, b, less)",
  "			limit--",
  "		}",
  "		pivot, hint := choosePivotLessFunc(data, a, b, less)",
  "		if hint == decreasingHint {",
  "			reverseRangeLessFunc(data, a, b, less)",
  "			// The chosen pivot was pivot-a elements after the start of the array.",
  "			// After reversing it is pivot-a elements before the end of the array.",
  "			// The idea came from Rust's implementation.",
  "			pivot = (b - 1) - (pivot - a)",
  "			hint = increasingHint",
  "		}",
  "		// The slice is likely already sorted.",
  "		if wasBalanced && wasPartitioned && hint == increasingHint {",
  "			if partialInsertionSortLessFunc(data, a, b, less) {",
  "				return",
  "			}",
  "		}",
  "		// Probably the slice contains many duplicate elements, partition the slice into",
  "		// elements equal to and elements greater than the pivot.",
  "		if a > 0 && !less(data[a-1], data[pivot]) {",
  "			mid := partitionEqualLessFunc(data, a, b, pivot, less)",
  "			a = mid",
  "			continue",
  "		}",
  "		mid, alreadyPartitioned := partitionLessFunc(data, a, b, pivot, less)",
  "		wasPartitioned = alreadyPartitioned",
  "		leftLen, rightLen := mid-a, b-mid",
  "		balanceThreshold := length / 8",
  "		if leftLen < rightLen {",
  "			wasBalanced = leftLen >= balanceThreshold",
  "			pdqsortLessFunc(data, a, mid, limit, less)",
  "			a = mid + 1",
  "		} else {",
  "			wasBalanced = rightLen >= balanceThreshold",
  "			pdqsortLessFunc(data, mid+1, b, limit, less)",
  "			b = mid",
  "		}",
  "	}",
  "}"]

def pdqsortLessFunc_fn : Fn := parsed% pdqsortLessFunc_text

theorem pdqsortLessFunc_parse : parseFn pdqsortLessFunc_text = some pdqsortLessFunc_fn := by kernel_rfl

/-- xsort/sort_any.go:121-153 -/
def partitionLessFunc_text : List String := [
  "func partitionLessFunc[E any](data []E, a, b, pivot int, less func(a, b E) bool) (newpivot int, alreadyPartitioned bool) {",
  "	data[a], data[pivot] = data[pivot], data[a]",
  "	i, j := a+1, b-1 // i and j are inclusive of the elements remaining to be partitioned",
  "	for i <= j && less(data[i], data[a]) {",
  "		i++",
  "	}",
  "	for i <= j && !less(data[j], data[a]) {",
  "		j--",
  "	}",
  "	if i > j {",
  "		data[j], data[a] = data[a], data[j]",
  "		return j, true",
  "	}",
  "	data[i], data[j] = data[j], data[i]",
  "	i++",
  "	j--",
  "	for {",
  "		for i <= j && less(data[i], data[a]) {",
  "			i++",
  "		}",
  "		for i <= j && !less(data[j], data[a]) {",
  "			j--",
  "		}",
  "		if i > j {",
  "			break",
  "		}",
  "		data[i], data[j] = data[j], data[i]",
  "		i++",
  "		j--",
  "	}",
  "	data[j], data[a] = data[a], data[j]",
  "	return j, false",
  "}"]

def partitionLessFunc_fn : Fn := parsed% partitionLessFunc_text

theorem partitionLessFunc_parse : parseFn partitionLessFunc_text = some partitionLessFunc_fn := by kernel_rfl

/-- xsort/sort_any.go:157-175 -/
def partitionEqualLessFunc_text : List String := [
  "func partitionEqualLessFunc[E any](data []E, a, b, pivot int, less func(a, b E) bool) (newpivot int) {",
  "	data[a], data[pivot] = data[pivot], data[a]",
  "	i, j := a+1, b-1 // i and j are inclusive of the elements remaining to be partitioned",
  "	for {",
  "		for i <= j && !less(data[a], data[i]) {",
  "			i++",
  "		}",
  "		for i <= j && less(data[a], data[j]) {",
  "			j--",
  "		}",
  "		if i > j {",
  "			break",
  "		}",
  "		data[i], data[j] = data[j], data[i]",
  "		i++",
  "		j--",
  "	}",
  "	return i",
  "}"]

def partitionEqualLessFunc_fn : Fn := parsed% partitionEqualLessFunc_text

theorem partitionEqualLessFunc_parse : parseFn partitionEqualLessFunc_text = some partitionEqualLessFunc_fn := by kernel_rfl

/-- xsort/sort_any.go:178-215 -/
def partialInsertionSortLessFunc_text : List String := [
  "func partialInsertionSortLessFunc[E any](data []E, a, b int, less func(a, b E) bool) bool {",
  "	const (",
  "		maxSteps         = 5  // maximum number of adjacent out-of-order pairs that will get shifted",
  "		shortestShifting = 50 // don't shift any elements on short arrays",
  "	)",
  "	i := a + 1",
  "	for j := 0; j < maxSteps; j++ {",
  "		for i < b && !less(data[i], data[i-1]) {",
  "			i++",
  "		}",
  "		if i == b {",
  "			return true",
  "		}",
  "		if b-a < shortestShifting {",
  "			return false",
  "		}",
  "		data[i], data[i-1] = data[i-1], data[i]",
  "		// Shift the smaller one to the left.",
  "		if i-a >= 2 {",
  "			for j := i - 1; j >= 1; j-- {",
  "				if !less(data[j], data[j-1]) {",
  "					break",
  "				}",
  "				data[j], data[j-1] = data[j-1], data[j]",
  "			}",
  "		}",
  "		// Shift the greater one to the right.",
  "		if b-i >= 2 {",
  "			for j := i + 1; j < b; j++ {",
  "				if !less(data[j], data[j-1]) {",
  "					break",
  "				}",
  "				data[j], data[j-1] = data[j-1], data[j]",
  "			}",
  "		}",
  "	}",
  "	return false",
  "}"]

def partialInsertionSortLessFunc_fn : Fn := parsed% partialInsertionSortLessFunc_text

theorem partialInsertionSortLessFunc_parse : parseFn partialInsertionSortLessFunc_text = some partialInsertionSortLessFunc_fn := by kernel_rfl

/-- xsort/sort_any.go:219-232 -/
def breakPatternsLessFunc_text : List String := [
  "func breakPatternsLessFunc[E any](data []E, a, b int, less func(a, b E) bool) {",
  "	length := b - a",
  "	if length >= 8 {",
  "		random := xorshift(length)",
  "		modulus := nextPowerOfTwo(length)",
  "		for idx := a + (length/4)*2 - 1; idx <= a+(length/4)*2+1; idx++ {",
  "			other := int(uint(random.Next()) & (modulus - 1))",
  "			if other >= length {",
  "				other -= length",
  "			}",
  "			data[idx], data[a+other] = data[a+other], data[idx]",
  "		}",
  "	}",
  "}"]

def breakPatternsLessFunc_fn : Fn := parsed% breakPatternsLessFunc_text

theorem breakPatternsLessFunc_parse : parseFn breakPatternsLessFunc_text = some breakPatternsLessFunc_fn := by kernel_rfl

/-- xsort/sort_any.go:239-269 -/
def choosePivotLessFunc_text : List String := [
  "func choosePivotLessFunc[E any](data []E, a, b int, less func(a, b E) bool) (pivot int, hint sortedHint) {",
  "	const (",
  "		shortestNinther = 50",
  "		maxSwaps        = 4 * 3",
  "	)",
  "	l := b - a",
  "	var (",
  "		swaps int",
  "		i     = a + l/4*1",
  "		j     = a + l/4*2",
  "		k     = a + l/4*3",
  "	)",
  "	if l >= 8 {",
  "		if l >= shortestNinther {",
  "			// Tukey ninther method, the idea came from Rust's implementation.",
  "			i = medianAdjacentLessFunc(data, i, &swaps, less)",
  "			j = medianAdjacentLessFunc(data, j, &swaps, less)",
  "			k = medianAdjacentLessFunc(data, k, &swaps, less)",
  "		}",
  "		// Find the median among i, j, k and stores it into j.",
  "		j = medianLessFunc(data, i, j, k, &swaps, less)",
  "	}",
  "	switch swaps {",
  "	case 0:",
  "		return j, increasingHint",
  "	case maxSwaps:",
  "		return j, decreasingHint",
  "	default:",
  "		return j, unknownHint",
  "	}",
  "}"]

def choosePivotLessFunc_fn : Fn := parsed% choosePivotLessFunc_text

theorem choosePivotLessFunc_parse : parseFn choosePivotLessFunc_text = some choosePivotLessFunc_fn := by kernel_rfl

/-- xsort/sort_any.go:272-278 -/
def order2LessFunc_text : List String := [
  "func order2LessFunc[E any](data []E, a, b int, swaps *int, less func(a, b E) bool) (int, int) {",
  "	if less(data[b], data[a]) {",
  "		*swaps++",
  "		return b, a",
  "	}",
  "	return a, b",
  "}"]

def order2LessFunc_fn : Fn := parsed% order2LessFunc_text

theorem order2LessFunc_parse : parseFn order2LessFunc_text = some order2LessFunc_fn := by kernel_rfl

/-- xsort/sort_any.go:281-286 -/
def medianLessFunc_text : List String := [
  "func medianLessFunc[E any](data []E, a, b, c int, swaps *int, less func(a, b E) bool) int {",
  "	a, b = order2LessFunc(data, a, b, swaps, less)",
  "	b, c = order2LessFunc(data, b, c, swaps, less)",
  "	a, b = order2LessFunc(data, a, b, swaps, less)",
  "	return b",
  "}"]

def medianLessFunc_fn : Fn := parsed% medianLessFunc_text

theorem medianLessFunc_parse : parseFn medianLessFunc_text = some medianLessFunc_fn := by kernel_rfl

/-- xsort/sort_any.go:289-291 -/
def medianAdjacentLessFunc_text : List String := [
  "func medianAdjacentLessFunc[E any](data []E, a int, swaps *int, less func(a, b E) bool) int {",
  "	return medianLessFunc(data, a-1, a, a+1, swaps, less)",
  "}"]

def medianAdjacentLessFunc_fn : Fn := parsed% medianAdjacentLessFunc_text

theorem medianAdjacentLessFunc_parse : parseFn medianAdjacentLessFunc_text = some medianAdjacentLessFunc_fn := by kernel_rfl

/-- xsort/sort_any.go:292-300 -/
def reverseRangeLessFunc_text : List String := [
  "func reverseRangeLessFunc[E any](data []E, a, b int, less func(a, b E) bool) {",
  "	i := a",
  "	j := b - 1",
  "	for i < j {",
  "		data[i], data[j] = data[j], data[i]",
  "		i++",
  "		j--",
  "	}",
  "}"]

def reverseRangeLessFunc_fn : Fn := parsed% reverseRangeLessFunc_text

theorem reverseRangeLessFunc_parse : parseFn reverseRangeLessFunc_text = some reverseRangeLessFunc_fn := by kernel_rfl

/-- xsort/sort_any.go:301-305 -/
def swapRangeLessFunc_text : List String := [
  "func swapRangeLessFunc[E any](data []E, a, b, n int, less func(a, b E) bool) {",
  "	for i := 0; i < n; i++ {",
  "		data[a+i], data[b+i] = data[b+i], data[a+i]",
  "	}",
  "}"]

def swapRangeLessFunc_fn : Fn := parsed% swapRangeLessFunc_text

theorem swapRangeLessFunc_parse : parseFn swapRangeLessFunc_text = some swapRangeLessFunc_fn := by kernel_rfl

/-- xsort/sort_any.go:306-327 -/
def stableLessFunc_text : List String := [
  "func stableLessFunc[E any](data []E, n int, less func(a, b E) bool) {",
  "	blockSize := 20 // must be > 0",
  "	a, b := 0, blockSize",
  "	for b <= n {",
  "		insertionSortLessFunc(data, a, b, less)",
  "		a = b",
  "		b += blockSize",
  "	}",
  "	insertionSortLessFunc(data, a, n, less)",
  "	for blockSize < n {",
  "		a, b = 0, 2*blockSize",
  "		for b <= n {",
  "			symMergeLessFunc(data, a, a+blockSize, b, less)",
  "			a = b",
  "			b += 2 * blockSize",
  "		}",
  "		if m := a + blockSize; m < n {",
  "			symMergeLessFunc(data, a, m, n, less)",
  "		}",
  "		blockSize *= 2",
  "	}",
  "}"]

def stableLessFunc_fn : Fn := parsed% stableLessFunc_text

theorem stableLessFunc_parse : parseFn stableLessFunc_text = some stableLessFunc_fn := by kernel_rfl

/-- xsort/sort_any.go:348-424 -/
def symMergeLessFunc_text : List String := [
  "func symMergeLessFunc[E any](data []E, a, m, b int, less func(a, b E) bool) {",
  "	// Avoid unnecessary recursions of symMerge",
  "	// by direct insertion of data[a] into data[m:b]",
  "	// if data[a:m] only contains one element.",
  "	if m-a == 1 {",
  "		// Use binary search to find the lowest index i",
  "		// such that data[i] >= data[a] for m <= i < b.",
  "		// Exit the search loop with i == b in case no such index exists.",
  "		i := m",
  "		j := b",
  "		for i < j {",
  "			h := int(uint(i+j) >> 1)",
  "			if less(data[h], data[a]) {",
  "				i = h + 1",
  "			} else {",
  "				j = h",
  "			}",
  "		}",
  "		// Swap values until data[a] reaches the position before i.",
  "		for k := a; k < i-1; k++ {",
  "			data[k], data[k+1] = data[k+1], data[k]",
  "		}",
  "		return",
  "	}",
  "	// Avoid unnecessary recursions of symMerge",
  "	// by direct insertion of data[m] into data[a:m]",
  "	// if data[m:b] only contains one element.",
  "	if b-m == 1 {",
  "		// Use binary search to find the lowest index i",
  "		// such that data[i] > data[m] for a <= i < m.",
  "		// Exit the search loop with i == m in case no such index exists.",
  "		i := a",
  "		j := m",
  "		for i < j {",
  "			h := int(uint(i+j) >> 1)",
  "			if !less(data[m], data[h]) {",
  "				i = h + 1",
  "			} else {",
  "				j = h",
  "			}",
  "		}",
  "		// Swap values until data[m] reaches the position i.",
  "		for k := m; k > i; k-- {",
  "			data[k], data[k-1] = data[k-1], data[k]",
  "		}",
  "		return",
  "	}",
  "	mid := int(uint(a+b) >> 1)",
  "	n := mid + m",
  "	var start, r int",
  "	if m > mid {",
  "		start = n - b",
  "		r = mid",
  "	} else {",
  "		start = a",
  "		r = m",
  "	}",
  "	p := n - 1",
  "	for start < r {",
  "		c := int(uint(start+r) >> 1)",
  "		if !less(data[p-c], data[c]) {",
  "			start = c + 1",
  "		} else {",
  "			r = c",
  "		}",
  "	}",
  "	end := n - start",
  "	if start < m && m < end {",
  "		rotateLessFunc(data, start, m, end, less)",
  "	}",
  "	if a < start && start < mid {",
  "		symMergeLessFunc(data, a, start, mid, less)",
  "	}",
  "	if mid < end && end < b {",
  "		symMergeLessFunc(data, mid, end, b, less)",
  "	}",
  "}"]

def symMergeLessFunc_fn : Fn := parsed% symMergeLessFunc_text

theorem symMergeLessFunc_parse : parseFn symMergeLessFunc_text = some symMergeLessFunc_fn := by kernel_rfl

/-- xsort/sort_any.go:430-444 -/
def rotateLessFunc_text : List String := [
  "func rotateLessFunc[E any](data []E, a, m, b int, less func(a, b E) bool) {",
  "	i := m - a",
  "	j := b - m",
  "	for i != j {",
  "		if i > j {",
  "			swapRangeLessFunc(data, m-i, m, j, less)",
  "			i -= j",
  "		} else {",
  "			swapRangeLessFunc(data, m-i, m+j-i, i, less)",
  "			j -= i",
  "		}",
  "	}",
  "	// i == j",
  "	swapRangeLessFunc(data, m-i, m, i, less)",
  "}"]

def rotateLessFunc_fn : Fn := parsed% rotateLessFunc_text

theorem rotateLessFunc_parse : parseFn rotateLessFunc_text = some rotateLessFunc_fn := by kernel_rfl

end Verif.Src.Sort
