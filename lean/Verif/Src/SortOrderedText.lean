import Verif.Src.Embed

/-!
# xsort/sort_ordered.go: the text

Written by a script from /repo; each function is quoted line by line, with the tree the parser makes of it.
-/

namespace Verif.Src.Sort

/-- xsort/sort_ordered.go:13-19 -/
def insertionSortOrdered_text : List String := [
  "func insertionSortOrdered[E constraints.Ordered](data []E, a, b int) {",
  "	for i := a + 1; i < b; i++ {",
  "		for j := i; j > a && (data[j] < data[j-1]); j-- {",
  "			data[j], data[j-1] = data[j-1], data[j]",
  "		}",
  "	}",
  "}"]

def insertionSortOrdered_fn : Fn := parsed% insertionSortOrdered_text

theorem insertionSortOrdered_parse : parseFn insertionSortOrdered_text = some insertionSortOrdered_fn := by kernel_rfl

/-- xsort/sort_ordered.go:23-39 -/
def siftDownOrdered_text : List String := [
  "func siftDownOrdered[E constraints.Ordered](data []E, lo, hi, first int) {",
  "	root := lo",
  "	for {",
  "		child := 2*root + 1",
  "		if child >= hi {",
  "			break",
  "		}",
  "		if child+1 < hi && (data[first+child] < data[first+child+1]) {",
  "			child++",
  "		}",
  "		if data[first+root] >= data[first+child] {",
  "			return",
  "		}",
  "		data[first+root], data[first+child] = data[first+child], data[first+root]",
  "		root = child",
  "	}",
  "}"]

def siftDownOrdered_fn : Fn := parsed% siftDownOrdered_text

theorem siftDownOrdered_parse : parseFn siftDownOrdered_text = some siftDownOrdered_fn := by kernel_rfl

/-- xsort/sort_ordered.go:40-53 -/
def heapSortOrdered_text : List String := [
  "func heapSortOrdered[E constraints.Ordered](data []E, a, b int) {",
  "	first := a",
  "	lo := 0",
  "	hi := b - a",
  "	// Build heap with greatest element at top.",
  "	for i := (hi - 1) / 2; i >= 0; i-- {",
  "		siftDownOrdered(data, i, hi, first)",
  "	}",
  "	// Pop elements, largest first, into end of data.",
  "	for i := hi - 1; i >= 0; i-- {",
  "		data[first], data[first+i] = data[first+i], data[first]",
  "		siftDownOrdered(data, lo, i, first)",
  "	}",
  "}"]

def heapSortOrdered_fn : Fn := parsed% heapSortOrdered_text

theorem heapSortOrdered_parse : parseFn heapSortOrdered_text = some heapSortOrdered_fn := by kernel_rfl

/-- xsort/sort_ordered.go:61-119 -/
def pdqsortOrdered_text : List String := [
  "func pdqsortOrdered[E constraints.Ordered](data []E, a, b, limit int) {",
  "	const maxInsertion = 12",
  "	var (",
  "		wasBalanced    = true // whether the last partitioning was reasonably balanced",
  "		wasPartitioned = true // whether the slice was already partitioned",
  "	)",
  "	for {",
  "		length := b - a",
  "		if length <= maxInsertion {",
  "			insertionSortOrdered(data, a, b)",
  "			return",
  "		}",
  "		// Fall back to heapsort if too many bad choices were made.",
  "		if limit == 0 {",
  "			heapSortOrdered(data, a, b)",
  "			return",
  "		}",
  "		// If the last partitioning was imbalanced, we need to breaking patterns.",
  "		if !wasBalanced {",
  "			breakPatternsOrdered(data, a, b)",
  "			limit--",
  "		}",
  "		pivot, hint := choosePivotOrdered(data, a, b)",
  "		if hint == decreasingHint {",
  "			reverseRangeOrdered(data, a, b)",
  "			// The chosen pivot was pivot-a elements after the start of the array.",
  "			// After reversing it is pivot-a elements before the end of the array.",
  "			// The idea came from Rust's implementation.",
  "			pivot = (b - 1) - (pivot - a)",
  "			hint = increasingHint",
  "		}",
  "		// The slice is likely already sorted.",
  "		if wasBalanced && wasPartitioned && hint == increasingHint {",
  "			if partialInsertionSortOrdered(data, a, b) {",
  "				return",
  "			}",
  "		}",
  "		// Probably the slice contains many duplicate elements, partition the slice into",
  "		// elements equal to and elements greater than the pivot.",
  "		if a > 0 && (data[a-1] >= data[pivot]) {",
  "			mid := partitionEqualOrdered(data, a, b, pivot)",
  "			a = mid",
  "			continue",
  "		}",
  "		mid, alreadyPartitioned := partitionOrdered(data, a, b, pivot)",
  "		wasPartitioned = alreadyPartitioned",
  "		leftLen, rightLen := mid-a, b-mid",
  "		balanceThreshold := length / 8",
  "		if leftLen < rightLen {",
  "			wasBalanced = leftLen >= balanceThreshold",
  "			pdqsortOrdered(data, a, mid, limit)",
  "			a = mid + 1",
  "		} else {",
  "			wasBalanced = rightLen >= balanceThreshold",
  "			pdqsortOrdered(data, mid+1, b, limit)",
  "			b = mid",
  "		}",
  "	}",
  "}"]

def pdqsortOrdered_fn : Fn := parsed% pdqsortOrdered_text

theorem pdqsortOrdered_parse : parseFn pdqsortOrdered_text = some pdqsortOrdered_fn := by kernel_rfl

/-- xsort/sort_ordered.go:125-157 -/
def partitionOrdered_text : List String := [
  "func partitionOrdered[E constraints.Ordered](data []E, a, b, pivot int) (newpivot int, alreadyPartitioned bool) {",
  "	data[a], data[pivot] = data[pivot], data[a]",
  "	i, j := a+1, b-1 // i and j are inclusive of the elements remaining to be partitioned",
  "	for i <= j && (data[i] < data[a]) {",
  "		i++",
  "	}",
  "	for i <= j && (data[j] >= data[a]) {",
  "		j--",
  "	}",
  "	if i > j {",
  "		data[j], data[a] = data[a], data[j]",
  "		return j, true",
  "	}",
  "	data[i], data[j] = data[j], data[i]",
  "	i++",
  "	j--",
  "	for {",
  "		for i <= j && (data[i] < data[a]) {",
  "			i++",
  "		}",
  "		for i <= j && (data[j] >= data[a]) {",
  "			j--",
  "		}",
  "		if i > j {",
  "			break",
  "		}",
  "		data[i], data[j] = data[j], data[i]",
  "		i++",
  "		j--",
  "	}",
  "	data[j], data[a] = data[a], data[j]",
  "	return j, false",
  "}"]

def partitionOrdered_fn : Fn := parsed% partitionOrdered_text

theorem partitionOrdered_parse : parseFn partitionOrdered_text = some partitionOrdered_fn := by kernel_rfl

/-- xsort/sort_ordered.go:161-179 -/
def partitionEqualOrdered_text : List String := [
  "func partitionEqualOrdered[E constraints.Ordered](data []E, a, b, pivot int) (newpivot int) {",
  "	data[a], data[pivot] = data[pivot], data[a]",
  "	i, j := a+1, b-1 // i and j are inclusive of the elements remaining to be partitioned",
  "	for {",
  "		for i <= j && (data[a] >= data[i]) {",
  "			i++",
  "		}",
  "		for i <= j && (data[a] < data[j]) {",
  "			j--",
  "		}",
  "		if i > j {",
  "			break",
  "		}",
  "		data[i], data[j] = data[j], data[i]",
  "		i++",
  "		j--",
  "	}",
  "	return i",
  "}"]

def partitionEqualOrdered_fn : Fn := parsed% partitionEqualOrdered_text

theorem partitionEqualOrdered_parse : parseFn partitionEqualOrdered_text = some partitionEqualOrdered_fn := by kernel_rfl

/-- xsort/sort_ordered.go:182-219 -/
def partialInsertionSortOrdered_text : List String := [
  "func partialInsertionSortOrdered[E constraints.Ordered](data []E, a, b int) bool {",
  "	const (",
  "		maxSteps         = 5  // maximum number of adjacent out-of-order pairs that will get shifted",
  "		shortestShifting = 50 // don't shift any elements on short arrays",
  "	)",
  "	i := a + 1",
  "	for j := 0; j < maxSteps; j++ {",
  "		for i < b && (data[i] >= data[i-1]) {",
  "			i++",
  "		}",
  "		if i == b {",
  "			return true",
  "		}",
  "		if b-a < shortestShifting {",
  "			return false",
  "		}",
  "		data[i], data[i-1] = data[i-1], data[i]",
  "		// Shift the smaller one to the left.",
  "		if i-a >= 2 {",
  "			for j := i - 1; j >= 1; j-- {",
  "				if data[j] >= data[j-1] {",
  "					break",
  "				}",
  "				data[j], data[j-1] = data[j-1], data[j]",
  "			}",
  "		}",
  "		// Shift the greater one to the right.",
  "		if b-i >= 2 {",
  "			for j := i + 1; j < b; j++ {",
  "				if data[j] >= data[j-1] {",
  "					break",
  "				}",
  "				data[j], data[j-1] = data[j-1], data[j]",
  "			}",
  "		}",
  "	}",
  "	return false",
  "}"]

def partialInsertionSortOrdered_fn : Fn := parsed% partialInsertionSortOrdered_text

theorem partialInsertionSortOrdered_parse : parseFn partialInsertionSortOrdered_text = some partialInsertionSortOrdered_fn := by kernel_rfl

/-- xsort/sort_ordered.go:223-236 -/
def breakPatternsOrdered_text : List String := [
  "func breakPatternsOrdered[E constraints.Ordered](data []E, a, b int) {",
  "	length := b - a",
  "	if length >= 8 {",
  "		random := xorshift(length)",
  "		modulus := nextPowerOfTwo(length)",
  "		for idx := a + (length/4)*2 - 1; idx <= a+(length/4)*2+1; idx++ {",
  "			other := int(uint(random.Next()) & (modulus - 1))",
  "			if other >= length {",
  "				other -= length",
  "			}",
  "			data[idx], data[a+other] = data[a+other], data[idx]",
  "		}",
  "	}",
  "}"]

def breakPatternsOrdered_fn : Fn := parsed% breakPatternsOrdered_text

theorem breakPatternsOrdered_parse : parseFn breakPatternsOrdered_text = some breakPatternsOrdered_fn := by kernel_rfl

/-- xsort/sort_ordered.go:243-273 -/
def choosePivotOrdered_text : List String := [
  "func choosePivotOrdered[E constraints.Ordered](data []E, a, b int) (pivot int, hint sortedHint) {",
  "	const (",
  "		shortestNinther = 50",
  "		maxSwaps        = 4 * 3",
  "	)",
  "	l := b - a",
  "	var (",
  "		swaps int",
  "		i     = a + l/4*1",
  "		j     = a + l/4*2",
  "		k     = a + l/4*3",
  "	)",
  "	if l >= 8 {",
  "		if l >= shortestNinther {",
  "			// Tukey ninther method, the idea came from Rust's implementation.",
  "			i = medianAdjacentOrdered(data, i, &swaps)",
  "			j = medianAdjacentOrdered(data, j, &swaps)",
  "			k = medianAdjacentOrdered(data, k, &swaps)",
  "		}",
  "		// Find the median among i, j, k and stores it into j.",
  "		j = medianOrdered(data, i, j, k, &swaps)",
  "	}",
  "	switch swaps {",
  "	case 0:",
  "		return j, increasingHint",
  "	case maxSwaps:",
  "		return j, decreasingHint",
  "	default:",
  "		return j, unknownHint",
  "	}",
  "}"]

def choosePivotOrdered_fn : Fn := parsed% choosePivotOrdered_text

theorem choosePivotOrdered_parse : parseFn choosePivotOrdered_text = some choosePivotOrdered_fn := by kernel_rfl

/-- xsort/sort_ordered.go:276-282 -/
def order2Ordered_text : List String := [
  "func order2Ordered[E constraints.Ordered](data []E, a, b int, swaps *int) (int, int) {",
  "	if data[b] < data[a] {",
  "		*swaps++",
  "		return b, a",
  "	}",
  "	return a, b",
  "}"]

def order2Ordered_fn : Fn := parsed% order2Ordered_text

theorem order2Ordered_parse : parseFn order2Ordered_text = some order2Ordered_fn := by kernel_rfl

/-- xsort/sort_ordered.go:285-290 -/
def medianOrdered_text : List String := [
  "func medianOrdered[E constraints.Ordered](data []E, a, b, c int, swaps *int) int {",
  "	a, b = order2Ordered(data, a, b, swaps)",
  "	b, c = order2Ordered(data, b, c, swaps)",
  "	a, b = order2Ordered(data, a, b, swaps)",
  "	return b",
  "}"]

def medianOrdered_fn : Fn := parsed% medianOrdered_text

theorem medianOrdered_parse : parseFn medianOrdered_text = some medianOrdered_fn := by kernel_rfl

/-- xsort/sort_ordered.go:293-295 -/
def medianAdjacentOrdered_text : List String := [
  "func medianAdjacentOrdered[E constraints.Ordered](data []E, a int, swaps *int) int {",
  "	return medianOrdered(data, a-1, a, a+1, swaps)",
  "}"]

def medianAdjacentOrdered_fn : Fn := parsed% medianAdjacentOrdered_text

theorem medianAdjacentOrdered_parse : parseFn medianAdjacentOrdered_text = some medianAdjacentOrdered_fn := by kernel_rfl

/-- xsort/sort_ordered.go:296-304 -/
def reverseRangeOrdered_text : List String := [
  "func reverseRangeOrdered[E constraints.Ordered](data []E, a, b int) {",
  "	i := a",
  "	j := b - 1",
  "	for i < j {",
  "		data[i], data[j] = data[j], data[i]",
  "		i++",
  "		j--",
  "	}",
  "}"]

def reverseRangeOrdered_fn : Fn := parsed% reverseRangeOrdered_text

theorem reverseRangeOrdered_parse : parseFn reverseRangeOrdered_text = some reverseRangeOrdered_fn := by kernel_rfl

/-- xsort/sort_ordered.go:305-309 -/
def swapRangeOrdered_text : List String := [
  "func swapRangeOrdered[E constraints.Ordered](data []E, a, b, n int) {",
  "	for i := 0; i < n; i++ {",
  "		data[a+i], data[b+i] = data[b+i], data[a+i]",
  "	}",
  "}"]

def swapRangeOrdered_fn : Fn := parsed% swapRangeOrdered_text

theorem swapRangeOrdered_parse : parseFn swapRangeOrdered_text = some swapRangeOrdered_fn := by kernel_rfl

/-- xsort/sort_ordered.go:310-331 -/
def stableOrdered_text : List String := [
  "func stableOrdered[E constraints.Ordered](data []E, n int) {",
  "	blockSize := 20 // must be > 0",
  "	a, b := 0, blockSize",
  "	for b <= n {",
  "		insertionSortOrdered(data, a, b)",
  "		a = b",
  "		b += blockSize",
  "	}",
  "	insertionSortOrdered(data, a, n)",
  "	for blockSize < n {",
  "		a, b = 0, 2*blockSize",
  "		for b <= n {",
  "			symMergeOrdered(data, a, a+blockSize, b)",
  "			a = b",
  "			b += 2 * blockSize",
  "		}",
  "		if m := a + blockSize; m < n {",
  "			symMergeOrdered(data, a, m, n)",
  "		}",
  "		blockSize *= 2",
  "	}",
  "}"]

def stableOrdered_fn : Fn := parsed% stableOrdered_text

theorem stableOrdered_parse : parseFn stableOrdered_text = some stableOrdered_fn := by kernel_rfl

/-- xsort/sort_ordered.go:352-428 -/
def symMergeOrdered_text : List String := [
  "func symMergeOrdered[E constraints.Ordered](data []E, a, m, b int) {",
  "	// Avoid unnecessary recursions of symMerge",
  "	// by direct insertion of data[a] into data[m:b]",
  "	// if data[a:m] only contains one element.",
  "	if m-a == 1 {",
  "		// Use binary search to find the lowest index i",
  "		// such that data[i] >= data[a] for m <= i < b.",
  "		// Exit the search loop with i == b in case no such index exists.",
  "		i := m",
  "		j := b",
  "		for i < j {",
  "			h := int(uint(i+j) >> 1)",
  "			if data[h] < data[a] {",
  "				i = h + 1",
  "			} else {",
  "				j = h",
  "			}",
  "		}",
  "		// Swap values until data[a] reaches the position before i.",
  "		for k := a; k < i-1; k++ {",
  "			data[k], data[k+1] = data[k+1], data[k]",
  "		}",
  "		return",
  "	}",
  "	// Avoid unnecessary recursions of symMerge",
  "	// by direct insertion of data[m] into data[a:m]",
  "	// if data[m:b] only contains one element.",
  "	if b-m == 1 {",
  "		// Use binary search to find the lowest index i",
  "		// such that data[i] > data[m] for a <= i < m.",
  "		// Exit the search loop with i == m in case no such index exists.",
  "		i := a",
  "		j := m",
  "		for i < j {",
  "			h := int(uint(i+j) >> 1)",
  "			if data[m] >= data[h] {",
  "				i = h + 1",
  "			} else {",
  "				j = h",
  "			}",
  "		}",
  "		// Swap values until data[m] reaches the position i.",
  "		for k := m; k > i; k-- {",
  "			data[k], data[k-1] = data[k-1], data[k]",
  "		}",
  "		return",
  "	}",
  "	mid := int(uint(a+b) >> 1)",
  "	n := mid + m",
  "	var start, r int",
  "	if m > mid {",
  "		start = n - b",
  "		r = mid",
  "	} else {",
  "		start = a",
  "		r = m",
  "	}",
  "	p := n - 1",
  "	for start < r {",
  "		c := int(uint(start+r) >> 1)",
  "		if data[p-c] >= data[c] {",
  "			start = c + 1",
  "		} else {",
  "			r = c",
  "		}",
  "	}",
  "	end := n - start",
  "	if start < m && m < end {",
  "		rotateOrdered(data, start, m, end)",
  "	}",
  "	if a < start && start < mid {",
  "		symMergeOrdered(data, a, start, mid)",
  "	}",
  "	if mid < end && end < b {",
  "		symMergeOrdered(data, mid, end, b)",
  "	}",
  "}"]

def symMergeOrdered_fn : Fn := parsed% symMergeOrdered_text

theorem symMergeOrdered_parse : parseFn symMergeOrdered_text = some symMergeOrdered_fn := by kernel_rfl

/-- xsort/sort_ordered.go:434-448 -/
def rotateOrdered_text : List String := [
  "func rotateOrdered[E constraints.Ordered](data []E, a, m, b int) {",
  "	i := m - a",
  "	j := b - m",
  "	for i != j {",
  "		if i > j {",
  "			swapRangeOrdered(data, m-i, m, j)",
  "			i -= j",
  "		} else {",
  "			swapRangeOrdered(data, m-i, m+j-i, i)",
  "			j -= i",
  "		}",
  "	}",
  "	// i == j",
  "	swapRangeOrdered(data, m-i, m, i)",
  "}"]

def rotateOrdered_fn : Fn := parsed% rotateOrdered_text

theorem rotateOrdered_parse : parseFn rotateOrdered_text = some rotateOrdered_fn := by kernel_rfl

end Verif.Src.Sort
