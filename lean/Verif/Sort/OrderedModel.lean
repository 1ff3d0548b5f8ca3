import Verif.Sort.Model

/-!
# `/repo/xsort/sort_ordered.go` as written

`Verif.Sort.Model` serves both files of `/repo/xsort` and bounds its loops by fuel. Here `sort_ordered.go` is
transcribed again, on its own: every `for` is a loop without a bound, an endless one is `none`; `data[i] < data[j]`
and `data[i] >= data[j]` are evaluated where they stand; `/` cuts towards zero and `int(uint(x) >> 1)` goes through
64 bits. `Verif.Sort.OrderedProps` shows that both models do the same.
-/

namespace Verif.Sort.Ordered

open Verif.Sort (bitsLen xorshiftNext Hint)

/-- A function working on `data`: it does not end (`none`), panics, or returns. -/
abbrev I (E : Type) := StateT (List E) (ExceptT String Option)

variable {E : Type} (lt ge : E → E → Bool)

/-- `data[i]`. -/
def at_ (i : Int) : I E E := fun d => some (match goGet d i with | .ok x => .ok (x, d) | .error e => .error e)

/-- `data[i] = x`. -/
def put (i : Int) (x : E) : I E Unit := fun d =>
  some (match goSet d i x with | .ok d' => .ok ((), d') | .error e => .error e)

/-- `data[i], data[j] = data[j], data[i]`: both elements are read, then assigned from left to right. -/
def exchange (i j : Int) : I E Unit := do
  let x ← at_ j
  let y ← at_ i
  put i x
  put j y

/-- `data[i] < data[j]`. -/
def isLt (i j : Int) : I E Bool := do
  let x ← at_ i
  let y ← at_ j
  pure (lt x y)

/-- `data[i] >= data[j]`. -/
def isGe (i j : Int) : I E Bool := do
  let x ← at_ i
  let y ← at_ j
  pure (ge x y)

/-- `int(uint(x) >> 1)`. -/
def half (x : Int) : Int := x % 2 ^ 64 / 2

/-- xsort/sort_ordered.go:15-17, `for j := i; j > a && (data[j] < data[j-1]); j--`. -/
def insertionInner (a j : Int) : I E Unit :=
  if j > a then do
    if ← isLt lt j (j - 1) then
      exchange j (j - 1)
      insertionInner a (j - 1)
    else pure ()
  else pure ()
partial_fixpoint

/-- xsort/sort_ordered.go:14-18, `for i := a + 1; i < b; i++`. -/
def insertionOuter (a b i : Int) : I E Unit :=
  if i < b then do
    insertionInner lt a i
    insertionOuter a b (i + 1)
  else pure ()
partial_fixpoint

/-- xsort/sort_ordered.go:13-19 `insertionSortOrdered`. -/
def insertionSort (a b : Int) : I E Unit := insertionOuter lt a b (a + 1)

/-- xsort/sort_ordered.go:30-32, the child to compare with. -/
def largerChild (hi first child : Int) : I E Int :=
  if child + 1 < hi then do
    if ← isLt lt (first + child) (first + child + 1) then pure (child + 1) else pure child
  else pure child

/-- xsort/sort_ordered.go:25-38, the loop of `siftDownOrdered`. -/
def siftLoop (hi first root : Int) : I E Unit :=
  let child := 2 * root + 1
  if child ≥ hi then pure ()
  else do
    let child ← largerChild lt hi first child
    if ← isGe ge (first + root) (first + child) then pure ()
    else
      exchange (first + root) (first + child)
      siftLoop hi first child
partial_fixpoint

/-- xsort/sort_ordered.go:23-39 `siftDownOrdered`. -/
def siftDown (lo hi first : Int) : I E Unit := siftLoop lt ge hi first lo

/-- xsort/sort_ordered.go:45-47, `for i := (hi - 1) / 2; i >= 0; i--`. -/
def heapBuild (hi first i : Int) : I E Unit :=
  if i ≥ 0 then do
    siftDown lt ge i hi first
    heapBuild hi first (i - 1)
  else pure ()
partial_fixpoint

/-- xsort/sort_ordered.go:49-52, `for i := hi - 1; i >= 0; i--`. -/
def heapPop (lo first i : Int) : I E Unit :=
  if i ≥ 0 then do
    exchange first (first + i)
    siftDown lt ge lo i first
    heapPop lo first (i - 1)
  else pure ()
partial_fixpoint

/-- xsort/sort_ordered.go:40-53 `heapSortOrdered`. -/
def heapSort (a b : Int) : I E Unit := do
  let first := a
  let lo := 0
  let hi := b - a
  heapBuild lt ge hi first ((hi - 1).tdiv 2)
  heapPop lt ge lo first (hi - 1)

/-- xsort/sort_ordered.go:128-130 and 142-144, `for i <= j && (data[i] < data[a]) { i++ }`. -/
def partUp (a j i : Int) : I E Int :=
  if i ≤ j then do
    if ← isLt lt i a then partUp a j (i + 1) else pure i
  else pure i
partial_fixpoint

/-- xsort/sort_ordered.go:131-133 and 145-147, `for i <= j && (data[j] >= data[a]) { j-- }`. -/
def partDown (a i j : Int) : I E Int :=
  if i ≤ j then do
    if ← isGe ge j a then partDown a i (j - 1) else pure j
  else pure j
partial_fixpoint

/-- xsort/sort_ordered.go:141-154, the loop of `partitionOrdered`; returns `j`. -/
def partLoop (a i j : Int) : I E Int := do
  let i ← partUp lt a j i
  let j ← partDown ge a i j
  if i > j then pure j
  else
    exchange i j
    partLoop a (i + 1) (j - 1)
partial_fixpoint

/-- xsort/sort_ordered.go:125-157 `partitionOrdered`. -/
def partition (a b pivot : Int) : I E (Int × Bool) := do
  exchange a pivot
  let i := a + 1
  let j := b - 1
  let i ← partUp lt a j i
  let j ← partDown ge a i j
  if i > j then
    exchange j a
    pure (j, true)
  else
    exchange i j
    let i := i + 1
    let j := j - 1
    let j ← partLoop lt ge a i j
    exchange j a
    pure (j, false)

/-- xsort/sort_ordered.go:165-167, `for i <= j && (data[a] >= data[i]) { i++ }`. -/
def equalUp (a j i : Int) : I E Int :=
  if i ≤ j then do
    if ← isGe ge a i then equalUp a j (i + 1) else pure i
  else pure i
partial_fixpoint

/-- xsort/sort_ordered.go:168-170, `for i <= j && (data[a] < data[j]) { j-- }`. -/
def equalDown (a i j : Int) : I E Int :=
  if i ≤ j then do
    if ← isLt lt a j then equalDown a i (j - 1) else pure j
  else pure j
partial_fixpoint

/-- xsort/sort_ordered.go:164-177, the loop of `partitionEqualOrdered`; returns `i`. -/
def equalLoop (a i j : Int) : I E Int := do
  let i ← equalUp ge a j i
  let j ← equalDown lt a i j
  if i > j then pure i
  else
    exchange i j
    equalLoop a (i + 1) (j - 1)
partial_fixpoint

/-- xsort/sort_ordered.go:161-179 `partitionEqualOrdered`. -/
def partitionEqual (a b pivot : Int) : I E Int := do
  exchange a pivot
  equalLoop lt ge a (a + 1) (b - 1)

/-- xsort/sort_ordered.go:189-191, `for i < b && (data[i] >= data[i-1]) { i++ }`. -/
def ascend (b i : Int) : I E Int :=
  if i < b then do
    if ← isGe ge i (i - 1) then ascend b (i + 1) else pure i
  else pure i
partial_fixpoint

/-- xsort/sort_ordered.go:201-206, `for j := i - 1; j >= 1; j--`. -/
def toLeft (j : Int) : I E Unit :=
  if j ≥ 1 then do
    if ← isGe ge j (j - 1) then pure ()
    else
      exchange j (j - 1)
      toLeft (j - 1)
  else pure ()
partial_fixpoint

/-- xsort/sort_ordered.go:210-215, `for j := i + 1; j < b; j++`. -/
def toRight (b j : Int) : I E Unit :=
  if j < b then do
    if ← isGe ge j (j - 1) then pure ()
    else
      exchange j (j - 1)
      toRight b (j + 1)
  else pure ()
partial_fixpoint

/-- xsort/sort_ordered.go:188-217, `for j := 0; j < maxSteps; j++` with `maxSteps = 5`, `shortestShifting = 50`. -/
def partialLoop (a b i j : Int) : I E Bool :=
  if j < 5 then do
    let i ← ascend ge b i
    if i = b then pure true
    else if b - a < 50 then pure false
    else
      exchange i (i - 1)
      (if i - a ≥ 2 then toLeft ge (i - 1) else pure () : I E Unit)
      (if b - i ≥ 2 then toRight ge b (i + 1) else pure () : I E Unit)
      partialLoop a b i (j + 1)
  else pure false
partial_fixpoint

/-- xsort/sort_ordered.go:182-219 `partialInsertionSortOrdered`. -/
def partialInsertionSort (a b : Int) : I E Bool := partialLoop ge a b (a + 1) 0

/-- xsort/sort_ordered.go:228-234, the loop of `breakPatternsOrdered`; `modulus` is xsort/sort.go:28-31 `nextPowerOfTwo`. -/
def breakLoop (a length idx : Int) (random : BitVec 64) : I E Unit :=
  if idx ≤ a + length.tdiv 4 * 2 + 1 then do
    let modulus : BitVec 64 := 1#64 <<< bitsLen length.toNat
    let random := xorshiftNext random
    let other : Int := (random &&& (modulus - 1#64)).toInt
    let other := if other ≥ length then other - length else other
    exchange idx (a + other)
    breakLoop a length (idx + 1) random
  else pure ()
partial_fixpoint

/-- xsort/sort_ordered.go:223-236 `breakPatternsOrdered`. -/
def breakPatterns (a b : Int) : I E Unit :=
  let length := b - a
  if length ≥ 8 then breakLoop a length (a + length.tdiv 4 * 2 - 1) (BitVec.ofInt 64 length) else pure ()

/-- xsort/sort_ordered.go:276-282 `order2Ordered`; `*swaps` is passed and returned. -/
def order2 (a b swaps : Int) : I E (Int × Int × Int) := do
  if ← isLt lt b a then pure (b, a, swaps + 1) else pure (a, b, swaps)

/-- xsort/sort_ordered.go:285-290 `medianOrdered`. -/
def median (a b c swaps : Int) : I E (Int × Int) := do
  let (a, b, swaps) ← order2 lt a b swaps
  let (b, _, swaps) ← order2 lt b c swaps
  let (_, b, swaps) ← order2 lt a b swaps
  pure (b, swaps)

/-- xsort/sort_ordered.go:293-295 `medianAdjacentOrdered`. -/
def medianAdjacent (a swaps : Int) : I E (Int × Int) := median lt (a - 1) a (a + 1) swaps

/-- xsort/sort_ordered.go:256-261, the Tukey ninther; `i`, `j`, `k` and `swaps` afterwards. -/
def ninther (l i j k swaps : Int) : I E (Int × Int × Int × Int) :=
  if l ≥ 50 then do
    let (i, swaps) ← medianAdjacent lt i swaps
    let (j, swaps) ← medianAdjacent lt j swaps
    let (k, swaps) ← medianAdjacent lt k swaps
    pure (i, j, k, swaps)
  else pure (i, j, k, swaps)

/-- xsort/sort_ordered.go:255-264; `j` and `swaps` afterwards. -/
def candidate (l i j k swaps : Int) : I E (Int × Int) :=
  if l ≥ 8 then do
    let (i, j, k, swaps) ← ninther lt l i j k swaps
    median lt i j k swaps
  else pure (j, swaps)

/-- xsort/sort_ordered.go:243-273 `choosePivotOrdered`. -/
def choosePivot (a b : Int) : I E (Int × Hint) := do
  let l := b - a
  let (j, swaps) ← candidate lt l (a + l.tdiv 4 * 1) (a + l.tdiv 4 * 2) (a + l.tdiv 4 * 3) 0
  if swaps = 0 then pure (j, .increasing)
  else if swaps = 4 * 3 then pure (j, .decreasing)
  else pure (j, .unknown)

/-- xsort/sort_ordered.go:299-303, the loop of `reverseRangeOrdered`. -/
def reverseLoop (i j : Int) : I E Unit :=
  if i < j then do
    exchange i j
    reverseLoop (i + 1) (j - 1)
  else pure ()
partial_fixpoint

/-- xsort/sort_ordered.go:296-304 `reverseRangeOrdered`. -/
def reverseRange (a b : Int) : I E Unit := reverseLoop a (b - 1)

/-- xsort/sort_ordered.go:67-118, the loop of `pdqsortOrdered`. -/
def pdqLoop (a b limit : Int) (wasBalanced wasPartitioned : Bool) : I E Unit :=
  let length := b - a
  if length ≤ 12 then insertionSort lt a b
  else if limit = 0 then heapSort lt ge a b
  else do
    let limit ← (if !wasBalanced then do breakPatterns a b; pure (limit - 1) else pure limit : I E Int)
    let (pivot, hint) ← choosePivot lt a b
    let (pivot, hint) ← (if hint = .decreasing then do
        reverseRange a b
        pure ((b - 1) - (pivot - a), .increasing)
      else pure (pivot, hint) : I E (Int × Hint))
    let done ← (if wasBalanced && wasPartitioned && decide (hint = .increasing) then partialInsertionSort ge a b
      else pure false : I E Bool)
    if done then pure ()
    else
      let many ← (if a > 0 then isGe ge (a - 1) pivot else pure false : I E Bool)
      if many then
        let mid ← partitionEqual lt ge a b pivot
        pdqLoop mid b limit wasBalanced wasPartitioned
      else
        let (mid, alreadyPartitioned) ← partition lt ge a b pivot
        let wasPartitioned := alreadyPartitioned
        let leftLen := mid - a
        let rightLen := b - mid
        let balanceThreshold := length.tdiv 8
        if leftLen < rightLen then
          let wasBalanced := decide (leftLen ≥ balanceThreshold)
          pdqLoop a mid limit true true
          pdqLoop (mid + 1) b limit wasBalanced wasPartitioned
        else
          let wasBalanced := decide (rightLen ≥ balanceThreshold)
          pdqLoop (mid + 1) b limit true true
          pdqLoop a mid limit wasBalanced wasPartitioned
partial_fixpoint

/-- xsort/sort_ordered.go:61-119 `pdqsortOrdered`. -/
def pdqsort (a b limit : Int) : I E Unit := pdqLoop lt ge a b limit true true

/-- xsort/sort_ordered.go:305-309 `swapRangeOrdered`, from `i`. -/
def swapRange (a b n i : Int) : I E Unit :=
  if i < n then do
    exchange (a + i) (b + i)
    swapRange a b n (i + 1)
  else pure ()
partial_fixpoint

/-- xsort/sort_ordered.go:437-447, the loop of `rotateOrdered` and what follows it. -/
def rotateLoop (m i j : Int) : I E Unit :=
  if i ≠ j then
    if i > j then do
      swapRange (m - i) m j 0
      rotateLoop m (i - j) j
    else do
      swapRange (m - i) (m + j - i) i 0
      rotateLoop m i (j - i)
  else swapRange (m - i) m i 0
partial_fixpoint

/-- xsort/sort_ordered.go:434-448 `rotateOrdered`. -/
def rotate (a m b : Int) : I E Unit := rotateLoop m (m - a) (b - m)

/-- xsort/sort_ordered.go:362-369. -/
def searchLow (a i j : Int) : I E Int :=
  if i < j then do
    let h := half (i + j)
    if ← isLt lt h a then searchLow a (h + 1) j else searchLow a i h
  else pure i
partial_fixpoint

/-- xsort/sort_ordered.go:385-392. -/
def searchHigh (m i j : Int) : I E Int :=
  if i < j then do
    let h := half (i + j)
    if ← isGe ge m h then searchHigh m (h + 1) j else searchHigh m i h
  else pure i
partial_fixpoint

/-- xsort/sort_ordered.go:410-417. -/
def searchMiddle (p start r : Int) : I E Int :=
  if start < r then do
    let c := half (start + r)
    if ← isGe ge (p - c) c then searchMiddle p (c + 1) r else searchMiddle p start c
  else pure start
partial_fixpoint

/-- xsort/sort_ordered.go:371-373, `for k := a; k < i-1; k++`. -/
def moveUp (i k : Int) : I E Unit :=
  if k < i - 1 then do
    exchange k (k + 1)
    moveUp i (k + 1)
  else pure ()
partial_fixpoint

/-- xsort/sort_ordered.go:394-396, `for k := m; k > i; k--`. -/
def moveDown (i k : Int) : I E Unit :=
  if k > i then do
    exchange k (k - 1)
    moveDown i (k - 1)
  else pure ()
partial_fixpoint

/-- xsort/sort_ordered.go:352-428 `symMergeOrdered`. -/
def symMerge (a m b : Int) : I E Unit :=
  if m - a = 1 then do
    let i ← searchLow lt a m b
    moveUp i a
  else if b - m = 1 then do
    let i ← searchHigh ge m a m
    moveDown i m
  else do
    let mid := half (a + b)
    let n := mid + m
    let (start, r) := if m > mid then (n - b, mid) else (a, m)
    let p := n - 1
    let start ← searchMiddle ge p start r
    let «end» := n - start
    (if start < m ∧ m < «end» then rotate start m «end» else pure () : I E Unit)
    (if a < start ∧ start < mid then symMerge a start mid else pure () : I E Unit)
    (if mid < «end» ∧ «end» < b then symMerge mid «end» b else pure () : I E Unit)
partial_fixpoint

/-- xsort/sort_ordered.go:313-317; returns `a`. -/
def blocks (n blockSize a b : Int) : I E Int :=
  if b ≤ n then do
    insertionSort lt a b
    blocks n blockSize b (b + blockSize)
  else pure a
partial_fixpoint

/-- xsort/sort_ordered.go:321-325; returns `a`. -/
def mergePairs (n blockSize a b : Int) : I E Int :=
  if b ≤ n then do
    symMerge lt ge a (a + blockSize) b
    mergePairs n blockSize b (b + 2 * blockSize)
  else pure a
partial_fixpoint

/-- xsort/sort_ordered.go:319-330. -/
def doubling (n blockSize : Int) : I E Unit :=
  if blockSize < n then do
    let a ← mergePairs lt ge n blockSize 0 (2 * blockSize)
    let m := a + blockSize
    (if m < n then symMerge lt ge a m n else pure () : I E Unit)
    doubling n (blockSize * 2)
  else pure ()
partial_fixpoint

/-- xsort/sort_ordered.go:310-331 `stableOrdered`. -/
def stable (n : Int) : I E Unit := do
  let blockSize := 20
  let a ← blocks lt n blockSize 0 blockSize
  insertionSort lt a n
  doubling lt ge n blockSize

/-- The slice after a function has returned. -/
def after : Option (Go (Unit × List E)) → Option (Go (List E))
  | none => none
  | some (.error e) => some (.error e)
  | some (.ok (_, d)) => some (.ok d)

/-- xsort/sort.go:33-37 `SortOrdered`: the slice afterwards. -/
def SortOrdered (data : List E) : Option (Go (List E)) :=
  let n : Int := data.length
  after (pdqsort lt ge 0 n (bitsLen data.length) data)

/-- xsort/sort.go:45-47 `StableOrdered`: the slice afterwards. -/
def StableOrdered (data : List E) : Option (Go (List E)) :=
  after (stable lt ge data.length data)

end Verif.Sort.Ordered
