import Verif.Sort.Model

/-!
# `/repo/xsort/sort_ordered.go` while others write to the slice

`Verif.Sort.OrderedModel` transcribes `sort_ordered.go` for a slice that nobody else touches. Here it is transcribed once
more, and other goroutines may write to the slice before every access: the two operands of a comparison are read one
after the other, an exchange reads twice and writes twice. `Verif.Sort.OrderedRaced` says what is left of the functions
then, and that with nobody else this is `Verif.Sort.OrderedModel`.
-/

namespace Verif.Sort.OrderedRaced

open Verif.Sort (bitsLen xorshiftNext Hint)

/-- A function working on `data` among others, which are in a state: it does not end (`none`), panics, or returns; in the
last two cases `data` has some contents. -/
abbrev R (σ E : Type) := ExceptT String (StateT (σ × List E) Option)

/-- What surrounds a call: the operators `<` and `>=` of the element type (for floats `>=` is not the negation of `<`);
what other goroutines do to the slice before an access to it; what a read of an element gives, which for elements of
several words may be a mixture of values (`torn`); and a mark that each comparison leaves in the state, which
is not in the code and only serves to count. -/
structure World (σ E : Type) where
  lt : E → E → Bool
  ge : E → E → Bool
  tick : σ × List E → σ × List E
  mark : σ → σ
  torn : σ × List E → E → E := fun _ x => x

variable {σ E : Type} (env : World σ E)

/-- `data[i]`. -/
def at_ (i : Int) : R σ E E := fun w => some ((goGet (env.tick w).2 i).map (env.torn (env.tick w)), env.tick w)

/-- `data[i] = x`. -/
def put (i : Int) (x : E) : R σ E Unit := fun w =>
  let w := env.tick w
  some (match goSet w.2 i x with | .ok d => (.ok (), (w.1, d)) | .error e => (.error e, w))

/-- `data[i], data[j] = data[j], data[i]`: both elements are read, then assigned from left to right. -/
def exchange (i j : Int) : R σ E Unit := do
  let x ← at_ env j
  let y ← at_ env i
  put env i x
  put env j y

/-- A comparison leaves its mark. -/
def compared : R σ E Unit := fun w => some (.ok (), (env.mark w.1, w.2))

/-- `data[i] < data[j]`. -/
def isLt (i j : Int) : R σ E Bool := do
  let x ← at_ env i
  let y ← at_ env j
  compared env
  pure (env.lt x y)

/-- `data[i] >= data[j]`. -/
def isGe (i j : Int) : R σ E Bool := do
  let x ← at_ env i
  let y ← at_ env j
  compared env
  pure (env.ge x y)

/-- `int(uint(x) >> 1)`. -/
def half (x : Int) : Int := x % 2 ^ 64 / 2

/-- xsort/sort_ordered.go:15-17, `for j := i; j > a && (data[j] < data[j-1]); j--`. -/
def insertionInner (a j : Int) : R σ E Unit :=
  if j > a then do
    if ← isLt env j (j - 1) then
      exchange env j (j - 1)
      insertionInner a (j - 1)
    else pure ()
  else pure ()
partial_fixpoint

/-- xsort/sort_ordered.go:14-18, `for i := a + 1; i < b; i++`. -/
def insertionOuter (a b i : Int) : R σ E Unit :=
  if i < b then do
    insertionInner env a i
    insertionOuter a b (i + 1)
  else pure ()
partial_fixpoint

/-- xsort/sort_ordered.go:13-19 `insertionSortOrdered`. -/
def insertionSort (a b : Int) : R σ E Unit := insertionOuter env a b (a + 1)

/-- xsort/sort_ordered.go:30-32, the child to compare with. -/
def largerChild (hi first child : Int) : R σ E Int :=
  if child + 1 < hi then do
    if ← isLt env (first + child) (first + child + 1) then pure (child + 1) else pure child
  else pure child

/-- xsort/sort_ordered.go:25-38, the loop of `siftDownOrdered`. -/
def siftLoop (hi first root : Int) : R σ E Unit :=
  let child := 2 * root + 1
  if child ≥ hi then pure ()
  else do
    let child ← largerChild env hi first child
    if ← isGe env (first + root) (first + child) then pure ()
    else
      exchange env (first + root) (first + child)
      siftLoop hi first child
partial_fixpoint

/-- xsort/sort_ordered.go:23-39 `siftDownOrdered`. -/
def siftDown (lo hi first : Int) : R σ E Unit := siftLoop env hi first lo

/-- xsort/sort_ordered.go:45-47, `for i := (hi - 1) / 2; i >= 0; i--`. -/
def heapBuild (hi first i : Int) : R σ E Unit :=
  if i ≥ 0 then do
    siftDown env i hi first
    heapBuild hi first (i - 1)
  else pure ()
partial_fixpoint

/-- xsort/sort_ordered.go:49-52, `for i := hi - 1; i >= 0; i--`. -/
def heapPop (lo first i : Int) : R σ E Unit :=
  if i ≥ 0 then do
    exchange env first (first + i)
    siftDown env lo i first
    heapPop lo first (i - 1)
  else pure ()
partial_fixpoint

/-- xsort/sort_ordered.go:40-53 `heapSortOrdered`. -/
def heapSort (a b : Int) : R σ E Unit := do
  let first := a
  let lo := 0
  let hi := b - a
  heapBuild env hi first ((hi - 1).tdiv 2)
  heapPop env lo first (hi - 1)

/-- xsort/sort_ordered.go:128-130 and 142-144, `for i <= j && (data[i] < data[a]) { i++ }`. -/
def partUp (a j i : Int) : R σ E Int :=
  if i ≤ j then do
    if ← isLt env i a then partUp a j (i + 1) else pure i
  else pure i
partial_fixpoint

/-- xsort/sort_ordered.go:131-133 and 145-147, `for i <= j && (data[j] >= data[a]) { j-- }`. -/
def partDown (a i j : Int) : R σ E Int :=
  if i ≤ j then do
    if ← isGe env j a then partDown a i (j - 1) else pure j
  else pure j
partial_fixpoint

/-- xsort/sort_ordered.go:141-154, the loop of `partitionOrdered`; returns `j`. -/
def partLoop (a i j : Int) : R σ E Int := do
  let i ← partUp env a j i
  let j ← partDown env a i j
  if i > j then pure j
  else
    exchange env i j
    partLoop a (i + 1) (j - 1)
partial_fixpoint

/-- xsort/sort_ordered.go:125-157 `partitionOrdered`. -/
def partition (a b pivot : Int) : R σ E (Int × Bool) := do
  exchange env a pivot
  let i := a + 1
  let j := b - 1
  let i ← partUp env a j i
  let j ← partDown env a i j
  if i > j then
    exchange env j a
    pure (j, true)
  else
    exchange env i j
    let i := i + 1
    let j := j - 1
    let j ← partLoop env a i j
    exchange env j a
    pure (j, false)

/-- xsort/sort_ordered.go:165-167, `for i <= j && (data[a] >= data[i]) { i++ }`. -/
def equalUp (a j i : Int) : R σ E Int :=
  if i ≤ j then do
    if ← isGe env a i then equalUp a j (i + 1) else pure i
  else pure i
partial_fixpoint

/-- xsort/sort_ordered.go:168-170, `for i <= j && (data[a] < data[j]) { j-- }`. -/
def equalDown (a i j : Int) : R σ E Int :=
  if i ≤ j then do
    if ← isLt env a j then equalDown a i (j - 1) else pure j
  else pure j
partial_fixpoint

/-- xsort/sort_ordered.go:164-177, the loop of `partitionEqualOrdered`; returns `i`. -/
def equalLoop (a i j : Int) : R σ E Int := do
  let i ← equalUp env a j i
  let j ← equalDown env a i j
  if i > j then pure i
  else
    exchange env i j
    equalLoop a (i + 1) (j - 1)
partial_fixpoint

/-- xsort/sort_ordered.go:161-179 `partitionEqualOrdered`. -/
def partitionEqual (a b pivot : Int) : R σ E Int := do
  exchange env a pivot
  equalLoop env a (a + 1) (b - 1)

/-- xsort/sort_ordered.go:189-191, `for i < b && (data[i] >= data[i-1]) { i++ }`. -/
def ascend (b i : Int) : R σ E Int :=
  if i < b then do
    if ← isGe env i (i - 1) then ascend b (i + 1) else pure i
  else pure i
partial_fixpoint

/-- xsort/sort_ordered.go:201-206, `for j := i - 1; j >= 1; j--`. -/
def toLeft (j : Int) : R σ E Unit :=
  if j ≥ 1 then do
    if ← isGe env j (j - 1) then pure ()
    else
      exchange env j (j - 1)
      toLeft (j - 1)
  else pure ()
partial_fixpoint

/-- xsort/sort_ordered.go:210-215, `for j := i + 1; j < b; j++`. -/
def toRight (b j : Int) : R σ E Unit :=
  if j < b then do
    if ← isGe env j (j - 1) then pure ()
    else
      exchange env j (j - 1)
      toRight b (j + 1)
  else pure ()
partial_fixpoint

/-- xsort/sort_ordered.go:188-217, `for j := 0; j < maxSteps; j++` with `maxSteps = 5`, `shortestShifting = 50`. -/
def partialLoop (a b i j : Int) : R σ E Bool :=
  if j < 5 then do
    let i ← ascend env b i
    if i = b then pure true
    else if b - a < 50 then pure false
    else
      exchange env i (i - 1)
      (if i - a ≥ 2 then toLeft env (i - 1) else pure () : R σ E Unit)
      (if b - i ≥ 2 then toRight env b (i + 1) else pure () : R σ E Unit)
      partialLoop a b i (j + 1)
  else pure false
partial_fixpoint

/-- xsort/sort_ordered.go:182-219 `partialInsertionSortOrdered`. -/
def partialInsertionSort (a b : Int) : R σ E Bool := partialLoop env a b (a + 1) 0

/-- xsort/sort_ordered.go:228-234, the loop of `breakPatternsOrdered`; `modulus` is xsort/sort.go:28-31 `nextPowerOfTwo`. -/
def breakLoop (a length idx : Int) (random : BitVec 64) : R σ E Unit :=
  if idx ≤ a + length.tdiv 4 * 2 + 1 then do
    let modulus : BitVec 64 := 1#64 <<< bitsLen length.toNat
    let random := xorshiftNext random
    let other : Int := (random &&& (modulus - 1#64)).toInt
    let other := if other ≥ length then other - length else other
    exchange env idx (a + other)
    breakLoop a length (idx + 1) random
  else pure ()
partial_fixpoint

/-- xsort/sort_ordered.go:223-236 `breakPatternsOrdered`. -/
def breakPatterns (a b : Int) : R σ E Unit :=
  let length := b - a
  if length ≥ 8 then breakLoop env a length (a + length.tdiv 4 * 2 - 1) (BitVec.ofInt 64 length) else pure ()

/-- xsort/sort_ordered.go:276-282 `order2Ordered`; `*swaps` is passed and returned. -/
def order2 (a b swaps : Int) : R σ E (Int × Int × Int) := do
  if ← isLt env b a then pure (b, a, swaps + 1) else pure (a, b, swaps)

/-- xsort/sort_ordered.go:285-290 `medianOrdered`. -/
def median (a b c swaps : Int) : R σ E (Int × Int) := do
  let (a, b, swaps) ← order2 env a b swaps
  let (b, _, swaps) ← order2 env b c swaps
  let (_, b, swaps) ← order2 env a b swaps
  pure (b, swaps)

/-- xsort/sort_ordered.go:293-295 `medianAdjacentOrdered`. -/
def medianAdjacent (a swaps : Int) : R σ E (Int × Int) := median env (a - 1) a (a + 1) swaps

/-- xsort/sort_ordered.go:256-261, the Tukey ninther; `i`, `j`, `k` and `swaps` afterwards. -/
def ninther (l i j k swaps : Int) : R σ E (Int × Int × Int × Int) :=
  if l ≥ 50 then do
    let (i, swaps) ← medianAdjacent env i swaps
    let (j, swaps) ← medianAdjacent env j swaps
    let (k, swaps) ← medianAdjacent env k swaps
    pure (i, j, k, swaps)
  else pure (i, j, k, swaps)

/-- xsort/sort_ordered.go:255-264; `j` and `swaps` afterwards. -/
def candidate (l i j k swaps : Int) : R σ E (Int × Int) :=
  if l ≥ 8 then do
    let (i, j, k, swaps) ← ninther env l i j k swaps
    median env i j k swaps
  else pure (j, swaps)

/-- xsort/sort_ordered.go:243-273 `choosePivotOrdered`. -/
def choosePivot (a b : Int) : R σ E (Int × Hint) := do
  let l := b - a
  let (j, swaps) ← candidate env l (a + l.tdiv 4 * 1) (a + l.tdiv 4 * 2) (a + l.tdiv 4 * 3) 0
  if swaps = 0 then pure (j, .increasing)
  else if swaps = 4 * 3 then pure (j, .decreasing)
  else pure (j, .unknown)

/-- xsort/sort_ordered.go:299-303, the loop of `reverseRangeOrdered`. -/
def reverseLoop (i j : Int) : R σ E Unit :=
  if i < j then do
    exchange env i j
    reverseLoop (i + 1) (j - 1)
  else pure ()
partial_fixpoint

/-- xsort/sort_ordered.go:296-304 `reverseRangeOrdered`. -/
def reverseRange (a b : Int) : R σ E Unit := reverseLoop env a (b - 1)

/-- xsort/sort_ordered.go:67-118, the loop of `pdqsortOrdered`. -/
def pdqLoop (a b limit : Int) (wasBalanced wasPartitioned : Bool) : R σ E Unit :=
  let length := b - a
  if length ≤ 12 then insertionSort env a b
  else if limit = 0 then heapSort env a b
  else do
    let limit ← (if !wasBalanced then do breakPatterns env a b; pure (limit - 1) else pure limit : R σ E Int)
    let (pivot, hint) ← choosePivot env a b
    let (pivot, hint) ← (if hint = .decreasing then do
        reverseRange env a b
        pure ((b - 1) - (pivot - a), .increasing)
      else pure (pivot, hint) : R σ E (Int × Hint))
    let done ← (if wasBalanced && wasPartitioned && decide (hint = .increasing) then partialInsertionSort env a b
      else pure false : R σ E Bool)
    if done then pure ()
    else
      let many ← (if a > 0 then isGe env (a - 1) pivot else pure false : R σ E Bool)
      if many then
        let mid ← partitionEqual env a b pivot
        pdqLoop mid b limit wasBalanced wasPartitioned
      else
        let (mid, alreadyPartitioned) ← partition env a b pivot
        let wasPartitioned := alreadyPartitioned
        let leftLen := mid - a
        let rightLen := b - mid
        let balanceThreshold := length.tdiv 8
        if leftLen < rightLen then
          let wasBalanced := decide (leftLen ≥ balanceThreshold)
          pdqLoop a mid limit true true
          pdqLoop (mid + 1) b limit wasBalanced wasPartitioned
        else
          let wasBalanced := decide (rightLen ≥ balanceThreshold)
          pdqLoop (mid + 1) b limit true true
          pdqLoop a mid limit wasBalanced wasPartitioned
partial_fixpoint

/-- xsort/sort_ordered.go:61-119 `pdqsortOrdered`. -/
def pdqsort (a b limit : Int) : R σ E Unit := pdqLoop env a b limit true true

/-- xsort/sort_ordered.go:305-309 `swapRangeOrdered`, from `i`. -/
def swapRange (a b n i : Int) : R σ E Unit :=
  if i < n then do
    exchange env (a + i) (b + i)
    swapRange a b n (i + 1)
  else pure ()
partial_fixpoint

/-- xsort/sort_ordered.go:437-447, the loop of `rotateOrdered` and what follows it. -/
def rotateLoop (m i j : Int) : R σ E Unit :=
  if i ≠ j then
    if i > j then do
      swapRange env (m - i) m j 0
      rotateLoop m (i - j) j
    else do
      swapRange env (m - i) (m + j - i) i 0
      rotateLoop m i (j - i)
  else swapRange env (m - i) m i 0
partial_fixpoint

/-- xsort/sort_ordered.go:434-448 `rotateOrdered`. -/
def rotate (a m b : Int) : R σ E Unit := rotateLoop env m (m - a) (b - m)

/-- xsort/sort_ordered.go:362-369. -/
def searchLow (a i j : Int) : R σ E Int :=
  if i < j then do
    let h := half (i + j)
    if ← isLt env h a then searchLow a (h + 1) j else searchLow a i h
  else pure i
partial_fixpoint

/-- xsort/sort_ordered.go:385-392. -/
def searchHigh (m i j : Int) : R σ E Int :=
  if i < j then do
    let h := half (i + j)
    if ← isGe env m h then searchHigh m (h + 1) j else searchHigh m i h
  else pure i
partial_fixpoint

/-- xsort/sort_ordered.go:410-417. -/
def searchMiddle (p start r : Int) : R σ E Int :=
  if start < r then do
    let c := half (start + r)
    if ← isGe env (p - c) c then searchMiddle p (c + 1) r else searchMiddle p start c
  else pure start
partial_fixpoint

/-- xsort/sort_ordered.go:371-373, `for k := a; k < i-1; k++`. -/
def moveUp (i k : Int) : R σ E Unit :=
  if k < i - 1 then do
    exchange env k (k + 1)
    moveUp i (k + 1)
  else pure ()
partial_fixpoint

/-- xsort/sort_ordered.go:394-396, `for k := m; k > i; k--`. -/
def moveDown (i k : Int) : R σ E Unit :=
  if k > i then do
    exchange env k (k - 1)
    moveDown i (k - 1)
  else pure ()
partial_fixpoint

/-- xsort/sort_ordered.go:352-428 `symMergeOrdered`. -/
def symMerge (a m b : Int) : R σ E Unit :=
  if m - a = 1 then do
    let i ← searchLow env a m b
    moveUp env i a
  else if b - m = 1 then do
    let i ← searchHigh env m a m
    moveDown env i m
  else do
    let mid := half (a + b)
    let n := mid + m
    let (start, r) := if m > mid then (n - b, mid) else (a, m)
    let p := n - 1
    let start ← searchMiddle env p start r
    let «end» := n - start
    (if start < m ∧ m < «end» then rotate env start m «end» else pure () : R σ E Unit)
    (if a < start ∧ start < mid then symMerge a start mid else pure () : R σ E Unit)
    (if mid < «end» ∧ «end» < b then symMerge mid «end» b else pure () : R σ E Unit)
partial_fixpoint

/-- xsort/sort_ordered.go:313-317; returns `a`. -/
def blocks (n blockSize a b : Int) : R σ E Int :=
  if b ≤ n then do
    insertionSort env a b
    blocks n blockSize b (b + blockSize)
  else pure a
partial_fixpoint

/-- xsort/sort_ordered.go:321-325; returns `a`. -/
def mergePairs (n blockSize a b : Int) : R σ E Int :=
  if b ≤ n then do
    symMerge env a (a + blockSize) b
    mergePairs n blockSize b (b + 2 * blockSize)
  else pure a
partial_fixpoint

/-- xsort/sort_ordered.go:319-330. -/
def doubling (n blockSize : Int) : R σ E Unit :=
  if blockSize < n then do
    let a ← mergePairs env n blockSize 0 (2 * blockSize)
    let m := a + blockSize
    (if m < n then symMerge env a m n else pure () : R σ E Unit)
    doubling n (blockSize * 2)
  else pure ()
partial_fixpoint

/-- xsort/sort_ordered.go:310-331 `stableOrdered`. -/
def stable (n : Int) : R σ E Unit := do
  let blockSize := 20
  let a ← blocks env n blockSize 0 blockSize
  insertionSort env a n
  doubling env n blockSize

/-- xsort/sort.go:33-37 `SortOrdered`: how it ends, and the slice then. -/
def SortOrdered (s : σ) (data : List E) : Option (Go Unit × σ × List E) :=
  let n : Int := data.length
  pdqsort env 0 n (bitsLen data.length) (s, data)

/-- xsort/sort.go:45-47 `StableOrdered`: how it ends, and the slice then. -/
def StableOrdered (s : σ) (data : List E) : Option (Go Unit × σ × List E) := stable env data.length (s, data)

end Verif.Sort.OrderedRaced
