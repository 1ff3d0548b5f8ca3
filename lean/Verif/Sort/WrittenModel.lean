import Verif.Sort.Model

/-!
# `/repo/xsort/sort_any.go` as written

`Verif.Sort.Model` bounds the loops of `sort_any.go` by fuel and treats comparator calls as questions. Here the file
is transcribed again: every `for` is a loop without a bound, an endless one is `none`; `less` is called where it
stands, may keep a state, change the slice and panic, and a panic leaves the slice as it is at that time; other
goroutines may write to the slice before every access; `/` cuts towards zero and `int(uint(x) >> 1)` goes through 64
bits. `Verif.Sort.WrittenProps` shows that both models do the same, `Verif.Sort.WrittenRace` what is left
if others write to the slice.
-/

namespace Verif.Sort.Written

open Verif.Sort (bitsLen xorshiftNext Hint)

/-- A function working on `data`, with a comparator that keeps a state: it does not end (`none`), panics, or
returns; in the last two cases the comparator is in some state and `data` has some contents. -/
abbrev W (σ E : Type) := ExceptT String (StateT (σ × List E) Option)

/-- What surrounds a call: the comparator, which may keep a state, change the slice and panic; and what other
goroutines do to the slice, before an access to it. Reading an element of several words that another goroutine is writing
may give a mixture of values: `torn`, in place of the element. -/
structure World (σ E : Type) where
  less : σ × List E → E → E → Go Bool × (σ × List E)
  tick : σ × List E → σ × List E
  torn : σ × List E → E → E := fun _ x => x

/-- Nobody else touches the slice, and the comparator does not either. -/
def quiet {σ E : Type} (less : σ → E → E → Go Bool × σ) : World σ E where
  less w x y := ((less w.1 x y).1, ((less w.1 x y).2, w.2))
  tick w := w

variable {σ E : Type} (env : World σ E)

/-- `data[i]`. -/
def at_ (i : Int) : W σ E E := fun w => some ((goGet (env.tick w).2 i).map (env.torn (env.tick w)), env.tick w)

/-- `data[i] = x`. -/
def put (i : Int) (x : E) : W σ E Unit := fun w =>
  let w := env.tick w
  some (match goSet w.2 i x with | .ok d => (.ok (), (w.1, d)) | .error e => (.error e, w))

/-- `data[i], data[j] = data[j], data[i]`: both elements are read, then assigned from left to right. -/
def exchange (i j : Int) : W σ E Unit := do
  let x ← at_ env j
  let y ← at_ env i
  put env i x
  put env j y

/-- `less(x, y)`. -/
def call (x y : E) : W σ E Bool := fun w => some (env.less w x y)

/-- `less(data[i], data[j])`. -/
def isLess (i j : Int) : W σ E Bool := do
  let x ← at_ env i
  let y ← at_ env j
  call env x y

/-- `!less(data[i], data[j])`. -/
def notLess (i j : Int) : W σ E Bool := do
  let x ← at_ env i
  let y ← at_ env j
  let b ← call env x y
  pure (!b)

/-- `int(uint(x) >> 1)`. -/
def half (x : Int) : Int := x % 2 ^ 64 / 2

/-- xsort/sort_any.go:11-13, `for j := i; j > a && less(data[j], data[j-1]); j--`. -/
def insertionInner (a j : Int) : W σ E Unit :=
  if j > a then do
    if ← isLess env j (j - 1) then
      exchange env j (j - 1)
      insertionInner a (j - 1)
    else pure ()
  else pure ()
partial_fixpoint

/-- xsort/sort_any.go:10-14, `for i := a + 1; i < b; i++`. -/
def insertionOuter (a b i : Int) : W σ E Unit :=
  if i < b then do
    insertionInner env a i
    insertionOuter a b (i + 1)
  else pure ()
partial_fixpoint

/-- xsort/sort_any.go:9-15 `insertionSortLessFunc`. -/
def insertionSort (a b : Int) : W σ E Unit := insertionOuter env a b (a + 1)

/-- xsort/sort_any.go:26-28, the child to compare with. -/
def largerChild (hi first child : Int) : W σ E Int :=
  if child + 1 < hi then do
    if ← isLess env (first + child) (first + child + 1) then pure (child + 1) else pure child
  else pure child

/-- xsort/sort_any.go:21-34, the loop of `siftDownLessFunc`. -/
def siftLoop (hi first root : Int) : W σ E Unit :=
  let child := 2 * root + 1
  if child ≥ hi then pure ()
  else do
    let child ← largerChild env hi first child
    if ← notLess env (first + root) (first + child) then pure ()
    else
      exchange env (first + root) (first + child)
      siftLoop hi first child
partial_fixpoint

/-- xsort/sort_any.go:19-35 `siftDownLessFunc`. -/
def siftDown (lo hi first : Int) : W σ E Unit := siftLoop env hi first lo

/-- xsort/sort_any.go:41-43, `for i := (hi - 1) / 2; i >= 0; i--`. -/
def heapBuild (hi first i : Int) : W σ E Unit :=
  if i ≥ 0 then do
    siftDown env i hi first
    heapBuild hi first (i - 1)
  else pure ()
partial_fixpoint

/-- xsort/sort_any.go:45-48, `for i := hi - 1; i >= 0; i--`. -/
def heapPop (lo first i : Int) : W σ E Unit :=
  if i ≥ 0 then do
    exchange env first (first + i)
    siftDown env lo i first
    heapPop lo first (i - 1)
  else pure ()
partial_fixpoint

/-- xsort/sort_any.go:36-49 `heapSortLessFunc`. -/
def heapSort (a b : Int) : W σ E Unit := do
  let first := a
  let lo := 0
  let hi := b - a
  heapBuild env hi first ((hi - 1).tdiv 2)
  heapPop env lo first (hi - 1)

/-- xsort/sort_any.go:124-126 and 138-140, `for i <= j && less(data[i], data[a]) { i++ }`. -/
def partUp (a j i : Int) : W σ E Int :=
  if i ≤ j then do
    if ← isLess env i a then partUp a j (i + 1) else pure i
  else pure i
partial_fixpoint

/-- xsort/sort_any.go:127-129 and 141-143, `for i <= j && !less(data[j], data[a]) { j-- }`. -/
def partDown (a i j : Int) : W σ E Int :=
  if i ≤ j then do
    if ← notLess env j a then partDown a i (j - 1) else pure j
  else pure j
partial_fixpoint

/-- xsort/sort_any.go:137-150, the loop of `partitionLessFunc`; returns `j`. -/
def partLoop (a i j : Int) : W σ E Int := do
  let i ← partUp env a j i
  let j ← partDown env a i j
  if i > j then pure j
  else
    exchange env i j
    partLoop a (i + 1) (j - 1)
partial_fixpoint

/-- xsort/sort_any.go:121-153 `partitionLessFunc`. -/
def partition (a b pivot : Int) : W σ E (Int × Bool) := do
  exchange env a pivot
  let i := a + 1
  let j := b - 1
  let i ← partUp env a j i
  let j ← partDown env a i j
  if i > j then
    exchange env j a
    pure (j, true)
  else
    exchange env i j
    let i := i + 1
    let j := j - 1
    let j ← partLoop env a i j
    exchange env j a
    pure (j, false)

/-- xsort/sort_any.go:161-163, `for i <= j && !less(data[a], data[i]) { i++ }`. -/
def equalUp (a j i : Int) : W σ E Int :=
  if i ≤ j then do
    if ← notLess env a i then equalUp a j (i + 1) else pure i
  else pure i
partial_fixpoint

/-- xsort/sort_any.go:164-166, `for i <= j && less(data[a], data[j]) { j-- }`. -/
def equalDown (a i j : Int) : W σ E Int :=
  if i ≤ j then do
    if ← isLess env a j then equalDown a i (j - 1) else pure j
  else pure j
partial_fixpoint

/-- xsort/sort_any.go:160-173, the loop of `partitionEqualLessFunc`; returns `i`. -/
def equalLoop (a i j : Int) : W σ E Int := do
  let i ← equalUp env a j i
  let j ← equalDown env a i j
  if i > j then pure i
  else
    exchange env i j
    equalLoop a (i + 1) (j - 1)
partial_fixpoint

/-- xsort/sort_any.go:157-175 `partitionEqualLessFunc`. -/
def partitionEqual (a b pivot : Int) : W σ E Int := do
  exchange env a pivot
  equalLoop env a (a + 1) (b - 1)

/-- xsort/sort_any.go:185-187, `for i < b && !less(data[i], data[i-1]) { i++ }`. -/
def ascend (b i : Int) : W σ E Int :=
  if i < b then do
    if ← notLess env i (i - 1) then ascend b (i + 1) else pure i
  else pure i
partial_fixpoint

/-- xsort/sort_any.go:197-202, `for j := i - 1; j >= 1; j--`. -/
def toLeft (j : Int) : W σ E Unit :=
  if j ≥ 1 then do
    if ← notLess env j (j - 1) then pure ()
    else
      exchange env j (j - 1)
      toLeft (j - 1)
  else pure ()
partial_fixpoint

/-- xsort/sort_any.go:206-211, `for j := i + 1; j < b; j++`. -/
def toRight (b j : Int) : W σ E Unit :=
  if j < b then do
    if ← notLess env j (j - 1) then pure ()
    else
      exchange env j (j - 1)
      toRight b (j + 1)
  else pure ()
partial_fixpoint

/-- xsort/sort_any.go:184-213, `for j := 0; j < maxSteps; j++` with `maxSteps = 5`, `shortestShifting = 50`. -/
def partialLoop (a b i j : Int) : W σ E Bool :=
  if j < 5 then do
    let i ← ascend env b i
    if i = b then pure true
    else if b - a < 50 then pure false
    else
      exchange env i (i - 1)
      (if i - a ≥ 2 then toLeft env (i - 1) else pure () : W σ E Unit)
      (if b - i ≥ 2 then toRight env b (i + 1) else pure () : W σ E Unit)
      partialLoop a b i (j + 1)
  else pure false
partial_fixpoint

/-- xsort/sort_any.go:178-215 `partialInsertionSortLessFunc`. -/
def partialInsertionSort (a b : Int) : W σ E Bool := partialLoop env a b (a + 1) 0

/-- xsort/sort_any.go:224-230, the loop of `breakPatternsLessFunc`; `modulus` is xsort/sort.go:28-31 `nextPowerOfTwo`. -/
def breakLoop (a length idx : Int) (random : BitVec 64) : W σ E Unit :=
  if idx ≤ a + length.tdiv 4 * 2 + 1 then do
    let modulus : BitVec 64 := 1#64 <<< bitsLen length.toNat
    let random := xorshiftNext random
    let other : Int := (random &&& (modulus - 1#64)).toInt
    let other := if other ≥ length then other - length else other
    exchange env idx (a + other)
    breakLoop a length (idx + 1) random
  else pure ()
partial_fixpoint

/-- xsort/sort_any.go:219-232 `breakPatternsLessFunc`. -/
def breakPatterns (a b : Int) : W σ E Unit :=
  let length := b - a
  if length ≥ 8 then breakLoop env a length (a + length.tdiv 4 * 2 - 1) (BitVec.ofInt 64 length) else pure ()

/-- xsort/sort_any.go:272-278 `order2LessFunc`; `*swaps` is passed and returned. -/
def order2 (a b swaps : Int) : W σ E (Int × Int × Int) := do
  if ← isLess env b a then pure (b, a, swaps + 1) else pure (a, b, swaps)

/-- xsort/sort_any.go:281-286 `medianLessFunc`. -/
def median (a b c swaps : Int) : W σ E (Int × Int) := do
  let (a, b, swaps) ← order2 env a b swaps
  let (b, _, swaps) ← order2 env b c swaps
  let (_, b, swaps) ← order2 env a b swaps
  pure (b, swaps)

/-- xsort/sort_any.go:289-291 `medianAdjacentLessFunc`. -/
def medianAdjacent (a swaps : Int) : W σ E (Int × Int) := median env (a - 1) a (a + 1) swaps

/-- xsort/sort_any.go:252-257, the Tukey ninther; `i`, `j`, `k` and `swaps` afterwards. -/
def ninther (l i j k swaps : Int) : W σ E (Int × Int × Int × Int) :=
  if l ≥ 50 then do
    let (i, swaps) ← medianAdjacent env i swaps
    let (j, swaps) ← medianAdjacent env j swaps
    let (k, swaps) ← medianAdjacent env k swaps
    pure (i, j, k, swaps)
  else pure (i, j, k, swaps)

/-- xsort/sort_any.go:251-260; `j` and `swaps` afterwards. -/
def candidate (l i j k swaps : Int) : W σ E (Int × Int) :=
  if l ≥ 8 then do
    let (i, j, k, swaps) ← ninther env l i j k swaps
    median env i j k swaps
  else pure (j, swaps)

/-- xsort/sort_any.go:239-269 `choosePivotLessFunc`. -/
def choosePivot (a b : Int) : W σ E (Int × Hint) := do
  let l := b - a
  let (j, swaps) ← candidate env l (a + l.tdiv 4 * 1) (a + l.tdiv 4 * 2) (a + l.tdiv 4 * 3) 0
  if swaps = 0 then pure (j, .increasing)
  else if swaps = 4 * 3 then pure (j, .decreasing)
  else pure (j, .unknown)

/-- xsort/sort_any.go:295-299, the loop of `reverseRangeLessFunc`. -/
def reverseLoop (i j : Int) : W σ E Unit :=
  if i < j then do
    exchange env i j
    reverseLoop (i + 1) (j - 1)
  else pure ()
partial_fixpoint

/-- xsort/sort_any.go:292-300 `reverseRangeLessFunc`. -/
def reverseRange (a b : Int) : W σ E Unit := reverseLoop env a (b - 1)

/-- xsort/sort_any.go:63-114, the loop of `pdqsortLessFunc`. -/
def pdqLoop (a b limit : Int) (wasBalanced wasPartitioned : Bool) : W σ E Unit :=
  let length := b - a
  if length ≤ 12 then insertionSort env a b
  else if limit = 0 then heapSort env a b
  else do
    let limit ← (if !wasBalanced then do breakPatterns env a b; pure (limit - 1) else pure limit : W σ E Int)
    let (pivot, hint) ← choosePivot env a b
    let (pivot, hint) ← (if hint = .decreasing then do
        reverseRange env a b
        pure ((b - 1) - (pivot - a), .increasing)
      else pure (pivot, hint) : W σ E (Int × Hint))
    let done ← (if wasBalanced && wasPartitioned && decide (hint = .increasing) then partialInsertionSort env a b
      else pure false : W σ E Bool)
    if done then pure ()
    else
      let many ← (if a > 0 then notLess env (a - 1) pivot else pure false : W σ E Bool)
      if many then
        let mid ← partitionEqual env a b pivot
        pdqLoop mid b limit wasBalanced wasPartitioned
      else
        let (mid, alreadyPartitioned) ← partition env a b pivot
        let wasPartitioned := alreadyPartitioned
        let leftLen := mid - a
        let rightLen := b - mid
        let balanceThreshold := length.tdiv 8
        if leftLen < rightLen then
          let wasBalanced := decide (leftLen ≥ balanceThreshold)
          pdqLoop a mid limit true true
          pdqLoop (mid + 1) b limit wasBalanced wasPartitioned
        else
          let wasBalanced := decide (rightLen ≥ balanceThreshold)
          pdqLoop (mid + 1) b limit true true
          pdqLoop a mid limit wasBalanced wasPartitioned
partial_fixpoint

/-- xsort/sort_any.go:57-115 `pdqsortLessFunc`. -/
def pdqsort (a b limit : Int) : W σ E Unit := pdqLoop env a b limit true true

/-- xsort/sort_any.go:301-305 `swapRangeLessFunc`, from `i`. -/
def swapRange (a b n i : Int) : W σ E Unit :=
  if i < n then do
    exchange env (a + i) (b + i)
    swapRange a b n (i + 1)
  else pure ()
partial_fixpoint

/-- xsort/sort_any.go:433-443, the loop of `rotateLessFunc` and what follows it. -/
def rotateLoop (m i j : Int) : W σ E Unit :=
  if i ≠ j then
    if i > j then do
      swapRange env (m - i) m j 0
      rotateLoop m (i - j) j
    else do
      swapRange env (m - i) (m + j - i) i 0
      rotateLoop m i (j - i)
  else swapRange env (m - i) m i 0
partial_fixpoint

/-- xsort/sort_any.go:430-444 `rotateLessFunc`. -/
def rotate (a m b : Int) : W σ E Unit := rotateLoop env m (m - a) (b - m)

/-- xsort/sort_any.go:358-365. -/
def searchLow (a i j : Int) : W σ E Int :=
  if i < j then do
    let h := half (i + j)
    if ← isLess env h a then searchLow a (h + 1) j else searchLow a i h
  else pure i
partial_fixpoint

/-- xsort/sort_any.go:381-388. -/
def searchHigh (m i j : Int) : W σ E Int :=
  if i < j then do
    let h := half (i + j)
    if ← notLess env m h then searchHigh m (h + 1) j else searchHigh m i h
  else pure i
partial_fixpoint

/-- xsort/sort_any.go:406-413. -/
def searchMiddle (p start r : Int) : W σ E Int :=
  if start < r then do
    let c := half (start + r)
    if ← notLess env (p - c) c then searchMiddle p (c + 1) r else searchMiddle p start c
  else pure start
partial_fixpoint

/-- xsort/sort_any.go:367-369, `for k := a; k < i-1; k++`. -/
def moveUp (i k : Int) : W σ E Unit :=
  if k < i - 1 then do
    exchange env k (k + 1)
    moveUp i (k + 1)
  else pure ()
partial_fixpoint

/-- xsort/sort_any.go:390-392, `for k := m; k > i; k--`. -/
def moveDown (i k : Int) : W σ E Unit :=
  if k > i then do
    exchange env k (k - 1)
    moveDown i (k - 1)
  else pure ()
partial_fixpoint

/-- xsort/sort_any.go:348-424 `symMergeLessFunc`. -/
def symMerge (a m b : Int) : W σ E Unit :=
  if m - a = 1 then do
    let i ← searchLow env a m b
    moveUp env i a
  else if b - m = 1 then do
    let i ← searchHigh env m a m
    moveDown env i m
  else do
    let mid := half (a + b)
    let n := mid + m
    let (start, r) := if m > mid then (n - b, mid) else (a, m)
    let p := n - 1
    let start ← searchMiddle env p start r
    let «end» := n - start
    (if start < m ∧ m < «end» then rotate env start m «end» else pure () : W σ E Unit)
    (if a < start ∧ start < mid then symMerge a start mid else pure () : W σ E Unit)
    (if mid < «end» ∧ «end» < b then symMerge mid «end» b else pure () : W σ E Unit)
partial_fixpoint

/-- xsort/sort_any.go:309-313; returns `a`. -/
def blocks (n blockSize a b : Int) : W σ E Int :=
  if b ≤ n then do
    insertionSort env a b
    blocks n blockSize b (b + blockSize)
  else pure a
partial_fixpoint

/-- xsort/sort_any.go:317-321; returns `a`. -/
def mergePairs (n blockSize a b : Int) : W σ E Int :=
  if b ≤ n then do
    symMerge env a (a + blockSize) b
    mergePairs n blockSize b (b + 2 * blockSize)
  else pure a
partial_fixpoint

/-- xsort/sort_any.go:315-326. -/
def doubling (n blockSize : Int) : W σ E Unit :=
  if blockSize < n then do
    let a ← mergePairs env n blockSize 0 (2 * blockSize)
    let m := a + blockSize
    (if m < n then symMerge env a m n else pure () : W σ E Unit)
    doubling n (blockSize * 2)
  else pure ()
partial_fixpoint

/-- xsort/sort_any.go:306-327 `stableLessFunc`. -/
def stable (n : Int) : W σ E Unit := do
  let blockSize := 20
  let a ← blocks env n blockSize 0 blockSize
  insertionSort env a n
  doubling env n blockSize

/-- xsort/sort.go:39-43 `Sort(data, less)`, with the comparator in state `s`. The length is that of the slice given: others
cannot change it. -/
def SortFn (s : σ) (data : List E) : Option (Go Unit × σ × List E) :=
  let n : Int := data.length
  pdqsort env 0 n (bitsLen data.length) (s, data)

/-- xsort/sort.go:49-51 `Stable(data, less)`. -/
def StableFn (s : σ) (data : List E) : Option (Go Unit × σ × List E) := stable env data.length (s, data)

end Verif.Sort.Written
