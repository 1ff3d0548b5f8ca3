import Verif.Sort.Prog

/-!
# Model of `/repo/xsort`

One model serves both `sort_any.go` (functions `…LessFunc`) and `sort_ordered.go` (functions
`…Ordered`): the two files are the same text with `less(x, y)` replaced by `x < y` and
`!less(x, y)` replaced by `x >= y`; the two kinds of comparison are the two `Kind`s.  Line numbers
below are those of `sort_any.go`; in `sort_ordered.go` add 4.

Go's `int` is `Int` (slices have fewer than `2^63` elements and every index computation below stays
under twice the length, so `i+j` may exceed `2^63-1` only before the shift `uint(i+j) >> 1`, where
the code itself guards against it).
-/

namespace Verif.Sort

variable {E : Type} [Inhabited E]

/-- `if c { m }`. -/
def M.when (c : Prop) [Decidable c] (m : M E Unit) : M E Unit := if c then m else pure ()

/-- xsort/sort_any.go:11-13, inner loop of `insertionSort` from position `j`. -/
def insInner (a j : Int) : M E Unit :=
  if j > a then do
    if ← lessAt j (j - 1) then
      swap j (j - 1)
      insInner a (j - 1)
    else pure ()
  else pure ()
termination_by (j - a).toNat

/-- xsort/sort_any.go:10-14, outer loop of `insertionSort` from `i`. -/
def insOuter (a b i : Int) : M E Unit :=
  if i < b then do
    insInner a i
    insOuter a b (i + 1)
  else pure ()
termination_by (b - i).toNat

/-- xsort/sort_any.go:9-15 `insertionSort`. -/
def insertionSort (a b : Int) : M E Unit := insOuter a b (a + 1)

/-- xsort/sort_any.go:26-28: the larger of the two children (`child` if there is only one). -/
def pickChild (child hi first : Int) : M E Int :=
  if child + 1 < hi then do
    if ← lessAt (first + child) (first + child + 1) then pure (child + 1) else pure child
  else pure child

/-- xsort/sort_any.go:19-35 `siftDown`, from `root`. A negative `root`, or a chosen child that is not
below the root, never occurs (theorem C03); they are failures here so that the descent is visibly
well-founded. -/
def siftDown (root hi first : Int) : M E Unit :=
  if 2 * root + 1 ≥ hi then pure ()
  else do
    let child ← pickChild (2 * root + 1) hi first
    if _h : root < child ∧ child < hi then
      if ← nlessAt (first + root) (first + child) then pure ()
      else
        swap (first + root) (first + child)
        siftDown child hi first
    else M.fail "child out of range"
termination_by (hi - root).toNat

/-- xsort/sort_any.go:41-43, loop building the heap, from `i` down to 0. -/
def heapBuild (i hi first : Int) : M E Unit :=
  if i ≥ 0 then do
    siftDown i hi first
    heapBuild (i - 1) hi first
  else pure ()
termination_by (i + 1).toNat

/-- xsort/sort_any.go:45-48, loop popping the maxima, from `i` down to 0. -/
def heapPop (i first : Int) : M E Unit :=
  if i ≥ 0 then do
    swap first (first + i)
    siftDown 0 i first
    heapPop (i - 1) first
  else pure ()
termination_by (i + 1).toNat

/-- xsort/sort_any.go:36-49 `heapSort`. -/
def heapSort (a b : Int) : M E Unit := do
  let hi := b - a
  heapBuild ((hi - 1) / 2) hi a
  heapPop (hi - 1) a

/-- xsort/sort_any.go:124-126 and 138-140: `for i <= j && less(data[i], data[a]) { i++ }`. -/
def scanUp (a j i : Int) : M E Int :=
  if i ≤ j then do
    if ← lessAt i a then scanUp a j (i + 1) else pure i
  else pure i
termination_by (j + 1 - i).toNat

/-- xsort/sort_any.go:127-129 and 141-143: `for i <= j && !less(data[j], data[a]) { j-- }`. -/
def scanDown (a i j : Int) : M E Int :=
  if i ≤ j then do
    if ← nlessAt j a then scanDown a i (j - 1) else pure j
  else pure j
termination_by (j + 1 - i).toNat

/-- xsort/sort_any.go:137-152, main loop of `partition`; the fuel bounds the iterations (each moves `i`
and `j` at least one step towards each other), so `b - a` is enough. -/
def partLoop : Nat → Int → Int → Int → M E Int
  | 0, _, _, _ => M.fail "fuel"
  | fuel + 1, a, i, j => do
    let i ← scanUp a j i
    let j ← scanDown a i j
    if i > j then do
      swap j a
      pure j
    else do
      swap i j
      partLoop fuel a (i + 1) (j - 1)

/-- xsort/sort_any.go:121-153 `partition`. -/
def partition (a b pivot : Int) : M E (Int × Bool) := do
  swap a pivot
  let i ← scanUp a (b - 1) (a + 1)
  let j ← scanDown a i (b - 1)
  if i > j then do
    swap j a
    pure (j, true)
  else do
    swap i j
    let j ← partLoop (b - a).toNat a (i + 1) (j - 1)
    pure (j, false)

/-- xsort/sort_any.go:161-163: `for i <= j && !less(data[a], data[i]) { i++ }`. -/
def scanUpEq (a j i : Int) : M E Int :=
  if i ≤ j then do
    if ← nlessAt a i then scanUpEq a j (i + 1) else pure i
  else pure i
termination_by (j + 1 - i).toNat

/-- xsort/sort_any.go:164-166: `for i <= j && less(data[a], data[j]) { j-- }`. -/
def scanDownEq (a i j : Int) : M E Int :=
  if i ≤ j then do
    if ← lessAt a j then scanDownEq a i (j - 1) else pure j
  else pure j
termination_by (j + 1 - i).toNat

/-- xsort/sort_any.go:160-174, main loop of `partitionEqual`. -/
def partEqLoop : Nat → Int → Int → Int → M E Int
  | 0, _, _, _ => M.fail "fuel"
  | fuel + 1, a, i, j => do
    let i ← scanUpEq a j i
    let j ← scanDownEq a i j
    if i > j then pure i
    else do
      swap i j
      partEqLoop fuel a (i + 1) (j - 1)

/-- xsort/sort_any.go:157-175 `partitionEqual`. -/
def partitionEqual (a b pivot : Int) : M E Int := do
  swap a pivot
  partEqLoop (b - a).toNat a (a + 1) (b - 1)

/-- xsort/sort_any.go:185-187: `for i < b && !less(data[i], data[i-1]) { i++ }`. -/
def scanSorted (b i : Int) : M E Int :=
  if i < b then do
    if ← nlessAt i (i - 1) then scanSorted b (i + 1) else pure i
  else pure i
termination_by (b - i).toNat

/-- xsort/sort_any.go:197-202: `for j := i - 1; j >= 1; j-- { if !less(data[j], data[j-1]) {break}; swap }`.
(The bound is `1`, not `a+1`.) -/
def shiftLeft (j : Int) : M E Unit :=
  if j ≥ 1 then do
    if ← nlessAt j (j - 1) then pure ()
    else
      swap j (j - 1)
      shiftLeft (j - 1)
  else pure ()
termination_by j.toNat

/-- xsort/sort_any.go:206-211: `for j := i + 1; j < b; j++ { if !less(data[j], data[j-1]) {break}; swap }`. -/
def shiftRight (b j : Int) : M E Unit :=
  if j < b then do
    if ← nlessAt j (j - 1) then pure ()
    else
      swap j (j - 1)
      shiftRight b (j + 1)
  else pure ()
termination_by (b - j).toNat

/-- xsort/sort_any.go:184-214, the `maxSteps` loop of `partialInsertionSort` with `n` steps left. -/
def partialLoop : Nat → Int → Int → Int → M E Bool
  | 0, _, _, _ => pure false
  | n + 1, a, b, i => do
    let i ← scanSorted b i
    if i = b then pure true
    else if b - a < 50 then pure false
    else do
      swap i (i - 1)
      M.when (i - a ≥ 2) (shiftLeft (i - 1))
      M.when (b - i ≥ 2) (shiftRight b (i + 1))
      partialLoop n a b i

/-- xsort/sort_any.go:178-215 `partialInsertionSort` (`maxSteps = 5`). -/
def partialInsertionSort (a b : Int) : M E Bool := partialLoop 5 a b (a + 1)

/-- xsort/sort.go:21-26 `xorshift.Next`. -/
def xorshiftNext (r : BitVec 64) : BitVec 64 :=
  let r := r ^^^ (r <<< 13)
  let r := r ^^^ (r >>> 17)
  r ^^^ (r <<< 5)

/-- Go `bits.Len`. -/
def bitsLen (n : Nat) : Nat := if n = 0 then 0 else Nat.log2 n + 1

/-- xsort/sort_any.go:225-228: the swap partner derived from a random word, `modulus` being
xsort/sort.go:28-31 `nextPowerOfTwo(length)`. -/
def breakOther (length : Int) (random : BitVec 64) : Int :=
  let modulus : BitVec 64 := 1#64 <<< bitsLen length.toNat
  let other : Int := (random &&& (modulus - 1#64)).toNat
  if other ≥ length then other - length else other

/-- xsort/sort_any.go:224-230, loop of `breakPatterns` with `n` rounds left at index `idx`. -/
def breakLoop : Nat → Int → Int → Int → BitVec 64 → M E Unit
  | 0, _, _, _, _ => pure ()
  | n + 1, a, length, idx, random => do
    let random := xorshiftNext random
    let other := breakOther length random
    swap idx (a + other)
    breakLoop n a length (idx + 1) random

/-- xsort/sort_any.go:219-232 `breakPatterns` (the loop runs over three indices). -/
def breakPatterns (a b : Int) : M E Unit :=
  let length := b - a
  if length ≥ 8 then
    breakLoop 3 a length (a + (length / 4) * 2 - 1) (BitVec.ofInt 64 length)
  else pure ()

/-- xsort/sort_any.go:272-278 `order2`; the counter `*swaps` is returned. -/
def order2 (a b : Int) (swaps : Nat) : M E (Int × Int × Nat) := do
  if ← lessAt b a then pure (b, a, swaps + 1) else pure (a, b, swaps)

/-- xsort/sort_any.go:281-286 `median`. -/
def median (a b c : Int) (swaps : Nat) : M E (Int × Nat) := do
  let p ← order2 a b swaps            -- a, b = p.1, p.2.1
  let q ← order2 p.2.1 c p.2.2        -- b, c = q.1, q.2.1
  let r ← order2 p.1 q.1 q.2.2        -- a, b = r.1, r.2.1
  pure (r.2.1, r.2.2)

/-- xsort/sort_any.go:289-291 `medianAdjacent`. -/
def medianAdjacent (a : Int) (swaps : Nat) : M E (Int × Nat) := median (a - 1) a (a + 1) swaps

/-- xsort/sort.go:10-16 `sortedHint`. -/
inductive Hint
  | unknown | increasing | decreasing
deriving DecidableEq

/-- xsort/sort_any.go:252-257: the candidate positions, improved by medians of neighbours on long slices. -/
def ninther (l i j k : Int) : M E (Int × Int × Int × Nat) :=
  if l ≥ 50 then do
    let p ← medianAdjacent i 0
    let q ← medianAdjacent j p.2
    let r ← medianAdjacent k q.2
    pure (p.1, q.1, r.1, r.2)
  else pure (i, j, k, 0)

/-- xsort/sort_any.go:251-260: the pivot position and the number of swaps. -/
def pivotOf (l i j k : Int) : M E (Int × Nat) :=
  if l ≥ 8 then do
    let q ← ninther l i j k
    median q.1 q.2.1 q.2.2.1 q.2.2.2
  else pure (j, 0)

/-- xsort/sort_any.go:239-269 `choosePivot`. -/
def choosePivot (a b : Int) : M E (Int × Hint) := do
  let l := b - a
  let i := a + l / 4 * 1
  let j := a + l / 4 * 2
  let k := a + l / 4 * 3
  let p ← pivotOf l i j k
  pure (p.1, if p.2 = 0 then .increasing else if p.2 = 12 then .decreasing else .unknown)

/-- xsort/sort_any.go:295-299, loop of `reverseRange`. -/
def revLoop (i j : Int) : M E Unit :=
  if i < j then do
    swap i j
    revLoop (i + 1) (j - 1)
  else pure ()
termination_by (j - i).toNat

/-- xsort/sort_any.go:292-300 `reverseRange`. -/
def reverseRange (a b : Int) : M E Unit := revLoop a (b - 1)

/-- xsort/sort_any.go:75-78: break patterns after an unbalanced partition; returns the new `limit`. -/
def breakIfUnbalanced (wasBalanced : Bool) (a b limit : Int) : M E Int :=
  if wasBalanced then pure limit
  else do
    breakPatterns a b
    pure (limit - 1)

/-- xsort/sort_any.go:80-87: reverse a descending-looking range. -/
def reverseIfDecreasing (a b : Int) (pivot : Int) (hint : Hint) : M E (Int × Hint) :=
  if hint = .decreasing then do
    reverseRange a b
    pure ((b - 1) - (pivot - a), .increasing)
  else pure (pivot, hint)

/-- xsort/sort_any.go:89-93: try `partialInsertionSort` on a range that looks sorted; true if done. -/
def tryPartial (c : Prop) [Decidable c] (a b : Int) : M E Bool :=
  if c then partialInsertionSort a b else pure false

/-- xsort/sort_any.go:96: `a > 0 && !less(data[a-1], data[pivot])`. -/
def manyEqual (a pivot : Int) : M E Bool :=
  if a > 0 then nlessAt (a - 1) pivot else pure false

/-- xsort/sort_any.go:57-115 `pdqsort`. The fuel bounds the depth of loop iterations plus recursive calls
on any path; `Sort` supplies `len(data) + 1`, which is never exhausted (theorem C03). -/
def pdqsort : Nat → Int → Int → Int → Bool → Bool → M E Unit
  | 0, _, _, _, _, _ => M.fail "fuel"
  | fuel + 1, a, b, limit, wasBalanced, wasPartitioned =>
    let length := b - a
    if length ≤ 12 then insertionSort a b
    else if limit = 0 then heapSort a b
    else do
      let limit ← breakIfUnbalanced wasBalanced a b limit
      let ph ← choosePivot a b
      let ph ← reverseIfDecreasing a b ph.1 ph.2
      let done ← tryPartial (wasBalanced = true ∧ wasPartitioned = true ∧ ph.2 = .increasing) a b
      if done then pure ()
      else do
        let eq ← manyEqual a ph.1
        if eq then do
          let mid ← partitionEqual a b ph.1
          pdqsort fuel mid b limit wasBalanced wasPartitioned
        else do
          let mp ← partition a b ph.1
          let mid := mp.1
          let leftLen := mid - a
          let rightLen := b - mid
          let balanceThreshold := length / 8
          if leftLen < rightLen then do
            recurse (pdqsort fuel a mid limit true true)
            pdqsort fuel (mid + 1) b limit (leftLen ≥ balanceThreshold) mp.2
          else do
            recurse (pdqsort fuel (mid + 1) b limit true true)
            pdqsort fuel a mid limit (rightLen ≥ balanceThreshold) mp.2

/-- xsort/sort.go:33-43 `SortOrdered`, `Sort`. -/
def sortProg : M E Unit := fun d =>
  pdqsort (d.length + 1) 0 d.length (bitsLen d.length) true true d

/-- xsort/sort_any.go:301-305 `swapRange`, from `i`. -/
def swapRange (a b n i : Int) : M E Unit :=
  if i < n then do
    swap (a + i) (b + i)
    swapRange a b n (i + 1)
  else pure ()
termination_by (n - i).toNat

/-- xsort/sort_any.go:433-443, loop of `rotate`. With a non-positive `i` or `j` (and `i ≠ j`) the Go loop
would not end; that case is a failure here. -/
def rotateLoop (m i j : Int) : M E Unit :=
  if i = j then swapRange (m - i) m i 0
  else if i ≤ 0 ∨ j ≤ 0 then M.fail "rotate does not terminate"
  else if i > j then do
    swapRange (m - i) m j 0
    rotateLoop m (i - j) j
  else do
    swapRange (m - i) (m + j - i) i 0
    rotateLoop m i (j - i)
termination_by (i + j).toNat

/-- xsort/sort_any.go:430-444 `rotate`. -/
def rotate (a m b : Int) : M E Unit := rotateLoop m (m - a) (b - m)

/-- xsort/sort_any.go:358-365, binary search for the first `h` in `[i,j)` with `!less(data[h], data[a])`. -/
def searchGE (a i j : Int) : M E Int :=
  if i < j then do
    let h := (i + j) / 2
    if ← lessAt h a then searchGE a (h + 1) j else searchGE a i h
  else pure i
termination_by (j - i).toNat

/-- xsort/sort_any.go:381-388, binary search for the first `h` in `[i,j)` with `less(data[m], data[h])`. -/
def searchGT (m i j : Int) : M E Int :=
  if i < j then do
    let h := (i + j) / 2
    if ← nlessAt m h then searchGT m (h + 1) j else searchGT m i h
  else pure i
termination_by (j - i).toNat

/-- xsort/sort_any.go:406-413, symmetric binary search. -/
def searchSym (p start r : Int) : M E Int :=
  if start < r then do
    let c := (start + r) / 2
    if ← nlessAt (p - c) c then searchSym p (c + 1) r else searchSym p start c
  else pure start
termination_by (r - start).toNat

/-- xsort/sort_any.go:367-369: `for k := a; k < i-1; k++ { swap k, k+1 }`. -/
def bubbleUp (i k : Int) : M E Unit :=
  if k < i - 1 then do
    swap k (k + 1)
    bubbleUp i (k + 1)
  else pure ()
termination_by (i - k).toNat

/-- xsort/sort_any.go:390-392: `for k := m; k > i; k-- { swap k, k-1 }`. -/
def bubbleDown (i k : Int) : M E Unit :=
  if k > i then do
    swap k (k - 1)
    bubbleDown i (k - 1)
  else pure ()
termination_by (k - i).toNat

/-- xsort/sort_any.go:348-424 `symMerge`. -/
def symMerge (a m b : Int) : M E Unit :=
  if m - a = 1 then do
    let i ← searchGE a m b
    bubbleUp i a
  else if b - m = 1 then do
    let i ← searchGT m a m
    bubbleDown i m
  else do
    let mid := (a + b) / 2
    let n := mid + m
    let s₀ := if m > mid then n - b else a
    let r₀ := if m > mid then mid else m
    let start ← searchSym (n - 1) s₀ r₀
    let «end» := n - start
    M.when (start < m ∧ m < «end») (rotate start m «end»)
    (if _h : a < start ∧ start < mid then recurse (symMerge a start mid) else pure () : M E Unit)
    (if _h : mid < «end» ∧ «end» < b then recurse (symMerge mid «end» b) else pure () : M E Unit)
termination_by (b - a).toNat

/-- xsort/sort_any.go:309-313, loop sorting whole blocks; returns the final `a`. `blockSize` is 20. -/
def blockLoop (n a b : Int) : M E Int :=
  if b ≤ n then do
    insertionSort a b
    blockLoop n b (b + 20)
  else pure a
termination_by (n + 1 - b).toNat

/-- xsort/sort_any.go:317-321, one pass of merges over pairs of blocks; returns the final `a`. (A
non-positive block size, for which the loop would not end, is a failure; it is always positive.) -/
def mergePass (n bs a b : Int) : M E Int :=
  if bs ≤ 0 then M.fail "block size"
  else if b ≤ n then do
    symMerge a (a + bs) b
    mergePass n bs b (b + 2 * bs)
  else pure a
termination_by (n + 1 - b).toNat

/-- xsort/sort_any.go:315-326, the doubling loop of `stable`. -/
def stableLoop (n bs : Int) : M E Unit :=
  if bs ≤ 0 then M.fail "block size"
  else if bs < n then do
    let a ← mergePass n bs 0 (2 * bs)
    let m := a + bs
    M.when (m < n) (symMerge a m n)
    stableLoop n (bs * 2)
  else pure ()
termination_by (n - bs).toNat

/-- xsort/sort_any.go:306-327 `stable`. -/
def stable (n : Int) : M E Unit := do
  let a ← blockLoop n 0 20
  insertionSort a n
  stableLoop n 20

/-- xsort/sort.go:45-51 `StableOrdered`, `Stable`. -/
def stableProg : M E Unit := fun d => stable d.length d

/-! ## The exported functions -/

/-- A comparator function as used by the `…LessFunc` variants: `!less` is its negation. -/
def ofLess (less : E → E → Bool) : Unit → Kind → E → E → Bool × Unit
  | _, .lt, x, y => (less x y, ())
  | _, .nlt, x, y => (!less x y, ())

/-- The operators `<` and `>=` as used by the `…Ordered` variants: two independent functions. -/
def ofOps (lt ge : E → E → Bool) : Unit → Kind → E → E → Bool × Unit
  | _, .lt, x, y => (lt x y, ())
  | _, .nlt, x, y => (ge x y, ())

/-- A `less` function that keeps state (it may answer the same question differently each time). -/
def ofStateful {σ : Type} (less : σ → E → E → Bool × σ) : σ → Kind → E → E → Bool × σ
  | s, .lt, x, y => less s x y
  | s, .nlt, x, y => (!(less s x y).1, (less s x y).2)

/-- Run a sorting program; the slice contents afterwards and the number of comparator calls. -/
def runProg {σ : Type} (p : M E Unit) (cmp : σ → Kind → E → E → Bool × σ) (s : σ) (d : List E) :
    Go (List E × Nat) :=
  match (p d).exec cmp s with
  | .ok (((), d'), _, n) => .ok (d', n)
  | .error e => .error e

/-- A `less` function that may keep state and may panic. -/
def ofPanicking {σ : Type} (less : σ → E → E → Go Bool × σ) : σ → Kind → E → E → Go Bool × σ
  | s, .lt, x, y => less s x y
  | s, .nlt, x, y => ((less s x y).1.map (!·), (less s x y).2)

/-- The slice contents after a run. -/
def contentsOf (r : Go (List E × Nat)) : Go (List E) :=
  match r with
  | .ok (d, _) => .ok d
  | .error e => .error e

/-- xsort/sort.go:39-43 `Sort(data, less)`: the slice afterwards. -/
def sort (less : E → E → Bool) (data : List E) : Go (List E) :=
  contentsOf (runProg sortProg (ofLess less) () data)

/-- xsort/sort.go:33-37 `SortOrdered(data)` for a type with operators `<` and `>=`. -/
def sortOrdered (lt ge : E → E → Bool) (data : List E) : Go (List E) :=
  contentsOf (runProg sortProg (ofOps lt ge) () data)

/-- xsort/sort.go:49-51 `Stable(data, less)`. -/
def stableSort (less : E → E → Bool) (data : List E) : Go (List E) :=
  contentsOf (runProg stableProg (ofLess less) () data)

/-- xsort/sort.go:45-47 `StableOrdered(data)`. -/
def stableOrdered (lt ge : E → E → Bool) (data : List E) : Go (List E) :=
  contentsOf (runProg stableProg (ofOps lt ge) () data)

end Verif.Sort
