import Verif.Iter.Model

/-!
# Model of `/repo/algo`

The algorithms are modelled over any iterator (`Verif.Iter`), as the Go code is. Loops that end by
comparing iterators get a step bound (`fuel`), because nothing in the interface makes them end; the
theorems hold for every bound from some size on, so with the bound removed. Comparators are pure
functions. Running out of fuel is the panic `"fuel"`.
-/

namespace Verif.Algo

open Verif.Iter

variable {S T It : Type}

/-- algo/binary_search.go:14-25, loop of `UpperBoundIterators`. -/
def upperBoundLoop [RandIter S T It] (comp : T → T → Bool) (value : T) (first : It) (count : Nat) : St S It :=
  if 0 < count then do
    let step := count / 2
    let it ← St.lift (add first (step : Int))
    let x ← get it
    if !comp value x then
      let it ← St.lift (next it)
      upperBoundLoop comp value it (count - (step + 1))
    else upperBoundLoop comp value first step
  else pure first
termination_by count
decreasing_by all_goals omega

/-- algo/binary_search.go:9-27 `UpperBoundIterators` (51-53, 59-61: the range versions). -/
def upperBound [RandIter S T It] (comp : T → T → Bool) (first last : It) (value : T) : St S It := do
  let count ← St.lift (distance first last)
  if count < 0 then St.panic "invalid range"
  else upperBoundLoop comp value first count.toNat

/-- algo/binary_search.go:34-45, loop of `LowerBoundIterators`. -/
def lowerBoundLoop [RandIter S T It] (comp : T → T → Bool) (value : T) (first : It) (count : Nat) : St S It :=
  if 0 < count then do
    let step := count / 2
    let it ← St.lift (add first (step : Int))
    let x ← get it
    if comp x value then
      let it ← St.lift (next it)
      lowerBoundLoop comp value it (count - (step + 1))
    else lowerBoundLoop comp value first step
  else pure first
termination_by count
decreasing_by all_goals omega

/-- algo/binary_search.go:29-47 `LowerBoundIterators`. -/
def lowerBound [RandIter S T It] (comp : T → T → Bool) (first last : It) (value : T) : St S It := do
  let count ← St.lift (distance first last)
  if count < 0 then St.panic "invalid range"
  else lowerBoundLoop comp value first count.toNat

/-- algo/is_sorted.go:12-18, loop of `IsSortedUntilIterators`. -/
def isSortedLoop [Iter S T It] (comp : T → T → Bool) (last : It) : Nat → It → It → St S It
  | 0, _, _ => St.panic "fuel"
  | fuel + 1, first, nxt => do
    let e ← St.lift (equal nxt last)
    if e then pure last
    else
      let a ← get nxt
      let b ← get first
      if comp a b then pure nxt
      else
        let nxt' ← St.lift (next nxt)
        isSortedLoop comp last fuel nxt nxt'

/-- algo/is_sorted.go:9-21 `IsSortedUntilIterators`. -/
def isSortedUntil [Iter S T It] (fuel : Nat) (comp : T → T → Bool) (first last : It) : St S It := do
  let e ← St.lift (equal first last)
  if e then pure last
  else
    let nxt ← St.lift (next first)
    isSortedLoop comp last fuel first nxt

/-- algo/is_sorted.go:23-25 `IsSortedIterators`. -/
def isSorted [Iter S T It] (fuel : Nat) (comp : T → T → Bool) (first last : It) : St S Bool := do
  let it ← isSortedUntil fuel comp first last
  St.lift (equal it last)

/-- algo/generic.go:8-15 `Swap`. -/
def swap [Iter S T It] (a b : It) : St S Unit := do
  let e ← St.lift (equal a b)
  if e then pure ()
  else
    let va ← get a
    let vb ← get b
    set a vb
    set b va

/-- algo/generic.go:18-27 `Reverse`. -/
def reverse [RandIter S T It] : Nat → It → It → St S Unit
  | 0, _, _ => St.panic "fuel"
  | fuel + 1, first, last => do
    let e ← St.lift (equal first last)
    if e then pure ()
    else
      let last ← St.lift (prev last)
      let e ← St.lift (equal first last)
      if e then pure ()
      else
        swap first last
        let first ← St.lift (next first)
        reverse fuel first last

/-- algo/next_permutation.go:13-16, the conditional exchange. -/
def permSwap [RandIter S T It] (comp : T → T → Bool) (rFirst rLast left : It) : St S Unit := do
  let e ← St.lift (equal left rLast)
  if e then pure ()
  else
    let x ← get left
    let right ← upperBound comp rFirst left x
    swap left right

/-- algo/next_permutation.go:9-19 `NextPermutationIterators`. -/
def nextPermutation [RandIter S T It] (fuel : Nat) (comp : T → T → Bool) (first last : It) : St S Bool := do
  let rFirst : Rev It := ⟨last⟩
  let rLast : Rev It := ⟨first⟩
  let left ← isSortedUntil fuel comp rFirst rLast
  permSwap comp rFirst rLast left
  reverse fuel left.base last
  let e ← St.lift (equal left rLast)
  pure !e

/-- algo/fill.go:8-11, loop of `FillN`. -/
def fillLoop [Iter S T It] (value : T) : Nat → It → St S It
  | 0, first => pure first
  | n + 1, first => do
    set first value
    let first ← St.lift (next first)
    fillLoop value n first

/-- algo/fill.go:7-13 `FillN`. -/
def fillN [Iter S T It] (first : It) (count : Int) (value : T) : St S It :=
  fillLoop value count.toNat first

/-- The client loop `for it := first; !it.Equal(last); it = it.Next() { … it.Get() … }`, collecting what
it reads. -/
def collect [Iter S T It] (last : It) : Nat → It → St S (List T)
  | 0, _ => St.panic "fuel"
  | fuel + 1, it => do
    let e ← St.lift (equal it last)
    if e then pure []
    else
      let x ← get it
      let it ← St.lift (next it)
      let xs ← collect last fuel it
      pure (x :: xs)

end Verif.Algo
