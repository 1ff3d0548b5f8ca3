import Verif.Conformance.Slice
import Verif.Algo.Model
import Verif.Slice.Inserters

/-! # algo/*_test.go on the models -/

namespace Verif.Conformance.Algo

open Verif.Iter Verif.Slice Verif.Conformance Verif.Conformance.Slice

/-- `xfn.Less` on `int`. -/
def less (a b : Int) : Bool := decide (a < b)

/-- TestReverse (algo/generic_test.go:12-33). -/
example : passes ([] : Heap Int) (do
    let s ← of [3, 2, 1]
    Algo.reverse 10 (begin_ s : SIter Int) (end_ s)
    same (some [1, 2, 3]) (← seen s)
    let s ← of [3, 2, 1]
    Algo.reverse 10 (rbegin s : Rev (SIter Int)) (rend s)
    same (some [1, 2, 3]) (← seen s)
    let s ← of []
    Algo.reverse 10 (begin_ s : SIter Int) (end_ s)
    same none (← seen s)
    Algo.reverse 10 (rbegin s : Rev (SIter Int)) (rend s)
    same none (← seen s)) = true := by decide +kernel

/-- TestSwap (algo/generic_test.go:35-51). -/
example : passes ([] : Heap Int) (do
    let s ← of [1, 2, 3, 4, 5, 6]
    Algo.swap (← St.lift (add (begin_ s : SIter Int) 1)) (← St.lift (add (begin_ s) 3))
    same (some [1, 4, 3, 2, 5, 6]) (← seen s)
    let s ← of [1, 2, 3, 4, 5, 6]
    Algo.swap (← St.lift (add (rbegin s : Rev (SIter Int)) 1)) (← St.lift (add (rbegin s) 3))
    same (some [1, 2, 5, 4, 3, 6]) (← seen s)
    let s ← of [1, 2]
    Algo.swap (begin_ s : SIter Int) (begin_ s)
    same (some [1, 2]) (← seen s)) = true := by decide +kernel

section
variable {It : Type} [RandIter (Heap Int) Int It]

/-- `require.True(NextPermutation(r)); require.Equal(want, a)`, and so on for a list of expectations. -/
def perms (r : Range It) (a : Slice) : List (Bool × List Int) → I Unit
  | [] => pure ()
  | (b, want) :: rest => do
    same b (← Algo.nextPermutation 10 less r.first r.last)
    same (some want) (← seen a)
    perms r a rest

end

/-- The permutations of 1, 2, 3 as the test expects them. -/
def three : List (Bool × List Int) :=
  [(true, [1, 3, 2]), (true, [2, 1, 3]), (true, [2, 3, 1]), (true, [3, 1, 2]), (true, [3, 2, 1]), (false, [1, 2, 3])]

def turned (l : List (Bool × List Int)) : List (Bool × List Int) := l.map fun (b, x) => (b, x.reverse)

/-- TestNextPermutation (algo/next_permutation_test.go:13-95). -/
example : passes ([] : Heap Int) (do
    let a ← of [1, 2, 3]
    perms (range a) a three
    perms (← St.lift (Slice.subRange a 1 3)) a [(true, [1, 3, 2]), (false, [1, 2, 3])]
    let a ← of [1, 2]
    perms (range a) a [(true, [2, 1]), (false, [1, 2])]
    let a ← reversed (← of [1, 2, 3])
    perms (reverseRange a) a (turned three)
    perms (← St.lift (reverseSubRange a 1 3)) a (turned [(true, [1, 3, 2]), (false, [1, 2, 3])])
    let a ← reversed (← of [1, 2])
    perms (reverseRange a) a (turned [(true, [2, 1]), (false, [1, 2])])
    let a ← of [1]
    perms (range a) a [(false, [1])]
    perms (reverseRange a) a [(false, [1])]
    let a ← of []
    check (!(← Algo.nextPermutation 10 less (rbegin a : Rev (SIter Int)) (rend a)))
    same none (← seen a)) = true := by decide +kernel

/-- TestIsSortedUntil (algo/is_sorted_test.go:13-31). -/
example : passes ([] : Heap Int) (do
    let s ← of [1, 2, 3, 3, 2, 3, 4]
    let it ← Algo.isSortedUntil 10 less (begin_ s : SIter Int) (end_ s)
    check (← St.lift (equal it (← St.lift (add (begin_ s) 4))))
    let s ← of [1, 0, 1]
    let it ← Algo.isSortedUntil 10 less (begin_ s : SIter Int) (end_ s)
    check (← St.lift (equal it (← St.lift (add (begin_ s) 1))))
    let s ← of []
    let it ← Algo.isSortedUntil 10 less (begin_ s : SIter Int) (end_ s)
    check (← St.lift (equal it (end_ s)))) = true := by decide +kernel

def sorted (l : List Int) : I Bool := do
  let s ← of l
  Algo.isSorted 10 less (begin_ s : SIter Int) (end_ s)

/-- TestIsSorted (algo/is_sorted_test.go:33-46). -/
example : passes ([] : Heap Int) (do
    check (← sorted [])
    check (← sorted [1])
    check (← sorted [1, 2])
    check (← sorted [1, 2, 3, 3, 3, 5])
    check (!(← sorted [1, 2, 3, 2, 3]))
    check (!(← sorted [2, 2, 2, 1]))) = true := by decide +kernel

/-- `check(pos, val)` for a list of them. -/
def bounds (find : Int → I (SIter Int)) (s : Slice) (shift : Int) : List (Int × Int) → I Unit
  | [] => pure ()
  | (p, v) :: rest => do
    same (← St.lift (add (begin_ s : SIter Int) (p + shift))) (← find v)
    bounds find s shift rest

/-- TestUpperBound (algo/binary_search_test.go:12-53). -/
example : passes ([] : Heap Int) (do
    let s ← of [1, 1, 2, 2, 3, 5, 7]
    bounds (Algo.upperBound less (begin_ s) (end_ s)) s 0
      [(0, 0), (2, 1), (4, 2), (5, 3), (5, 4), (6, 5), (6, 6), (7, 7), (7, 8)]
    let s ← of [7, 5, 3, 2, 2, 1, 1]
    bounds (fun v => do return (← Algo.upperBound less (rbegin s : Rev (SIter Int)) (rend s) v).base) s 1
      [(6, 0), (4, 1), (2, 2), (1, 3), (1, 4), (0, 5), (0, 6), (-1, 7), (-1, 8)]
    let s ← of []
    same (end_ s) (← Algo.upperBound less (begin_ s : SIter Int) (end_ s) 1)
    same (rend s : Rev (SIter Int)).base (← Algo.upperBound less (rbegin s : Rev (SIter Int)) (rend s) 1).base) = true := by
  decide +kernel

/-- TestLowerBound (algo/binary_search_test.go:55-96). -/
example : passes ([] : Heap Int) (do
    let s ← of [1, 1, 2, 2, 3, 5, 7]
    bounds (Algo.lowerBound less (begin_ s) (end_ s)) s 0
      [(0, 0), (0, 1), (2, 2), (4, 3), (5, 4), (5, 5), (6, 6), (6, 7), (7, 8)]
    let s ← of [7, 5, 3, 2, 2, 1, 1]
    bounds (fun v => do return (← Algo.lowerBound less (rbegin s : Rev (SIter Int)) (rend s) v).base) s 1
      [(6, 0), (6, 1), (4, 2), (2, 3), (1, 4), (1, 5), (0, 6), (0, 7), (-1, 8)]
    let s ← of []
    same (end_ s) (← Algo.lowerBound less (begin_ s : SIter Int) (end_ s) 1)
    same (rend s : Rev (SIter Int)).base (← Algo.lowerBound less (rbegin s : Rev (SIter Int)) (rend s) 1).base) = true := by
  decide +kernel

/-- TestFillN (algo/fill_test.go:15-37). -/
example : passes ([] : Heap Int) (do
    let s ← of [0, 1, 2, 3, 4, 5, 6, 7, 8, 9]
    let it ← Algo.fillN (← St.lift (add (begin_ s : SIter Int) 1)) 4 (-1)
    check (← St.lift (equal it (← St.lift (add (begin_ s) 5))))
    same (some [0, -1, -1, -1, -1, 5, 6, 7, 8, 9]) (← seen s)) = true := by decide +kernel

example : passes (mem [0, 2]) (do
    let _ ← Algo.fillN (⟨⟨fun _ => 0⟩⟩ : AppendIter (Var Int)) 3 (-1)
    same [0, 2, -1, -1, -1] (← list)) = true := by decide +kernel

example : passes (fun _ => Ring.ofSlice [0, 2] : Ring.Inserters.Rings Int) (do
    let _ ← Algo.fillN (⟨.ring 7⟩ : PrependIter (Ring.Inserters.Target Int)) 3 (-1)
    let rs ← now
    same (some [-1, -1, -1, 0, 2]) (← St.lift ((Ring.toSlice (rs 7) none).map (·.1)))) = true := by decide +kernel

example : passes (⟨mem [0, 1, 2, 3, 4], fun _ => ⟨2, (mem [0, 1, 2, 3, 4]).var⟩⟩ : Slice.Inserters.Held Int) (do
    let _ ← Algo.fillN (⟨⟨fun _ => 0⟩, 5⟩ : Slice.Inserters.InsIter Int) 3 (-1)
    let m ← now
    same [0, 1, -1, -1, -1, 2, 3, 4] (contents m.mem.heap m.mem.var)) = true := by decide +kernel

end Verif.Conformance.Algo
