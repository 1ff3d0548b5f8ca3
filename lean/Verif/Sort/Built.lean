import Verif.Sort.Model

/-!
# What the sorts are made of

The sorting functions are put together from reads of two elements that are given to the comparator, and
exchanges of two elements.  What is true of these and preserved by sequencing is true of them all.
-/

namespace Verif.Sort

variable {E : Type} [Inhabited E] {r : Bool} {α β : Type}
set_option linter.unusedSectionVars false

/-- `m` consists of comparisons and exchanges of elements and, if `r`, recursive calls. -/
inductive Built (r : Bool) : {α : Type} → M E α → Prop
  | pure {α : Type} (a : α) : Built r (Pure.pure a : M E α)
  | fail {α : Type} (msg : String) : Built r (M.fail msg : M E α)
  | lessAt (i j : Int) : Built r (lessAt i j : M E Bool)
  | nlessAt (i j : Int) : Built r (nlessAt i j : M E Bool)
  | swap (i j : Int) : Built r (swap i j : M E Unit)
  | bind {α β : Type} {m : M E α} {f : α → M E β} : Built r m → (∀ a, Built r (f a)) → Built r (m >>= f)
  | recurse {m : M E Unit} : r = true → Built r m → Built r (recurse m)
  | length {α : Type} {f : Nat → M E α} : (∀ n, Built r (f n)) → Built r (fun d => f d.length d)

theorem Built.when {c : Prop} [Decidable c] {m : M E Unit} (h : Built r m) : Built r (M.when c m) := by
  unfold M.when; split
  · exact h
  · exact Built.pure ()

/-- Descend through a program; leaves the calls for which no lemma is known. -/
macro "built_step" : tactic =>
  `(tactic| repeat' first
    | intro _
    | exact Built.pure _
    | exact Built.fail _
    | exact Built.lessAt _ _
    | exact Built.nlessAt _ _
    | exact Built.swap _ _
    | assumption
    | with_reducible apply Built.when
    | with_reducible apply Built.bind
    | split)

theorem insInner_built (a j : Int) : Built r (insInner a j : M E Unit) := by
  unfold insInner; built_step
  exact insInner_built a (j - 1)
termination_by (j - a).toNat

theorem insOuter_built (a b i : Int) : Built r (insOuter a b i : M E Unit) := by
  have h := insInner_built (E := E) (r := r) a i
  unfold insOuter; built_step
  exact insOuter_built a b (i + 1)
termination_by (b - i).toNat

theorem insertionSort_built (a b : Int) : Built r (insertionSort a b : M E Unit) := insOuter_built ..

theorem pickChild_built (c hi f : Int) : Built r (pickChild c hi f : M E Int) := by
  unfold pickChild; built_step

theorem siftDown_built (root hi first : Int) : Built r (siftDown root hi first : M E Unit) := by
  have h := pickChild_built (E := E) (r := r) (2 * root + 1) hi first
  unfold siftDown; built_step
  exact siftDown_built _ hi first
termination_by (hi - root).toNat

theorem heapBuild_built (i hi first : Int) : Built r (heapBuild i hi first : M E Unit) := by
  have h := siftDown_built (E := E) (r := r) i hi first
  unfold heapBuild; built_step
  exact heapBuild_built _ hi first
termination_by (i + 1).toNat

theorem heapPop_built (i first : Int) : Built r (heapPop i first : M E Unit) := by
  have h := siftDown_built (E := E) (r := r) 0 i first
  unfold heapPop; built_step
  exact heapPop_built _ first
termination_by (i + 1).toNat

theorem heapSort_built (a b : Int) : Built r (heapSort a b : M E Unit) := by
  unfold heapSort; built_step
  · exact heapBuild_built ..
  · exact heapPop_built ..

theorem scanUp_built (a j i : Int) : Built r (scanUp a j i : M E Int) := by
  unfold scanUp; built_step
  exact scanUp_built a j _
termination_by (j + 1 - i).toNat

theorem scanDown_built (a i j : Int) : Built r (scanDown a i j : M E Int) := by
  unfold scanDown; built_step
  exact scanDown_built a i _
termination_by (j + 1 - i).toNat

theorem partLoop_built (n : Nat) (a i j : Int) : Built r (partLoop n a i j : M E Int) := by
  induction n generalizing i j with
  | zero => exact Built.fail _
  | succ n ih =>
    unfold partLoop
    built_step
    · exact scanUp_built ..
    · exact scanDown_built ..
    · exact ih ..

theorem partition_built (a b p : Int) : Built r (partition a b p : M E (Int × Bool)) := by
  unfold partition; built_step
  · exact scanUp_built ..
  · exact scanDown_built ..
  · exact partLoop_built ..

theorem scanUpEq_built (a j i : Int) : Built r (scanUpEq a j i : M E Int) := by
  unfold scanUpEq; built_step
  exact scanUpEq_built a j _
termination_by (j + 1 - i).toNat

theorem scanDownEq_built (a i j : Int) : Built r (scanDownEq a i j : M E Int) := by
  unfold scanDownEq; built_step
  exact scanDownEq_built a i _
termination_by (j + 1 - i).toNat

theorem partEqLoop_built (n : Nat) (a i j : Int) : Built r (partEqLoop n a i j : M E Int) := by
  induction n generalizing i j with
  | zero => exact Built.fail _
  | succ n ih =>
    unfold partEqLoop
    built_step
    · exact scanUpEq_built ..
    · exact scanDownEq_built ..
    · exact ih ..

theorem partitionEqual_built (a b p : Int) : Built r (partitionEqual a b p : M E Int) := by
  unfold partitionEqual; built_step
  exact partEqLoop_built ..

theorem scanSorted_built (b i : Int) : Built r (scanSorted b i : M E Int) := by
  unfold scanSorted; built_step
  exact scanSorted_built b _
termination_by (b - i).toNat

theorem shiftLeft_built (j : Int) : Built r (shiftLeft j : M E Unit) := by
  unfold shiftLeft; built_step
  exact shiftLeft_built _
termination_by j.toNat

theorem shiftRight_built (b j : Int) : Built r (shiftRight b j : M E Unit) := by
  unfold shiftRight; built_step
  exact shiftRight_built b _
termination_by (b - j).toNat

theorem partialLoop_built (n : Nat) (a b i : Int) : Built r (partialLoop n a b i : M E Bool) := by
  induction n generalizing i with
  | zero => exact Built.pure _
  | succ n ih =>
    unfold partialLoop
    built_step
    · exact scanSorted_built ..
    · exact shiftLeft_built ..
    · exact shiftRight_built ..
    · exact ih ..

theorem breakLoop_built (n : Nat) (a l i : Int) (x : BitVec 64) :
    Built r (breakLoop n a l i x : M E Unit) := by
  induction n generalizing i x with
  | zero => exact Built.pure _
  | succ n ih =>
    unfold breakLoop
    built_step
    exact ih ..

theorem breakIfUnbalanced_built (w : Bool) (a b l : Int) : Built r (breakIfUnbalanced w a b l : M E Int) := by
  unfold breakIfUnbalanced breakPatterns; dsimp only; built_step
  exact breakLoop_built ..

theorem order2_built (a b : Int) (s : Nat) : Built r (order2 a b s : M E _) := by
  unfold order2; built_step

theorem median_built (a b c : Int) (s : Nat) : Built r (median a b c s : M E _) := by
  unfold median; built_step <;> exact order2_built ..

theorem choosePivot_built (a b : Int) : Built r (choosePivot a b : M E _) := by
  unfold choosePivot pivotOf ninther medianAdjacent; built_step <;> exact median_built ..

theorem revLoop_built (i j : Int) : Built r (revLoop i j : M E Unit) := by
  unfold revLoop; built_step
  exact revLoop_built _ _
termination_by (j - i).toNat

theorem reverseIfDecreasing_built (a b p : Int) (h : Hint) :
    Built r (reverseIfDecreasing a b p h : M E _) := by
  unfold reverseIfDecreasing reverseRange; built_step
  exact revLoop_built ..

theorem tryPartial_built (c : Prop) [Decidable c] (a b : Int) : Built r (tryPartial c a b : M E Bool) := by
  unfold tryPartial partialInsertionSort; built_step
  exact partialLoop_built ..

theorem manyEqual_built (a p : Int) : Built r (manyEqual a p : M E Bool) := by
  unfold manyEqual; built_step

theorem pdqsort_built (n : Nat) (a b l : Int) (w v : Bool) : Built true (pdqsort n a b l w v : M E Unit) := by
  induction n generalizing a b l w v with
  | zero => exact Built.fail _
  | succ n ih =>
    unfold pdqsort
    dsimp only
    built_step
    all_goals first
      | exact insertionSort_built ..
      | exact heapSort_built ..
      | exact breakIfUnbalanced_built ..
      | exact choosePivot_built ..
      | exact reverseIfDecreasing_built ..
      | exact tryPartial_built ..
      | exact manyEqual_built ..
      | exact partitionEqual_built ..
      | exact partition_built ..
      | exact ih ..
      | exact Built.recurse rfl (ih ..)

theorem sortProg_built : Built true (sortProg : M E Unit) := 
  Built.length (f := fun n => pdqsort (n + 1) 0 n (bitsLen n) true true) fun _ => pdqsort_built ..

theorem swapRange_built (a b n i : Int) : Built r (swapRange a b n i : M E Unit) := by
  unfold swapRange; built_step
  exact swapRange_built a b n _
termination_by (n - i).toNat

theorem rotateLoop_built (m i j : Int) : Built r (rotateLoop m i j : M E Unit) := by
  have h := fun a b n i => swapRange_built (E := E) (r := r) a b n i
  unfold rotateLoop; built_step
  · exact h ..
  · exact h ..
  · exact rotateLoop_built m _ _
  · exact h ..
  · exact rotateLoop_built m _ _
termination_by (i + j).toNat

theorem searchGE_built (a i j : Int) : Built r (searchGE a i j : M E Int) := by
  unfold searchGE; built_step <;> exact searchGE_built a _ _
termination_by (j - i).toNat

theorem searchGT_built (a i j : Int) : Built r (searchGT a i j : M E Int) := by
  unfold searchGT; built_step <;> exact searchGT_built a _ _
termination_by (j - i).toNat

theorem searchSym_built (p i j : Int) : Built r (searchSym p i j : M E Int) := by
  unfold searchSym; built_step <;> exact searchSym_built p _ _
termination_by (j - i).toNat

theorem bubbleUp_built (i k : Int) : Built r (bubbleUp i k : M E Unit) := by
  unfold bubbleUp; built_step
  exact bubbleUp_built i _
termination_by (i - k).toNat

theorem bubbleDown_built (i k : Int) : Built r (bubbleDown i k : M E Unit) := by
  unfold bubbleDown; built_step
  exact bubbleDown_built i _
termination_by (k - i).toNat

theorem symMerge_built (a m b : Int) : Built true (symMerge a m b : M E Unit) := by
  unfold symMerge
  refine ?_
  split
  · exact Built.bind (searchGE_built ..) fun _ => bubbleUp_built ..
  · split
    · exact Built.bind (searchGT_built ..) fun _ => bubbleDown_built ..
    · refine Built.bind (searchSym_built ..) fun start => ?_
      refine Built.bind (Built.when (rotateLoop_built ..)) fun _ => ?_
      refine Built.bind ?_ fun _ => ?_
      · split
        · exact Built.recurse rfl (symMerge_built a start _)
        · exact Built.pure _
      · split
        · exact Built.recurse rfl (symMerge_built _ _ b)
        · exact Built.pure _
termination_by (b - a).toNat

theorem blockLoop_built (n a b : Int) : Built r (blockLoop n a b : M E Int) := by
  unfold blockLoop; built_step
  · exact insertionSort_built ..
  · exact blockLoop_built n _ _
termination_by (n + 1 - b).toNat

theorem mergePass_built (n bs a b : Int) : Built true (mergePass n bs a b : M E Int) := by
  unfold mergePass; built_step
  · exact symMerge_built ..
  · exact mergePass_built n bs _ _
termination_by (n + 1 - b).toNat

theorem stableLoop_built (n bs : Int) : Built true (stableLoop n bs : M E Unit) := by
  unfold stableLoop; built_step
  · exact mergePass_built ..
  · exact symMerge_built ..
  · exact stableLoop_built n _
termination_by (n - bs).toNat

theorem stableProg_built : Built true (stableProg : M E Unit) := by
  have key : ∀ n : Int, Built true (stable n : M E Unit) := by
    intro n
    unfold stable; built_step
    · exact blockLoop_built ..
    · exact insertionSort_built ..
    · exact stableLoop_built ..
  exact Built.length (f := fun n => stable n) fun _ => key _

end Verif.Sort
