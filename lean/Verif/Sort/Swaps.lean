import Verif.Sort.Events
import Verif.Sort.Rot
import Verif.Sort.StableCost

/-!
# Counting element exchanges

Again nothing is assumed of the answers.
-/

namespace Verif.Sort

variable {E α : Type} [Inhabited E] {adm : Kind → E → E → Bool → Prop}
set_option linter.unusedSectionVars false

/-! ## `pdqsort`: almost every exchange is paid for by a comparison

The state is the number of exchanges less the number of comparator calls. -/

/-- Exchanges less comparator calls. -/
def excess : Act → Int → Int
  | .call, s => s - 1
  | .ev .swap, s => s + 1
  | .ev .enter, s => s
  | .ev .leave, s => s

/-- `ew` for this state. -/
abbrev xw (adm : Kind → E → E → Bool → Prop) (m : M E α) (Q : α → List E → Int → Prop) (s : Int) (d : List E) :
    Prop := ew excess adm m Q s d

theorem xw_recurse {m : M E Unit} {Q : Unit → List E → Int → Prop} {s : Int} {d : List E} :
    xw adm (recurse m) Q s d ↔ xw adm m Q s d := ew_recurse

theorem insInner_x (a j : Int) (s : Int) (d : List E) :
    xw adm (insInner a j) (fun _ _ s' => s' ≤ s) s d := by
  unfold insInner
  split
  · refine ew_bind.2 (ew_lessAt fun b _ => ?_)
    split
    · refine ew_bind.2 (ew_swap ?_)
      exact ew_mono (insInner_x a (j - 1) _ _) fun _ _ s' h => by simp only [excess] at h; omega
    · exact ew_pure.2 (by simp only [excess]; omega)
  · exact ew_pure.2 (Int.le_refl _)
termination_by (j - a).toNat

theorem insOuter_x (a b i : Int) (s : Int) (d : List E) :
    xw adm (insOuter a b i) (fun _ _ s' => s' ≤ s) s d := by
  unfold insOuter
  split
  · refine ew_bind.2 (ew_mono (insInner_x a i s d) fun _ d1 s1 h1 => ?_)
    exact ew_mono (insOuter_x a b (i + 1) s1 d1) fun _ _ s' h => by omega
  · exact ew_pure.2 (Int.le_refl _)
termination_by (b - i).toNat

theorem siftDown_x (root hi first : Int) (s : Int) (d : List E) :
    xw adm (siftDown root hi first) (fun _ _ s' => s' ≤ s) s d := by
  unfold siftDown
  split
  · exact ew_pure.2 (Int.le_refl _)
  · have hp : xw adm (pickChild (2 * root + 1) hi first) (fun _ _ s' => s' ≤ s) s d := by
      unfold pickChild
      split
      · refine ew_bind.2 (ew_lessAt fun b _ => ?_)
        split <;> exact ew_pure.2 (by simp only [excess]; omega)
      · exact ew_pure.2 (Int.le_refl _)
    refine ew_bind.2 (ew_mono hp fun c d1 s1 h1 => ?_)
    split
    · refine ew_bind.2 (ew_nlessAt fun b _ => ?_)
      split
      · exact ew_pure.2 (by simp only [excess]; omega)
      · refine ew_bind.2 (ew_swap ?_)
        exact ew_mono (siftDown_x c hi first _ _) fun _ _ s' h => by simp only [excess] at h; omega
    · exact ew_fail
termination_by (hi - root).toNat

theorem heapBuild_x (i hi first : Int) (s : Int) (d : List E) :
    xw adm (heapBuild i hi first) (fun _ _ s' => s' ≤ s) s d := by
  unfold heapBuild
  split
  · refine ew_bind.2 (ew_mono (siftDown_x i hi first s d) fun _ d1 s1 h1 => ?_)
    exact ew_mono (heapBuild_x (i - 1) hi first s1 d1) fun _ _ s' h => by omega
  · exact ew_pure.2 (Int.le_refl _)
termination_by (i + 1).toNat

theorem heapPop_x (i first : Int) (hi : -1 ≤ i) (s : Int) (d : List E) :
    xw adm (heapPop i first) (fun _ _ s' => s' ≤ s + (i + 1)) s d := by
  unfold heapPop
  split
  · refine ew_bind.2 (ew_swap ?_)
    refine ew_bind.2 (ew_mono (siftDown_x 0 i first _ _) fun _ d1 s1 h1 => ?_)
    exact ew_mono (heapPop_x (i - 1) first (by omega) s1 d1) fun _ _ s' h => by
      simp only [excess] at h1; omega
  · exact ew_pure.2 (by omega)
termination_by (i + 1).toNat

theorem heapSort_x (a b : Int) (hab : a ≤ b) (s : Int) (d : List E) :
    xw adm (heapSort a b) (fun _ _ s' => s' ≤ s + (b - a)) s d := by
  unfold heapSort
  dsimp only
  refine ew_bind.2 (ew_mono (heapBuild_x _ _ _ s d) fun _ d1 s1 h1 => ?_)
  exact ew_mono (heapPop_x (b - a - 1) a (by omega) s1 d1) fun _ _ s' h => by omega

theorem scanUp_x (a j i : Int) (s : Int) (d : List E) :
    xw adm (scanUp a j i) (fun r _ s' => i ≤ r ∧ (r = i ∨ r ≤ j + 1) ∧ s' ≤ s - (r - i) ∧
      (r ≤ j → s' ≤ s - (r - i) - 1)) s d := by
  unfold scanUp
  split
  · refine ew_bind.2 (ew_lessAt fun b _ => ?_)
    split
    · refine ew_mono (scanUp_x a j (i + 1) _ d) fun r _ s' ⟨h1, h2, h3, h4⟩ => ?_
      simp only [excess] at h3 h4
      exact ⟨by omega, by omega, by omega, by omega⟩
    · refine ew_pure.2 ?_
      simp only [excess]; exact ⟨by omega, by omega, by omega, by omega⟩
  · refine ew_pure.2 ⟨by omega, by omega, by omega, by omega⟩
termination_by (j + 1 - i).toNat

theorem scanDown_x (a i j : Int) (s : Int) (d : List E) :
    xw adm (scanDown a i j) (fun r _ s' => r ≤ j ∧ (r = j ∨ i - 1 ≤ r) ∧ s' ≤ s - (j - r) ∧
      (i ≤ r → s' ≤ s - (j - r) - 1)) s d := by
  unfold scanDown
  split
  · refine ew_bind.2 (ew_nlessAt fun b _ => ?_)
    split
    · refine ew_mono (scanDown_x a i (j - 1) _ d) fun r _ s' ⟨h1, h2, h3, h4⟩ => ?_
      simp only [excess] at h3 h4
      exact ⟨by omega, by omega, by omega, by omega⟩
    · refine ew_pure.2 ?_
      simp only [excess]; exact ⟨by omega, by omega, by omega, by omega⟩
  · refine ew_pure.2 ⟨by omega, by omega, by omega, by omega⟩
termination_by (j + 1 - i).toNat

theorem scanUpEq_x (a j i : Int) (s : Int) (d : List E) :
    xw adm (scanUpEq a j i) (fun r _ s' => i ≤ r ∧ (r = i ∨ r ≤ j + 1) ∧ s' ≤ s - (r - i) ∧
      (r ≤ j → s' ≤ s - (r - i) - 1)) s d := by
  unfold scanUpEq
  split
  · refine ew_bind.2 (ew_nlessAt fun b _ => ?_)
    split
    · refine ew_mono (scanUpEq_x a j (i + 1) _ d) fun r _ s' ⟨h1, h2, h3, h4⟩ => ?_
      simp only [excess] at h3 h4
      exact ⟨by omega, by omega, by omega, by omega⟩
    · refine ew_pure.2 ?_
      simp only [excess]; exact ⟨by omega, by omega, by omega, by omega⟩
  · refine ew_pure.2 ⟨by omega, by omega, by omega, by omega⟩
termination_by (j + 1 - i).toNat

theorem scanDownEq_x (a i j : Int) (s : Int) (d : List E) :
    xw adm (scanDownEq a i j) (fun r _ s' => r ≤ j ∧ (r = j ∨ i - 1 ≤ r) ∧ s' ≤ s - (j - r) ∧
      (i ≤ r → s' ≤ s - (j - r) - 1)) s d := by
  unfold scanDownEq
  split
  · refine ew_bind.2 (ew_lessAt fun b _ => ?_)
    split
    · refine ew_mono (scanDownEq_x a i (j - 1) _ d) fun r _ s' ⟨h1, h2, h3, h4⟩ => ?_
      simp only [excess] at h3 h4
      exact ⟨by omega, by omega, by omega, by omega⟩
    · refine ew_pure.2 ?_
      simp only [excess]; exact ⟨by omega, by omega, by omega, by omega⟩
  · refine ew_pure.2 ⟨by omega, by omega, by omega, by omega⟩
termination_by (j + 1 - i).toNat

/-- Every element is compared once, and at most every other one exchanged. -/
theorem partLoop_x (fuel : Nat) (a i j : Int) (hij : i ≤ j + 2) (s : Int) (d : List E) :
    xw adm (partLoop fuel a i j) (fun _ _ s' => 2 * s' ≤ 2 * s - (j - i + 1) + 2) s d := by
  induction fuel generalizing i j s d with
  | zero => exact ew_fail
  | succ fuel ih =>
    unfold partLoop
    refine ew_bind.2 (ew_mono (scanUp_x a j i s d) fun i' d1 s1 ⟨h1, h2, h3, h4⟩ => ?_)
    refine ew_bind.2 (ew_mono (scanDown_x a i' j s1 d1) fun j' d2 s2 ⟨g1, g2, g3, g4⟩ => ?_)
    split
    · refine ew_bind.2 (ew_swap (ew_pure.2 ?_))
      simp only [excess]; omega
    · refine ew_bind.2 (ew_swap ?_)
      refine ew_mono (ih (i' + 1) (j' - 1) (by omega) _ _) fun _ _ s' h => ?_
      simp only [excess] at h; omega

theorem partition_x (a b p : Int) (hab : a < b) (s : Int) (d : List E) :
    xw adm (partition a b p) (fun _ _ s' => 2 * s' ≤ 2 * s - (b - a) + 5) s d := by
  unfold partition
  refine ew_bind.2 (ew_swap ?_)
  refine ew_bind.2 (ew_mono (scanUp_x a (b - 1) (a + 1) _ _) fun i' d1 s1 ⟨h1, h2, h3, h4⟩ => ?_)
  refine ew_bind.2 (ew_mono (scanDown_x a i' (b - 1) s1 d1) fun j' d2 s2 ⟨g1, g2, g3, g4⟩ => ?_)
  simp only [excess] at h3 h4
  split
  · refine ew_bind.2 (ew_swap (ew_pure.2 ?_))
    simp only [excess]; omega
  · refine ew_bind.2 (ew_swap ?_)
    refine ew_bind.2 (ew_mono (partLoop_x _ a (i' + 1) (j' - 1) (by omega) _ _) fun _ _ s' h => ?_)
    simp only [excess] at h
    refine ew_pure.2 ?_
    omega

theorem partEqLoop_x (fuel : Nat) (a i j : Int) (hij : i ≤ j + 2) (s : Int) (d : List E) :
    xw adm (partEqLoop fuel a i j) (fun _ _ s' => 2 * s' ≤ 2 * s - (j - i + 1)) s d := by
  induction fuel generalizing i j s d with
  | zero => exact ew_fail
  | succ fuel ih =>
    unfold partEqLoop
    refine ew_bind.2 (ew_mono (scanUpEq_x a j i s d) fun i' d1 s1 ⟨h1, h2, h3, h4⟩ => ?_)
    refine ew_bind.2 (ew_mono (scanDownEq_x a i' j s1 d1) fun j' d2 s2 ⟨g1, g2, g3, g4⟩ => ?_)
    split
    · refine ew_pure.2 ?_
      omega
    · refine ew_bind.2 (ew_swap ?_)
      refine ew_mono (ih (i' + 1) (j' - 1) (by omega) _ _) fun _ _ s' h => ?_
      simp only [excess] at h; omega

theorem partitionEqual_x (a b p : Int) (hab : a < b) (s : Int) (d : List E) :
    xw adm (partitionEqual a b p) (fun _ _ s' => 2 * s' ≤ 2 * s - (b - a) + 3) s d := by
  unfold partitionEqual
  refine ew_bind.2 (ew_swap ?_)
  refine ew_mono (partEqLoop_x _ a (a + 1) (b - 1) (by omega) _ _) fun _ _ s' h => ?_
  simp only [excess] at h; omega

theorem scanSorted_x (b i : Int) (hib : i ≤ b) (s : Int) (d : List E) :
    xw adm (scanSorted b i) (fun r _ s' => i ≤ r ∧ r ≤ b ∧ s' ≤ s - (r - i) ∧
      (r < b → s' ≤ s - (r - i) - 1)) s d := by
  unfold scanSorted
  split
  · refine ew_bind.2 (ew_nlessAt fun c _ => ?_)
    split
    · refine ew_mono (scanSorted_x b (i + 1) (by omega) _ d) fun r _ s' ⟨h1, h2, h3, h4⟩ => ?_
      simp only [excess] at h3 h4
      exact ⟨by omega, by omega, by omega, by omega⟩
    · refine ew_pure.2 ?_
      simp only [excess]; exact ⟨by omega, by omega, by omega, by omega⟩
  · refine ew_pure.2 ⟨by omega, by omega, by omega, by omega⟩
termination_by (b - i).toNat

theorem shiftLeft_x (j : Int) (s : Int) (d : List E) : xw adm (shiftLeft j) (fun _ _ s' => s' ≤ s) s d := by
  unfold shiftLeft
  split
  · refine ew_bind.2 (ew_nlessAt fun b _ => ?_)
    split
    · exact ew_pure.2 (by simp only [excess]; omega)
    · refine ew_bind.2 (ew_swap ?_)
      exact ew_mono (shiftLeft_x (j - 1) _ _) fun _ _ s' h => by simp only [excess] at h; omega
  · exact ew_pure.2 (Int.le_refl _)
termination_by j.toNat

theorem shiftRight_x (b j : Int) (s : Int) (d : List E) :
    xw adm (shiftRight b j) (fun _ _ s' => s' ≤ s) s d := by
  unfold shiftRight
  split
  · refine ew_bind.2 (ew_nlessAt fun c _ => ?_)
    split
    · exact ew_pure.2 (by simp only [excess]; omega)
    · refine ew_bind.2 (ew_swap ?_)
      exact ew_mono (shiftRight_x b (j + 1) _ _) fun _ _ s' h => by simp only [excess] at h; omega
  · exact ew_pure.2 (Int.le_refl _)
termination_by (b - j).toNat

/-- If it finishes the job, every element has been compared with its predecessor. -/
theorem partialLoop_x (m : Nat) (a b i : Int) (hib : i ≤ b) (s : Int) (d : List E) :
    xw adm (partialLoop m a b i) (fun r _ s' => s' ≤ s ∧ (r = true → s' ≤ s - (b - i))) s d := by
  induction m generalizing i s d with
  | zero => exact ew_pure.2 ⟨Int.le_refl _, fun h => by cases h⟩
  | succ m ih =>
    unfold partialLoop
    refine ew_bind.2 (ew_mono (scanSorted_x b i hib s d) fun i' d1 s1 ⟨h1, h2, h3, h4⟩ => ?_)
    split
    · exact ew_pure.2 ⟨by omega, fun _ => by omega⟩
    · split
      · exact ew_pure.2 ⟨by omega, fun h => by cases h⟩
      · have h4 := h4 (by omega)
        refine ew_bind.2 (ew_swap ?_)
        refine ew_bind.2 (ew_mono (Q := fun _ _ s2 => s2 ≤ s1 + 1) ?_ fun _ d2 s2 g2 => ?_)
        · exact ew_when (fun _ => shiftLeft_x _ _ _) (fun _ => Int.le_refl _)
        · refine ew_bind.2 (ew_mono (Q := fun _ _ s3 => s3 ≤ s2) ?_ fun _ d3 s3 g3 => ?_)
          · exact ew_when (fun _ => shiftRight_x _ _ _ _) (fun _ => Int.le_refl _)
          · exact ew_mono (ih i' h2 s3 d3) fun r _ s' ⟨u1, u2⟩ => ⟨by omega, fun hr => by have := u2 hr; omega⟩

theorem tryPartial_x (c : Prop) [Decidable c] (a b : Int) (hab : a < b) (s : Int) (d : List E) :
    xw adm (tryPartial c a b) (fun r _ s' => s' ≤ s ∧ (r = true → s' ≤ s - (b - a) + 1)) s d := by
  unfold tryPartial
  split
  · exact ew_mono (partialLoop_x 5 a b (a + 1) (by omega) s d) fun r _ s' ⟨h1, h2⟩ =>
      ⟨h1, fun hr => by have := h2 hr; omega⟩
  · exact ew_pure.2 ⟨Int.le_refl _, fun h => by cases h⟩

theorem breakLoop_x (m : Nat) (a l i : Int) (r : BitVec 64) (s : Int) (d : List E) :
    xw adm (breakLoop m a l i r) (fun _ _ s' => s' ≤ s + m) s d := by
  induction m generalizing i r s d with
  | zero => exact ew_pure.2 (by omega)
  | succ m ih =>
    unfold breakLoop
    dsimp only
    refine ew_bind.2 (ew_swap ?_)
    exact ew_mono (ih _ _ _ _) fun _ _ s' h => by simp only [excess] at h; push_cast; omega

theorem breakIfUnbalanced_x (w : Bool) (a b l : Int) (s : Int) (d : List E) :
    xw adm (breakIfUnbalanced w a b l) (fun _ _ s' => s' ≤ s + 3) s d := by
  unfold breakIfUnbalanced
  split
  · exact ew_pure.2 (by omega)
  · unfold breakPatterns
    dsimp only
    refine ew_bind.2 (ew_mono (Q := fun _ _ s' => s' ≤ s + 3) ?_ fun _ _ s' h => ew_pure.2 h)
    split
    · exact ew_mono (breakLoop_x 3 _ _ _ _ s d) fun _ _ s' h => by push_cast at h; omega
    · exact ew_pure.2 (by omega)

theorem order2_x (a b : Int) (n : Nat) (s : Int) (d : List E) :
    xw adm (order2 a b n) (fun _ _ s' => s' = s - 1) s d := by
  unfold order2
  refine ew_bind.2 (ew_lessAt fun b _ => ?_)
  split <;> exact ew_pure.2 rfl

theorem median_x (a b c : Int) (n : Nat) (s : Int) (d : List E) :
    xw adm (median a b c n) (fun _ _ s' => s' = s - 3) s d := by
  unfold median
  refine ew_bind.2 (ew_mono (order2_x _ _ _ s d) fun _ d1 s1 h1 => ?_)
  refine ew_bind.2 (ew_mono (order2_x _ _ _ s1 d1) fun _ d2 s2 h2 => ?_)
  refine ew_bind.2 (ew_mono (order2_x _ _ _ s2 d2) fun _ d3 s3 h3 => ?_)
  exact ew_pure.2 (by omega)

theorem choosePivot_x (a b : Int) (h : 8 ≤ b - a) (s : Int) (d : List E) :
    xw adm (choosePivot a b) (fun _ _ s' => s' ≤ s - 3) s d := by
  unfold choosePivot
  dsimp only
  refine ew_bind.2 (ew_mono (Q := fun _ _ s' => s' ≤ s - 3) ?_ fun _ _ s' h => ew_pure.2 h)
  unfold pivotOf
  rw [if_pos h]
  refine ew_bind.2 (ew_mono (Q := fun _ _ s' => s' ≤ s) ?_ fun q d1 s1 h1 => ?_)
  · unfold ninther medianAdjacent
    split
    · refine ew_bind.2 (ew_mono (median_x _ _ _ _ s d) fun _ d1 s1 h1 => ?_)
      refine ew_bind.2 (ew_mono (median_x _ _ _ _ s1 d1) fun _ d2 s2 h2 => ?_)
      refine ew_bind.2 (ew_mono (median_x _ _ _ _ s2 d2) fun _ d3 s3 h3 => ?_)
      exact ew_pure.2 (by omega)
    · exact ew_pure.2 (Int.le_refl _)
  · exact ew_mono (median_x _ _ _ _ s1 d1) fun _ _ s' h => by omega

theorem revLoop_x (i j : Int) (h : i ≤ j + 1) (s : Int) (d : List E) :
    xw adm (revLoop i j) (fun _ _ s' => 2 * s' ≤ 2 * s + (j + 1 - i)) s d := by
  unfold revLoop
  split
  · refine ew_bind.2 (ew_swap ?_)
    exact ew_mono (revLoop_x (i + 1) (j - 1) (by omega) _ _) fun _ _ s' h => by
      simp only [excess] at h; omega
  · exact ew_pure.2 (by omega)
termination_by (j - i).toNat

theorem reverseIfDecreasing_x (a b p : Int) (h : Hint) (hab : a ≤ b) (s : Int) (d : List E) :
    xw adm (reverseIfDecreasing a b p h) (fun _ _ s' => 2 * s' ≤ 2 * s + (b - a)) s d := by
  unfold reverseIfDecreasing reverseRange
  split
  · refine ew_bind.2 (ew_mono (revLoop_x a (b - 1) (by omega) s d) fun _ _ s' h => ew_pure.2 ?_)
    omega
  · exact ew_pure.2 (by omega)

theorem manyEqual_x (a p : Int) (s : Int) (d : List E) :
    xw adm (manyEqual a p) (fun _ _ s' => s' ≤ s) s d := by
  unfold manyEqual
  split
  · exact ew_nlessAt fun _ _ => by simp only [excess]; omega
  · exact ew_pure.2 (Int.le_refl _)

theorem pdqsort_x (fuel : Nat) (limit : Int)
    (a b : Int) (w w' : Bool) (hf : b - a < fuel) (h0 : 0 ≤ a) (hab : a ≤ b) (s : Int) (d : List E)
    (h : Span d 0 b) :
    xw adm (pdqsort fuel a b limit w w') (fun _ _ s' => s' ≤ s + 2 * (b - a)) s d := by
  induction fuel generalizing limit a b w w' s d with
  | zero => omega
  | succ fuel ih =>
    unfold pdqsort
    dsimp only
    have ha : ∀ d : List E, Span d 0 b → Span d a b := fun d h => h.sub h0 (Int.le_refl _)
    split
    · exact ew_mono (insOuter_x a b (a + 1) s d) fun _ _ s' h => by omega
    · split
      · exact ew_mono (heapSort_x a b (by omega) s d) fun _ _ s' h => by omega
      · refine ew_bind.2 (ew_mono (ew_wp (breakIfUnbalanced_any w a b limit d (ha d h))
          (breakIfUnbalanced_x w a b limit s d)) ?_)
        rintro limit d1 s1 ⟨w1, c1⟩
        have w1 := w1.mono h0 (Int.le_refl _)
        have h1 := h.win w1
        refine ew_bind.2 (ew_mono (ew_wp (choosePivot_any a b d1 (ha _ h1) (by omega))
          (choosePivot_x a b (by omega) s1 d1)) ?_)
        rintro ph d1 s2 ⟨⟨rfl, p1, p2⟩, c2⟩
        refine ew_bind.2 (ew_mono (ew_wp (reverseIfDecreasing_any a b ph.1 ph.2 d1 (ha _ h1) p1 p2)
          (reverseIfDecreasing_x a b ph.1 ph.2 hab s2 d1)) ?_)
        rintro ph d2 s3 ⟨⟨w2, p1, p2⟩, c3⟩
        have w2 := w1.trans (w2.mono h0 (Int.le_refl _))
        have h2 := h.win w2
        refine ew_bind.2 (ew_mono (ew_wp (tryPartial_any _ a b h0 (by omega) d2 h2)
          (tryPartial_x _ a b (by omega) s3 d2)) ?_)
        rintro done d3 s4 ⟨w3, c4, -⟩
        have w3 := w2.trans w3
        have h3 := h.win w3
        split
        · exact ew_pure.2 (by omega)
        · refine ew_bind.2 (ew_mono (ew_wp (manyEqual_any a b ph.1 d3 h3 p1 p2) (manyEqual_x a ph.1 s4 d3)) ?_)
          rintro eq d3 s5 ⟨⟨rfl, -⟩, c5⟩
          split
          · refine ew_bind.2 (ew_mono (ew_wp (partitionEqual_any a b ph.1 _ (ha _ h3) p1 p2 (by omega))
              (partitionEqual_x a b ph.1 (by omega) s5 _)) ?_)
            rintro mid d4 s6 ⟨⟨w4, q1, q2, -⟩, c6⟩
            have w4 := w3.trans (w4.mono h0 (Int.le_refl _))
            exact ew_mono (ih _ mid b _ _ (by omega) (by omega) (by omega) s6 d4 (h.win w4))
              fun _ _ s' h => by omega
          · refine ew_bind.2 (ew_mono (ew_wp (partition_any a b ph.1 _ (ha _ h3) p1 p2)
              (partition_x a b ph.1 (by omega) s5 _)) ?_)
            rintro mp d4 s6 ⟨⟨w4, q1, q2, -⟩, c6⟩
            have w4 := w3.trans (w4.mono h0 (Int.le_refl _))
            have h4 := h.win w4
            split
            · refine ew_bind.2 (xw_recurse.2 ?_)
              refine ew_mono (ew_wp (pdqsort_any fuel a mp.1 limit true true (by omega) (by omega) h0
                (by omega) d4 (h4.sub (by omega) (by omega)))
                (ih limit a mp.1 true true (by omega) h0 (by omega) s6 d4
                  (h4.sub (by omega) (by omega)))) ?_
              rintro _ d5 s7 ⟨w5, c7⟩
              exact ew_mono (ih limit (mp.1 + 1) b _ _ (by omega) (by omega) (by omega) s7 d5
                (h4.win (w5.mono (lo' := 0) (hi' := b) (by omega) (by omega)))) fun _ _ s' h => by omega
            · refine ew_bind.2 (xw_recurse.2 ?_)
              refine ew_mono (ew_wp (pdqsort_any fuel (mp.1 + 1) b limit true true (by omega) (by omega)
                (by omega) (by omega) d4 h4)
                (ih limit (mp.1 + 1) b true true (by omega) (by omega) (by omega) s6 d4 h4)) ?_
              rintro _ d5 s7 ⟨w5, c7⟩
              exact ew_mono (ih limit a mp.1 _ _ (by omega) h0 (by omega) s7 d5
                ((h4.win w5).sub (by omega) (by omega))) fun _ _ s' h => by omega

theorem sortProg_x (d : List E) : xw adm sortProg (fun _ _ s' => s' ≤ 2 * d.length) 0 d := by
  have key : xw adm (pdqsort (d.length + 1) 0 d.length (bitsLen d.length) true true)
      (fun _ _ s' => s' ≤ 2 * d.length) 0 d :=
    ew_mono (pdqsort_x (d.length + 1) (bitsLen d.length) 0 d.length true true (by omega) (by omega)
      (by omega) 0 d ⟨by omega, by omega⟩) fun _ _ s' h => by omega
  exact key

/-! ## `stable`: the exchanges themselves -/

/-- The number of exchanges. -/
def exchanges : Act → Nat → Nat
  | .ev .swap, s => s + 1
  | _, s => s

/-- `ew` for this state. -/
abbrev sw (adm : Kind → E → E → Bool → Prop) (m : M E α) (Q : α → List E → Nat → Prop) (s : Nat) (d : List E) :
    Prop := ew exchanges adm m Q s d

theorem sw_recurse {m : M E Unit} {Q : Unit → List E → Nat → Prop} {s : Nat} {d : List E} :
    sw adm (recurse m) Q s d ↔ sw adm m Q s d := ew_recurse

theorem insInner_s (a j : Int) (haj : a ≤ j) (n : Nat) (d : List E) :
    sw adm (insInner a j) (fun _ _ n' => (n' : Int) ≤ n + (j - a)) n d := by
  unfold insInner
  split
  · refine ew_bind.2 (ew_lessAt fun b _ => ?_)
    split
    · refine ew_bind.2 (ew_swap ?_)
      exact ew_mono (insInner_s a (j - 1) (by omega) _ _) fun _ _ n' h => by
        simp only [exchanges] at h; omega
    · exact ew_pure.2 (by simp only [exchanges]; omega)
  · exact ew_pure.2 (by omega)
termination_by (j - a).toNat

theorem insOuter_s (L : Int) (h0 : 0 ≤ L) (a b i : Int) (hai : a ≤ i) (hL : b - a ≤ L + 1) (n : Nat)
    (d : List E) (hib : i ≤ b) :
    sw adm (insOuter a b i) (fun _ _ n' => (n' : Int) ≤ n + (b - i) * L) n d := by
  unfold insOuter
  split
  · refine ew_bind.2 (ew_mono (insInner_s a i hai n d) fun _ d1 n1 h1 => ?_)
    refine ew_mono (insOuter_s L h0 a b (i + 1) (by omega) hL n1 d1 (by omega)) fun _ _ n' h => ?_
    have e : (b - i) * L = (b - (i + 1)) * L + L := by
      rw [show b - i = (b - (i + 1)) + 1 by omega, Int.add_mul]; omega
    omega
  · refine ew_pure.2 ?_
    have : b - i = 0 := by omega
    rw [this]; omega
termination_by (b - i).toNat

theorem insertionSort_s (L : Int) (h0 : 0 ≤ L) (a b : Int) (hL : b - a ≤ L + 1) (n : Nat) (d : List E)
    (hab : a ≤ b) :
    sw adm (insertionSort a b) (fun _ _ n' => (n' : Int) ≤ n + (b - a) * L) n d := by
  unfold insertionSort
  by_cases h : a + 1 ≤ b
  · refine ew_mono (insOuter_s L h0 a b (a + 1) (by omega) hL n d h) fun _ _ n' h => ?_
    have e : (b - a) * L = (b - (a + 1)) * L + L := by
      rw [show b - a = (b - (a + 1)) + 1 by omega, Int.add_mul]; omega
    omega
  · unfold insOuter
    rw [if_neg (by omega)]
    refine ew_pure.2 ?_
    have : b - a = 0 := by omega
    rw [this]; omega

theorem swapRange_s (a b m i : Int) (hi : i ≤ m) (n : Nat) (d : List E) :
    sw adm (swapRange a b m i) (fun _ _ n' => (n' : Int) = n + (m - i)) n d := by
  unfold swapRange
  split
  · refine ew_bind.2 (ew_swap ?_)
    exact ew_mono (swapRange_s a b m (i + 1) (by omega) _ _) fun _ _ n' h => by
      simp only [exchanges] at h; omega
  · exact ew_pure.2 (by omega)
termination_by (m - i).toNat

/-- A rotation exchanges fewer times than it has elements. -/
theorem rotateLoop_s (m i j : Int) (hi : 0 < i) (hj : 0 < j) (n : Nat) (d : List E) :
    sw adm (rotateLoop m i j) (fun _ _ n' => (n' : Int) ≤ n + (i + j - 1)) n d := by
  unfold rotateLoop
  split
  · exact ew_mono (swapRange_s _ _ _ _ (by omega) n d) fun _ _ n' h => by omega
  · split
    · exact ew_fail
    · split
      · refine ew_bind.2 (ew_mono (swapRange_s _ _ _ _ (by omega) n d) fun _ d1 n1 h1 => ?_)
        exact ew_mono (rotateLoop_s m (i - j) j (by omega) hj n1 d1) fun _ _ n' h => by omega
      · refine ew_bind.2 (ew_mono (swapRange_s _ _ _ _ (by omega) n d) fun _ d1 n1 h1 => ?_)
        exact ew_mono (rotateLoop_s m i (j - i) hi (by omega) n1 d1) fun _ _ n' h => by omega
termination_by (i + j).toNat

theorem bubbleUp_s (i k b : Int) (hi : i ≤ b) (hk : k ≤ b) (n : Nat) (d : List E) :
    sw adm (bubbleUp i k) (fun _ _ n' => (n' : Int) ≤ n + (b - k)) n d := by
  unfold bubbleUp
  split
  · refine ew_bind.2 (ew_swap ?_)
    exact ew_mono (bubbleUp_s i (k + 1) b hi (by omega) _ _) fun _ _ n' h => by
      simp only [exchanges] at h; omega
  · exact ew_pure.2 (by omega)
termination_by (i - k).toNat

theorem bubbleDown_s (i k a : Int) (hi : a ≤ i) (hk : a ≤ k) (n : Nat) (d : List E) :
    sw adm (bubbleDown i k) (fun _ _ n' => (n' : Int) ≤ n + (k - a)) n d := by
  unfold bubbleDown
  split
  · refine ew_bind.2 (ew_swap ?_)
    exact ew_mono (bubbleDown_s i (k - 1) a hi (by omega) _ _) fun _ _ n' h => by
      simp only [exchanges] at h; omega
  · exact ew_pure.2 (by omega)
termination_by (k - i).toNat

theorem searchGE_s (a i j : Int) (h : i ≤ j) (n : Nat) (d : List E) :
    sw adm (searchGE a i j) (fun r _ n' => i ≤ r ∧ r ≤ j ∧ n' = n) n d := by
  unfold searchGE
  split
  · refine ew_bind.2 (ew_lessAt fun b _ => ?_)
    split
    · exact ew_mono (searchGE_s a _ _ (by omega) _ _) fun _ _ n' ⟨h1, h2, h3⟩ => ⟨by omega, by omega, h3⟩
    · exact ew_mono (searchGE_s a _ _ (by omega) _ _) fun _ _ n' ⟨h1, h2, h3⟩ => ⟨by omega, by omega, h3⟩
  · exact ew_pure.2 ⟨by omega, by omega, rfl⟩
termination_by (j - i).toNat

theorem searchGT_s (m i j : Int) (h : i ≤ j) (n : Nat) (d : List E) :
    sw adm (searchGT m i j) (fun r _ n' => i ≤ r ∧ r ≤ j ∧ n' = n) n d := by
  unfold searchGT
  split
  · refine ew_bind.2 (ew_nlessAt fun b _ => ?_)
    split
    · exact ew_mono (searchGT_s m _ _ (by omega) _ _) fun _ _ n' ⟨h1, h2, h3⟩ => ⟨by omega, by omega, h3⟩
    · exact ew_mono (searchGT_s m _ _ (by omega) _ _) fun _ _ n' ⟨h1, h2, h3⟩ => ⟨by omega, by omega, h3⟩
  · exact ew_pure.2 ⟨by omega, by omega, rfl⟩
termination_by (j - i).toNat

theorem searchSym_s (p i j : Int) (h : i ≤ j) (n : Nat) (d : List E) :
    sw adm (searchSym p i j) (fun r _ n' => i ≤ r ∧ r ≤ j ∧ n' = n) n d := by
  unfold searchSym
  split
  · refine ew_bind.2 (ew_nlessAt fun b _ => ?_)
    split
    · exact ew_mono (searchSym_s p _ _ (by omega) _ _) fun _ _ n' ⟨h1, h2, h3⟩ => ⟨by omega, by omega, h3⟩
    · exact ew_mono (searchSym_s p _ _ (by omega) _ _) fun _ _ n' ⟨h1, h2, h3⟩ => ⟨by omega, by omega, h3⟩
  · exact ew_pure.2 ⟨by omega, by omega, rfl⟩
termination_by (j - i).toNat

/-- Merging two adjacent runs of together at most `2^k` elements exchanges at most `k` times per element. -/
theorem symMerge_s (k : Nat) (a m b : Int) (h1 : a < m) (h2 : m < b) (hk : b - a ≤ 2 ^ k) (n : Nat)
    (d : List E) :
    sw adm (symMerge a m b) (fun _ _ n' => (n' : Int) ≤ n + (b - a) * k) n d := by
  induction k generalizing a m b n d with
  | zero => simp at hk; omega
  | succ k ih =>
    have e : (2 : Int) ^ (k + 1) = 2 * 2 ^ k := by rw [Int.pow_succ]; omega
    have ek : (b - a) * ((k + 1 : Nat) : Int) = (b - a) * k + (b - a) := by
      push_cast; rw [Int.mul_add, Int.mul_one]
    have e0 : 0 ≤ (b - a) * (k : Int) := Int.mul_nonneg (by omega) (by omega)
    unfold symMerge
    split
    · refine ew_bind.2 (ew_mono (searchGE_s a m b (by omega) n d) ?_)
      rintro i d1 n1 ⟨c1, c2, rfl⟩
      exact ew_mono (bubbleUp_s i a b c2 (by omega) n1 d1) fun _ _ n' h => by omega
    · split
      · refine ew_bind.2 (ew_mono (searchGT_s m a m (by omega) n d) ?_)
        rintro i d1 n1 ⟨c1, c2, rfl⟩
        exact ew_mono (bubbleDown_s i m a c1 (by omega) n1 d1) fun _ _ n' h => by omega
      · dsimp only
        refine ew_bind.2 (ew_mono (searchSym_s _ _ _ (by split <;> omega) n d) ?_)
        rintro start d1 n1 ⟨c1, c2, rfl⟩
        have f1 : a ≤ start := by split at c1 <;> omega
        have f2 : (a + b) / 2 + m - start ≤ b := by split at c1 <;> omega
        have es : (b - a) * (k : Int) = ((a + b) / 2 - a) * k + (b - (a + b) / 2) * k := by
          rw [← Int.add_mul]; congr 1; omega
        have p1 : 0 ≤ ((a + b) / 2 - a) * (k : Int) := Int.mul_nonneg (by omega) (by omega)
        have p2 : 0 ≤ (b - (a + b) / 2) * (k : Int) := Int.mul_nonneg (by omega) (by omega)
        refine ew_bind.2 (ew_mono (Q := fun _ _ (n2 : Nat) => (n2 : Int) ≤ n1 + (b - a)) ?_ fun _ d2 n2 g2 => ?_)
        · refine ew_when (fun hc => ?_) (fun _ => by omega)
          exact ew_mono (rotateLoop_s _ _ _ (by omega) (by omega) n1 d1) fun _ _ n' h => by omega
        · refine ew_bind.2 (ew_mono (Q := fun _ _ (n3 : Nat) => (n3 : Int) ≤ n2 + ((a + b) / 2 - a) * k) ?_
            fun _ d3 n3 g3 => ?_)
          · split
            · rename_i hc
              exact sw_recurse.2 (ih _ _ _ hc.1 hc.2 (by omega) n2 d2)
            · exact ew_pure.2 (by omega)
          · split
            · rename_i hc
              refine sw_recurse.2 ?_
              exact ew_mono (ih _ _ _ hc.1 hc.2 (by omega) n3 d3) fun _ _ n' h => by omega
            · exact ew_pure.2 (by omega)

theorem blockLoop_s (m a b : Int) (h0 : a ≤ m) (hb : b = a + 20) (n : Nat) (d : List E) :
    sw adm (blockLoop m a b)
      (fun r _ n' => r ≤ m ∧ m < r + 20 ∧ (n' : Int) ≤ n + (r - a) * 19) n d := by
  unfold blockLoop
  split
  · refine ew_bind.2 (ew_mono (insertionSort_s 19 (by omega) a b (by omega) n d (by omega)) fun _ d1 n1 c1 => ?_)
    refine ew_mono (blockLoop_s m b (b + 20) (by omega) rfl n1 d1) ?_
    rintro r d2 n2 ⟨h1, h2, h3⟩
    exact ⟨h1, h2, by omega⟩
  · exact ew_pure.2 ⟨h0, by omega, by omega⟩
termination_by (m + 1 - b).toNat

theorem mergePass_s (k : Nat) (m bs a b : Int) (hbs : 0 < bs) (ha : 0 ≤ a) (h0 : a ≤ m) (hb : b = a + 2 * bs)
    (hk : m ≤ 2 ^ k) (n : Nat) (d : List E) :
    sw adm (mergePass m bs a b) (fun r _ n' => 0 ≤ r ∧ r ≤ m ∧ (n' : Int) ≤ n + (r - a) * k) n d := by
  unfold mergePass
  split
  · omega
  · split
    · refine ew_bind.2 (ew_mono (symMerge_s k a (a + bs) b (by omega) (by omega) (by omega) n d)
        fun _ d1 n1 c1 => ?_)
      refine ew_mono (mergePass_s k m bs b (b + 2 * bs) hbs (by omega) (by omega) rfl hk n1 d1) ?_
      rintro r d2 n2 ⟨h1, h2, h3⟩
      refine ⟨h1, h2, ?_⟩
      have : (r - a) * (k : Int) = (r - b) * k + (b - a) * k := by rw [← Int.add_mul]; congr 1; omega
      omega
    · exact ew_pure.2 ⟨ha, h0, by simp⟩
termination_by (m + 1 - b).toNat

/-- `K` doublings take the block size past the length. -/
theorem stableLoop_s (k K : Nat) (m bs : Int) (hbs : 0 < bs) (hm : 0 ≤ m) (hk : m ≤ 2 ^ k)
    (hK : m ≤ bs * 2 ^ K) (n : Nat) (d : List E) :
    sw adm (stableLoop m bs) (fun _ _ n' => (n' : Int) ≤ n + m * k * K) n d := by
  induction K generalizing bs n d with
  | zero =>
    unfold stableLoop
    rw [if_neg (by omega), if_neg (by simp at hK; omega)]
    exact ew_pure.2 (by simp)
  | succ K ih =>
    have e : m * k * ((K + 1 : Nat) : Int) = m * k * K + m * k := by push_cast; rw [Int.mul_add, Int.mul_one]
    have e2 : bs * (2 : Int) ^ (K + 1) = bs * 2 * 2 ^ K := by
      rw [Int.pow_succ, Int.mul_comm (2 ^ K) 2, Int.mul_assoc]
    have hmk : 0 ≤ m * (k : Int) := Int.mul_nonneg hm (by omega)
    have hmK : 0 ≤ m * k * (K : Int) := Int.mul_nonneg hmk (by omega)
    unfold stableLoop
    split
    · exact ew_fail
    · split
      · refine ew_bind.2 (ew_mono (mergePass_s k m bs 0 (2 * bs) hbs (by omega) hm (by omega) hk n d) ?_)
        rintro r d1 n1 ⟨hr0, hr, c1⟩
        dsimp only
        have es : m * (k : Int) = (r - 0) * k + (m - r) * k := by rw [← Int.add_mul]; congr 1; omega
        have hmr : 0 ≤ (m - r) * (k : Int) := Int.mul_nonneg (by omega) (by omega)
        refine ew_bind.2 (ew_mono (Q := fun _ _ (n2 : Nat) => (n2 : Int) ≤ n + m * k) ?_ fun _ d2 n2 g2 => ?_)
        · refine ew_when (fun hc => ?_) (fun _ => by omega)
          exact ew_mono (symMerge_s k r (r + bs) m (by omega) hc (by omega) n1 d1) fun _ d2 n2 h => by omega
        · exact ew_mono (ih (bs * 2) (by omega) (by omega) n2 d2) fun _ _ n' h' => by omega
      · exact ew_pure.2 (by omega)

/-- `stable` exchanges at most `L² + 19` times per element, `L` being the bit length of the length. -/
theorem stableProg_s (d : List E) :
    sw adm stableProg (fun _ _ n => n ≤ d.length * (bitsLen d.length * bitsLen d.length + 19)) 0 d := by
  have key : sw adm (stable (d.length : Int))
      (fun _ _ n => n ≤ d.length * (bitsLen d.length * bitsLen d.length + 19)) 0 d := by
    unfold stable
    refine ew_bind.2 (ew_mono (blockLoop_s d.length 0 20 (by omega) (by omega) 0 d) ?_)
    rintro r d1 n1 ⟨h1, h2, c1⟩
    refine ew_bind.2 (ew_mono (insertionSort_s 19 (by omega) r d.length (by omega) n1 d1 h1) fun _ d2 n2 c2 => ?_)
    have hlt := lt_two_pow_bitsLen d.length
    have hlt' : ((d.length : Nat) : Int) < 2 ^ bitsLen d.length := by exact_mod_cast hlt
    refine ew_mono (stableLoop_s (bitsLen d.length) (bitsLen d.length) d.length 20 (by omega) (by omega)
      (by omega) (by omega) n2 d2) fun _ _ n' h => ?_
    have e : ((d.length * (bitsLen d.length * bitsLen d.length + 19) : Nat) : Int) =
        (d.length : Int) * bitsLen d.length * bitsLen d.length + d.length * 19 := by
      rw [Nat.mul_add, ← Nat.mul_assoc]; push_cast; rfl
    omega
  exact key

end Verif.Sort
