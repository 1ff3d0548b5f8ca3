import Verif.Sort.Cost

/-!
# Slices that are ascending already

Nothing is assumed of the comparator here but its answers on the pairs of the slice in order.
-/

namespace Verif.Sort

variable {E : Type} [Inhabited E] {lt : E → E → Bool}
set_option linter.unusedSectionVars false

theorem Ascending.sorted {d : List E} (h : Ascending lt d) : Sorted lt 0 d.length d := by
  intro p q hp hpq hq
  unfold Ascending at h
  rw [List.pairwise_iff_getElem] at h
  have := h p.toNat q.toNat (by omega) (by omega) (by omega)
  unfold le el
  rw [if_pos (by omega), if_pos (by omega)]
  simpa [List.getD, List.getElem?_eq_getElem (show p.toNat < d.length by omega),
    List.getElem?_eq_getElem (show q.toNat < d.length by omega)] using this

/-- `lessAt` on a pair in order answers no. -/
theorem asc_lessAt {lo hi i j : Int} {Q : Bool → List E → Nat → Prop} {n : Nat} {d : List E}
    (hs : Sorted lt lo hi d) (h1 : lo ≤ j) (h2 : j < i) (h3 : i < hi) (h : Q false d (n + 1)) :
    cw (exact lt) (lessAt i j) Q n d := by
  refine cw_lessAt fun b hb => ?_
  have e := hs j i h1 h2 h3
  unfold le at e
  have : b = false := by rw [← e]; exact hb
  rw [this]; exact h

theorem asc_nlessAt {lo hi i j : Int} {Q : Bool → List E → Nat → Prop} {n : Nat} {d : List E}
    (hs : Sorted lt lo hi d) (h1 : lo ≤ j) (h2 : j < i) (h3 : i < hi) (h : Q true d (n + 1)) :
    cw (exact lt) (nlessAt i j) Q n d := by
  refine cw_nlessAt fun b hb => ?_
  have e := hs j i h1 h2 h3
  unfold le at e
  have : b = true := by simpa [exact, e] using hb
  rw [this]; exact h

theorem insInner_asc (a b j : Int) (hjb : j < b) (n : Nat) (d : List E)
    (hs : Sorted lt a b d) : cw (exact lt) (insInner a j) (fun _ d' n' => d' = d ∧ n' ≤ n + 1) n d := by
  unfold insInner
  split
  · rw [cw_bind]
    refine asc_lessAt hs (by omega) (by omega) (by omega) ?_
    simp only [Bool.false_eq_true, if_false]
    rw [cw_pure]; exact ⟨rfl, Nat.le_refl _⟩
  · rw [cw_pure]; exact ⟨rfl, by omega⟩

theorem insOuter_asc (a b i : Int) (hai : a ≤ i) (n : Nat) (d : List E) (hib : i ≤ b)
    (hs : Sorted lt a b d) :
    cw (exact lt) (insOuter a b i) (fun _ d' n' => d' = d ∧ (n' : Int) ≤ n + (b - i)) n d := by
  unfold insOuter
  split
  · rw [cw_bind]
    refine cw_mono (insInner_asc a b i (by omega) n d hs) ?_
    rintro _ d n1 ⟨rfl, h1⟩
    exact cw_mono (insOuter_asc a b (i + 1) (by omega) n1 _ (by omega) hs) fun _ _ n' h =>
      ⟨h.1, by omega⟩
  · rw [cw_pure]; exact ⟨rfl, by omega⟩
termination_by (b - i).toNat

theorem order2_asc {lo hi : Int} (a b : Int) (h1 : lo ≤ a) (h2 : a < b) (h3 : b < hi) (s n : Nat)
    (d : List E) (hs : Sorted lt lo hi d) :
    cw (exact lt) (order2 a b s) (fun r d' n' => r = (a, b, s) ∧ d' = d ∧ n' ≤ n + 1) n d := by
  unfold order2
  rw [cw_bind]
  refine asc_lessAt hs h1 h2 h3 ?_
  simp only [Bool.false_eq_true, if_false]
  rw [cw_pure]; exact ⟨rfl, rfl, Nat.le_refl _⟩

theorem median_asc {lo hi : Int} (a b c : Int) (h1 : lo ≤ a) (h2 : a < b) (h3 : b < c) (h4 : c < hi)
    (s n : Nat) (d : List E) (hs : Sorted lt lo hi d) :
    cw (exact lt) (median a b c s) (fun r d' n' => r = (b, s) ∧ d' = d ∧ n' ≤ n + 3) n d := by
  unfold median
  rw [cw_bind]
  refine cw_mono (order2_asc a b h1 h2 (by omega) s n d hs) ?_
  rintro _ d n1 ⟨rfl, rfl, c1⟩
  rw [cw_bind]
  refine cw_mono (order2_asc b c (by omega) h3 h4 s n1 _ hs) ?_
  rintro _ d n2 ⟨rfl, rfl, c2⟩
  rw [cw_bind]
  refine cw_mono (order2_asc a b h1 h2 (by omega) s n2 _ hs) ?_
  rintro _ d n3 ⟨rfl, rfl, c3⟩
  rw [cw_pure]; exact ⟨rfl, rfl, by omega⟩

theorem choosePivot_asc (a b : Int) (hab : 12 < b - a) (n : Nat) (d : List E) (hs : Sorted lt a b d) :
    cw (exact lt) (choosePivot a b)
      (fun r d' n' => r.2 = Hint.increasing ∧ d' = d ∧ n' ≤ n + 12) n d := by
  unfold choosePivot
  dsimp only
  rw [cw_bind]
  have key : cw (exact lt) (pivotOf (b - a) (a + (b - a) / 4 * 1) (a + (b - a) / 4 * 2) (a + (b - a) / 4 * 3))
      (fun r d' n' => r.2 = 0 ∧ d' = d ∧ n' ≤ n + 12) n d := by
    unfold pivotOf
    rw [if_pos (by omega), cw_bind]
    have nin : cw (exact lt) (ninther (b - a) (a + (b - a) / 4 * 1) (a + (b - a) / 4 * 2) (a + (b - a) / 4 * 3))
        (fun r d' n' => r = (a + (b - a) / 4 * 1, a + (b - a) / 4 * 2, a + (b - a) / 4 * 3, 0) ∧ d' = d ∧
          n' ≤ n + 9) n d := by
      unfold ninther
      split
      · unfold medianAdjacent
        rw [cw_bind]
        refine cw_mono (median_asc _ _ _ (by omega) (by omega) (by omega) (by omega) 0 n d hs) ?_
        rintro _ d n1 ⟨rfl, rfl, c1⟩
        rw [cw_bind]
        refine cw_mono (median_asc _ _ _ (by omega) (by omega) (by omega) (by omega) 0 n1 _ hs) ?_
        rintro _ d n2 ⟨rfl, rfl, c2⟩
        rw [cw_bind]
        refine cw_mono (median_asc _ _ _ (by omega) (by omega) (by omega) (by omega) 0 n2 _ hs) ?_
        rintro _ d n3 ⟨rfl, rfl, c3⟩
        rw [cw_pure]; exact ⟨rfl, rfl, by omega⟩
      · rw [cw_pure]; exact ⟨rfl, rfl, by omega⟩
    refine cw_mono nin ?_
    rintro _ d n1 ⟨rfl, rfl, c1⟩
    dsimp only
    refine cw_mono (median_asc _ _ _ (by omega) (by omega) (by omega) (by omega) 0 n1 _ hs) ?_
    rintro _ d n2 ⟨rfl, rfl, c2⟩
    exact ⟨rfl, rfl, by omega⟩
  refine cw_mono key ?_
  rintro r d n1 ⟨hr, rfl, c1⟩
  rw [cw_pure]
  exact ⟨by simp [hr], rfl, c1⟩

theorem scanSorted_asc (a b i : Int) (hai : a < i) (hib : i ≤ b) (n : Nat) (d : List E)
    (hs : Sorted lt a b d) :
    cw (exact lt) (scanSorted b i) (fun r d' n' => r = b ∧ d' = d ∧ (n' : Int) ≤ n + (b - i)) n d := by
  unfold scanSorted
  split
  · rw [cw_bind]
    refine asc_nlessAt hs (by omega) (by omega) (by omega) ?_
    simp only [if_true]
    exact cw_mono (scanSorted_asc a b (i + 1) (by omega) (by omega) _ d hs) fun _ _ n' h =>
      ⟨h.1, h.2.1, by omega⟩
  · rw [cw_pure]; exact ⟨by omega, rfl, by omega⟩
termination_by (b - i).toNat

/-- On an ascending slice `pdqsort` changes nothing and asks at most `n + 11` questions. -/
theorem sortProg_asc (d : List E) (ha : Ascending lt d) :
    cw (exact lt) sortProg (fun _ d' n => d' = d ∧ n ≤ d.length + 11) 0 d := by
  have hs := ha.sorted
  have key : cw (exact lt) (pdqsort (d.length + 1) 0 d.length (bitsLen d.length) true true)
      (fun _ d' n => d' = d ∧ n ≤ d.length + 11) 0 d := by
    unfold pdqsort
    dsimp only
    split
    · unfold insertionSort
      by_cases h0 : 1 ≤ d.length
      · exact cw_mono (insOuter_asc 0 d.length _ (by omega) 0 d (by omega) hs) fun _ _ n' h =>
          ⟨h.1, by omega⟩
      · unfold insOuter
        rw [if_neg (by omega), cw_pure]; exact ⟨rfl, by omega⟩
    · rename_i hlen
      rw [if_neg (by unfold bitsLen; split <;> omega), cw_bind]
      unfold breakIfUnbalanced
      rw [if_pos rfl, cw_pure, cw_bind]
      refine cw_mono (choosePivot_asc 0 d.length (by omega) 0 d hs) ?_
      rintro ⟨p, hint⟩ d' n1 ⟨hh, rfl, c1⟩
      dsimp only at hh
      subst hh
      rw [cw_bind]
      unfold reverseIfDecreasing
      rw [if_neg (by simp), cw_pure, cw_bind]
      have part : cw (exact lt) (tryPartial (True ∧ True ∧ Hint.increasing = Hint.increasing) 0 d'.length)
          (fun r d'' n => r = true ∧ d'' = d' ∧ n ≤ d'.length + 11) n1 d' := by
        unfold tryPartial
        rw [if_pos (by simp)]
        unfold partialInsertionSort partialLoop
        rw [cw_bind]
        refine cw_mono (scanSorted_asc 0 d'.length _ (by omega) (by omega) n1 d' hs) ?_
        rintro _ d n2 ⟨rfl, rfl, c2⟩
        rw [if_pos rfl, cw_pure]
        exact ⟨rfl, rfl, by omega⟩
      refine cw_mono part ?_
      rintro _ d n3 ⟨rfl, rfl, c3⟩
      rw [if_pos rfl, cw_pure]
      exact ⟨rfl, c3⟩
  exact key

end Verif.Sort
