import Verif.Algo.Enum
import Verif.Slice.Props

/-!
# Properties C08–C15: algorithms over iterators

The theorems are about every `View` (Iter/View.lean): a sequence reached through iterators that read
and write it. `Slice.view` shows that the iterators of a slice are one, `View.rev` that reversing gives
another, so everything here holds for slices forwards and backwards; the slice versions are stated where
the property speaks of slices.
-/

namespace Verif.Algo

open Verif.Iter Verif.Sort Verif.Slice

variable {S T It : Type} [RandIter S T It]

/-- The positions of a valid slice as a view. -/
def viewOf {T : Type} [Inhabited T] {h : Heap T} {s : Slice} (hv : Valid h s) : View (Heap T) T (SIter T) :=
  Slice.view s hv.2.1 hv.1

/-! ## C08, C09: binary search -/

/-- The elements `[i, j)` that satisfy `q` come first. -/
def Partitioned (q : T → Bool) (l : List T) (i j : Nat) : Prop :=
  ∃ m, i ≤ m ∧ m ≤ j ∧ (∀ p x, i ≤ p → p < m → l[p]? = some x → q x = true) ∧
    (∀ p x, m ≤ p → p < j → l[p]? = some x → q x = false)

/-- `k` splits `[i, j)` into the elements that satisfy `q` and those that do not. -/
def SplitsAt (q : T → Bool) (l : List T) (i j k : Nat) : Prop :=
  i ≤ k ∧ k ≤ j ∧ (∀ p x, i ≤ p → p < k → l[p]? = some x → q x = true) ∧
    (∀ p x, k ≤ p → p < j → l[p]? = some x → q x = false)

/-- **C08.** Any comparator, any value: `LowerBound` returns a position of the range, changes nothing,
and on a partitioned range it is the partition point. -/
theorem C08_lowerBound (v : View S T It) (s : S) (hs : v.ok s) (comp : T → T → Bool) (value : T) (i j : Nat)
    (hij : i ≤ j) (hj : j ≤ v.n) :
    ∃ k, i ≤ k ∧ k ≤ j ∧ lowerBound comp (v.pt i) (v.pt j) value s = (.ok (v.pt k), s) ∧
      (Partitioned (fun x => comp x value) (v.elems s) i j →
        SplitsAt (fun x => comp x value) (v.elems s) i j k) := by
  obtain ⟨k, k1, k2, e, hk⟩ := lowerBoundLoop_spec v hs comp value (j - i) i (by omega)
  refine ⟨k, k1, by omega, by rw [lowerBound_eq v comp value hj hij]; exact e, ?_⟩
  rintro ⟨m, m1, m2, hlow, hhigh⟩
  have := hk m m1 (by omega) hlow (fun p x hp hp' => hhigh p x hp (by omega))
  subst this
  exact ⟨m1, m2, hlow, hhigh⟩

/-- **C08**: the only panic is for an end before the beginning. -/
theorem C08_invalid (v : View S T It) (s : S) (comp : T → T → Bool) (value : T) (i j : Nat)
    (hi : i ≤ v.n) (hji : j < i) :
    lowerBound comp (v.pt i) (v.pt j) value s = (.error "invalid range", s) ∧
    upperBound comp (v.pt i) (v.pt j) value s = (.error "invalid range", s) := by
  constructor
  · unfold lowerBound
    rw [St.bind_lift (v.distance_pt hi (by omega)), if_pos (by omega)]; rfl
  · unfold upperBound
    rw [St.bind_lift (v.distance_pt hi (by omega)), if_pos (by omega)]; rfl

/-- **C09.** Any comparator, any value: `UpperBound` returns a position of the range, changes nothing,
and when the elements that `value` is not less than come first, it is the place where they end. -/
theorem C09_upperBound (v : View S T It) (s : S) (hs : v.ok s) (comp : T → T → Bool) (value : T) (i j : Nat)
    (hij : i ≤ j) (hj : j ≤ v.n) :
    ∃ k, i ≤ k ∧ k ≤ j ∧ upperBound comp (v.pt i) (v.pt j) value s = (.ok (v.pt k), s) ∧
      (Partitioned (fun x => !comp value x) (v.elems s) i j →
        SplitsAt (fun x => !comp value x) (v.elems s) i j k) := by
  obtain ⟨k, k1, k2, e, hk⟩ := upperBoundLoop_spec v hs comp value (j - i) i (by omega)
  refine ⟨k, k1, by omega, by rw [upperBound_eq v comp value hj hij]; exact e, ?_⟩
  rintro ⟨m, m1, m2, hlow, hhigh⟩
  have := hk m m1 (by omega) (fun p x hp hp' hx => by simpa using hlow p x hp hp' hx)
    (fun p x hp hp' hx => by simpa using hhigh p x hp (by omega) hx)
  subst this
  exact ⟨m1, m2, hlow, hhigh⟩

/-- A range is partitioned as soon as the elements satisfying `q` are closed towards the front. -/
theorem partitioned_of_closed (q : T → Bool) (l : List T) (i : Nat) : ∀ (d : Nat), i + d ≤ l.length →
    (∀ p p' x y, i ≤ p → p < p' → p' < i + d → l[p]? = some x → l[p']? = some y → q y = true → q x = true) →
    Partitioned q l i (i + d) := by
  intro d
  induction d with
  | zero => intro _ _; exact ⟨i, by omega, by omega, fun p x _ _ => by omega, fun p x _ _ => by omega⟩
  | succ d ih =>
    intro hl hc
    obtain ⟨m, m1, m2, h1, h2⟩ := ih (by omega) (fun p p' x y a b c => hc p p' x y a b (by omega))
    obtain ⟨z, hz⟩ : ∃ z, l[i + d]? = some z := ⟨_, List.getElem?_eq_getElem (by omega)⟩
    cases hq : q z with
    | true =>
      refine ⟨i + (d + 1), by omega, by omega, ?_, fun p x _ _ => by omega⟩
      intro p x hp hp' hx
      by_cases c : p = i + d
      · subst c; rw [hz] at hx; injection hx with hx; rw [← hx]; exact hq
      · exact hc p (i + d) x z hp (by omega) (by omega) hx hz hq
    | false =>
      refine ⟨m, m1, by omega, h1, ?_⟩
      intro p x hp hp' hx
      by_cases c : p = i + d
      · subst c; rw [hz] at hx; injection hx with hx; rw [← hx]; exact hq
      · exact h2 p x hp (by omega) hx

/-- **C08/C09** on ascending ranges, for every strict weak order: both searches are exact. -/
theorem C08_C09_sorted (v : View S T It) (s : S) (hs : v.ok s) (lt : T → T → Bool) (h : StrictWeak lt) (value : T)
    (i j : Nat) (hij : i ≤ j) (hj : j ≤ v.n)
    (hasc : Ascending lt (((v.elems s).drop i).take (j - i))) :
    (∃ k, lowerBound lt (v.pt i) (v.pt j) value s = (.ok (v.pt k), s) ∧
      SplitsAt (fun x => lt x value) (v.elems s) i j k) ∧
    (∃ k, upperBound lt (v.pt i) (v.pt j) value s = (.ok (v.pt k), s) ∧
      SplitsAt (fun x => !lt value x) (v.elems s) i j k) := by
  have hL := v.len s hs
  have hpair : ∀ p p' x y, i ≤ p → p < p' → p' < i + (j - i) → (v.elems s)[p]? = some x →
      (v.elems s)[p']? = some y → lt y x = false := by
    intro p p' x y hp hpp hp' hx hy
    have h1 : (((v.elems s).drop i).take (j - i))[p - i]? = some x := by
      rw [List.getElem?_take, if_pos (by omega), List.getElem?_drop, ← hx]; congr 1; omega
    have h2 : (((v.elems s).drop i).take (j - i))[p' - i]? = some y := by
      rw [List.getElem?_take, if_pos (by omega), List.getElem?_drop, ← hy]; congr 1; omega
    obtain ⟨l1, e1⟩ := List.getElem?_eq_some_iff.1 h1
    obtain ⟨l2, e2⟩ := List.getElem?_eq_some_iff.1 h2
    have := List.pairwise_iff_getElem.1 hasc (p - i) (p' - i) l1 l2 (by omega)
    rwa [e1, e2] at this
  constructor
  · obtain ⟨k, _, _, e, hk⟩ := C08_lowerBound v s hs lt value i j hij hj
    refine ⟨k, e, hk ?_⟩
    have := partitioned_of_closed (fun x => lt x value) (v.elems s) i (j - i) (by omega)
      (fun p p' x y a b c hx hy hq => lt_of_not_of_lt h (hpair p p' x y a b c hx hy) hq)
    rwa [show i + (j - i) = j by omega] at this
  · obtain ⟨k, _, _, e, hk⟩ := C09_upperBound v s hs lt value i j hij hj
    refine ⟨k, e, hk ?_⟩
    have := partitioned_of_closed (fun x => !lt value x) (v.elems s) i (j - i) (by omega)
      (fun p p' x y a b c hx hy hq => by
        simp only [Bool.not_eq_true'] at *
        cases hvx : lt value x with
        | false => rfl
        | true =>
          have := lt_of_lt_of_not h hvx (hpair p p' x y a b c hx hy)
          rw [hq] at this; cases this)
    rwa [show i + (j - i) = j by omega] at this

/-- A slice for the examples: `[1, 1, 2, 2, 3, 5, 7]` with a foreign element on either side. -/
def exH : Heap Nat := [[9, 1, 1, 2, 2, 3, 5, 7, 0]]
/-- The slice. -/
def exS : Slice := ⟨.arr 0 1, 7, 8⟩
theorem exV : Valid exH exS := ⟨by decide, by decide, [9, 1, 1, 2, 2, 3, 5, 7, 0], rfl, by decide⟩
/-- `<` on `Nat`. -/
def natLt (a b : Nat) : Bool := decide (a < b)
theorem natLt_strict : StrictLinear natLt where
  irrefl x := by simp [natLt]
  trans x y z := by simp only [natLt, decide_eq_true_eq]; omega
  incomp x y z := by simp only [natLt, decide_eq_false_iff_not]; omega
  eq_of_equiv x y := by simp only [natLt, decide_eq_false_iff_not]; omega

example : lowerBound natLt (begin_ exS) (end_ exS) 2 exH = (.ok ⟨2, exS⟩, exH) := by decide +kernel
example : upperBound natLt (begin_ exS) (end_ exS) 2 exH = (.ok ⟨4, exS⟩, exH) := by decide +kernel
example : ∃ k, lowerBound natLt (begin_ exS) (end_ exS) 2 exH = (.ok ((viewOf exV).pt k), exH) ∧
    SplitsAt (fun x => natLt x 2) (contents exH exS) 0 7 k :=
  (C08_C09_sorted (viewOf exV) exH exV natLt natLt_strict.toStrictWeak 2 0 7 (by decide) (by decide)
    (by unfold Ascending; decide +kernel)).1

/-! ## C10: sorted prefix -/

/-- No element of `[i, k)` is less than its predecessor in `[i, k)`. -/
def SortedTo (comp : T → T → Bool) (l : List T) (i k : Nat) : Prop :=
  ∀ t x y, i ≤ t → t + 1 < k → l[t]? = some x → l[t + 1]? = some y → comp y x = false

/-- **C10.** For every comparator: `IsSortedUntil` returns the end of the longest prefix in which no
element is less than its predecessor, and `IsSorted` tells whether that is everything. `fuel` bounds the
steps of the model's loops; any bound from the length of the range on will do. -/
theorem C10_isSortedUntil (v : View S T It) (s : S) (hs : v.ok s) (comp : T → T → Bool) (i j : Nat)
    (hij : i ≤ j) (hj : j ≤ v.n) (fuel : Nat) (hf : j - i ≤ fuel) :
    (∃ k, i ≤ k ∧ k ≤ j ∧ isSortedUntil fuel comp (v.pt i) (v.pt j) s = (.ok (v.pt k), s) ∧
      SortedTo comp (v.elems s) i k ∧ ∀ k', k < k' → k' ≤ j → ¬ SortedTo comp (v.elems s) i k') ∧
    (∃ b, isSorted fuel comp (v.pt i) (v.pt j) s = (.ok b, s) ∧ (b = true ↔ SortedTo comp (v.elems s) i j)) := by
  obtain ⟨k, k1, k2, e, hlow, hhigh⟩ := isSortedUntil_spec v hs comp hij hj fuel hf
  have hL := v.len s hs
  have hmax : ∀ k', k < k' → k' ≤ j → ¬ SortedTo comp (v.elems s) i k' := by
    intro k' hk hk' hsort
    obtain ⟨h1, h2⟩ := hhigh (by omega)
    obtain ⟨x, hx⟩ : ∃ x, (v.elems s)[k - 1]? = some x := ⟨_, List.getElem?_eq_getElem (by omega)⟩
    obtain ⟨y, hy⟩ : ∃ y, (v.elems s)[k]? = some y := ⟨_, List.getElem?_eq_getElem (by omega)⟩
    have h3 := h2 x y hx hy
    have h4 := hsort (k - 1) x y (by omega) (by omega) hx (by rw [show k - 1 + 1 = k by omega]; exact hy)
    rw [h3] at h4; cases h4
  refine ⟨⟨k, k1, k2, e, hlow, hmax⟩, decide (k = j), ?_, ?_⟩
  · unfold isSorted
    rw [St.bind_ok e, v.equal_pt k j (by omega) hj]
    rfl
  · rw [decide_eq_true_eq]
    constructor
    · rintro rfl; exact hlow
    · intro hsort
      by_cases c : k = j
      · exact c
      · exact absurd hsort (hmax j (by omega) (by omega))

/-- **C10** for strict weak orders: `IsSorted` says whether the range is ascending. -/
theorem C10_isSorted_ascending (v : View S T It) (s : S) (hs : v.ok s) (lt : T → T → Bool) (h : StrictWeak lt)
    (fuel : Nat) (hf : v.n ≤ fuel) :
    ∃ b, isSorted fuel lt (v.pt 0) (v.pt v.n) s = (.ok b, s) ∧ (b = true ↔ Ascending lt (v.elems s)) := by
  obtain ⟨_, b, e, hb⟩ := C10_isSortedUntil v s hs lt 0 v.n (by omega) (by omega) fuel (by omega)
  refine ⟨b, e, hb.trans ?_⟩
  have hL := v.len s hs
  constructor
  · intro hsort
    apply ascending_of_neighbours h
    intro t x y hx hy
    have := (List.getElem?_eq_some_iff.1 hy).1
    exact hsort t x y (by omega) (by omega) hx hy
  · intro hasc t x y _ _ hx hy
    obtain ⟨l1, e1⟩ := List.getElem?_eq_some_iff.1 hx
    obtain ⟨l2, e2⟩ := List.getElem?_eq_some_iff.1 hy
    have := List.pairwise_iff_getElem.1 hasc t (t + 1) l1 l2 (by omega)
    rwa [e1, e2] at this

example : isSortedUntil 7 natLt (begin_ exS) (end_ exS) exH = (.ok (end_ exS), exH) := by decide +kernel
example : isSortedUntil 4 natLt (⟨0, ⟨.arr 0 0, 4, 4⟩⟩ : SIter Nat) ⟨4, ⟨.arr 0 0, 4, 4⟩⟩ [[1, 3, 2, 4]] =
    (.ok ⟨2, ⟨.arr 0 0, 4, 4⟩⟩, [[1, 3, 2, 4]]) := by decide +kernel

/-! ## C11, C12: permutations -/

/-- **C11.** For every strict weak order and every part `B` of a sequence: `NextPermutation` leaves the
rest alone, and either returns true having replaced `B` by its successor among all rearrangements, or
returns false, there being no greater rearrangement, having replaced `B` by its ascending arrangement. -/
theorem C11_nextPermutation (v : View S T It) (s : S) (hs : v.ok s) (lt : T → T → Bool) (h : StrictWeak lt)
    (A B C : List T) (hd : v.elems s = A ++ B ++ C) (fuel : Nat) (hf : B.length < fuel) :
    ∃ ret B', nextPermutation fuel lt (v.pt A.length) (v.pt (A.length + B.length)) s =
        (.ok ret, v.put s (A ++ B' ++ C)) ∧ B'.Perm B ∧
      (ret = true → NextInOrder lt B B') ∧
      (ret = false → LastInOrder lt B ∧ Ascending lt B') ∧
      (ret = true ↔ ∃ l : List T, l.Perm B ∧ lexLt lt B l) := by
  obtain ⟨ret, B', e, hc⟩ := nextPermutation_list h v hs hd fuel hf
  refine ⟨ret, B', e, ?_⟩
  rcases hc with ⟨rfl, hn⟩ | ⟨rfl, hl, ha, hp, -⟩
  · exact ⟨hn.perm, fun _ => hn, (fun h => by cases h), fun _ => ⟨B', hn.perm, hn.greater⟩, fun _ => rfl⟩
  · exact ⟨hp, (fun h => by cases h), fun _ => ⟨hl, ha⟩, (fun h => by cases h), fun ⟨l, p, g⟩ => absurd g (hl l p)⟩

example : (nextPermutation 6 natLt (⟨1, ⟨.arr 0 0, 6, 6⟩⟩ : SIter Nat) ⟨5, ⟨.arr 0 0, 6, 6⟩⟩ [[9, 1, 3, 3, 2, 0]]) =
    (.ok true, [[9, 2, 1, 3, 3, 0]]) := by decide +kernel
example : (nextPermutation 6 natLt (⟨1, ⟨.arr 0 0, 6, 6⟩⟩ : SIter Nat) ⟨5, ⟨.arr 0 0, 6, 6⟩⟩ [[9, 3, 3, 2, 1, 0]]) =
    (.ok false, [[9, 1, 2, 3, 3, 0]]) := by decide +kernel
/-- `NextInOrder` on a case with repeated elements. -/
example : NextInOrder natLt [1, 3, 3, 2] [2, 1, 3, 3] :=
  successor natLt_strict.toStrictWeak (pre := []) (P1 := []) (P2 := [3, 3]) (x := 1) (y := 2)
    (by unfold Ascending; decide) (by simp) (by decide)

/-- **C12.** From the ascending arrangement, calling `NextPermutation` until it returns false visits each
distinct arrangement exactly once, and ends with the sequence as it was. (`k` bounds the calls in the
model; any bound from some `N` on will do.) -/
theorem C12_enumerates (v : View S T It) (s : S) (hs : v.ok s) (lt : T → T → Bool) (h : StrictLinear lt)
    (A B C : List T) (hd : v.elems s = A ++ B ++ C) (hB : Ascending lt B) (fuel : Nat) (hf : B.length < fuel) :
    ∃ N, ∀ k, N ≤ k → ∃ visited,
      permLoop fuel lt (v.pt A.length) (v.pt (A.length + B.length)) k s = (.ok visited, s) ∧
      visited.Nodup ∧ ∀ l : List T, l ∈ visited ↔ l.Perm B := by
  refine ⟨above lt B B + 1, fun k hk => ?_⟩
  have hw := h.toStrictWeak
  obtain ⟨visited, B', e, hasc, hp, hnd, hmem⟩ := permLoop_spec h v fuel hf (above lt B B) k s B hs hd
    (List.Perm.refl _) (Nat.le_refl _) (by omega)
  have hBB : B' = B := by
    rcases lexLt_total h B' B with h1 | h1 | h1
    · exact absurd h1 (ascending_min hw _ _ hB (SameCounts.of_perm hp))
    · exact h1
    · exact absurd h1 (ascending_min hw _ _ hasc (SameCounts.of_perm hp.symm))
  refine ⟨visited, ?_, hnd, ?_⟩
  · rw [e, hBB, ← hd, v.put_elems s hs]
  · intro l
    rw [hmem]
    constructor
    · exact fun h => h.1
    · intro hl
      refine ⟨hl, ?_⟩
      rcases lexLt_total h B l with h1 | h1 | h1
      · exact Or.inr h1
      · exact Or.inl h1.symm
      · exact absurd h1 (ascending_min hw _ _ hB (SameCounts.of_perm hl))

example : (permLoop 6 natLt (⟨1, ⟨.arr 0 0, 5, 5⟩⟩ : SIter Nat) ⟨4, ⟨.arr 0 0, 5, 5⟩⟩ 10 [[9, 1, 1, 2, 0]]).1 =
    .ok [[1, 1, 2], [1, 2, 1], [2, 1, 1]] := by decide +kernel

/-! ## C13: `Reverse` and `Swap` -/

/-- **C13**, `Reverse`: exactly the elements of `[first, last)` are reversed. -/
theorem C13_reverse (v : View S T It) (s : S) (hs : v.ok s) (A B C : List T) (hd : v.elems s = A ++ B ++ C)
    (fuel : Nat) (hf : B.length < fuel) :
    reverse fuel (v.pt A.length) (v.pt (A.length + B.length)) s = (.ok (), v.put s (A ++ B.reverse ++ C)) := by
  have hL := v.len s hs
  have hL' := hL
  rw [hd] at hL
  simp only [List.length_append] at hL
  have := reverse_put v hs fuel (v.elems s) A.length (A.length + B.length) hL' (by omega) (by omega) (by omega)
  rwa [v.put_elems s hs, hd, reverseWindow_mid] at this

/-- **C13**, `Swap`: exchanges two elements; on equal iterators it does nothing. -/
theorem C13_swap (v : View S T It) (s : S) (hs : v.ok s) :
    (∀ A B C a b, v.elems s = A ++ a :: (B ++ b :: C) →
      swap (v.pt A.length) (v.pt (A.length + 1 + B.length)) s = (.ok (), v.put s (A ++ b :: (B ++ a :: C))) ∧
      swap (v.pt (A.length + 1 + B.length)) (v.pt A.length) s = (.ok (), v.put s (A ++ b :: (B ++ a :: C)))) ∧
    (∀ i, i ≤ v.n → swap (v.pt i) (v.pt i) s = (.ok (), s)) := by
  constructor
  · intro A B C a b hd
    have hL := v.len s hs
    have hL' := hL
    rw [hd] at hL
    simp only [List.length_append, List.length_cons] at hL
    have e1 := swap_put v hs hL' (i := A.length) (j := A.length + 1 + B.length) (by omega) (by omega)
    have e2 := swap_put v hs hL' (j := A.length) (i := A.length + 1 + B.length) (by omega) (by omega)
    rw [v.put_elems s hs] at e1 e2
    rw [exchange_comm _ (by omega) (by omega)] at e2
    rw [hd, exchange_mid] at e1 e2
    exact ⟨e1, e2⟩
  · intro i hi
    unfold swap
    rw [St.bind_lift (v.equal_pt i i hi hi), if_pos (by simp)]; rfl

/-- **C13** for slices, with the memory: exactly the named cells change. -/
theorem C13_reverse_slice {T : Type} [Inhabited T] (h : Heap T) (s : Slice) (hv : Valid h s) (i j : Nat)
    (hij : i ≤ j) (hj : j ≤ s.len) (fuel : Nat) (hf : j - i < fuel) :
    ∃ h', reverse fuel (⟨i, s⟩ : SIter T) ⟨j, s⟩ h = (.ok (), h') ∧
      contents h' s = (contents h s).take i ++ (((contents h s).drop i).take (j - i)).reverse ++
        (contents h s).drop j ∧
      Upd (fun a k => ∃ off, s.ptr = .arr a off ∧ off + i ≤ k ∧ k < off + j) h h' := by
  have hL := length_contents hv
  have e := reverse_put (viewOf hv) (s := h) hv fuel (contents h s) i j hL hij hj hf
  have e' : reverse fuel (⟨i, s⟩ : SIter T) ⟨j, s⟩ (poke h s.ptr 0 (contents h s)) =
    (.ok (), poke h s.ptr 0 (reverseWindow (contents h s) i j)) := e
  rw [poke_contents_self hv] at e'
  have hlen : (reverseWindow (contents h s) i j).length = s.len := by
    rw [length_reverseWindow hij (by omega), hL]
  refine ⟨_, e', ?_, ?_⟩
  · rw [poke_contents hv (by omega)]
    unfold splice
    simp only [List.take_zero, List.nil_append, Nat.zero_add]
    rw [List.drop_of_length_le (by omega), List.append_nil]; rfl
  · have h3 := hv.2.2
    cases hp : s.ptr with
    | nil => exact Upd.refl _ _
    | zero => exact Upd.refl _ _
    | arr a off =>
      rw [hp] at h3
      obtain ⟨arr, hA, hlen'⟩ := h3
      intro b X hX
      have u := poke_upd hv (i := 0) (l := reverseWindow (contents h s) i j) (by have := hv.1; omega)
      rw [hp] at u
      obtain ⟨X', e1, e2, e3⟩ := u b X hX
      refine ⟨X', e1, e2, ?_⟩
      intro k hk
      by_cases hin : b = a ∧ off ≤ k ∧ k < off + s.len
      · obtain ⟨rfl, k1, k2⟩ := hin
        rw [hA] at hX; injection hX with hX; subst hX
        have : X' = splice arr (off + 0) (reverseWindow (contents h s) i j) := by
          simp only [poke, List.getElem?_modify, if_true, hA] at e1
          simpa using e1.symm
        have hcap := hv.1
        rw [this, getElem?_splice (by omega), if_neg (by omega), if_pos (by omega),
          getElem?_reverseWindow hij (by omega), if_neg]
        · simp only [contents, hp, hA, Option.getD_some]
          show (window arr off s.len)[_]? = _
          rw [getElem?_window, if_pos (by omega)]; congr 1; omega
        · rintro ⟨c1, c2⟩
          exact hk ⟨off, rfl, by omega, by omega⟩
      · apply e3
        rintro ⟨off', e4, c1, c2⟩
        injection e4 with e5 e6
        exact hin ⟨e5.symm, by omega, by omega⟩

example : reverse 9 (⟨1, exS⟩ : SIter Nat) ⟨6, exS⟩ exH = (.ok (), [[9, 1, 5, 3, 2, 2, 1, 7, 0]]) := by decide +kernel
example : swap (⟨1, exS⟩ : SIter Nat) ⟨6, exS⟩ exH = (.ok (), [[9, 1, 7, 2, 2, 3, 5, 1, 0]]) := by decide +kernel

/-! ## C14: `FillN` -/

section Fill

variable {T : Type} [Inhabited T]

theorem fillLoop_panics (s : Slice) (x : T) : ∀ (c : Nat) (i : Nat) (h : Heap T), Valid h s → i ≤ s.len →
    s.len < i + c → ∃ msg h', fillLoop x c (⟨i, s⟩ : SIter T) h = (.error msg, h') := by
  intro c
  induction c with
  | zero => intro i h _ _ _; omega
  | succ c ih =>
    intro i h hv hi hc
    unfold fillLoop
    by_cases hlt : i < s.len
    · have e1 : set (⟨i, s⟩ : SIter T) x h = (.ok (), poke h s.ptr i [x]) := store_ok x hlt
      have e2 : next (⟨i, s⟩ : SIter T) = .ok ⟨((i + 1 : Nat) : Int), s⟩ := (viewOf hv).next_pt i hlt
      rw [St.bind_ok e1, St.bind_lift e2]
      exact ih (i + 1) _ ((poke_upd hv (by have := hv.1; simp; omega)).valid hv) (by omega) (by omega)
    · have e1 : set (⟨i, s⟩ : SIter T) x h = (.error "index out of range", h) := by
        show store s i x h = _
        unfold store
        rw [if_neg (by omega)]
      rw [St.bind_error e1]
      exact ⟨_, _, rfl⟩

/-- **C14** on slice iterators. -/
theorem C14_fillN (h : Heap T) (s : Slice) (hv : Valid h s) (i : Nat) (hi : i ≤ s.len) (count : Int) (x : T) :
    (count ≤ 0 → fillN (⟨i, s⟩ : SIter T) count x h = (.ok ⟨i, s⟩, h)) ∧
    (0 ≤ count → i + count ≤ s.len → ∃ h', fillN (⟨i, s⟩ : SIter T) count x h = (.ok ⟨i + count, s⟩, h') ∧
      contents h' s = (contents h s).take i ++ List.replicate count.toNat x ++
        (contents h s).drop (i + count.toNat) ∧ Upd (Cells s s.len) h h') ∧
    (s.len < i + count → ∃ msg h', fillN (⟨i, s⟩ : SIter T) count x h = (.error msg, h')) := by
  have hL := length_contents hv
  refine ⟨?_, ?_, ?_⟩
  · intro hc
    unfold fillN
    rw [show count.toNat = 0 by omega]
    rfl
  · intro h0 hc
    have e := fillLoop_put (viewOf hv) (s := h) hv x count.toNat (contents h s) i hL
      (by show i + count.toNat ≤ s.len; omega)
    have e' : fillLoop x count.toNat (⟨i, s⟩ : SIter T) (poke h s.ptr 0 (contents h s)) =
      (.ok ⟨((i + count.toNat : Nat) : Int), s⟩, poke h s.ptr 0 ((contents h s).take i ++
        List.replicate count.toNat x ++ (contents h s).drop (i + count.toNat))) := e
    rw [poke_contents_self hv] at e'
    have hlen : ((contents h s).take i ++ List.replicate count.toNat x ++
        (contents h s).drop (i + count.toNat)).length = s.len := by simp; omega
    refine ⟨_, ?_, ?_, poke_win hv (i := 0) (l := _) (by rw [hlen]; omega) hv.1⟩
    · unfold fillN
      rw [e', show (((i + count.toNat : Nat) : Int)) = i + count by omega]
    · generalize (contents h s).take i ++ List.replicate count.toNat x ++
        (contents h s).drop (i + count.toNat) = L at hlen
      rw [poke_contents hv (by omega)]
      unfold splice
      simp only [List.take_zero, List.nil_append, Nat.zero_add]
      rw [List.drop_of_length_le (by omega), List.append_nil]
  · intro hc
    exact fillLoop_panics s x count.toNat i h hv hi (by omega)

theorem varAppend_spec (w : Var T) (m : Mem T) (hv : Valid m.heap m.var) (x : T)
    (hb : ((m.var.len + 1 + w.grow (m.var.len + 1) : Nat) : Int) < 9223372036854775808) :
    ∃ m', varAppend w x m = (.ok (), m') ∧ Valid m'.heap m'.var ∧ m'.var.len = m.var.len + 1 ∧
      contents m'.heap m'.var = contents m.heap m.var ++ [x] := by
  obtain ⟨s', h', e, hv', hl, hc, _⟩ := appendMany_spec (w.grow (m.var.len + 1)) hv [x] hb
  refine ⟨⟨h', s'⟩, ?_, hv', hl, hc⟩
  unfold varAppend onVar
  simp only [e]

/-- **C14** on append iterators: `count` copies are appended, across reallocations. -/
theorem C14_fillN_append (w : Var T) (x : T) (count : Int) (m : Mem T) (hv : Valid m.heap m.var)
    (hb : ∀ n, n ≤ m.var.len + count.toNat → ((n + w.grow n : Nat) : Int) < 9223372036854775808) :
    ∃ m', fillN (⟨w⟩ : AppendIter (Var T)) count x m = (.ok ⟨w⟩, m') ∧ Valid m'.heap m'.var ∧
      contents m'.heap m'.var = contents m.heap m.var ++ List.replicate count.toNat x := by
  unfold fillN
  generalize count.toNat = c at hb ⊢
  induction c generalizing m with
  | zero => exact ⟨m, rfl, hv, by simp⟩
  | succ c ih =>
    obtain ⟨m1, e1, hv1, hl1, hc1⟩ := varAppend_spec w m hv x (hb _ (by omega))
    obtain ⟨m2, e2, hv2, hc2⟩ := ih m1 hv1 (fun n hn => hb n (by omega))
    refine ⟨m2, ?_, hv2, ?_⟩
    · unfold fillLoop
      have q : set (⟨w⟩ : AppendIter (Var T)) x m = (.ok (), m1) := e1
      rw [St.bind_ok q]
      exact e2
    · rw [hc2, hc1, List.replicate_succ]; simp

end Fill

example : fillN (⟨1, exS⟩ : SIter Nat) 4 8 exH = (.ok ⟨5, exS⟩, [[9, 1, 8, 8, 8, 8, 5, 7, 0]]) := by decide +kernel
example : (fillN (⟨1, exS⟩ : SIter Nat) 7 8 exH).1 = .error "index out of range" := by decide +kernel
example : (match fillN (⟨exVar⟩ : AppendIter (Var Nat)) 3 8 ⟨exHeap, exFull⟩ with
    | (_, m) => contents m.heap m.var) = [11, 12, 13, 8, 8, 8] := by decide +kernel

/-! ## C15: reverse iterators -/

section Reverse

variable {T : Type} [Inhabited T]

/-- The full C15: walking any of the three reverse ranges gives the elements in reverse order. It does
not hold for `iter.ReverseRandomRange` (`C15_full_false`). -/
def C15_full (T : Type) [Inhabited T] : Prop :=
  ∀ (h : Heap T) (s : Slice), Valid h s → ∀ i j : Nat, i ≤ j → j ≤ s.len → ∃ fuel,
    (collect (reverseRange s : Range (Rev (SIter T))).last fuel (reverseRange s : Range (Rev (SIter T))).first h).1 =
      .ok (contents h s).reverse ∧
    (∃ r : Range (Rev (SIter T)), reverseSubRange s i j = .ok r ∧ (collect r.last fuel r.first h).1 =
      .ok ((((contents h s).reverse).drop i).take (j - i))) ∧
    (let r := reverseRandomRange (⟨⟨i, s⟩, ⟨j, s⟩⟩ : Range (SIter T))
     (collect r.last fuel r.first h).1 = .ok (((contents h s).drop i).take (j - i)).reverse)

/-- **C15** for `ReverseRange` and `ReverseSubRange`; missing is `iter.ReverseRandomRange`, for which the
claim is false. -/
theorem C15_reverseRange_partial (h : Heap T) (s : Slice) (hv : Valid h s) (i j : Nat) (hij : i ≤ j)
    (hj : j ≤ s.len) (fuel : Nat) (hf : s.len < fuel) :
    collect (reverseRange s : Range (Rev (SIter T))).last fuel (reverseRange s : Range (Rev (SIter T))).first h =
      (.ok (contents h s).reverse, h) ∧
    ∃ r : Range (Rev (SIter T)), reverseSubRange s i j = .ok r ∧ collect r.last fuel r.first h =
      (.ok ((((contents h s).reverse).drop i).take (j - i)), h) := by
  have hL := length_contents hv
  have hc := hv.1
  have hc2 := hv.2.1
  have pt : ∀ i, (viewOf hv).rev.pt i = ⟨⟨((s.len - i : Nat) : Int), s⟩⟩ := fun _ => rfl
  constructor
  · have := collect_spec (viewOf hv).rev (s := h) hv (j := s.len) (Nat.le_refl _) fuel 0 (by omega) (by omega)
    rw [pt, pt, Nat.sub_self] at this
    refine this.trans ?_
    show (Except.ok (((contents h s).reverse.drop 0).take (s.len - 0)), h) = _
    rw [List.drop_zero, List.take_of_length_le (by simp; omega)]
  · refine ⟨⟨(viewOf hv).rev.pt i, (viewOf hv).rev.pt j⟩, ?_, ?_⟩
    · unfold reverseSubRange
      have adv : ∀ k : Nat, k ≤ s.len → SIter.advance (rbegin s).i (wrap64 (-(k : Int))) =
          .ok (⟨((s.len - k : Nat) : Int), s⟩ : SIter T) := by
        intro k hk
        rw [wrap64_id (by unfold isInt64; omega)]
        unfold SIter.advance rbegin end_
        simp only
        rw [wrap64_id (by unfold isInt64; omega), if_neg (by omega)]
        congr 2; omega
      rw [adv i (by omega), adv j (by omega)]
      rfl
    · exact collect_spec (viewOf hv).rev (s := h) hv (j := j) hj fuel i hij (by omega)

/-- **C15**, writing: `Set` through a reverse iterator changes the element that `Get` reads (the one
before its base position), and no other. -/
theorem C15_write (h : Heap T) (s : Slice) (hv : Valid h s) (k : Nat) (hk : k < s.len) (x : T) :
    ∃ y h', (contents h s)[k]? = some y ∧
      get (⟨⟨((k + 1 : Nat) : Int), s⟩⟩ : Rev (SIter T)) h = (.ok y, h) ∧
      set (⟨⟨((k + 1 : Nat) : Int), s⟩⟩ : Rev (SIter T)) x h = (.ok (), h') ∧
      contents h' s = (contents h s).set k x ∧
      get (⟨⟨((k + 1 : Nat) : Int), s⟩⟩ : Rev (SIter T)) h' = (.ok x, h') ∧
      Upd (Cells s s.len) h h' := by
  have hL := length_contents hv
  have hprev : prev (⟨((k + 1 : Nat) : Int), s⟩ : SIter T) = .ok ⟨(k : Int), s⟩ := (viewOf hv).prev_pt k hk
  have getR : ∀ (h : Heap T) y, (contents h s)[k]? = some y →
      get (⟨⟨((k + 1 : Nat) : Int), s⟩⟩ : Rev (SIter T)) h = (.ok y, h) := by
    intro h y hy
    show (St.lift (prev (⟨((k + 1 : Nat) : Int), s⟩ : SIter T)) >>= fun i => get i) h = _
    rw [St.bind_lift hprev]
    exact load_ok hy
  obtain ⟨y, hy⟩ : ∃ y, (contents h s)[k]? = some y := ⟨_, List.getElem?_eq_getElem (by omega)⟩
  have hc' : contents (poke h s.ptr k [x]) s = (contents h s).set k x := by
    rw [poke_contents hv (by simp; omega), splice_singleton _ (by omega)]
  refine ⟨y, poke h s.ptr k [x], hy, getR h y hy, ?_, hc', ?_, poke_win hv (by simp; omega) hv.1⟩
  · show (St.lift (prev (⟨((k + 1 : Nat) : Int), s⟩ : SIter T)) >>= fun i => set i x) h = _
    rw [St.bind_lift hprev]
    exact store_ok x hk
  · apply getR
    rw [hc', List.getElem?_set, if_pos rfl, if_pos (by omega)]

/-- Walking what `iter.ReverseRandomRange` returns for a non-empty range never ends normally: it starts
at the wrong end and runs out of the slice (or reads elements before the range and then does). -/
theorem C15_reverseRandomRange_wrong (h : Heap T) (s : Slice) (hv : Valid h s) (j : Nat) (hj : j ≤ s.len) :
    ∀ (fuel i : Nat), i < j → ∃ msg,
      collect (reverseRandomRange (⟨⟨i, s⟩, ⟨j, s⟩⟩ : Range (SIter T))).last fuel
        (reverseRandomRange (⟨⟨i, s⟩, ⟨j, s⟩⟩ : Range (SIter T))).first h = (.error msg, h) := by
  have hL := length_contents hv
  intro fuel
  induction fuel with
  | zero => intro i _; exact ⟨_, rfl⟩
  | succ fuel ih =>
    intro i hi
    unfold collect
    have hne : equal (⟨⟨i, s⟩⟩ : Rev (SIter T)) ⟨⟨j, s⟩⟩ = .ok false := by
      have := (viewOf hv).equal_pt i j (by show i ≤ s.len; omega) hj
      rw [decide_eq_false (by omega)] at this
      exact this
    show ∃ msg, (St.lift (equal (⟨⟨i, s⟩⟩ : Rev (SIter T)) ⟨⟨j, s⟩⟩) >>= _) h = _
    rw [St.bind_lift hne, if_neg (by simp)]
    cases i with
    | zero =>
      have : get (⟨⟨((0 : Nat) : Int), s⟩⟩ : Rev (SIter T)) h = (.error "decrement out of bound", h) := rfl
      exact ⟨_, by rw [show (reverseRandomRange (⟨⟨((0 : Nat) : Int), s⟩, ⟨j, s⟩⟩ : Range (SIter T))).first =
        (⟨⟨((0 : Nat) : Int), s⟩⟩ : Rev (SIter T)) from rfl, St.bind_error this]⟩
    | succ i =>
      have hprev : prev (⟨((i + 1 : Nat) : Int), s⟩ : SIter T) = .ok ⟨(i : Int), s⟩ := (viewOf hv).prev_pt i (by show i < s.len; omega)
      obtain ⟨y, hy⟩ : ∃ y, (contents h s)[i]? = some y := ⟨_, List.getElem?_eq_getElem (by omega)⟩
      have hget : get (⟨⟨((i + 1 : Nat) : Int), s⟩⟩ : Rev (SIter T)) h = (.ok y, h) := by
        show (St.lift (prev (⟨((i + 1 : Nat) : Int), s⟩ : SIter T)) >>= fun i => get i) h = _
        rw [St.bind_lift hprev]
        exact load_ok hy
      have hnext : next (⟨⟨((i + 1 : Nat) : Int), s⟩⟩ : Rev (SIter T)) = .ok ⟨⟨(i : Int), s⟩⟩ := by
        show (match prev (⟨((i + 1 : Nat) : Int), s⟩ : SIter T) with
          | .ok i => Except.ok (Rev.mk i) | .error e => .error e) = _
        rw [hprev]
      obtain ⟨msg, e⟩ := ih i (by omega)
      refine ⟨msg, ?_⟩
      show (get (⟨⟨((i + 1 : Nat) : Int), s⟩⟩ : Rev (SIter T)) >>= _) h = _
      rw [St.bind_ok hget]
      show (St.lift (next (⟨⟨((i + 1 : Nat) : Int), s⟩⟩ : Rev (SIter T))) >>= _) h = _
      rw [St.bind_lift hnext]
      exact St.bind_error e _

/-- Hence the full C15 is false for the code as it is. -/
theorem C15_full_false : ¬ C15_full Nat := by
  intro hf
  obtain ⟨fuel, -, -, e⟩ := hf exH exS exV 0 1 (by decide) (by decide)
  obtain ⟨msg, e'⟩ := C15_reverseRandomRange_wrong exH exS exV 1 (by decide) fuel 0 (by decide)
  have e2 := congrArg Prod.fst e'
  rw [show _ = _ from e] at e2
  cases e2

end Reverse

example : collect (reverseRange exS : Range (Rev (SIter Nat))).last 9 (reverseRange exS : Range (Rev (SIter Nat))).first exH
    = (.ok [7, 5, 3, 2, 2, 1, 1], exH) := by decide +kernel
example : (match (reverseSubRange exS 1 3 : Go (Range (Rev (SIter Nat)))) with
    | .ok r => collect r.last 9 r.first exH | .error e => (.error e, exH)) = (.ok [5, 3], exH) := by decide +kernel
example : set (⟨⟨7, exS⟩⟩ : Rev (SIter Nat)) 4 exH = (.ok (), [[9, 1, 1, 2, 2, 3, 5, 4, 0]]) := by decide +kernel

end Verif.Algo
