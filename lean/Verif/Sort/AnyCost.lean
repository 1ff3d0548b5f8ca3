import Verif.Sort.Cost

/-!
# Counting the comparator calls of `pdqsort` against an arbitrary comparator

Here nothing is assumed of the answers. Each call of `pdqsort` that does not finish puts at least one
element in its place and asks linearly many questions.
-/

namespace Verif.Sort

variable {E : Type} [Inhabited E] {adm : Kind → E → E → Bool → Prop}
set_option linter.unusedSectionVars false

theorem scanSorted_cost_le (b i : Int) (hib : i ≤ b) (n : Nat) (d : List E) :
    cw adm (scanSorted b i) (fun r _ n' => i ≤ r ∧ r ≤ b ∧ (n' : Int) ≤ n + (r - i) + 1) n d := by
  unfold scanSorted
  split
  · rw [cw_bind]
    refine cw_nlessAt fun c _ => ?_
    split
    · exact cw_mono (scanSorted_cost_le b (i + 1) (by omega) _ d) fun r _ n' ⟨h1, h2, h3⟩ =>
        ⟨by omega, h2, by omega⟩
    · rw [cw_pure]; exact ⟨by omega, hib, by omega⟩
  · rw [cw_pure]; exact ⟨by omega, hib, by omega⟩
termination_by (b - i).toNat

theorem shiftLeft_cost_any (j : Int) (hj : 0 ≤ j) (n : Nat) (d : List E) :
    cw adm (shiftLeft j) (fun _ _ n' => (n' : Int) ≤ n + j) n d := by
  unfold shiftLeft
  split
  · rw [cw_bind]
    refine cw_nlessAt fun b hb => ?_
    split
    · rw [cw_pure]; omega
    · rw [cw_bind]
      refine cw_swap ?_
      exact cw_mono (shiftLeft_cost_any (j - 1) (by omega) _ _) fun _ _ n' h => by omega
  · rw [cw_pure]; omega
termination_by j.toNat

theorem partialLoop_cost_any (m : Nat) (a b i : Int) (h0 : 0 ≤ a) (hai : a < i) (hib : i ≤ b) (n : Nat)
    (d : List E) :
    cw adm (partialLoop m a b i) (fun _ _ n' => (n' : Int) ≤ n + (b - i) + m * (b + 1)) n d := by
  induction m generalizing i n d with
  | zero => unfold partialLoop; rw [cw_pure]; omega
  | succ m ih =>
    unfold partialLoop
    have e : ((m + 1 : Nat) : Int) * (b + 1) = m * (b + 1) + (b + 1) := by
      rw [Int.natCast_add, Int.add_mul]; omega
    have e0 : 0 ≤ (m : Int) * (b + 1) := Int.mul_nonneg (by omega) (by omega)
    rw [cw_bind]
    refine cw_mono (scanSorted_cost_le b i hib n d) ?_
    rintro i' d n1 ⟨u1, u2, c1⟩
    split
    · rw [cw_pure]; omega
    · split
      · rw [cw_pure]; omega
      · rw [cw_bind]
        refine cw_swap ?_
        rw [cw_bind]
        have key : ∀ (n2 : Nat) (d2 : List E), (n2 : Int) ≤ n1 + (i' - 1) →
            cw adm (M.when (b - i' ≥ 2) (shiftRight b (i' + 1)) >>= fun _ => partialLoop m a b i')
            (fun _ _ n' => (n' : Int) ≤ n + (b - i) + ((m + 1 : Nat) : Int) * (b + 1)) n2 d2 := by
          intro n2 d2 c2
          rw [cw_bind]
          have fin : ∀ (n3 : Nat) (d3 : List E), (n3 : Int) ≤ n1 + b →
              cw adm (partialLoop m a b i')
              (fun _ _ n' => (n' : Int) ≤ n + (b - i) + ((m + 1 : Nat) : Int) * (b + 1)) n3 d3 :=
            fun n3 d3 c3 => cw_mono (ih i' (by omega) u2 n3 d3) fun _ _ n' h => by omega
          refine cw_when (fun hc => ?_) (fun _ => fin _ _ (by omega))
          exact cw_mono (shiftRight_cost b (i' + 1) (by omega) n2 d2) fun _ d3 n3 c3 => fin _ _ (by omega)
        refine cw_when (fun hc => ?_) (fun hc => key _ _ (by omega))
        exact cw_mono (shiftLeft_cost_any (i' - 1) (by omega) n1 _) fun _ d2 n2 c2 => key _ _ (by omega)

theorem tryPartial_cost_any (c : Prop) [Decidable c] (a b : Int) (h0 : 0 ≤ a) (hab : a < b) (n : Nat)
    (d : List E) :
    cw adm (tryPartial c a b) (fun _ _ n' => (n' : Int) ≤ n + 6 * b + 4) n d := by
  unfold tryPartial
  split
  · exact cw_mono (partialLoop_cost_any 5 a b (a + 1) h0 (by omega) (by omega) n d) fun _ _ n' h => by omega
  · rw [cw_pure]; omega

/-- `C` per element is enough if `C` is enough for one call. -/
theorem sum_parts_any {s x y C : Int} (hC : 0 ≤ C) (hs : x + y + 1 ≤ s) : C + x * C + y * C ≤ s * C := by
  have := Int.mul_le_mul_of_nonneg_right hs hC
  rw [Int.add_mul, Int.add_mul] at this
  omega

theorem pdqsort_cost_any (K : Nat) (N C : Int) (hC : C = 7 * N + 4 * K + 18) (fuel : Nat) (limit : Int)
    (a b : Int) (wb wp' : Bool) (hf : b - a < fuel) (h0 : 0 ≤ a) (hab : a ≤ b) (hN : b ≤ N)
    (hK : b - a < 2 ^ K) (n : Nat) (d : List E) (h : Span d 0 b) :
    cw adm (pdqsort fuel a b limit wb wp') (fun _ _ n' => (n' : Int) ≤ n + (b - a) * C) n d := by
  induction fuel generalizing limit a b wb wp' n d with
  | zero => omega
  | succ fuel ih =>
    unfold pdqsort
    dsimp only
    have ha : ∀ d : List E, Span d 0 b → Span d a b := fun d h => h.sub h0 (Int.le_refl _)
    have h11 : (b - a) * 11 ≤ (b - a) * C := Int.mul_le_mul_of_nonneg_left (by omega) (by omega)
    have h4K : (b - a) * (4 * K) ≤ (b - a) * C := Int.mul_le_mul_of_nonneg_left (by omega) (by omega)
    split
    · exact cw_mono (insertionSort_cost 11 (by omega) a b (by omega) n d hab) fun _ _ n' h => by omega
    · split
      · exact cw_mono (heapSort_cost K a b (by omega) hK n d) fun _ _ n' h => by omega
      · rw [cw_bind]
        refine cw_mono (cw_wp (breakIfUnbalanced_any wb a b limit d (ha d h))
          (breakIfUnbalanced_cost wb a b limit n d)) ?_
        rintro limit d1 n1 ⟨w1, c1, -⟩
        have w1 := w1.mono h0 (Int.le_refl _)
        have h1 := h.win w1
        rw [cw_bind]
        refine cw_mono (cw_wp (choosePivot_any a b d1 (ha _ h1) (by omega)) (choosePivot_cost a b n1 d1)) ?_
        rintro ph d1 n2 ⟨⟨rfl, p1, p2⟩, c2⟩
        rw [cw_bind]
        refine cw_mono (cw_wp (reverseIfDecreasing_any a b ph.1 ph.2 d1 (ha _ h1) p1 p2)
          (reverseIfDecreasing_cost a b ph.1 ph.2 n2 d1)) ?_
        rintro ph d2 n3 ⟨⟨w2, p1, p2⟩, c3⟩
        have w2 := w1.trans (w2.mono h0 (Int.le_refl _))
        have h2 := h.win w2
        rw [cw_bind]
        refine cw_mono (cw_wp (tryPartial_any _ a b h0 (by omega) d2 h2)
          (tryPartial_cost_any _ a b h0 (by omega) n3 d2)) ?_
        rintro done d3 n4 ⟨w3, c4⟩
        have w3 := w2.trans w3
        have h3 := h.win w3
        have hzero := sum_parts_any (s := b - a) (x := 0) (y := 0) (C := C) (by omega) (by omega)
        split
        · rw [cw_pure]; omega
        · rw [cw_bind]
          refine cw_mono (cw_wp (manyEqual_any a b ph.1 d3 h3 p1 p2) (manyEqual_cost a ph.1 n4 d3)) ?_
          rintro eq d3 n5 ⟨⟨rfl, -⟩, c5⟩
          split
          · rw [cw_bind]
            refine cw_mono (cw_wp (partitionEqual_any a b ph.1 _ (ha _ h3) p1 p2 (by omega))
              (partitionEqual_cost a b ph.1 (by omega) n5 _)) ?_
            rintro mid d4 n6 ⟨⟨w4, q1, q2, -⟩, c6⟩
            have w4 := w3.trans (w4.mono h0 (Int.le_refl _))
            have := sum_parts_any (s := b - a) (x := b - mid) (y := 0) (C := C) (by omega) (by omega)
            exact cw_mono (ih _ mid b _ _ (by omega) (by omega) (by omega) hN (by omega) n6 d4 (h.win w4))
              fun _ _ n' h => by omega
          · rw [cw_bind]
            refine cw_mono (cw_wp (partition_any a b ph.1 _ (ha _ h3) p1 p2)
              (partition_cost a b ph.1 (by omega) n5 _)) ?_
            rintro mp d4 n6 ⟨⟨w4, q1, q2, -⟩, c6⟩
            have w4 := w3.trans (w4.mono h0 (Int.le_refl _))
            have h4 := h.win w4
            have hsum := sum_parts_any (s := b - a) (x := mp.1 - a) (y := b - (mp.1 + 1)) (C := C)
              (by omega) (by omega)
            split
            · rw [cw_bind, cw_recurse]
              refine cw_mono (cw_wp (pdqsort_any fuel a mp.1 limit true true (by omega) (by omega) h0
                (by omega) d4 (h4.sub (by omega) (by omega)))
                (ih limit a mp.1 true true (by omega) h0 (by omega) (by omega) (by omega) n6 d4
                  (h4.sub (by omega) (by omega)))) ?_
              rintro _ d5 n7 ⟨w5, c7⟩
              exact cw_mono (ih limit (mp.1 + 1) b _ _ (by omega) (by omega) (by omega) hN (by omega) n7 d5
                (h4.win (w5.mono (lo' := 0) (hi' := b) (by omega) (by omega)))) fun _ _ n' h => by omega
            · rw [cw_bind, cw_recurse]
              refine cw_mono (cw_wp (pdqsort_any fuel (mp.1 + 1) b limit true true (by omega) (by omega)
                (by omega) (by omega) d4 h4)
                (ih limit (mp.1 + 1) b true true (by omega) (by omega) (by omega) hN (by omega) n6 d4 h4)) ?_
              rintro _ d5 n7 ⟨w5, c7⟩
              exact cw_mono (ih limit a mp.1 _ _ (by omega) h0 (by omega) (by omega) (by omega) n7 d5
                ((h4.win w5).sub (by omega) (by omega))) fun _ _ n' h => by omega

theorem sortProg_cost_any (d : List E) :
    cw adm sortProg (fun _ _ n => n ≤ d.length * (7 * d.length + 4 * bitsLen d.length + 18)) 0 d := by
  have hlt := lt_two_pow_bitsLen d.length
  have := pdqsort_cost_any (adm := adm) (bitsLen d.length) d.length _ rfl (d.length + 1) (bitsLen d.length)
    0 d.length true true (by omega) (by omega) (by omega) (by omega)
    (by have : ((d.length : Nat) : Int) < 2 ^ bitsLen d.length := by exact_mod_cast hlt
        omega) 0 d ⟨by omega, by omega⟩
  refine cw_mono (Q := fun _ _ n => (n : Int) ≤ (0 : Nat) + ((d.length : Int) - 0) *
    (7 * d.length + 4 * (bitsLen d.length) + 18)) this ?_
  intro _ _ n hn
  have e : ((d.length : Int) - 0) * (7 * d.length + 4 * (bitsLen d.length : Int) + 18) =
      ((d.length * (7 * d.length + 4 * bitsLen d.length + 18) : Nat) : Int) := by
    push_cast; rw [Int.sub_zero]
    congr 1
  omega

end Verif.Sort
