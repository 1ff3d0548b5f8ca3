import Verif.Sort.Cost
import Verif.Sort.Rot

/-!
# Counting the comparator calls of `stable`

The bounds hold whatever the comparator answers: the shape of the merges does not depend on its being an
order.
-/

namespace Verif.Sort

variable {E : Type} [Inhabited E] {adm : Kind → E → E → Bool → Prop}
set_option linter.unusedSectionVars false

theorem swapRange_cost (a b m i : Int) (n : Nat) (d : List E) :
    cw adm (swapRange a b m i) (fun _ _ n' => n' = n) n d := by
  unfold swapRange
  split
  · rw [cw_bind]
    exact cw_swap (swapRange_cost a b m (i + 1) n _)
  · rw [cw_pure]
termination_by (m - i).toNat

theorem rotateLoop_cost (m i j : Int) (n : Nat) (d : List E) :
    cw adm (rotateLoop m i j) (fun _ _ n' => n' = n) n d := by
  unfold rotateLoop
  split
  · exact swapRange_cost ..
  · split
    · exact cw_fail
    · split
      · rw [cw_bind]
        refine cw_mono (swapRange_cost _ _ _ _ n d) ?_
        rintro _ d1 n1 rfl
        exact rotateLoop_cost m (i - j) j n1 d1
      · rw [cw_bind]
        refine cw_mono (swapRange_cost _ _ _ _ n d) ?_
        rintro _ d1 n1 rfl
        exact rotateLoop_cost m i (j - i) n1 d1
termination_by (i + j).toNat

theorem bubbleUp_cost (i k : Int) (n : Nat) (d : List E) :
    cw adm (bubbleUp i k) (fun _ _ n' => n' = n) n d := by
  unfold bubbleUp
  split
  · rw [cw_bind]
    exact cw_swap (bubbleUp_cost i (k + 1) n _)
  · rw [cw_pure]
termination_by (i - k).toNat

theorem bubbleDown_cost (i k : Int) (n : Nat) (d : List E) :
    cw adm (bubbleDown i k) (fun _ _ n' => n' = n) n d := by
  unfold bubbleDown
  split
  · rw [cw_bind]
    exact cw_swap (bubbleDown_cost i (k - 1) n _)
  · rw [cw_pure]
termination_by (k - i).toNat

/-- A binary search over fewer than `2^k` places asks at most `k` questions. -/
theorem searchGE_cost (k : Nat) (a i j : Int) (h : j - i < 2 ^ k) (n : Nat) (d : List E) :
    cw adm (searchGE a i j) (fun _ _ n' => n' ≤ n + k) n d := by
  induction k generalizing i j n with
  | zero =>
    unfold searchGE
    rw [if_neg (by simp at h; omega), cw_pure]; omega
  | succ k ih =>
    have e : (2 : Int) ^ (k + 1) = 2 * 2 ^ k := by rw [Int.pow_succ]; omega
    unfold searchGE
    split
    · rw [cw_bind]
      refine cw_lessAt fun b _ => ?_
      split
      · exact cw_mono (ih _ _ (by omega) _) fun _ _ n' h => by omega
      · exact cw_mono (ih _ _ (by omega) _) fun _ _ n' h => by omega
    · rw [cw_pure]; omega

theorem searchGT_cost (k : Nat) (m i j : Int) (h : j - i < 2 ^ k) (n : Nat) (d : List E) :
    cw adm (searchGT m i j) (fun _ _ n' => n' ≤ n + k) n d := by
  induction k generalizing i j n with
  | zero =>
    unfold searchGT
    rw [if_neg (by simp at h; omega), cw_pure]; omega
  | succ k ih =>
    have e : (2 : Int) ^ (k + 1) = 2 * 2 ^ k := by rw [Int.pow_succ]; omega
    unfold searchGT
    split
    · rw [cw_bind]
      refine cw_nlessAt fun b _ => ?_
      split
      · exact cw_mono (ih _ _ (by omega) _) fun _ _ n' h => by omega
      · exact cw_mono (ih _ _ (by omega) _) fun _ _ n' h => by omega
    · rw [cw_pure]; omega

theorem searchSym_cost (k : Nat) (p i j : Int) (h : j - i < 2 ^ k) (n : Nat) (d : List E) :
    cw adm (searchSym p i j) (fun _ _ n' => n' ≤ n + k) n d := by
  induction k generalizing i j n with
  | zero =>
    unfold searchSym
    rw [if_neg (by simp at h; omega), cw_pure]; omega
  | succ k ih =>
    have e : (2 : Int) ^ (k + 1) = 2 * 2 ^ k := by rw [Int.pow_succ]; omega
    unfold searchSym
    split
    · rw [cw_bind]
      refine cw_nlessAt fun b _ => ?_
      split
      · exact cw_mono (ih _ _ (by omega) _) fun _ _ n' h => by omega
      · exact cw_mono (ih _ _ (by omega) _) fun _ _ n' h => by omega
    · rw [cw_pure]; omega

theorem add_two_le_two_pow (k : Nat) : (k : Int) + 2 ≤ 2 * 2 ^ k := by
  induction k with
  | zero => simp
  | succ k ih => rw [Int.pow_succ]; omega

/-- Merging two adjacent runs of together at most `2^k` elements asks at most `2·2^k - k - 2` questions. -/
theorem symMerge_cost_pow (k : Nat) (a m b : Int) (h1 : a < m) (h2 : m < b) (hk : b - a ≤ 2 ^ k) (n : Nat)
    (d : List E) :
    cw adm (symMerge a m b) (fun _ _ n' => (n' : Int) ≤ n + (2 * 2 ^ k - k - 2)) n d := by
  induction k generalizing a m b n d with
  | zero => simp at hk; omega
  | succ k ih =>
    have e : (2 : Int) ^ (k + 1) = 2 * 2 ^ k := by rw [Int.pow_succ]; omega
    have g := add_two_le_two_pow k
    unfold symMerge
    split
    · rw [cw_bind]
      refine cw_mono (searchGE_cost (k + 1) a m b (by omega) n d) fun i d1 n1 c1 => ?_
      exact cw_mono (bubbleUp_cost i a n1 d1) fun _ _ n' h => by omega
    · split
      · rw [cw_bind]
        refine cw_mono (searchGT_cost (k + 1) m a m (by omega) n d) fun i d1 n1 c1 => ?_
        exact cw_mono (bubbleDown_cost i m n1 d1) fun _ _ n' h => by omega
      · dsimp only
        rw [cw_bind]
        refine cw_mono (searchSym_cost (k + 1) _ _ _ (by split <;> omega) n d) fun start d1 n1 c1 => ?_
        have right : ∀ (n3 : Nat) (d3 : List E), (n3 : Int) ≤ n1 + (2 * 2 ^ k - k - 2) →
            cw adm ((if _h : (a + b) / 2 < (a + b) / 2 + m - start ∧ (a + b) / 2 + m - start < b then
              recurse (symMerge ((a + b) / 2) ((a + b) / 2 + m - start) b) else pure () : M E Unit))
              (fun _ _ n' => (n' : Int) ≤ n + (2 * 2 ^ (k + 1) - (k + 1 : Nat) - 2)) n3 d3 := by
          intro n3 d3 hn3
          split
          · rename_i hc
            rw [cw_recurse]
            exact cw_mono (ih _ _ _ hc.1 hc.2 (by omega) n3 d3) fun _ _ n' h => by omega
          · rw [cw_pure]; omega
        have left : ∀ (n2 : Nat) (d2 : List E), n2 = n1 →
            cw adm (do
              (if _h : a < start ∧ start < (a + b) / 2 then recurse (symMerge a start ((a + b) / 2)) else pure () : M E Unit)
              (if _h : (a + b) / 2 < (a + b) / 2 + m - start ∧ (a + b) / 2 + m - start < b then
                recurse (symMerge ((a + b) / 2) ((a + b) / 2 + m - start) b) else pure () : M E Unit))
              (fun _ _ n' => (n' : Int) ≤ n + (2 * 2 ^ (k + 1) - (k + 1 : Nat) - 2)) n2 d2 := by
          rintro n2 d2 rfl
          rw [cw_bind]
          split
          · rename_i hc
            rw [cw_recurse]
            exact cw_mono (ih _ _ _ hc.1 hc.2 (by omega) n2 d2) fun _ d3 n3 h => right n3 d3 h
          · rw [cw_pure]; exact right n2 d2 (by omega)
        rw [cw_bind]
        refine cw_when (fun _ => ?_) (fun _ => left n1 d1 rfl)
        exact cw_mono (rotateLoop_cost _ _ _ n1 d1) fun _ d2 n2 h => left n2 d2 h

theorem exists_pow (N : Nat) (h : 2 ≤ N) : ∃ k, N ≤ 2 ^ k ∧ 2 ^ k ≤ 2 * N := by
  refine ⟨Nat.log2 N + 1, Nat.le_of_lt Nat.lt_log2_self, ?_⟩
  have := Nat.log2_self_le (n := N) (by omega)
  rw [Nat.pow_succ]; omega

/-- Merging two adjacent runs of together `N` elements asks fewer than `4·N` questions. -/
theorem symMerge_cost (a m b : Int) (h1 : a < m) (h2 : m < b) (n : Nat) (d : List E) :
    cw adm (symMerge a m b) (fun _ _ n' => (n' : Int) ≤ n + 4 * (b - a)) n d := by
  obtain ⟨k, hk1, hk2⟩ := exists_pow (b - a).toNat (by omega)
  have hk1' : (((b - a).toNat : Nat) : Int) ≤ 2 ^ k := by exact_mod_cast hk1
  have hk2' : (2 : Int) ^ k ≤ 2 * ((b - a).toNat : Nat) := by exact_mod_cast hk2
  exact cw_mono (symMerge_cost_pow k a m b h1 h2 (by omega) n d) fun _ _ n' h => by omega

theorem blockLoop_cost (m a b : Int) (h0 : a ≤ m) (hb : b = a + 20) (n : Nat) (d : List E) :
    cw adm (blockLoop m a b)
      (fun r _ n' => r ≤ m ∧ m < r + 20 ∧ (n' : Int) ≤ n + (r - a) * 19) n d := by
  unfold blockLoop
  split
  · rw [cw_bind]
    refine cw_mono (insertionSort_cost 19 (by omega) a b (by omega) n d (by omega)) fun _ d1 n1 c1 => ?_
    refine cw_mono (blockLoop_cost m b (b + 20) (by omega) rfl n1 d1) ?_
    rintro r d2 n2 ⟨h1, h2, h3⟩
    exact ⟨h1, h2, by omega⟩
  · rw [cw_pure]; exact ⟨h0, by omega, by omega⟩
termination_by (m + 1 - b).toNat

theorem mergePass_cost (m bs a b : Int) (hbs : 0 < bs) (h0 : a ≤ m) (hb : b = a + 2 * bs) (n : Nat)
    (d : List E) :
    cw adm (mergePass m bs a b) (fun r _ n' => r ≤ m ∧ (n' : Int) ≤ n + 4 * (r - a)) n d := by
  unfold mergePass
  split
  · omega
  · split
    · rw [cw_bind]
      refine cw_mono (symMerge_cost a (a + bs) b (by omega) (by omega) n d) fun _ d1 n1 c1 => ?_
      refine cw_mono (mergePass_cost m bs b (b + 2 * bs) hbs (by omega) rfl n1 d1) ?_
      rintro r d2 n2 ⟨h1, h2⟩
      exact ⟨h1, by omega⟩
    · rw [cw_pure]; exact ⟨h0, by omega⟩
termination_by (m + 1 - b).toNat

/-- `K` doublings take the block size past the length. -/
theorem stableLoop_cost (K : Nat) (m bs : Int) (hbs : 0 < bs) (hm : 0 ≤ m) (hK : m ≤ bs * 2 ^ K) (n : Nat)
    (d : List E) :
    cw adm (stableLoop m bs) (fun _ _ n' => (n' : Int) ≤ n + 4 * (m * K)) n d := by
  induction K generalizing bs n d with
  | zero =>
    unfold stableLoop
    rw [if_neg (by omega), if_neg (by simp at hK; omega), cw_pure]; simp
  | succ K ih =>
    have e : m * ((K + 1 : Nat) : Int) = m * K + m := by push_cast; rw [Int.mul_add]; omega
    have e2 : bs * (2 : Int) ^ (K + 1) = bs * 2 * 2 ^ K := by
      rw [Int.pow_succ, Int.mul_comm (2 ^ K) 2, Int.mul_assoc]
    have hmK : 0 ≤ m * (K : Int) := Int.mul_nonneg hm (by omega)
    unfold stableLoop
    split
    · exact cw_fail
    · split
      · rw [cw_bind]
        refine cw_mono (mergePass_cost m bs 0 (2 * bs) hbs hm (by omega) n d) ?_
        rintro r d1 n1 ⟨hr, c1⟩
        dsimp only
        rw [cw_bind]
        have fin : ∀ (n2 : Nat) (d2 : List E), (n2 : Int) ≤ n + 4 * m →
            cw adm (stableLoop m (bs * 2)) (fun _ _ n' => (n' : Int) ≤ n + 4 * (m * (K + 1 : Nat))) n2 d2 :=
          fun n2 d2 h => cw_mono (ih (bs * 2) (by omega) (by omega) n2 d2) fun _ _ n' h' => by omega
        refine cw_when (fun hc => ?_) (fun _ => fin n1 d1 (by omega))
        exact cw_mono (symMerge_cost r (r + bs) m (by omega) hc n1 d1) fun _ d2 n2 h => fin n2 d2 (by omega)
      · rw [cw_pure]; omega

/-- `stable` asks at most `4·L + 19` questions per element, `L` being the bit length of the length. -/
theorem stableProg_cost (d : List E) :
    cw adm stableProg (fun _ _ n => n ≤ d.length * (4 * bitsLen d.length + 19)) 0 d := by
  have key : cw adm (stable (d.length : Int))
      (fun _ _ n => n ≤ d.length * (4 * bitsLen d.length + 19)) 0 d := by
    unfold stable
    rw [cw_bind]
    refine cw_mono (blockLoop_cost d.length 0 20 (by omega) (by omega) 0 d) ?_
    rintro r d1 n1 ⟨h1, h2, c1⟩
    rw [cw_bind]
    refine cw_mono (insertionSort_cost 19 (by omega) r d.length (by omega) n1 d1 h1) fun _ d2 n2 c2 => ?_
    have hlt := lt_two_pow_bitsLen d.length
    have hlt' : ((d.length : Nat) : Int) < 2 ^ bitsLen d.length := by exact_mod_cast hlt
    refine cw_mono (stableLoop_cost (bitsLen d.length) d.length 20 (by omega) (by omega) (by omega) n2 d2)
      fun _ _ n' h => ?_
    have e : ((d.length * (4 * bitsLen d.length + 19) : Nat) : Int) =
        4 * ((d.length : Int) * bitsLen d.length) + d.length * 19 := by
      rw [Nat.mul_add, Nat.mul_left_comm]; push_cast; rfl
    omega
  exact key

end Verif.Sort
