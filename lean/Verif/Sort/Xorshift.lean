import Mathlib.Data.Finset.Card
import Mathlib.Data.Finset.Range
import Verif.Sort.Model

/-!
# C93: the random words of `breakPatterns`
-/

namespace Verif.Sort

theorem shl_xor_zero {x : BitVec 64} {k : Nat} (hk : 0 < k) (h : x ^^^ (x <<< k) = 0#64) : x = 0#64 := by
  have bit : ∀ i, x.getLsbD i = (x <<< k).getLsbD i := by
    intro i
    have := congrArg (fun y => y.getLsbD i) h
    simp only [BitVec.getLsbD_xor, BitVec.getLsbD_zero] at this
    exact bne_eq_false_iff_eq.1 this
  have low : ∀ i, x.getLsbD i = false := by
    intro i
    induction i using Nat.strongRecOn with
    | ind i ih =>
      rw [bit, BitVec.getLsbD_shiftLeft]
      by_cases hi : i < k
      · simp [hi]
      · rw [ih (i - k) (by omega), Bool.and_false]
  exact BitVec.eq_of_getLsbD_eq fun i _ => by rw [low, BitVec.getLsbD_zero]

theorem shr_xor_zero {x : BitVec 64} {k : Nat} (hk : 0 < k) (h : x ^^^ (x >>> k) = 0#64) : x = 0#64 := by
  have bit : ∀ i, x.getLsbD i = (x >>> k).getLsbD i := by
    intro i
    have := congrArg (fun y => y.getLsbD i) h
    simp only [BitVec.getLsbD_xor, BitVec.getLsbD_zero] at this
    exact bne_eq_false_iff_eq.1 this
  have high : ∀ n i, 64 ≤ i + n → x.getLsbD i = false := by
    intro n
    induction n with
    | zero => intro i hi; exact BitVec.getLsbD_of_ge _ _ hi
    | succ n ih =>
      intro i hi
      rw [bit, BitVec.getLsbD_ushiftRight]
      exact ih (k + i) (by omega)
  exact BitVec.eq_of_getLsbD_eq fun i _ => by rw [high 64 i (by omega), BitVec.getLsbD_zero]

theorem shl_xor (x y : BitVec 64) (k : Nat) : (x ^^^ y) <<< k = (x <<< k) ^^^ (y <<< k) := by
  refine BitVec.eq_of_getLsbD_eq fun i hi => ?_
  simp only [BitVec.getLsbD_shiftLeft, BitVec.getLsbD_xor]
  cases decide (i < 64) <;> cases decide (i < k) <;> simp

theorem shr_xor (x y : BitVec 64) (k : Nat) : (x ^^^ y) >>> k = (x >>> k) ^^^ (y >>> k) := by
  refine BitVec.eq_of_getLsbD_eq fun i hi => ?_
  simp only [BitVec.getLsbD_ushiftRight, BitVec.getLsbD_xor]

theorem xor_four (a b c d : BitVec 64) : (a ^^^ b) ^^^ (c ^^^ d) = (a ^^^ c) ^^^ (b ^^^ d) := by
  rw [BitVec.xor_assoc, ← BitVec.xor_assoc b, BitVec.xor_comm b c, BitVec.xor_assoc c, ← BitVec.xor_assoc]

/-- One step of the form `r ^= r << k`. -/
theorem shlStep_xor (x y : BitVec 64) (k : Nat) :
    (x ^^^ y) ^^^ ((x ^^^ y) <<< k) = (x ^^^ (x <<< k)) ^^^ (y ^^^ (y <<< k)) := by rw [shl_xor, xor_four]

theorem shrStep_xor (x y : BitVec 64) (k : Nat) :
    (x ^^^ y) ^^^ ((x ^^^ y) >>> k) = (x ^^^ (x >>> k)) ^^^ (y ^^^ (y >>> k)) := by rw [shr_xor, xor_four]

/-- **C93.** The generator is linear over the two-element field, -/
theorem C93_linear (x y : BitVec 64) : xorshiftNext (x ^^^ y) = xorshiftNext x ^^^ xorshiftNext y := by
  simp only [xorshiftNext]
  rw [shlStep_xor x y 13, shrStep_xor _ _ 17, shlStep_xor _ _ 5]

/-- only 0 gives 0, -/
theorem C93_zero (x : BitVec 64) : xorshiftNext x = 0#64 ↔ x = 0#64 := by
  constructor
  · intro h
    exact shl_xor_zero (by omega) (shr_xor_zero (by omega) (shl_xor_zero (by omega) h))
  · rintro rfl; decide

/-- and it is a permutation of the 64-bit words. -/
theorem C93_injective {x y : BitVec 64} (h : xorshiftNext x = xorshiftNext y) : x = y := by
  have : xorshiftNext (x ^^^ y) = 0#64 := by rw [C93_linear, h, BitVec.xor_self]
  have := (C93_zero _).1 this
  exact BitVec.xor_eq_zero_iff.1 this

/-- The word after `n` calls. -/
def xorshiftAfter : Nat → BitVec 64 → BitVec 64
  | 0, r => r
  | n + 1, r => xorshiftAfter n (xorshiftNext r)

theorem after_succ (n : Nat) (r : BitVec 64) : xorshiftAfter (n + 1) r = xorshiftNext (xorshiftAfter n r) := by
  induction n generalizing r with
  | zero => rfl
  | succ n ih => exact ih (xorshiftNext r)

theorem after_injective (n : Nat) {x y : BitVec 64} (h : xorshiftAfter n x = xorshiftAfter n y) : x = y := by
  induction n generalizing x y with
  | zero => exact h
  | succ n ih => exact C93_injective (ih h)

theorem after_add (m n : Nat) (r : BitVec 64) : xorshiftAfter (m + n) r = xorshiftAfter m (xorshiftAfter n r) := by
  induction n generalizing r with
  | zero => rfl
  | succ n ih => exact ih (xorshiftNext r)

/-- **C93.** From a seed other than 0 it never gets stuck at 0, and the words come round in a cycle through the seed.
(`breakPatterns` seeds it with the length of a part, at least 8.) -/
theorem C93_never_zero (r : BitVec 64) (hs : r ≠ 0#64) :
    (∀ n, xorshiftAfter n r ≠ 0#64) ∧
    ∃ p, 0 < p ∧ p ≤ 2 ^ 64 ∧ ∀ n, xorshiftAfter (n + p) r = xorshiftAfter n r := by
  refine ⟨fun n => ?_, ?_⟩
  · induction n with
    | zero => exact hs
    | succ n ih => rw [after_succ]; exact fun e => ih ((C93_zero _).1 e)
  · have : ∃ i j : Nat, i < j ∧ j ≤ 2 ^ 64 ∧ xorshiftAfter i r = xorshiftAfter j r := by
      obtain ⟨i, hi, j, hj, hne, e⟩ := Finset.exists_ne_map_eq_of_card_lt_of_maps_to
        (s := Finset.range (2 ^ 64 + 1)) (t := Finset.range (2 ^ 64)) (f := fun i => (xorshiftAfter i r).toNat)
        (by rw [Finset.card_range, Finset.card_range]; omega)
        (fun i _ => Finset.mem_coe.2 (Finset.mem_range.2 (BitVec.isLt _)))
      rw [Finset.mem_range] at hi hj
      have e := BitVec.eq_of_toNat_eq e
      rcases Nat.lt_or_gt_of_ne hne with h | h
      · exact ⟨i, j, h, by omega, e⟩
      · exact ⟨j, i, h, by omega, e.symm⟩
    obtain ⟨i, j, hij, hj, e⟩ := this
    refine ⟨j - i, by omega, by omega, fun n => ?_⟩
    have e' : xorshiftAfter i r = xorshiftAfter i (xorshiftAfter (j - i) r) := by
      rw [← after_add, e]; congr 1; omega
    have := after_injective i e'
    rw [after_add, ← this]

example : BitVec.ofInt 64 (8 : Int) ≠ 0#64 := by decide
example : xorshiftNext 1 = 0x42021 := by decide
example : xorshiftNext 1000 = 0xfdd7916 := by decide
example : xorshiftNext 0xdeadbeefcafebabe = 0x477e120ff05ff92a := by decide

end Verif.Sort
