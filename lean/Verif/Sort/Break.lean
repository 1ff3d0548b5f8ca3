import Verif.Sort.Descending
import Verif.Sort.Xorshift

/-!
# C98: what `breakPatterns` does
-/

namespace Verif.Sort

variable {E : Type} [Inhabited E] {lt : E → E → Bool}
set_option linter.unusedSectionVars false

/-- The `i`-th partner: the `i`-th number of the generator started with the length `l`, cut to `m` bits, and
less `l` if it is not below `l`. -/
def partner (l m i : Nat) : Nat :=
  let t := (Nat.repeat xorshiftNext (i + 1) (BitVec.ofNat 64 l)).toNat % 2 ^ m
  if l ≤ t then t - l else t

/-- The number of bits: the least power of two above `l`. -/
theorem bitsLen_spec {l : Nat} (h : 0 < l) : 2 ^ (bitsLen l - 1) ≤ l ∧ l < 2 ^ bitsLen l ∧ 0 < bitsLen l := by
  unfold bitsLen
  rw [if_neg (by omega)]
  exact ⟨Nat.log2_self_le (by omega), Nat.lt_log2_self, by omega⟩

theorem breakOther_eq {l : Nat} (h0 : 0 < l) (hl : l < 2 ^ 63) (r : BitVec 64) :
    breakOther l r = ((let t := r.toNat % 2 ^ bitsLen l; if l ≤ t then t - l else t : Nat) : Int) := by
  obtain ⟨h1, h2, h3⟩ := bitsLen_spec h0
  have hm : bitsLen l ≤ 63 := by
    have : 2 ^ (bitsLen l - 1) < 2 ^ 63 := by omega
    have := (Nat.pow_lt_pow_iff_right (by decide : 1 < 2)).1 this
    omega
  have hp : 2 ^ bitsLen l ≤ 2 ^ 63 := Nat.pow_le_pow_right (by decide) hm
  have hpos : 0 < 2 ^ bitsLen l := Nat.two_pow_pos _
  have e : (r &&& (1#64 <<< bitsLen l - 1#64)).toNat = r.toNat % 2 ^ bitsLen l := by
    have e1 : (1#64 <<< bitsLen l).toNat = 2 ^ bitsLen l := by
      rw [BitVec.toNat_shiftLeft, Nat.shiftLeft_eq, show (1#64).toNat = 1 from rfl, Nat.one_mul, Nat.mod_eq_of_lt (by omega)]
    have e2 : (1#64 <<< bitsLen l - 1#64).toNat = 2 ^ bitsLen l - 1 := by
      rw [BitVec.toNat_sub_of_le, e1]
      · rfl
      · rw [BitVec.le_def, e1]; exact hpos
    rw [BitVec.toNat_and, e2, Nat.and_two_pow_sub_one_eq_mod]
  unfold breakOther
  dsimp only
  rw [Int.toNat_natCast, e]
  split <;> split <;> omega

theorem partner_lt {l m i : Nat} (h1 : 2 ^ (m - 1) ≤ l) (h0 : 0 < m) : partner l m i < l := by
  unfold partner
  dsimp only
  have e : 2 ^ m = 2 * 2 ^ (m - 1) := by
    obtain ⟨k, rfl⟩ : ∃ k, m = k + 1 := ⟨m - 1, by omega⟩
    rw [Nat.add_sub_cancel, Nat.pow_succ, Nat.mul_comm]
  have := Nat.mod_lt (Nat.repeat xorshiftNext (i + 1) (BitVec.ofNat 64 l)).toNat (Nat.two_pow_pos m)
  have h2 := Nat.two_pow_pos (m - 1)
  split <;> omega

theorem swapL_exchange (d : List E) (x y : Nat) : swapL d x y = exchange d (x, y) := by
  unfold swapL exchange el
  simp

/-- **C98.** `breakPatterns` on a range of `l` elements starting at `a` makes no comparisons; below 8 elements it
does nothing; from 8 it exchanges the three elements around position `2⌊l/4⌋` of the range, one after the other,
each with a partner in the range: the next numbers of the generator started with `l`, cut to the number of bits
of `l`, less `l` if too large. Elements outside the range stay. -/
theorem C98_breakPatterns (less : E → E → Bool) (d : List E) (a l : Nat) (hd : a + l ≤ d.length) (hl : l < 2 ^ 63) :
    (l < 8 → Does less (breakPatterns a (a + l : Nat)) d () d 0 0) ∧
    (8 ≤ l → ∀ q m : Nat, 4 * q ≤ l → l < 4 * q + 4 → 2 ^ (m - 1) ≤ l → l < 2 ^ m →
      (∀ i, partner l m i < l) ∧
      Does less (breakPatterns a (a + l : Nat)) d ()
        ([(a + 2 * q - 1, a + partner l m 0), (a + 2 * q, a + partner l m 1),
          (a + 2 * q + 1, a + partner l m 2)].foldl exchange d) 0 3) := by
  constructor
  · intro h
    unfold breakPatterns
    dsimp only
    rw [if_neg (by omega)]
    exact Does.pure _
  · intro h q m q1 q2 m1 m2
    obtain ⟨b1, b2, b3⟩ := bitsLen_spec (l := l) (by omega)
    have hm0 : 0 < m := by
      rcases Nat.eq_zero_or_pos m with rfl | h'
      · simp at m2; omega
      · exact h'
    have hm : m = bitsLen l := by
      have c1 := (Nat.pow_lt_pow_iff_right (by decide : 1 < 2)).1 (Nat.lt_of_le_of_lt m1 b2)
      have c2 := (Nat.pow_lt_pow_iff_right (by decide : 1 < 2)).1 (Nat.lt_of_le_of_lt b1 m2)
      omega
    have hp : ∀ i, partner l m i < l := fun i => partner_lt m1 hm0
    refine ⟨hp, ?_⟩
    have p0 := hp 0
    have p1 := hp 1
    have p2 := hp 2
    have go : ∀ (n i : Nat) (idx : Nat) (d : List E) (k : Nat) (d' : List E) , a + l ≤ d.length → idx < d.length →
        Does less (breakLoop n a l (idx + 1 : Nat) (Nat.repeat xorshiftNext (i + 1) (BitVec.ofNat 64 l)))
          (exchange d (idx, a + partner l m i)) () d' 0 k →
        Does less (breakLoop (n + 1) a l idx (Nat.repeat xorshiftNext i (BitVec.ofNat 64 l))) d () d' 0 (1 + k) := by
      intro n i idx d k d' h1 h2 h3
      have e : breakOther (l : Int) (xorshiftNext (Nat.repeat xorshiftNext i (BitVec.ofNat 64 l))) =
          (partner l m i : Nat) := by
        rw [breakOther_eq (by omega) hl, hm]
        rfl
      have hpi := hp i
      have := (does_swap (lt := less) (d := d) (i := (idx : Int)) (j := ((a + partner l m i : Nat) : Int))
        ⟨by omega, by omega⟩ ⟨by omega, by omega⟩).bind (f := fun _ => breakLoop n a l (idx + 1 : Nat)
          (Nat.repeat xorshiftNext (i + 1) (BitVec.ofNat 64 l))) (by rw [swapL_exchange]; exact h3)
      rw [breakLoop]
      rw [e]
      exact this
    unfold breakPatterns
    dsimp only
    rw [if_pos (by omega), show ((a + l : Nat) : Int) - a = l by omega,
      show (a : Int) + (l : Int) / 4 * 2 - 1 = ((a + 2 * q - 1 : Nat) : Int) by omega,
      show BitVec.ofInt 64 (l : Int) = Nat.repeat xorshiftNext 0 (BitVec.ofNat 64 l) by
        rw [BitVec.ofInt_natCast]; rfl]
    refine go 2 0 _ d 2 _ hd (by omega) ?_
    rw [show a + 2 * q - 1 + 1 = a + 2 * q by omega]
    refine go 1 1 _ _ 1 _ (by rw [length_exchange]; exact hd) (by rw [length_exchange]; omega) ?_
    refine go 0 2 _ _ 0 _ (by rw [length_exchange, length_exchange]; exact hd)
      (by rw [length_exchange, length_exchange]; omega) ?_
    exact Does.pure _

/-- Ten elements from position 3 on: the values were computed separately from the Go text. -/
example : Does (fun a b : Nat => decide (a < b)) (breakPatterns 3 13) (List.range 14) ()
    [0, 1, 2, 7, 4, 8, 3, 6, 5, 9, 10, 11, 12, 13] 0 3 ∧ partner 10 4 0 = 0 ∧ partner 10 4 1 = 0 ∧ partner 10 4 2 = 2 := by
  unfold Does; decide +kernel

end Verif.Sort
