import Verif.Rand.Lemmas

/-!
# Integers

What the integer methods return, in terms of the numbers of the source.
-/

namespace Verif.Rand

variable {S : Source}

/-! ## Arithmetic of one width -/

section
variable {k : Nat}

theorem sle_zero {n : BitVec (k + 1)} : n.sle 0 = false ↔ 0 < n.toNat ∧ n.toNat < 2 ^ k := by
  have h2 : (2 : Nat) ^ (k + 1) = 2 * 2 ^ k := by rw [Nat.pow_succ]; omega
  have := n.isLt
  have h0 : (0 : BitVec (k + 1)).toInt = 0 := BitVec.toInt_zero
  rw [BitVec.sle, decide_eq_false_iff_not, h0, BitVec.toInt_eq_toNat_cond]
  split <;> omega

theorem and_pow {n v : BitVec (k + 1)} (hn : 0 < n.toNat) (hlt : n.toNat < 2 ^ k) (h : n &&& (n - 1) = 0) :
    (v &&& (n - 1)).toNat = v.toNat % n.toNat ∧ 2 ^ k / n.toNat * n.toNat = 2 ^ k := by
  have h2 : (2 : Nat) ^ (k + 1) = 2 * 2 ^ k := by rw [Nat.pow_succ]; omega
  have hk : 0 < k := by
    rcases k with _ | k
    · simp at hlt; omega
    · omega
  have h1 : (n - 1).toNat = n.toNat - 1 := by
    have h1' : (1 : BitVec (k + 1)).toNat = 1 := by
      show (BitVec.ofNat (k + 1) 1).toNat = 1
      rw [BitVec.toNat_ofNat]
      exact Nat.mod_eq_of_lt (by have : 0 < 2 ^ k := Nat.pow_pos (by omega); omega)
    rw [BitVec.toNat_sub, h1']
    rw [show 2 ^ (k + 1) - 1 + n.toNat = (n.toNat - 1) + 2 ^ (k + 1) by omega, Nat.add_mod_right]
    exact Nat.mod_eq_of_lt (by omega)
  have h3 : n.toNat &&& (n.toNat - 1) = 0 := by
    have := congrArg BitVec.toNat h
    rw [BitVec.toNat_and, h1] at this
    simpa using this
  obtain ⟨j, hj⟩ := (Nat.and_sub_one_eq_zero_iff_isPowerOfTwo (by omega)).1 h3
  rw [BitVec.toNat_and, h1, hj]
  refine ⟨Nat.and_two_pow_sub_one_eq_mod _ _, ?_⟩
  have hjk : j ≤ k := by
    rw [hj] at hlt
    exact Nat.le_of_lt ((Nat.pow_lt_pow_iff_right (by omega)).1 hlt)
  exact Nat.div_mul_cancel (Nat.pow_dvd_pow 2 hjk)

theorem toInt_small {v : BitVec (k + 1)} (h : v.toNat < 2 ^ k) : v.toInt = v.toNat := by
  have h2 : (2 : Nat) ^ (k + 1) = 2 * 2 ^ k := by rw [Nat.pow_succ]; omega
  rw [BitVec.toInt_eq_toNat_cond, if_pos (by omega)]

theorem max_slt {n v : BitVec (k + 1)} (hn : 0 < n.toNat) (hlt : n.toNat < 2 ^ k) (hv : v.toNat < 2 ^ k) :
    (BitVec.ofNat (k + 1) (2 ^ k - 1) - BitVec.ofNat (k + 1) (2 ^ k) % n).slt v = false ↔ v.toNat < 2 ^ k / n.toNat * n.toNat := by
  have h2 : (2 : Nat) ^ (k + 1) = 2 * 2 ^ k := by rw [Nat.pow_succ]; omega
  have hmod := Nat.mod_lt (2 ^ k) hn
  have hda := Nat.div_add_mod (2 ^ k) n.toNat
  rw [Nat.mul_comm] at hda
  have e1 : (BitVec.ofNat (k + 1) (2 ^ k - 1)).toNat = 2 ^ k - 1 := by
    rw [BitVec.toNat_ofNat]; exact Nat.mod_eq_of_lt (by omega)
  have e2 : (BitVec.ofNat (k + 1) (2 ^ k) % n).toNat = 2 ^ k % n.toNat := by
    rw [BitVec.toNat_umod, BitVec.toNat_ofNat, Nat.mod_eq_of_lt (a := 2 ^ k) (by omega)]
  have e3 : (BitVec.ofNat (k + 1) (2 ^ k - 1) - BitVec.ofNat (k + 1) (2 ^ k) % n).toNat = 2 ^ k - 1 - 2 ^ k % n.toNat := by
    rw [BitVec.toNat_sub, e1, e2, show 2 ^ (k + 1) - 2 ^ k % n.toNat + (2 ^ k - 1) = (2 ^ k - 1 - 2 ^ k % n.toNat) + 2 ^ (k + 1) by omega,
      Nat.add_mod_right]
    exact Nat.mod_eq_of_lt (by omega)
  rw [BitVec.slt, decide_eq_false_iff_not, toInt_small hv, toInt_small (by rw [e3]; omega), e3]
  omega

theorem srem_small {n v : BitVec (k + 1)} (hlt : n.toNat < 2 ^ k) (hv : v.toNat < 2 ^ k) :
    (v.srem n).toNat = v.toNat % n.toNat := by
  have h2 : (2 : Nat) ^ (k + 1) = 2 * 2 ^ k := by rw [Nat.pow_succ]; omega
  have e1 : v.msb = false := by rw [BitVec.msb_eq_false_iff_two_mul_lt]; omega
  have e2 : n.msb = false := by rw [BitVec.msb_eq_false_iff_two_mul_lt]; omega
  rw [BitVec.srem_eq, e1, e2]
  exact BitVec.toNat_umod

end

/-! ## Shifted numbers -/

theorem sshift (i : Nat) (hi : 31 ≤ i) {w : Nat} (hw : w < 2 ^ 63) :
    (((BitVec.ofNat 64 w).sshiftRight i).setWidth 32 : BitVec 32) = BitVec.ofNat 32 (w / 2 ^ i) ∧
    w / 2 ^ i < 2 ^ 32 := by
  have h1 : (BitVec.ofNat 64 w).toNat = w := by rw [BitVec.toNat_ofNat]; exact Nat.mod_eq_of_lt (by omega)
  have h2 : (BitVec.ofNat 64 w).msb = false := by rw [BitVec.msb_eq_false_iff_two_mul_lt, h1]; omega
  refine ⟨BitVec.eq_of_toNat_eq ?_, ?_⟩
  · rw [BitVec.sshiftRight_eq_of_msb_false h2, BitVec.toNat_setWidth, BitVec.toNat_ushiftRight, h1, BitVec.toNat_ofNat,
      Nat.shiftRight_eq_div_pow]
  · rw [Nat.div_lt_iff_lt_mul (Nat.pow_pos (by omega))]
    have : 2 ^ 31 ≤ 2 ^ i := Nat.pow_le_pow_right (by omega) hi
    omega

/-- `Uint32` is the upper 32 of the 63 bits. -/
theorem picks_uint32 (hS : NonNeg S) : Picks (uint32 S) (fun _ => True) fun w => BitVec.ofNat 32 (w / 2 ^ 31) := by
  have h := (takes_int63 (S := S)).picks.map fun v => ((v.sshiftRight 31).setWidth 32 : BitVec 32)
  exact h.congr hS (fun _ _ => Iff.rfl) fun w hw _ => (sshift 31 (by omega) hw).1

/-- `Int31` is the upper 31 of the 63 bits. -/
theorem picks_int31 (hS : NonNeg S) : Picks (int31 S) (fun _ => True) fun w => BitVec.ofNat 32 (w / 2 ^ 32) := by
  have h := (takes_int63 (S := S)).picks.map fun v => ((v.sshiftRight 32).setWidth 32 : BitVec 32)
  exact h.congr hS (fun _ _ => Iff.rfl) fun w hw _ => (sshift 32 (by omega) hw).1

/-- `Int` is the number. -/
theorem picks_int (hS : NonNeg S) : Picks (int S) (fun _ => True) (BitVec.ofNat 64) := by
  have h := (takes_int63 (S := S)).picks.map fun v => v <<< 1 >>> 1
  refine h.congr hS (fun _ _ => Iff.rfl) fun w hw _ => BitVec.eq_of_toNat_eq ?_
  rw [BitVec.toNat_ushiftRight, BitVec.toNat_shiftLeft, BitVec.toNat_ofNat, Nat.mod_eq_of_lt (a := w) (by omega),
    Nat.shiftLeft_eq, Nat.mod_eq_of_lt (by omega), Nat.shiftRight_eq_div_pow]
  omega

/-! ## Numbers below `n` -/

/-- `Int63n` takes the first number below the greatest multiple of `n` up to 2⁶³, modulo `n`. -/
theorem picks_int63n (hS : NonNeg S) {n : BitVec 64} (hn : n.sle 0 = false) :
    Picks (int63n S n) (fun w => w < 2 ^ 63 / n.toNat * n.toNat) fun w => BitVec.ofNat 64 (w % n.toNat) := by
  obtain ⟨h0, h1⟩ := sle_zero (k := 63) |>.1 hn
  have hw : ∀ w, w < 2 ^ 63 → (BitVec.ofNat 64 w).toNat = w := fun w h => by
    rw [BitVec.toNat_ofNat]; exact Nat.mod_eq_of_lt (by omega)
  have hr : ∀ w, (BitVec.ofNat 64 (w % n.toNat)).toNat = w % n.toNat := fun w => by
    have := Nat.mod_lt w h0
    rw [BitVec.toNat_ofNat]; exact Nat.mod_eq_of_lt (by omega)
  unfold int63n
  rw [hn]
  simp only [Bool.false_eq_true, if_false]
  by_cases c : n &&& (n - 1) = 0
  · rw [if_pos c]
    refine ((takes_int63 (S := S)).picks.map fun v => v &&& (n - 1)).congr hS (fun w h => ?_) fun w h _ => BitVec.eq_of_toNat_eq ?_
    · rw [(and_pow (k := 63) (v := 0) h0 h1 c).2]
      exact ⟨fun _ => h, fun _ => trivial⟩
    · rw [(and_pow (k := 63) h0 h1 c).1, hw w h, hr]
  · rw [if_neg c]
    have h := Picks.map (draw := again S (int63 S) fun v =>
        (BitVec.ofNat 64 (2 ^ 63 - 1) - BitVec.ofNat 64 (2 ^ 63) % n).slt v) (again_ok takes_int63 _) fun v => v.srem n
    refine h.congr hS (fun w h => ?_) fun w h _ => BitVec.eq_of_toNat_eq ?_
    · rw [max_slt (k := 63) h0 h1 (by rw [hw w h]; exact h), hw w h]
    · rw [srem_small (k := 63) h1 (by rw [hw w h]; exact h), hw w h, hr]

/-- `Int31n`, with the upper 31 bits. -/
theorem picks_int31n (hS : NonNeg S) {n : BitVec 32} (hn : n.sle 0 = false) :
    Picks (int31n S n) (fun w => w / 2 ^ 32 < 2 ^ 31 / n.toNat * n.toNat) fun w => BitVec.ofNat 32 (w / 2 ^ 32 % n.toNat) := by
  obtain ⟨h0, h1⟩ := sle_zero (k := 31) |>.1 hn
  have hw : ∀ w, w < 2 ^ 63 → (BitVec.ofNat 32 (w / 2 ^ 32)).toNat = w / 2 ^ 32 ∧ w / 2 ^ 32 < 2 ^ 31 := fun w h => by
    have : w / 2 ^ 32 < 2 ^ 31 := by omega
    refine ⟨?_, this⟩
    rw [BitVec.toNat_ofNat]; exact Nat.mod_eq_of_lt (by omega)
  have hr : ∀ w, (BitVec.ofNat 32 (w / 2 ^ 32 % n.toNat)).toNat = w / 2 ^ 32 % n.toNat := fun w => by
    have := Nat.mod_lt (w / 2 ^ 32) h0
    rw [BitVec.toNat_ofNat]; exact Nat.mod_eq_of_lt (by omega)
  have hs : ∀ w, w < 2 ^ 63 → (((BitVec.ofNat 64 w).sshiftRight 32).setWidth 32 : BitVec 32) = BitVec.ofNat 32 (w / 2 ^ 32) :=
    fun w h => (sshift 32 (by omega) h).1
  have ht := (takes_int63 (S := S)).map fun v => ((v.sshiftRight 32).setWidth 32 : BitVec 32)
  unfold int31n
  rw [hn]
  simp only [Bool.false_eq_true, if_false]
  by_cases c : n &&& (n - 1) = 0
  · rw [if_pos c]
    refine (ht.picks.map fun v => v &&& (n - 1)).congr hS (fun w h => ?_) fun w h _ => BitVec.eq_of_toNat_eq ?_
    · rw [(and_pow (k := 31) (v := 0) h0 h1 c).2]
      exact ⟨fun _ => (hw w h).2, fun _ => trivial⟩
    · rw [(and_pow (k := 31) h0 h1 c).1, hs w h, (hw w h).1, hr]
  · rw [if_neg c]
    have h := Picks.map (draw := again S (int31 S) fun v =>
        (BitVec.ofNat 32 (2 ^ 31 - 1) - BitVec.ofNat 32 (2 ^ 31) % n).slt v) (again_ok ht _) fun v => v.srem n
    refine h.congr hS (fun w h => ?_) fun w h _ => BitVec.eq_of_toNat_eq ?_
    · rw [hs w h, max_slt (k := 31) h0 h1 (by rw [(hw w h).1]; exact (hw w h).2), (hw w h).1]
    · rw [hs w h, srem_small (k := 31) h1 (by rw [(hw w h).1]; exact (hw w h).2), (hw w h).1, hr]

/-- Which numbers `Intn` takes. -/
def Accepts (n w : Nat) : Prop :=
  if n < 2 ^ 31 then w / 2 ^ 32 < 2 ^ 31 / n * n else w < 2 ^ 63 / n * n

/-- What it makes of them. -/
def reduce (n w : Nat) : Nat := if n < 2 ^ 31 then w / 2 ^ 32 % n else w % n

theorem picks_intn (hS : NonNeg S) {n : BitVec 64} (hn : n.sle 0 = false) :
    Picks (intn S n) (Accepts n.toNat) fun w => BitVec.ofNat 64 (reduce n.toNat w) := by
  obtain ⟨h0, h1⟩ := sle_zero (k := 63) |>.1 hn
  have hm : n.sle (BitVec.ofNat 64 (2 ^ 31 - 1)) = decide (n.toNat < 2 ^ 31) := by
    rw [BitVec.sle, toInt_small (k := 63) h1, decide_eq_decide]
    have : (BitVec.ofNat 64 (2 ^ 31 - 1)).toInt = 2 ^ 31 - 1 := by decide
    rw [this]
    omega
  unfold intn
  rw [hn, hm]
  simp only [Bool.false_eq_true, if_false]
  by_cases c : n.toNat < 2 ^ 31
  · rw [if_pos (by simpa using c)]
    have e : (n.setWidth 32).toNat = n.toNat := by
      rw [BitVec.toNat_setWidth]; exact Nat.mod_eq_of_lt (by omega)
    have hn' : (n.setWidth 32).sle 0 = false := (sle_zero (k := 31)).2 (by rw [e]; omega)
    refine ((picks_int31n hS hn').map fun v => v.signExtend 64).congr hS (fun w h => ?_) fun w h _ => ?_
    · rw [e]; simp only [Accepts, if_pos c]
    · rw [e]
      simp only [reduce, if_pos c]
      have hlt := Nat.mod_lt (w / 2 ^ 32) h0
      have hv : (BitVec.ofNat 32 (w / 2 ^ 32 % n.toNat)).toNat = w / 2 ^ 32 % n.toNat := by
        rw [BitVec.toNat_ofNat]; exact Nat.mod_eq_of_lt (by omega)
      rw [BitVec.signExtend_eq_setWidth_of_msb_false (by rw [BitVec.msb_eq_false_iff_two_mul_lt, hv]; omega)]
      apply BitVec.eq_of_toNat_eq
      rw [BitVec.toNat_setWidth, hv, BitVec.toNat_ofNat]
  · rw [if_neg (by simpa using c)]
    refine (picks_int63n hS hn).congr hS (fun w h => ?_) fun w h _ => ?_
    · simp only [Accepts, if_neg c]
    · simp only [reduce, if_neg c]

theorem reduce_lt {n : Nat} (h : 0 < n) (w : Nat) : reduce n w < n := by
  unfold reduce
  split <;> exact Nat.mod_lt _ h

end Verif.Rand
