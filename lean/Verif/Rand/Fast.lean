import Verif.Rand.Ints

/-!
# The faster method of `Shuffle`, and how often each result occurs
-/

namespace Verif.Rand

variable {S : Source}

/-- Which numbers the faster method takes. -/
def FastAccepts (n w : Nat) : Prop := 2 ^ 32 % n ≤ w / 2 ^ 31 * n % 2 ^ 32

/-- What it makes of them. -/
def fastReduce (n w : Nat) : Nat := w / 2 ^ 31 * n / 2 ^ 32

/-- The product. -/
def fastProd (n w : Nat) : BitVec 64 := BitVec.ofNat 64 (w / 2 ^ 31 * n)

theorem fast_lt {n w : Nat} (hn : n < 2 ^ 31) (hw : w < 2 ^ 63) : w / 2 ^ 31 * n < 2 ^ 64 := by
  have h1 : w / 2 ^ 31 ≤ 2 ^ 32 := by omega
  have h2 := Nat.mul_le_mul h1 (Nat.le_of_lt hn)
  omega

theorem takes_prod (hS : NonNeg S) {n : BitVec 32} (hn : n.toNat < 2 ^ 31) : Takes (prodOf S n) (fastProd n.toNat) := by
  have h := (((takes_int63 (S := S)).map fun v => ((v.sshiftRight 31).setWidth 32 : BitVec 32))).map
    fun v => (v.setWidth 64 * n.signExtend 64 : BitVec 64)
  intro q
  have hq := h q
  unfold prodOf uint32
  rw [hq]
  cases e : S.int63 q with
  | error m => rfl
  | ok vq =>
    obtain ⟨v, q'⟩ := vq
    simp only
    have hv := hS _ _ _ e
    obtain ⟨e1, e2⟩ := sshift 31 (by omega) hv
    have e3 : (BitVec.ofNat 32 (v.toNat / 2 ^ 31)).setWidth 64 * n.signExtend 64 = fastProd n.toNat v.toNat := by
      have := fast_lt hn hv
      rw [BitVec.signExtend_eq_setWidth_of_msb_false (by rw [BitVec.msb_eq_false_iff_two_mul_lt]; omega)]
      apply BitVec.eq_of_toNat_eq
      rw [fastProd, BitVec.toNat_mul, BitVec.toNat_setWidth, BitVec.toNat_setWidth, BitVec.toNat_ofNat, BitVec.toNat_ofNat,
        Nat.mod_eq_of_lt e2, Nat.mod_eq_of_lt (a := v.toNat / 2 ^ 31) (by omega), Nat.mod_eq_of_lt (a := n.toNat) (by omega)]
    rw [e1, e3]

theorem low_lt {n : BitVec 32} (h0 : 0 < n.toNat) (hn : n.toNat < 2 ^ 31) {w : Nat} (hw : w < 2 ^ 63) :
    (((fastProd n.toNat w).setWidth 32 : BitVec 32) < (-n) % n ↔ ¬ FastAccepts n.toNat w) ∧
    (((fastProd n.toNat w).setWidth 32 : BitVec 32) < (-n) % n → ((fastProd n.toNat w).setWidth 32 : BitVec 32) < n) := by
  have h1 := fast_lt hn hw
  have e1 : ((fastProd n.toNat w).setWidth 32 : BitVec 32).toNat = w / 2 ^ 31 * n.toNat % 2 ^ 32 := by
    rw [fastProd, BitVec.toNat_setWidth, BitVec.toNat_ofNat, Nat.mod_eq_of_lt h1]
  have e2 : ((-n) % n).toNat = 2 ^ 32 % n.toNat := by
    rw [BitVec.toNat_umod, BitVec.toNat_neg, Nat.mod_eq_of_lt (a := 2 ^ 32 - n.toNat) (by omega),
      show 2 ^ 32 % n.toNat = (2 ^ 32 - n.toNat + n.toNat) % n.toNat by rw [show 2 ^ 32 - n.toNat + n.toNat = 2 ^ 32 by omega],
      Nat.add_mod_right]
  have h2 := Nat.mod_lt (2 ^ 32) h0
  rw [BitVec.lt_def, BitVec.lt_def, e1, e2, FastAccepts]
  omega

theorem picks_fast (hS : NonNeg S) {n : BitVec 32} (hn : n.sle 0 = false) :
    Picks (int31nFast S n) (FastAccepts n.toNat) fun w => BitVec.ofNat 32 (fastReduce n.toNat w) := by
  obtain ⟨h0, h1⟩ := sle_zero (k := 31) |>.1 hn
  have hres : ∀ w, w < 2 ^ 63 → ((fastProd n.toNat w >>> 32).setWidth 32 : BitVec 32) = BitVec.ofNat 32 (fastReduce n.toNat w) := by
    intro w hw
    have := fast_lt h1 hw
    apply BitVec.eq_of_toNat_eq
    rw [fastProd, fastReduce, BitVec.toNat_setWidth, BitVec.toNat_ushiftRight, BitVec.toNat_ofNat, BitVec.toNat_ofNat,
      Nat.mod_eq_of_lt this, Nat.shiftRight_eq_div_pow]
  have ht := takes_prod hS h1
  -- the whole is drawing until the lower half is large enough
  have key : Picks (int31nFast S n) (fun w => decide (((fastProd n.toNat w).setWidth 32 : BitVec 32) < (-n) % n) = false)
      fun w => (fastProd n.toNat w >>> 32).setWidth 32 := by
    have ha := again_ok ht fun prod : BitVec 64 => decide ((prod.setWidth 32 : BitVec 32) < (-n) % n)
    intro q r q'
    unfold int31nFast
    rw [bind_ok]
    rw [ht q]
    cases e : S.int63 q with
    | error m =>
      simp only
      constructor
      · rintro ⟨x, q1, h, -⟩; injection h with h; cases h
      · rintro ⟨w, hw, -⟩
        cases hw with
        | here _ _ v h1 h2 => rw [e] at h1; cases h1
        | later _ _ _ v _ h1 h2 h3 => rw [e] at h1; cases h1
    | ok vq =>
      obtain ⟨v, q1⟩ := vq
      have hl := low_lt h0 h1 (hS _ _ _ e)
      simp only
      by_cases c : ((fastProd n.toNat v.toNat).setWidth 32 : BitVec 32) < (-n) % n
      · constructor
        · rintro ⟨x, q2, h, h'⟩
          injection h with h
          cases h
          rw [if_pos (hl.2 c), if_pos c] at h'
          obtain ⟨y, q3, h3, h4⟩ := bind_ok.1 h'
          obtain ⟨w, hw, rfl⟩ := (ha _ _ _).1 h3
          obtain ⟨rfl, rfl⟩ := pure_ok.1 h4
          exact ⟨w, .later _ _ _ _ _ e (by simpa using c) hw, rfl⟩
        · rintro ⟨w, hw, rfl⟩
          refine ⟨_, _, rfl, ?_⟩
          rw [if_pos (hl.2 c), if_pos c]
          cases hw with
          | here _ _ v' h1' h2' => rw [e] at h1'; cases h1'; simp [c] at h2'
          | later _ _ _ v' _ h1' h2' h3' =>
            rw [e] at h1'
            cases h1'
            exact bind_ok.2 ⟨_, _, (ha _ _ _).2 ⟨w, h3', rfl⟩, pure_ok.2 ⟨rfl, rfl⟩⟩
      · constructor
        · rintro ⟨x, q2, h, h'⟩
          injection h with h
          cases h
          have h' : (pure ((fastProd n.toNat v.toNat >>> 32).setWidth 32) : Draw S (BitVec 32)) q1 = some (.ok (r, q')) := by
            by_cases c2 : ((fastProd n.toNat v.toNat).setWidth 32 : BitVec 32) < n
            · rw [if_pos c2, if_neg c] at h'; exact h'
            · rw [if_neg c2] at h'; exact h'
          obtain ⟨rfl, rfl⟩ := pure_ok.1 h'
          exact ⟨_, .here _ _ _ e (by simpa using c), rfl⟩
        · rintro ⟨w, hw, rfl⟩
          cases hw with
          | here _ _ v' h1' h2' =>
            rw [e] at h1'
            cases h1'
            refine ⟨_, _, rfl, ?_⟩
            by_cases c2 : ((fastProd n.toNat v.toNat).setWidth 32 : BitVec 32) < n
            · rw [if_pos c2, if_neg c]; exact pure_ok.2 ⟨rfl, rfl⟩
            · rw [if_neg c2]; exact pure_ok.2 ⟨rfl, rfl⟩
          | later _ _ _ v' _ h1' h2' h3' => rw [e] at h1'; cases h1'; simp [c] at h2'
  refine key.congr hS (fun w h => ?_) fun w h _ => hres w h
  rw [decide_eq_false_iff_not, (low_lt h0 h1 h).1]
  exact Classical.not_not

theorem fastReduce_lt {n w : Nat} (h0 : 0 < n) (hw : w < 2 ^ 63) : fastReduce n w < n := by
  unfold fastReduce
  rw [Nat.div_lt_iff_lt_mul (by omega), Nat.mul_comm n]
  exact (Nat.mul_lt_mul_right h0).2 (by omega)

/-! ## How often each result occurs -/

/-- Of the numbers below `m`, how many have `p`. -/
def count (m : Nat) (p : Nat → Bool) : Nat := (List.range m).countP p

theorem count_succ (m : Nat) (p : Nat → Bool) : count (m + 1) p = count m p + if p m then 1 else 0 := by
  rw [count, List.range_succ, List.countP_append]
  by_cases h : p m = true <;> simp [count, h]

theorem count_add (m k : Nat) (p : Nat → Bool) : count (m + k) p = count m p + count k fun i => p (m + i) := by
  induction k with
  | zero => simp [count]
  | succ k ih => rw [← Nat.add_assoc, count_succ, ih, count_succ]; omega

theorem count_congr {m : Nat} {p p' : Nat → Bool} (h : ∀ i, i < m → p i = p' i) : count m p = count m p' := by
  induction m with
  | zero => rfl
  | succ m ih => rw [count_succ, count_succ, ih fun i hi => h i (by omega), h m (by omega)]

theorem count_const (m : Nat) (b : Bool) : count m (fun _ => b) = if b then m else 0 := by
  induction m with
  | zero => cases b <;> rfl
  | succ m ih => rw [count_succ, ih]; cases b <;> simp

/-- The numbers from `a` to `a + c - 1`. -/
theorem count_interval {m a c : Nat} (h : a + c ≤ m) : count m (fun i => decide (a ≤ i ∧ i < a + c)) = c := by
  obtain ⟨d, rfl⟩ : ∃ d, m = a + (c + d) := ⟨m - (a + c), by omega⟩
  rw [count_add, count_add]
  have e1 : count a (fun i => decide (a ≤ i ∧ i < a + c)) = count a fun _ => false :=
    count_congr fun i hi => decide_eq_false (by omega)
  have e2 : count c (fun i => decide (a ≤ a + i ∧ a + i < a + c)) = count c fun _ => true :=
    count_congr fun i hi => decide_eq_true (by omega)
  have e3 : count d (fun i => decide (a ≤ a + (c + i) ∧ a + (c + i) < a + c)) = count d fun _ => false :=
    count_congr fun i hi => decide_eq_false (by omega)
  rw [e1, e2, e3, count_const, count_const, count_const]
  simp

/-- Every residue occurs once in `n` numbers. -/
theorem count_mod (n k : Nat) (hk : k < n) : ∀ c, count (c * n) (fun i => decide (i % n = k)) = c
  | 0 => by simp [count]
  | c + 1 => by
    rw [Nat.succ_mul, count_add, count_mod n k hk c]
    have : count n (fun i => decide ((c * n + i) % n = k)) = count n fun i => decide (k ≤ i ∧ i < k + 1) :=
      count_congr fun i hi => by
        rw [Nat.mul_comm, Nat.mul_add_mod, Nat.mod_eq_of_lt hi]
        exact decide_eq_decide.2 (by omega)
    rw [this, count_interval (by omega)]

/-- Every number occurs `b` times as a quotient by `b`. -/
theorem count_div (b : Nat) (hb : 0 < b) (p : Nat → Bool) : ∀ a, count (a * b) (fun i => p (i / b)) = count a p * b
  | 0 => by simp [count]
  | a + 1 => by
    rw [Nat.succ_mul, count_add, count_div b hb p a, count_succ]
    have : count b (fun i => p ((a * b + i) / b)) = count b fun _ => p a :=
      count_congr fun i hi => by rw [Nat.mul_comm, Nat.mul_add_div hb, Nat.div_eq_of_lt hi, Nat.add_zero]
    rw [this, count_const]
    cases p a <;> simp [Nat.add_mul]

theorem count_mod_below {m n k : Nat} (hk : k < n) : count m (fun i => decide (i < m / n * n ∧ i % n = k)) = m / n := by
  have hle := Nat.div_mul_le_self m n
  have e : m = m / n * n + (m - m / n * n) := by omega
  have e1 : count (m / n * n) (fun i => decide (i < m / n * n ∧ i % n = k)) = count (m / n * n) fun i => decide (i % n = k) :=
    count_congr fun i hi => decide_eq_decide.2 ⟨fun h => h.2, fun h => ⟨hi, h⟩⟩
  have e2 : count (m - m / n * n) (fun i => decide (m / n * n + i < m / n * n ∧ (m / n * n + i) % n = k)) =
      count (m - m / n * n) fun _ => false := count_congr fun i hi => decide_eq_false (by omega)
  have := count_add (m / n * n) (m - m / n * n) fun i => decide (i < m / n * n ∧ i % n = k)
  rw [← e, e1, e2, count_mod n k hk, count_const] at this
  simpa using this

/-- Multiples of `n` in an interval whose length is a multiple. -/
theorem count_mul {m n k : Nat} (h0 : 0 < n) (hk : k < n) :
    count m (fun u => decide (m % n ≤ u * n % m ∧ u * n / m = k)) = m / n := by
  rcases Nat.eq_zero_or_pos m with rfl | hm
  · simp [count]
  have hda : m / n * n + m % n = m := by rw [Nat.mul_comm]; exact Nat.div_add_mod m n
  -- the first such number
  have hu : ∃ u0, (∀ u, k * m + m % n ≤ u * n ↔ u0 ≤ u) := by
    refine ⟨(k * m + m % n + n - 1) / n, fun u => ?_⟩
    rw [Nat.div_le_iff_le_mul_add_pred h0, Nat.mul_comm u n]
    omega
  obtain ⟨u0, hu⟩ := hu
  have hcond : ∀ u, (m % n ≤ u * n % m ∧ u * n / m = k) ↔ (u0 ≤ u ∧ u < u0 + m / n) := by
    intro u
    have h2 : u < u0 + m / n ↔ u * n < k * m + m := by
      have h3 := hu (u - m / n)
      by_cases c : m / n ≤ u
      · have e : (u - m / n) * n = u * n - m / n * n := Nat.sub_mul _ _ _
        have e' : m / n * n ≤ u * n := Nat.mul_le_mul_right n c
        rw [e] at h3
        omega
      · have h4 : u * n < m / n * n := (Nat.mul_lt_mul_right h0).2 (by omega)
        omega
    rw [h2, ← hu u]
    have h5 := Nat.div_add_mod (u * n) m
    have h6 := Nat.mod_lt (u * n) hm
    constructor
    · rintro ⟨h7, rfl⟩
      rw [Nat.mul_comm] at h5
      omega
    · rintro ⟨h7, h8⟩
      have h9 : u * n / m = k := by
        rw [Nat.div_eq_iff hm]
        omega
      rw [h9, Nat.mul_comm] at h5
      exact ⟨by omega, h9⟩
  rw [count_congr (p' := fun u => decide (u0 ≤ u ∧ u < u0 + m / n)) fun u _ => decide_eq_decide.2 (hcond u)]
  by_cases c : m / n = 0
  · rw [c]
    rw [count_congr (p' := fun _ => false) fun u _ => decide_eq_false (by omega), count_const]
    rfl
  · refine count_interval ?_
    have h7 := (hcond (u0 + m / n - 1)).2 (by revert c; generalize m / n = c'; omega)
    have h8 : (u0 + m / n - 1) * n < m * n := by
      have h9 := Nat.div_add_mod ((u0 + m / n - 1) * n) m
      have h10 := Nat.mod_lt ((u0 + m / n - 1) * n) hm
      rw [h7.2] at h9
      have h11 : m * (k + 1) ≤ m * n := Nat.mul_le_mul_left m hk
      rw [Nat.mul_add, Nat.mul_one] at h11
      omega
    have := Nat.lt_of_mul_lt_mul_right h8
    revert this c
    generalize m / n = c'
    omega

end Verif.Rand
