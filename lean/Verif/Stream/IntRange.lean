import Verif.Stream.Sources

/-! # Integer ranges: machine integers against exact integers -/

namespace Verif.Stream

/-- The integer that a machine integer of width `w` stands for. -/
def val {w : Nat} (signed : Bool) (x : BitVec w) : Int := if signed then x.toInt else x.toNat

/-- The integers a type can represent. -/
def Repr (w : Nat) (signed : Bool) (v : Int) : Prop :=
  if signed then -(2 ^ w : Nat) ≤ 2 * v ∧ 2 * v < (2 ^ w : Nat) else 0 ≤ v ∧ v < (2 ^ w : Nat)

variable {w : Nat} {signed : Bool}

theorem val_repr (x : BitVec w) : Repr w signed (val signed x) := by
  unfold Repr val
  cases signed with
  | true =>
    simp only [if_true]
    rw [BitVec.toInt_eq_toNat_bmod]
    have hp : 0 < 2 ^ w := Nat.two_pow_pos w
    have := @Int.le_bmod x.toNat (2 ^ w) hp
    have := @Int.bmod_lt x.toNat (2 ^ w) hp
    omega
  | false => simp; exact_mod_cast x.isLt

theorem ofInt_val (x : BitVec w) : BitVec.ofInt w (val signed x) = x := by
  unfold val
  cases signed with
  | true => simp
  | false => simp

theorem val_ofInt {v : Int} (h : Repr w signed v) : val signed (BitVec.ofInt w v) = v := by
  unfold Repr at h
  unfold val
  have hp : 0 < 2 ^ w := Nat.two_pow_pos w
  cases signed with
  | true =>
    simp only [if_true] at *
    rw [BitVec.toInt_ofInt]
    exact Int.bmod_eq_of_le (by omega) (by omega)
  | false =>
    simp only [Bool.false_eq_true, if_false] at *
    rw [BitVec.toNat_ofInt]
    rw [Int.emod_eq_of_lt h.1 h.2]
    omega

theorem val_inj {x y : BitVec w} (h : val signed x = val signed y) : x = y := by
  rw [← ofInt_val (signed := signed) x, h, ofInt_val]

theorem ltInt_val (x y : BitVec w) : ltInt signed x y = decide (val signed x < val signed y) := by
  unfold ltInt val
  cases signed with
  | true => simp [BitVec.slt_eq_decide]
  | false => simp [BitVec.ult_eq_decide]

theorem val_zero : val signed (0#w) = 0 := by unfold val; cases signed <;> simp

/-- `cur + T(n) * step` computes `val cur + n * val step` modulo `2^w`. -/
theorem add_mul_ofInt (x step : BitVec w) (n : Int) :
    x + BitVec.ofInt w n * step = BitVec.ofInt w (val signed x + n * val signed step) := by
  rw [BitVec.ofInt_add, BitVec.ofInt_mul, ofInt_val, ofInt_val]

/-- The integer is past the end of the range. -/
def past (last step v : Int) : Prop := (0 < step ∧ last < v) ∨ (step < 0 ∧ v < last)

instance (last step v : Int) : Decidable (past last step v) := by unfold past; infer_instance

theorem int_next (E : Type) (last step cur : BitVec w) :
    (intSource E signed last step false).next cur =
      if past (val signed last) (val signed step) (val signed cur) then some (.ok ⟨none, cur, []⟩)
      else some (.ok ⟨some cur, cur + step, []⟩) := by
  simp only [intSource, ltInt_val, val_zero, past]
  simp

/-- `m` is the number of terms of `start, start + step, …` that are not past `last`, provided the first term
that is past it comes right after them. -/
structure Terms (start last step : Int) (m : Nat) : Prop where
  before : ∀ i : Nat, i < m → ¬ past last step (start + i * step)
  after : past last step (start + m * step)

theorem past_mono {last step v : Int} {i j : Nat} (hij : i ≤ j) (h : past last step (v + i * step)) :
    past last step (v + j * step) := by
  unfold past at *
  obtain ⟨k, rfl⟩ := Nat.le.dest hij
  have e : v + ((i + k : Nat) : Int) * step = v + i * step + k * step := by
    rw [Int.natCast_add, Int.add_mul]; omega
  rw [e]
  have hk : (0 : Int) ≤ k := Int.natCast_nonneg k
  rcases h with h | h
  · left; have := Int.mul_nonneg hk (Int.le_of_lt h.1); omega
  · right; have := Int.mul_nonneg hk (show (0:Int) ≤ -step by omega)
    rw [Int.mul_neg] at this; omega

/-- What is between two representable terms is representable. -/
theorem repr_between {v step : Int} {i j : Nat} (hij : i ≤ j) (h0 : Repr w signed v)
    (hj : Repr w signed (v + j * step)) : Repr w signed (v + i * step) := by
  obtain ⟨k, rfl⟩ := Nat.le.dest hij
  have e : v + ((i + k : Nat) : Int) * step = v + i * step + k * step := by
    rw [Int.natCast_add, Int.add_mul]; omega
  rw [e] at hj
  have hi : (0 : Int) ≤ i := Int.natCast_nonneg i
  have hk : (0 : Int) ≤ k := Int.natCast_nonneg k
  unfold Repr at *
  rcases Int.le_total 0 step with h | h
  · have := Int.mul_nonneg hk h
    have := Int.mul_nonneg hi h
    cases signed
    · simp only [Bool.false_eq_true, if_false] at *; omega
    · simp only [if_true] at *; omega
  · have h1 := Int.mul_nonneg hk (show (0:Int) ≤ -step by omega)
    have h2 := Int.mul_nonneg hi (show (0:Int) ≤ -step by omega)
    rw [Int.mul_neg] at h1 h2
    cases signed
    · simp only [Bool.false_eq_true, if_false] at *; omega
    · simp only [if_true] at *; omega

/-- The first `m` terms as machine integers. -/
def terms (w : Nat) (start step : Int) (m : Nat) : List (BitVec w) :=
  (List.range m).map fun (i : Nat) => BitVec.ofInt w (start + (i : Int) * step)

theorem terms_drop (w : Nat) (start step : Int) (m n : Nat) :
    (terms w start step m).drop n = terms w (start + n * step) step (m - n) := by
  apply List.ext_getElem?
  intro i
  simp only [terms, List.getElem?_drop, List.getElem?_map]
  by_cases h : n + i < m
  · rw [List.getElem?_range h, List.getElem?_range (show i < m - n by omega)]
    simp only [Option.map_some]
    congr 2
    rw [Int.natCast_add, Int.add_mul]; omega
  · rw [List.getElem?_eq_none (by simp; omega), List.getElem?_eq_none (by simp; omega)]; rfl

theorem range_behaves (E : Type) {last step : BitVec w} (cur : BitVec w) (m b : Nat)
    (hm : Terms (val signed cur) (val signed last) (val signed step) m)
    (hr : Repr w signed (val signed cur + ((m + b : Nat) : Int) * val signed step)) :
    Behaves (intSource E signed last step false) b
      (seqOf (terms w (val signed cur) (val signed step) m)) cur := by
  refine ⟨fun b a cur => ∃ m, Terms (val signed cur) (val signed last) (val signed step) m ∧
    Repr w signed (val signed cur + ((m + b : Nat) : Int) * val signed step) ∧
    a = seqOf (terms w (val signed cur) (val signed step) m), ?_, m, hm, hr, rfl⟩
  -- moving by `n` representable steps
  have move : ∀ {b n m : Nat} {cur : BitVec w}, n ≤ m + b →
      Repr w signed (val signed cur + ((m + b : Nat) : Int) * val signed step) →
      val signed (cur + BitVec.ofInt w n * step) = val signed cur + n * val signed step := by
    intro b n m cur hn hr
    rw [add_mul_ofInt (signed := signed), val_ofInt]
    exact repr_between hn (val_repr cur) hr
  refine ⟨?_, ?_, ?_⟩
  · rintro b a (cur : BitVec w) x ⟨m, hm, hr, rfl⟩ hx
    cases m with
    | zero => cases hx
    | succ m =>
      have hx' : BitVec.ofInt w (val signed cur + (0 : Nat) * val signed step) = x := by
        simpa [seqOf, terms] using hx
      have hcur : cur = x := by
        rw [← hx']
        rw [show val signed cur + ((0 : Nat) : Int) * val signed step = val signed cur by
          rw [Int.natCast_zero, Int.zero_mul, Int.add_zero]]
        exact (ofInt_val cur).symm
      have hnp : ¬ past (val signed last) (val signed step) (val signed cur) := by
        have := hm.before 0 (by omega)
        rwa [Int.natCast_zero, Int.zero_mul, Int.add_zero] at this
      have hv : val signed (cur + step) = val signed cur + val signed step := by
        have := move (n := 1) (cur := cur) (m := m + 1) (b := b) (by omega) hr
        rw [Int.natCast_one, Int.one_mul] at this
        rwa [show cur + BitVec.ofInt w 1 * step = cur + step by
          rw [add_mul_ofInt (signed := signed), Int.one_mul, BitVec.ofInt_add, ofInt_val, ofInt_val]]
          at this
      have sh : ∀ k : Nat, val signed (cur + step) + k * val signed step =
          val signed cur + ((k + 1 : Nat) : Int) * val signed step := by
        intro k; rw [hv, Int.natCast_add, Int.add_mul, Int.natCast_one, Int.one_mul]; omega
      refine ⟨cur + step, [], ?_, m, ⟨?_, ?_⟩, ?_, ?_⟩
      · rw [int_next, if_neg hnp, hcur]
      · intro i hi; rw [sh]; exact hm.before _ (by omega)
      · rw [sh]; exact hm.after
      · rw [sh, show m + b + 1 = m + 1 + b by omega]; exact hr
      · rw [seqOf_drop, terms_drop, hv, Int.natCast_one, Int.one_mul]; rfl
  · rintro b a (cur : BitVec w) ⟨m, hm, hr, rfl⟩ hx
    cases m with
    | succ m => simp [seqOf, terms] at hx
    | zero =>
      refine ⟨fun i => by simp [seqOf, terms], cur, [], ?_⟩
      have := hm.after
      rw [Int.natCast_zero, Int.zero_mul, Int.add_zero] at this
      rw [int_next, if_pos this]
  · rintro b a (cur : BitVec w) n ⟨m, hm, hr, rfl⟩ hn
    have hv := move (n := n) (by omega) hr
    have sh : ∀ k : Nat, val signed (cur + BitVec.ofInt w n * step) + k * val signed step =
        val signed cur + ((n + k : Nat) : Int) * val signed step := by
      intro k; rw [hv, Int.natCast_add, Int.add_mul]; omega
    refine ⟨-1, cur + BitVec.ofInt w n * step, rfl, m - n, ⟨?_, ?_⟩, ?_, ?_⟩
    · intro i hi; rw [sh]; exact hm.before _ (by omega)
    · rw [sh]; exact past_mono (by omega) hm.after
    · rw [sh]; exact repr_between (by omega) (val_repr cur) hr
    · rw [seqOf_drop, terms_drop, hv]

/-- The values of an unbounded integer sequence. -/
def intSeq (cur step : BitVec w) : Seq (BitVec w) := fun i => some (cur + BitVec.ofNat w i * step)

theorem sequence_behaves (E : Type) (signed : Bool) (last step cur : BitVec w) (b : Nat) :
    Behaves (intSource E signed last step true) b (intSeq cur step) cur := by
  refine ⟨fun _ a cur => a = intSeq cur step, ?_, rfl⟩
  have sh : ∀ (cur : BitVec w) (n : Nat), (intSeq cur step).drop n =
      intSeq (cur + BitVec.ofNat w n * step) step := by
    intro cur n
    funext i
    show some _ = some _
    congr 1
    rw [BitVec.ofNat_add, BitVec.add_mul, BitVec.add_assoc, BitVec.add_comm (BitVec.ofNat w i * step)]
  refine ⟨?_, ?_, ?_⟩
  · rintro c a (cur : BitVec w) x rfl hx
    have hx' : cur = x := by simpa [intSeq] using hx
    refine ⟨cur + step, [], by simp [intSource, hx'], ?_⟩
    rw [sh, BitVec.one_mul]
  · rintro c a (cur : BitVec w) rfl hx; cases hx
  · rintro c a (cur : BitVec w) n rfl hn
    refine ⟨_, _, rfl, ?_⟩
    rw [sh, BitVec.ofInt_natCast]

end Verif.Stream
