import Verif.Stream.Props
import Verif.Stream.SkipLemmas

/-! # Properties of sources: C47, C48, C49 -/

namespace Verif.Stream

variable {T E : Type} {S : Source T E}

/-! ## C47: ranges -/

section
variable {w : Nat} {signed : Bool}

/-- Every progression with a step other than zero passes every end. -/
theorem terms_exist (start last step : Int) (h : step ≠ 0) : ∃ m, Terms start last step m := by
  have ex : ∃ m : Nat, past last step (start + m * step) := by
    refine ⟨(last - start).natAbs + 1, ?_⟩
    have hk : ((last - start).natAbs : Int) ≥ last - start ∧
        ((last - start).natAbs : Int) ≥ -(last - start) := by omega
    generalize (last - start).natAbs = k at *
    have hk0 : (0 : Int) ≤ (k + 1 : Nat) := Int.natCast_nonneg _
    unfold past
    rcases Int.lt_or_gt_of_ne h with hs | hs
    · right
      refine ⟨hs, ?_⟩
      have := Int.mul_le_mul_of_nonneg_left (show step ≤ -1 by omega) hk0
      omega
    · left
      refine ⟨hs, ?_⟩
      have := Int.mul_le_mul_of_nonneg_left (show 1 ≤ step by omega) hk0
      omega
  obtain ⟨m, hm⟩ := ex
  induction m with
  | zero => exact ⟨0, fun i hi => by omega, hm⟩
  | succ m ih =>
    by_cases h' : past last step (start + m * step)
    · exact ih h'
    · exact ⟨m + 1, fun i hi hp => h' (past_mono (by omega) hp), hm⟩

/-- The number of terms is determined. -/
theorem terms_unique {start last step : Int} {m m' : Nat} (h : Terms start last step m)
    (h' : Terms start last step m') : m = m' := by
  rcases Nat.lt_trichotomy m m' with hl | hl | hl
  · exact (h'.before m hl h.after).elim
  · exact hl
  · exact (h.before m' hl h'.after).elim

/-- The terms that are not past the end can be represented. -/
theorem terms_repr {start last step : BitVec w} {m : Nat}
    (h : Terms (val signed start) (val signed last) (val signed step) m) {i : Nat} (hi : i < m) :
    Repr w signed (val signed start + i * val signed step) := by
  have hp := h.before i hi
  have h1 := val_repr (signed := signed) start
  have h2 := val_repr (signed := signed) last
  have hi0 : (0 : Int) ≤ i := Int.natCast_nonneg i
  unfold past at hp
  have hst : val signed step ≠ 0 := by
    intro h0
    have := h.after
    unfold past at this
    omega
  unfold Repr at *
  rcases Int.lt_or_gt_of_ne hst with hs | hs
  · have := Int.mul_nonneg hi0 (show 0 ≤ - val signed step by omega)
    rw [Int.mul_neg] at this
    cases signed
    · simp only [Bool.false_eq_true, if_false] at *; omega
    · simp only [if_true] at *; omega
  · have := Int.mul_nonneg hi0 (show 0 ≤ val signed step by omega)
    cases signed
    · simp only [Bool.false_eq_true, if_false] at *; omega
    · simp only [if_true] at *; omega

/-- The exact values of the terms. -/
theorem terms_val {start last step : BitVec w} {m : Nat}
    (h : Terms (val signed start) (val signed last) (val signed step) m) :
    (terms w (val signed start) (val signed step) m).map (val signed) =
      (List.range m).map fun i : Nat => val signed start + i * val signed step := by
  unfold terms
  rw [List.map_map]
  apply List.map_congr_left
  intro i hi
  exact val_ofInt (terms_repr h (List.mem_range.1 hi))

/-- C47 (partial): if the first term past `end` can be represented in the type, `Range(start, end, step)`
yields exactly `start, start + step, …` while not past `end`, then stops.

Missing: if it cannot be represented, the range does not stop there (`range_runs_on`, `range_endless`). -/
theorem range_partial (E : Type) (start last step : BitVec w) (h0 : step ≠ 0#w) {m : Nat}
    (hm : Terms (val signed start) (val signed last) (val signed step) m)
    (hr : Repr w signed (val signed start + m * val signed step)) :
    ∃ s xs s' l, range E signed start last step = .ok s ∧ s.slice = some (.ok ⟨xs, s', l⟩) ∧
      xs.map (val signed) = (List.range m).map fun i : Nat => val signed start + i * val signed step := by
  have hb := range_behaves E start m 0 hm hr
  obtain ⟨s', l, hs⟩ := slice_lists (Built.new hb).yields.lists
  exact ⟨_, _, s', l, by unfold range; rw [if_neg h0], hs, terms_val hm⟩

/-- `Range[int8](-3, 4, 2)` is `-3, -1, 1, 3`; `Range[int8](3, -4, -3)` is `3, 0, -3`. -/
example : Terms (val true (-3#8)) (val true (4#8)) (val true (2#8)) 4 ∧
    Repr 8 true (val true (-3#8) + (4 : Nat) * val true (2#8)) :=
  ⟨⟨by decide, by decide⟩, by unfold Repr; decide⟩

example : Terms (val true (3#8)) (val true (-4#8)) (val true (-3#8)) 3 ∧
    Repr 8 true (val true (3#8) + (3 : Nat) * val true (-3#8)) :=
  ⟨⟨by decide, by decide⟩, by unfold Repr; decide⟩

/-- Reading a range as long as the machine values are not past the end. -/
theorem reads_run (E : Type) (last step : BitVec w) (k : Nat) : ∀ cur : BitVec w,
    (∀ i : Nat, i < k → ¬ past (val signed last) (val signed step)
      (val signed (cur + BitVec.ofNat w i * step))) →
    reads (intSource E signed last step false) k cur =
      some (.ok ((List.range k).map fun i => cur + BitVec.ofNat w i * step)) := by
  induction k with
  | zero => intros; rfl
  | succ k ih =>
    intro cur h
    have h0 := h 0 (by omega)
    have hz : cur + BitVec.ofNat w 0 * step = cur := by simp
    rw [hz] at h0
    have sh : ∀ i : Nat, cur + step + BitVec.ofNat w i * step = cur + BitVec.ofNat w (i + 1) * step := by
      intro i
      rw [BitVec.ofNat_add, BitVec.add_mul, BitVec.one_mul, BitVec.add_assoc, BitVec.add_comm step]
    have hn : (intSource E signed last step false).next cur = some (.ok ⟨some cur, cur + step, []⟩) := by
      rw [int_next, if_neg h0]
    refine (reads_succ _ k _).trans ?_
    rw [hn]
    dsimp only
    have ih := ih (cur + step) (by intro i hi; rw [sh]; exact h (i + 1) (by omega))
    rw [show reads (intSource E signed last step false) k (cur + step) = _ from ih]
    dsimp only
    rw [List.range_succ_eq_map, List.map_cons, List.map_map, hz]
    congr 3
    exact List.map_congr_left fun i _ => sh i

/-- If the first term past `end` cannot be represented, the value computed in its place is not past `end`. -/
theorem wrapped_not_past {start last step : BitVec w} {m : Nat}
    (hm : Terms (val signed start) (val signed last) (val signed step) m)
    (hr : ¬ Repr w signed (val signed start + m * val signed step)) :
    ∀ i : Nat, i < m + 1 → ¬ past (val signed last) (val signed step)
      (val signed (start + BitVec.ofNat w i * step)) := by
  have conv : ∀ i : Nat, start + BitVec.ofNat w i * step =
      BitVec.ofInt w (val signed start + i * val signed step) := by
    intro i
    rw [← add_mul_ofInt, BitVec.ofInt_natCast]
  have hstart := val_repr (signed := signed) start
  have hstep := val_repr (signed := signed) step
  have hm0 : m ≠ 0 := by
    intro h; subst h
    rw [Int.natCast_zero, Int.zero_mul, Int.add_zero] at hr
    exact hr hstart
  intro i hi
  rw [conv]
  rcases Nat.lt_or_ge i m with hlt | hge
  · rw [val_ofInt (terms_repr hm hlt)]; exact hm.before i hlt
  · have : i = m := by omega
    subst this
    obtain ⟨k, rfl⟩ : ∃ k, i = k + 1 := ⟨i - 1, by omega⟩
    have hv := terms_repr hm (i := k) (by omega)
    have hp := hm.before k (by omega)
    have ha := hm.after
    have e : val signed start + ((k + 1 : Nat) : Int) * val signed step =
        val signed start + k * val signed step + val signed step := by
      rw [Int.natCast_add, Int.add_mul, Int.natCast_one, Int.one_mul]; omega
    rw [e] at hr ha ⊢
    generalize val signed start + k * val signed step = v at *
    have hwrap : ∀ x : Int, BitVec.ofInt w (x - (2 ^ w : Nat)) = BitVec.ofInt w x := by
      intro x
      apply BitVec.eq_of_toNat_eq
      rw [BitVec.toNat_ofInt, BitVec.toNat_ofInt, Int.sub_emod_right]
    have hwrap' : ∀ x : Int, BitVec.ofInt w (x + (2 ^ w : Nat)) = BitVec.ofInt w x := by
      intro x
      apply BitVec.eq_of_toNat_eq
      rw [BitVec.toNat_ofInt, BitVec.toNat_ofInt, Int.add_emod_right]
    have hpos : 0 < 2 ^ w := Nat.two_pow_pos w
    unfold past at ha hp ⊢
    rcases ha with ha | ha
    · rw [← hwrap, val_ofInt]
      · unfold Repr at *
        cases signed
        · simp only [Bool.false_eq_true, if_false] at *; omega
        · simp only [if_true] at *; omega
      · unfold Repr at *
        cases signed
        · simp only [Bool.false_eq_true, if_false] at *; omega
        · simp only [if_true] at *; omega
    · rw [← hwrap', val_ofInt]
      · unfold Repr at *
        cases signed
        · simp only [Bool.false_eq_true, if_false] at *; omega
        · simp only [if_true] at *; omega
      · unfold Repr at *
        cases signed
        · simp only [Bool.false_eq_true, if_false] at *; omega
        · simp only [if_true] at *; omega

/-- C47 fails at the bounds of the type: whenever the first term past `end` cannot be represented, reading
`m + 1` elements succeeds — after the `m` right ones comes the one that has wrapped around. -/
theorem range_runs_on (E : Type) (start last step : BitVec w) {m : Nat}
    (hm : Terms (val signed start) (val signed last) (val signed step) m)
    (hr : ¬ Repr w signed (val signed start + m * val signed step)) :
    reads (intSource E signed last step false) (m + 1) start =
      some (.ok (terms w (val signed start) (val signed step) m ++ [start + BitVec.ofNat w m * step])) := by
  rw [reads_run E last step (m + 1) start (wrapped_not_past hm hr), List.range_succ, List.map_append]
  congr 3
  unfold terms
  refine List.map_congr_left fun i _ => ?_
  rw [← add_mul_ofInt, BitVec.ofInt_natCast]

/-- `Range[uint8](250, 255, 2)` gives `250, 252, 254` and then `0`. -/
example : reads (intSource Unit false (255#8) (2#8) false) 4 (250#8) = some (.ok [250#8, 252#8, 254#8, 0#8]) :=
  range_runs_on (signed := false) Unit (250#8) (255#8) (2#8) (m := 3) ⟨by decide, by decide⟩
    (by unfold Repr; decide)

/-- C47 fails: `Range(start, MaxUint, step)` never ends, for every unsigned type and every start and step, so
`Slice` does not return. -/
theorem range_endless (E : Type) (start step : BitVec w) :
    (new (intSource E false (BitVec.allOnes w) step false) start).slice = none := by
  have hnext : ∀ cur : BitVec w, (intSource E false (BitVec.allOnes w) step false).next cur =
      some (.ok ⟨some cur, cur + step, []⟩) := by
    intro cur
    rw [int_next, if_neg]
    unfold past val
    have := cur.isLt
    simp only [Bool.false_eq_true, if_false, BitVec.toNat_allOnes]
    omega
  have hsn : ∀ (cur : BitVec w) (hp : Bool),
      (⟨some cur, [], hp⟩ : Stream (intSource E false (BitVec.allOnes w) step false)).next =
      some (.ok ⟨some cur, ⟨some (cur + step), [], hp⟩, []⟩) := by
    intro cur hp
    exact next_of_loop_some rfl (loop_pass (hnext cur) rfl)
  have : ∀ (A : Type) (acc : A → BitVec w → A) (r : A)
      (s : Stream (intSource E false (BitVec.allOnes w) step false)) res,
      s.reduce acc r = some res → ∀ (cur : BitVec w) hp, s = ⟨some cur, [], hp⟩ → False := by
    intro A acc
    refine Stream.reduce.partial_correctness acc (fun r (s : Stream (intSource E false (BitVec.allOnes w) step false)) _ =>
      ∀ (cur : BitVec w) hp, s = ⟨some cur, [], hp⟩ → False) ?_
    intro reduce ih r s res hr cur hp hs
    subst hs
    rw [hsn] at hr
    simp only [Option.bind_eq_bind, Option.bind_some] at hr
    cases hl : reduce (acc r cur) ⟨some (cur + step), [], hp⟩ with
    | none => rw [hl] at hr; cases hr
    | some res' => exact ih _ _ _ hl _ _ rfl
  cases h : (new (intSource E false (BitVec.allOnes w) step false) start).slice with
  | none => rfl
  | some res => exact (this _ _ _ _ _ h start false rfl).elim

/-- C47 (partial): `RangeN(n)` yields `0 … n - 1` for every machine integer type and every `n`, except `n = 0` of
an unsigned type and the smallest value of a signed one (`rangeN_false`). -/
theorem rangeN_partial (E : Type) (hw : 2 ≤ w) (n : BitVec w) (hn : Repr w signed (val signed n - 1)) :
    ∃ s xs s' l, rangeN E signed n = .ok s ∧ s.slice = some (.ok ⟨xs, s', l⟩) ∧
      xs.map (val signed) = (List.range (val signed n).toNat).map fun i : Nat => (i : Int) := by
  have hp : 2 ^ 2 ≤ 2 ^ w := Nat.pow_le_pow_right (by omega) hw
  have h1r : Repr w signed 1 := by
    unfold Repr
    cases signed
    · simp only [Bool.false_eq_true, if_false]; omega
    · simp only [if_true]; omega
  have h1 : val signed (1#w) = 1 := by
    have := val_ofInt h1r
    rwa [show BitVec.ofInt w 1 = 1#w from rfl] at this
  have h0 : val signed (0#w) = 0 := val_zero
  have hm1 : val signed (n - 1#w) = val signed n - 1 := by
    have : n - 1#w = BitVec.ofInt w (val signed n - 1) := by
      rw [Int.sub_eq_add_neg, BitVec.ofInt_add, ofInt_val, BitVec.sub_eq_add_neg]
      congr 1
      rw [BitVec.ofInt_neg]; rfl
    rw [this, val_ofInt hn]
  have hterms : Terms (val signed (0#w)) (val signed (n - 1#w)) (val signed (1#w)) (val signed n).toNat := by
    rw [h0, h1, hm1]
    refine ⟨fun i hi => ?_, ?_⟩
    · unfold past; omega
    · unfold past; omega
  obtain ⟨s, xs, s', l, r1, r2, r3⟩ := range_partial (signed := signed) E (0#w) (n - 1#w) (1#w)
    (by intro h; rw [h, h0] at h1; cases h1) hterms (by
      rw [h0, h1]
      have hr := val_repr (signed := signed) n
      unfold Repr at *
      cases signed
      · simp only [Bool.false_eq_true, if_false] at *; omega
      · simp only [if_true] at *; omega)
  refine ⟨s, xs, s', l, r1, r2, ?_⟩
  rw [r3, h0, h1]
  apply List.map_congr_left
  intro i _
  omega

/-- `RangeN[uint8](3)` and `RangeN[int8](-5)`. -/
example : Repr 8 false (val false (3#8) - 1) ∧ (val false (3#8)).toNat = 3 :=
  ⟨by unfold Repr; decide, by decide⟩
example : Repr 8 true (val true (-5#8) - 1) ∧ (val true (-5#8)).toNat = 0 :=
  ⟨by unfold Repr; decide, by decide⟩

/-- C47 fails: `RangeN(0)` of an unsigned type is endless. -/
theorem rangeN_false (E : Type) (hw : 1 ≤ w) :
    ∃ s, rangeN E false (0#w) = .ok s ∧ s.slice = none := by
  have h1 : (1#w : BitVec w) ≠ 0#w := by
    intro h
    have := congrArg BitVec.toNat h
    rw [BitVec.toNat_ofNat, BitVec.toNat_ofNat, Nat.mod_eq_of_lt (Nat.one_lt_two_pow (by omega))] at this
    simp at this
  have h2 : 0#w - 1#w = BitVec.allOnes w := by
    rw [BitVec.zero_sub]
    exact BitVec.neg_one_eq_allOnes
  unfold rangeN range
  rw [if_neg h1]
  refine ⟨_, rfl, ?_⟩
  rw [h2]
  exact range_endless E _ _

end

/-! ## C48: skipping -/

theorem skipIsDrop_of {b b' n : Nat} {a : Seq T} {q q' : S.σ} {r : Int} (h : Behaves S b a q)
    (hs : S.skip n q = .ok (r, q')) (h' : Behaves S b' (a.drop n) q') : SkipIsDrop S n q := by
  refine ⟨r, q', hs, fun k => ⟨_, reads_behaves _ h, ?_⟩⟩
  rw [reads_behaves k h', take_drop_behaves k n h]

/-- C48 for slices, exactly when it holds: as long as `i + n` does not overflow an `int`. -/
theorem skip_slice_partial (E : Type) (a : List T) (ha : a.length < 9223372036854775808) (i n : Nat)
    (hi : i ≤ a.length) (hn : n < 9223372036854775808) :
    SkipIsDrop (sliceSource E a) n (i : Int) ↔ i + n < 9223372036854775808 := by
  constructor
  · rintro ⟨r, q', hs, hk⟩
    refine Classical.byContradiction fun hge => ?_
    have hw : wrap64 ((i : Int) + n) = i + n - 18446744073709551616 := by unfold wrap64; omega
    simp only [sliceSource] at hs
    rw [if_neg (by omega), hw, if_neg (by omega)] at hs
    cases hs
    obtain ⟨vs, _, hr⟩ := hk 1
    have hnx : (sliceSource E a).next ((i : Int) + (n : Int) - 18446744073709551616 : Int) =
        some (.error "index out of range") := by
      simp only [sliceSource]
      rw [if_neg (by omega)]
      simp only [goGet]
      rw [if_neg (by omega)]
    have hr2 := (reads_succ (sliceSource E a) 0 ((i : Int) + (n : Int) - 18446744073709551616 : Int)).symm.trans hr
    rw [hnx] at hr2
    cases hr2
  · intro hlt
    have h1 := slice_behaves E a i 0 hi (by omega)
    by_cases hge : (i : Int) + n ≥ a.length
    · have hs : (sliceSource E a).skip n (i : Int) = .ok (wrap64 (a.length - i), (a.length : Int)) := by
        simp only [sliceSource]
        rw [if_neg (by omega), wrap64_id (x := (i : Int) + n) (by unfold isInt64; omega), if_pos hge]
      refine skipIsDrop_of h1 hs (b' := 0) ?_
      have := slice_behaves E a a.length 0 (Nat.le_refl _) (by omega)
      rw [seqOf_drop, List.drop_drop, List.drop_of_length_le (by omega)]
      rwa [List.drop_length] at this
    · have hs : (sliceSource E a).skip n (i : Int) = .ok ((n : Int), ((i + n : Nat) : Int)) := by
        simp only [sliceSource]
        rw [if_neg (by omega), wrap64_id (x := (i : Int) + n) (by unfold isInt64; omega), if_neg hge]
        rfl
      refine skipIsDrop_of h1 hs (b' := 0) ?_
      have := slice_behaves E a (i + n) 0 (by omega) (by omega)
      rwa [seqOf_drop, List.drop_drop]

/-- C48 fails for slices: `SkipNext(MaxInt64)` after one read. -/
theorem skip_slice_false : ¬ SkipIsDrop (sliceSource Unit [10, 20]) 9223372036854775807 ((1 : Nat) : Int) := by
  rw [skip_slice_partial Unit [10, 20] (by decide) 1 9223372036854775807 (by decide) (by decide)]
  omega

/-- C48 for ranges (partial): if the first term past the end and the term `n` steps on can be represented. -/
theorem skip_range_partial (E : Type) {w : Nat} {signed : Bool} {last step : BitVec w} (cur : BitVec w)
    {m n : Nat} (hm : Terms (val signed cur) (val signed last) (val signed step) m)
    (hr : Repr w signed (val signed cur + m * val signed step))
    (hn : Repr w signed (val signed cur + n * val signed step)) :
    SkipIsDrop (intSource E signed last step false) n cur := by
  have hv : val signed (cur + BitVec.ofInt w n * step) = val signed cur + n * val signed step := by
    rw [add_mul_ofInt (signed := signed), val_ofInt hn]
  have sh : ∀ k : Nat, val signed (cur + BitVec.ofInt w n * step) + k * val signed step =
      val signed cur + ((n + k : Nat) : Int) * val signed step := by
    intro k; rw [hv, Int.natCast_add, Int.add_mul]; omega
  refine skipIsDrop_of (range_behaves E cur m 0 hm hr)
    (show (intSource E signed last step false).skip n cur = .ok (-1, cur + BitVec.ofInt w n * step) from rfl)
    (b' := 0) ?_
  rw [seqOf_drop, terms_drop, ← hv]
  refine range_behaves E _ (m - n) 0 ⟨?_, ?_⟩ ?_
  · intro i hi; rw [sh]; exact hm.before _ (by omega)
  · rw [sh]; exact past_mono (by omega) hm.after
  · rw [Nat.add_zero, sh]
    rcases Nat.le_total n m with h | h
    · rwa [show n + (m - n) = m by omega]
    · rwa [show n + (m - n) = n by omega]

example : Terms (val true (0#8)) (val true (9#8)) (val true (1#8)) 10 ∧
    Repr 8 true (val true (0#8) + (10 : Nat) * val true (1#8)) ∧
    Repr 8 true (val true (0#8) + (100 : Nat) * val true (1#8)) :=
  ⟨⟨by decide, by decide⟩, by unfold Repr; decide, by unfold Repr; decide⟩

/-- C48 fails for ranges: `Range[uint8](0, 9, 1)` after `SkipNext(256)` starts again. -/
theorem skip_range_false : ¬ SkipIsDrop (intSource Unit false (9#8) (1#8) false) 256 (0#8) := by
  rintro ⟨r, q', hs, hk⟩
  cases hs
  obtain ⟨vs, h1, h2⟩ := hk 1
  have h3 := (reads_behaves (256 + 1) (range_behaves (signed := false) Unit (last := 9#8) (step := 1#8) (0#8) 10 0
    ⟨by decide, by decide⟩ (by unfold Repr; decide))).symm.trans h1
  injection h3 with h3
  injection h3 with h3
  have h4 : vs.drop 256 = [] := by
    rw [← h3]
    have hlen : ∀ (k : Nat) (xs : List (BitVec 8)), ((seqOf xs).take k).length ≤ xs.length := by
      intro k
      induction k with
      | zero => intros; exact Nat.zero_le _
      | succ k ih =>
        intro xs
        cases xs with
        | nil => exact Nat.le_refl _
        | cons x xs =>
          show (x :: ((seqOf (x :: xs)).drop 1).take k).length ≤ _
          rw [seqOf_drop]
          have := ih xs
          simpa using this
    apply List.drop_of_length_le
    exact Nat.le_trans (hlen _ _) (by simp [terms])
  rw [h4] at h2
  have h5 : reads (intSource Unit false (9#8) (1#8) false) 1 (0#8) = some (.ok [0#8]) := rfl
  have h6 : (0#8 + BitVec.ofInt 8 (256 : Nat) * 1#8 : BitVec 8) = 0#8 := by decide
  rw [h6] at h2
  rw [h5] at h2
  cases h2

/-- C48 for unbounded integer sequences: every state and every `n`, wrap-around included. -/
theorem skip_sequence (E : Type) {w : Nat} (signed : Bool) (last step cur : BitVec w) (n : Nat) :
    SkipIsDrop (intSource E signed last step true) n cur :=
  (sequence_behaves E signed last step cur n).skipIsDrop (Nat.le_refl _)

/-- C48 for generators: every state and every `n`. -/
theorem skip_generator (E : Type) {γ : Type} (g : γ → T × γ) (q : γ) (n : Nat) :
    SkipIsDrop (generator E g) n q :=
  (generator_behaves E g q n).skipIsDrop (Nat.le_refl _)

/-- C48 for bounded generators that stay finished: every state and every `n`. -/
theorem skip_bounded_partial (E : Type) {γ : Type} {g : γ → Option T × γ} (hg : StaysEnded g) (q : γ) (n : Nat) :
    SkipIsDrop (boundedGenerator E g) n q :=
  (bounded_behaves E hg q n).skipIsDrop (Nat.le_refl _)

/-- A generator of `0 … 4`. -/
example : StaysEnded (fun n : Nat => if n < 5 then (some n, n + 1) else (none, n)) := by
  intro s h
  by_cases hs : s < 5
  · simp [hs] at h
  · simp [hs]

/-- C48 fails for a bounded generator that goes on after it has reported the end. -/
theorem skip_bounded_false :
    ¬ SkipIsDrop (boundedGenerator Unit fun n : Nat => (if n = 0 then none else some n, n + 1)) 1 (0 : Nat) := by
  rintro ⟨r, q', hs, hk⟩
  cases hs
  obtain ⟨vs, h1, h2⟩ := hk 1
  cases h1
  cases h2

/-- C48 for ranges of random-access iterators: every position and every `n`. -/
theorem skip_rand (E : Type) {M It : Type} [Iter.RandIter M T It] (v : Iter.View M T It) {m : M}
    (hm : v.ok m) {i e : Nat} (hie : i ≤ e) (he : e ≤ v.n) (n : Nat) :
    SkipIsDrop (randSource E m (v.pt e)) n (v.pt i) :=
  (rand_behaves E v hm hie he n).skipIsDrop (Nat.le_refl _)

/-- C48 for ranges of forward iterators: every position and every `n`. -/
theorem skip_fwd (E : Type) {M It : Type} [Iter.Iter M T It] {m : M} {xs : List T} {pt : Nat → It}
    (hf : Forward m xs pt) {i : Nat} (hi : i ≤ xs.length) (n : Nat) :
    SkipIsDrop (fwdSource E m (pt xs.length)) n (pt i) :=
  (fwd_behaves E hf hi n).skipIsDrop (Nat.le_refl _)

/-- C48 for type-mapped streams over a list (partial: the source must be able to move by `n`, and the stream must
not be finished; see `skip_mapped_false`). -/
theorem skip_mapped_partial {R : Type} {b : Nat} {s : Stream S} {xs : List T} (f : T → R) (h : Built b s xs)
    {n : Nat} (hn : n ≤ b) : SkipIsDrop (tts S f) n s :=
  (tts_behaves f h.yields).skipIsDrop hn

/-- C48 for type-mapped streams with a `Filter` or `Limit`, over any source at all — endless, panicking, not
returning — finished or not: `SkipNext(n)` succeeds, and then `k + 1` reads give what `n + k + 1` reads give
without their first `n`; if those panic or do not return, so do these. -/
theorem skip_mapped_pred {R : Type} (f : T → R) (s : Stream S) (hp : s.hasPred = true) (n : Nat) :
    ∃ s', (tts S f).skip n s = .ok (-1, s') ∧
      ∀ k, reads (tts S f) (k + 1) s' = onRead (List.drop n) (reads (tts S f) (n + k + 1) s) := by
  by_cases h0 : n = 0
  · subst h0
    refine ⟨s, by simp [tts, Stream.skip], fun k => ?_⟩
    rw [Nat.zero_add]
    rcases reads (tts S f) (k + 1) s with _ | e | vs <;> rfl
  · refine ⟨{ s with hasPred := true, ops := s.ops ++ [.skip n] }, ?_, fun k => ?_⟩
    · simp [tts, Stream.skip, hp, h0, show ¬ (n : Int) < 0 by omega]
    · have := reads_skip f n k s.src s.ops s.hasPred
      rw [hp] at this
      rw [this]
      congr 2
      rw [← hp]

/-- C48 fails for a type-mapped stream that is finished and had no `Filter` or `Limit`: it panics. -/
theorem skip_mapped_false {R : Type} (f : T → R) {s s' : Stream S} {l : List E}
    (h : s.next = some (.ok ⟨none, s', l⟩)) (hp : s'.hasPred = false) {n : Nat} (hn : 0 < n) :
    (tts S f).skip n s' = .error "nil pointer dereference" := by
  simp [tts, finished_skip_panics h hp (show (0 : Int) < n by omega)]

/-! ## C49: type-changing `Map` -/

/-- C49: every `Next` of `stream.Map(s, f)` is `f` of a `Next` of `s` — for every stream, also one that panics or does
not return. -/
theorem mapTo_next {R : Type} (s : Stream S) (f : T → R) :
    (mapTo s f).next = match s.next with
      | none => none
      | some (.error e) => some (.error e)
      | some (.ok ⟨none, _, l⟩) => some (.ok ⟨none, ⟨none, [], false⟩, l⟩)
      | some (.ok ⟨some v, s', l⟩) => some (.ok ⟨some (f v), mapTo s' f, l⟩) := by
  have h := tts_next f s
  rcases hn : s.next with _ | e | ⟨_ | v, s', l⟩
  · rw [hn] at h
    have : loop (tts S f) [] s = none := (loop_cases (S := tts S f) [] s).trans (by rw [h])
    simp [Stream.next, mapTo, new, this]
  · rw [hn] at h
    have : loop (tts S f) [] s = some (.error e) := loop_error h
    simp [Stream.next, mapTo, new, this]
  · rw [hn] at h
    exact next_of_loop (s := mapTo s f) rfl (loop_none h)
  · rw [hn] at h
    have h1 := loop_pass (ops := []) h (v := f v) (ops' := []) (l' := []) rfl
    rw [List.append_nil] at h1
    exact next_of_loop_some (s := mapTo s f) rfl h1

/-- C49 (partial): a chain on `stream.Map(s, f)` computes the list pipeline on the mapped list, `Skip` included, for
every stream `s` a program can have over a source that behaves like a list — at any depth, since the stream
built here is again such a stream.

Missing: `s` must not be finished (`mapped_false`), and the source must be able to move by the sum of the
`Skip`s. -/
theorem mapped_partial {R : Type} {b : Nat} {s : Stream S} {xs : List T} (f : T → R) (h : Built b s xs)
    (cs : List (Call R E)) (hl : ∀ c ∈ cs, c.legal) (hc : skips cs ≤ b) :
    ∃ s', (mapTo s f).chain cs = .ok s' ∧ Built (b - skips cs) s' (listChain cs (xs.map f)) ∧
      ∃ s'' l, s'.slice = some (.ok ⟨listChain cs (xs.map f), s'', l⟩) :=
  pipeline_partial (.new (tts_behaves f h.yields)) cs hl hc

/-- `Map(Of(1, 2, 3, 4).Filter(even), show).Skip(1)` — a nested stream with a pushed `Skip`. -/
example : ∃ s1 s', (ofSlice Unit [1, 2, 3, 4]).call (.filter (· % 2 == 0)) = .ok s1 ∧
    (mapTo s1 (fun n : Nat => toString n)).chain [.skip 1] = .ok s' ∧
    ∃ s'' l, s'.slice = some (.ok ⟨["4"], s'', l⟩) := by
  have hb := slice_behaves Unit [1, 2, 3, 4] 0 10 (by decide) (by decide)
  have h1 : (ofSlice Unit [1, 2, 3, 4]).call (.filter (· % 2 == 0)) =
      .ok ((ofSlice Unit [1, 2, 3, 4]).filter (· % 2 == 0)) := rfl
  obtain ⟨s', h2, _, h3⟩ := mapped_partial (fun n : Nat => toString n)
    (.call (.new hb) (c := .filter (· % 2 == 0)) trivial (by decide) h1) [.skip 1]
    (by intro c hc; simp at hc; subst hc; simp [Call.legal]) (by decide)
  exact ⟨_, s', h1, h2, h3⟩

/-- C49 fails on finished streams: for every finished `s` without `Filter` or `Limit`, `stream.Map(s, f).Skip(n)`
panics, where the mapped list — empty — has nothing to skip. -/
theorem mapped_false {R : Type} (f : T → R) {s s' : Stream S} {l : List E}
    (h : s.next = some (.ok ⟨none, s', l⟩)) (hp : s'.hasPred = false) {n : Nat} (hn : 0 < n) :
    (mapTo s' f).skip n = .error "nil pointer dereference" := by
  simp [Stream.skip, mapTo, new, skip_mapped_false f h hp hn, show ¬ (n : Int) < 0 by omega,
    show n ≠ 0 by omega]

end Verif.Stream
