import Verif.Stream.SourceProps
import Mathlib.Data.Int.GCD
import Mathlib.Data.Nat.Find

/-!
# C47, exactly

`Range(start, end, step)` (stream/source.go:40-73) computes `start + i * step` in its integer type and stops at the
first of these that is past `end`. They may wrap around before; then the range goes on, until a later one is past `end`,
or for ever. Here: what comes out for all arguments, and which arguments make it endless.
-/

namespace Verif.Stream

variable {w : Nat} {signed : Bool}

/-- The `i`-th value, in the arithmetic of the type. -/
def nth (start step : BitVec w) (i : Nat) : BitVec w := start + BitVec.ofNat w i * step

theorem nth_succ (start step : BitVec w) (i : Nat) : nth start step i + step = nth start step (i + 1) := by
  unfold nth
  rw [BitVec.ofNat_add, BitVec.add_mul, BitVec.add_assoc]
  congr 2
  apply BitVec.eq_of_toNat_eq
  simp

/-- The value is past the end, as the code compares. -/
def Over (signed : Bool) (last step v : BitVec w) : Prop := past (val signed last) (val signed step) (val signed v)

instance (last step v : BitVec w) : Decidable (Over signed last step v) := by unfold Over; infer_instance

/-- One read. -/
theorem range_next (E : Type) (last step cur : BitVec w) (hp : Bool) :
    (⟨some cur, [], hp⟩ : Stream (intSource E signed last step false)).next =
      if Over signed last step cur then some (.ok ⟨none, ⟨none, [], hp⟩, []⟩)
      else some (.ok ⟨some cur, ⟨some (cur + step), [], hp⟩, []⟩) := by
  have hn := int_next (signed := signed) E last step cur
  by_cases h : Over signed last step cur
  · rw [if_pos h]
    rw [if_pos (show past _ _ _ from h)] at hn
    exact next_of_loop rfl (loop_none hn)
  · rw [if_neg h]
    rw [if_neg (show ¬ past _ _ _ from h)] at hn
    exact next_of_loop_some rfl (loop_pass hn rfl)

theorem range_lists (E : Type) (start last step : BitVec w) (m : Nat)
    (hb : ∀ i, i < m → ¬ Over signed last step (nth start step i)) (ha : Over signed last step (nth start step m)) :
    ∀ (k i : Nat), i + k = m →
      Lists (⟨some (nth start step i), [], false⟩ : Stream (intSource E signed last step false))
        ((List.range' i k).map (nth start step)) := by
  intro k
  induction k with
  | zero =>
    intro i hi
    have : i = m := by omega
    subst this
    exact .nil (by rw [range_next, if_pos ha])
  | succ k ih =>
    intro i hi
    rw [List.range'_succ, List.map_cons]
    refine .cons (by rw [range_next, if_neg (hb i (by omega))]) ?_
    rw [nth_succ]
    exact ih (i + 1) (by omega)

/-- **C47**, all ranges that stop: if the `m`-th value is the first one past `end`, in the arithmetic of the type, exactly
the values before it come. -/
theorem C47_exact (E : Type) (start last step : BitVec w) (h0 : step ≠ 0#w) (m : Nat)
    (hb : ∀ i, i < m → ¬ Over signed last step (nth start step i)) (ha : Over signed last step (nth start step m)) :
    ∃ s s' l, range E signed start last step = .ok s ∧
      s.slice = some (.ok ⟨(List.range m).map (nth start step), s', l⟩) := by
  refine ⟨new (intSource E signed last step false) start, ?_⟩
  have hn : nth start step 0 = start := by simp [nth]
  have hl := range_lists E start last step m hb ha m 0 (by omega)
  rw [hn] at hl
  rw [List.range_eq_range']
  obtain ⟨s', l, h⟩ := slice_lists hl
  exact ⟨s', l, by unfold range; rw [if_neg h0], h⟩

/-- `Range[int8](0, 122, 76)`: after 0 and 76 come three values that have wrapped around, then 124 is past the end. -/
example : ∃ s s' l, range Unit true (0#8) (122#8) (76#8) = .ok s ∧
    s.slice = some (.ok ⟨[0#8, 76#8, BitVec.ofInt 8 (-104), BitVec.ofInt 8 (-28), 48#8], s', l⟩) :=
  C47_exact Unit (0#8) (122#8) (76#8) (by decide) 5 (by decide) (by decide)

/-- **C47**, all others: if no value is past `end`, `Slice` does not return. -/
theorem C47_endless (E : Type) (start last step : BitVec w) (h0 : step ≠ 0#w)
    (hb : ∀ i, ¬ Over signed last step (nth start step i)) :
    ∃ s, range E signed start last step = .ok s ∧ s.slice = none := by
  refine ⟨new (intSource E signed last step false) start, by unfold range; rw [if_neg h0], ?_⟩
  have : ∀ (A : Type) (acc : A → BitVec w → A) (r : A) (s : Stream (intSource E signed last step false)) res,
      s.reduce acc r = some res → ∀ i, s = ⟨some (nth start step i), [], false⟩ → False := by
    intro A acc
    refine Stream.reduce.partial_correctness acc (fun r (s : Stream (intSource E signed last step false)) _ =>
      ∀ i, s = ⟨some (nth start step i), [], false⟩ → False) ?_
    intro reduce ih r s res hr i hs
    subst hs
    rw [range_next, if_neg (hb i)] at hr
    simp only [Option.bind_eq_bind, Option.bind_some] at hr
    cases hl : reduce (acc r (nth start step i)) ⟨some (nth start step i + step), [], false⟩ with
    | none => rw [hl] at hr; cases hr
    | some res' => exact ih _ _ _ hl (i + 1) (by rw [nth_succ])
  cases h : (new (intSource E signed last step false) start).slice with
  | none => rfl
  | some res => exact (this _ _ _ _ _ h 0 (by simp [new, nth])).elim

/-- **C47**, which ranges stop: those for which some value of the type past `end` differs from `start` by a multiple of
the greatest common divisor of `step` and `2^w`. -/
theorem C47_stops_iff (start last step : BitVec w) (h0 : step ≠ 0#w) :
    (∃ i, Over signed last step (nth start step i)) ↔
      ∃ v : BitVec w, Over signed last step v ∧ Nat.gcd step.toNat (2 ^ w) ∣ (v - start).toNat := by
  constructor
  · rintro ⟨i, h⟩
    refine ⟨_, h, ?_⟩
    have : nth start step i - start = BitVec.ofNat w i * step := by
      unfold nth
      rw [BitVec.add_comm, BitVec.add_sub_cancel]
    rw [this, BitVec.toNat_mul, BitVec.toNat_ofNat, Nat.mod_mul_mod]
    exact (Nat.dvd_mod_iff (Nat.gcd_dvd_right _ _)).2 (Nat.dvd_mul_left_of_dvd (Nat.gcd_dvd_left _ _) _)
  · rintro ⟨v, h, q, hq⟩
    have hs0 : 0 < step.toNat := by
      rcases Nat.eq_zero_or_pos step.toNat with e | e
      · exact (h0 (BitVec.eq_of_toNat_eq (by simpa using e))).elim
      · exact e
    have hlt : Nat.gcd step.toNat (2 ^ w) < 2 ^ w :=
      Nat.lt_of_le_of_lt (Nat.gcd_le_left _ hs0) step.isLt
    obtain ⟨m, -, hm⟩ := Nat.exists_mul_mod_eq_gcd hlt
    refine ⟨m * q, ?_⟩
    have : nth start step (m * q) = v := by
      have e : BitVec.ofNat w (m * q) * step = v - start := by
        apply BitVec.eq_of_toNat_eq
        have hvs : (v - start).toNat % 2 ^ w = (v - start).toNat := Nat.mod_eq_of_lt (v - start).isLt
        rw [BitVec.toNat_mul, BitVec.toNat_ofNat, Nat.mod_mul_mod, ← hvs, hq, ← hm, Nat.mod_mul_mod]
        congr 1
        rw [Nat.mul_comm (m * q), Nat.mul_assoc]
      unfold nth
      rw [e, BitVec.add_comm, BitVec.sub_add_cancel]
    rw [this]
    exact h

/-- **C47**: the range is the arithmetic progression exactly if the first term past `end` can be represented. -/
theorem C47_iff (E : Type) (start last step : BitVec w) (h0 : step ≠ 0#w) {m : Nat}
    (hm : Terms (val signed start) (val signed last) (val signed step) m) :
    (∃ s xs s' l, range E signed start last step = .ok s ∧ s.slice = some (.ok ⟨xs, s', l⟩) ∧
      xs.map (val signed) = (List.range m).map fun i : Nat => val signed start + i * val signed step) ↔
      Repr w signed (val signed start + m * val signed step) := by
  constructor
  · rintro ⟨s, xs, s', l, h1, h2, h3⟩
    by_cases hr : Repr w signed (val signed start + m * val signed step)
    · exact hr
    exfalso
    have hlen : xs.length = m := by simpa using congrArg List.length h3
    -- the m-th value is not past the end
    have hnot : ∀ i, i < m + 1 → ¬ Over signed last step (nth start step i) :=
      wrapped_not_past hm hr
    by_cases hex : ∃ i, Over signed last step (nth start step i)
    · have hk1 := Nat.find_spec hex
      have hk2 : ∀ i, i < Nat.find hex → ¬ Over signed last step (nth start step i) := fun i hi => Nat.find_min hex hi
      generalize Nat.find hex = k at hk1 hk2
      obtain ⟨t, t', l', e1, e2⟩ := C47_exact E start last step h0 k hk2 hk1
      rw [h1] at e1
      cases e1
      rw [h2] at e2
      simp only [Option.some.injEq, Except.ok.injEq, Fin.mk.injEq] at e2
      have : xs.length = k := by rw [e2.1]; simp
      have hkm : k = m := by omega
      exact hnot k (by omega) hk1
    · obtain ⟨t, e1, e2⟩ := C47_endless (signed := signed) E start last step h0 (fun i hi => hex ⟨i, hi⟩)
      rw [h1] at e1
      cases e1
      rw [h2] at e2
      cases e2
  · exact range_partial E start last step h0 hm

/-- `Range[uint8](0, 254, 2)` is endless, `Range[uint8](1, 254, 2)` is not. -/
example : (¬ ∃ i, Over false (254#8) (2#8) (nth (0#8) (2#8) i)) ∧ ∃ i, Over false (254#8) (2#8) (nth (1#8) (2#8) i) := by
  rw [C47_stops_iff _ _ _ (by decide), C47_stops_iff _ _ _ (by decide)]
  refine ⟨?_, 255#8, by decide, by decide⟩
  rintro ⟨v, h1, h2⟩
  revert v
  decide

end Verif.Stream
