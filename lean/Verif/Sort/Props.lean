import Verif.Sort.StableOrder
import Verif.Sort.Closed

/-! # C01–C07: the sorting package -/

namespace Verif.Sort

variable {E : Type} [Inhabited E]
set_option linter.unusedSectionVars false

/-! ## From programs to the exported functions -/

/-- A program whose every run against admissible answers ends with contents satisfying `Q`, run against
any comparator whose answers are admissible, returns and its contents satisfy `Q`. -/
theorem runProg_ok {σ : Type} {p : M E Unit} {cmp : σ → Kind → E → E → Bool × σ} {d : List E}
    {adm : Kind → E → E → Bool → Prop} {Q : List E → Prop} (s : σ)
    (ha : ∀ s k x y, adm k x y (cmp s k x y).1) (h : wp adm p (fun _ d' => Q d') d) :
    ∃ d' n, runProg p cmp s d = .ok (d', n) ∧ Q d' := by
  obtain ⟨⟨u, d'⟩, s', n, he, hq⟩ := Prog.wp_exec ha h s
  refine ⟨d', n, ?_, hq⟩
  unfold runProg
  rw [he]

theorem contents_ok {σ : Type} {p : M E Unit} {cmp : σ → Kind → E → E → Bool × σ} {d : List E}
    {adm : Kind → E → E → Bool → Prop} {Q : List E → Prop} (s : σ)
    (ha : ∀ s k x y, adm k x y (cmp s k x y).1) (h : wp adm p (fun _ d' => Q d') d) :
    ∃ d', contentsOf (runProg p cmp s d) = .ok d' ∧ Q d' := by
  obtain ⟨d', n, he, hq⟩ := runProg_ok s ha h
  exact ⟨d', by rw [he]; rfl, hq⟩

theorem ofLess_exact (lt : E → E → Bool) (s : Unit) (k : Kind) (x y : E) :
    exact lt k x y (ofLess lt s k x y).1 := by
  cases k <;> rfl

/-! ## C01 -/

/-- **C01.** `Sort(data, less)` with `less` a strict weak order returns and leaves `data` ascending. -/
theorem C01_sort_ascending (less : E → E → Bool) (hw : StrictWeak less) (data : List E) :
    ∃ out, sort less data = .ok out ∧ Ascending less out := by
  obtain ⟨d', h1, h2⟩ := contents_ok () (ofLess_exact less) (sortProg_sorted hw data)
  exact ⟨d', h1, h2.2⟩

/-- The order on the integers. -/
theorem intLt_strictWeak : StrictWeak (fun a b : Int => decide (a < b)) :=
  ⟨fun x => by simp, fun x y z => by simp; omega, fun x y z => by simp; omega⟩

/-- Non-vacuity: a slice long enough for the quicksort branch, with duplicates. -/
example : sort (fun a b : Int => decide (a < b)) [2, 9, 1, 5, 6, 8, 3, 5, 6, 8, 3, 2, 5, 4, 3, 6, 4] =
    .ok [1, 2, 2, 3, 3, 3, 4, 4, 5, 5, 5, 6, 6, 6, 8, 8, 9] := by decide +kernel
example : Ascending (fun a b : Int => decide (a < b)) [1, 2, 2, 5] := by unfold Ascending; decide
example : ¬ Ascending (fun a b : Int => decide (a < b)) [1, 5, 2] := by unfold Ascending; decide

/-! ## C02, C03 -/

/-- **C02.** `Sort` and `SortOrdered` return the elements they were given, in some order: for every
comparator, including one that keeps state and is not an order at all, and for every pair of functions
in the place of `<` and `>=`. -/
theorem C02_sort_rearranges (data : List E) :
    (∀ less : E → E → Bool, ∃ out, sort less data = .ok out ∧ out.Perm data) ∧
    (∀ lt ge : E → E → Bool, ∃ out, sortOrdered lt ge data = .ok out ∧ out.Perm data) ∧
    (∀ (σ : Type) (less : σ → E → E → Bool × σ) (s : σ), ∃ out n,
      runProg sortProg (ofStateful less) s data = .ok (out, n) ∧ out.Perm data) := by
  refine ⟨fun less => ?_, fun lt ge => ?_, fun σ less s => ?_⟩
  · exact contents_ok (adm := fun _ _ _ _ => True) () (fun _ _ _ _ => trivial) (sortProg_any data)
  · exact contents_ok (adm := fun _ _ _ _ => True) () (fun _ _ _ _ => trivial) (sortProg_any data)
  · exact runProg_ok (adm := fun _ _ _ _ => True) s (fun _ _ _ _ => trivial) (sortProg_any data)

/-- Non-vacuity: a comparator that always answers `true`, on a slice that is quicksorted. -/
example : (sort (fun _ _ : Nat => true) (List.range 14)).toOption.isSome = true := by decide +kernel
/-- and the result really differs from the input. -/
example : sort (fun _ _ : Nat => true) [1, 2, 3] = .ok [3, 2, 1] := by decide +kernel

/-- **C03.** All four entry points return normally on every slice and every comparator (no index out of
range; termination is part of every definition being total, and running out of fuel is an error here). -/
theorem C03_returns_normally (data : List E) (less lt ge : E → E → Bool) :
    (∃ out, sort less data = .ok out) ∧ (∃ out, sortOrdered lt ge data = .ok out) ∧
    (∃ out, stableSort less data = .ok out) ∧ (∃ out, stableOrdered lt ge data = .ok out) ∧
    (∀ (σ : Type) (f : σ → E → E → Bool × σ) (s : σ),
      (∃ r, runProg sortProg (ofStateful f) s data = .ok r) ∧
      (∃ r, runProg stableProg (ofStateful f) s data = .ok r)) := by
  obtain ⟨h1, h2, h3⟩ := C02_sort_rearranges data
  refine ⟨?_, ?_, ?_, ?_, fun σ f s => ⟨?_, ?_⟩⟩
  · obtain ⟨o, h, _⟩ := h1 less; exact ⟨o, h⟩
  · obtain ⟨o, h, _⟩ := h2 lt ge; exact ⟨o, h⟩
  · obtain ⟨o, h, _⟩ := contents_ok (adm := fun _ _ _ _ => True) (cmp := ofLess less) ()
      (fun _ _ _ _ => trivial) (stableProg_any data)
    exact ⟨o, h⟩
  · obtain ⟨o, h, _⟩ := contents_ok (adm := fun _ _ _ _ => True) (cmp := ofOps lt ge) ()
      (fun _ _ _ _ => trivial) (stableProg_any data)
    exact ⟨o, h⟩
  · obtain ⟨o, n, h, _⟩ := h3 σ f s; exact ⟨_, h⟩
  · obtain ⟨o, n, h, _⟩ := runProg_ok (adm := fun _ _ _ _ => True) (cmp := ofStateful f) s
      (fun _ _ _ _ => trivial) (stableProg_any data)
    exact ⟨_, h⟩

/-- Non-vacuity: the functions can fail in the model — a program that reads outside the slice does. -/
example : (runProg (swap 0 5) (ofLess fun a b : Nat => decide (a < b)) () [1, 2]).isOk = false := by decide

/-- `Stable` rearranges too, for every comparator (more than C02 asks). -/
theorem C02_stable_rearranges (data : List E) (σ : Type) (less : σ → E → E → Bool × σ) (s : σ) :
    ∃ out n, runProg stableProg (ofStateful less) s data = .ok (out, n) ∧ out.Perm data :=
  runProg_ok (adm := fun _ _ _ _ => True) s (fun _ _ _ _ => trivial) (stableProg_any data)

example : stableSort (fun _ _ : Nat => true) [1, 2, 3] = .ok [3, 2, 1] := by decide +kernel

/-! ## C04, C05 -/

/-- **C04.** `Stable(data, less)` leaves `data` ascending and only rearranged. -/
theorem C04_stable_sorts (less : E → E → Bool) (hw : StrictWeak less) (data : List E) :
    ∃ out, stableSort less data = .ok out ∧ Ascending less out ∧ out.Perm data := by
  obtain ⟨d', h1, h2, h3, _⟩ := contents_ok () (ofLess_exact less) (stableProg_fine hw data)
  exact ⟨d', h1, h3, h2⟩

/-- **C05.** `Stable` keeps, for every `x`, the subsequence of the elements equivalent to `x`. -/
theorem C05_stable_is_stable (less : E → E → Bool) (hw : StrictWeak less) (data : List E) :
    ∃ out, stableSort less data = .ok out ∧
      ∀ x, (out.filter fun y => !less x y && !less y x) = data.filter fun y => !less x y && !less y x := by
  obtain ⟨d', h1, _, _, h4⟩ := contents_ok () (ofLess_exact less) (stableProg_fine hw data)
  exact ⟨d', h1, h4⟩

/-- Comparing pairs by the first component. -/
theorem fstLt_strictWeak : StrictWeak (fun a b : Nat × Nat => decide (a.1 < b.1)) :=
  ⟨fun x => by simp, fun x y z => by simp; omega, fun x y z => by simp; omega⟩

/-- Non-vacuity: 25 pairs, more than one block, so that `symMerge` runs; equal keys keep their order. -/
example : stableSort (fun a b : Nat × Nat => decide (a.1 < b.1))
    ((List.range 25).map fun i => (i * 7 % 3, i)) =
    .ok ((((List.range 25).map fun i => (i * 7 % 3, i)).filter fun p => p.1 = 0) ++
      (((List.range 25).map fun i => (i * 7 % 3, i)).filter fun p => p.1 = 1) ++
      (((List.range 25).map fun i => (i * 7 % 3, i)).filter fun p => p.1 = 2)) := by decide +kernel

/-- `Sort` is not stable (so C05 separates the two functions): on thirteen equal keys it moves one. -/
theorem sort_not_stable : ∃ data : List (Nat × Nat),
    sort (fun a b : Nat × Nat => decide (a.1 < b.1)) data ≠
      stableSort (fun a b : Nat × Nat => decide (a.1 < b.1)) data :=
  ⟨(List.range 40).map fun i => (i * 7 % 3, i), by decide +kernel⟩

/-! ## Comparators that are an order on the elements of the slice only -/

/-- `less` is a strict weak order as far as the elements of `data` are concerned. -/
structure StrictWeakOn (data : List E) (lt : E → E → Bool) : Prop where
  irrefl : ∀ x ∈ data, lt x x = false
  trans : ∀ x ∈ data, ∀ y ∈ data, ∀ z ∈ data, lt x y = true → lt y z = true → lt x z = true
  incomp : ∀ x ∈ data, ∀ y ∈ data, ∀ z ∈ data, lt x y = false → lt y x = false → lt y z = false →
    lt z y = false → lt x z = false ∧ lt z x = false

/-- Such a comparator agrees on the slice with a strict weak order of the whole type. -/
theorem StrictWeakOn.extend {data : List E} {lt : E → E → Bool} (h : StrictWeakOn data lt) :
    ∃ lt', StrictWeak lt' ∧ ∀ x ∈ data, ∀ y ∈ data, lt' x y = lt x y := by
  classical
  refine ⟨fun x y => if x ∈ data ∧ y ∈ data then lt x y else decide (x ∉ data ∧ y ∈ data), ?_, ?_⟩
  · refine ⟨fun x => ?_, fun x y z => ?_, fun x y z => ?_⟩
    · by_cases hx : x ∈ data <;> simp [hx, h.irrefl]
    · by_cases hx : x ∈ data <;> by_cases hy : y ∈ data <;> by_cases hz : z ∈ data <;> simp [hx, hy, hz]
      exact h.trans x hx y hy z hz
    · by_cases hx : x ∈ data <;> by_cases hy : y ∈ data <;> by_cases hz : z ∈ data <;> simp [hx, hy, hz]
      exact h.incomp x hx y hy z hz
  · intro x hx y hy; simp [hx, hy]

/-- **C01, C04, C05 strengthened**: it is enough that `less` is a strict weak order on the elements of
the slice. -/
theorem C01_C05_order_on_elements (less : E → E → Bool) (data : List E) (hw : StrictWeakOn data less) :
    (∃ out, sort less data = .ok out ∧ out.Perm data ∧ Ascending less out) ∧
    (∃ out, stableSort less data = .ok out ∧ out.Perm data ∧ Ascending less out ∧
      ∀ x ∈ data, (out.filter fun y => !less x y && !less y x) =
        data.filter fun y => !less x y && !less y x) := by
  obtain ⟨lt', hw', hag⟩ := hw.extend
  have hc : ∀ (s : Unit) k x y, x ∈ data → y ∈ data → ofLess less s k x y = ofLess lt' s k x y := by
    intro s k x y hx hy
    cases k <;> simp [ofLess, hag x hx y hy]
  have asc : ∀ out : List E, out.Perm data → Ascending lt' out → Ascending less out := by
    intro out hp ha
    unfold Ascending at *
    refine ha.imp_of_mem ?_
    intro x y hx hy h
    rw [← hag y (hp.mem_iff.1 hy) x (hp.mem_iff.1 hx)]; exact h
  constructor
  · unfold sort
    rw [runProg_congr sortProg_closed hc]
    obtain ⟨d', h1, h2, h3⟩ := contents_ok () (ofLess_exact lt') (sortProg_sorted hw' data)
    exact ⟨d', h1, h2, asc _ h2 h3⟩
  · unfold stableSort
    rw [runProg_congr stableProg_closed hc]
    obtain ⟨d', h1, h2, h3, h4⟩ := contents_ok () (ofLess_exact lt') (stableProg_fine hw' data)
    refine ⟨d', h1, h2, asc _ h2 h3, fun x hx => ?_⟩
    have := h4 x
    have e : ∀ l : List E, l.Perm data → (l.filter fun y => !less x y && !less y x) =
        l.filter (equiv lt' x) := by
      intro l hl
      apply List.filter_congr
      intro y hy
      unfold equiv
      rw [hag x hx y (hl.mem_iff.1 hy), hag y (hl.mem_iff.1 hy) x hx]
    rw [e d' h2, e data (List.Perm.refl _)]
    exact this

/-- Non-vacuity: a comparator that is not an order on all numbers but is on this slice. -/
example : StrictWeakOn [3, 1, 2] (fun a b : Nat => decide (a < b) || decide (7 < a)) := by
  constructor <;> decide
example : ¬ StrictWeak (fun a b : Nat => decide (a < b) || decide (7 < a)) := fun h => by
  have := h.irrefl 8; revert this; decide

/-! ## C06 -/

/-- `>=` of a totally ordered type is the negation of `<`. -/
theorem ofOps_eq_ofLess {lt ge : E → E → Bool} (h : ∀ x y, ge x y = !lt x y) :
    ofOps lt ge = ofLess lt := by
  funext s k x y
  cases k <;> simp [ofOps, ofLess, h]

/-- **C06.** On a type whose `<` is a total order (with `>=` its negation), `SortOrdered` gives exactly
what `Sort` with `<` gives and `StableOrdered` exactly what `Stable` gives; both are ascending. -/
theorem C06_ordered_variants [LT E] [DecidableLT E] [LE E] [DecidableLE E]
    (irrefl : ∀ x : E, ¬ x < x) (trans : ∀ x y z : E, x < y → y < z → x < z)
    (total : ∀ x y : E, x < y ∨ x = y ∨ y < x) (ge_iff : ∀ x y : E, y ≤ x ↔ ¬ x < y) (data : List E) :
    let lt := fun x y : E => decide (x < y)
    let ge := fun x y : E => decide (x ≥ y)
    sortOrdered lt ge data = sort lt data ∧ stableOrdered lt ge data = stableSort lt data ∧
    (∃ out, sortOrdered lt ge data = .ok out ∧ out.Perm data ∧ out.Pairwise (· ≤ ·)) ∧
    (∃ out, stableOrdered lt ge data = .ok out ∧ out.Perm data ∧ out.Pairwise (· ≤ ·)) := by
  intro lt ge
  have hge : ∀ x y, ge x y = !lt x y := by
    intro x y
    have := ge_iff x y
    by_cases h : x < y <;> simp [lt, ge, GE.ge, h, this]
  have hw : StrictWeak lt := by
    refine ⟨fun x => by simp [lt, irrefl], fun x y z h1 h2 => ?_, fun x y z h1 h2 h3 h4 => ?_⟩
    · simp only [lt, decide_eq_true_eq] at *; exact trans x y z h1 h2
    · simp only [lt, decide_eq_false_iff_not] at *
      have e1 : x = y := by rcases total x y with h | h | h <;> first | exact h | contradiction
      have e2 : y = z := by rcases total y z with h | h | h <;> first | exact h | contradiction
      subst e1; subst e2
      exact ⟨irrefl _, irrefl _⟩
  have asc : ∀ l : List E, Ascending lt l → l.Pairwise (· ≤ ·) := by
    intro l h
    unfold Ascending at h
    refine h.imp ?_
    intro a b hab
    simp only [lt, decide_eq_false_iff_not] at hab
    exact (ge_iff b a).2 hab
  have e1 : sortOrdered lt ge data = sort lt data := by
    unfold sortOrdered sort; rw [ofOps_eq_ofLess hge]
  have e2 : stableOrdered lt ge data = stableSort lt data := by
    unfold stableOrdered stableSort; rw [ofOps_eq_ofLess hge]
  refine ⟨e1, e2, ?_, ?_⟩
  · obtain ⟨d', h1, h2⟩ := contents_ok () (ofLess_exact lt) (sortProg_sorted hw data)
    exact ⟨d', e1.trans h1, h2.1, asc _ h2.2⟩
  · obtain ⟨d', h1, h2⟩ := C04_stable_sorts lt hw data
    exact ⟨d', e2.trans h1, h2.2, asc _ h2.1⟩

/-- Non-vacuity: the integers meet the hypotheses. -/
example (data : List Int) : ∃ out, sortOrdered (fun x y : Int => decide (x < y))
    (fun x y : Int => decide (x ≥ y)) data = .ok out ∧ out.Perm data ∧ out.Pairwise (· ≤ ·) :=
  (C06_ordered_variants (by omega) (by omega) (by omega) (by omega) data).2.2.1

/-- A sorted slice over a total order is unique, so under a total order *any* correct sort gives the
same slice: `Sort` and `Stable` agree. -/
theorem C06_sort_eq_stable (lt : E → E → Bool) (hw : StrictWeak lt)
    (total : ∀ x y, lt x y = false → lt y x = false → x = y) (data : List E) :
    sort lt data = stableSort lt data := by
  obtain ⟨d1, h1, p1⟩ := contents_ok () (ofLess_exact lt) (sortProg_sorted hw data)
  obtain ⟨d2, h2, p2, p3⟩ := C04_stable_sorts lt hw data
  have : d1 = d2 := by
    refine List.Perm.eq_of_pairwise (le := fun x y => lt y x = false) ?_ p1.2 p2 (p1.1.trans p3.symm)
    intro x y _ _ a b
    exact total x y b a
  rw [h2, ← this]; exact h1

example (data : List Int) : sort (fun a b : Int => decide (a < b)) data =
    stableSort (fun a b : Int => decide (a < b)) data :=
  C06_sort_eq_stable _ intLt_strictWeak (fun x y => by simp; omega) data

/-! ## C07: floats -/

/-- What Go's comparison operators on a float type guarantee (IEEE 754): NaN compares false with
everything, `x != x` holds exactly for NaN, and on the other values `<` is a strict weak order
(`-0` and `+0` are equivalent) with `>=` its negation. -/
structure FloatOps (F : Type) where
  lt : F → F → Bool
  ge : F → F → Bool
  isNaN : F → Bool
  lt_nan : ∀ x y, isNaN x = true ∨ isNaN y = true → lt x y = false
  ge_nan : ∀ x y, isNaN x = true ∨ isNaN y = true → ge x y = false
  ge_num : ∀ x y, isNaN x = false → isNaN y = false → ge x y = !lt x y
  irrefl : ∀ x, lt x x = false
  trans : ∀ x y z, lt x y = true → lt y z = true → lt x z = true
  incomp : ∀ x y z, isNaN y = false → lt x y = false → lt y x = false → lt y z = false → lt z y = false →
    isNaN x = false → isNaN z = false → lt x z = false ∧ lt z x = false

/-- xfn/predicate.go:179-187 `LessFloat` (a NaN is less than every number). -/
def lessFloat {F : Type} (o : FloatOps F) (x y : F) : Bool :=
  if o.isNaN x || o.isNaN y then o.isNaN x && !o.isNaN y else o.lt x y

theorem lessFloat_strictWeak {F : Type} (o : FloatOps F) : StrictWeak (lessFloat o) := by
  refine ⟨fun x => ?_, fun x y z => ?_, fun x y z => ?_⟩
  · unfold lessFloat; cases h : o.isNaN x <;> simp [o.irrefl]
  · unfold lessFloat
    cases hx : o.isNaN x <;> cases hy : o.isNaN y <;> cases hz : o.isNaN z <;> simp
    exact o.trans x y z
  · unfold lessFloat
    cases hx : o.isNaN x <;> cases hy : o.isNaN y <;> cases hz : o.isNaN z <;> simp
    intro h1 h2 h3 h4
    exact o.incomp x y z hy h1 h2 h3 h4 hx hz

/-- **C07, second sentence.** `Sort(data, LessFloat)` leaves all NaN first, then the numbers ascending. -/
theorem C07_lessFloat_partial {F : Type} [Inhabited F] (o : FloatOps F) (data : List F) :
    ∃ nans nums, sort (lessFloat o) data = .ok (nans ++ nums) ∧ (nans ++ nums).Perm data ∧
      (∀ x ∈ nans, o.isNaN x = true) ∧ (∀ x ∈ nums, o.isNaN x = false) ∧
      nums.Pairwise (fun x y => o.lt y x = false) := by
  obtain ⟨d', h1, hp, ha⟩ := contents_ok () (ofLess_exact (lessFloat o))
    (sortProg_sorted (lessFloat_strictWeak o) data)
  have split : ∀ l : List F, Ascending (lessFloat o) l → ∃ nans nums, l = nans ++ nums ∧
      (∀ x ∈ nans, o.isNaN x = true) ∧ (∀ x ∈ nums, o.isNaN x = false) ∧
      nums.Pairwise (fun x y => o.lt y x = false) := by
    intro l
    induction l with
    | nil => intro _; exact ⟨[], [], rfl, by simp, by simp, .nil⟩
    | cons x l ih =>
      intro h
      have h := List.pairwise_cons.1 h
      obtain ⟨a, b, e, h2, h3, h4⟩ := ih h.2
      cases hx : o.isNaN x with
      | true =>
        exact ⟨x :: a, b, by rw [e]; rfl, by
          intro y hy; rcases List.mem_cons.1 hy with rfl | hy
          · exact hx
          · exact h2 y hy, h3, h4⟩
      | false =>
        have nn : ∀ y ∈ l, o.isNaN y = false := by
          intro y hy
          have := h.1 y hy
          unfold lessFloat at this
          cases hy' : o.isNaN y with
          | false => rfl
          | true => simp [hx, hy'] at this
        refine ⟨[], x :: l, rfl, by simp, ?_, ?_⟩
        · intro y hy; rcases List.mem_cons.1 hy with rfl | hy
          · exact hx
          · exact nn y hy
        · refine List.pairwise_cons.2 ⟨fun y hy => ?_, ?_⟩
          · have := h.1 y hy
            unfold lessFloat at this
            simpa [hx, nn y hy] using this
          · have ae : a = [] := by
              cases a with
              | nil => rfl
              | cons z a =>
                have := nn z (by rw [e]; simp)
                rw [h2 z (by simp)] at this
                cases this
            subst ae
            rw [e]; exact h4
  obtain ⟨nans, nums, e, h2, h3, h4⟩ := split d' ha
  subst e
  exact ⟨nans, nums, h1, hp, h2, h3, h4⟩

/-- **C07, the statement in full** for one float type: the first sentence says `SortOrdered` leaves the
non-NaN elements ascending. -/
def C07Statement {F : Type} [Inhabited F] (o : FloatOps F) : Prop :=
  ∀ data : List F, ∃ out, sortOrdered o.lt o.ge data = .ok out ∧
    (out.filter fun x => !o.isNaN x).Pairwise (fun x y => o.lt y x = false)

/-- A small float type: the integers and one NaN (`none`). -/
def intFloat : FloatOps (Option Int) where
  lt x y := match x, y with | some a, some b => decide (a < b) | _, _ => false
  ge x y := match x, y with | some a, some b => decide (a ≥ b) | _, _ => false
  isNaN x := x.isNone
  lt_nan x y := by cases x <;> cases y <;> simp
  ge_nan x y := by cases x <;> cases y <;> simp
  ge_num x y := by
    cases x <;> cases y <;> simp
    rename_i a b
    by_cases h : a < b
    · simp [h]
    · simp [h]; omega
  irrefl x := by cases x <;> simp
  trans x y z := by cases x <;> cases y <;> cases z <;> simp; omega
  incomp x y z := by cases x <;> cases y <;> cases z <;> simp; omega

/-- **C07, first sentence, is false of the code**: `SortOrdered([2, NaN, 1])` leaves the slice as it is. -/
theorem C07_sortOrdered_false : ¬ C07Statement intFloat := by
  intro h
  obtain ⟨out, h1, h2⟩ := h [some 2, none, some 1]
  have e : sortOrdered intFloat.lt intFloat.ge [some 2, none, some 1] = .ok [some 2, none, some 1] := by
    decide +kernel
  rw [e] at h1
  injection h1 with h1
  subst h1
  revert h2
  decide

/-- What does hold of `SortOrdered` on floats: without NaN the result is ascending. -/
theorem C07_sortOrdered_partial {F : Type} [Inhabited F] (o : FloatOps F) (data : List F)
    (hn : ∀ x ∈ data, o.isNaN x = false) :
    ∃ out, sortOrdered o.lt o.ge data = .ok out ∧ out.Perm data ∧
      out.Pairwise (fun x y => o.lt y x = false) := by
  have hw : StrictWeakOn data o.lt := by
    refine ⟨fun x _ => o.irrefl x, fun x _ y _ z _ => o.trans x y z, ?_⟩
    intro x hx y hy z hz h1 h2 h3 h4
    exact o.incomp x y z (hn y hy) h1 h2 h3 h4 (hn x hx) (hn z hz)
  have e : sortOrdered o.lt o.ge data = sort o.lt data := by
    unfold sortOrdered sort
    rw [runProg_congr sortProg_closed]
    intro s k x y hx hy
    cases k <;> simp [ofOps, ofLess, o.ge_num x y (hn x hx) (hn y hy)]
  obtain ⟨out, h1, h2, h3⟩ := (C01_C05_order_on_elements o.lt data hw).1
  exact ⟨out, e.trans h1, h2, h3⟩

/-- Non-vacuity: NaN and numbers mixed. -/
example : sort (lessFloat intFloat) [some 2, none, some 1, none] = .ok [none, none, some 1, some 2] := by
  decide +kernel
example : ∀ x ∈ [some 2, some (1 : Int)], intFloat.isNaN x = false := by decide

end Verif.Sort
