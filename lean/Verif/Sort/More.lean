import Verif.Sort.Props
import Verif.Sort.AnyCost
import Verif.Sort.StableCost
import Verif.Sort.Adaptive

/-! # C72–C76: how often the comparator is called, and what a panicking comparator leaves behind -/

namespace Verif.Sort

variable {E : Type} [Inhabited E]
set_option linter.unusedSectionVars false

/-- A bound on all runs bounds each run. -/
theorem runProg_cost {σ : Type} {p : M E Unit} {cmp : σ → Kind → E → E → Bool × σ} {d : List E}
    {adm : Kind → E → E → Bool → Prop} {B : List E → Nat → Prop}
    (ha : ∀ s k x y, adm k x y (cmp s k x y).1) (h : cw adm p (fun _ d' n => B d' n) 0 d) {s : σ}
    {out : List E} {n : Nat} (hr : runProg p cmp s d = .ok (out, n)) : B out n := by
  unfold runProg at hr
  rcases he : (p d).exec cmp s with e | ⟨⟨u, d'⟩, s', n'⟩
  · rw [he] at hr; cases hr
  · rw [he] at hr
    injection hr with hr
    injection hr with h1 h2
    subst h1; subst h2
    have := Prog.cw_exec ha h s he
    simpa using this

theorem bitsLen_le (n : Nat) : bitsLen n ≤ Nat.log2 n + 1 := by
  unfold bitsLen; split <;> omega

/-! ## C72 -/

/-- **C72.** With `less` a strict weak order (on the elements of the slice), `Sort` and — for a type with
`>=` the negation of `<` — `SortOrdered` call the comparator `O(n log n)` times, whatever the slice: at
most `n * (130 * (⌊log₂ n⌋ + 1) + 29)` times. -/
theorem C72_sort_comparisons (less : E → E → Bool) (data : List E) (hw : StrictWeakOn data less) :
    (∃ out n, runProg sortProg (ofLess less) () data = .ok (out, n) ∧ Ascending less out ∧
      n ≤ data.length * (130 * (Nat.log2 data.length + 1) + 29)) ∧
    (∀ ge : E → E → Bool, (∀ x ∈ data, ∀ y ∈ data, ge x y = !less x y) →
      runProg sortProg (ofOps less ge) () data = runProg sortProg (ofLess less) () data) := by
  constructor
  · obtain ⟨⟨out, h1, h2, h3⟩, -⟩ := C01_C05_order_on_elements less data hw
    obtain ⟨lt', hw', hag⟩ := hw.extend
    have hc : ∀ (s : Unit) k x y, x ∈ data → y ∈ data → ofLess less s k x y = ofLess lt' s k x y := by
      intro s k x y hx hy
      cases k <;> simp [ofLess, hag x hx y hy]
    unfold sort at h1
    rcases hr : runProg sortProg (ofLess less) () data with e | ⟨d', n⟩
    · rw [hr] at h1; cases h1
    · rw [hr] at h1
      injection h1 with h1
      subst h1
      refine ⟨d', n, rfl, h3, ?_⟩
      rw [runProg_congr sortProg_closed hc] at hr
      have := runProg_cost (ofLess_exact lt') (sortProg_cost hw' data) hr
      exact Nat.le_trans this (Nat.mul_le_mul_left _ (by have := bitsLen_le data.length; omega))
  · intro ge hge
    rw [runProg_congr sortProg_closed]
    intro s k x y hx hy
    cases k <;> simp [ofOps, ofLess, hge x hx y hy]

/-- Non-vacuity: an order on a slice; the number of calls is what `runProg` reports. -/
example : StrictWeakOn [5, 3, 4, 1] (fun a b : Nat => decide (a < b)) := by constructor <;> decide
example : runProg sortProg (ofLess fun a b : Nat => decide (a < b)) () [5, 3, 4, 1] =
    .ok ([1, 3, 4, 5], 6) := by decide +kernel

/-! ## C73 -/

/-- **C73.** `Stable` calls its comparator at most `n * (4 * (⌊log₂ n⌋ + 1) + 19)` times: for every
comparator, also one that is not an order or answers from a state. -/
theorem C73_stable_comparisons (data : List E) {σ : Type} (less : σ → E → E → Bool × σ) (s : σ) :
    ∃ out n, runProg stableProg (ofStateful less) s data = .ok (out, n) ∧
      n ≤ data.length * (4 * (Nat.log2 data.length + 1) + 19) := by
  obtain ⟨out, n, h, -⟩ := C02_stable_rearranges data σ less s
  refine ⟨out, n, h, ?_⟩
  have := runProg_cost (adm := fun _ _ _ _ => True) (fun _ _ _ _ => trivial) (stableProg_cost data) h
  exact Nat.le_trans this (Nat.mul_le_mul_left _ (by have := bitsLen_le data.length; omega))

/-- The same for the `Ordered` variant and for a plain comparator. -/
theorem C73_stable_comparisons_pure (data : List E) (less lt ge : E → E → Bool) :
    (∃ out n, runProg stableProg (ofLess less) () data = .ok (out, n) ∧
      n ≤ data.length * (4 * (Nat.log2 data.length + 1) + 19)) ∧
    (∃ out n, runProg stableProg (ofOps lt ge) () data = .ok (out, n) ∧
      n ≤ data.length * (4 * (Nat.log2 data.length + 1) + 19)) := by
  have key : ∀ cmp : Unit → Kind → E → E → Bool × Unit, ∃ out n,
      runProg stableProg cmp () data = .ok (out, n) ∧
      n ≤ data.length * (4 * (Nat.log2 data.length + 1) + 19) := by
    intro cmp
    obtain ⟨out, n, h, -⟩ := runProg_ok (adm := fun _ _ _ _ => True) (cmp := cmp) ()
      (fun _ _ _ _ => trivial) (stableProg_any data)
    refine ⟨out, n, h, ?_⟩
    have := runProg_cost (adm := fun _ _ _ _ => True) (fun _ _ _ _ => trivial) (stableProg_cost data) h
    exact Nat.le_trans this (Nat.mul_le_mul_left _ (by have := bitsLen_le data.length; omega))
  exact ⟨key _, key _⟩

example : runProg stableProg (ofLess fun a b : Nat => decide (a < b)) () ((List.range 25).map (· * 7 % 5)) =
    .ok ([0, 0, 0, 0, 0, 1, 1, 1, 1, 1, 2, 2, 2, 2, 2, 3, 3, 3, 3, 3, 4, 4, 4, 4, 4], 119) := by
  decide +kernel

/-! ## C74 -/

/-- **C74.** Against *any* comparator — not an order, or answering from a state — `Sort` still calls it
only quadratically often: at most `n * (7 * n + 4 * (⌊log₂ n⌋ + 1) + 18)` times. -/
theorem C74_sort_comparisons_any (data : List E) {σ : Type} (less : σ → E → E → Bool × σ) (s : σ) :
    ∃ out n, runProg sortProg (ofStateful less) s data = .ok (out, n) ∧
      n ≤ data.length * (7 * data.length + 4 * (Nat.log2 data.length + 1) + 18) := by
  obtain ⟨out, n, h, -⟩ := (C02_sort_rearranges data).2.2 σ less s
  refine ⟨out, n, h, ?_⟩
  have := runProg_cost (adm := fun _ _ _ _ => True) (fun _ _ _ _ => trivial) (sortProg_cost_any data) h
  exact Nat.le_trans this (Nat.mul_le_mul_left _ (by have := bitsLen_le data.length; omega))

/-- Non-vacuity: a comparator that alternates its answers, on a slice that is quicksorted. -/
example : ((runProg sortProg (ofStateful fun (s : Bool) (_ _ : Nat) => (s, !s)) true (List.range 14)).map
    (·.2)).toOption = some 36 := by decide +kernel

/-! ## C75 -/

/-- **C75.** On a slice that is ascending already `Sort` changes nothing and calls the comparator at most
`n + 11` times — whatever the comparator answers on other pairs. -/
theorem C75_ascending_unchanged (less : E → E → Bool) (data : List E) (ha : Ascending less data) :
    ∃ n, runProg sortProg (ofLess less) () data = .ok (data, n) ∧ n ≤ data.length + 11 := by
  obtain ⟨out, n, h, -⟩ := runProg_ok (adm := fun _ _ _ _ => True) (cmp := ofLess less) ()
    (fun _ _ _ _ => trivial) (sortProg_any data)
  have := runProg_cost (ofLess_exact less) (sortProg_asc data ha) h
  exact ⟨n, by rw [h, this.1], this.2⟩

/-- Hence sorting twice is sorting once, for a strict weak order. -/
theorem C75_idempotent (less : E → E → Bool) (data : List E) (hw : StrictWeakOn data less) :
    ∃ out, sort less data = .ok out ∧ sort less out = .ok out := by
  obtain ⟨⟨out, h1, -, h3⟩, -⟩ := C01_C05_order_on_elements less data hw
  obtain ⟨n, h, -⟩ := C75_ascending_unchanged less out h3
  exact ⟨out, h1, by unfold sort; rw [h]; rfl⟩

/-- Non-vacuity: a slice with equal elements, long enough for the quicksort branch. -/
example : Ascending (fun a b : Nat => decide (a < b)) [1, 1, 2, 3, 3, 3, 4, 5, 6, 6, 7, 8, 9, 9] := by
  unfold Ascending; decide
example : runProg sortProg (ofLess fun a b : Nat => decide (a < b)) ()
    [1, 1, 2, 3, 3, 3, 4, 5, 6, 6, 7, 8, 9, 9] = .ok ([1, 1, 2, 3, 3, 3, 4, 5, 6, 6, 7, 8, 9, 9], 16) := by
  decide +kernel

/-- `Stable` changes nothing either. -/
theorem C75_stable_unchanged (less : E → E → Bool) (hw : StrictWeak less) (data : List E)
    (ha : Ascending less data) : stableSort less data = .ok data := by
  obtain ⟨out, h1, h2, h3, h4⟩ := contents_ok () (ofLess_exact less) (stableProg_fine hw data)
  suffices h : out = data by subst h; exact h1
  -- two ascending lists with the same equivalence classes in the same order are equal
  have key : ∀ l l' : List E, Ascending less l → Ascending less l' → l.Perm l' →
      (∀ x, l.filter (equiv less x) = l'.filter (equiv less x)) → l = l' := by
    intro l
    induction l with
    | nil => intro l' _ _ hp _; exact hp.nil_eq
    | cons x l ih =>
      intro l' h1 h2 hp hf
      have hxx : equiv less x x = true := by simp [equiv, hw.irrefl]
      cases l' with
      | nil => exact absurd hp.symm.nil_eq (by simp)
      | cons y l' =>
        have hp1 := List.pairwise_cons.1 h1
        have hp2 := List.pairwise_cons.1 h2
        have hxy : less y x = false ∧ less x y = false := by
          constructor
          · rcases List.mem_cons.1 (hp.mem_iff.2 (List.mem_cons_self (a := y) (l := l'))) with h | h
            · rw [h]; exact hw.irrefl _
            · exact hp1.1 y h
          · rcases List.mem_cons.1 (hp.mem_iff.1 (List.mem_cons_self (a := x) (l := l))) with h | h
            · rw [h]; exact hw.irrefl _
            · exact hp2.1 x h
        have heq : equiv less x y = true := by simp [equiv, hxy]
        have e := hf x
        rw [List.filter_cons_of_pos hxx, List.filter_cons_of_pos heq] at e
        injection e with e1 e2
        subst e1
        congr 1
        refine ih l' hp1.2 hp2.2 (List.Perm.cons_inv hp) fun z => ?_
        have e := hf z
        by_cases hz : equiv less z x = true
        · rw [List.filter_cons_of_pos hz, List.filter_cons_of_pos hz] at e
          injection e
        · rw [List.filter_cons_of_neg hz, List.filter_cons_of_neg hz] at e
          exact e
  exact key out data h3 ha h2 h4

example (data : List Int) (h : Ascending (fun a b => decide (a < b)) data) :
    stableSort (fun a b => decide (a < b)) data = .ok data :=
  C75_stable_unchanged _ intLt_strictWeak _ h

/-! ## C76 -/

/-- A run against a comparator that may panic never crashes by itself, and the panic it may end with is
one of the comparator's, on two elements of the slice. -/
theorem Prog.runP_ok {α σ : Type} {P : List E} {cmp : σ → Kind → E → E → Go Bool × σ}
    (p : Prog E (α × List E)) {Q : α × List E → Prop} (hw : p.wp (fun _ _ _ _ => True) Q)
    (hp : p.closed P) (s : σ) :
    (∃ a, p.runP cmp s = .done a ∧ Q a) ∨
    (∃ msg slice, p.runP cmp s = .panicked msg slice ∧ slice.Perm P ∧
      ∃ s' k x y, x ∈ P ∧ y ∈ P ∧ (cmp s' k x y).1 = .error msg) := by
  induction p generalizing s with
  | ret a => exact Or.inl ⟨a, rfl, hw⟩
  | fail _ => exact hw.elim
  | note e p ih => exact ih hw hp s
  | ask k x y d next ih =>
    unfold Prog.runP
    rcases hc : (cmp s k x y).1 with e | b
    · exact Or.inr ⟨e, d, rfl, hp.2.2.1, s, k, x, y, hp.1, hp.2.1, hc⟩
    · exact ih b (hw b trivial) (hp.2.2.2 b) _

/-- **C76.** Whatever the comparator does — including keeping state and panicking — `Sort` and `Stable`
either return, with the original elements rearranged, or end with a panic of the comparator raised on two
elements of the slice; and then too the slice holds exactly the original elements. -/
theorem C76_panicking_comparator (data : List E) {σ : Type} (less : σ → E → E → Go Bool × σ) (s : σ)
    (p : M E Unit) (hp : p = sortProg ∨ p = stableProg) :
    (∃ out, (p data).runP (ofPanicking less) s = .done ((), out) ∧ out.Perm data) ∨
    (∃ msg slice, (p data).runP (ofPanicking less) s = .panicked msg slice ∧ slice.Perm data ∧
      ∃ s' x y, x ∈ data ∧ y ∈ data ∧ (less s' x y).1 = .error msg) := by
  have hw : (p data).wp (fun _ _ _ _ => True) fun q => q.2.Perm data := by
    rcases hp with rfl | rfl
    · exact sortProg_any data
    · exact stableProg_any data
  have hc : (p data).closed data := by
    rcases hp with rfl | rfl
    · exact sortProg_closed.run data (List.Perm.refl _)
    · exact stableProg_closed.run data (List.Perm.refl _)
  rcases Prog.runP_ok (cmp := ofPanicking less) (p data) hw hc s with ⟨⟨⟨⟩, out⟩, h1, h2⟩ | ⟨m, sl, h1, h2, h3⟩
  · exact Or.inl ⟨out, h1, h2⟩
  · refine Or.inr ⟨m, sl, h1, h2, ?_⟩
    obtain ⟨s', k, x, y, hx, hy, he⟩ := h3
    refine ⟨s', x, y, hx, hy, ?_⟩
    cases k with
    | lt => exact he
    | nlt =>
      rcases hl : (less s' x y).1 with e | b
      · simp only [ofPanicking, hl] at he
        exact he
      · simp only [ofPanicking, hl] at he
        cases he

/-- If the comparator never panics, the run is the one of C01–C07. -/
theorem C76_no_panic (data : List E) {σ : Type} (less : σ → E → E → Bool × σ) (s : σ) (p : M E Unit)
    (d' : List E) (n : Nat) (h : runProg p (ofStateful less) s data = .ok (d', n)) :
    (p data).runP (ofPanicking fun s x y => (.ok (less s x y).1, (less s x y).2)) s = .done ((), d') := by
  unfold runProg at h
  have key : ∀ (q : Prog E (Unit × List E)) (s : σ) a s' n, q.exec (ofStateful less) s = .ok (a, s', n) →
      q.runP (ofPanicking fun s x y => (.ok (less s x y).1, (less s x y).2)) s = .done a := by
    intro q
    induction q with
    | ret a =>
      intro s b s' n h
      injection h with h
      injection h with h
      subst h; rfl
    | fail _ => intro s b s' n h; cases h
    | note e p ih => exact ih
    | ask k x y d next ih =>
      intro s b s' n h
      unfold Prog.exec at h
      rcases hx : (next (ofStateful less s k x y).1).exec (ofStateful less) (ofStateful less s k x y).2
        with e | ⟨b', t, l⟩
      · rw [hx] at h; cases h
      · rw [hx] at h
        injection h with h
        injection h with h
        subst h
        cases k
        · exact ih _ _ _ _ _ hx
        · exact ih _ _ _ _ _ hx
  rcases he : (p data).exec (ofStateful less) s with e | ⟨⟨⟨⟩, out⟩, s', n'⟩
  · rw [he] at h; cases h
  · rw [he] at h
    injection h with h
    injection h with h
    subst h
    exact key _ _ _ _ _ he

/-- Non-vacuity: a comparator that panics at its fourth call; the slice is rearranged at that time. -/
example : (sortProg [4, 3, 2, 1]).runP (ofPanicking fun (s : Nat) (x y : Nat) =>
    (if s = 3 then .error "boom" else .ok (decide (x < y)), s + 1)) 0 = .panicked "boom" [2, 3, 4, 1] := by
  decide +kernel

end Verif.Sort
