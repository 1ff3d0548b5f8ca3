import Verif.Sort.OrderedRacedModel
import Verif.Sort.WrittenSim

/-!
# `sort_ordered.go` among others follows the common model, step by step

As in `Verif.Sort.WrittenSim`, for `Verif.Sort.OrderedRacedModel`: `Sim` relates programs of the common model to functions
as written that are built alike.
-/

set_option linter.unusedSectionVars false

namespace Verif.Sort.OrderedRaced

open Verif.Sort
open Verif.Sort.Ordered (bitsLen_le mask_small)
open Verif.Sort.Written (Leaf leaf_wp leaf_seq Reach leaf_prog_wp lessAt_eq nlessAt_eq leaf_mergePass)

variable {σ E : Type} [Inhabited E] {env : World σ E} {α β : Type}

/-! ## Built alike -/

/-- The program `p` of the common model and the function `q` as written are built alike, on slices of length `n`; what
`p` returns is turned into what `q` returns by `f`. A program that fails is related to everything. -/
inductive Sim (env : World σ E) (n : Nat) : {α β : Type} → (α → β) → M E α → R σ E β → Prop where
  | pure {α β : Type} {f : α → β} (x : α) {y : β} (h : f x = y) : Sim env n f (Pure.pure x) (Pure.pure y)
  | fail {α β : Type} {f : α → β} (msg : String) (q : R σ E β) : Sim env n f (M.fail msg) q
  | bind {α β α' β' : Type} {f : α' → β'} {g : α → β} {p : M E α'} {k : α' → M E α} {q : R σ E β'} {l : β' → R σ E β}
      (h : Sim env n f p q) (hk : ∀ a, Reach n p a → Sim env n g (k a) (l (f a))) : Sim env n g (p >>= k) (q >>= l)
  | ltAt (i j : Int) : Sim env n id (lessAt i j) (isLt env i j)
  | nless (i j : Int) : Sim env n id (nlessAt i j) (isGe env i j)
  | swap (i j : Int) : Sim env n id (Sort.swap i j) (exchange env i j)
  | recurse {p : M E Unit} {q : R σ E Unit} (h : Sim env n id p q) : Sim env n id (Sort.recurse p) q
  | inside_less {α β : Type} {g : α → β} {i j : Int} {k : Bool → M E α} {q : R σ E β}
      (h : 0 ≤ i → i < n → Sim env n g (lessAt i j >>= k) q) : Sim env n g (lessAt i j >>= k) q
  | inside_nless {α β : Type} {g : α → β} {i j : Int} {k : Bool → M E α} {q : R σ E β}
      (h : 0 ≤ j → j < n → Sim env n g (nlessAt i j >>= k) q) : Sim env n g (nlessAt i j >>= k) q

variable {n : Nat}

theorem Sim.ite {f : α → β} {c : Prop} [Decidable c] {p p' : M E α} {q q' : R σ E β} (h : c → Sim env n f p q)
    (h' : ¬ c → Sim env n f p' q') : Sim env n f (if c then p else p') (if c then q else q') := by
  by_cases hc : c
  · simp only [if_pos hc]; exact h hc
  · simp only [if_neg hc]; exact h' hc

/-- Sequencing. -/
theorem Sim.seq {g : α → β} {p : M E Unit} {k : M E α} {q : R σ E Unit} {l : R σ E β}
    (h : Sim env n id p q) (hk : Sim env n g k l) : Sim env n g (do p; k) (do q; l) :=
  h.bind fun _ _ => hk

theorem bind_ok {α β : Type} {q : R σ E α} {l : α → R σ E β} {w w1 : σ × List E} {a : α} (h : q w = some (.ok a, w1)) :
    (q >>= l) w = l a w1 := by
  show (q w).bind (fun r => ExceptT.bindCont l r.1 r.2) = _
  rw [h]
  rfl

theorem bind_error {α β : Type} {q : R σ E α} {l : α → R σ E β} {w w1 : σ × List E} {e : String}
    (h : q w = some (.error e, w1)) : (q >>= l) w = some (.error e, w1) := by
  show (q w).bind (fun r => ExceptT.bindCont l r.1 r.2) = _
  rw [h]
  rfl

theorem half_eq {x : Int} (h0 : 0 ≤ x) (h1 : x < 2 ^ 64) : half x = x / 2 := by
  unfold half
  rw [Int.emod_eq_of_lt h0 h1]

/-! ## Function by function -/

theorem sim_insInner (a j : Int) : Sim env n id (insInner a j) (insertionInner env a j) := by
  rw [insInner, insertionInner]
  refine .ite (fun h => ?_) (fun _ => .pure _ rfl)
  exact (Sim.ltAt _ _).bind fun b _ => .ite (fun _ => (Sim.swap _ _).seq (sim_insInner a (j - 1)))
    (fun _ => .pure _ rfl)
termination_by (j - a).toNat

theorem sim_insOuter (a b i : Int) : Sim env n id (insOuter a b i) (insertionOuter env a b i) := by
  rw [insOuter, insertionOuter]
  exact .ite (fun h => (sim_insInner a i).seq (sim_insOuter a b (i + 1))) (fun _ => .pure _ rfl)
termination_by (b - i).toNat

theorem sim_insertionSort (a b : Int) : Sim env n id (Sort.insertionSort a b) (insertionSort env a b) :=
  sim_insOuter a b (a + 1)

theorem sim_pickChild (child hi first : Int) : Sim env n id (pickChild child hi first) (largerChild env hi first child) :=
  .ite (fun _ => (Sim.ltAt _ _).bind fun _ _ => .ite (fun _ => .pure _ rfl) (fun _ => .pure _ rfl)) (fun _ => .pure _ rfl)

theorem sim_siftDown (root hi first : Int) : Sim env n id (Sort.siftDown root hi first) (siftLoop env hi first root) := by
  rw [Sort.siftDown, siftLoop]
  refine .ite (fun _ => .pure _ rfl) (fun h => (sim_pickChild _ _ _).bind fun child _ => ?_)
  by_cases hc : root < child ∧ child < hi
  · rw [dif_pos hc]
    exact (Sim.nless _ _).bind fun b _ => .ite (fun _ => .pure _ rfl) (fun _ => (Sim.swap _ _).seq (sim_siftDown child hi first))
  · rw [dif_neg hc]
    exact .fail _ _
termination_by (hi - root).toNat

theorem sim_heapBuild (i hi first : Int) : Sim env n id (Sort.heapBuild i hi first) (heapBuild env hi first i) := by
  rw [Sort.heapBuild, heapBuild]
  exact .ite (fun h => (sim_siftDown _ _ _).seq (sim_heapBuild (i - 1) hi first)) (fun _ => .pure _ rfl)
termination_by (i + 1).toNat

theorem sim_heapPop (i first : Int) : Sim env n id (Sort.heapPop i first) (heapPop env 0 first i) := by
  rw [Sort.heapPop, heapPop]
  exact .ite (fun h => (Sim.swap _ _).seq ((sim_siftDown _ _ _).seq (sim_heapPop (i - 1) first))) (fun _ => .pure _ rfl)
termination_by (i + 1).toNat

theorem sim_heapSort (a b : Int) (h : a < b) : Sim env n id (Sort.heapSort a b) (heapSort env a b) := by
  have e : (b - a - 1).tdiv 2 = (b - a - 1) / 2 := Int.tdiv_eq_ediv_of_nonneg (by omega)
  unfold Sort.heapSort heapSort
  simp only [e]
  exact (sim_heapBuild _ _ _).seq (sim_heapPop _ _)

theorem sim_scanUp (a j i : Int) : Sim env n id (scanUp a j i) (partUp env a j i) := by
  rw [scanUp, partUp]
  exact .ite (fun h => (Sim.ltAt _ _).bind fun b _ => .ite (fun _ => sim_scanUp a j (i + 1)) (fun _ => .pure _ rfl))
    (fun _ => .pure _ rfl)
termination_by (j + 1 - i).toNat

theorem sim_scanDown (a i j : Int) : Sim env n id (scanDown a i j) (partDown env a i j) := by
  rw [scanDown, partDown]
  exact .ite (fun h => (Sim.nless _ _).bind fun b _ => .ite (fun _ => sim_scanDown a i (j - 1)) (fun _ => .pure _ rfl))
    (fun _ => .pure _ rfl)
termination_by (j + 1 - i).toNat

theorem sim_partLoop (a : Int) {β : Type} (g : Int → β) : ∀ (fuel : Nat) (i j : Int),
    Sim env n g (Sort.partLoop fuel a i j) (do let j ← partLoop env a i j; exchange env j a; pure (g j)) := by
  intro fuel
  induction fuel with
  | zero => intro i j; exact .fail _ _
  | succ fuel ih =>
    intro i j
    rw [Sort.partLoop, partLoop, bind_assoc]
    refine (sim_scanUp _ _ _).bind fun i _ => ?_
    rw [bind_assoc]
    refine (sim_scanDown _ _ _).bind fun j _ => ?_
    simp only [id]
    by_cases h : i > j
    · rw [if_pos h, if_pos h, pure_bind]
      exact (Sim.swap _ _).seq (.pure _ rfl)
    · rw [if_neg h, if_neg h, bind_assoc]
      exact (Sim.swap _ _).seq (ih _ _)

theorem sim_partition (a b pivot : Int) : Sim env n id (Sort.partition a b pivot) (partition env a b pivot) := by
  unfold Sort.partition partition
  refine (Sim.swap _ _).seq ((sim_scanUp _ _ _).bind fun i _ => (sim_scanDown _ _ _).bind fun j _ => ?_)
  refine .ite (fun _ => (Sim.swap _ _).seq (.pure _ rfl)) (fun _ => (Sim.swap _ _).seq ?_)
  have h := (sim_partLoop (env := env) (n := n) a (fun j => (j, false)) (b - a).toNat (i + 1) (j - 1)).bind
    (g := id) (k := fun j => pure (j, false)) (l := pure) fun _ _ => .pure _ rfl
  simp only [bind_assoc, pure_bind] at h
  exact h

theorem sim_scanUpEq (a j i : Int) : Sim env n id (scanUpEq a j i) (equalUp env a j i) := by
  rw [scanUpEq, equalUp]
  exact .ite (fun h => (Sim.nless _ _).bind fun b _ => .ite (fun _ => sim_scanUpEq a j (i + 1)) (fun _ => .pure _ rfl))
    (fun _ => .pure _ rfl)
termination_by (j + 1 - i).toNat

theorem sim_scanDownEq (a i j : Int) : Sim env n id (scanDownEq a i j) (equalDown env a i j) := by
  rw [scanDownEq, equalDown]
  exact .ite (fun h => (Sim.ltAt _ _).bind fun b _ => .ite (fun _ => sim_scanDownEq a i (j - 1)) (fun _ => .pure _ rfl))
    (fun _ => .pure _ rfl)
termination_by (j + 1 - i).toNat

theorem sim_partEqLoop (a : Int) : ∀ (fuel : Nat) (i j : Int),
    Sim env n id (partEqLoop fuel a i j) (equalLoop env a i j) := by
  intro fuel
  induction fuel with
  | zero => intro i j; exact .fail _ _
  | succ fuel ih =>
    intro i j
    rw [partEqLoop, equalLoop]
    exact (sim_scanUpEq _ _ _).bind fun i _ => (sim_scanDownEq _ _ _).bind fun j _ =>
      .ite (fun _ => .pure _ rfl) (fun _ => (Sim.swap _ _).seq (ih _ _))

theorem sim_partitionEqual (a b pivot : Int) :
    Sim env n id (Sort.partitionEqual a b pivot) (partitionEqual env a b pivot) :=
  (Sim.swap _ _).seq (sim_partEqLoop _ _ _ _)

theorem sim_scanSorted (b i : Int) : Sim env n id (scanSorted b i) (ascend env b i) := by
  rw [scanSorted, ascend]
  exact .ite (fun h => (Sim.nless _ _).bind fun _ _ => .ite (fun _ => sim_scanSorted b (i + 1)) (fun _ => .pure _ rfl))
    (fun _ => .pure _ rfl)
termination_by (b - i).toNat

theorem sim_shiftLeft (j : Int) : Sim env n id (shiftLeft j) (toLeft env j) := by
  rw [shiftLeft, toLeft]
  exact .ite (fun h => (Sim.nless _ _).bind fun _ _ => .ite (fun _ => .pure _ rfl)
    (fun _ => (Sim.swap _ _).seq (sim_shiftLeft (j - 1)))) (fun _ => .pure _ rfl)
termination_by j.toNat

theorem sim_shiftRight (b j : Int) : Sim env n id (shiftRight b j) (toRight env b j) := by
  rw [shiftRight, toRight]
  exact .ite (fun h => (Sim.nless _ _).bind fun _ _ => .ite (fun _ => .pure _ rfl)
    (fun _ => (Sim.swap _ _).seq (sim_shiftRight b (j + 1)))) (fun _ => .pure _ rfl)
termination_by (b - j).toNat

theorem sim_when {c : Prop} [Decidable c] {p : M E Unit} {q : R σ E Unit} (h : c → Sim env n id p q) :
    Sim env n id (M.when c p) (if c then q else pure ()) := .ite h (fun _ => .pure _ rfl)

theorem sim_partialLoop (a b : Int) : ∀ (m : Nat) (i j : Int), j + m = 5 →
    Sim env n id (Sort.partialLoop m a b i) (partialLoop env a b i j) := by
  intro m
  induction m with
  | zero =>
    intro i j h
    rw [Sort.partialLoop, partialLoop, if_neg (by omega)]
    exact .pure _ rfl
  | succ m ih =>
    intro i j h
    rw [Sort.partialLoop, partialLoop, if_pos (by omega)]
    exact (sim_scanSorted _ _).bind fun i _ => .ite (fun _ => .pure _ rfl) (fun _ => .ite (fun _ => .pure _ rfl) (fun _ =>
      (Sim.swap _ _).seq ((sim_when fun _ => sim_shiftLeft _).seq ((sim_when fun _ => sim_shiftRight _ _).seq
        (ih i (j + 1) (by omega))))))

theorem sim_partialInsertionSort (a b : Int) :
    Sim env n id (Sort.partialInsertionSort a b) (partialInsertionSort env a b) := sim_partialLoop a b 5 _ 0 rfl

theorem sim_breakRound (a length idx idx' : Int) (h8 : 8 ≤ length) (hl : length < 2 ^ 63) (r : BitVec 64) (m : Nat)
    (hi : idx ≤ a + length / 4 * 2 + 1) (e : idx' = idx + 1)
    (h : Sim env n id (Sort.breakLoop m a length idx' (xorshiftNext r)) (breakLoop env a length idx' (xorshiftNext r))) :
    Sim env n id (Sort.breakLoop (m + 1) a length idx r) (breakLoop env a length idx r) := by
  subst e
  have e4 : length.tdiv 4 = length / 4 := Int.tdiv_eq_ediv_of_nonneg (by omega)
  rw [Sort.breakLoop, breakLoop, e4, if_pos hi]
  simp only [mask_small _ (m := length.toNat) (by omega)]
  exact (Sim.swap _ _).seq h

theorem sim_breakPatterns (a b : Int) (hl : b - a < 2 ^ 63) : Sim env n id (Sort.breakPatterns a b) (breakPatterns env a b) := by
  unfold Sort.breakPatterns breakPatterns
  refine .ite (fun h8 => ?_) (fun _ => .pure _ rfl)
  have e4 : (b - a).tdiv 4 = (b - a) / 4 := Int.tdiv_eq_ediv_of_nonneg (by omega)
  rw [e4]
  refine sim_breakRound _ _ _ (a + (b - a) / 4 * 2) h8 hl _ _ (by omega) (by omega) ?_
  refine sim_breakRound _ _ _ (a + (b - a) / 4 * 2 + 1) h8 hl _ _ (by omega) (by omega) ?_
  refine sim_breakRound _ _ _ (a + (b - a) / 4 * 2 + 2) h8 hl _ _ (by omega) (by omega) ?_
  rw [Sort.breakLoop, breakLoop, e4, if_neg (by omega)]
  exact .pure _ rfl

theorem sim_order2 (a b : Int) (s : Nat) :
    Sim env n (fun x => (x.1, x.2.1, (x.2.2 : Int))) (Sort.order2 a b s) (order2 env a b s) :=
  (Sim.ltAt _ _).bind fun _ _ => .ite (fun _ => .pure _ rfl) (fun _ => .pure _ rfl)

theorem sim_median (a b c : Int) (s : Nat) :
    Sim env n (fun x => (x.1, (x.2 : Int))) (Sort.median a b c s) (median env a b c s) :=
  (sim_order2 _ _ _).bind fun _ _ => (sim_order2 _ _ _).bind fun _ _ => (sim_order2 _ _ _).bind fun _ _ => .pure _ rfl

theorem sim_medianAdjacent (a : Int) (s : Nat) :
    Sim env n (fun x => (x.1, (x.2 : Int))) (Sort.medianAdjacent a s) (medianAdjacent env a s) := sim_median _ _ _ _

theorem sim_ninther (l i j k : Int) :
    Sim env n (fun x => (x.1, x.2.1, x.2.2.1, (x.2.2.2 : Int))) (Sort.ninther l i j k) (ninther env l i j k 0) :=
  .ite (fun _ => (sim_medianAdjacent i 0).bind fun _ _ => (sim_medianAdjacent _ _).bind fun _ _ =>
    (sim_medianAdjacent _ _).bind fun _ _ => .pure _ rfl) (fun _ => .pure _ rfl)

theorem sim_pivotOf (l i j k : Int) :
    Sim env n (fun x => (x.1, (x.2 : Int))) (pivotOf l i j k) (candidate env l i j k 0) :=
  .ite (fun _ => (sim_ninther _ _ _ _).bind fun _ _ => sim_median _ _ _ _) (fun _ => .pure _ rfl)

theorem sim_choosePivot (a b : Int) (h : a ≤ b) : Sim env n id (Sort.choosePivot a b) (choosePivot env a b) := by
  have e4 : (b - a).tdiv 4 = (b - a) / 4 := Int.tdiv_eq_ediv_of_nonneg (by omega)
  unfold Sort.choosePivot choosePivot
  simp only [e4]
  refine (sim_pivotOf _ _ _ _).bind fun x _ => ?_
  obtain ⟨j, s⟩ := x
  by_cases h0 : s = 0
  · subst h0; exact .pure _ rfl
  · by_cases h12 : s = 12
    · subst h12; exact .pure _ rfl
    · have g0 : ¬ (s : Int) = 0 := by omega
      have g12 : ¬ (s : Int) = 4 * 3 := by omega
      simp only [if_neg h0, if_neg h12, if_neg g0, if_neg g12]
      exact .pure _ rfl

theorem sim_revLoop (i j : Int) : Sim env n id (revLoop i j) (reverseLoop env i j) := by
  rw [revLoop, reverseLoop]
  exact .ite (fun h => (Sim.swap _ _).seq (sim_revLoop (i + 1) (j - 1))) (fun _ => .pure _ rfl)
termination_by (j - i).toNat

theorem sim_reverseIfDecreasing (a b pivot : Int) (hint : Hint) :
    Sim env n id (reverseIfDecreasing a b pivot hint) (if hint = .decreasing then do
        reverseRange env a b
        pure ((b - 1) - (pivot - a), .increasing)
      else pure (pivot, hint)) :=
  .ite (fun _ => (sim_revLoop _ _).seq (.pure _ rfl)) (fun _ => .pure _ rfl)

theorem sim_breakIfUnbalanced (wb : Bool) (a b limit : Int) (hl : b - a < 2 ^ 63) :
    Sim env n id (breakIfUnbalanced wb a b limit)
      (if !wb then do breakPatterns env a b; pure (limit - 1) else pure limit) := by
  cases wb
  · exact (sim_breakPatterns a b hl).seq (.pure _ rfl)
  · exact .pure _ rfl

theorem sim_tryPartial (wb wp : Bool) (hint : Hint) (a b : Int) :
    Sim env n id (tryPartial (wb = true ∧ wp = true ∧ hint = .increasing) a b)
      (if wb && wp && decide (hint = .increasing) then partialInsertionSort env a b else pure false) := by
  unfold tryPartial
  by_cases h : wb = true ∧ wp = true ∧ hint = .increasing
  · rw [if_pos h, if_pos (by obtain ⟨rfl, rfl, rfl⟩ := h; rfl)]
    exact sim_partialInsertionSort _ _
  · rw [if_neg h, if_neg (by simpa [and_assoc] using h)]
    exact .pure _ rfl

theorem sim_manyEqual (a pivot : Int) :
    Sim env n id (manyEqual a pivot) (if a > 0 then isGe env (a - 1) pivot else pure false) :=
  .ite (fun _ => Sim.nless _ _) (fun _ => .pure _ rfl)

theorem sim_pdqsort (hn : n < 2 ^ 63) : ∀ (fuel : Nat) (a b limit : Int) (wb wp : Bool), 0 ≤ a → a ≤ b → b ≤ n →
    Sim env n id (Sort.pdqsort fuel a b limit wb wp) (pdqLoop env a b limit wb wp) := by
  intro fuel
  induction fuel with
  | zero => intro a b limit wb wp _ _ _; exact .fail _ _
  | succ fuel ih =>
    intro a b limit wb wp ha hab hb
    have e8 : (b - a).tdiv 8 = (b - a) / 8 := Int.tdiv_eq_ediv_of_nonneg (by omega)
    rw [Sort.pdqsort, pdqLoop]
    refine .ite (fun _ => sim_insertionSort _ _) (fun h12 => .ite (fun _ => sim_heapSort _ _ (by omega)) (fun _ => ?_))
    refine (sim_breakIfUnbalanced _ _ _ _ (by omega)).bind fun limit _ => ?_
    refine (sim_choosePivot _ _ hab).bind fun ph hp => ?_
    have hp1 : a ≤ ph.1 ∧ ph.1 < b := by
      obtain ⟨d, d', hd, hp⟩ := hp
      exact (leaf_wp (choosePivot_any a b d ⟨ha, by omega⟩ (by omega)) hp).2
    refine (sim_reverseIfDecreasing _ _ _ _).bind fun ph' hp' => ?_
    have hp2 : a ≤ ph'.1 ∧ ph'.1 < b := by
      obtain ⟨d, d', hd, hp'⟩ := hp'
      exact (leaf_wp (reverseIfDecreasing_any a b ph.1 ph.2 d ⟨ha, by omega⟩ hp1.1 hp1.2) hp').2
    refine (sim_tryPartial _ _ _ _ _).bind fun done _ => ?_
    refine .ite (fun _ => .pure _ rfl) (fun _ => ?_)
    refine (sim_manyEqual _ _).bind fun many _ => ?_
    refine .ite (fun _ => ?_) (fun _ => ?_)
    · refine (sim_partitionEqual _ _ _).bind fun mid hm => ?_
      have hm1 : a < mid ∧ mid ≤ b := by
        obtain ⟨d, d', hd, hm⟩ := hm
        have := (leaf_wp (partitionEqual_any a b ph'.1 d ⟨ha, by omega⟩ hp2.1 hp2.2 (by omega)) hm).2
        exact ⟨this.1, this.2.1⟩
      exact ih _ _ _ _ _ (by omega) hm1.2 hb
    · refine (sim_partition _ _ _).bind fun mp hm => ?_
      have hm1 : a ≤ mp.1 ∧ mp.1 < b := by
        obtain ⟨d, d', hd, hm⟩ := hm
        have := (leaf_wp (partition_any a b ph'.1 d ⟨ha, by omega⟩ hp2.1 hp2.2) hm).2
        exact ⟨this.1, this.2.1⟩
      simp only [e8, id]
      exact .ite (fun _ => (ih a mp.1 limit true true ha hm1.1 (by omega)).recurse.seq
          (ih (mp.1 + 1) b limit _ mp.2 (by omega) (by omega) hb))
        (fun _ => (ih (mp.1 + 1) b limit true true (by omega) (by omega) hb).recurse.seq
          (ih a mp.1 limit _ mp.2 ha hm1.1 (by omega)))

theorem sim_swapRange (a b m i : Int) : Sim env n id (Sort.swapRange a b m i) (swapRange env a b m i) := by
  rw [Sort.swapRange, swapRange]
  exact .ite (fun h => (Sim.swap _ _).seq (sim_swapRange a b m (i + 1))) (fun _ => .pure _ rfl)
termination_by (m - i).toNat

theorem sim_rotateLoop (m i j : Int) : Sim env n id (Sort.rotateLoop m i j) (rotateLoop env m i j) := by
  rw [Sort.rotateLoop, rotateLoop]
  by_cases h : i = j
  · rw [if_pos h, if_neg (by simpa using h)]
    exact sim_swapRange _ _ _ _
  · rw [if_neg h, if_pos h]
    by_cases h0 : i ≤ 0 ∨ j ≤ 0
    · rw [if_pos h0]; exact .fail _ _
    · rw [if_neg h0]
      exact .ite (fun h1 => (sim_swapRange _ _ _ _).seq (sim_rotateLoop m (i - j) j))
        (fun h1 => (sim_swapRange _ _ _ _).seq (sim_rotateLoop m i (j - i)))
termination_by (i + j).toNat

theorem sim_searchGE (hn : n < 2 ^ 63) (a i j : Int) : Sim env n id (searchGE a i j) (searchLow env a i j) := by
  rw [searchGE, searchLow]
  refine .ite (fun h => .inside_less fun h0 h1 => ?_) (fun _ => .pure _ rfl)
  simp only [half_eq (x := i + j) (by omega) (by omega)]
  exact (Sim.ltAt _ _).bind fun _ _ => .ite (fun _ => sim_searchGE hn a ((i + j) / 2 + 1) j)
    (fun _ => sim_searchGE hn a i ((i + j) / 2))
termination_by (j - i).toNat

theorem sim_searchGT (hn : n < 2 ^ 63) (m i j : Int) : Sim env n id (searchGT m i j) (searchHigh env m i j) := by
  rw [searchGT, searchHigh]
  refine .ite (fun h => .inside_nless fun h0 h1 => ?_) (fun _ => .pure _ rfl)
  simp only [half_eq (x := i + j) (by omega) (by omega)]
  exact (Sim.nless _ _).bind fun _ _ => .ite (fun _ => sim_searchGT hn m ((i + j) / 2 + 1) j)
    (fun _ => sim_searchGT hn m i ((i + j) / 2))
termination_by (j - i).toNat

theorem sim_searchSym (hn : n < 2 ^ 63) (p start r : Int) :
    Sim env n id (searchSym p start r) (searchMiddle env p start r) := by
  rw [searchSym, searchMiddle]
  refine .ite (fun h => .inside_nless fun h0 h1 => ?_) (fun _ => .pure _ rfl)
  simp only [half_eq (x := start + r) (by omega) (by omega)]
  exact (Sim.nless _ _).bind fun _ _ => .ite (fun _ => sim_searchSym hn p ((start + r) / 2 + 1) r)
    (fun _ => sim_searchSym hn p start ((start + r) / 2))
termination_by (r - start).toNat

theorem sim_bubbleUp (i k : Int) : Sim env n id (bubbleUp i k) (moveUp env i k) := by
  rw [bubbleUp, moveUp]
  exact .ite (fun h => (Sim.swap _ _).seq (sim_bubbleUp i (k + 1))) (fun _ => .pure _ rfl)
termination_by (i - k).toNat

theorem sim_bubbleDown (i k : Int) : Sim env n id (bubbleDown i k) (moveDown env i k) := by
  rw [bubbleDown, moveDown]
  exact .ite (fun h => (Sim.swap _ _).seq (sim_bubbleDown i (k - 1))) (fun _ => .pure _ rfl)
termination_by (k - i).toNat

theorem sim_symMerge (hn : n < 2 ^ 63) (a m b : Int) (ha : 0 ≤ a) (ha' : a ≤ n) (hb : 0 ≤ b) (hb' : b ≤ n) :
    Sim env n id (Sort.symMerge a m b) (symMerge env a m b) := by
  rw [Sort.symMerge, symMerge]
  refine .ite (fun _ => (sim_searchGE hn _ _ _).bind fun _ _ => sim_bubbleUp _ _) (fun _ => ?_)
  refine .ite (fun _ => (sim_searchGT hn _ _ _).bind fun _ _ => sim_bubbleDown _ _) (fun _ => ?_)
  simp only [half_eq (x := a + b) (by omega) (by omega)]
  have e : (if m > (a + b) / 2 then ((a + b) / 2 + m - b, (a + b) / 2) else (a, m)) =
      ((if m > (a + b) / 2 then (a + b) / 2 + m - b else a), (if m > (a + b) / 2 then (a + b) / 2 else m)) := by
    split <;> rfl
  rw [e]
  refine (sim_searchSym hn _ _ _).bind fun start _ => ?_
  simp only [id]
  refine (sim_when fun _ => sim_rotateLoop _ _ _).seq (Sim.seq ?_ ?_)
  · by_cases h : a < start ∧ start < (a + b) / 2
    · rw [dif_pos h, if_pos h]
      exact (sim_symMerge hn a start ((a + b) / 2) ha ha' (by omega) (by omega)).recurse
    · rw [dif_neg h, if_neg h]
      exact .pure _ rfl
  · by_cases h : (a + b) / 2 < (a + b) / 2 + m - start ∧ (a + b) / 2 + m - start < b
    · rw [dif_pos h, if_pos h]
      exact (sim_symMerge hn ((a + b) / 2) ((a + b) / 2 + m - start) b (by omega) (by omega) hb hb').recurse
    · rw [dif_neg h, if_neg h]
      exact .pure _ rfl
termination_by (b - a).toNat

theorem sim_blockLoop (m a b : Int) : Sim env n id (blockLoop m a b) (blocks env m 20 a b) := by
  rw [blockLoop, blocks]
  exact .ite (fun h => (sim_insertionSort _ _).seq (sim_blockLoop m b (b + 20))) (fun _ => .pure _ rfl)
termination_by (m + 1 - b).toNat

theorem sim_mergePass (hn : n < 2 ^ 63) (bs a b : Int) (ha : 0 ≤ a) (ha' : a ≤ n) (hb : 0 ≤ b) :
    Sim env n id (mergePass n bs a b) (mergePairs env n bs a b) := by
  rw [mergePass, mergePairs]
  by_cases h0 : bs ≤ 0
  · rw [if_pos h0]; exact .fail _ _
  · rw [if_neg h0]
    exact .ite (fun h => (sim_symMerge hn _ _ _ ha ha' hb h).seq (sim_mergePass hn bs b (b + 2 * bs) hb h (by omega)))
      (fun _ => .pure _ rfl)
termination_by ((n : Int) + 1 - b).toNat

theorem sim_stableLoop (hn : n < 2 ^ 63) (bs : Int) : Sim env n id (stableLoop n bs) (doubling env n bs) := by
  rw [stableLoop, doubling]
  by_cases h0 : bs ≤ 0
  · rw [if_pos h0]; exact .fail _ _
  · rw [if_neg h0]
    refine .ite (fun h => ?_) (fun _ => .pure _ rfl)
    refine (sim_mergePass hn bs 0 (2 * bs) (by omega) (by omega) (by omega)).bind fun a hp => ?_
    have hx : 0 ≤ a := by
      obtain ⟨d, d', -, hp⟩ := hp
      exact leaf_mergePass _ _ _ _ (by omega) (by omega) hp
    exact (sim_when fun h1 => sim_symMerge hn _ _ _ hx (by omega) (by omega) (by omega)).seq
      (sim_stableLoop hn (bs * 2))
termination_by ((n : Int) - bs).toNat

theorem sim_stable (hn : n < 2 ^ 63) : Sim env n id (Sort.stable n) (stable env n) :=
  (sim_blockLoop _ _ _).bind fun _ _ => (sim_insertionSort _ _).seq (sim_stableLoop hn _)

end Verif.Sort.OrderedRaced
