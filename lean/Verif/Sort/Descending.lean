import Verif.Sort.EventProps

/-!
# C97: a strictly descending slice

The runs here are followed exactly: `Does lt m d r d' n k` says that `m`, started on the slice `d` with the
comparator `lt`, returns `r` and leaves `d'` after `n` comparisons and `k` exchanges.
-/

namespace Verif.Sort

variable {E : Type} [Inhabited E] {lt : E → E → Bool}
set_option linter.unusedSectionVars false

/-- See above. -/
def Does {α : Type} (lt : E → E → Bool) (m : M E α) (d : List E) (r : α) (d' : List E) (n k : Nat) : Prop :=
  (m d).exec (ofLess lt) () = .ok ((r, d'), (), n) ∧ ((m d).trace (ofLess lt) ()).count (.ev .swap) = k

theorem does_bind {α β : Type} (p : Prog E α) (f : α → Prog E β) {a : α} {b : β} {n n' k k' : Nat}
    (h : p.exec (ofLess lt) () = .ok (a, (), n) ∧ (p.trace (ofLess lt) ()).count (.ev .swap) = k)
    (h' : (f a).exec (ofLess lt) () = .ok (b, (), n') ∧ ((f a).trace (ofLess lt) ()).count (.ev .swap) = k') :
    (p.bind f).exec (ofLess lt) () = .ok (b, (), n + n') ∧
      ((p.bind f).trace (ofLess lt) ()).count (.ev .swap) = k + k' := by
  induction p generalizing n k with
  | ret x =>
    simp only [Prog.exec, Except.ok.injEq, Prod.mk.injEq, Prog.trace, List.count_nil] at h
    obtain ⟨⟨rfl, -, rfl⟩, rfl⟩ := h
    simpa [Prog.bind] using h'
  | fail msg => cases h.1
  | note e p ih =>
    have := ih (n := n) ⟨h.1, rfl⟩
    refine ⟨this.1, ?_⟩
    have hk := h.2
    simp only [Prog.trace, Prog.bind, List.count_cons] at hk ⊢
    omega
  | ask q x y d next ih =>
    obtain ⟨h, hk⟩ := h
    have e2 : (ofLess lt () q x y).2 = () := rfl
    simp only [Prog.exec, Prog.bind, Prog.trace, List.count_cons, e2] at h hk ⊢
    rcases hx : (next (ofLess lt () q x y).1).exec (ofLess lt) () with e | ⟨c, t, l⟩
    · rw [hx] at h; cases h
    · rw [hx] at h
      simp only [Except.ok.injEq, Prod.mk.injEq] at h
      obtain ⟨rfl, -, rfl⟩ := h
      have := ih _ ⟨hx, rfl⟩
      refine ⟨?_, ?_⟩
      · simp only [this.1, Except.ok.injEq, Prod.mk.injEq, true_and]
        omega
      · have h2 := this.2
        omega

theorem Does.bind {α β : Type} {m : M E α} {f : α → M E β} {d d' d'' : List E} {r : α} {r' : β} {n n' k k' : Nat}
    (h : Does lt m d r d' n k) (h' : Does lt (f r) d' r' d'' n' k') : Does lt (m >>= f) d r' d'' (n + n') (k + k') :=
  does_bind (m d) _ h h'

theorem Does.pure {α : Type} {d : List E} (r : α) : Does lt (pure r) d r d 0 0 := ⟨rfl, rfl⟩

theorem does_ask {d : List E} (q : Kind) {i j : Int} (hi : inRange d i) (hj : inRange d j) :
    Does lt (do let x ← get i; let y ← get j; ask q x y) d (ofLess lt () q (el d i) (el d j)).1 d 1 0 := by
  have e : (do let x ← get i; let y ← get j; ask q x y : M E Bool) d = ask q (el d i) (el d j) d := by
    show Prog.bind (get i d) _ = _
    rw [get, if_pos hi]
    show Prog.bind (get j d) _ = _
    rw [get, if_pos hj]
    rfl
  unfold Does
  rw [e]
  exact ⟨rfl, rfl⟩

theorem does_lessAt {d : List E} {i j : Int} (hi : inRange d i) (hj : inRange d j) :
    Does lt (lessAt i j) d (lt (el d i) (el d j)) d 1 0 := does_ask .lt hi hj

theorem does_nlessAt {d : List E} {i j : Int} (hi : inRange d i) (hj : inRange d j) :
    Does lt (nlessAt i j) d (!lt (el d i) (el d j)) d 1 0 := does_ask .nlt hi hj

theorem does_swap {d : List E} {i j : Int} (hi : inRange d i) (hj : inRange d j) :
    Does lt (swap i j) d () (swapL d i j) 0 1 := by
  unfold Does
  rw [swap, if_pos ⟨hi, hj⟩]
  exact ⟨rfl, rfl⟩

/-! ## Choosing the pivot -/

/-- Later elements are less than earlier ones. -/
def DescAt (lt : E → E → Bool) (d : List E) : Prop :=
  ∀ p q : Int, 0 ≤ p → p < q → q < d.length → lt (el d q) (el d p) = true

theorem does_order2 {d : List E} (hd : DescAt lt d) {a b : Int} (h0 : 0 ≤ a) (hab : a < b) (hb : b < d.length)
    (s : Nat) : Does lt (order2 a b s) d (b, a, s + 1) d 1 0 := by
  refine (does_lessAt ⟨by omega, hb⟩ ⟨h0, by omega⟩).bind (n' := 0) (k' := 0) ?_
  rw [if_pos (hd a b h0 hab hb)]
  exact Does.pure _

theorem does_median {d : List E} (hd : DescAt lt d) {x y z : Int} (h0 : 0 ≤ x) (hxy : x < y) (hyz : y < z)
    (hz : z < d.length) (s : Nat) : Does lt (median x y z s) d (y, s + 3) d 3 0 :=
  (does_order2 hd h0 hxy (by omega) s).bind (n' := 2) (k' := 0)
    ((does_order2 hd h0 (by omega) hz _).bind (n' := 1) (k' := 0)
      ((does_order2 hd (a := y) (b := z) (by omega) hyz hz _).bind (n' := 0) (k' := 0) (Does.pure _)))

theorem does_choosePivot {d : List E} (hd : DescAt lt d) (hl : 50 ≤ d.length) :
    ∃ p, Does lt (choosePivot 0 d.length) d (p, .decreasing) d 12 0 := by
  refine ⟨0 + ((d.length : Int) - 0) / 4 * 2, ?_⟩
  unfold choosePivot
  dsimp only
  refine Does.bind (r := (0 + ((d.length : Int) - 0) / 4 * 2, 12)) (d' := d) (n := 12) (n' := 0) (k := 0) (k' := 0) ?_
    (Does.pure _)
  unfold pivotOf ninther medianAdjacent
  rw [if_pos (by omega), if_pos (by omega)]
  refine Does.bind (r := (_, _, _, 9)) (d' := d) (n := 9) (n' := 3) (k := 0) (k' := 0)
    ((does_median hd (by omega) (by omega) (by omega) (by omega) 0).bind (n' := 6) (k' := 0)
      ((does_median hd (by omega) (by omega) (by omega) (by omega) _).bind (n' := 3) (k' := 0)
        ((does_median hd (by omega) (by omega) (by omega) (by omega) _).bind (n' := 0) (k' := 0) (Does.pure _)))) ?_
  dsimp only
  exact does_median hd (by omega) (by omega) (by omega) (by omega) 9

/-! ## Turning it round -/

theorem does_revLoop (i j : Int) (d : List E) (hi : 0 ≤ i) (hj : j < d.length) (hij : i ≤ j + 1) :
    ∃ d', Does lt (revLoop i j) d () d' 0 ((j + 1 - i).toNat / 2) ∧ d'.length = d.length ∧
      ∀ x, el d' x = if i ≤ x ∧ x ≤ j then el d (i + j - x) else el d x := by
  unfold revLoop
  split
  · rename_i h
    have i1 : inRange d i := ⟨hi, by omega⟩
    have i2 : inRange d j := ⟨by omega, hj⟩
    obtain ⟨d', h1, h2, h3⟩ := does_revLoop (i + 1) (j - 1) (swapL d i j) (by omega)
      (by rw [length_swapL]; omega) (by omega)
    refine ⟨d', ?_, by rw [h2, length_swapL], fun x => ?_⟩
    · have := (does_swap (lt := lt) i1 i2).bind (f := fun _ => revLoop (i + 1) (j - 1)) h1
      rwa [show 0 + 0 = 0 from rfl, show 1 + (j - 1 + 1 - (i + 1)).toNat / 2 = (j + 1 - i).toNat / 2 by omega] at this
    · rw [h3, el_swapL i1 i2, el_swapL i1 i2]
      by_cases hx : i + 1 ≤ x ∧ x ≤ j - 1
      · rw [if_pos hx, if_neg (by omega), if_neg (by omega), if_pos (by omega)]
        congr 1; omega
      · rw [if_neg hx]
        by_cases e1 : x = i
        · rw [if_pos e1, if_pos (by omega)]; congr 1; omega
        · rw [if_neg e1]
          by_cases e2 : x = j
          · rw [if_pos e2, if_pos (by omega)]; congr 1; omega
          · rw [if_neg e2, if_neg (by omega)]
  · refine ⟨d, ?_, rfl, fun x => ?_⟩
    · rw [show (j + 1 - i).toNat / 2 = 0 by omega]; exact Does.pure _
    · split
      · congr 1; omega
      · rfl
termination_by (j - i).toNat

theorem el_reverse (d : List E) (x : Int) (h0 : 0 ≤ x) (h1 : x < d.length) :
    el d.reverse x = el d (d.length - 1 - x) := by
  rw [el_eq_getElem (d := d.reverse) ⟨h0, by simpa using h1⟩, el_eq_getElem (d := d) ⟨by omega, by omega⟩,
    List.getElem_reverse]
  congr 1
  omega

theorem ext_in {d d' : List E} (hl : d.length = d'.length)
    (h : ∀ x : Int, 0 ≤ x → x < d.length → el d x = el d' x) : d = d' := by
  refine List.ext_getElem hl fun i h1 h2 => ?_
  have := h i (by omega) (by omega)
  rwa [el_eq_getElem ⟨by omega, by omega⟩, el_eq_getElem ⟨by omega, by omega⟩] at this

theorem does_reverseRange (d : List E) : Does lt (reverseRange 0 d.length) d () d.reverse 0 (d.length / 2) := by
  obtain ⟨d', h1, h2, h3⟩ := does_revLoop (lt := lt) 0 (d.length - 1) d (by omega) (by omega) (by omega)
  have : d' = d.reverse := by
    refine ext_in (by simp [h2]) fun x h0 hx => ?_
    rw [h3, if_pos (by omega), el_reverse d x h0 (by omega)]
    congr 1; omega
  rw [this, show ((d.length : Int) - 1 + 1 - 0).toNat / 2 = d.length / 2 by omega] at h1
  exact h1

/-! ## Finding it sorted -/

theorem does_scanSorted {d : List E} (hs : Sorted lt 0 d.length d) (i : Int) (h0 : 0 < i) (hi : i ≤ d.length) :
    Does lt (scanSorted d.length i) d (d.length : Int) d (d.length - i).toNat 0 := by
  unfold scanSorted
  split
  · rename_i h
    have e := hs (i - 1) i (by omega) (by omega) (by omega)
    unfold le at e
    have := (does_nlessAt (lt := lt) (d := d) (i := i) (j := i - 1) ⟨by omega, by omega⟩ ⟨by omega, by omega⟩).bind
      (f := fun b => if b = true then scanSorted d.length (i + 1) else pure i)
      (by rw [e]; exact does_scanSorted hs (i + 1) (by omega) (by omega))
    rwa [show 1 + ((d.length : Int) - (i + 1)).toNat = (d.length - i).toNat by omega] at this
  · rw [show (d.length - i).toNat = 0 by omega, show i = d.length by omega]
    exact Does.pure _
termination_by (d.length - i).toNat

/-- Strictly descending: each element is less than every earlier one and not the other way round. -/
def StrictlyDescending (less : E → E → Bool) (l : List E) : Prop :=
  l.Pairwise fun x y => less y x = true ∧ less x y = false

theorem descAt {d : List E} (h : StrictlyDescending lt d) : DescAt lt d := by
  intro p q h0 hpq hq
  rw [el_eq_getElem ⟨h0, by omega⟩, el_eq_getElem ⟨by omega, hq⟩]
  exact (List.pairwise_iff_getElem.1 h p.toNat q.toNat (by omega) (by omega) (by omega)).1

/-- **C97.** A strictly descending slice of at least 50 elements is sorted by being turned round: `Sort` calls
the comparator exactly `n + 11` times and exchanges elements exactly `⌊n/2⌋` times. Nothing is assumed of the
comparator but its answers on pairs of the slice. -/
theorem C97_descending (less : E → E → Bool) (data : List E) (hd : StrictlyDescending less data)
    (hl : 50 ≤ data.length) :
    runProg sortProg (ofLess less) () data = .ok (data.reverse, data.length + 11) ∧
    (steps sortProg (ofLess less) () data).count (.ev .swap) = data.length / 2 := by
  have hasc : Ascending less data.reverse := by
    unfold Ascending
    rw [List.pairwise_reverse]
    exact hd.imp fun h => h.2
  have hs := hasc.sorted
  rw [List.length_reverse] at hs
  obtain ⟨p, hp⟩ := does_choosePivot (descAt hd) hl
  have main : Does less (pdqsort (data.length + 1) 0 data.length (bitsLen data.length) true true) data ()
      data.reverse (0 + (12 + (0 + (data.length - 1 + 0)))) (0 + (0 + (data.length / 2 + (0 + 0)))) := by
    unfold pdqsort
    dsimp only
    rw [if_neg (by omega), if_neg (by unfold bitsLen; split <;> omega)]
    refine Does.bind (r := (bitsLen data.length : Int)) (d' := data) (n := 0) (k := 0) ?_ ?_
    · unfold breakIfUnbalanced
      rw [if_pos rfl]
      exact Does.pure _
    refine hp.bind ?_
    refine Does.bind (r := ((data.length : Int) - 1 - (p - 0), Hint.increasing)) (d' := data.reverse) ?_ ?_
    · unfold reverseIfDecreasing
      rw [if_pos rfl]
      exact (does_reverseRange data).bind (n' := 0) (k' := 0) (Does.pure _)
    refine Does.bind (r := true) (d' := data.reverse) ?_ ?_
    · unfold tryPartial
      rw [if_pos ⟨rfl, rfl, rfl⟩]
      unfold partialInsertionSort partialLoop
      have hs' : Sorted less 0 data.reverse.length data.reverse := by rw [List.length_reverse]; exact hs
      have := does_scanSorted hs' (0 + 1) (by omega) (by rw [List.length_reverse]; omega)
      rw [List.length_reverse, show ((data.length : Int) - (0 + 1)).toNat = data.length - 1 by omega] at this
      refine this.bind (n' := 0) (k' := 0) ?_
      rw [if_pos rfl]
      exact Does.pure _
    · rw [if_pos rfl]
      exact Does.pure _
  rw [show 0 + (12 + (0 + (data.length - 1 + 0))) = data.length + 11 by omega,
    show 0 + (0 + (data.length / 2 + (0 + 0))) = data.length / 2 by omega] at main
  refine ⟨?_, main.2⟩
  unfold runProg
  rw [show (sortProg data).exec (ofLess less) () = _ from main.1]

/-- The hypothesis is met, and the bound 50 is needed: 49 descending elements take more calls. -/
example : StrictlyDescending (fun a b : Nat => decide (a < b)) (List.range 50).reverse := by
  unfold StrictlyDescending; decide +kernel
example : ((runProg sortProg (ofLess fun a b : Nat => decide (a < b)) () (List.range 49).reverse).map (·.2)).toOption
    = some 187 := by decide +kernel

end Verif.Sort
