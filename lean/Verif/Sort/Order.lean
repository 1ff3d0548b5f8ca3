import Verif.Sort.Win
import Verif.Sort.Spec

/-! # The sorting functions under a strict weak order -/

namespace Verif.Sort

variable {E : Type} [Inhabited E] {lt : E → E → Bool}
set_option linter.unusedSectionVars false

/-- The answers of the comparator `lt`. -/
def exact (lt : E → E → Bool) : Kind → E → E → Bool → Prop
  | .lt, x, y, b => b = lt x y
  | .nlt, x, y, b => b = !lt x y

/-- `x ≤ y` in the order. -/
def le (lt : E → E → Bool) (x y : E) : Prop := lt y x = false

theorem StrictWeak.le_trans (h : StrictWeak lt) {x y z : E} (h1 : le lt x y) (h2 : le lt y z) :
    le lt x z := by
  unfold le at *
  cases hzx : lt z x with
  | false => rfl
  | true =>
    have hxy : lt x y = false := by
      cases hh : lt x y with
      | false => rfl
      | true => have := h.trans z x y hzx hh; rw [h2] at this; cases this
    have hyz : lt y z = false := by
      cases hh : lt y z with
      | false => rfl
      | true => have := h.trans y z x hh hzx; rw [h1] at this; cases this
    have := (h.incomp x y z hxy h1 hyz h2).2
    rw [hzx] at this; cases this

theorem StrictWeak.le_of_lt (h : StrictWeak lt) {x y : E} (h1 : lt x y = true) : le lt x y := by
  unfold le
  cases hh : lt y x with
  | false => rfl
  | true => have := h.trans x y x h1 hh; rw [h.irrefl] at this; cases this

theorem StrictWeak.le_refl (h : StrictWeak lt) (x : E) : le lt x x := h.irrefl x

theorem StrictWeak.lt_of_lt_le (h : StrictWeak lt) {x y z : E} (h1 : lt x y = true) (h2 : le lt y z) :
    lt x z = true := by
  cases hh : lt x z with
  | true => rfl
  | false =>
    have := h.le_trans h2 (show le lt z x from hh)
    unfold le at this; rw [h1] at this; cases this

theorem StrictWeak.lt_of_le_lt (h : StrictWeak lt) {x y z : E} (h1 : le lt x y) (h2 : lt y z = true) :
    lt x z = true := by
  cases hh : lt x z with
  | true => rfl
  | false =>
    have := h.le_trans (show le lt z x from hh) h1
    unfold le at this; rw [h2] at this; cases this

/-- Positions `[a, b)` are ascending. -/
def Sorted (lt : E → E → Bool) (a b : Int) (d : List E) : Prop :=
  ∀ p q, a ≤ p → p < q → q < b → le lt (el d p) (el d q)

theorem Sorted.sub {a b a' b' : Int} {d : List E} (h : Sorted lt a b d) (h1 : a ≤ a') (h2 : b' ≤ b) :
    Sorted lt a' b' d := fun p q hp hpq hq => h p q (by omega) hpq (by omega)

theorem Sorted.frame {a b lo hi : Int} {d d' : List E} (h : Sorted lt a b d) (w : Win lo hi d d')
    (hd : b ≤ lo ∨ hi ≤ a) : Sorted lt a b d' := by
  intro p q hp hpq hq
  rw [w.frame p (by omega), w.frame q (by omega)]
  exact h p q hp hpq hq

theorem Sorted.trivial {a b : Int} {d : List E} (h : b ≤ a + 1) : Sorted lt a b d :=
  fun p q hp hpq hq => by omega

/-- Two adjacent sorted windows with the first below the second. -/
theorem Sorted.join (_hw : StrictWeak lt) {a m b : Int} {d : List E} (h1 : Sorted lt a m d)
    (h2 : Sorted lt m b d)
    (hx : ∀ p q, a ≤ p → p < m → m ≤ q → q < b → le lt (el d p) (el d q)) : Sorted lt a b d := by
  intro p q hp hpq hq
  by_cases hpm : p < m
  · by_cases hqm : q < m
    · exact h1 p q hp hpq hqm
    · exact hx p q hp hpm (by omega) hq
  · exact h2 p q (by omega) hpq hq

/-- A window is sorted when neighbours are in order. -/
theorem Sorted.of_adj (hw : StrictWeak lt) {a b : Int} {d : List E}
    (h : ∀ k, a < k → k < b → le lt (el d (k - 1)) (el d k)) : Sorted lt a b d := by
  intro p q hp hpq hq
  have key : ∀ n : Nat, p + 1 + n < b → le lt (el d p) (el d (p + 1 + n)) := by
    intro n
    induction n with
    | zero =>
      intro hn
      have := h (p + 1) (by omega) (by omega)
      simpa using this
    | succ n ih =>
      intro hn
      refine hw.le_trans (ih (by omega)) ?_
      have := h (p + 1 + (n + 1 : Nat)) (by omega) (by omega)
      have e : p + 1 + ((n + 1 : Nat) : Int) - 1 = p + 1 + n := by omega
      rw [e] at this
      exact this
  have := key (q - p - 1).toNat (by omega)
  have e : p + 1 + ((q - p - 1).toNat : Int) = q := by omega
  rw [e] at this
  exact this

/-! ## Insertion sort -/

theorem insInner_sorted (hw : StrictWeak lt) (a j hi : Int) (d : List E) (h : Span d a hi)
    (hj : j < hi) (haj : a ≤ j)
    (hs : ∀ p q, a ≤ p → p < q → q < hi → q ≠ j → le lt (el d p) (el d q)) :
    wp (exact lt) (insInner a j) (fun _ d' => Sorted lt a hi d') d := by
  unfold insInner
  split
  · rw [wp_bind]
    have i1 := h.inR (k := j) (by omega) (by omega)
    have i2 := h.inR (k := j - 1) (by omega) (by omega)
    refine wp_lessAt i1 i2 ?_
    intro b hb
    split
    · rename_i hbt; subst hbt
      have hlt : lt (el d j) (el d (j - 1)) = true := hb.symm
      rw [wp_bind]
      refine wp_swap i1 i2 ?_
      refine insInner_sorted hw a (j - 1) hi _ ⟨h.1, by simpa using h.2⟩ (by omega) (by omega) ?_
      intro p q hp hpq hq hne
      rw [el_swapL i1 i2, el_swapL i1 i2]
      by_cases hq1 : q = j
      · subst hq1
        rw [if_neg (by omega : p ≠ q)]
        by_cases hp1 : p = q - 1
        · subst hp1
          simp only [if_true]
          exact hw.le_of_lt hlt
        · simp only [hp1, if_true, if_false]
          exact hs p (q - 1) hp (by omega) (by omega) (by omega)
      · rw [if_neg hq1, if_neg hne]
        by_cases hp1 : p = j
        · subst hp1
          simp only [if_true]
          exact hs (p - 1) q (by omega) (by omega) hq hq1
        · rw [if_neg hp1]
          split
          · exact hs j q (by omega) (by omega) hq hq1
          · exact hs p q hp hpq hq hq1
    · rename_i hbf
      have : b = false := by simpa using hbf
      subst this
      have hle : le lt (el d (j - 1)) (el d j) := hb.symm
      rw [wp_pure]
      intro p q hp hpq hq
      by_cases hq1 : q = j
      · subst hq1
        by_cases hp1 : p = q - 1
        · subst hp1; exact hle
        · exact hw.le_trans (hs p (q - 1) hp (by omega) (by omega) (by omega)) hle
      · exact hs p q hp hpq hq hq1
  · rw [wp_pure]
    intro p q hp hpq hq
    exact hs p q hp hpq hq (by omega)
termination_by (j - a).toNat

theorem insOuter_sorted (hw : StrictWeak lt) (a b i : Int) (hi : a ≤ i) (hib : i ≤ b) (d : List E)
    (h : Span d a b) (hs : Sorted lt a i d) :
    wp (exact lt) (insOuter a b i) (fun _ d' => Sorted lt a b d') d := by
  unfold insOuter
  split
  · rw [wp_bind]
    refine wp_mono (wp_and (insInner_any a i d (h.sub (by omega) (by omega)))
      (insInner_sorted hw a i (i + 1) d (h.sub (by omega) (by omega)) (by omega) hi ?_)) ?_
    · intro p q hp hpq hq hne
      exact hs p q hp hpq (by omega)
    · rintro _ d1 ⟨w1, s1⟩
      exact insOuter_sorted hw a b (i + 1) (by omega) (by omega) d1 (h.win w1) s1
  · rw [wp_pure]
    have : i = b := by omega
    subst this; exact hs
termination_by (b - i).toNat

theorem insertionSort_sorted (hw : StrictWeak lt) (a b : Int) (d : List E) (h : Span d a b) :
    wp (exact lt) (insertionSort a b) (fun _ d' => Win a b d d' ∧ Sorted lt a b d') d := by
  refine wp_and (insertionSort_any a b d h) ?_
  by_cases hab : a + 1 ≤ b
  · exact insOuter_sorted hw a b (a + 1) (by omega) hab d h (Sorted.trivial (by omega))
  · refine wp_mono (insertionSort_any a b d h) fun _ _ _ => Sorted.trivial (by omega)

/-! ## Heap sort -/

/-- `c` is a child of `i` in the implicit binary heap. -/
def Child (i c : Int) : Prop := c = 2 * i + 1 ∨ c = 2 * i + 2

/-- Heap order at all nodes from `lo` on, except possibly at `r`. -/
def HeapExcept (lt : E → E → Bool) (first lo hi r : Int) (d : List E) : Prop :=
  ∀ i c, lo ≤ i → i ≠ r → Child i c → c < hi → le lt (el d (first + c)) (el d (first + i))

/-- Heap order at all nodes from `lo` on. -/
def Heap (lt : E → E → Bool) (first lo hi : Int) (d : List E) : Prop :=
  ∀ i c, lo ≤ i → Child i c → c < hi → le lt (el d (first + c)) (el d (first + i))

theorem siftDown_heap (hw : StrictWeak lt) (lo root hi first : Int) (h0 : 0 ≤ lo) (hr : lo ≤ root)
    (d : List E) (h : Span d first (first + hi)) (hh : HeapExcept lt first lo hi root d)
    (hg : ∀ p c, lo ≤ p → Child p root → Child root c → c < hi →
      le lt (el d (first + c)) (el d (first + p))) :
    wp (exact lt) (siftDown root hi first) (fun _ d' => Heap lt first lo hi d') d := by
  unfold siftDown
  split
  · rw [wp_pure]
    intro i c hi' hc hch
    by_cases hir : i = root
    · subst hir; unfold Child at hc; omega
    · exact hh i c hi' hir hc hch
  · rw [wp_bind]
    refine wp_mono (pickChild_any (2 * root + 1) hi first d h (by omega) (by omega)) ?_
    rintro c d ⟨rfl, h1, h2, h3⟩
    have hcc : Child root c := by unfold Child; omega
    -- the chosen child is the larger one
    have hmax : ∀ c', Child root c' → c' < hi → le lt (el d (first + c')) (el d (first + c)) := by
      intro c' hc' hlt
      by_cases he : c' = c
      · subst he; exact hw.le_refl _
      · unfold Child at hc'
        have h3 := h3 (by omega)
        rcases h1 with h1 | h1
        · have := h3.2 h1
          have e : first + (2 * root + 1) + 1 = first + c' := by omega
          rw [e, ← h1] at this
          exact this.symm
        · have := h3.1 h1
          have e : first + (2 * root + 1) + 1 = first + c := by omega
          have e2 : 2 * root + 1 = c' := by omega
          rw [e, e2] at this
          exact hw.le_of_lt this.symm
    rw [dif_pos (by omega)]
    have i1 := h.inR (k := first + root) (by omega) (by omega)
    have i2 := h.inR (k := first + c) (by omega) (by omega)
    rw [wp_bind]
    refine wp_nlessAt i1 i2 ?_
    intro b hb
    split
    · rename_i hbt; subst hbt
      have hle : le lt (el d (first + c)) (el d (first + root)) := by
        unfold le; simpa [exact] using hb
      rw [wp_pure]
      intro i c' hi' hc hch
      by_cases hir : i = root
      · subst hir; exact hw.le_trans (hmax c' hc hch) hle
      · exact hh i c' hi' hir hc hch
    · rename_i hbf
      have : b = false := by simpa using hbf
      subst this
      have hlt : lt (el d (first + root)) (el d (first + c)) = true := by simpa [exact] using hb
      rw [wp_bind]
      refine wp_swap i1 i2 ?_
      refine siftDown_heap hw lo c hi first h0 (by omega) _ ⟨h.1, by simpa using h.2⟩ ?_ ?_
      · intro i x hi' hne hix hx
        rw [el_swapL i1 i2, el_swapL i1 i2]
        unfold Child at hix hcc
        by_cases hxc : x = c
        · subst hxc
          have : i = root := by omega
          subst this
          rw [if_neg (by omega), if_pos rfl, if_pos rfl]
          exact hw.le_of_lt hlt
        · by_cases hir : i = root
          · subst hir
            rw [if_neg (by omega), if_neg (by omega), if_pos rfl]
            exact hmax x hix hx
          · by_cases hxr : x = root
            · subst hxr
              rw [if_pos rfl, if_neg (by omega), if_neg (by omega)]
              exact hg i c hi' hix hcc h2
            · rw [if_neg (by omega), if_neg (by omega), if_neg (by omega), if_neg (by omega)]
              exact hh i x hi' hir hix hx
      · intro p x hp hpc hcx hx
        rw [el_swapL i1 i2, el_swapL i1 i2]
        unfold Child at hpc hcx hcc
        have : p = root := by omega
        subst this
        rw [if_neg (by omega), if_neg (by omega), if_pos rfl]
        exact hh c x (by omega) (by omega) hcx hx
termination_by (hi - root).toNat

theorem heapBuild_heap (hw : StrictWeak lt) (i hi first : Int) (hi1 : -1 ≤ i) (d : List E)
    (h : Span d first (first + hi)) (hh : Heap lt first (i + 1) hi d) :
    wp (exact lt) (heapBuild i hi first) (fun _ d' => Heap lt first 0 hi d') d := by
  unfold heapBuild
  split
  · rw [wp_bind]
    refine wp_mono (wp_and (siftDown_any i hi first (by omega) d h)
      (siftDown_heap hw i i hi first (by omega) (by omega) d h ?_ ?_)) ?_
    · intro x c hx hne hc hlt
      exact hh x c (by omega) hc hlt
    · intro p c hp hpc _ _
      unfold Child at hpc; omega
    · rintro _ d1 ⟨w1, h1⟩
      refine heapBuild_heap hw (i - 1) hi first (by omega) d1 (h.win w1) ?_
      have e : i - 1 + 1 = i := by omega
      rw [e]; exact h1
  · rw [wp_pure]
    have : i = -1 := by omega
    subst this; exact hh
termination_by (i + 1).toNat

/-- The root of a heap is a maximum. -/
theorem Heap.root_max (hw : StrictWeak lt) {first hi : Int} {d : List E} (h : Heap lt first 0 hi d)
    (k : Nat) (hk : (k : Int) < hi) : le lt (el d (first + k)) (el d first) := by
  induction k using Nat.strongRecOn with
  | ind k ih =>
    by_cases h0 : k = 0
    · subst h0; simpa using hw.le_refl _
    · have hp := ih ((k - 1) / 2) (by omega) (by omega)
      refine hw.le_trans (h (((k - 1) / 2 : Nat) : Int) k (by omega) ?_ hk) hp
      unfold Child; omega

theorem heapPop_sorted (hw : StrictWeak lt) (i n first : Int) (hi1 : -1 ≤ i) (hin : i < n) (d : List E)
    (h : Span d first (first + n)) (hh : Heap lt first 0 (i + 1) d)
    (hs : Sorted lt (first + i + 1) (first + n) d)
    (hx : ∀ p q, first ≤ p → p < first + i + 1 → first + i + 1 ≤ q → q < first + n →
      le lt (el d p) (el d q)) :
    wp (exact lt) (heapPop i first) (fun _ d' => Sorted lt first (first + n) d') d := by
  unfold heapPop
  split
  · rw [wp_bind]
    have i1 := h.inR (k := first) (by omega) (by omega)
    have i2 := h.inR (k := first + i) (by omega) (by omega)
    refine wp_swap i1 i2 ?_
    have w := Win.swap (lo := first) (hi := first + i + 1) i1 i2 (by omega) (by omega) (by omega) (by omega)
    have w' := w.mono (lo' := first) (hi' := first + n) (by omega) (by omega)
    have hmax : ∀ p, first ≤ p → p < first + i + 1 → le lt (el d p) (el d first) := by
      intro p hp1 hp2
      have := hh.root_max hw (p - first).toNat (by omega)
      have e : first + ((p - first).toNat : Int) = p := by omega
      rw [e] at this; exact this
    rw [wp_bind]
    refine wp_mono (wp_and (siftDown_any 0 i first (by omega) _ ((h.win w).sub (by omega) (by omega)))
      (siftDown_heap hw 0 0 i first (by omega) (by omega) _ ((h.win w).sub (by omega) (by omega)) ?_ ?_)) ?_
    · intro x c hx0 hne hc hlt
      unfold Child at hc
      rw [el_swapL i1 i2, el_swapL i1 i2, if_neg (by omega), if_neg (by omega), if_neg (by omega),
        if_neg (by omega)]
      exact hh x c hx0 hc (by omega)
    · intro p c hp hpc _ _
      unfold Child at hpc; omega
    · rintro _ d1 ⟨w1, h1⟩
      have ww := w'.trans (w1.mono (lo' := first) (hi' := first + n) (by omega) (by omega))
      -- facts about the suffix from `first + i`
      have top : el d1 (first + i) = el d first := by
        rw [w1.frame _ (by omega), el_swapL i1 i2]
        split
        · congr 1; 
        · rw [if_pos rfl]
      have suf : ∀ q, first + i + 1 ≤ q → el d1 q = el d q := by
        intro q hq
        rw [w1.frame _ (by omega), w.frame _ (by omega)]
      have cross : ∀ p, first ≤ p → p < first + i + 1 → ∀ q, first + i + 1 ≤ q → q < first + n →
          le lt (el d1 p) (el d q) := by
        have w2 := w.trans (w1.mono (lo' := first) (hi' := first + i + 1) (by omega) (by omega))
        exact w2.pres (fun x => ∀ q, first + i + 1 ≤ q → q < first + n → le lt x (el d q))
          (fun p h1 h2 q h3 h4 => hx p q h1 h2 h3 h4)
      have below : ∀ p, first ≤ p → p < first + i + 1 → le lt (el d1 p) (el d first) := by
        have w2 := w.trans (w1.mono (lo' := first) (hi' := first + i + 1) (by omega) (by omega))
        exact w2.pres (fun x => le lt x (el d first)) hmax
      refine heapPop_sorted hw (i - 1) n first (by omega) (by omega) d1 (h.win ww) ?_ ?_ ?_
      · have e : i - 1 + 1 = i := by omega
        rw [e]; exact h1
      · intro p q hp hpq hq
        rw [suf q (by omega)]
        by_cases hpi : p = first + i
        · subst hpi
          exact cross _ (by omega) (by omega) q (by omega) hq
        · rw [suf p (by omega)]
          exact hs p q (by omega) hpq hq
      · intro p q hp1 hp2 hq1 hq2
        by_cases hqi : q = first + i
        · subst hqi
          rw [top]; exact below p hp1 (by omega)
        · rw [suf q (by omega)]
          exact cross p hp1 (by omega) q (by omega) hq2
  · rw [wp_pure]
    exact hs.sub (by omega) (Int.le_refl _)
termination_by (i + 1).toNat

theorem heapSort_sorted (hw : StrictWeak lt) (a b : Int) (hab : a < b) (d : List E) (h : Span d a b) :
    wp (exact lt) (heapSort a b) (fun _ d' => Win a b d d' ∧ Sorted lt a b d') d := by
  refine wp_and (heapSort_any a b d h) ?_
  have e : a + (b - a) = b := by omega
  have h' : Span d a (a + (b - a)) := by rw [e]; exact h
  unfold heapSort
  dsimp only
  rw [wp_bind]
  refine wp_mono (wp_and (heapBuild_any ((b - a - 1) / 2) (b - a) a d h')
    (heapBuild_heap hw ((b - a - 1) / 2) (b - a) a (by omega) d h' ?_)) ?_
  · intro i c hi hc hlt
    unfold Child at hc; omega
  · rintro _ d1 ⟨w1, h1⟩
    have := heapPop_sorted hw (b - a - 1) (b - a) a (by omega) (by omega) d1 (h'.win w1)
      (by have e : b - a - 1 + 1 = b - a := by omega
          rw [e]; exact h1)
      (Sorted.trivial (by omega))
      (fun p q _ _ _ _ => by omega)
    rw [e] at this
    exact this

/-! ## Partial insertion sort -/

/-- The element before the window (if any) is not greater than anything in the window. -/
def Low (lt : E → E → Bool) (a b : Int) (d : List E) : Prop :=
  0 < a → ∀ k, a ≤ k → k < b → le lt (el d (a - 1)) (el d k)

theorem Low.win {a b b' : Int} {d d' : List E} (h : Low lt a b d) (w : Win a b' d d') (hb : b' ≤ b) :
    Low lt a b d' := by
  intro h0 k hk1 hk2
  rw [w.frame (a - 1) (by omega)]
  exact (w.mono (Int.le_refl a) hb).pres (fun x => le lt (el d (a - 1)) x) (h h0) k hk1 hk2

theorem shiftLeft_sorted (hw : StrictWeak lt) (a j hi : Int) (h0 : 0 ≤ a) (haj : a ≤ j) (hj : j < hi)
    (d : List E) (h : Span d 0 hi) (hl : Low lt a hi d)
    (hs : ∀ p q, a ≤ p → p < q → q < hi → q ≠ j → le lt (el d p) (el d q)) :
    wp (exact lt) (shiftLeft j) (fun _ d' => Win a hi d d' ∧ Sorted lt a hi d') d := by
  unfold shiftLeft
  split
  · rw [wp_bind]
    have i1 := h.inR (k := j) (by omega) (by omega)
    have i2 := h.inR (k := j - 1) (by omega) (by omega)
    refine wp_nlessAt i1 i2 ?_
    intro b hb
    split
    · rename_i hbt; subst hbt
      have hle : le lt (el d (j - 1)) (el d j) := by unfold le; simpa [exact] using hb
      rw [wp_pure]
      refine ⟨Win.refl .., ?_⟩
      intro p q hp hpq hq
      by_cases hq1 : q = j
      · subst hq1
        by_cases hp1 : p = q - 1
        · subst hp1; exact hle
        · exact hw.le_trans (hs p (q - 1) hp (by omega) (by omega) (by omega)) hle
      · exact hs p q hp hpq hq hq1
    · rename_i hbf
      have : b = false := by simpa using hbf
      subst this
      have hlt : lt (el d j) (el d (j - 1)) = true := by simpa [exact] using hb
      have haj' : a < j := by
        rcases Int.lt_or_eq_of_le haj with hh | hh
        · exact hh
        · subst hh
          have := hl (by omega) a (Int.le_refl _) hj
          unfold le at this; rw [hlt] at this; cases this
      rw [wp_bind]
      refine wp_swap i1 i2 ?_
      have w := Win.swap (lo := a) (hi := hi) i1 i2 (by omega) (by omega) (by omega) (by omega)
      refine wp_mono (shiftLeft_sorted hw a (j - 1) hi h0 (by omega) (by omega) _ (h.win w)
        (hl.win w (Int.le_refl _)) ?_) ?_
      · intro p q hp hpq hq hne
        rw [el_swapL i1 i2, el_swapL i1 i2]
        by_cases hq1 : q = j
        · subst hq1
          rw [if_neg (by omega : p ≠ q)]
          by_cases hp1 : p = q - 1
          · subst hp1
            simp only [if_true]
            exact hw.le_of_lt hlt
          · simp only [hp1, if_true, if_false]
            exact hs p (q - 1) hp (by omega) (by omega) (by omega)
        · rw [if_neg hq1, if_neg hne]
          by_cases hp1 : p = j
          · subst hp1
            simp only [if_true]
            exact hs (p - 1) q (by omega) (by omega) hq hq1
          · rw [if_neg hp1]
            split
            · exact hs j q (by omega) (by omega) hq hq1
            · exact hs p q hp hpq hq hq1
      · rintro _ d' ⟨w', s'⟩
        exact ⟨w.trans w', s'⟩
  · rw [wp_pure]
    refine ⟨Win.refl .., ?_⟩
    intro p q hp hpq hq
    exact hs p q hp hpq hq (by omega)
termination_by j.toNat

theorem partialLoop_sorted (hw : StrictWeak lt) (n : Nat) (a b i : Int) (h0 : 0 ≤ a) (hai : a < i)
    (hib : i ≤ b) (d : List E) (h : Span d 0 b) (hl : Low lt a b d) (hs : Sorted lt a i d) :
    wp (exact lt) (partialLoop n a b i)
      (fun r d' => Win a b d d' ∧ (r = true → Sorted lt a b d')) d := by
  induction n generalizing i d with
  | zero => unfold partialLoop; rw [wp_pure]; exact ⟨Win.refl .., fun h => by cases h⟩
  | succ n ih =>
    unfold partialLoop
    rw [wp_bind]
    refine wp_mono (scanSorted_any a b i d (h.sub (by omega) (by omega)) hai hib) ?_
    rintro i' d ⟨rfl, u1, u2, u3, -⟩
    have hs' : Sorted lt a i' d := by
      apply Sorted.of_adj hw
      intro k hk1 hk2
      by_cases hk : k < i
      · exact hs (k - 1) k (by omega) (by omega) hk
      · have := u3 k (by omega) hk2
        unfold le; simpa [exact] using this
    split
    · rename_i he; subst he
      rw [wp_pure]; exact ⟨Win.refl .., fun _ => hs'⟩
    · split
      · rw [wp_pure]; exact ⟨Win.refl .., fun h => by cases h⟩
      · rw [wp_bind]
        have i1 := h.inR (k := i') (by omega) (by omega)
        have i2 := h.inR (k := i' - 1) (by omega) (by omega)
        refine wp_swap i1 i2 ?_
        have w := Win.swap (lo := a) (hi := b) i1 i2 (by omega) (by omega) (by omega) (by omega)
        have h1 := h.win w
        have hl1 := hl.win w (Int.le_refl _)
        have hs1 : ∀ p q, a ≤ p → p < q → q < i' → q ≠ i' - 1 →
            le lt (el (swapL d i' (i' - 1)) p) (el (swapL d i' (i' - 1)) q) := by
          intro p q hp hpq hq hne
          rw [el_swapL i1 i2, el_swapL i1 i2, if_neg (by omega), if_neg (by omega), if_neg (by omega),
            if_neg (by omega)]
          exact hs' p q hp hpq hq
        generalize swapL d i' (i' - 1) = d1 at *
        rw [wp_bind]
        have key : ∀ d2, Win a b d d2 → Sorted lt a i' d2 →
            wp (exact lt) (M.when (b - i' ≥ 2) (shiftRight b (i' + 1)) >>=
            fun _ => partialLoop n a b i')
            (fun r d' => Win a b d d' ∧ (r = true → Sorted lt a b d')) d2 := by
          intro d2 w2 s2
          rw [wp_bind]
          have fin : ∀ d3, Win a b d d3 → Sorted lt a i' d3 → wp (exact lt) (partialLoop n a b i')
              (fun r d' => Win a b d d' ∧ (r = true → Sorted lt a b d')) d3 :=
            fun d3 w3 s3 => wp_mono (ih i' (by omega) (by omega) d3 (h.win w3)
              (hl.win w3 (Int.le_refl _)) s3) fun _ _ w' => ⟨w3.trans w'.1, w'.2⟩
          refine wp_when (fun hc => ?_) (fun _ => fin _ w2 s2)
          exact wp_mono (shiftRight_any i' b (i' + 1) (by omega) d2 ((h.win w2).sub (by omega) (by omega)))
            fun _ _ w' => fin _ (w2.trans (w'.mono (by omega) (Int.le_refl _)))
              (s2.frame w' (Or.inl (Int.le_refl _)))
        refine wp_when (fun hc => ?_) (fun hc => key _ w (Sorted.trivial (by omega)))
        refine wp_mono (shiftLeft_sorted hw a (i' - 1) i' h0 (by omega) (by omega) d1
          (h1.sub (by omega) (by omega)) (fun p k q r => hl1 p k q (by omega)) hs1) ?_
        rintro _ d2 ⟨w', s'⟩
        exact key _ (w.trans (w'.mono (Int.le_refl _) (by omega))) s'

theorem tryPartial_sorted (hw : StrictWeak lt) (c : Prop) [Decidable c] (a b : Int) (h0 : 0 ≤ a)
    (hab : a < b) (d : List E) (h : Span d 0 b) (hl : Low lt a b d) :
    wp (exact lt) (tryPartial c a b)
      (fun r d' => Win a b d d' ∧ (r = true → Sorted lt a b d')) d := by
  unfold tryPartial
  split
  · exact partialLoop_sorted hw 5 a b (a + 1) h0 (by omega) (by omega) d h hl
      (Sorted.trivial (by omega))
  · rw [wp_pure]; exact ⟨Win.refl .., fun h => by cases h⟩

theorem saysLt_exact {x y : E} (h : saysLt (exact lt) x y) : lt x y = true := by
  rcases h with h | h
  · exact h.symm
  · simpa [exact] using h

theorem saysNlt_exact {x y : E} (h : saysNlt (exact lt) x y) : le lt y x := by
  unfold le
  rcases h with h | h
  · exact h.symm
  · simpa [exact] using h

/-- Under a strict weak order, `pdqsort` sorts `[a, b)` and touches nothing else. -/
theorem pdqsort_sorted (hw : StrictWeak lt) (fuel : Nat) (a b limit : Int) (wb wp' : Bool)
    (hf : b - a < fuel) (hf0 : 0 < fuel) (h0 : 0 ≤ a) (hab : a ≤ b) (d : List E) (h : Span d 0 b)
    (hl : Low lt a b d) :
    wp (exact lt) (pdqsort fuel a b limit wb wp')
      (fun _ d' => Win a b d d' ∧ Sorted lt a b d') d := by
  induction fuel generalizing a b limit wb wp' d with
  | zero => omega
  | succ fuel ih =>
    unfold pdqsort
    dsimp only
    have ha : ∀ d : List E, Span d 0 b → Span d a b := fun d h => h.sub h0 (Int.le_refl _)
    split
    · exact insertionSort_sorted hw a b d (ha d h)
    · split
      · exact heapSort_sorted hw a b (by omega) d (ha d h)
      · rw [wp_bind]
        refine wp_mono (breakIfUnbalanced_any wb a b limit d (ha d h)) ?_
        intro limit d1 w1
        have h1 := h.win w1
        rw [wp_bind]
        refine wp_mono (choosePivot_any a b d1 (ha _ h1) (by omega)) ?_
        rintro ph d1 ⟨rfl, p1, p2⟩
        rw [wp_bind]
        refine wp_mono (reverseIfDecreasing_any a b ph.1 ph.2 d1 (ha _ h1) p1 p2) ?_
        rintro ph d2 ⟨w2, p1, p2⟩
        have w2 := w1.trans w2
        have h2 := h.win w2
        rw [wp_bind]
        refine wp_mono (tryPartial_sorted hw _ a b h0 (by omega) d2 h2 (hl.win w2 (Int.le_refl _))) ?_
        rintro done d3 ⟨w3, s3⟩
        have w3 := w2.trans w3
        have h3 := h.win w3
        have hl3 := hl.win w3 (Int.le_refl _)
        split
        · rename_i hdone
          rw [wp_pure]; exact ⟨w3, s3 hdone⟩
        · rw [wp_bind]
          refine wp_mono (manyEqual_any a b ph.1 d3 h3 p1 p2) ?_
          rintro eq d3 ⟨rfl, he⟩
          split
          · rename_i heq
            obtain ⟨hapos, hnlt⟩ := he heq
            have hple : le lt (el d3 ph.1) (el d3 (a - 1)) := by
              unfold le; simpa [exact] using hnlt
            rw [wp_bind]
            refine wp_mono (partitionEqual_any a b ph.1 _ (ha _ h3) p1 p2 (by omega)) ?_
            rintro mid d4 ⟨w4, q1, q2, q3, q4, q5⟩
            have hl4 := hl3.win w4 (Int.le_refl _)
            have w34 := w3.trans w4
            generalize el d3 ph.1 = p at *
            -- everything in `[a, mid)` is equivalent to the pivot
            have hge : ∀ k, a ≤ k → k < b → le lt p (el d4 k) := by
              intro k hk1 hk2
              refine hw.le_trans hple ?_
              have := hl4 hapos k hk1 hk2
              rw [w4.frame (a - 1) (by omega)] at this
              exact this
            have hle : ∀ k, a ≤ k → k < mid → le lt (el d4 k) p := by
              intro k hk1 hk2
              by_cases hk : k = a
              · subst hk; rw [q3]; exact hw.le_refl _
              · exact saysNlt_exact (q4 k (by omega) hk2)
            have hgt : ∀ k, mid ≤ k → k < b → le lt p (el d4 k) :=
              fun k hk1 hk2 => hge k (by omega) hk2
            refine wp_mono (ih mid b _ _ _ (by omega) (by omega) (by omega) (by omega) d4 (h.win w34) ?_) ?_
            · intro _ k hk1 hk2
              exact hw.le_trans (hle (mid - 1) (by omega) (by omega)) (hgt k hk1 hk2)
            · rintro _ d5 ⟨w5, s5⟩
              refine ⟨w34.trans (w5.mono (by omega) (Int.le_refl _)), ?_⟩
              refine Sorted.join hw (m := mid) ?_ s5 ?_
              · intro x y hx hxy hy
                rw [w5.frame x (by omega), w5.frame y (by omega)]
                exact hw.le_trans (hle x hx (by omega)) (hge y (by omega) (by omega))
              · intro x y hx1 hx2 hy1 hy2
                rw [w5.frame x (by omega)]
                exact hw.le_trans (hle x hx1 hx2) (w5.pres (fun z => le lt p z) hgt y hy1 hy2)
          · rw [wp_bind]
            refine wp_mono (partition_any a b ph.1 _ (ha _ h3) p1 p2) ?_
            rintro mp d4 ⟨w4, q1, q2, q3, q4, q5⟩
            have hl4 := hl3.win w4 (Int.le_refl _)
            have w34 := w3.trans w4
            have h4 := h.win w34
            generalize el d3 ph.1 = p at *
            have hll : ∀ k, a ≤ k → k < mp.1 → le lt (el d4 k) p :=
              fun k h1 h2 => hw.le_of_lt (saysLt_exact (q4 k h1 h2))
            have hrr : ∀ k, mp.1 + 1 ≤ k → k < b → le lt p (el d4 k) :=
              fun k h1 h2 => saysNlt_exact (q5 k (by omega) h2)
            -- what holds once both halves are sorted
            have fin : ∀ d5 d6, Win a mp.1 d4 d5 ∧ Sorted lt a mp.1 d5 →
                Win (mp.1 + 1) b d5 d6 ∧ Sorted lt (mp.1 + 1) b d6 →
                Win a b d d6 ∧ Sorted lt a b d6 := by
              rintro d5 d6 ⟨w5, s5⟩ ⟨w6, s6⟩
              have w56 := (w5.mono (lo' := a) (hi' := b) (by omega) (by omega)).trans
                (w6.mono (by omega) (by omega))
              refine ⟨w34.trans w56, ?_⟩
              have hp : el d6 mp.1 = p := by
                rw [w6.frame _ (by omega), w5.frame _ (by omega), q3]
              have l6 : ∀ k, a ≤ k → k < mp.1 + 1 → le lt (el d6 k) p := by
                intro k hk1 hk2
                by_cases hk : k = mp.1
                · subst hk; rw [hp]; exact hw.le_refl _
                · rw [w6.frame k (by omega)]
                  exact w5.pres (fun z => le lt z p) hll k hk1 (by omega)
              have r6 : ∀ k, mp.1 + 1 ≤ k → k < b → le lt p (el d6 k) := by
                apply w6.pres (fun z => le lt p z)
                intro k hk1 hk2
                rw [w5.frame k (by omega)]
                exact hrr k hk1 hk2
              refine Sorted.join hw (m := mp.1 + 1) ?_ s6 ?_
              · intro x y hx hxy hy
                by_cases hy' : y = mp.1
                · subst hy'; rw [hp]; exact l6 x hx (by omega)
                · rw [w6.frame x (by omega), w6.frame y (by omega)]
                  exact s5 x y hx hxy (by omega)
              · intro x y hx1 hx2 hy1 hy2
                exact hw.le_trans (l6 x hx1 hx2) (r6 y hy1 hy2)
            have fin' : ∀ d5 d6, Win (mp.1 + 1) b d4 d5 ∧ Sorted lt (mp.1 + 1) b d5 →
                Win a mp.1 d5 d6 ∧ Sorted lt a mp.1 d6 →
                Win a b d d6 ∧ Sorted lt a b d6 := by
              rintro d5 d6 ⟨w5, s5⟩ ⟨w6, s6⟩
              have w56 := (w5.mono (lo' := a) (hi' := b) (by omega) (by omega)).trans
                (w6.mono (by omega) (by omega))
              refine ⟨w34.trans w56, ?_⟩
              have hp : el d6 mp.1 = p := by
                rw [w6.frame _ (by omega), w5.frame _ (by omega), q3]
              have l6 : ∀ k, a ≤ k → k < mp.1 → le lt (el d6 k) p := by
                apply w6.pres (fun z => le lt z p)
                intro k hk1 hk2
                rw [w5.frame k (by omega)]
                exact hll k hk1 hk2
              have r6 : ∀ k, mp.1 ≤ k → k < b → le lt p (el d6 k) := by
                intro k hk1 hk2
                by_cases hk : k = mp.1
                · subst hk; rw [hp]; exact hw.le_refl _
                · rw [w6.frame k (by omega)]
                  exact w5.pres (fun z => le lt p z) hrr k (by omega) hk2
              refine Sorted.join hw (m := mp.1) s6 ?_ ?_
              · intro x y hx hxy hy
                by_cases hx' : x = mp.1
                · subst hx'; rw [hp]; exact r6 y (by omega) hy
                · rw [w6.frame x (by omega), w6.frame y (by omega)]
                  exact s5 x y (by omega) hxy (by omega)
              · intro x y hx1 hx2 hy1 hy2
                exact hw.le_trans (l6 x hx1 hx2) (r6 y hy1 hy2)
            have lowR : ∀ d5, Win a mp.1 d4 d5 ∨ d5 = d4 → Low lt (mp.1 + 1) b d5 := by
              intro d5 hd5 _ k hk1 hk2
              have e : mp.1 + 1 - 1 = mp.1 := by omega
              rw [e]
              rcases hd5 with w5 | rfl
              · rw [w5.frame _ (by omega), w5.frame _ (by omega), q3]; exact hrr k hk1 hk2
              · rw [q3]; exact hrr k hk1 hk2
            have lowL : ∀ d5, Win (mp.1 + 1) b d4 d5 ∨ d5 = d4 → Low lt a mp.1 d5 := by
              intro d5 hd5 hpos k hk1 hk2
              rcases hd5 with w5 | rfl
              · rw [w5.frame _ (by omega), w5.frame _ (by omega)]; exact hl4 hpos k hk1 (by omega)
              · exact hl4 hpos k hk1 (by omega)
            split
            · rw [wp_bind, wp_recurse]
              refine wp_mono (ih a mp.1 _ _ _ (by omega) (by omega) h0 (by omega) d4
                (h4.sub (by omega) (by omega)) (lowL d4 (Or.inr rfl))) ?_
              rintro _ d5 hd5
              refine wp_mono (ih (mp.1 + 1) b _ _ _ (by omega) (by omega) (by omega) (by omega) d5
                (h4.win hd5.1) (lowR d5 (Or.inl hd5.1))) ?_
              intro _ d6 hd6
              exact fin d5 d6 hd5 hd6
            · rw [wp_bind, wp_recurse]
              refine wp_mono (ih (mp.1 + 1) b _ _ _ (by omega) (by omega) (by omega) (by omega) d4
                h4 (lowR d4 (Or.inr rfl))) ?_
              rintro _ d5 hd5
              refine wp_mono (ih a mp.1 _ _ _ (by omega) (by omega) h0 (by omega) d5
                ((h4.win hd5.1).sub (by omega) (by omega)) (lowL d5 (Or.inl hd5.1))) ?_
              intro _ d6 hd6
              exact fin' d5 d6 hd5 hd6

/-- A slice sorted by position is ascending. -/
theorem Sorted.ascending {d : List E} (h : Sorted lt 0 d.length d) : Ascending lt d := by
  unfold Ascending
  rw [List.pairwise_iff_getElem]
  intro i j hi hj hij
  have := h i j (by omega) (by omega) (by omega)
  rw [el_eq_getElem ⟨by omega, by omega⟩, el_eq_getElem ⟨by omega, by omega⟩] at this
  simpa [le] using this

theorem sortProg_sorted (hw : StrictWeak lt) (d : List E) :
    wp (exact lt) sortProg (fun _ d' => d'.Perm d ∧ Ascending lt d') d := by
  have := pdqsort_sorted hw (d.length + 1) 0 d.length (bitsLen d.length) true true
    (by omega) (by omega) (by omega) (by omega) d ⟨by omega, by omega⟩
    (fun h => by omega)
  have := wp_mono (Q' := fun _ d' => d'.Perm d ∧ Ascending lt d') this
    fun _ d' w => ⟨w.1.perm, by
      have hs := w.2
      rw [← w.1.len] at hs
      exact hs.ascending⟩
  exact this

end Verif.Sort
