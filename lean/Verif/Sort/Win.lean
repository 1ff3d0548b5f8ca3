import Verif.Sort.Model

/-! # Rearrangements inside a window, and what holds for every comparator -/

namespace Verif.Sort

variable {E : Type} [Inhabited E]
set_option linter.unusedSectionVars false

/-- `d'` arises from `d` by rearranging the elements at positions `[lo, hi)` among themselves. -/
structure Win (lo hi : Int) (d d' : List E) : Prop where
  perm : d'.Perm d
  frame : ∀ k, (k < lo ∨ hi ≤ k) → el d' k = el d k
  pres : ∀ P : E → Prop, (∀ k, lo ≤ k → k < hi → P (el d k)) → ∀ k, lo ≤ k → k < hi → P (el d' k)

theorem Win.refl (lo hi : Int) (d : List E) : Win lo hi d d :=
  ⟨List.Perm.refl _, fun _ _ => rfl, fun _ h => h⟩

theorem Win.trans {lo hi : Int} {d d' d'' : List E} (h : Win lo hi d d') (h' : Win lo hi d' d'') :
    Win lo hi d d'' :=
  ⟨h'.perm.trans h.perm, fun k hk => (h'.frame k hk).trans (h.frame k hk),
    fun P hP => h'.pres P (h.pres P hP)⟩

theorem Win.len {lo hi : Int} {d d' : List E} (h : Win lo hi d d') : d'.length = d.length :=
  h.perm.length_eq

theorem Win.mono {lo hi lo' hi' : Int} {d d' : List E} (h : Win lo hi d d') (h1 : lo' ≤ lo)
    (h2 : hi ≤ hi') : Win lo' hi' d d' := by
  refine ⟨h.perm, fun k hk => h.frame k (by omega), fun P hP k hk1 hk2 => ?_⟩
  by_cases hk : lo ≤ k ∧ k < hi
  · exact h.pres P (fun k h1 h2 => hP k (by omega) (by omega)) k hk.1 hk.2
  · rw [h.frame k (by omega)]; exact hP k hk1 hk2

theorem Win.inRange {lo hi : Int} {d d' : List E} (h : Win lo hi d d') (k : Int) :
    inRange d' k ↔ inRange d k := by
  unfold Sort.inRange; rw [h.len]

theorem swapL_perm {d : List E} {i j : Int} (hi : inRange d i) (hj : inRange d j) :
    (swapL d i j).Perm d := by
  unfold swapL
  rw [el_eq_getElem hi, el_eq_getElem hj]
  exact List.set_set_perm _ _

theorem Win.swap {lo hi : Int} {d : List E} {i j : Int} (hi' : Sort.inRange d i) (hj : Sort.inRange d j)
    (h1 : lo ≤ i) (h2 : i < hi) (h3 : lo ≤ j) (h4 : j < hi) : Win lo hi d (swapL d i j) := by
  refine ⟨swapL_perm hi' hj, fun k hk => ?_, fun P hP k hk1 hk2 => ?_⟩
  · rw [el_swapL hi' hj, if_neg (by omega), if_neg (by omega)]
  · rw [el_swapL hi' hj]
    split
    · exact hP _ h3 h4
    · split
      · exact hP _ h1 h2
      · exact hP _ hk1 hk2

/-- `x < y` according to an answer. -/
def saysLt (adm : Kind → E → E → Bool → Prop) (x y : E) : Prop := adm .lt x y true ∨ adm .nlt x y false
/-- not `x < y` according to an answer. -/
def saysNlt (adm : Kind → E → E → Bool → Prop) (x y : E) : Prop := adm .lt x y false ∨ adm .nlt x y true

variable {adm : Kind → E → E → Bool → Prop}

/-- Positions `[a, b)` are positions of the slice. -/
def Span (d : List E) (a b : Int) : Prop := 0 ≤ a ∧ b ≤ d.length

theorem Span.inR {d : List E} {a b k : Int} (h : Span d a b) (h1 : a ≤ k) (h2 : k < b) :
    inRange d k := ⟨by have := h.1; omega, by have := h.2; omega⟩

theorem Span.win {d d' : List E} {a b lo hi : Int} (h : Span d a b) (w : Win lo hi d d') :
    Span d' a b := ⟨h.1, by rw [w.len]; exact h.2⟩

theorem Span.sub {d : List E} {a b a' b' : Int} (h : Span d a b) (h1 : a ≤ a') (h2 : b' ≤ b) :
    Span d a' b' := ⟨by have := h.1; omega, by have := h.2; omega⟩

/-! ## Insertion sort -/

theorem insInner_any (a j : Int) (d : List E) (h : Span d a (j + 1)) :
    wp adm (insInner a j) (fun _ d' => Win a (j + 1) d d') d := by
  unfold insInner
  split
  · rw [wp_bind]
    refine wp_lessAt (h.inR (by omega) (by omega)) (h.inR (by omega) (by omega)) ?_
    intro b _
    split
    · rw [wp_bind]
      have i1 : inRange d j := h.inR (by omega) (by omega)
      have i2 : inRange d (j - 1) := h.inR (by omega) (by omega)
      refine wp_swap i1 i2 ?_
      have w : Win a (j + 1) d (swapL d j (j - 1)) := Win.swap i1 i2 (by omega) (by omega) (by omega) (by omega)
      refine wp_mono (insInner_any a (j - 1) _ ((h.win w).sub (by omega) (by omega))) ?_
      intro _ d' w'
      exact w.trans (w'.mono (by omega) (by omega))
    · rw [wp_pure]; exact Win.refl ..
  · rw [wp_pure]; exact Win.refl ..
termination_by (j - a).toNat

theorem insOuter_any (a b i : Int) (hi : a ≤ i) (d : List E) (h : Span d a b) :
    wp adm (insOuter a b i) (fun _ d' => Win a b d d') d := by
  unfold insOuter
  split
  · rw [wp_bind]
    refine wp_mono (insInner_any a i d (h.sub (by omega) (by omega))) ?_
    intro _ d1 w1
    have w1 := w1.mono (lo' := a) (hi' := b) (by omega) (by omega)
    refine wp_mono (insOuter_any a b (i + 1) (by omega) _ (h.win w1)) ?_
    intro _ d' w'
    exact w1.trans w'
  · rw [wp_pure]; exact Win.refl ..
termination_by (b - i).toNat

theorem insertionSort_any (a b : Int) (d : List E) (h : Span d a b) :
    wp adm (insertionSort a b) (fun _ d' => Win a b d d') d :=
  insOuter_any a b (a + 1) (by omega) d h

theorem wp_when {c : Prop} [Decidable c] {m : M E Unit} {Q : Unit → List E → Prop} {d : List E}
    (h1 : c → wp adm m Q d) (h2 : ¬ c → Q () d) : wp adm (M.when c m) Q d := by
  unfold M.when
  split
  · exact h1 ‹_›
  · exact h2 ‹_›

/-! ## Heap sort -/

theorem pickChild_any (child hi first : Int) (d : List E) (h : Span d first (first + hi))
    (h0 : 0 ≤ child) (h1 : child < hi) :
    wp adm (pickChild child hi first) (fun r d' => d' = d ∧ (r = child ∨ r = child + 1) ∧ r < hi ∧
      (child + 1 < hi → (r = child + 1 → adm .lt (el d (first + child)) (el d (first + child + 1)) true)
        ∧ (r = child → adm .lt (el d (first + child)) (el d (first + child + 1)) false))) d := by
  unfold pickChild
  split
  · rw [wp_bind]
    refine wp_lessAt (h.inR (by omega) (by omega)) (h.inR (by omega) (by omega)) ?_
    intro b hb
    split
    · rename_i hbt; subst hbt
      rw [wp_pure]
      exact ⟨rfl, Or.inr rfl, by omega, fun _ => ⟨fun _ => hb, fun _ => by omega⟩⟩
    · rename_i hbf
      have : b = false := by simpa using hbf
      subst this
      rw [wp_pure]
      exact ⟨rfl, Or.inl rfl, by omega, fun _ => ⟨fun _ => by omega, fun _ => hb⟩⟩
  · rw [wp_pure]
    exact ⟨rfl, Or.inl rfl, by omega, fun _ => by omega⟩

theorem siftDown_any (root hi first : Int) (h0 : 0 ≤ root) (d : List E)
    (h : Span d first (first + hi)) :
    wp adm (siftDown root hi first) (fun _ d' => Win first (first + hi) d d') d := by
  unfold siftDown
  split
  · rw [wp_pure]; exact Win.refl ..
  · rw [wp_bind]
    refine wp_mono (pickChild_any (2 * root + 1) hi first d h (by omega) (by omega)) ?_
    rintro c _ ⟨rfl, h1, h2, -⟩
    rw [dif_pos (by omega)]
    have i1 := h.inR (k := first + root) (by omega) (by omega)
    have i2 := h.inR (k := first + c) (by omega) (by omega)
    rw [wp_bind]
    refine wp_nlessAt i1 i2 ?_
    intro b _
    split
    · rw [wp_pure]; exact Win.refl ..
    · rw [wp_bind]
      refine wp_swap i1 i2 ?_
      have w := Win.swap (lo := first) (hi := first + hi) i1 i2 (by omega) (by omega) (by omega) (by omega)
      exact wp_mono (siftDown_any c hi first (by omega) _ (h.win w)) fun _ d' w' => w.trans w'
termination_by (hi - root).toNat

theorem heapBuild_any (i hi first : Int) (d : List E) (h : Span d first (first + hi)) :
    wp adm (heapBuild i hi first) (fun _ d' => Win first (first + hi) d d') d := by
  unfold heapBuild
  split
  · rw [wp_bind]
    refine wp_mono (siftDown_any i hi first (by omega) d h) ?_
    intro _ d1 w1
    exact wp_mono (heapBuild_any (i - 1) hi first _ (h.win w1)) fun _ d' w' => w1.trans w'
  · rw [wp_pure]; exact Win.refl ..
termination_by (i + 1).toNat

theorem heapPop_any (i hi first : Int) (hi' : i < hi) (d : List E)
    (h : Span d first (first + hi)) :
    wp adm (heapPop i first) (fun _ d' => Win first (first + hi) d d') d := by
  unfold heapPop
  split
  · rw [wp_bind]
    have i1 : inRange d first := h.inR (by omega) (by omega)
    have i2 : inRange d (first + i) := h.inR (by omega) (by omega)
    refine wp_swap i1 i2 ?_
    have w : Win first (first + hi) d (swapL d first (first + i)) :=
      Win.swap i1 i2 (by omega) (by omega) (by omega) (by omega)
    rw [wp_bind]
    refine wp_mono (siftDown_any 0 i first (by omega) _ ((h.win w).sub (by omega) (by omega))) ?_
    intro _ d1 w1
    have w1 := w.trans (w1.mono (Int.le_refl _) (by omega))
    exact wp_mono (heapPop_any (i - 1) hi first (by omega) _ (h.win w1)) fun _ d' w' => w1.trans w'
  · rw [wp_pure]; exact Win.refl ..
termination_by (i + 1).toNat

theorem heapSort_any (a b : Int) (d : List E) (h : Span d a b) :
    wp adm (heapSort a b) (fun _ d' => Win a b d d') d := by
  have e : a + (b - a) = b := by omega
  unfold heapSort
  dsimp only
  rw [wp_bind]
  have := heapBuild_any (adm := adm) ((b - a - 1) / 2) (b - a) a d (by rw [e]; exact h)
  rw [e] at this
  refine wp_mono this ?_
  intro _ d1 w1
  have := heapPop_any (adm := adm) (b - a - 1) (b - a) a (by omega) d1 (by rw [e]; exact h.win w1)
  rw [e] at this
  exact wp_mono this fun _ d' w' => w1.trans w'

/-! ## Partition -/

theorem scanUp_any (a j i : Int) (d : List E) (h : Span d a (j + 1)) (hai : a ≤ i)
    (haj : a ≤ j) :
    wp adm (scanUp a j i) (fun r d' => d' = d ∧ i ≤ r ∧ (r = i ∨ r ≤ j + 1) ∧
      (∀ k, i ≤ k → k < r → adm .lt (el d k) (el d a) true) ∧
      (r ≤ j → adm .lt (el d r) (el d a) false)) d := by
  unfold scanUp
  split
  · rw [wp_bind]
    refine wp_lessAt (h.inR (by omega) (by omega)) (h.inR (by omega) (by omega)) ?_
    intro b hb
    split
    · rename_i hbt
      subst hbt
      refine wp_mono (scanUp_any a j (i + 1) d h (by omega) haj) ?_
      rintro r d' ⟨rfl, h1, h2, h3, h4⟩
      refine ⟨rfl, by omega, by omega, fun k hk1 hk2 => ?_, h4⟩
      by_cases hk : k = i
      · subst hk; exact hb
      · exact h3 k (by omega) hk2
    · rename_i hbf
      have : b = false := by simpa using hbf
      subst this
      rw [wp_pure]
      exact ⟨rfl, Int.le_refl _, Or.inl rfl, fun k _ _ => by omega, fun _ => hb⟩
  · rw [wp_pure]
    exact ⟨rfl, Int.le_refl _, Or.inl rfl, fun k _ _ => by omega, fun _ => by omega⟩
termination_by (j + 1 - i).toNat

theorem scanDown_any (a i j : Int) (d : List E) (h : Span d a (j + 1))
    (hai : a < i) (haj : a ≤ j) :
    wp adm (scanDown a i j) (fun r d' => d' = d ∧ (r = j ∨ i - 1 ≤ r) ∧ r ≤ j ∧
      (∀ k, r < k → k ≤ j → adm .nlt (el d k) (el d a) true) ∧
      (i ≤ r → adm .nlt (el d r) (el d a) false)) d := by
  unfold scanDown
  split
  · rw [wp_bind]
    refine wp_nlessAt (h.inR (by omega) (by omega)) (h.inR (by omega) (by omega)) ?_
    intro b hb
    split
    · rename_i hbt
      subst hbt
      refine wp_mono (scanDown_any a i (j - 1) d (h.sub (by omega) (by omega)) hai (by omega)) ?_
      rintro r d' ⟨rfl, h1, h2, h3, h4⟩
      refine ⟨rfl, by omega, by omega, fun k hk1 hk2 => ?_, h4⟩
      by_cases hk : k = j
      · subst hk; exact hb
      · exact h3 k (by omega) (by omega)
    · rename_i hbf
      have : b = false := by simpa using hbf
      subst this
      rw [wp_pure]
      exact ⟨rfl, Or.inl rfl, Int.le_refl _, fun k _ _ => by omega, fun _ => hb⟩
  · rw [wp_pure]
    exact ⟨rfl, Or.inl rfl, Int.le_refl _, fun k _ _ => by omega, fun _ => by omega⟩
termination_by (j + 1 - i).toNat

/-- What a finished partition guarantees: the pivot is at `r`, everything before it was reported less
than it, everything after it not less. -/
def Parted (adm : Kind → E → E → Bool → Prop) (a b r : Int) (p : E) (d' : List E) : Prop :=
  a ≤ r ∧ r < b ∧ el d' r = p ∧ (∀ k, a ≤ k → k < r → saysLt adm (el d' k) p) ∧
    (∀ k, r < k → k < b → saysNlt adm (el d' k) p)

/-- The end of a partition: exchange the pivot at `a` with position `j`. -/
theorem part_finish {a b j : Int} {d : List E} (h : Span d a b) (haj : a ≤ j) (hjb : j < b)
    (hl : ∀ k, a < k → k ≤ j → saysLt adm (el d k) (el d a))
    (hr : ∀ k, j < k → k < b → saysNlt adm (el d k) (el d a)) :
    Win a b d (swapL d j a) ∧ Parted adm a b j (el d a) (swapL d j a) := by
  have i1 : inRange d j := h.inR haj hjb
  have i2 : inRange d a := h.inR (by omega) (by omega)
  refine ⟨Win.swap i1 i2 haj hjb (by omega) (by omega), haj, hjb, ?_, ?_, ?_⟩
  · rw [el_swapL i1 i2, if_pos rfl]
  · intro k hk1 hk2
    rw [el_swapL i1 i2, if_neg (by omega)]
    split
    · exact hl j (by omega) (by omega)
    · exact hl k (by omega) (by omega)
  · intro k hk1 hk2
    rw [el_swapL i1 i2, if_neg (by omega), if_neg (by omega)]
    exact hr k hk1 hk2

theorem partLoop_any (fuel : Nat) (a b i j : Int) (d : List E) (h : Span d a b)
    (hai : a < i) (haj : a ≤ j) (hij : i ≤ j + 2) (hjb : j < b) (hf : j + 3 - i ≤ 2 * fuel)
    (hl : ∀ k, a < k → k < i → saysLt adm (el d k) (el d a))
    (hr : ∀ k, j < k → k < b → saysNlt adm (el d k) (el d a)) :
    wp adm (partLoop fuel a i j) (fun r d' => Win a b d d' ∧ Parted adm a b r (el d a) d') d := by
  induction fuel generalizing i j d with
  | zero => omega
  | succ fuel ih =>
    unfold partLoop
    rw [wp_bind]
    refine wp_mono (scanUp_any a j i d (h.sub (by omega) (by omega)) (by omega) haj) ?_
    rintro i' _ ⟨rfl, u1, u2, u3, u4⟩
    rw [wp_bind]
    refine wp_mono (scanDown_any a i' j _ (h.sub (by omega) (by omega)) (by omega) haj) ?_
    rintro j' d0 ⟨rfl, v1, v2, v3, v4⟩
    have hl' : ∀ k, a < k → k < i' → saysLt adm (el d0 k) (el d0 a) := by
      intro k h1 h2
      by_cases hk : k < i
      · exact hl k h1 hk
      · exact Or.inl (u3 k (by omega) h2)
    have hr' : ∀ k, j' < k → k < b → saysNlt adm (el d0 k) (el d0 a) := by
      intro k h1 h2
      by_cases hk : j < k
      · exact hr k hk h2
      · exact Or.inr (v3 k h1 (by omega))
    split
    · rw [wp_bind]
      refine wp_swap (h.inR (by omega) (by omega)) (h.inR (by omega) (by omega)) ?_
      rw [wp_pure]
      exact part_finish h (by omega) (by omega) (fun k h1 h2 => hl' k h1 (by omega)) hr'
    · rename_i hgt
      rw [wp_bind]
      have i1 : inRange d0 i' := h.inR (by omega) (by omega)
      have i2 : inRange d0 j' := h.inR (by omega) (by omega)
      refine wp_swap i1 i2 ?_
      have w : Win a b d0 (swapL d0 i' j') := Win.swap i1 i2 (by omega) (by omega) (by omega) (by omega)
      have ea : el (swapL d0 i' j') a = el d0 a := by
        rw [el_swapL i1 i2, if_neg (by omega), if_neg (by omega)]
      refine wp_mono (ih (i' + 1) (j' - 1) _ (h.win w) (by omega) (by omega) (by omega) (by omega) (by omega) ?_ ?_) ?_
      · intro k h1 h2
        rw [ea, el_swapL i1 i2]
        split
        · exact Or.inr (v4 (by omega))
        · split
          · omega
          · exact hl' k h1 (by omega)
      · intro k h1 h2
        rw [ea, el_swapL i1 i2]
        split
        · rename_i hk
          have : i' = j' := by omega
          subst this; exact Or.inl (u4 (by omega))
        · split
          · exact Or.inl (u4 (by omega))
          · exact hr' k (by omega) h2
      · rintro r d' ⟨w', p⟩
        rw [ea] at p
        exact ⟨w.trans w', p⟩

theorem partition_any (a b pivot : Int) (d : List E) (h : Span d a b) (h1 : a ≤ pivot)
    (h2 : pivot < b) :
    wp adm (partition a b pivot)
      (fun r d' => Win a b d d' ∧ Parted adm a b r.1 (el d pivot) d') d := by
  unfold partition
  rw [wp_bind]
  have i1 := h.inR (k := a) (by omega) (by omega)
  have i2 := h.inR (k := pivot) (by omega) (by omega)
  refine wp_swap i1 i2 ?_
  have w := Win.swap (lo := a) (hi := b) i1 i2 (by omega) (by omega) (by omega) (by omega)
  have ea : el (swapL d a pivot) a = el d pivot := by rw [el_swapL i1 i2, if_pos rfl]
  rw [← ea]
  have h := h.win w
  generalize swapL d a pivot = e at *
  rw [wp_bind]
  refine wp_mono (scanUp_any a (b - 1) (a + 1) e (h.sub (by omega) (by omega)) (by omega) (by omega)) ?_
  rintro i _ ⟨rfl, u1, u2, u3, u4⟩
  rw [wp_bind]
  refine wp_mono (scanDown_any a i (b - 1) _ (h.sub (by omega) (by omega)) (by omega) (by omega)) ?_
  rintro j e ⟨rfl, v1, v2, v3, v4⟩
  have hl : ∀ k, a < k → k < i → saysLt adm (el e k) (el e a) :=
    fun k h1 h2 => Or.inl (u3 k (by omega) h2)
  have hr : ∀ k, j < k → k < b → saysNlt adm (el e k) (el e a) :=
    fun k h1 h2 => Or.inr (v3 k h1 (by omega))
  split
  · rw [wp_bind]
    refine wp_swap (h.inR (by omega) (by omega)) (h.inR (by omega) (by omega)) ?_
    rw [wp_pure]
    obtain ⟨w', p⟩ := part_finish h (j := j) (by omega) (by omega) (fun k h1 h2 => hl k h1 (by omega)) hr
    exact ⟨w.trans w', p⟩
  · rw [wp_bind]
    have i1 := h.inR (k := i) (by omega) (by omega)
    have i2 := h.inR (k := j) (by omega) (by omega)
    refine wp_swap i1 i2 ?_
    have w2 := Win.swap (lo := a) (hi := b) i1 i2 (by omega) (by omega) (by omega) (by omega)
    have eb : el (swapL e i j) a = el e a := by
      rw [el_swapL i1 i2, if_neg (by omega), if_neg (by omega)]
    rw [wp_bind]
    refine wp_mono (partLoop_any _ a b (i + 1) (j - 1) _ (h.win w2) (by omega) (by omega) (by omega)
      (by omega) (by omega) ?_ ?_) ?_
    · intro k h1 h2
      rw [eb, el_swapL i1 i2]
      split
      · exact Or.inr (v4 (by omega))
      · split
        · omega
        · exact hl k h1 (by omega)
    · intro k h1 h2
      rw [eb, el_swapL i1 i2]
      split
      · have : i = j := by omega
        subst this; exact Or.inl (u4 (by omega))
      · split
        · exact Or.inl (u4 (by omega))
        · exact hr k (by omega) h2
    · rintro r d' ⟨w', p⟩
      rw [wp_pure]
      rw [eb] at p
      exact ⟨w.trans (w2.trans w'), p⟩

/-! ## Partition into equal and greater -/

theorem scanUpEq_any (a j i : Int) (d : List E) (h : Span d a (j + 1)) (hai : a ≤ i)
    (haj : a ≤ j) :
    wp adm (scanUpEq a j i) (fun r d' => d' = d ∧ i ≤ r ∧ (r = i ∨ r ≤ j + 1) ∧
      (∀ k, i ≤ k → k < r → adm .nlt (el d a) (el d k) true) ∧
      (r ≤ j → adm .nlt (el d a) (el d r) false)) d := by
  unfold scanUpEq
  split
  · rw [wp_bind]
    refine wp_nlessAt (h.inR (by omega) (by omega)) (h.inR (by omega) (by omega)) ?_
    intro b hb
    split
    · rename_i hbt
      subst hbt
      refine wp_mono (scanUpEq_any a j (i + 1) d h (by omega) haj) ?_
      rintro r d' ⟨rfl, h1, h2, h3, h4⟩
      refine ⟨rfl, by omega, by omega, fun k hk1 hk2 => ?_, h4⟩
      by_cases hk : k = i
      · subst hk; exact hb
      · exact h3 k (by omega) hk2
    · rename_i hbf
      have : b = false := by simpa using hbf
      subst this
      rw [wp_pure]
      exact ⟨rfl, Int.le_refl _, Or.inl rfl, fun k _ _ => by omega, fun _ => hb⟩
  · rw [wp_pure]
    exact ⟨rfl, Int.le_refl _, Or.inl rfl, fun k _ _ => by omega, fun _ => by omega⟩
termination_by (j + 1 - i).toNat

theorem scanDownEq_any (a i j : Int) (d : List E) (h : Span d a (j + 1))
    (hai : a < i) (haj : a ≤ j) :
    wp adm (scanDownEq a i j) (fun r d' => d' = d ∧ (r = j ∨ i - 1 ≤ r) ∧ r ≤ j ∧
      (∀ k, r < k → k ≤ j → adm .lt (el d a) (el d k) true) ∧
      (i ≤ r → adm .lt (el d a) (el d r) false)) d := by
  unfold scanDownEq
  split
  · rw [wp_bind]
    refine wp_lessAt (h.inR (by omega) (by omega)) (h.inR (by omega) (by omega)) ?_
    intro b hb
    split
    · rename_i hbt
      subst hbt
      refine wp_mono (scanDownEq_any a i (j - 1) d (h.sub (by omega) (by omega)) hai (by omega)) ?_
      rintro r d' ⟨rfl, h1, h2, h3, h4⟩
      refine ⟨rfl, by omega, by omega, fun k hk1 hk2 => ?_, h4⟩
      by_cases hk : k = j
      · subst hk; exact hb
      · exact h3 k (by omega) (by omega)
    · rename_i hbf
      have : b = false := by simpa using hbf
      subst this
      rw [wp_pure]
      exact ⟨rfl, Or.inl rfl, Int.le_refl _, fun k _ _ => by omega, fun _ => hb⟩
  · rw [wp_pure]
    exact ⟨rfl, Or.inl rfl, Int.le_refl _, fun k _ _ => by omega, fun _ => by omega⟩
termination_by (j + 1 - i).toNat

/-- What `partitionEqual` guarantees: the pivot at `a`, `[a, r)` reported not greater than it,
`[r, b)` greater. -/
def PartedEq (adm : Kind → E → E → Bool → Prop) (a b r : Int) (p : E) (d' : List E) : Prop :=
  a < r ∧ r ≤ b ∧ el d' a = p ∧ (∀ k, a < k → k < r → saysNlt adm p (el d' k)) ∧
    (∀ k, r ≤ k → k < b → saysLt adm p (el d' k))

theorem partEqLoop_any (fuel : Nat) (a b i j : Int) (d : List E) (h : Span d a b)
    (hai : a < i) (haj : a ≤ j) (hij : i ≤ j + 2) (hjb : j < b) (hib : i ≤ b) (hf : j + 3 - i ≤ 2 * fuel)
    (hl : ∀ k, a < k → k < i → saysNlt adm (el d a) (el d k))
    (hr : ∀ k, j < k → k < b → saysLt adm (el d a) (el d k)) :
    wp adm (partEqLoop fuel a i j) (fun r d' => Win a b d d' ∧ PartedEq adm a b r (el d a) d') d := by
  induction fuel generalizing i j d with
  | zero => omega
  | succ fuel ih =>
    unfold partEqLoop
    rw [wp_bind]
    refine wp_mono (scanUpEq_any a j i d (h.sub (by omega) (by omega)) (by omega) haj) ?_
    rintro i' _ ⟨rfl, u1, u2, u3, u4⟩
    rw [wp_bind]
    refine wp_mono (scanDownEq_any a i' j _ (h.sub (by omega) (by omega)) (by omega) haj) ?_
    rintro j' d0 ⟨rfl, v1, v2, v3, v4⟩
    have hl' : ∀ k, a < k → k < i' → saysNlt adm (el d0 a) (el d0 k) := by
      intro k h1 h2
      by_cases hk : k < i
      · exact hl k h1 hk
      · exact Or.inr (u3 k (by omega) h2)
    have hr' : ∀ k, j' < k → k < b → saysLt adm (el d0 a) (el d0 k) := by
      intro k h1 h2
      by_cases hk : j < k
      · exact hr k hk h2
      · exact Or.inl (v3 k h1 (by omega))
    split
    · rw [wp_pure]
      exact ⟨Win.refl .., by omega, by omega, rfl, hl', fun k h1 h2 => hr' k (by omega) h2⟩
    · rename_i hgt
      rw [wp_bind]
      have i1 := h.inR (k := i') (by omega) (by omega)
      have i2 := h.inR (k := j') (by omega) (by omega)
      refine wp_swap i1 i2 ?_
      have w : Win a b d0 (swapL d0 i' j') := Win.swap i1 i2 (by omega) (by omega) (by omega) (by omega)
      have ea : el (swapL d0 i' j') a = el d0 a := by
        rw [el_swapL i1 i2, if_neg (by omega), if_neg (by omega)]
      refine wp_mono (ih (i' + 1) (j' - 1) _ (h.win w) (by omega) (by omega) (by omega) (by omega) (by omega) (by omega) ?_ ?_) ?_
      · intro k h1 h2
        rw [ea, el_swapL i1 i2]
        split
        · exact Or.inl (v4 (by omega))
        · split
          · omega
          · exact hl' k h1 (by omega)
      · intro k h1 h2
        rw [ea, el_swapL i1 i2]
        split
        · have : i' = j' := by omega
          subst this; exact Or.inr (u4 (by omega))
        · split
          · exact Or.inr (u4 (by omega))
          · exact hr' k (by omega) h2
      · rintro r d' ⟨w', p⟩
        rw [ea] at p
        exact ⟨w.trans w', p⟩

theorem partitionEqual_any (a b pivot : Int) (d : List E) (h : Span d a b) (h1 : a ≤ pivot)
    (h2 : pivot < b) (h3 : a + 1 < b) :
    wp adm (partitionEqual a b pivot)
      (fun r d' => Win a b d d' ∧ PartedEq adm a b r (el d pivot) d') d := by
  unfold partitionEqual
  rw [wp_bind]
  have i1 := h.inR (k := a) (by omega) (by omega)
  have i2 := h.inR (k := pivot) (by omega) (by omega)
  refine wp_swap i1 i2 ?_
  have w := Win.swap (lo := a) (hi := b) i1 i2 (by omega) (by omega) (by omega) (by omega)
  have ea : el (swapL d a pivot) a = el d pivot := by rw [el_swapL i1 i2, if_pos rfl]
  rw [← ea]
  refine wp_mono (partEqLoop_any _ a b (a + 1) (b - 1) _ (h.win w) (by omega) (by omega) (by omega)
    (by omega) (by omega) (by omega) (fun k _ _ => by omega) (fun k _ _ => by omega)) ?_
  rintro r d' ⟨w', p⟩
  exact ⟨w.trans w', p⟩

/-! ## Partial insertion sort (writes may reach down to position 0) -/

theorem scanSorted_any (a b i : Int) (d : List E) (h : Span d a b) (hai : a < i) (hib : i ≤ b) :
    wp adm (scanSorted b i) (fun r d' => d' = d ∧ i ≤ r ∧ r ≤ b ∧
      (∀ k, i ≤ k → k < r → adm .nlt (el d k) (el d (k - 1)) true) ∧
      (r < b → adm .nlt (el d r) (el d (r - 1)) false)) d := by
  unfold scanSorted
  split
  · rw [wp_bind]
    refine wp_nlessAt (h.inR (by omega) (by omega)) (h.inR (by omega) (by omega)) ?_
    intro c hc
    split
    · rename_i hbt
      subst hbt
      refine wp_mono (scanSorted_any a b (i + 1) d h (by omega) (by omega)) ?_
      rintro r d' ⟨rfl, h1, h2, h3, h4⟩
      refine ⟨rfl, by omega, by omega, fun k hk1 hk2 => ?_, h4⟩
      by_cases hk : k = i
      · subst hk; exact hc
      · exact h3 k (by omega) hk2
    · rename_i hbf
      have : c = false := by simpa using hbf
      subst this
      rw [wp_pure]
      exact ⟨rfl, Int.le_refl _, by omega, fun k _ _ => by omega, fun _ => hc⟩
  · rw [wp_pure]
    exact ⟨rfl, Int.le_refl _, by omega, fun k _ _ => by omega, fun _ => by omega⟩
termination_by (b - i).toNat

theorem shiftLeft_any (j : Int) (d : List E) (h : Span d 0 (j + 1)) :
    wp adm (shiftLeft j) (fun _ d' => Win 0 (j + 1) d d') d := by
  unfold shiftLeft
  split
  · rw [wp_bind]
    have i1 := h.inR (k := j) (by omega) (by omega)
    have i2 := h.inR (k := j - 1) (by omega) (by omega)
    refine wp_nlessAt i1 i2 ?_
    intro c hc
    split
    · rw [wp_pure]; exact Win.refl ..
    · rw [wp_bind]
      refine wp_swap i1 i2 ?_
      have w := Win.swap (lo := 0) (hi := j + 1) i1 i2 (by omega) (by omega) (by omega) (by omega)
      refine wp_mono (shiftLeft_any (j - 1) _ ((h.win w).sub (by omega) (by omega))) ?_
      intro _ d' w'
      exact w.trans (w'.mono (by omega) (by omega))
  · rw [wp_pure]; exact Win.refl ..
termination_by j.toNat

theorem shiftRight_any (a b j : Int) (haj : a < j) (d : List E) (h : Span d a b) :
    wp adm (shiftRight b j) (fun _ d' => Win a b d d') d := by
  unfold shiftRight
  split
  · rw [wp_bind]
    have i1 := h.inR (k := j) (by omega) (by omega)
    have i2 := h.inR (k := j - 1) (by omega) (by omega)
    refine wp_nlessAt i1 i2 ?_
    intro c hc
    split
    · rw [wp_pure]; exact Win.refl ..
    · rw [wp_bind]
      refine wp_swap i1 i2 ?_
      have w := Win.swap (lo := a) (hi := b) i1 i2 (by omega) (by omega) (by omega) (by omega)
      refine wp_mono (shiftRight_any a b (j + 1) (by omega) _ (h.win w)) ?_
      intro _ d' w'
      exact w.trans w'
  · rw [wp_pure]; exact Win.refl ..
termination_by (b - j).toNat

theorem partialLoop_any (n : Nat) (a b i : Int) (h0 : 0 ≤ a) (hai : a < i) (hib : i ≤ b)
    (d : List E) (h : Span d 0 b) :
    wp adm (partialLoop n a b i) (fun _ d' => Win 0 b d d') d := by
  induction n generalizing i d with
  | zero => unfold partialLoop; rw [wp_pure]; exact Win.refl ..
  | succ n ih =>
    unfold partialLoop
    rw [wp_bind]
    refine wp_mono (scanSorted_any a b i d (h.sub (by omega) (by omega)) hai hib) ?_
    rintro i' d ⟨rfl, u1, u2, -, -⟩
    split
    · rw [wp_pure]; exact Win.refl ..
    · split
      · rw [wp_pure]; exact Win.refl ..
      · rw [wp_bind]
        have i1 := h.inR (k := i') (by omega) (by omega)
        have i2 := h.inR (k := i' - 1) (by omega) (by omega)
        refine wp_swap i1 i2 ?_
        have w := Win.swap (lo := 0) (hi := b) i1 i2 (by omega) (by omega) (by omega) (by omega)
        have h1 := h.win w
        generalize swapL d i' (i' - 1) = d1 at *
        rw [wp_bind]
        have key : ∀ d2, Win 0 b d d2 → wp adm (M.when (b - i' ≥ 2) (shiftRight b (i' + 1)) >>=
            fun _ => partialLoop n a b i') (fun _ d' => Win 0 b d d') d2 := by
          intro d2 w2
          rw [wp_bind]
          have fin : ∀ d3, Win 0 b d d3 → wp adm (partialLoop n a b i') (fun _ d' => Win 0 b d d') d3 :=
            fun d3 w3 => wp_mono (ih i' (by omega) (by omega) d3 (h.win w3)) fun _ _ w' => w3.trans w'
          refine wp_when (fun hc => ?_) (fun _ => fin _ w2)
          exact wp_mono (shiftRight_any 0 b (i' + 1) (by omega) d2 (h.win w2))
            fun _ _ w' => fin _ (w2.trans w')
        refine wp_when (fun hc => ?_) (fun _ => key _ w)
        exact wp_mono (shiftLeft_any (i' - 1) d1 (h1.sub (by omega) (by omega)))
          fun _ _ w' => key _ (w.trans (w'.mono (by omega) (by omega)))

theorem partialInsertionSort_any (a b : Int) (h0 : 0 ≤ a) (hab : a < b) (d : List E)
    (h : Span d 0 b) : wp adm (partialInsertionSort a b) (fun _ d' => Win 0 b d d') d :=
  partialLoop_any 5 a b (a + 1) h0 (by omega) (by omega) d h

/-! ## Breaking patterns, choosing a pivot, reversing -/

theorem breakOther_range {length : Int} (h : 0 < length) (random : BitVec 64) :
    0 ≤ breakOther length random ∧ breakOther length random < length := by
  unfold breakOther
  have hb : (random &&& (1#64 <<< bitsLen length.toNat - 1#64)).toNat < 2 ^ bitsLen length.toNat := by
    by_cases hk : bitsLen length.toNat < 64
    · have e : (1#64 <<< bitsLen length.toNat - 1#64).toNat = 2 ^ bitsLen length.toNat - 1 := by
        have hlt : 2 ^ bitsLen length.toNat < 2 ^ 64 := Nat.pow_lt_pow_right (by omega) hk
        have hp : 0 < 2 ^ bitsLen length.toNat := Nat.two_pow_pos _
        rw [BitVec.toNat_sub, BitVec.toNat_shiftLeft, Nat.shiftLeft_eq]
        simp only [BitVec.toNat_ofNat]
        generalize 2 ^ bitsLen length.toNat = q at *
        omega
      rw [BitVec.toNat_and, e]
      have := Nat.and_le_right (n := random.toNat) (m := 2 ^ bitsLen length.toNat - 1)
      have hp : 0 < 2 ^ bitsLen length.toNat := Nat.two_pow_pos _
      omega
    · have : 2 ^ 64 ≤ 2 ^ bitsLen length.toNat := Nat.pow_le_pow_right (by omega) (by omega)
      exact Nat.lt_of_lt_of_le (BitVec.isLt _) this
  have hl : 2 ^ bitsLen length.toNat ≤ 2 * length.toNat := by
    unfold bitsLen
    rw [if_neg (by omega)]
    have := Nat.log2_self_le (n := length.toNat) (by omega)
    rw [Nat.pow_succ]; omega
  dsimp only
  generalize (random &&& (1#64 <<< bitsLen length.toNat - 1#64)).toNat = x at *
  split <;> omega

theorem breakLoop_any (n : Nat) (a b idx : Int) (random : BitVec 64) (h1 : a ≤ idx)
    (h2 : idx + n ≤ b) (d : List E) (h : Span d a b) :
    wp adm (breakLoop n a (b - a) idx random) (fun _ d' => Win a b d d') d := by
  induction n generalizing idx random d with
  | zero => unfold breakLoop; rw [wp_pure]; exact Win.refl ..
  | succ n ih =>
    unfold breakLoop
    dsimp only
    rw [wp_bind]
    obtain ⟨r1, r2⟩ := breakOther_range (length := b - a) (by omega) (xorshiftNext random)
    have i1 := h.inR (k := idx) (by omega) (by omega)
    have i2 := h.inR (k := a + breakOther (b - a) (xorshiftNext random)) (by omega) (by omega)
    refine wp_swap i1 i2 ?_
    have w := Win.swap (lo := a) (hi := b) i1 i2 (by omega) (by omega) (by omega) (by omega)
    exact wp_mono (ih (idx + 1) _ (by omega) (by omega) _ (h.win w)) fun _ _ w' => w.trans w'

theorem breakPatterns_any (a b : Int) (d : List E) (h : Span d a b) :
    wp adm (breakPatterns a b) (fun _ d' => Win a b d d') d := by
  unfold breakPatterns
  dsimp only
  split
  · exact breakLoop_any 3 a b _ _ (by omega) (by omega) d h
  · rw [wp_pure]; exact Win.refl ..

theorem breakIfUnbalanced_any (wb : Bool) (a b limit : Int) (d : List E) (h : Span d a b) :
    wp adm (breakIfUnbalanced wb a b limit) (fun _ d' => Win a b d d') d := by
  unfold breakIfUnbalanced
  split
  · rw [wp_pure]; exact Win.refl ..
  · rw [wp_bind]
    exact wp_mono (breakPatterns_any a b d h) fun _ _ w => w

theorem order2_any (a b : Int) (s : Nat) (d : List E) (ha : inRange d a) (hb : inRange d b) :
    wp adm (order2 a b s) (fun r d' => d' = d ∧ ((r.1 = a ∧ r.2.1 = b) ∨ (r.1 = b ∧ r.2.1 = a))) d := by
  unfold order2
  rw [wp_bind]
  refine wp_lessAt hb ha ?_
  intro c _
  split
  · rw [wp_pure]; exact ⟨rfl, Or.inr ⟨rfl, rfl⟩⟩
  · rw [wp_pure]; exact ⟨rfl, Or.inl ⟨rfl, rfl⟩⟩

theorem median_any (a b c : Int) (s : Nat) (d : List E) (ha : inRange d a) (hb : inRange d b)
    (hc : inRange d c) :
    wp adm (median a b c s) (fun r d' => d' = d ∧ (r.1 = a ∨ r.1 = b ∨ r.1 = c)) d := by
  unfold median
  rw [wp_bind]
  refine wp_mono (order2_any a b s d ha hb) ?_
  rintro p d ⟨rfl, hp⟩
  rw [wp_bind]
  have hp1 : inRange d p.1 := by rcases hp with ⟨e, -⟩ | ⟨e, -⟩ <;> rw [e] <;> assumption
  have hp2 : inRange d p.2.1 := by rcases hp with ⟨-, e⟩ | ⟨-, e⟩ <;> rw [e] <;> assumption
  refine wp_mono (order2_any _ c _ _ hp2 hc) ?_
  rintro q d ⟨rfl, hq⟩
  rw [wp_bind]
  have hq1 : inRange d q.1 := by rcases hq with ⟨e, -⟩ | ⟨e, -⟩ <;> rw [e] <;> assumption
  refine wp_mono (order2_any _ _ _ _ hp1 hq1) ?_
  rintro r _ ⟨rfl, hr⟩
  rw [wp_pure]
  refine ⟨rfl, ?_⟩
  dsimp only
  omega

/-- `choosePivot` picks a position of the range and changes nothing. -/
theorem choosePivot_any (a b : Int) (d : List E) (h : Span d a b) (hab : 12 < b - a) :
    wp adm (choosePivot a b) (fun r d' => d' = d ∧ a ≤ r.1 ∧ r.1 < b) d := by
  unfold choosePivot
  dsimp only
  rw [wp_bind]
  have key : wp adm (pivotOf (b - a) (a + (b - a) / 4 * 1) (a + (b - a) / 4 * 2) (a + (b - a) / 4 * 3))
      (fun r d' => d' = d ∧ a ≤ r.1 ∧ r.1 < b) d := by
    unfold pivotOf
    rw [if_pos (by omega), wp_bind]
    have nin : wp adm (ninther (b - a) (a + (b - a) / 4 * 1) (a + (b - a) / 4 * 2) (a + (b - a) / 4 * 3))
        (fun r d' => d' = d ∧ (a ≤ r.1 ∧ r.1 < b) ∧ (a ≤ r.2.1 ∧ r.2.1 < b) ∧
          (a ≤ r.2.2.1 ∧ r.2.2.1 < b)) d := by
      unfold ninther
      split
      · rw [wp_bind]
        refine wp_mono (median_any _ _ _ _ d (h.inR (by omega) (by omega)) (h.inR (by omega) (by omega))
          (h.inR (by omega) (by omega))) ?_
        rintro p _ ⟨rfl, hp⟩
        rw [wp_bind]
        refine wp_mono (median_any _ _ _ _ _ (h.inR (by omega) (by omega)) (h.inR (by omega) (by omega))
          (h.inR (by omega) (by omega))) ?_
        rintro q _ ⟨rfl, hq⟩
        rw [wp_bind]
        refine wp_mono (median_any _ _ _ _ _ (h.inR (by omega) (by omega)) (h.inR (by omega) (by omega))
          (h.inR (by omega) (by omega))) ?_
        rintro r _ ⟨rfl, hr⟩
        rw [wp_pure]
        exact ⟨rfl, by dsimp only; omega, by dsimp only; omega, by dsimp only; omega⟩
      · rw [wp_pure]
        exact ⟨rfl, by dsimp only; omega, by dsimp only; omega, by dsimp only; omega⟩
    refine wp_mono nin ?_
    rintro q _ ⟨rfl, h1, h2, h3⟩
    refine wp_mono (median_any _ _ _ _ _ (h.inR h1.1 h1.2) (h.inR h2.1 h2.2) (h.inR h3.1 h3.2)) ?_
    rintro r _ ⟨rfl, hr⟩
    exact ⟨rfl, by omega, by omega⟩
  refine wp_mono key ?_
  rintro r _ ⟨rfl, h1, h2⟩
  rw [wp_pure]
  exact ⟨rfl, h1, h2⟩

theorem revLoop_any (a b i j : Int) (d : List E) (h : Span d a b) (hi : a ≤ i) (hj : j < b) :
    wp adm (revLoop i j) (fun _ d' => Win a b d d') d := by
  unfold revLoop
  split
  · rw [wp_bind]
    have i1 := h.inR (k := i) (by omega) (by omega)
    have i2 := h.inR (k := j) (by omega) (by omega)
    refine wp_swap i1 i2 ?_
    have w := Win.swap (lo := a) (hi := b) i1 i2 (by omega) (by omega) (by omega) (by omega)
    exact wp_mono (revLoop_any a b (i + 1) (j - 1) _ (h.win w) (by omega) (by omega))
      fun _ _ w' => w.trans w'
  · rw [wp_pure]; exact Win.refl ..
termination_by (j - i).toNat

theorem reverseIfDecreasing_any (a b pivot : Int) (hint : Hint) (d : List E) (h : Span d a b)
    (h1 : a ≤ pivot) (h2 : pivot < b) :
    wp adm (reverseIfDecreasing a b pivot hint)
      (fun r d' => Win a b d d' ∧ a ≤ r.1 ∧ r.1 < b) d := by
  unfold reverseIfDecreasing
  split
  · rw [wp_bind]
    refine wp_mono (revLoop_any a b a (b - 1) d h (by omega) (by omega)) ?_
    intro _ d' w
    rw [wp_pure]
    exact ⟨w, by dsimp only; omega, by dsimp only; omega⟩
  · rw [wp_pure]; exact ⟨Win.refl .., h1, h2⟩

theorem tryPartial_any (c : Prop) [Decidable c] (a b : Int) (h0 : 0 ≤ a) (hab : a < b) (d : List E)
    (h : Span d 0 b) : wp adm (tryPartial c a b) (fun _ d' => Win 0 b d d') d := by
  unfold tryPartial
  split
  · exact partialInsertionSort_any a b h0 hab d h
  · rw [wp_pure]; exact Win.refl ..

theorem manyEqual_any (a b pivot : Int) (d : List E) (h : Span d 0 b) (h1 : a ≤ pivot)
    (h2 : pivot < b) :
    wp adm (manyEqual a pivot) (fun r d' => d' = d ∧
      (r = true → 0 < a ∧ adm .nlt (el d (a - 1)) (el d pivot) true)) d := by
  unfold manyEqual
  split
  · refine wp_nlessAt (h.inR (by omega) (by omega)) (h.inR (by omega) (by omega)) ?_
    intro c hc
    exact ⟨rfl, fun hr => ⟨by omega, by rw [hr] at hc; exact hc⟩⟩
  · rw [wp_pure]; exact ⟨rfl, fun hr => by cases hr⟩

/-- With any comparator, `pdqsort` on `[a, b)` returns normally and only rearranges `[0, b)`. -/
theorem pdqsort_any (fuel : Nat) (a b limit : Int) (wb wp' : Bool) (hf : b - a < fuel) (hf0 : 0 < fuel)
    (h0 : 0 ≤ a) (hab : a ≤ b) (d : List E) (h : Span d 0 b) :
    wp adm (pdqsort fuel a b limit wb wp') (fun _ d' => Win 0 b d d') d := by
  induction fuel generalizing a b limit wb wp' d with
  | zero => omega
  | succ fuel ih =>
    unfold pdqsort
    dsimp only
    have ha : ∀ d : List E, Span d 0 b → Span d a b := fun d h => h.sub h0 (Int.le_refl _)
    split
    · exact wp_mono (insertionSort_any a b d (ha d h)) fun _ _ w => w.mono h0 (Int.le_refl _)
    · split
      · exact wp_mono (heapSort_any a b d (ha d h)) fun _ _ w => w.mono h0 (Int.le_refl _)
      · rw [wp_bind]
        refine wp_mono (breakIfUnbalanced_any wb a b limit d (ha d h)) ?_
        intro limit d1 w1
        have w1 := w1.mono h0 (Int.le_refl _)
        have h1 := h.win w1
        rw [wp_bind]
        refine wp_mono (choosePivot_any a b d1 (ha _ h1) (by omega)) ?_
        rintro ph d1 ⟨rfl, p1, p2⟩
        rw [wp_bind]
        refine wp_mono (reverseIfDecreasing_any a b ph.1 ph.2 d1 (ha _ h1) p1 p2) ?_
        rintro ph d2 ⟨w2, p1, p2⟩
        have w2 := w1.trans (w2.mono h0 (Int.le_refl _))
        have h2 := h.win w2
        rw [wp_bind]
        refine wp_mono (tryPartial_any _ a b h0 (by omega) d2 h2) ?_
        intro done d3 w3
        have w3 := w2.trans w3
        have h3 := h.win w3
        split
        · rw [wp_pure]; exact w3
        · rw [wp_bind]
          refine wp_mono (manyEqual_any a b ph.1 d3 h3 p1 p2) ?_
          rintro eq d3 ⟨rfl, -⟩
          split
          · rw [wp_bind]
            refine wp_mono (partitionEqual_any a b ph.1 _ (ha _ h3) p1 p2 (by omega)) ?_
            rintro mid d4 ⟨w4, q1, q2, -⟩
            have w4 := w3.trans (w4.mono h0 (Int.le_refl _))
            exact wp_mono (ih mid b _ _ _ (by omega) (by omega) (by omega) (by omega) d4 (h.win w4))
              fun _ _ w => w4.trans w
          · rw [wp_bind]
            refine wp_mono (partition_any a b ph.1 _ (ha _ h3) p1 p2) ?_
            rintro mp d4 ⟨w4, q1, q2, -⟩
            have w4 := w3.trans (w4.mono h0 (Int.le_refl _))
            have h4 := h.win w4
            have left : ∀ lim w p d5, Win 0 b d d5 →
                wp adm (pdqsort fuel a mp.1 lim w p) (fun _ d' => Win 0 b d d') d5 := by
              intro lim w p d5 w5
              exact wp_mono (ih a mp.1 lim w p (by omega) (by omega) h0 (by omega) d5
                ((h.win w5).sub (by omega) (by omega)))
                fun _ _ w => w5.trans (w.mono (by omega) (by omega))
            have right : ∀ lim w p d5, Win 0 b d d5 →
                wp adm (pdqsort fuel (mp.1 + 1) b lim w p) (fun _ d' => Win 0 b d d') d5 := by
              intro lim w p d5 w5
              exact wp_mono (ih (mp.1 + 1) b lim w p (by omega) (by omega) (by omega) (by omega) d5
                (h.win w5)) fun _ _ w => w5.trans w
            split
            · rw [wp_bind, wp_recurse]
              exact wp_mono (left _ _ _ d4 w4) fun _ d5 w5 => right _ _ _ d5 w5
            · rw [wp_bind, wp_recurse]
              exact wp_mono (right _ _ _ d4 w4) fun _ d5 w5 => left _ _ _ d5 w5

theorem sortProg_any (d : List E) :
    wp adm sortProg (fun _ d' => d'.Perm d) d := by
  have := pdqsort_any (adm := adm) (d.length + 1) 0 d.length (bitsLen d.length) true true
    (by omega) (by omega) (by omega) (by omega) d ⟨by omega, by omega⟩
  have := wp_mono (Q' := fun _ d' => d'.Perm d) this fun _ _ w => w.perm
  exact this

end Verif.Sort
