import Verif.Sort.Order
import Verif.Sort.Rot

/-! # `Stable` sorts and keeps equivalent elements in order, under a strict weak order -/

namespace Verif.Sort

variable {E : Type} [Inhabited E] {lt : E → E → Bool}
set_option linter.unusedSectionVars false

/-- For every `x`, the elements equivalent to `x` come in the same order in `d'` as in `d`. -/
def StabEq (lt : E → E → Bool) (d d' : List E) : Prop :=
  ∀ x, d'.filter (equiv lt x) = d.filter (equiv lt x)

theorem StabEq.refl (d : List E) : StabEq lt d d := fun _ => rfl

theorem StabEq.trans {d d' d'' : List E} (h : StabEq lt d d') (h' : StabEq lt d' d'') :
    StabEq lt d d'' := fun x => (h' x).trans (h x)

theorem equiv_true {x y : E} (h : equiv lt x y = true) : lt x y = false ∧ lt y x = false := by
  unfold equiv at h
  cases h1 : lt x y <;> cases h2 : lt y x <;> simp_all

/-- Exchanging a block with a following block of strictly smaller elements moves no element past an
equivalent one. -/
theorem IsRot.stab (hw : StrictWeak lt) {s m e : Int} {d d' : List E} (h : IsRot s m e d d')
    (h0 : 0 ≤ s) (h1 : s ≤ m) (h2 : m ≤ e) (h3 : e ≤ d.length)
    (hlt : ∀ p q, s ≤ p → p < m → m ≤ q → q < e → lt (el d q) (el d p) = true) : StabEq lt d d' := by
  obtain ⟨A, U, V, C, rfl, rfl, rfl, rfl⟩ := cut3 h0 h1 h2 h3
  have hUV : ∀ u ∈ U, ∀ v ∈ V, lt v u = true := by
    intro u hu v hv
    obtain ⟨i, hi, rfl⟩ := List.getElem_of_mem hu
    obtain ⟨j, hj, rfl⟩ := List.getElem_of_mem hv
    have := hlt (A.length + i) (A.length + U.length + j) (by omega) (by omega) (by omega) (by omega)
    have e1 : el (A ++ U ++ V ++ C) (A.length + i) = U[i] := by
      rw [el_append, if_pos (by simp; omega), el_append, if_pos (by simp; omega), el_append,
        if_neg (by omega), el_eq_getElem ⟨by omega, by omega⟩]
      congr 1; omega
    have e2 : el (A ++ U ++ V ++ C) (A.length + U.length + j) = V[j] := by
      rw [el_append, if_pos (by simp; omega), el_append, if_neg (by simp; omega),
        el_eq_getElem ⟨by simp; omega, by simp; omega⟩]
      congr 1; simp; omega
    rw [e1, e2] at this
    exact this
  rw [h.eq_append]
  intro x
  simp only [List.filter_append, List.append_assoc]
  congr 1
  rw [← List.append_assoc, ← List.append_assoc]
  congr 1
  -- one of the two filtered blocks is empty
  by_cases hU : U.filter (equiv lt x) = []
  · rw [hU]; simp
  · have hV : V.filter (equiv lt x) = [] := by
      rw [List.filter_eq_nil_iff]
      intro v hv hxv
      obtain ⟨u, hu⟩ := List.exists_mem_of_ne_nil _ hU
      rw [List.mem_filter] at hu
      have hlt' := hUV u hu.1 v hv
      obtain ⟨a1, a2⟩ := equiv_true hu.2
      obtain ⟨b1, b2⟩ := equiv_true hxv
      have := (hw.incomp v x u b2 b1 a1 a2).1
      rw [hlt'] at this
      cases this
    rw [hV]; simp

/-! ## Insertion sort -/

theorem insInner_stab (hw : StrictWeak lt) (a j : Int) (d : List E) (h : Span d a (j + 1)) :
    wp (exact lt) (insInner a j) (fun _ d' => StabEq lt d d') d := by
  unfold insInner
  split
  · rw [wp_bind]
    have i1 := h.inR (k := j) (by omega) (by omega)
    have i2 := h.inR (k := j - 1) (by omega) (by omega)
    refine wp_lessAt i1 i2 ?_
    intro b hb
    split
    · rename_i hbt; subst hbt
      have hlt : lt (el d j) (el d (j - 1)) = true := by simpa [exact] using hb.symm
      rw [wp_bind]
      refine wp_swap i1 i2 ?_
      have w := Win.swap (lo := a) (hi := j + 1) i1 i2 (by omega) (by omega) (by omega) (by omega)
      refine wp_mono (insInner_stab hw a (j - 1) _ ((h.win w).sub (Int.le_refl _) (by omega))) ?_
      intro _ d' s
      refine StabEq.trans (IsRot.stab hw (IsRot.swap i1 i2) i2.1 (by omega) (by omega)
        (by have := i1.2; omega) ?_) s
      intro p q h1 h2 h3 h4
      have e1 : p = j - 1 := by omega
      have e2 : q = j := by omega
      subst e1; subst e2; exact hlt
    · rw [wp_pure]; exact StabEq.refl _
  · rw [wp_pure]; exact StabEq.refl _
termination_by (j - a).toNat

theorem insOuter_stab (hw : StrictWeak lt) (a b i : Int) (hi : a ≤ i) (d : List E) (h : Span d a b) :
    wp (exact lt) (insOuter a b i) (fun _ d' => StabEq lt d d') d := by
  unfold insOuter
  split
  · rw [wp_bind]
    refine wp_mono (wp_and (insInner_stab hw a i d (h.sub (Int.le_refl _) (by omega)))
      (insInner_any a i d (h.sub (Int.le_refl _) (by omega)))) ?_
    rintro _ d' ⟨s, w⟩
    refine wp_mono (insOuter_stab hw a b (i + 1) (by omega) d' (h.win w)) ?_
    intro _ d'' s'
    exact s.trans s'
  · rw [wp_pure]; exact StabEq.refl _
termination_by (b - i).toNat

theorem insertionSort_stab (hw : StrictWeak lt) (a b : Int) (d : List E) (h : Span d a b) :
    wp (exact lt) (insertionSort a b) (fun _ d' => StabEq lt d d') d :=
  insOuter_stab hw a b (a + 1) (by omega) d h

/-- Everything `Stable`'s parts guarantee about a window. -/
def Fine (lt : E → E → Bool) (a b : Int) (d d' : List E) : Prop :=
  Win a b d d' ∧ Sorted lt a b d' ∧ StabEq lt d d'

theorem insertionSort_fine (hw : StrictWeak lt) (a b : Int) (d : List E) (h : Span d a b) :
    wp (exact lt) (insertionSort a b) (fun _ d' => Fine lt a b d d') d :=
  wp_mono (wp_and (insertionSort_sorted hw a b d h) (insertionSort_stab hw a b d h))
    fun _ _ h => ⟨h.1.1, h.1.2, h.2⟩

/-! ## Merging -/

theorem nlt_true {x y : E} (h : exact lt .nlt x y true) : le lt y x := by
  unfold le; simpa [exact] using h

theorem nlt_false {x y : E} (h : exact lt .nlt x y false) : lt x y = true := by
  simpa [exact] using h

theorem lt_true {x y : E} (h : exact lt .lt x y true) : lt x y = true := by
  simpa [exact] using h.symm

theorem lt_false {x y : E} (h : exact lt .lt x y false) : le lt y x := by
  unfold le; simpa [exact] using h.symm

theorem Sorted.le' (hw : StrictWeak lt) {a b p q : Int} {d : List E} (h : Sorted lt a b d) (hp : a ≤ p)
    (hpq : p ≤ q) (hq : q < b) : le lt (el d p) (el d q) := by
  rcases Int.lt_or_eq_of_le hpq with hh | hh
  · exact h p q hp hh hq
  · subst hh; exact hw.le_refl _

theorem symMerge_fine (hw : StrictWeak lt) (a m b : Int) (h1 : a < m) (h2 : m < b) (d : List E)
    (h : Span d a b) (s1 : Sorted lt a m d) (s2 : Sorted lt m b d) :
    wp (exact lt) (symMerge a m b) (fun _ d' => Fine lt a b d d') d := by
  have hl := h.1
  have hr := h.2
  unfold symMerge
  split
  · rename_i hma
    rw [wp_bind]
    refine wp_mono (searchGE_any a m b m b (Int.le_refl _) (by omega) (Int.le_refl _) (by omega) d h
      (by omega)) ?_
    rintro i d' ⟨rfl, e1, e2, e3, e4⟩
    refine wp_mono (bubbleUp_spec a i a (Int.le_refl _) (by omega) d' (h.sub (Int.le_refl _) e2)) ?_
    intro _ d2 r
    have em : a + 1 = m := by omega
    rw [em] at r
    have hbelow : ∀ q, m ≤ q → q < i → lt (el d' q) (el d' a) = true := by
      intro q hq1 hq2
      have := lt_true (e3 (by omega))
      exact hw.lt_of_le_lt (s2.le' hw hq1 (by omega : q ≤ i - 1) (by omega)) this
    have habove : ∀ q, i ≤ q → q < b → le lt (el d' a) (el d' q) := by
      intro q hq1 hq2
      exact hw.le_trans (lt_false (e4 (by omega))) (s2.le' hw e1 hq1 hq2)
    refine ⟨(r.win hl (by omega) (by omega) (by omega)).mono (Int.le_refl _) e2, ?_,
      r.stab hw hl (by omega) e1 (by omega) ?_⟩
    · intro p q hp hpq hq
      by_cases hq1 : q < i - 1
      · rw [r.lo p hp (by omega), r.lo q (by omega) (by omega)]
        exact s2 _ _ (by omega) (by omega) (by omega)
      · by_cases hq2 : q = i - 1
        · subst hq2
          rw [r.lo p hp (by omega), r.hi (i - 1) (by omega) (by omega)]
          have : i - 1 - (i - m) = a := by omega
          rw [this]
          exact hw.le_of_lt (hbelow _ (by omega) (by omega))
        · rw [r.out q (by omega)]
          by_cases hp1 : p < i - 1
          · rw [r.lo p hp (by omega)]
            exact s2 _ _ (by omega) (by omega) (by omega)
          · by_cases hp2 : p = i - 1
            · subst hp2
              rw [r.hi (i - 1) (by omega) (by omega)]
              have : i - 1 - (i - m) = a := by omega
              rw [this]
              exact habove _ (by omega) hq
            · rw [r.out p (by omega)]
              exact s2 _ _ (by omega) (by omega) (by omega)
    · intro p q hp1 hp2 hq1 hq2
      have : p = a := by omega
      subst this
      exact hbelow q hq1 hq2
  · split
    · rename_i hbm
      rw [wp_bind]
      refine wp_mono (searchGT_any a m b a m (Int.le_refl _) (by omega) (Int.le_refl _) h2 d h) ?_
      rintro i d' ⟨rfl, e1, e2, e3, e4⟩
      refine wp_mono (bubbleDown_spec b i m e2 h2 d' (h.sub e1 (Int.le_refl _))) ?_
      intro _ d2 r
      have hbelow : ∀ q, a ≤ q → q < i → le lt (el d' q) (el d' m) := by
        intro q hq1 hq2
        exact hw.le_trans (s1.le' hw hq1 (by omega : q ≤ i - 1) (by omega)) (nlt_true (e3 (by omega)))
      have habove : ∀ q, i ≤ q → q < m → lt (el d' m) (el d' q) = true := by
        intro q hq1 hq2
        exact hw.lt_of_lt_le (nlt_false (e4 (by omega))) (s1.le' hw e1 hq1 hq2)
      refine ⟨(r.win (by omega) (by omega) (by omega) (by omega)).mono e1 (by omega), ?_,
        r.stab hw (by omega) (by omega) (by omega) (by omega) ?_⟩
      · intro p q hp hpq hq
        by_cases hq1 : q < i
        · rw [r.out p (by omega), r.out q (by omega)]
          exact s1 p q hp hpq (by omega)
        · by_cases hq2 : q = i
          · subst hq2
            rw [r.out p (by omega), r.lo q (by omega) (by omega)]
            have : q + (m - q) = m := by omega
            rw [this]
            exact hbelow p hp (by omega)
          · rw [r.hi q (by omega) (by omega)]
            by_cases hp1 : p < i
            · rw [r.out p (by omega)]
              exact s1 _ _ hp (by omega) (by omega)
            · by_cases hp2 : p = i
              · subst hp2
                rw [r.lo p (by omega) (by omega)]
                have : p + (m - p) = m := by omega
                rw [this]
                exact hw.le_of_lt (habove _ (by omega) (by omega))
              · rw [r.hi p (by omega) (by omega)]
                exact s1 _ _ (by omega) (by omega) (by omega)
      · intro p q hp1 hp2 hq1 hq2
        have : q = m := by omega
        subst this
        exact habove p hp1 hp2
    · dsimp only
      rw [wp_bind]
      refine wp_mono (searchSym_any a b ((a + b) / 2 + m - 1) _ _
        (if m > (a + b) / 2 then (a + b) / 2 + m - b else a)
        (if m > (a + b) / 2 then (a + b) / 2 else m) (by split <;> omega) (by split <;> omega)
        (by split <;> omega) (by split <;> omega) (Int.le_refl _) (by split <;> omega)
        (Int.le_refl _) d h) ?_
      rintro start d' ⟨rfl, e1, e2, e3, e4⟩
      have e1' : a ≤ start ∧ (a + b) / 2 + m - start ≤ b := by split at e1 <;> omega
      have e2' : start ≤ m ∧ start ≤ (a + b) / 2 ∧ m ≤ (a + b) / 2 + m - start := by
        split at e2 <;> omega
      have e3' : a < start → (a + b) / 2 + m - start < b →
          le lt (el d' (start - 1)) (el d' ((a + b) / 2 + m - start)) := by
        intro g1 g2
        have := nlt_true (e3 (by split <;> omega))
        have ee : (a + b) / 2 + m - 1 - (start - 1) = (a + b) / 2 + m - start := by omega
        rw [ee] at this
        exact this
      have e4' : start < m → m < (a + b) / 2 + m - start →
          lt (el d' ((a + b) / 2 + m - start - 1)) (el d' start) = true := by
        intro g1 g2
        have := nlt_false (e4 (by split <;> omega))
        have ee : (a + b) / 2 + m - 1 - start = (a + b) / 2 + m - start - 1 := by omega
        rw [ee] at this
        exact this
      have hmid : start + ((a + b) / 2 + m - start - m) = (a + b) / 2 := by omega
      have hmid1 : a < (a + b) / 2 := by omega
      have hmid2 : (a + b) / 2 < b := by omega
      clear e1 e2 e3 e4
      generalize he : (a + b) / 2 + m - start = e at *
      generalize hmm : (a + b) / 2 = mid at *
      -- the situation once the blocks have been exchanged
      have key : ∀ d1, IsRot start m e d' d1 → wp (exact lt) ((do
          (if _h : a < start ∧ start < mid then recurse (symMerge a start mid) else pure () : M E Unit)
          (if _h : mid < e ∧ e < b then recurse (symMerge mid e b) else pure () : M E Unit)) : M E Unit)
          (fun _ d2 => Fine lt a b d' d2) d1 := by
        intro d1 r
        have w1 : Win a b d' d1 :=
          (r.win (by omega) (by omega) (by omega) (by omega)).mono (by omega) (by omega)
        have stab1 : StabEq lt d' d1 := by
          refine r.stab hw (by omega) (by omega) (by omega) (by omega) ?_
          intro p q hp1 hp2 hq1 hq2
          exact hw.lt_of_le_lt (s2.le' hw hq1 (by omega : q ≤ e - 1) (by omega))
            (hw.lt_of_lt_le (e4' (by omega) (by omega)) (s1.le' hw (by omega) hp1 hp2))
        have sA : Sorted lt a start d1 := by
          intro p q hp hpq hq
          rw [r.out p (by omega), r.out q (by omega)]
          exact s1 p q hp hpq (by omega)
        have sB : Sorted lt start mid d1 := by
          intro p q hp hpq hq
          rw [r.lo p (by omega) (by omega), r.lo q (by omega) (by omega)]
          exact s2 _ _ (by omega) (by omega) (by omega)
        have sC : Sorted lt mid e d1 := by
          intro p q hp hpq hq
          rw [r.hi p (by omega) (by omega), r.hi q (by omega) (by omega)]
          exact s1 _ _ (by omega) (by omega) (by omega)
        have sD : Sorted lt e b d1 := by
          intro p q hp hpq hq
          rw [r.out p (by omega), r.out q (by omega)]
          exact s2 _ _ (by omega) (by omega) (by omega)
        have cross : ∀ p q, a ≤ p → p < mid → mid ≤ q → q < b → le lt (el d1 p) (el d1 q) := by
          intro p q hp1 hp2 hq1 hq2
          by_cases hp : p < start
          · rw [r.out p (by omega)]
            by_cases hq : q < e
            · rw [r.hi q (by omega) (by omega)]
              exact s1 _ _ hp1 (by omega) (by omega)
            · rw [r.out q (by omega)]
              exact hw.le_trans (s1.le' hw hp1 (by omega : p ≤ start - 1) (by omega))
                (hw.le_trans (e3' (by omega) (by omega)) (s2.le' hw (by omega) (by omega) hq2))
          · rw [r.lo p (by omega) (by omega)]
            by_cases hq : q < e
            · rw [r.hi q (by omega) (by omega)]
              refine hw.le_of_lt (hw.lt_of_le_lt (s2.le' hw (by omega) (by omega : _ ≤ e - 1) (by omega))
                (hw.lt_of_lt_le (e4' (by omega) (by omega)) (s1.le' hw (by omega) (by omega) (by omega))))
            · rw [r.out q (by omega)]
              exact s2 _ _ (by omega) (by omega) (by omega)
        have hsp := h.win w1
        have step1 : wp (exact lt) (if _h : a < start ∧ start < mid then recurse (symMerge a start mid) else pure () : M E Unit)
            (fun _ d2 => Fine lt a mid d1 d2) d1 := by
          split
          · rename_i hc
            rw [wp_recurse]
            exact symMerge_fine hw a start mid hc.1 hc.2 d1 (hsp.sub (Int.le_refl _) (by omega)) sA sB
          · rename_i hc
            rw [wp_pure]
            refine ⟨Win.refl .., ?_, StabEq.refl _⟩
            by_cases hs : start = a
            · subst hs; exact sB
            · have : start = mid := by omega
              subst this; exact sA
        rw [wp_bind]
        refine wp_mono step1 ?_
        rintro _ d2 ⟨w2, t2, stab2⟩
        have hsp2 := hsp.win w2
        have step2 : wp (exact lt) (if _h : mid < e ∧ e < b then recurse (symMerge mid e b) else pure () : M E Unit)
            (fun _ d3 => Fine lt mid b d2 d3) d2 := by
          split
          · rename_i hc
            rw [wp_recurse]
            exact symMerge_fine hw mid e b hc.1 hc.2 d2 (hsp2.sub (by omega) (Int.le_refl _))
              (sC.frame w2 (by omega)) (sD.frame w2 (by omega))
          · rename_i hc
            rw [wp_pure]
            refine ⟨Win.refl .., ?_, StabEq.refl _⟩
            by_cases hs : e = b
            · subst hs; exact sC.frame w2 (by omega)
            · have : e = mid := by omega
              subst this; exact sD.frame w2 (by omega)
        refine wp_mono step2 ?_
        rintro _ d3 ⟨w3, t3, stab3⟩
        refine ⟨(w1.trans (w2.mono (Int.le_refl _) (by omega))).trans (w3.mono (by omega) (Int.le_refl _)),
          ?_, (stab1.trans stab2).trans stab3⟩
        refine Sorted.join hw (m := mid) (t2.frame w3 (by omega)) t3 ?_
        intro p q hp1 hp2 hq1 hq2
        rw [w3.frame p (by omega)]
        refine w3.pres (fun z => le lt (el d2 p) z) (fun q hq1 hq2 => ?_) q hq1 hq2
        rw [w2.frame q (by omega)]
        exact w2.pres (fun z => le lt z (el d1 q)) (fun p hp1 hp2 => cross p q hp1 hp2 hq1 hq2) p hp1 hp2
      rw [wp_bind]
      refine wp_when (fun hc => ?_) (fun hc => key _ ?_)
      · exact wp_mono (rotate_spec start m e hc.1 hc.2 d' (h.sub (by omega) (by omega)))
          fun _ d1 r => key d1 r
      · by_cases hs : start = m
        · subst hs; exact IsRot.refl_left _
        · have : e = m := by omega
          subst this; exact IsRot.refl_right _
termination_by (b - a).toNat

/-! ## The whole of `Stable` -/

/-- From `a` on, `d` consists of sorted blocks of length `bs`, the last possibly shorter. -/
inductive Runs (lt : E → E → Bool) (bs n : Int) (d : List E) : Int → Prop
  | last (a : Int) : a ≤ n → n ≤ a + bs → Sorted lt a n d → Runs lt bs n d a
  | cons (a : Int) : a + bs ≤ n → Sorted lt a (a + bs) d → Runs lt bs n d (a + bs) → Runs lt bs n d a

theorem Runs.frame {bs n a lo hi : Int} {d d' : List E} (hbs : 0 ≤ bs) (h : Runs lt bs n d a)
    (w : Win lo hi d d') (hd : hi ≤ a) : Runs lt bs n d' a := by
  induction h with
  | last a h1 h2 h3 => exact .last a h1 h2 (h3.frame w (Or.inr hd))
  | cons a h1 h2 _ ih => exact .cons a h1 (h2.frame w (Or.inr hd)) (ih (by omega))

/-- The first block. -/
theorem Runs.head {bs n a : Int} {d : List E} (_hbs : 0 ≤ bs) (h : Runs lt bs n d a) :
    Sorted lt a (min (a + bs) n) d := by
  cases h with
  | last _ h1 h2 h3 => exact h3.sub (Int.le_refl _) (by omega)
  | cons _ h1 h2 _ => exact h2.sub (Int.le_refl _) (by omega)

theorem Runs.tail {bs n a : Int} {d : List E} (_hbs : 0 ≤ bs) (h : Runs lt bs n d a) (hn : a + bs ≤ n) :
    Runs lt bs n d (a + bs) := by
  cases h with
  | last _ h1 h2 h3 =>
    have : n = a + bs := by omega
    subst this
    exact .last _ (Int.le_refl _) (by omega) (Sorted.trivial (by omega))
  | cons _ h1 _ h2 => exact h2

/-- `blockLoop` followed by sorting the rest. -/
theorem blockLoop_runs (hw : StrictWeak lt) (n a b : Int) (h0 : 0 ≤ a) (han : a ≤ n) (hab : b = a + 20)
    (d : List E) (h : Span d 0 n) :
    wp (exact lt) (blockLoop n a b) (fun r d1 => wp (exact lt) (insertionSort r n)
      (fun _ d' => Win a n d d' ∧ Runs lt 20 n d' a ∧ StabEq lt d d') d1) d := by
  unfold blockLoop
  split
  · rw [wp_bind]
    refine wp_mono (insertionSort_fine hw a b d (h.sub h0 (by omega))) ?_
    rintro _ d1 ⟨w, s, st⟩
    refine wp_mono (blockLoop_runs hw n b (b + 20) (by omega) (by omega) rfl d1 (h.win w)) ?_
    intro r d2 h2
    refine wp_mono h2 ?_
    rintro _ d3 ⟨w3, r3, st3⟩
    refine ⟨(w.mono (Int.le_refl _) (by omega)).trans (w3.mono (by omega) (Int.le_refl _)), ?_,
      st.trans st3⟩
    subst hab
    exact .cons a (by omega) (s.frame w3 (Or.inl (Int.le_refl _))) r3
  · rw [wp_pure]
    refine wp_mono (insertionSort_fine hw a n d (h.sub h0 (Int.le_refl _))) ?_
    rintro _ d1 ⟨w, s, st⟩
    exact ⟨w, .last a han (by omega) s, st⟩
termination_by (n + 1 - b).toNat

/-- One pass of merges, followed by merging the rest, doubles the block length. -/
theorem mergePass_runs (hw : StrictWeak lt) (n bs a b : Int) (hbs : 0 < bs) (h0 : 0 ≤ a) (han : a ≤ n)
    (hab : b = a + 2 * bs) (d : List E) (h : Span d 0 n) (hr : Runs lt bs n d a) :
    wp (exact lt) (mergePass n bs a b) (fun r d1 => wp (exact lt)
      (M.when (r + bs < n) (symMerge r (r + bs) n))
      (fun _ d' => Win a n d d' ∧ Runs lt (bs * 2) n d' a ∧ StabEq lt d d') d1) d := by
  unfold mergePass
  split
  · omega
  · split
    · rw [wp_bind]
      have hd := hr.head (by omega)
      have tl := hr.tail (by omega) (by omega)
      have hd2 := tl.head (by omega)
      have tl2 := tl.tail (by omega) (by omega)
      have e1 : min (a + bs) n = a + bs := by omega
      have e2 : min (a + bs + bs) n = b := by omega
      have e3 : a + bs + bs = b := by omega
      rw [e1] at hd
      rw [e2] at hd2
      rw [e3] at tl2
      refine wp_mono (symMerge_fine hw a (a + bs) b (by omega) (by omega) d (h.sub h0 (by omega)) hd hd2) ?_
      rintro _ d1 ⟨w, s, st⟩
      refine wp_mono (mergePass_runs hw n bs b (b + 2 * bs) hbs (by omega) (by omega) rfl d1 (h.win w)
        (tl2.frame (by omega) w (Int.le_refl _))) ?_
      intro r d2 h2
      refine wp_mono h2 ?_
      rintro _ d3 ⟨w3, r3, st3⟩
      refine ⟨(w.mono (Int.le_refl _) (by omega)).trans (w3.mono (by omega) (Int.le_refl _)), ?_,
        st.trans st3⟩
      have e4 : a + bs * 2 = b := by omega
      refine .cons a (by omega) ?_ ?_
      · rw [e4]; exact s.frame w3 (Or.inl (Int.le_refl _))
      · rw [e4]; exact r3
    · rw [wp_pure]
      have hd := hr.head (by omega)
      refine wp_when (fun hc => ?_) (fun hc => ?_)
      · have tl := hr.tail (by omega) (by omega)
        have hd2 := tl.head (by omega)
        have e1 : min (a + bs) n = a + bs := by omega
        have e2 : min (a + bs + bs) n = n := by omega
        rw [e1] at hd
        rw [e2] at hd2
        refine wp_mono (symMerge_fine hw a (a + bs) n (by omega) hc d (h.sub h0 (Int.le_refl _)) hd hd2) ?_
        rintro _ d1 ⟨w, s, st⟩
        exact ⟨w, .last a han (by omega) s, st⟩
      · have e1 : min (a + bs) n = n := by omega
        rw [e1] at hd
        exact ⟨Win.refl .., .last a han (by omega) hd, StabEq.refl _⟩
termination_by (n + 1 - b).toNat

theorem stableLoop_fine (hw : StrictWeak lt) (n bs : Int) (hbs : 0 < bs) (hn : 0 ≤ n) (d : List E)
    (h : Span d 0 n) (hr : Runs lt bs n d 0) :
    wp (exact lt) (stableLoop n bs) (fun _ d' => Fine lt 0 n d d') d := by
  unfold stableLoop
  split
  · omega
  · split
    · rw [wp_bind]
      refine wp_mono (mergePass_runs hw n bs 0 (2 * bs) hbs (Int.le_refl _) hn (by omega) d h hr) ?_
      intro a d1 h1
      dsimp only
      rw [wp_bind]
      refine wp_mono h1 ?_
      rintro _ d2 ⟨w2, r2, st2⟩
      refine wp_mono (stableLoop_fine hw n (bs * 2) (by omega) hn d2 (h.win w2) r2) ?_
      rintro _ d3 ⟨w3, s3, st3⟩
      exact ⟨w2.trans w3, s3, st2.trans st3⟩
    · rw [wp_pure]
      have hd := hr.head (by omega)
      have e1 : min (0 + bs) n = n := by omega
      rw [e1] at hd
      exact ⟨Win.refl .., hd, StabEq.refl _⟩
termination_by (n - bs).toNat

theorem stableProg_fine (hw : StrictWeak lt) (d : List E) :
    wp (exact lt) stableProg (fun _ d' => d'.Perm d ∧ Ascending lt d' ∧ StabEq lt d d') d := by
  have key : wp (exact lt) (stable (d.length : Int)) (fun _ d' => Fine lt 0 d.length d d') d := by
    unfold stable
    have h : Span d 0 d.length := ⟨by omega, by omega⟩
    rw [wp_bind]
    refine wp_mono (blockLoop_runs hw d.length 0 20 (by omega) (by omega) (by omega) d h) ?_
    intro a d1 h1
    rw [wp_bind]
    refine wp_mono h1 ?_
    rintro _ d2 ⟨w2, r2, st2⟩
    refine wp_mono (stableLoop_fine hw d.length 20 (by omega) (by omega) d2 (h.win w2) r2) ?_
    rintro _ d3 ⟨w3, s3, st3⟩
    exact ⟨w2.trans w3, s3, st2.trans st3⟩
  have key' : wp (exact lt) stableProg (fun _ d' => Fine lt 0 d.length d d') d := key
  refine wp_mono key' ?_
  rintro _ d' ⟨w, s, st⟩
  rw [← w.len] at s
  exact ⟨w.perm, s.ascending, st⟩

end Verif.Sort
