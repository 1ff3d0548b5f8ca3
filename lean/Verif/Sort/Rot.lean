import Verif.Sort.Win

/-! # Block exchanges: what the rotation loops of `Stable` do, for every comparator -/

namespace Verif.Sort

variable {E : Type} [Inhabited E]
set_option linter.unusedSectionVars false
variable {adm : Kind → E → E → Bool → Prop}

/-- `d'` is `d` with the neighbouring blocks `[s, m)` and `[m, e)` exchanged. -/
structure IsRot (s m e : Int) (d d' : List E) : Prop where
  len : d'.length = d.length
  lo : ∀ k, s ≤ k → k < s + (e - m) → el d' k = el d (k + (m - s))
  hi : ∀ k, s + (e - m) ≤ k → k < e → el d' k = el d (k - (e - m))
  out : ∀ k, (k < s ∨ e ≤ k) → el d' k = el d k

theorem ext_el {d d' : List E} (hl : d'.length = d.length) (h : ∀ k : Int, el d' k = el d k) : d' = d := by
  apply List.ext_getElem hl
  intro k h1 h2
  have := h k
  rw [el_eq_getElem ⟨by omega, by omega⟩, el_eq_getElem ⟨by omega, by omega⟩] at this
  simpa using this

theorem el_append (A B : List E) (k : Int) :
    el (A ++ B) k = if k < A.length then el A k else el B (k - A.length) := by
  unfold el
  by_cases h : 0 ≤ k
  · rw [if_pos h, if_pos h]
    simp only [List.getD_eq_getElem?_getD, List.getElem?_append]
    by_cases h2 : k < A.length
    · rw [if_pos h2, if_pos (by omega)]
    · rw [if_neg h2, if_neg (by omega), if_pos (by omega)]
      have : k.toNat - A.length = (k - A.length).toNat := by omega
      rw [this]
  · rw [if_neg h, if_pos (by omega), if_neg h]

theorem IsRot.eq_append {A U V C d' : List E}
    (h : IsRot A.length (A.length + U.length) (A.length + U.length + V.length) (A ++ U ++ V ++ C) d') :
    d' = A ++ V ++ U ++ C := by
  apply ext_el
  · rw [h.len]; simp; omega
  · intro k
    by_cases h1 : k < A.length ∨ A.length + U.length + V.length ≤ k
    · rw [h.out k h1]
      simp only [el_append, List.length_append]
      rcases h1 with h1 | h1
      · simp [show k < (A.length : Int) + U.length + V.length by omega,
          show k < (A.length : Int) + U.length by omega, h1,
          show k < (A.length : Int) + V.length + U.length by omega,
          show k < (A.length : Int) + V.length by omega]
      · rw [if_neg (by omega), if_neg (by omega)]
        congr 1; omega
    · by_cases h2 : k < A.length + V.length
      · rw [h.lo k (by omega) (by omega)]
        simp only [el_append, List.length_append]
        rw [if_pos (by omega), if_neg (by omega), if_pos (by omega), if_pos (by omega),
          if_neg (by omega)]
        congr 1; omega
      · rw [h.hi k (by omega) (by omega)]
        simp only [el_append, List.length_append]
        rw [if_pos (by omega), if_pos (by omega), if_neg (by omega), if_pos (by omega),
          if_neg (by omega)]
        congr 1; omega

/-- A slice cut at three positions. -/
theorem cut3 {d : List E} {s m e : Int} (h0 : 0 ≤ s) (h1 : s ≤ m) (h2 : m ≤ e) (h3 : e ≤ d.length) :
    ∃ A U V C, d = A ++ U ++ V ++ C ∧ (A.length : Int) = s ∧ ((A.length : Int) + U.length = m) ∧
      ((A.length : Int) + U.length + V.length = e) := by
  refine ⟨d.take s.toNat, (d.drop s.toNat).take (m - s).toNat, (d.drop m.toNat).take (e - m).toNat,
    d.drop e.toNat, ?_, ?_, ?_, ?_⟩
  · have e1 : d.take s.toNat ++ (d.drop s.toNat).take (m - s).toNat = d.take m.toNat := by
      have : m.toNat = s.toNat + (m - s).toNat := by omega
      rw [this, List.take_add]
    have e2 : d.take m.toNat ++ (d.drop m.toNat).take (e - m).toNat = d.take e.toNat := by
      have : e.toNat = m.toNat + (e - m).toNat := by omega
      rw [this, List.take_add]
    rw [e1, e2, List.take_append_drop]
  · simp; omega
  · simp; omega
  · simp; omega

theorem IsRot.win {s m e : Int} {d d' : List E} (h : IsRot s m e d d') (h0 : 0 ≤ s) (h1 : s ≤ m)
    (h2 : m ≤ e) (h3 : e ≤ d.length) : Win s e d d' := by
  refine ⟨?_, h.out, ?_⟩
  · obtain ⟨A, U, V, C, rfl, rfl, rfl, rfl⟩ := cut3 h0 h1 h2 h3
    rw [h.eq_append]
    refine List.Perm.append_right C ?_
    rw [List.append_assoc, List.append_assoc]
    exact List.Perm.append_left A List.perm_append_comm
  · intro P hP k hk1 hk2
    by_cases hk : k < s + (e - m)
    · rw [h.lo k hk1 hk]; exact hP _ (by omega) (by omega)
    · rw [h.hi k (by omega) hk2]; exact hP _ (by omega) (by omega)

theorem IsRot.refl_left {m e : Int} (d : List E) : IsRot m m e d d :=
  ⟨rfl, fun k _ _ => by congr 1; omega, fun k _ _ => by omega, fun _ _ => rfl⟩

theorem IsRot.refl_right {s m : Int} (d : List E) : IsRot s m m d d :=
  ⟨rfl, fun k _ _ => by omega, fun k _ _ => by congr 1; omega, fun _ _ => rfl⟩

/-- Swapping two neighbours. -/
theorem IsRot.swap {d : List E} {j : Int} (h1 : inRange d j) (h2 : inRange d (j - 1)) :
    IsRot (j - 1) j (j + 1) d (swapL d j (j - 1)) := by
  refine ⟨length_swapL .., fun k hk1 hk2 => ?_, fun k hk1 hk2 => ?_, fun k hk => ?_⟩
  · have : k = j - 1 := by omega
    subst this
    rw [el_swapL h1 h2, if_neg (by omega), if_pos rfl]
    congr 1; omega
  · have : k = j := by omega
    subst this
    rw [el_swapL h1 h2, if_pos rfl]
    congr 1; omega
  · rw [el_swapL h1 h2, if_neg (by omega), if_neg (by omega)]

/-! ## The loops -/

theorem swapRange_spec (a b n i : Int) (h0 : 0 ≤ a) (hi : 0 ≤ i) (hin : i ≤ n) (hab : a + n ≤ b)
    (d : List E) (h : b + n ≤ d.length) :
    wp adm (swapRange a b n i) (fun _ d' => d'.length = d.length ∧
      (∀ k, a + i ≤ k → k < a + n → el d' k = el d (k + (b - a))) ∧
      (∀ k, b + i ≤ k → k < b + n → el d' k = el d (k - (b - a))) ∧
      (∀ k, (k < a + i ∨ a + n ≤ k) → (k < b + i ∨ b + n ≤ k) → el d' k = el d k)) d := by
  unfold swapRange
  split
  · rw [wp_bind]
    have i1 : inRange d (a + i) := ⟨by omega, by omega⟩
    have i2 : inRange d (b + i) := ⟨by omega, by omega⟩
    refine wp_swap i1 i2 ?_
    refine wp_mono (swapRange_spec a b n (i + 1) h0 (by omega) (by omega) hab _
      (by rw [length_swapL]; exact h)) ?_
    rintro _ d' ⟨l, p1, p2, p3⟩
    refine ⟨l.trans (length_swapL ..), fun k hk1 hk2 => ?_, fun k hk1 hk2 => ?_, fun k hk1 hk2 => ?_⟩
    · by_cases hk : k = a + i
      · subst hk
        rw [p3 _ (by omega) (by omega), el_swapL i1 i2, if_pos rfl]
        congr 1; omega
      · rw [p1 k (by omega) hk2, el_swapL i1 i2, if_neg (by omega), if_neg (by omega)]
    · by_cases hk : k = b + i
      · subst hk
        rw [p3 _ (by omega) (by omega), el_swapL i1 i2, if_neg (by omega), if_pos rfl]
        congr 1; omega
      · rw [p2 k (by omega) hk2, el_swapL i1 i2, if_neg (by omega), if_neg (by omega)]
    · rw [p3 k (by omega) (by omega), el_swapL i1 i2, if_neg (by omega), if_neg (by omega)]
  · rw [wp_pure]
    exact ⟨rfl, fun k _ _ => by omega, fun k _ _ => by omega, fun _ _ _ => rfl⟩
termination_by (n - i).toNat

theorem rotateLoop_spec (m i j : Int) (hi : 0 < i) (hj : 0 < j) (d : List E) (h0 : 0 ≤ m - i)
    (h : m + j ≤ d.length) :
    wp adm (rotateLoop m i j) (fun _ d' => IsRot (m - i) m (m + j) d d') d := by
  unfold rotateLoop
  split
  · rename_i hij; subst hij
    refine wp_mono (swapRange_spec (m - i) m i 0 h0 (by omega) (by omega) (by omega) d h) ?_
    rintro _ d' ⟨l, p1, p2, p3⟩
    refine ⟨l, fun k hk1 hk2 => ?_, fun k hk1 hk2 => ?_, fun k hk => p3 k (by omega) (by omega)⟩
    · rw [p1 k (by omega) (by omega)]
    · rw [p2 k (by omega) (by omega)]; congr 1; omega
  · split
    · omega
    · split
      · rw [wp_bind]
        refine wp_mono (swapRange_spec (m - i) m j 0 h0 (by omega) (by omega) (by omega) d h) ?_
        rintro _ d1 ⟨l, p1, p2, p3⟩
        refine wp_mono (rotateLoop_spec m (i - j) j (by omega) hj d1 (by omega) (by omega)) ?_
        intro _ d' r
        refine ⟨r.len.trans l, fun k hk1 hk2 => ?_, fun k hk1 hk2 => ?_, fun k hk => ?_⟩
        · rw [r.out k (by omega), p1 k (by omega) (by omega)]
        · by_cases hk : k < m - i + j + j
          · rw [r.lo k (by omega) (by omega), p2 _ (by omega) (by omega)]; congr 1; omega
          · rw [r.hi k (by omega) (by omega), p3 _ (by omega) (by omega)]
        · rw [r.out k (by omega), p3 k (by omega) (by omega)]
      · rw [wp_bind]
        refine wp_mono (swapRange_spec (m - i) (m + j - i) i 0 h0 (by omega) (by omega) (by omega) d
          (by omega)) ?_
        rintro _ d1 ⟨l, p1, p2, p3⟩
        refine wp_mono (rotateLoop_spec m i (j - i) hi (by omega) d1 (by omega) (by omega)) ?_
        intro _ d' r
        refine ⟨r.len.trans l, fun k hk1 hk2 => ?_, fun k hk1 hk2 => ?_, fun k hk => ?_⟩
        · by_cases hk : k < m - i + (j - i)
          · rw [r.lo k (by omega) (by omega), p3 _ (by omega) (by omega)]
          · by_cases hk' : k < m + (j - i)
            · rw [r.hi k (by omega) (by omega), p1 _ (by omega) (by omega)]; congr 1; omega
            · exfalso; omega
        · rw [r.out k (by omega), p2 k (by omega) (by omega)]; congr 1; omega
        · rw [r.out k (by omega), p3 k (by omega) (by omega)]
termination_by (i + j).toNat

theorem rotate_spec (a m b : Int) (h1 : a < m) (h2 : m < b) (d : List E) (h : Span d a b) :
    wp adm (rotate a m b) (fun _ d' => IsRot a m b d d') d := by
  have := rotateLoop_spec (adm := adm) m (m - a) (b - m) (by omega) (by omega) d
    (by have := h.1; omega) (by have := h.2; omega)
  have e1 : m - (m - a) = a := by omega
  have e2 : m + (b - m) = b := by omega
  rw [e1, e2] at this
  exact this

theorem bubbleUp_spec (a i k : Int) (hak : a ≤ k) (hki : k < i) (d : List E) (h : Span d a i) :
    wp adm (bubbleUp i k) (fun _ d' => IsRot k (k + 1) i d d') d := by
  unfold bubbleUp
  split
  · rw [wp_bind]
    have i1 := h.inR (k := k) (by omega) (by omega)
    have i2 := h.inR (k := k + 1) (by omega) (by omega)
    refine wp_swap i1 i2 ?_
    have w := Win.swap (lo := a) (hi := i) i1 i2 (by omega) (by omega) (by omega) (by omega)
    refine wp_mono (bubbleUp_spec a i (k + 1) (by omega) (by omega) _ (h.win w)) ?_
    intro _ d' r
    refine ⟨r.len.trans (length_swapL ..), fun q h1 h2 => ?_, fun q h1 h2 => ?_, fun q hq => ?_⟩
    · by_cases hq : q = k
      · subst hq
        rw [r.out _ (by omega), el_swapL i1 i2, if_pos rfl]; congr 1; omega
      · rw [r.lo q (by omega) (by omega), el_swapL i1 i2, if_neg (by omega), if_neg (by omega)]
        congr 1; omega
    · rw [r.hi q (by omega) (by omega)]
      have : q - (i - (k + 1 + 1)) = k + 1 := by omega
      rw [this, el_swapL i1 i2, if_neg (by omega), if_pos rfl]
      congr 1; omega
    · rw [r.out q (by omega), el_swapL i1 i2, if_neg (by omega), if_neg (by omega)]
  · rw [wp_pure]
    have : i = k + 1 := by omega
    subst this
    exact IsRot.refl_right d
termination_by (i - k).toNat

theorem bubbleDown_spec (b i k : Int) (hik : i ≤ k) (hkb : k < b) (d : List E) (h : Span d i b) :
    wp adm (bubbleDown i k) (fun _ d' => IsRot i k (k + 1) d d') d := by
  unfold bubbleDown
  split
  · rw [wp_bind]
    have i1 := h.inR (k := k) (by omega) (by omega)
    have i2 := h.inR (k := k - 1) (by omega) (by omega)
    refine wp_swap i1 i2 ?_
    have w := Win.swap (lo := i) (hi := b) i1 i2 (by omega) (by omega) (by omega) (by omega)
    refine wp_mono (bubbleDown_spec b i (k - 1) (by omega) (by omega) _ (h.win w)) ?_
    intro _ d' r
    refine ⟨r.len.trans (length_swapL ..), fun q h1 h2 => ?_, fun q h1 h2 => ?_, fun q hq => ?_⟩
    · rw [r.lo q (by omega) (by omega)]
      have : q + (k - 1 - i) = k - 1 := by omega
      rw [this, el_swapL i1 i2, if_neg (by omega), if_pos rfl]
      congr 1; omega
    · by_cases hq : q = k
      · subst hq
        rw [r.out _ (by omega), el_swapL i1 i2, if_pos rfl]; congr 1; omega
      · rw [r.hi q (by omega) (by omega), el_swapL i1 i2, if_neg (by omega), if_neg (by omega)]
        congr 1; omega
    · rw [r.out q (by omega), el_swapL i1 i2, if_neg (by omega), if_neg (by omega)]
  · rw [wp_pure]
    have : i = k := by omega
    subst this
    exact IsRot.refl_left d
termination_by (k - i).toNat

/-! ## The searches -/

theorem searchGE_any (a m b i j : Int) (hm : m ≤ i) (hij : i ≤ j) (hj : j ≤ b) (hm' : a ≤ m)
    (d : List E) (h : Span d a b) (hab : a < b) :
    wp adm (searchGE a i j) (fun r d' => d' = d ∧ i ≤ r ∧ r ≤ j ∧
      (i < r → adm .lt (el d (r - 1)) (el d a) true) ∧ (r < j → adm .lt (el d r) (el d a) false)) d := by
  unfold searchGE
  split
  · dsimp only
    have i1 := h.inR (k := (i + j) / 2) (by omega) (by omega)
    have i2 := h.inR (k := a) (by omega) (by omega)
    rw [wp_bind]
    refine wp_lessAt i1 i2 ?_
    intro b' hb
    split
    · rename_i hbt; subst hbt
      refine wp_mono (searchGE_any a m b ((i + j) / 2 + 1) j (by omega) (by omega) hj hm' d h hab) ?_
      rintro r d' ⟨rfl, h1, h2, h3, h4⟩
      refine ⟨rfl, by omega, h2, fun _ => ?_, h4⟩
      by_cases hr : (i + j) / 2 + 1 < r
      · exact h3 hr
      · have : r - 1 = (i + j) / 2 := by omega
        rw [this]; exact hb
    · rename_i hbf
      have : b' = false := by simpa using hbf
      subst this
      refine wp_mono (searchGE_any a m b i ((i + j) / 2) hm (by omega) (by omega) hm' d h hab) ?_
      rintro r d' ⟨rfl, h1, h2, h3, h4⟩
      refine ⟨rfl, h1, by omega, h3, fun _ => ?_⟩
      by_cases hr : r < (i + j) / 2
      · exact h4 hr
      · have : r = (i + j) / 2 := by omega
        rw [this]; exact hb
  · rw [wp_pure]; exact ⟨rfl, by omega, by omega, by omega, by omega⟩
termination_by (j - i).toNat

theorem searchGT_any (a m b i j : Int) (hi : a ≤ i) (hij : i ≤ j) (hj : j ≤ m) (hm : m < b)
    (d : List E) (h : Span d a b) :
    wp adm (searchGT m i j) (fun r d' => d' = d ∧ i ≤ r ∧ r ≤ j ∧
      (i < r → adm .nlt (el d m) (el d (r - 1)) true) ∧ (r < j → adm .nlt (el d m) (el d r) false)) d := by
  unfold searchGT
  split
  · dsimp only
    have i1 := h.inR (k := (i + j) / 2) (by omega) (by omega)
    have i2 := h.inR (k := m) (by omega) (by omega)
    rw [wp_bind]
    refine wp_nlessAt i2 i1 ?_
    intro b' hb
    split
    · rename_i hbt; subst hbt
      refine wp_mono (searchGT_any a m b ((i + j) / 2 + 1) j (by omega) (by omega) hj hm d h) ?_
      rintro r d' ⟨rfl, h1, h2, h3, h4⟩
      refine ⟨rfl, by omega, h2, fun _ => ?_, h4⟩
      by_cases hr : (i + j) / 2 + 1 < r
      · exact h3 hr
      · have : r - 1 = (i + j) / 2 := by omega
        rw [this]; exact hb
    · rename_i hbf
      have : b' = false := by simpa using hbf
      subst this
      refine wp_mono (searchGT_any a m b i ((i + j) / 2) hi (by omega) (by omega) hm d h) ?_
      rintro r d' ⟨rfl, h1, h2, h3, h4⟩
      refine ⟨rfl, h1, by omega, h3, fun _ => ?_⟩
      by_cases hr : r < (i + j) / 2
      · exact h4 hr
      · have : r = (i + j) / 2 := by omega
        rw [this]; exact hb
  · rw [wp_pure]; exact ⟨rfl, by omega, by omega, by omega, by omega⟩
termination_by (j - i).toNat

theorem searchSym_any (a b p i j s r₀ : Int) (hs : a ≤ s) (hr : r₀ ≤ b) (hp1 : a ≤ p + 1 - r₀)
    (hp2 : p - s < b) (hi : s ≤ i) (hij : i ≤ j) (hj : j ≤ r₀) (d : List E) (h : Span d a b) :
    wp adm (searchSym p i j) (fun r d' => d' = d ∧ i ≤ r ∧ r ≤ j ∧
      (i < r → adm .nlt (el d (p - (r - 1))) (el d (r - 1)) true) ∧
      (r < j → adm .nlt (el d (p - r)) (el d r) false)) d := by
  unfold searchSym
  split
  · dsimp only
    have i1 := h.inR (k := (i + j) / 2) (by omega) (by omega)
    have i2 := h.inR (k := p - (i + j) / 2) (by omega) (by omega)
    rw [wp_bind]
    refine wp_nlessAt i2 i1 ?_
    intro b' hb
    split
    · rename_i hbt; subst hbt
      refine wp_mono (searchSym_any a b p ((i + j) / 2 + 1) j s r₀ hs hr hp1 hp2 (by omega) (by omega) hj d h) ?_
      rintro r d' ⟨rfl, h1, h2, h3, h4⟩
      refine ⟨rfl, by omega, h2, fun _ => ?_, h4⟩
      by_cases hr : (i + j) / 2 + 1 < r
      · exact h3 hr
      · have : r - 1 = (i + j) / 2 := by omega
        rw [this]; exact hb
    · rename_i hbf
      have : b' = false := by simpa using hbf
      subst this
      refine wp_mono (searchSym_any a b p i ((i + j) / 2) s r₀ hs hr hp1 hp2 hi (by omega) (by omega) d h) ?_
      rintro r d' ⟨rfl, h1, h2, h3, h4⟩
      refine ⟨rfl, h1, by omega, h3, fun _ => ?_⟩
      by_cases hr : r < (i + j) / 2
      · exact h4 hr
      · have : r = (i + j) / 2 := by omega
        rw [this]; exact hb
  · rw [wp_pure]; exact ⟨rfl, by omega, by omega, by omega, by omega⟩
termination_by (j - i).toNat

/-- `symMerge` in its three forms. -/
theorem symMerge_any (a m b : Int) (h1 : a < m) (h2 : m < b) (d : List E) (h : Span d a b) :
    wp adm (symMerge a m b) (fun _ d' => Win a b d d') d := by
  have hl := h.1
  have hr := h.2
  unfold symMerge
  split
  · rw [wp_bind]
    refine wp_mono (searchGE_any a m b m b (Int.le_refl _) (by omega) (Int.le_refl _) (by omega) d h
      (by omega)) ?_
    rintro i d' ⟨rfl, e1, e2, -, -⟩
    refine wp_mono (bubbleUp_spec a i a (Int.le_refl _) (by omega) d' (h.sub (Int.le_refl _) e2)) ?_
    intro _ d2 r
    exact (r.win hl (by omega) (by omega) (by omega)).mono (Int.le_refl _) e2
  · split
    · rw [wp_bind]
      refine wp_mono (searchGT_any a m b a m (Int.le_refl _) (by omega) (Int.le_refl _) h2 d h) ?_
      rintro i d' ⟨rfl, e1, e2, -, -⟩
      refine wp_mono (bubbleDown_spec b i m e2 h2 d' (h.sub e1 (Int.le_refl _))) ?_
      intro _ d2 r
      exact (r.win (by omega) (by omega) (by omega) (by omega)).mono e1 (by omega)
    · dsimp only
      rw [wp_bind]
      refine wp_mono (searchSym_any a b ((a + b) / 2 + m - 1) _ _
        (if m > (a + b) / 2 then (a + b) / 2 + m - b else a)
        (if m > (a + b) / 2 then (a + b) / 2 else m) (by split <;> omega) (by split <;> omega)
        (by split <;> omega) (by split <;> omega) (Int.le_refl _) (by split <;> omega)
        (Int.le_refl _) d h) ?_
      rintro start d' ⟨rfl, e1, e2, -, -⟩
      have e1' : a ≤ start ∧ (a + b) / 2 + m - start ≤ b := by split at e1 <;> omega
      have e2' : start ≤ m ∧ start ≤ (a + b) / 2 ∧ m ≤ (a + b) / 2 + m - start := by
        split at e2 <;> omega
      generalize he : (a + b) / 2 + m - start = e at *
      have key : ∀ d1, Win a b d' d1 → wp adm ((do
          (if _h : a < start ∧ start < (a + b) / 2 then recurse (symMerge a start ((a + b) / 2)) else pure () : M E Unit)
          (if _h : (a + b) / 2 < e ∧ e < b then recurse (symMerge ((a + b) / 2) e b) else pure () : M E Unit)) : M E Unit)
          (fun _ d2 => Win a b d' d2) d1 := by
        intro d1 w1
        rw [wp_bind]
        have key2 : ∀ d2, Win a b d' d2 → wp adm
            (if _h : (a + b) / 2 < e ∧ e < b then recurse (symMerge ((a + b) / 2) e b) else pure () : M E Unit)
            (fun _ d2 => Win a b d' d2) d2 := by
          intro d2 w2
          split
          · rename_i hc
            rw [wp_recurse]
            refine wp_mono (symMerge_any ((a + b) / 2) e b hc.1 hc.2 d2
              ((h.win w2).sub (by omega) (Int.le_refl _))) ?_
            intro _ d3 w3
            exact w2.trans (w3.mono (by omega) (Int.le_refl _))
          · rw [wp_pure]; exact w2
        split
        · rename_i hc
          rw [wp_recurse]
          refine wp_mono (symMerge_any a start ((a + b) / 2) hc.1 hc.2 d1
            ((h.win w1).sub (Int.le_refl _) (by omega))) ?_
          intro _ d2 w2
          exact key2 d2 (w1.trans (w2.mono (Int.le_refl _) (by omega)))
        · rw [wp_pure]; exact key2 d1 w1
      rw [wp_bind]
      refine wp_when (fun hc => ?_) (fun _ => key _ (Win.refl ..))
      refine wp_mono (rotate_spec start m e hc.1 hc.2 d' (h.sub (by omega) (by omega))) ?_
      intro _ d1 r
      exact key d1 ((r.win (by omega) (by omega) (by omega) (by omega)).mono (by omega) (by omega))
termination_by (b - a).toNat

theorem blockLoop_any (n a b : Int) (h0 : 0 ≤ a) (han : a ≤ n) (hab : b = a + 20) (d : List E)
    (h : Span d 0 n) :
    wp adm (blockLoop n a b) (fun r d' => Win 0 n d d' ∧ 0 ≤ r ∧ r ≤ n) d := by
  unfold blockLoop
  split
  · rw [wp_bind]
    refine wp_mono (insertionSort_any a b d (h.sub h0 (by omega))) ?_
    intro _ d1 w
    have w := w.mono (lo' := 0) (hi' := n) h0 (by omega)
    refine wp_mono (blockLoop_any n b (b + 20) (by omega) (by omega) rfl d1 (h.win w)) ?_
    rintro r d2 ⟨w2, h1⟩
    exact ⟨w.trans w2, h1⟩
  · rw [wp_pure]; exact ⟨Win.refl .., h0, han⟩
termination_by (n + 1 - b).toNat

theorem mergePass_any (n bs a b : Int) (hbs : 0 < bs) (h0 : 0 ≤ a) (han : a ≤ n) (hab : b = a + 2 * bs)
    (d : List E) (h : Span d 0 n) :
    wp adm (mergePass n bs a b) (fun r d' => Win 0 n d d' ∧ 0 ≤ r ∧ r ≤ n) d := by
  unfold mergePass
  split
  · omega
  · split
    · rw [wp_bind]
      refine wp_mono (symMerge_any a (a + bs) b (by omega) (by omega) d (h.sub h0 (by omega))) ?_
      intro _ d1 w
      have w := w.mono (lo' := 0) (hi' := n) h0 (by omega)
      refine wp_mono (mergePass_any n bs b (b + 2 * bs) hbs (by omega) (by omega) rfl d1 (h.win w)) ?_
      rintro r d2 ⟨w2, h1⟩
      exact ⟨w.trans w2, h1⟩
    · rw [wp_pure]; exact ⟨Win.refl .., h0, han⟩
termination_by (n + 1 - b).toNat

theorem stableLoop_any (n bs : Int) (hbs : 0 < bs) (hn : 0 ≤ n) (d : List E) (h : Span d 0 n) :
    wp adm (stableLoop n bs) (fun _ d' => Win 0 n d d') d := by
  unfold stableLoop
  split
  · omega
  · split
    · rw [wp_bind]
      refine wp_mono (mergePass_any n bs 0 (2 * bs) hbs (Int.le_refl _) hn (by omega) d h) ?_
      rintro a d1 ⟨w1, h1, h2⟩
      dsimp only
      rw [wp_bind]
      have fin : ∀ d2, Win 0 n d d2 → wp adm (stableLoop n (bs * 2)) (fun _ d' => Win 0 n d d') d2 :=
        fun d2 w2 => wp_mono (stableLoop_any n (bs * 2) (by omega) hn d2 (h.win w2)) fun _ _ w3 => w2.trans w3
      refine wp_when (fun hc => ?_) (fun _ => fin _ w1)
      refine wp_mono (symMerge_any a (a + bs) n (by omega) hc d1 ((h.win w1).sub h1 (Int.le_refl _))) ?_
      intro _ d2 w2
      exact fin d2 (w1.trans (w2.mono h1 (Int.le_refl _)))
    · rw [wp_pure]; exact Win.refl ..
termination_by (n - bs).toNat

theorem stableProg_any (d : List E) :
    wp adm stableProg (fun _ d' => d'.Perm d) d := by
  have key : wp adm (stable (d.length : Int)) (fun _ d' => d'.Perm d) d := by
    unfold stable
    have h : Span d 0 d.length := ⟨by omega, by omega⟩
    rw [wp_bind]
    refine wp_mono (blockLoop_any d.length 0 20 (by omega) (by omega) (by omega) d h) ?_
    rintro a d1 ⟨w1, h1, h2⟩
    rw [wp_bind]
    refine wp_mono (insertionSort_any a d.length d1 ((h.win w1).sub h1 (Int.le_refl _))) ?_
    intro _ d2 w2
    have w2 := w1.trans (w2.mono h1 (Int.le_refl _))
    refine wp_mono (stableLoop_any d.length 20 (by omega) (by omega) d2 (h.win w2)) ?_
    intro _ d3 w3
    exact (w2.trans w3).perm
  exact key

end Verif.Sort
