import Verif.Sort.Props

/-!
# Short slices of floats with NaN (C07)

`SortOrdered` of a slice of at most 12 elements, and `StableOrdered` of one of at most 20, is one
insertion sort. `NaN` compares false with everything, so no element ever passes it: each stretch between two
NaN is sorted by itself. This says exactly for which short slices the first sentence of C07 holds.
-/

namespace Verif.Sort.NaN

variable {F : Type} [Inhabited F]
set_option linter.unusedSectionVars false

/-- The answers of the operator `<`; nothing is said about `>=`. -/
def ltOnly (lt : F → F → Bool) : Kind → F → F → Bool → Prop
  | .lt, x, y, b => b = lt x y
  | .nlt, _, _, _ => True

section
variable (o : FloatOps F)

/-- No NaN at the positions from `p` to `q`. -/
def Flat (d : List F) (p q : Int) : Prop := ∀ k, p ≤ k → k ≤ q → o.isNaN (el d k) = false

/-- Ascending within `[a, b)` as far as there is no NaN in between. -/
def SortedFlat (a b : Int) (d : List F) : Prop :=
  ∀ p q, a ≤ p → p < q → q < b → Flat o d p q → le o.lt (el d p) (el d q)

/-- NaN stay where they are and what stands in front of one is only rearranged. -/
structure Kept (d d' : List F) : Prop where
  nan : ∀ k, o.isNaN (el d' k) = o.isNaN (el d k)
  same : ∀ k, o.isNaN (el d k) = true → el d' k = el d k
  front : ∀ k, o.isNaN (el d k) = true → (d'.take k.toNat).Perm (d.take k.toNat)

variable {o}

theorem Kept.refl (d : List F) : Kept o d d := ⟨fun _ => rfl, fun _ _ => rfl, fun _ _ => .refl _⟩

theorem Kept.trans {d d' d'' : List F} (h : Kept o d d') (h' : Kept o d' d'') : Kept o d d'' :=
  ⟨fun k => (h'.nan k).trans (h.nan k), fun k hk => (h'.same k (by rw [h.nan, hk])).trans (h.same k hk),
    fun k hk => (h'.front k (by rw [h.nan, hk])).trans (h.front k hk)⟩

theorem Kept.flat {d d' : List F} (h : Kept o d d') {p q : Int} : Flat o d' p q ↔ Flat o d p q := by
  unfold Flat
  simp only [h.nan]

theorem le_of_lt {x y : F} (h : o.lt x y = true) : le o.lt x y := by
  unfold le
  cases hh : o.lt y x with
  | false => rfl
  | true => have := o.trans x y x h hh; rw [o.irrefl] at this; cases this

theorem le_trans {x y z : F} (hx : o.isNaN x = false) (hy : o.isNaN y = false) (hz : o.isNaN z = false)
    (h1 : le o.lt x y) (h2 : le o.lt y z) : le o.lt x z := by
  have := (lessFloat_strictWeak o).le_trans (x := x) (y := y) (z := z)
  simp only [le, lessFloat, hx, hy, hz] at *
  exact this h1 h2

theorem numbers_of_lt {x y : F} (h : o.lt x y = true) : o.isNaN x = false ∧ o.isNaN y = false := by
  constructor
  · cases hx : o.isNaN x with
    | false => rfl
    | true => rw [o.lt_nan x y (.inl hx)] at h; cases h
  · cases hy : o.isNaN y with
    | false => rfl
    | true => rw [o.lt_nan x y (.inr hy)] at h; cases h

theorem Kept.swap {d : List F} {j : Int} (h1 : inRange d j) (h2 : inRange d (j - 1))
    (n1 : o.isNaN (el d j) = false) (n2 : o.isNaN (el d (j - 1)) = false) : Kept o d (swapL d j (j - 1)) := by
  have hj0 := h1.1
  have hj1 := h1.2
  have hj2 := h2.1
  have ne : ∀ k, o.isNaN (el d k) = true → k ≠ j ∧ k ≠ j - 1 := by
    intro k hk
    constructor
    · rintro rfl; rw [n1] at hk; cases hk
    · rintro rfl; rw [n2] at hk; cases hk
  refine ⟨fun k => ?_, fun k hk => ?_, fun k hk => ?_⟩
  · rw [el_swapL h1 h2]
    split
    · rename_i e; rw [e, n1, n2]
    · split
      · rename_i e; rw [e, n1, n2]
      · rfl
  · rw [el_swapL h1 h2, if_neg (ne k hk).1, if_neg (ne k hk).2]
  · obtain ⟨hkj, hkj'⟩ := ne k hk
    by_cases hlt : k < j
    · have : (swapL d j (j - 1)).take k.toNat = d.take k.toNat := by
        unfold swapL
        rw [List.take_set_of_le (by omega), List.take_set_of_le (by omega)]
      rw [this]
    · have r1 : inRange (d.take k.toNat) j := ⟨hj0, by rw [List.length_take]; omega⟩
      have r2 : inRange (d.take k.toNat) (j - 1) := ⟨hj2, by rw [List.length_take]; omega⟩
      have e : (swapL d j (j - 1)).take k.toNat = swapL (d.take k.toNat) j (j - 1) := by
        unfold swapL
        rw [List.take_set, List.take_set, el_eq_getElem r1, el_eq_getElem r2, el_eq_getElem h1, el_eq_getElem h2,
          List.getElem_take, List.getElem_take]
      rw [e]
      exact swapL_perm r1 r2

theorem insInner_flat (a j hi : Int) (d : List F) (h : Span d a hi) (hj : j < hi) (haj : a ≤ j)
    (hs : ∀ p q, a ≤ p → p < q → q < hi → q ≠ j → Flat o d p q → le o.lt (el d p) (el d q)) :
    wp (ltOnly o.lt) (insInner a j) (fun _ d' => Kept o d d' ∧ SortedFlat o a hi d') d := by
  unfold insInner
  split
  · rw [wp_bind]
    have i1 := h.inR (k := j) (by omega) (by omega)
    have i2 := h.inR (k := j - 1) (by omega) (by omega)
    refine wp_lessAt i1 i2 ?_
    intro b hb
    split
    · rename_i hbt; subst hbt
      have hlt : o.lt (el d j) (el d (j - 1)) = true := hb.symm
      obtain ⟨n1, n2⟩ := numbers_of_lt hlt
      have hk := Kept.swap i1 i2 n1 n2
      rw [wp_bind]
      refine wp_swap i1 i2 ?_
      refine wp_mono (insInner_flat a (j - 1) hi _ ⟨h.1, by simpa using h.2⟩ (by omega) (by omega) ?_)
        fun _ d' w => ⟨hk.trans w.1, w.2⟩
      intro p q hp hpq hq hne hf
      rw [hk.flat] at hf
      rw [el_swapL i1 i2, el_swapL i1 i2]
      by_cases hq1 : q = j
      · subst hq1
        rw [if_neg (by omega : p ≠ q)]
        by_cases hp1 : p = q - 1
        · subst hp1
          simp only [if_true]
          exact le_of_lt hlt
        · simp only [hp1, if_true, if_false]
          exact hs p (q - 1) hp (by omega) (by omega) (by omega) fun k h1 h2 => hf k h1 (by omega)
      · rw [if_neg hq1, if_neg hne]
        by_cases hp1 : p = j
        · subst hp1
          simp only [if_true]
          refine hs (p - 1) q (by omega) (by omega) hq hq1 fun k h1 h2 => ?_
          by_cases hkp : k = p - 1
          · rw [hkp]; exact n2
          · exact hf k (by omega) h2
        · rw [if_neg hp1]
          split
          · exact hs j q (by omega) (by omega) hq hq1 fun k h1 h2 => hf k (by omega) h2
          · exact hs p q hp hpq hq hq1 hf
    · rename_i hbf
      have : b = false := by simpa using hbf
      subst this
      have hle : le o.lt (el d (j - 1)) (el d j) := hb.symm
      rw [wp_pure]
      refine ⟨.refl d, ?_⟩
      intro p q hp hpq hq hf
      by_cases hq1 : q = j
      · subst hq1
        by_cases hp1 : p = q - 1
        · subst hp1; exact hle
        · exact le_trans (hf p (by omega) (by omega)) (hf (q - 1) (by omega) (by omega)) (hf q (by omega) (by omega))
            (hs p (q - 1) hp (by omega) (by omega) (by omega) fun k h1 h2 => hf k h1 (by omega)) hle
      · exact hs p q hp hpq hq hq1 hf
  · rw [wp_pure]
    refine ⟨.refl d, ?_⟩
    intro p q hp hpq hq hf
    exact hs p q hp hpq hq (by omega) hf
termination_by (j - a).toNat

theorem insOuter_flat (a b i : Int) (hi : a ≤ i) (hib : i ≤ b) (d : List F) (h : Span d a b)
    (hs : SortedFlat o a i d) :
    wp (ltOnly o.lt) (insOuter a b i) (fun _ d' => Kept o d d' ∧ SortedFlat o a b d') d := by
  unfold insOuter
  split
  · rw [wp_bind]
    refine wp_mono (wp_and (insInner_any a i d (h.sub (by omega) (by omega)))
      (insInner_flat a i (i + 1) d (h.sub (by omega) (by omega)) (by omega) hi ?_)) ?_
    · intro p q hp hpq hq hne hf
      exact hs p q hp hpq (by omega) hf
    · rintro _ d1 ⟨w1, k1, s1⟩
      exact wp_mono (insOuter_flat a b (i + 1) (by omega) (by omega) d1 (h.win w1) s1)
        fun _ d' w => ⟨k1.trans w.1, w.2⟩
  · rw [wp_pure]
    have : i = b := by omega
    subst this; exact ⟨.refl d, hs⟩
termination_by (b - i).toNat

theorem insertionSort_flat (d : List F) :
    wp (ltOnly o.lt) (insertionSort 0 d.length) (fun _ d' => d'.Perm d ∧ Kept o d d' ∧ SortedFlat o 0 d.length d') d := by
  refine wp_and (wp_mono (insertionSort_any 0 d.length d ⟨Int.le_refl _, Int.le_refl _⟩) fun _ _ w => w.perm) ?_
  by_cases hab : (0 : Int) + 1 ≤ d.length
  · exact insOuter_flat 0 d.length (0 + 1) (by omega) hab d ⟨Int.le_refl _, Int.le_refl _⟩
      fun p q _ _ _ => by omega
  · have : (d.length : Int) = 0 := by omega
    unfold insertionSort insOuter
    rw [if_neg (by omega), wp_pure]
    exact ⟨.refl d, fun p q _ _ _ => by omega⟩

theorem sortProg_short (d : List F) (h : d.length ≤ 12) :
    wp (ltOnly o.lt) sortProg (fun _ d' => d'.Perm d ∧ Kept o d d' ∧ SortedFlat o 0 d.length d') d := by
  show wp (ltOnly o.lt) (pdqsort (d.length + 1) 0 d.length (bitsLen d.length) true true)
    (fun _ d' => d'.Perm d ∧ Kept o d d' ∧ SortedFlat o 0 d.length d') d
  unfold pdqsort
  rw [if_pos (by omega)]
  exact insertionSort_flat d

theorem stableProg_short (d : List F) (h : d.length ≤ 20) :
    wp (ltOnly o.lt) stableProg (fun _ d' => d'.Perm d ∧ Kept o d d' ∧ SortedFlat o 0 d.length d') d := by
  show wp (ltOnly o.lt) (stable d.length) (fun _ d' => d'.Perm d ∧ Kept o d d' ∧ SortedFlat o 0 d.length d') d
  have fin : ∀ d' : List F, wp (ltOnly o.lt) (stableLoop d.length 20) (fun _ x => x = d') d' := by
    intro d'
    unfold stableLoop
    rw [if_neg (by omega), if_neg (by omega), wp_pure]
  have rest : wp (ltOnly o.lt) (insertionSort 0 d.length >>= fun _ => stableLoop d.length 20)
      (fun _ d' => d'.Perm d ∧ Kept o d d' ∧ SortedFlat o 0 d.length d') d := by
    rw [wp_bind]
    refine wp_mono (insertionSort_flat d) fun _ d' w => wp_mono (fin d') ?_
    rintro _ _ rfl
    exact w
  unfold stable
  rw [wp_bind]
  unfold blockLoop
  by_cases h20 : d.length = 20
  · rw [if_pos (by omega), wp_bind]
    have e20 : (20 : Int) = d.length := by omega
    rw [show insertionSort (E := F) 0 20 = insertionSort 0 d.length by rw [e20]]
    refine wp_mono (insertionSort_flat d) fun _ d' w => ?_
    unfold blockLoop
    rw [if_neg (by omega), wp_pure, wp_bind]
    have : wp (ltOnly o.lt) (insertionSort (E := F) 20 d.length) (fun _ x => x = d') d' := by
      unfold insertionSort insOuter
      rw [if_neg (by omega), wp_pure]
    refine wp_mono this ?_
    rintro _ _ rfl
    refine wp_mono (fin _) ?_
    rintro _ _ rfl
    exact w
  · rw [if_neg (by omega), wp_pure]
    exact rest

end

/-! ## The result -/

/-- Neighbouring NaN delimit stretches: NaN stay where they are, what stands before each NaN is what stood
there, and whenever `x` stands before `y` with no NaN from one to the other, they are in order. -/
structure ByStretches (o : FloatOps F) (data out : List F) : Prop where
  perm : out.Perm data
  nan : ∀ (k : Nat) x, o.isNaN x = true → (out[k]? = some x ↔ data[k]? = some x)
  front : ∀ (k : Nat) x, o.isNaN x = true → data[k]? = some x → (out.take k).Perm (data.take k)
  ascending : ∀ (i j : Nat) x y, i < j → out[i]? = some x → out[j]? = some y →
    (∀ (k : Nat) z, i ≤ k → k ≤ j → out[k]? = some z → o.isNaN z = false) → o.lt y x = false

theorem byStretches_of (o : FloatOps F) {d d' : List F} (hp : d'.Perm d) (hk : Kept o d d')
    (hs : SortedFlat o 0 d.length d') : ByStretches o d d' := by
  have hl := hp.length_eq
  have at' : ∀ (l : List F) (k : Nat) x, l[k]? = some x → el l k = x := by
    intro l k x hx
    simp [el, List.getD_eq_getElem?_getD, hx]
  have back : ∀ (l : List F) (k : Nat), k < l.length → l[k]? = some (el l k) := by
    intro l k hk
    rw [el_eq_getElem (d := l) (i := k) ⟨by omega, by omega⟩]
    simp [hk]
  refine ⟨hp, fun k x hx => ⟨fun h => ?_, fun h => ?_⟩, fun k x hx h => ?_, fun i j x y hij hi hj hn => ?_⟩
  · have hlt := (List.getElem?_eq_some_iff.1 h).1
    have e := at' _ _ _ h
    have n : o.isNaN (el d k) = true := by rw [← hk.nan, e, hx]
    rw [back d k (by omega), ← hk.same k n, e]
  · have hlt := (List.getElem?_eq_some_iff.1 h).1
    have e := at' _ _ _ h
    rw [back d' k (by omega), hk.same k (by rw [e, hx]), e]
  · exact hk.front k (by rw [at' _ _ _ h, hx])
  · have hjl := (List.getElem?_eq_some_iff.1 hj).1
    have := hs i j (by omega) (by omega) (by omega) fun k h1 h2 => by
      have ek : (k.toNat : Int) = k := by omega
      have := hn k.toNat (el d' k) (by omega) (by omega) (by
        have := back d' k.toNat (by omega)
        rwa [ek] at this)
      exact this
    rw [at' _ _ _ hi, at' _ _ _ hj] at this
    exact this

/-- **C07, short slices.** `SortOrdered` of at most 12 floats and `StableOrdered` of at most 20 sort each stretch
between NaN by itself. -/
theorem C07_short (o : FloatOps F) (data : List F) :
    (data.length ≤ 12 → ∃ out, sortOrdered o.lt o.ge data = .ok out ∧ ByStretches o data out) ∧
    (data.length ≤ 20 → ∃ out, stableOrdered o.lt o.ge data = .ok out ∧ ByStretches o data out) := by
  have ha : ∀ s k x y, ltOnly o.lt k x y (ofOps o.lt o.ge s k x y).1 := by
    intro s k x y
    cases k
    · rfl
    · trivial
  constructor
  · intro h
    obtain ⟨out, e, h1, h2, h3⟩ := contents_ok () ha (sortProg_short (o := o) data h)
    exact ⟨out, e, byStretches_of o h1 h2 h3⟩
  · intro h
    obtain ⟨out, e, h1, h2, h3⟩ := contents_ok () ha (stableProg_short (o := o) data h)
    exact ⟨out, e, byStretches_of o h1 h2 h3⟩

/-- No number in front of a NaN is larger than a number behind it. -/
def InOrderAcross (o : FloatOps F) (data : List F) : Prop :=
  ∀ (i k j : Nat) x n y, i < k → k < j → data[i]? = some x → data[k]? = some n → data[j]? = some y →
    o.isNaN x = false → o.isNaN n = true → o.isNaN y = false → o.lt y x = false

theorem mem_take_iff {l : List F} {k : Nat} {x : F} : x ∈ l.take k ↔ ∃ i : Nat, i < k ∧ l[i]? = some x := by
  rw [List.mem_iff_getElem?]
  constructor
  · rintro ⟨i, h⟩
    rw [List.getElem?_take] at h
    split at h
    · exact ⟨i, by omega, h⟩
    · cases h
  · rintro ⟨i, hi, h⟩
    exact ⟨i, by rw [List.getElem?_take, if_pos hi]; exact h⟩

theorem mem_drop_iff {l : List F} {k : Nat} {x : F} : x ∈ l.drop (k + 1) ↔ ∃ j : Nat, k < j ∧ l[j]? = some x := by
  rw [List.mem_iff_getElem?]
  constructor
  · rintro ⟨i, h⟩
    rw [List.getElem?_drop] at h
    exact ⟨k + 1 + i, by omega, h⟩
  · rintro ⟨j, hj, h⟩
    exact ⟨j - (k + 1), by rw [List.getElem?_drop, show k + 1 + (j - (k + 1)) = j by omega]; exact h⟩

theorem ByStretches.behind {o : FloatOps F} {data out : List F} (h : ByStretches o data out) {k : Nat} {n : F}
    (hn : o.isNaN n = true) (hk : data[k]? = some n) : (out.drop (k + 1)).Perm (data.drop (k + 1)) := by
  have hk' := (h.nan k n hn).2 hk
  have e : ∀ l : List F, l[k]? = some n → l = l.take k ++ n :: l.drop (k + 1) := by
    intro l hl
    have hlt := (List.getElem?_eq_some_iff.1 hl).1
    have := (List.getElem?_eq_some_iff.1 hl).2
    rw [← this, List.getElem_cons_drop, List.take_append_drop]
  have hp := h.perm
  rw [e out hk', e data hk] at hp
  have := (List.perm_append_left_iff (data.take k)).1 (((h.front k n hn hk).symm.append_right _).trans hp)
  exact (List.perm_cons n).1 this

/-- What `ByStretches` leaves is ascending, NaN aside, exactly when the stretches were in order. -/
theorem ByStretches.iff {o : FloatOps F} {data out : List F} (h : ByStretches o data out) :
    (out.filter fun x => !o.isNaN x).Pairwise (fun x y => o.lt y x = false) ↔ InOrderAcross o data := by
  rw [List.pairwise_filter]
  constructor
  · intro hs i k j x n y hik hkj hi hk hj hx hn hy
    obtain ⟨i', h1, h2⟩ := mem_take_iff.1 ((h.front k n hn hk).mem_iff.2 (mem_take_iff.2 ⟨i, hik, hi⟩))
    obtain ⟨j', h3, h4⟩ := mem_drop_iff.1 ((h.behind hn hk).mem_iff.2 (mem_drop_iff.2 ⟨j, hkj, hj⟩))
    obtain ⟨hi', ei⟩ := List.getElem?_eq_some_iff.1 h2
    obtain ⟨hj', ej⟩ := List.getElem?_eq_some_iff.1 h4
    have := List.pairwise_iff_getElem.1 hs i' j' hi' hj' (by omega)
    rw [ei, ej] at this
    exact this (by simp [hx]) (by simp [hy])
  · intro hc
    rw [List.pairwise_iff_getElem]
    intro i j hi hj hij hx hy
    have hx : o.isNaN out[i] = false := by simpa using hx
    have hy : o.isNaN out[j] = false := by simpa using hy
    have gi : out[i]? = some out[i] := List.getElem?_eq_getElem hi
    have gj : out[j]? = some out[j] := List.getElem?_eq_getElem hj
    by_cases hb : ∃ (k : Nat) (z : F), i ≤ k ∧ k ≤ j ∧ out[k]? = some z ∧ o.isNaN z = true
    · obtain ⟨k, z, h1, h2, hk, hz⟩ := hb
      have n1 : k ≠ i := by rintro rfl; rw [gi] at hk; injection hk with hk; rw [hk, hz] at hx; cases hx
      have n2 : k ≠ j := by rintro rfl; rw [gj] at hk; injection hk with hk; rw [hk, hz] at hy; cases hy
      have hk' := (h.nan k z hz).1 hk
      obtain ⟨i', h3, h4⟩ := mem_take_iff.1 ((h.front k z hz hk').mem_iff.1 (mem_take_iff.2 ⟨i, by omega, gi⟩))
      obtain ⟨j', h5, h6⟩ := mem_drop_iff.1 ((h.behind hz hk').mem_iff.1 (mem_drop_iff.2 ⟨j, by omega, gj⟩))
      exact hc i' k j' _ z _ h3 h5 h4 hk' h6 hx hz hy
    · refine h.ascending i j _ _ hij gi gj fun k z h1 h2 hk => ?_
      cases hz : o.isNaN z with
      | false => rfl
      | true => exact absurd ⟨k, z, h1, h2, hk, hz⟩ hb

/-- **C07, first sentence, exactly, for short slices**: `SortOrdered` of at most 12 floats (`StableOrdered` of at
most 20) leaves the numbers ascending exactly when no number in front of a NaN is larger than one behind it. -/
theorem C07_short_iff (o : FloatOps F) (data : List F) :
    (data.length ≤ 12 → ∃ out, sortOrdered o.lt o.ge data = .ok out ∧
      ((out.filter fun x => !o.isNaN x).Pairwise (fun x y => o.lt y x = false) ↔ InOrderAcross o data)) ∧
    (data.length ≤ 20 → ∃ out, stableOrdered o.lt o.ge data = .ok out ∧
      ((out.filter fun x => !o.isNaN x).Pairwise (fun x y => o.lt y x = false) ↔ InOrderAcross o data)) := by
  refine ⟨fun h => ?_, fun h => ?_⟩
  · obtain ⟨out, e, hb⟩ := (C07_short o data).1 h
    exact ⟨out, e, hb.iff⟩
  · obtain ⟨out, e, hb⟩ := (C07_short o data).2 h
    exact ⟨out, e, hb.iff⟩

/-- Two stretches out of order, each sorted by itself. -/
example : sortOrdered intFloat.lt intFloat.ge [some 5, some 4, none, some 2, some 1] =
    .ok [some 4, some 5, none, some 1, some 2] := by decide +kernel
example : ¬ InOrderAcross intFloat [some 5, some 4, none, some 2, some 1] := by
  intro h
  have := h 0 2 3 _ _ _ (by decide) (by decide) rfl rfl rfl rfl rfl rfl
  revert this
  decide
/-- In order across the NaN: the numbers come out ascending. -/
example : sortOrdered intFloat.lt intFloat.ge [some 2, some 1, none, some 5, some 4] =
    .ok [some 1, some 2, none, some 4, some 5] := by decide +kernel

end Verif.Sort.NaN
