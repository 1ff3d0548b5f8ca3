import Verif.Sort.Events
import Verif.Sort.Rot

/-!
# How deep the sorts recurse

The bounds hold whatever the comparator answers: `pdqsort` calls itself on the smaller part only, and
`symMerge` on halves.
-/

namespace Verif.Sort

variable {E α : Type} [Inhabited E] {adm : Kind → E → E → Bool → Prop}
set_option linter.unusedSectionVars false

/-- The number of calls in progress, and the largest it has been. -/
def depthStep : Act → Int × Int → Int × Int
  | .call, s => s
  | .ev .swap, s => s
  | .ev .enter, s => (s.1 + 1, max s.2 (s.1 + 1))
  | .ev .leave, s => (s.1 - 1, s.2)

/-- In a run of `m` at most `k` nested calls are in progress; all have returned at the end. -/
def Deep (adm : Kind → E → E → Bool → Prop) (k : Nat) (m : M E α) (Q : α → List E → Prop) (d : List E) : Prop :=
  ∀ c p, ew depthStep adm m (fun a d' s => Q a d' ∧ s.1 = c ∧ s.2 ≤ max p (c + k)) (c, p) d

theorem Deep.mono {k k' : Nat} {m : M E α} {Q Q' : α → List E → Prop} {d : List E} (h : Deep adm k m Q d)
    (hk : k ≤ k') (hq : ∀ a d, Q a d → Q' a d) : Deep adm k' m Q' d :=
  fun c p => ew_mono (h c p) fun a d' _ ⟨h1, h2, h3⟩ => ⟨hq a d' h1, h2, by omega⟩

theorem Deep.bind {β : Type} {k : Nat} {m : M E α} {f : α → M E β} {Q : β → List E → Prop} {d : List E}
    (h : Deep adm k m (fun a d => Deep adm k (f a) Q d) d) : Deep adm k (m >>= f) Q d := by
  intro c p
  rw [ew_bind]
  refine ew_mono (h c p) ?_
  rintro a d' ⟨c', p'⟩ ⟨h1, h2, h3⟩
  dsimp only at h2 h3
  subst h2
  exact ew_mono (h1 c' p') fun _ _ _ ⟨q, e1, e2⟩ => ⟨q, e1, by omega⟩

theorem Deep.recurse {k : Nat} {m : M E Unit} {Q : Unit → List E → Prop} {d : List E} (h : Deep adm k m Q d) :
    Deep adm (k + 1) (Sort.recurse m) Q d := by
  intro c p
  rw [ew_recurse]
  refine ew_mono (h (c + 1) (max p (c + 1))) ?_
  rintro a d' ⟨c', p'⟩ ⟨h1, h2, h3⟩
  dsimp only at h2 h3
  refine ⟨h1, ?_, ?_⟩
  · show c' - 1 = c; omega
  · show p' ≤ _; push_cast; omega

theorem Flat.deep {m : M E α} {Q : α → List E → Prop} {d : List E} (hf : Flat m) (h : wp adm m Q d) (k : Nat) :
    Deep adm k m Q d :=
  fun c p => ew_mono (ew_wp h (hf.ew (fun _ => rfl) (fun _ => rfl)))
    fun _ _ _ ⟨h1, h2⟩ => ⟨h1, by rw [h2], by rw [h2]; omega⟩

theorem Flat.deep' {m : M E α} {d : List E} (hf : Flat m) (k : Nat) : Deep adm k m (fun _ _ => True) d :=
  fun c p => ew_mono (hf.ew (s := (c, p)) (fun _ => rfl) (fun _ => rfl))
    fun _ _ _ h2 => ⟨trivial, by rw [h2], by rw [h2]; omega⟩

theorem Deep.pure {k : Nat} {a : α} {Q : α → List E → Prop} {d : List E} (h : Q a d) :
    Deep adm k (Pure.pure a) Q d := fun c p => ew_pure.2 ⟨h, rfl, by omega⟩

theorem Deep.wp {k : Nat} {m : M E α} {Q P : α → List E → Prop} {d : List E} (h : Deep adm k m Q d)
    (hw : wp adm m P d) : Deep adm k m (fun a d => P a d ∧ Q a d) d :=
  fun c p => ew_mono (ew_wp hw (h c p)) fun _ _ _ ⟨h1, h2, h3⟩ => ⟨⟨h1, h2⟩, h3⟩

theorem pdqsort_depth (fuel : Nat) (k : Nat) (limit : Int) (a b : Int) (w w' : Bool) (hf : b - a < fuel)
    (h0 : 0 ≤ a) (hab : a ≤ b) (hk : b - a < 13 * 2 ^ k) (d : List E) (h : Span d 0 b) :
    Deep adm k (pdqsort fuel a b limit w w') (fun _ _ => True) d := by
  induction fuel generalizing k limit a b w w' d with
  | zero => omega
  | succ fuel ih =>
    unfold pdqsort
    dsimp only
    have ha : ∀ d : List E, Span d 0 b → Span d a b := fun d h => h.sub h0 (Int.le_refl _)
    split
    · exact (insertionSort_built a b).flat.deep' k
    · split
      · exact (heapSort_built a b).flat.deep' k
      · refine Deep.bind (((breakIfUnbalanced_built w a b limit).flat.deep
          (breakIfUnbalanced_any w a b limit d (ha d h)) k).mono (Nat.le_refl _) ?_)
        intro limit d1 w1
        have w1 := w1.mono h0 (Int.le_refl _)
        have h1 := h.win w1
        refine Deep.bind (((choosePivot_built a b).flat.deep
          (choosePivot_any a b d1 (ha _ h1) (by omega)) k).mono (Nat.le_refl _) ?_)
        rintro ph d1 ⟨rfl, p1, p2⟩
        refine Deep.bind (((reverseIfDecreasing_built a b ph.1 ph.2).flat.deep
          (reverseIfDecreasing_any a b ph.1 ph.2 d1 (ha _ h1) p1 p2) k).mono (Nat.le_refl _) ?_)
        rintro ph d2 ⟨w2, p1, p2⟩
        have w2 := w1.trans (w2.mono h0 (Int.le_refl _))
        have h2 := h.win w2
        refine Deep.bind (((tryPartial_built _ a b).flat.deep
          (tryPartial_any _ a b h0 (by omega) d2 h2) k).mono (Nat.le_refl _) ?_)
        rintro done d3 w3
        have w3 := w2.trans w3
        have h3 := h.win w3
        split
        · exact Deep.pure trivial
        · refine Deep.bind (((manyEqual_built a ph.1).flat.deep
            (manyEqual_any a b ph.1 d3 h3 p1 p2) k).mono (Nat.le_refl _) ?_)
          rintro eq d3 ⟨rfl, -⟩
          split
          · refine Deep.bind (((partitionEqual_built a b ph.1).flat.deep
              (partitionEqual_any a b ph.1 _ (ha _ h3) p1 p2 (by omega)) k).mono (Nat.le_refl _) ?_)
            rintro mid d4 ⟨w4, q1, q2, -⟩
            have w4 := w3.trans (w4.mono h0 (Int.le_refl _))
            exact ih k _ mid b _ _ (by omega) (by omega) (by omega) (by omega) d4 (h.win w4)
          · refine Deep.bind (((partition_built a b ph.1).flat.deep
              (partition_any a b ph.1 _ (ha _ h3) p1 p2) k).mono (Nat.le_refl _) ?_)
            rintro mp d4 ⟨w4, q1, q2, -⟩
            have w4 := w3.trans (w4.mono h0 (Int.le_refl _))
            have h4 := h.win w4
            obtain ⟨k, rfl⟩ : ∃ k', k = k' + 1 := by
              rcases k with _ | k
              · simp at hk; omega
              · exact ⟨k, rfl⟩
            have e : (2 : Int) ^ (k + 1) = 2 * 2 ^ k := by rw [Int.pow_succ]; omega
            split
            · refine Deep.bind (((ih k limit a mp.1 true true (by omega) h0 (by omega) (by omega) d4
                (h4.sub (by omega) (by omega))).recurse.wp
                (wp_recurse.2 (pdqsort_any fuel a mp.1 limit true true (by omega) (by omega) h0
                (by omega) d4 (h4.sub (by omega) (by omega))))).mono (Nat.le_refl _) ?_)
              rintro _ d5 ⟨w5, -⟩
              exact ih (k + 1) limit (mp.1 + 1) b _ _ (by omega) (by omega) (by omega) (by omega) d5
                (h4.win (w5.mono (lo' := 0) (hi' := b) (by omega) (by omega)))
            · refine Deep.bind (((ih k limit (mp.1 + 1) b true true (by omega) (by omega) (by omega) (by omega)
                d4 h4).recurse.wp
                (wp_recurse.2 (pdqsort_any fuel (mp.1 + 1) b limit true true (by omega) (by omega)
                (by omega) (by omega) d4 h4))).mono (Nat.le_refl _) ?_)
              rintro _ d5 ⟨w5, -⟩
              exact ih (k + 1) limit a mp.1 _ _ (by omega) h0 (by omega) (by omega) d5
                ((h4.win w5).sub (by omega) (by omega))

theorem sortProg_depth (k : Nat) (d : List E) (hk : d.length < 13 * 2 ^ k) :
    Deep adm k sortProg (fun _ _ => True) d := by
  have hk' : ((d.length : Nat) : Int) < 13 * 2 ^ k := by exact_mod_cast hk
  exact pdqsort_depth (d.length + 1) k (bitsLen d.length) 0 d.length true true (by omega) (by omega)
    (by omega) (by omega) d ⟨by omega, by omega⟩

theorem symMerge_depth (k : Nat) (a m b : Int) (h1 : a < m) (h2 : m < b) (hk : b - a ≤ 3 * 2 ^ k) (d : List E) :
    Deep adm k (symMerge a m b) (fun _ _ => True) d := by
  induction k generalizing a m b d with
  | zero =>
    simp at hk
    unfold symMerge
    split
    · exact Deep.bind (((searchGE_built a m b).flat.deep' 0).mono (Nat.le_refl _) fun _ _ _ =>
        (bubbleUp_built _ _).flat.deep' 0)
    · split
      · exact Deep.bind (((searchGT_built m a m).flat.deep' 0).mono (Nat.le_refl _) fun _ _ _ =>
          (bubbleDown_built _ _).flat.deep' 0)
      · omega
  | succ k ih =>
    have e : (2 : Int) ^ (k + 1) = 2 * 2 ^ k := by rw [Int.pow_succ]; omega
    unfold symMerge
    split
    · exact Deep.bind (((searchGE_built a m b).flat.deep' _).mono (Nat.le_refl _) fun _ _ _ =>
        (bubbleUp_built _ _).flat.deep' _)
    · split
      · exact Deep.bind (((searchGT_built m a m).flat.deep' _).mono (Nat.le_refl _) fun _ _ _ =>
          (bubbleDown_built _ _).flat.deep' _)
      · dsimp only
        refine Deep.bind (((searchSym_built _ _ _).flat.deep' _).mono (Nat.le_refl _) fun start d1 _ => ?_)
        refine Deep.bind (((Built.when (rotateLoop_built _ _ _)).flat.deep' _).mono (Nat.le_refl _) fun _ d2 _ => ?_)
        refine Deep.bind (Deep.mono (Q := fun _ _ => True) ?_ (Nat.le_refl _) fun _ d3 _ => ?_)
        · split
          · rename_i hc
            exact (ih _ _ _ hc.1 hc.2 (by omega) _).recurse
          · exact Deep.pure trivial
        · split
          · rename_i hc
            exact (ih _ _ _ hc.1 hc.2 (by omega) _).recurse
          · exact Deep.pure trivial

theorem mergePass_depth (k : Nat) (m bs a b : Int) (hbs : 0 < bs) (ha : 0 ≤ a) (hb : b = a + 2 * bs) (ham : a ≤ m)
    (hk : m ≤ 3 * 2 ^ k) (d : List E) :
    Deep adm k (mergePass m bs a b) (fun r _ => 0 ≤ r ∧ r ≤ m) d := by
  unfold mergePass
  split
  · omega
  · split
    · refine Deep.bind ((symMerge_depth k a (a + bs) b (by omega) (by omega) (by omega) d).mono (Nat.le_refl _)
        fun _ d1 _ => ?_)
      exact mergePass_depth k m bs b (b + 2 * bs) hbs (by omega) rfl (by omega) hk d1
    · exact Deep.pure ⟨ha, ham⟩
termination_by (m + 1 - b).toNat

theorem Deep.when {k : Nat} {c : Prop} [Decidable c] {m : M E Unit} {d : List E}
    (h : c → Deep adm k m (fun _ _ => True) d) : Deep adm k (M.when c m) (fun _ _ => True) d := by
  unfold M.when; split
  · exact h ‹_›
  · exact Deep.pure trivial

theorem stableLoop_depth (k : Nat) (m bs : Int) (hm : 0 ≤ m) (hbs : 0 < bs) (hk : m ≤ 3 * 2 ^ k) (d : List E) :
    Deep adm k (stableLoop m bs) (fun _ _ => True) d := by
  unfold stableLoop
  split
  · omega
  · split
    · refine Deep.bind ((mergePass_depth k m bs 0 (2 * bs) hbs (by omega) (by omega) hm hk d).mono
        (Nat.le_refl _) ?_)
      rintro r d1 ⟨r1, r2⟩
      dsimp only
      refine Deep.bind ((Deep.when fun hc => symMerge_depth k r (r + bs) m (by omega) hc (by omega) d1).mono
        (Nat.le_refl _) fun _ d2 _ => ?_)
      exact stableLoop_depth k m (bs * 2) hm (by omega) hk d2
    · exact Deep.pure trivial
termination_by (m - bs).toNat

theorem stableProg_depth (k : Nat) (d : List E) (hk : d.length ≤ 3 * 2 ^ k) :
    Deep adm k stableProg (fun _ _ => True) d := by
  have hk' : ((d.length : Nat) : Int) ≤ 3 * 2 ^ k := by exact_mod_cast hk
  have key : Deep adm k (stable (d.length : Int)) (fun _ _ => True) d := by
    unfold stable
    refine Deep.bind (((blockLoop_built _ _ _).flat.deep' k).mono (Nat.le_refl _) fun r d1 _ => ?_)
    refine Deep.bind (((insertionSort_built _ _).flat.deep' k).mono (Nat.le_refl _) fun _ d2 _ => ?_)
    exact stableLoop_depth k _ 20 (by omega) (by omega) hk' d2
  exact key

end Verif.Sort
