import Verif.Sort.Order

/-!
# Counting comparator calls

`cw adm m Q n d` says: in every run of `m` from the slice `d` in which each answer is admissible and
which ends normally, `Q` holds of the result, the slice and the number of comparator calls so far, if
there were `n` before.
-/

namespace Verif.Sort

variable {E α β : Type} [Inhabited E] {adm : Kind → E → E → Bool → Prop}
set_option linter.unusedSectionVars false

/-- See above, for decision trees. -/
def Prog.cw (adm : Kind → E → E → Bool → Prop) : Prog E α → (α → Nat → Prop) → Nat → Prop
  | .ret a, Q, n => Q a n
  | .fail _, _, _ => True
  | .note _ p, Q, n => p.cw adm Q n
  | .ask k x y _ next, Q, n => ∀ b, adm k x y b → (next b).cw adm Q (n + 1)

/-- See above. -/
def cw (adm : Kind → E → E → Bool → Prop) (m : M E α) (Q : α → List E → Nat → Prop) (n : Nat)
    (d : List E) : Prop := (m d).cw adm (fun p => Q p.1 p.2) n

theorem Prog.cw_bind (p : Prog E α) (f : α → Prog E β) (Q : β → Nat → Prop) (n : Nat) :
    (p.bind f).cw adm Q n ↔ p.cw adm (fun a n => (f a).cw adm Q n) n := by
  induction p generalizing n with
  | ret a => rfl
  | fail msg => rfl
  | note e p ih => exact ih n
  | ask k x y d next ih => simp only [Prog.bind, Prog.cw, ih]

theorem Prog.cw_mono {p : Prog E α} {Q Q' : α → Nat → Prop} {n : Nat} (h : p.cw adm Q n)
    (hq : ∀ a n, Q a n → Q' a n) : p.cw adm Q' n := by
  induction p generalizing n with
  | ret a => exact hq _ _ h
  | fail msg => trivial
  | note e p ih => exact ih h
  | ask k x y d next ih => exact fun b hb => ih b (h b hb)

theorem Prog.cw_wp {p : Prog E α} {P : α → Prop} {Q : α → Nat → Prop} {n : Nat} (h : p.wp adm P)
    (h' : p.cw adm Q n) : p.cw adm (fun a n => P a ∧ Q a n) n := by
  induction p generalizing n with
  | ret a => exact ⟨h, h'⟩
  | fail msg => trivial
  | note e p ih => exact ih h h'
  | ask k x y d next ih => exact fun b hb => ih b (h b hb) (h' b hb)

theorem Prog.cw_adm {adm' : Kind → E → E → Bool → Prop} {p : Prog E α} {Q : α → Nat → Prop} {n : Nat}
    (h : p.cw adm Q n) (ha : ∀ k x y b, adm' k x y b → adm k x y b) : p.cw adm' Q n := by
  induction p generalizing n with
  | ret a => exact h
  | fail msg => exact h
  | note e p ih => exact ih h
  | ask k x y d next ih => exact fun b hb => ih b (h b (ha _ _ _ _ hb))

theorem Prog.cw_exec {σ : Type} {cmp : σ → Kind → E → E → Bool × σ}
    (hc : ∀ s k x y, adm k x y (cmp s k x y).1) {p : Prog E α} {Q : α → Nat → Prop} {m : Nat}
    (h : p.cw adm Q m) (s : σ) {a : α} {s' : σ} {n : Nat} (he : p.exec cmp s = .ok (a, s', n)) :
    Q a (m + n) := by
  induction p generalizing s m n with
  | ret b =>
    simp only [Prog.exec, Except.ok.injEq, Prod.mk.injEq] at he
    obtain ⟨rfl, -, rfl⟩ := he
    exact h
  | fail msg => cases he
  | note e p ih => exact ih h s he
  | ask k x y d next ih =>
    simp only [Prog.exec] at he
    rcases hx : (next (cmp s k x y).1).exec cmp (cmp s k x y).2 with e | ⟨b, t, l⟩
    · rw [hx] at he; cases he
    · rw [hx] at he
      simp only [Except.ok.injEq, Prod.mk.injEq] at he
      obtain ⟨rfl, rfl, rfl⟩ := he
      have := ih _ (h _ (hc s k x y)) _ hx
      rwa [show m + (l + 1) = m + 1 + l by omega]

theorem cw_pure {a : α} {Q : α → List E → Nat → Prop} {n : Nat} {d : List E} :
    cw adm (pure a) Q n d ↔ Q a d n := Iff.rfl

theorem cw_bind {m : M E α} {f : α → M E β} {Q : β → List E → Nat → Prop} {n : Nat} {d : List E} :
    cw adm (m >>= f) Q n d ↔ cw adm m (fun a d n => cw adm (f a) Q n d) n d := by
  show ((m d).bind _).cw adm _ _ ↔ _
  rw [Prog.cw_bind]; rfl

theorem cw_mono {m : M E α} {Q Q' : α → List E → Nat → Prop} {n : Nat} {d : List E}
    (h : cw adm m Q n d) (hq : ∀ a d n, Q a d n → Q' a d n) : cw adm m Q' n d :=
  Prog.cw_mono h fun p => hq p.1 p.2

theorem cw_wp {m : M E α} {P : α → List E → Prop} {Q : α → List E → Nat → Prop} {n : Nat} {d : List E}
    (h : wp adm m P d) (h' : cw adm m Q n d) : cw adm m (fun a d n => P a d ∧ Q a d n) n d :=
  Prog.cw_wp h h'

theorem cw_recurse {m : M E Unit} {Q : Unit → List E → Nat → Prop} {n : Nat} {d : List E} :
    cw adm (recurse m) Q n d ↔ cw adm m Q n d := by
  show ((m d).bind fun p => (M.note .leave : M E Unit) p.2).cw adm _ n ↔ _
  rw [Prog.cw_bind]
  rfl

theorem cw_fail {msg : String} {Q : α → List E → Nat → Prop} {n : Nat} {d : List E} :
    cw adm (M.fail msg) Q n d := trivial

theorem cw_get {i : Int} {Q : E → List E → Nat → Prop} {n : Nat} {d : List E}
    (h : Q (el d i) d n) : cw adm (get i) Q n d := by
  unfold cw get
  split
  · exact h
  · trivial

theorem cw_swap {i j : Int} {Q : Unit → List E → Nat → Prop} {n : Nat} {d : List E}
    (h : Q () (swapL d i j) n) : cw adm (swap i j) Q n d := by
  unfold cw swap
  split
  · exact h
  · trivial

theorem cw_lessAt {i j : Int} {Q : Bool → List E → Nat → Prop} {n : Nat} {d : List E}
    (h : ∀ b, adm .lt (el d i) (el d j) b → Q b d (n + 1)) : cw adm (lessAt i j) Q n d := by
  unfold lessAt
  rw [cw_bind]
  refine cw_get ?_
  rw [cw_bind]
  refine cw_get ?_
  exact fun b hb => h b hb

theorem cw_nlessAt {i j : Int} {Q : Bool → List E → Nat → Prop} {n : Nat} {d : List E}
    (h : ∀ b, adm .nlt (el d i) (el d j) b → Q b d (n + 1)) : cw adm (nlessAt i j) Q n d := by
  unfold nlessAt
  rw [cw_bind]
  refine cw_get ?_
  rw [cw_bind]
  refine cw_get ?_
  exact fun b hb => h b hb

theorem cw_when {c : Prop} [Decidable c] {m : M E Unit} {Q : Unit → List E → Nat → Prop} {n : Nat}
    {d : List E} (h1 : c → cw adm m Q n d) (h2 : ¬ c → Q () d n) : cw adm (M.when c m) Q n d := by
  unfold M.when
  split
  · exact h1 ‹_›
  · exact h2 ‹_›

/-! ## Insertion sort -/

theorem insInner_cost (a j : Int) (haj : a ≤ j) (n : Nat) (d : List E) :
    cw adm (insInner a j) (fun _ _ n' => (n' : Int) ≤ n + (j - a)) n d := by
  unfold insInner
  split
  · rw [cw_bind]
    refine cw_lessAt fun b _ => ?_
    split
    · rw [cw_bind]
      refine cw_swap ?_
      exact cw_mono (insInner_cost a (j - 1) (by omega) _ _) fun _ _ n' h => by omega
    · rw [cw_pure]; omega
  · rw [cw_pure]; omega
termination_by (j - a).toNat

theorem insOuter_cost (L : Int) (h0 : 0 ≤ L) (a b i : Int) (hai : a ≤ i) (hL : b - a ≤ L + 1) (n : Nat)
    (d : List E) (hib : i ≤ b) :
    cw adm (insOuter a b i) (fun _ _ n' => (n' : Int) ≤ n + (b - i) * L) n d := by
  unfold insOuter
  split
  · rw [cw_bind]
    refine cw_mono (insInner_cost a i hai n d) fun _ d1 n1 h1 => ?_
    refine cw_mono (insOuter_cost L h0 a b (i + 1) (by omega) hL n1 d1 (by omega)) fun _ _ n' h => ?_
    have e : (b - i) * L = (b - (i + 1)) * L + L := by
      rw [show b - i = (b - (i + 1)) + 1 by omega, Int.add_mul]; omega
    omega
  · rw [cw_pure]
    have : b - i = 0 := by omega
    rw [this]; omega
termination_by (b - i).toNat

theorem insertionSort_cost (L : Int) (h0 : 0 ≤ L) (a b : Int) (hL : b - a ≤ L + 1) (n : Nat) (d : List E)
    (hab : a ≤ b) :
    cw adm (insertionSort a b) (fun _ _ n' => (n' : Int) ≤ n + (b - a) * L) n d := by
  unfold insertionSort
  by_cases h : a + 1 ≤ b
  · refine cw_mono (insOuter_cost L h0 a b (a + 1) (by omega) hL n d h) fun _ _ n' h => ?_
    have e : (b - a) * L = (b - (a + 1)) * L + L := by
      rw [show b - a = (b - (a + 1)) + 1 by omega, Int.add_mul]; omega
    omega
  · unfold insOuter
    rw [if_neg (by omega), cw_pure]
    have : b - a = 0 := by omega
    rw [this]; omega

/-! ## Heap sort -/

theorem siftDown_cost (k : Nat) (root hi first : Int) (h0 : 0 ≤ root) (hk : hi < (root + 1) * 2 ^ k)
    (n : Nat) (d : List E) :
    cw adm (siftDown root hi first) (fun _ _ n' => n' ≤ n + 2 * k) n d := by
  induction k generalizing root n d with
  | zero =>
    unfold siftDown
    rw [if_pos (by simp at hk; omega), cw_pure]; omega
  | succ k ih =>
    unfold siftDown
    split
    · rw [cw_pure]; omega
    · have hp : cw adm (pickChild (2 * root + 1) hi first)
          (fun r _ n' => n' ≤ n + 1 ∧ 2 * root + 1 ≤ r) n d := by
        unfold pickChild
        split
        · rw [cw_bind]
          refine cw_lessAt fun b _ => ?_
          split
          · rw [cw_pure]; omega
          · rw [cw_pure]; omega
        · rw [cw_pure]; omega
      rw [cw_bind]
      refine cw_mono hp fun c d1 n1 ⟨h1, h2⟩ => ?_
      split
      · rw [cw_bind]
        refine cw_nlessAt fun b _ => ?_
        split
        · rw [cw_pure]; omega
        · rw [cw_bind]
          refine cw_swap ?_
          refine cw_mono (ih c (by omega) ?_ _ _) fun _ _ n' h => by omega
          have e : (root + 1) * 2 ^ (k + 1) = (2 * (root + 1)) * 2 ^ k := by
            rw [Int.pow_succ, ← Int.mul_assoc, Int.mul_comm 2, Int.mul_assoc, Int.mul_assoc,
              Int.mul_comm 2]
          have : (2 * (root + 1)) * (2 : Int) ^ k ≤ (c + 1) * 2 ^ k :=
            Int.mul_le_mul_of_nonneg_right (by omega) (Int.le_of_lt (Int.pow_pos (by omega)))
          omega
      · exact cw_fail

theorem siftDown_cost' (k : Nat) (root hi first : Int) (h0 : 0 ≤ root) (hk : hi < 2 ^ k)
    (n : Nat) (d : List E) :
    cw adm (siftDown root hi first) (fun _ _ n' => n' ≤ n + 2 * k) n d := by
  refine siftDown_cost k root hi first h0 (Int.lt_of_lt_of_le hk ?_) n d
  have := Int.mul_le_mul_of_nonneg_right (show 1 ≤ root + 1 by omega)
    (show 0 ≤ (2 : Int) ^ k from Int.le_of_lt (Int.pow_pos (by omega)))
  rwa [Int.one_mul] at this

theorem heapBuild_cost (k : Nat) (i hi first : Int) (hk : hi < 2 ^ k) (hi1 : -1 ≤ i) (n : Nat) (d : List E) :
    cw adm (heapBuild i hi first) (fun _ _ n' => (n' : Int) ≤ n + (i + 1) * (2 * k)) n d := by
  unfold heapBuild
  split
  · rw [cw_bind]
    refine cw_mono (siftDown_cost' k i hi first (by omega) hk n d) fun _ d1 n1 h1 => ?_
    refine cw_mono (heapBuild_cost k (i - 1) hi first hk (by omega) n1 d1) fun _ _ n' h => ?_
    have e : (i + 1) * (2 * (k : Int)) = (i - 1 + 1) * (2 * k) + 2 * k := by
      rw [show i + 1 = (i - 1 + 1) + 1 by omega, Int.add_mul]; omega
    omega
  · rw [cw_pure]
    have : i + 1 = 0 := by omega
    rw [this]; omega
termination_by (i + 1).toNat

theorem heapPop_cost (k : Nat) (i first : Int) (hk : i < 2 ^ k) (hi1 : -1 ≤ i) (n : Nat) (d : List E) :
    cw adm (heapPop i first) (fun _ _ n' => (n' : Int) ≤ n + (i + 1) * (2 * k)) n d := by
  unfold heapPop
  split
  · rw [cw_bind]
    refine cw_swap ?_
    rw [cw_bind]
    refine cw_mono (siftDown_cost' k 0 i first (by omega) hk n _) fun _ d1 n1 h1 => ?_
    refine cw_mono (heapPop_cost k (i - 1) first (by omega) (by omega) n1 d1) fun _ _ n' h => ?_
    have e : (i + 1) * (2 * (k : Int)) = (i - 1 + 1) * (2 * k) + 2 * k := by
      rw [show i + 1 = (i - 1 + 1) + 1 by omega, Int.add_mul]; omega
    omega
  · rw [cw_pure]
    have : i + 1 = 0 := by omega
    rw [this]; omega
termination_by (i + 1).toNat

theorem heapSort_cost (k : Nat) (a b : Int) (hab : a < b) (hk : b - a < 2 ^ k) (n : Nat) (d : List E) :
    cw adm (heapSort a b) (fun _ _ n' => (n' : Int) ≤ n + (b - a) * (4 * k)) n d := by
  unfold heapSort
  dsimp only
  rw [cw_bind]
  refine cw_mono (heapBuild_cost k ((b - a - 1) / 2) (b - a) a hk (by omega) n d) fun _ d1 n1 h1 => ?_
  refine cw_mono (heapPop_cost k (b - a - 1) a (by omega) (by omega) n1 d1) fun _ _ n' h => ?_
  have e1 : ((b - a - 1) / 2 + 1) * (2 * (k : Int)) ≤ (b - a) * (2 * k) :=
    Int.mul_le_mul_of_nonneg_right (by omega) (by omega)
  have e2 : b - a - 1 + 1 = b - a := by omega
  rw [e2] at h
  have e3 : (b - a) * (4 * (k : Int)) = (b - a) * (2 * k) + (b - a) * (2 * k) := by
    rw [← Int.mul_add]; congr 1; omega
  omega

/-! ## Partition -/

theorem scanUp_cost (a j i : Int) (n : Nat) (d : List E) :
    cw adm (scanUp a j i) (fun r d' n' => d' = d ∧ i ≤ r ∧ (r = i ∨ r ≤ j + 1) ∧
      (n' : Int) ≤ n + (r - i) + 1 ∧ (j < i → n' = n)) n d := by
  unfold scanUp
  split
  · rw [cw_bind]
    refine cw_lessAt fun b _ => ?_
    split
    · refine cw_mono (scanUp_cost a j (i + 1) _ d) fun r _ n' ⟨h1, h2, h3, h4, h5⟩ => ?_
      refine ⟨h1, by omega, by omega, by omega, by omega⟩
    · rw [cw_pure]; exact ⟨rfl, by omega, by omega, by omega, by omega⟩
  · rw [cw_pure]; exact ⟨rfl, by omega, by omega, by omega, by omega⟩
termination_by (j + 1 - i).toNat

theorem scanDown_cost (a i j : Int) (n : Nat) (d : List E) :
    cw adm (scanDown a i j) (fun r d' n' => d' = d ∧ (r = j ∨ i - 1 ≤ r) ∧ r ≤ j ∧
      (n' : Int) ≤ n + (j - r) + 1 ∧ (r < i → (n' : Int) ≤ n + (j - r))) n d := by
  unfold scanDown
  split
  · rw [cw_bind]
    refine cw_nlessAt fun b _ => ?_
    split
    · refine cw_mono (scanDown_cost a i (j - 1) _ d) fun r _ n' ⟨h1, h2, h3, h4, h5⟩ => ?_
      refine ⟨h1, by omega, by omega, by omega, by omega⟩
    · rw [cw_pure]; exact ⟨rfl, by omega, by omega, by omega, by omega⟩
  · rw [cw_pure]; exact ⟨rfl, by omega, by omega, by omega, by omega⟩
termination_by (j + 1 - i).toNat

theorem partLoop_cost (fuel : Nat) (a i j : Int) (hij : i ≤ j + 2) (n : Nat) (d : List E) :
    cw adm (partLoop fuel a i j) (fun _ _ n' => (n' : Int) ≤ n + (j - i) + 2) n d := by
  induction fuel generalizing i j n d with
  | zero => exact cw_fail
  | succ fuel ih =>
    unfold partLoop
    rw [cw_bind]
    refine cw_mono (scanUp_cost a j i n d) fun i' d1 n1 ⟨h1, h2, h3, h4, h5⟩ => ?_
    rw [cw_bind]
    refine cw_mono (scanDown_cost a i' j n1 d1) fun j' d2 n2 ⟨g1, g2, g3, g4, g5⟩ => ?_
    split
    · rw [cw_bind]
      refine cw_swap ?_
      rw [cw_pure]
      have := g5 (by omega)
      by_cases hji : j < i
      · have := h5 hji; omega
      · omega
    · rw [cw_bind]
      refine cw_swap ?_
      refine cw_mono (ih (i' + 1) (j' - 1) (by omega) n2 _) fun _ _ n' h => by omega

theorem partition_cost (a b pivot : Int) (hab : a + 1 < b) (n : Nat) (d : List E) :
    cw adm (partition a b pivot) (fun _ _ n' => (n' : Int) ≤ n + (b - a)) n d := by
  unfold partition
  rw [cw_bind]
  refine cw_swap ?_
  rw [cw_bind]
  refine cw_mono (scanUp_cost a (b - 1) (a + 1) n _) fun i' d1 n1 ⟨h1, h2, h3, h4, h5⟩ => ?_
  rw [cw_bind]
  refine cw_mono (scanDown_cost a i' (b - 1) n1 d1) fun j' d2 n2 ⟨g1, g2, g3, g4, g5⟩ => ?_
  split
  · rw [cw_bind]
    refine cw_swap ?_
    rw [cw_pure]
    have := g5 (by omega)
    omega
  · rw [cw_bind]
    refine cw_swap ?_
    rw [cw_bind]
    refine cw_mono (partLoop_cost _ a (i' + 1) (j' - 1) (by omega) n2 _) fun _ _ n' h => ?_
    rw [cw_pure]; omega

theorem scanUpEq_cost (a j i : Int) (n : Nat) (d : List E) :
    cw adm (scanUpEq a j i) (fun r d' n' => d' = d ∧ i ≤ r ∧ (r = i ∨ r ≤ j + 1) ∧
      (n' : Int) ≤ n + (r - i) + 1 ∧ (j < i → n' = n)) n d := by
  unfold scanUpEq
  split
  · rw [cw_bind]
    refine cw_nlessAt fun b _ => ?_
    split
    · refine cw_mono (scanUpEq_cost a j (i + 1) _ d) fun r _ n' ⟨h1, h2, h3, h4, h5⟩ => ?_
      refine ⟨h1, by omega, by omega, by omega, by omega⟩
    · rw [cw_pure]; exact ⟨rfl, by omega, by omega, by omega, by omega⟩
  · rw [cw_pure]; exact ⟨rfl, by omega, by omega, by omega, by omega⟩
termination_by (j + 1 - i).toNat

theorem scanDownEq_cost (a i j : Int) (n : Nat) (d : List E) :
    cw adm (scanDownEq a i j) (fun r d' n' => d' = d ∧ (r = j ∨ i - 1 ≤ r) ∧ r ≤ j ∧
      (n' : Int) ≤ n + (j - r) + 1 ∧ (r < i → (n' : Int) ≤ n + (j - r))) n d := by
  unfold scanDownEq
  split
  · rw [cw_bind]
    refine cw_lessAt fun b _ => ?_
    split
    · refine cw_mono (scanDownEq_cost a i (j - 1) _ d) fun r _ n' ⟨h1, h2, h3, h4, h5⟩ => ?_
      refine ⟨h1, by omega, by omega, by omega, by omega⟩
    · rw [cw_pure]; exact ⟨rfl, by omega, by omega, by omega, by omega⟩
  · rw [cw_pure]; exact ⟨rfl, by omega, by omega, by omega, by omega⟩
termination_by (j + 1 - i).toNat

theorem partEqLoop_cost (fuel : Nat) (a i j : Int) (hij : i ≤ j + 2) (n : Nat) (d : List E) :
    cw adm (partEqLoop fuel a i j) (fun _ _ n' => (n' : Int) ≤ n + (j - i) + 2) n d := by
  induction fuel generalizing i j n d with
  | zero => exact cw_fail
  | succ fuel ih =>
    unfold partEqLoop
    rw [cw_bind]
    refine cw_mono (scanUpEq_cost a j i n d) fun i' d1 n1 ⟨h1, h2, h3, h4, h5⟩ => ?_
    rw [cw_bind]
    refine cw_mono (scanDownEq_cost a i' j n1 d1) fun j' d2 n2 ⟨g1, g2, g3, g4, g5⟩ => ?_
    split
    · rw [cw_pure]
      have := g5 (by omega)
      by_cases hji : j < i
      · have := h5 hji; omega
      · omega
    · rw [cw_bind]
      refine cw_swap ?_
      refine cw_mono (ih (i' + 1) (j' - 1) (by omega) n2 _) fun _ _ n' h => by omega

theorem partitionEqual_cost (a b pivot : Int) (hab : a + 1 < b) (n : Nat) (d : List E) :
    cw adm (partitionEqual a b pivot) (fun _ _ n' => (n' : Int) ≤ n + (b - a)) n d := by
  unfold partitionEqual
  rw [cw_bind]
  refine cw_swap ?_
  refine cw_mono (partEqLoop_cost _ a (a + 1) (b - 1) (by omega) n _) fun _ _ n' h => by omega

/-! ## Partial insertion sort -/

theorem scanSorted_cost (b i : Int) (n : Nat) (d : List E) :
    cw adm (scanSorted b i) (fun r _ n' => i ≤ r ∧ (n' : Int) ≤ n + (r - i) + 1) n d := by
  unfold scanSorted
  split
  · rw [cw_bind]
    refine cw_nlessAt fun c _ => ?_
    split
    · refine cw_mono (scanSorted_cost b (i + 1) _ d) fun r _ n' ⟨h1, h2⟩ => ⟨by omega, by omega⟩
    · rw [cw_pure]; exact ⟨by omega, by omega⟩
  · rw [cw_pure]; exact ⟨by omega, by omega⟩
termination_by (b - i).toNat

theorem shiftRight_cost (b j : Int) (hj : j ≤ b) (n : Nat) (d : List E) :
    cw adm (shiftRight b j) (fun _ _ n' => (n' : Int) ≤ n + (b - j)) n d := by
  unfold shiftRight
  split
  · rw [cw_bind]
    refine cw_nlessAt fun c _ => ?_
    split
    · rw [cw_pure]; omega
    · rw [cw_bind]
      refine cw_swap ?_
      exact cw_mono (shiftRight_cost b (j + 1) (by omega) _ _) fun _ _ n' h => by omega
  · rw [cw_pure]; omega
termination_by (b - j).toNat

variable {lt : E → E → Bool}

theorem shiftLeft_cost (a j hi : Int) (h0 : 0 ≤ a) (haj : a ≤ j) (hj : j < hi) (n : Nat)
    (d : List E) (h : Span d 0 hi) (hl : Low lt a hi d) :
    cw (exact lt) (shiftLeft j) (fun _ _ n' => (n' : Int) ≤ n + (j - a) + 1) n d := by
  unfold shiftLeft
  split
  · rw [cw_bind]
    have i1 := h.inR (k := j) (by omega) (by omega)
    have i2 := h.inR (k := j - 1) (by omega) (by omega)
    refine cw_nlessAt fun b hb => ?_
    split
    · rw [cw_pure]; omega
    · rename_i hbf
      have : b = false := by simpa using hbf
      subst this
      have hlt : lt (el d j) (el d (j - 1)) = true := by simpa [exact] using hb
      have haj' : a < j := by
        rcases Int.lt_or_eq_of_le haj with hh | hh
        · exact hh
        · subst hh
          have := hl (by omega) a (Int.le_refl _) hj
          unfold le at this; rw [hlt] at this; cases this
      rw [cw_bind]
      refine cw_swap ?_
      have w := Win.swap (lo := a) (hi := hi) i1 i2 (by omega) (by omega) (by omega) (by omega)
      exact cw_mono (shiftLeft_cost a (j - 1) hi h0 (by omega) (by omega) _ _ (h.win w)
        (hl.win w (Int.le_refl _))) fun _ _ n' h => by omega
  · rw [cw_pure]; omega
termination_by j.toNat

theorem partialLoop_cost (hw : StrictWeak lt) (m : Nat) (a b i : Int) (h0 : 0 ≤ a) (hai : a < i)
    (hib : i ≤ b) (n : Nat) (d : List E) (h : Span d 0 b) (hl : Low lt a b d) (hs : Sorted lt a i d) :
    cw (exact lt) (partialLoop m a b i)
      (fun _ _ n' => (n' : Int) ≤ n + (b - i) + m * (b - a + 1)) n d := by
  induction m generalizing i n d with
  | zero => unfold partialLoop; rw [cw_pure]; omega
  | succ m ih =>
    unfold partialLoop
    have e : ((m + 1 : Nat) : Int) * (b - a + 1) = m * (b - a + 1) + (b - a + 1) := by
      rw [Int.natCast_add, Int.add_mul]; omega
    have e0 : 0 ≤ (m : Int) * (b - a + 1) := Int.mul_nonneg (by omega) (by omega)
    rw [cw_bind]
    refine cw_mono (cw_wp (scanSorted_any a b i d (h.sub (by omega) (by omega)) hai hib)
      (scanSorted_cost b i n d)) ?_
    rintro i' d n1 ⟨⟨rfl, u1, u2, u3, -⟩, -, c1⟩
    have hs' : Sorted lt a i' d := by
      apply Sorted.of_adj hw
      intro k hk1 hk2
      by_cases hk : k < i
      · exact hs (k - 1) k (by omega) (by omega) hk
      · have := u3 k (by omega) hk2
        unfold le; simpa [exact] using this
    split
    · rw [cw_pure]; omega
    · split
      · rw [cw_pure]; omega
      · rw [cw_bind]
        have i1 := h.inR (k := i') (by omega) (by omega)
        have i2 := h.inR (k := i' - 1) (by omega) (by omega)
        refine cw_swap ?_
        have w := Win.swap (lo := a) (hi := b) i1 i2 (by omega) (by omega) (by omega) (by omega)
        have h1 := h.win w
        have hl1 := hl.win w (Int.le_refl _)
        have hs1 : ∀ p q, a ≤ p → p < q → q < i' → q ≠ i' - 1 →
            le lt (el (swapL d i' (i' - 1)) p) (el (swapL d i' (i' - 1)) q) := by
          intro p q hp hpq hq hne
          rw [el_swapL i1 i2, el_swapL i1 i2, if_neg (by omega), if_neg (by omega), if_neg (by omega),
            if_neg (by omega)]
          exact hs' p q hp hpq hq
        generalize swapL d i' (i' - 1) = d1 at *
        rw [cw_bind]
        have key : ∀ (n2 : Nat) (d2 : List E), (n2 : Int) ≤ n1 + (i' - a) → Win a b d d2 → Sorted lt a i' d2 →
            cw (exact lt) (M.when (b - i' ≥ 2) (shiftRight b (i' + 1)) >>=
            fun _ => partialLoop m a b i')
            (fun _ _ n' => (n' : Int) ≤ n + (b - i) + ((m + 1 : Nat) : Int) * (b - a + 1)) n2 d2 := by
          intro n2 d2 c2 w2 s2
          rw [cw_bind]
          have fin : ∀ (n3 : Nat) (d3 : List E), (n3 : Int) ≤ n2 + (b - i') → Win a b d d3 → Sorted lt a i' d3 →
              cw (exact lt) (partialLoop m a b i')
              (fun _ _ n' => (n' : Int) ≤ n + (b - i) + ((m + 1 : Nat) : Int) * (b - a + 1)) n3 d3 :=
            fun n3 d3 c3 w3 s3 => cw_mono (ih i' (by omega) (by omega) n3 d3 (h.win w3)
              (hl.win w3 (Int.le_refl _)) s3) fun _ _ n' h => by omega
          refine cw_when (fun hc => ?_) (fun _ => fin _ _ (by omega) w2 s2)
          refine cw_mono (cw_wp (shiftRight_any i' b (i' + 1) (by omega) d2
            ((h.win w2).sub (by omega) (by omega))) (shiftRight_cost b (i' + 1) (by omega) n2 d2)) ?_
          rintro _ d3 n3 ⟨w', c3⟩
          exact fin _ _ (by omega) (w2.trans (w'.mono (by omega) (Int.le_refl _)))
            (s2.frame w' (Or.inl (Int.le_refl _)))
        refine cw_when (fun hc => ?_) (fun hc => key _ _ (by omega) w (Sorted.trivial (by omega)))
        refine cw_mono (cw_wp (shiftLeft_sorted hw a (i' - 1) i' h0 (by omega) (by omega) d1
          (h1.sub (by omega) (by omega)) (fun p k q r => hl1 p k q (by omega)) hs1)
          (shiftLeft_cost a (i' - 1) i' h0 (by omega) (by omega) n1 d1
          (h1.sub (by omega) (by omega)) (fun p k q r => hl1 p k q (by omega)))) ?_
        rintro _ d2 n2 ⟨⟨w', s'⟩, c2⟩
        exact key _ _ (by omega) (w.trans (w'.mono (Int.le_refl _) (by omega))) s'

theorem tryPartial_cost (hw : StrictWeak lt) (c : Prop) [Decidable c] (a b : Int) (h0 : 0 ≤ a)
    (hab : a < b) (n : Nat) (d : List E) (h : Span d 0 b) (hl : Low lt a b d) :
    cw (exact lt) (tryPartial c a b) (fun _ _ n' => (n' : Int) ≤ n + 6 * (b - a) + 4) n d := by
  unfold tryPartial
  split
  · refine cw_mono (partialLoop_cost hw 5 a b (a + 1) h0 (by omega) (by omega) n d h hl
      (Sorted.trivial (by omega))) fun _ _ n' h => by omega
  · rw [cw_pure]; omega

/-! ## Choosing a pivot, and the rest -/

theorem order2_cost (a b : Int) (s n : Nat) (d : List E) :
    cw adm (order2 a b s) (fun _ _ n' => n' ≤ n + 1) n d := by
  unfold order2
  rw [cw_bind]
  refine cw_lessAt fun c _ => ?_
  split <;> · rw [cw_pure]; omega

theorem median_cost (a b c : Int) (s n : Nat) (d : List E) :
    cw adm (median a b c s) (fun _ _ n' => n' ≤ n + 3) n d := by
  unfold median
  rw [cw_bind]
  refine cw_mono (order2_cost _ _ _ _ _) fun p d1 n1 h1 => ?_
  rw [cw_bind]
  refine cw_mono (order2_cost _ _ _ _ _) fun q d2 n2 h2 => ?_
  rw [cw_bind]
  refine cw_mono (order2_cost _ _ _ _ _) fun r d3 n3 h3 => ?_
  rw [cw_pure]; omega

theorem choosePivot_cost (a b : Int) (n : Nat) (d : List E) :
    cw adm (choosePivot a b) (fun _ _ n' => n' ≤ n + 12) n d := by
  unfold choosePivot
  dsimp only
  rw [cw_bind]
  have key : ∀ l i j k, cw adm (pivotOf l i j k) (fun _ _ n' => n' ≤ n + 12) n d := by
    intro l i j k
    unfold pivotOf
    split
    · rw [cw_bind]
      have nin : cw adm (ninther l i j k) (fun _ _ n' => n' ≤ n + 9) n d := by
        unfold ninther
        split
        · unfold medianAdjacent
          rw [cw_bind]
          refine cw_mono (median_cost _ _ _ _ _ _) fun p d1 n1 h1 => ?_
          rw [cw_bind]
          refine cw_mono (median_cost _ _ _ _ _ _) fun q d2 n2 h2 => ?_
          rw [cw_bind]
          refine cw_mono (median_cost _ _ _ _ _ _) fun r d3 n3 h3 => ?_
          rw [cw_pure]; omega
        · rw [cw_pure]; omega
      refine cw_mono nin fun q d1 n1 h1 => ?_
      exact cw_mono (median_cost _ _ _ _ _ _) fun r d3 n3 h3 => by omega
    · rw [cw_pure]; omega
  refine cw_mono (key _ _ _ _) fun r d1 n1 h1 => ?_
  rw [cw_pure]; exact h1

theorem breakLoop_cost (m : Nat) (a l idx : Int) (r : BitVec 64) (n : Nat) (d : List E) :
    cw adm (breakLoop m a l idx r) (fun _ _ n' => n' = n) n d := by
  induction m generalizing idx r d with
  | zero => unfold breakLoop; rw [cw_pure]
  | succ m ih =>
    unfold breakLoop
    dsimp only
    rw [cw_bind]
    exact cw_swap (ih _ _ _)

theorem breakIfUnbalanced_cost (wb : Bool) (a b limit : Int) (n : Nat) (d : List E) :
    cw adm (breakIfUnbalanced wb a b limit)
      (fun r _ n' => n' = n ∧ r = if wb then limit else limit - 1) n d := by
  unfold breakIfUnbalanced
  split
  · rw [cw_pure]; simp_all
  · rename_i hw
    rw [cw_bind]
    have : cw adm (breakPatterns a b) (fun _ _ n' => n' = n) n d := by
      unfold breakPatterns
      dsimp only
      split
      · exact breakLoop_cost _ _ _ _ _ _ _
      · rw [cw_pure]
    refine cw_mono this fun _ d1 n1 h1 => ?_
    rw [cw_pure]; exact ⟨h1, by simp⟩

theorem revLoop_cost (i j : Int) (n : Nat) (d : List E) :
    cw adm (revLoop i j) (fun _ _ n' => n' = n) n d := by
  unfold revLoop
  split
  · rw [cw_bind]
    exact cw_swap (revLoop_cost _ _ _ _)
  · rw [cw_pure]
termination_by (j - i).toNat

theorem reverseIfDecreasing_cost (a b pivot : Int) (hint : Hint) (n : Nat) (d : List E) :
    cw adm (reverseIfDecreasing a b pivot hint) (fun _ _ n' => n' = n) n d := by
  unfold reverseIfDecreasing
  split
  · rw [cw_bind]
    exact cw_mono (revLoop_cost _ _ _ _) fun _ _ n' h => h
  · rw [cw_pure]

theorem manyEqual_cost (a pivot : Int) (n : Nat) (d : List E) :
    cw adm (manyEqual a pivot) (fun _ _ n' => n' ≤ n + 1) n d := by
  unfold manyEqual
  split
  · exact cw_nlessAt fun b _ => by omega
  · rw [cw_pure]; omega

/-! ## pdqsort -/

/-- The element before the window (if any) is less than everything in the window. -/
def SLow (lt : E → E → Bool) (a b : Int) (d : List E) : Prop :=
  0 < a → ∀ k, a ≤ k → k < b → lt (el d (a - 1)) (el d k) = true

theorem SLow.win {a b : Int} {d d' : List E} (h : SLow lt a b d) (w : Win a b d d') :
    SLow lt a b d' := by
  intro h0 k hk1 hk2
  rw [w.frame (a - 1) (by omega)]
  exact w.pres (fun x => lt (el d (a - 1)) x = true) (h h0) k hk1 hk2

/-- A window of size `s` can be shrunk to seven eighths at most `k` times. -/
def Fits (s : Int) (k : Nat) : Prop := (s - 7) * 7 ^ k ≤ 8 ^ k

theorem Fits.mono {s s' : Int} {k : Nat} (h : Fits s k) (hs : s' ≤ s) : Fits s' k := by
  unfold Fits at *
  have := Int.mul_le_mul_of_nonneg_right (show s' - 7 ≤ s - 7 by omega)
    (show 0 ≤ (7 : Int) ^ k from Int.le_of_lt (Int.pow_pos (by omega)))
  omega

theorem Fits.pos {s : Int} {k : Nat} (h : Fits s k) (hs : 12 < s) : 0 < k := by
  rcases k with _ | k
  · unfold Fits at h; simp at h; omega
  · omega

theorem Fits.step {s s' : Int} {k : Nat} (h : Fits s (k + 1)) (hs : 8 * s' ≤ 7 * s + 7) : Fits s' k := by
  unfold Fits at *
  rw [Int.pow_succ, Int.pow_succ] at h
  have e : (s - 7) * (7 ^ k * 7) = (7 * (s - 7)) * 7 ^ k := by
    rw [Int.mul_comm (7 ^ k) 7, ← Int.mul_assoc, Int.mul_comm (s - 7) 7]
  have := Int.mul_le_mul_of_nonneg_right (show 8 * (s' - 7) ≤ 7 * (s - 7) by omega)
    (show 0 ≤ (7 : Int) ^ k from Int.le_of_lt (Int.pow_pos (by omega)))
  rw [Int.mul_assoc] at this
  omega

/-- `1` for true. -/
def b2n (b : Bool) : Nat := if b then 1 else 0

/-- Adding up: one pass over `s` elements, then the parts. -/
theorem sum_parts {s x y W : Int} (t : Nat) (hW : 0 ≤ W) (hs : x + y ≤ s) :
    9 * s + x * (9 * t + W) + y * (9 * t + W) ≤ s * (9 * (t + 1 : Nat) + W) := by
  have e : s * (9 * ((t + 1 : Nat) : Int) + W) = s * (9 * t + W) + s * 9 := by
    rw [← Int.mul_add]; congr 1; omega
  have := Int.mul_le_mul_of_nonneg_right hs (show 0 ≤ 9 * (t : Int) + W by omega)
  rw [Int.add_mul] at this
  omega

theorem pdqsort_cost (hw : StrictWeak lt) (K : Nat) (fuel : Nat) (t k lim : Nat) (a b : Int) (wb wp' : Bool)
    (hf : b - a < fuel) (h0 : 0 ≤ a) (hab : a ≤ b) (hK : b - a < 2 ^ K) (hk : Fits (b - a) k)
    (n : Nat) (d : List E) (h : Span d 0 b) (hl : Low lt a b d)
    (ht : (SLow lt a b d ∧ 2 * (k + lim + b2n wb) ≤ t) ∨ 2 * (k + lim + b2n wb) + 1 ≤ t) :
    cw (exact lt) (pdqsort fuel a b lim wb wp')
      (fun _ _ n' => (n' : Int) ≤ n + (b - a) * (9 * t + (4 * K + 11))) n d := by
  induction fuel generalizing t k lim a b wb wp' n d with
  | zero => omega
  | succ fuel ih =>
    unfold pdqsort
    dsimp only
    have ha : ∀ d : List E, Span d 0 b → Span d a b := fun d h => h.sub h0 (Int.le_refl _)
    have h11 : (b - a) * 11 ≤ (b - a) * (9 * t + (4 * K + 11)) :=
      Int.mul_le_mul_of_nonneg_left (by omega) (by omega)
    have h4K : (b - a) * (4 * K) ≤ (b - a) * (9 * t + (4 * K + 11)) :=
      Int.mul_le_mul_of_nonneg_left (by omega) (by omega)
    split
    · exact cw_mono (insertionSort_cost 11 (by omega) a b (by omega) n d hab) fun _ _ n' h => by omega
    · split
      · exact cw_mono (heapSort_cost K a b (by omega) hK n d) fun _ _ n' h => by omega
      · rename_i hlen hlim
        obtain ⟨k, rfl⟩ : ∃ k', k = k' + 1 := ⟨k - 1, by have := hk.pos (by omega); omega⟩
        obtain ⟨t, rfl⟩ : ∃ t', t = t' + 1 := ⟨t - 1, by omega⟩
        rw [cw_bind]
        refine cw_mono (cw_wp (breakIfUnbalanced_any wb a b lim d (ha d h))
          (breakIfUnbalanced_cost wb a b lim n d)) ?_
        rintro limit d1 n1 ⟨w1, c1, hlimit⟩
        obtain ⟨lim', rfl, hlim'⟩ : ∃ lim' : Nat, limit = lim' ∧ lim' + 1 = lim + b2n wb := by
          cases wb
          · exact ⟨lim - 1, by simp at hlimit; omega, by simp [b2n]; omega⟩
          · exact ⟨lim, by simpa using hlimit, by simp [b2n]⟩
        have h1 := h.win w1
        rw [cw_bind]
        refine cw_mono (cw_wp (choosePivot_any a b d1 (ha _ h1) (by omega)) (choosePivot_cost a b n1 d1)) ?_
        rintro ph d1 n2 ⟨⟨rfl, p1, p2⟩, c2⟩
        rw [cw_bind]
        refine cw_mono (cw_wp (reverseIfDecreasing_any a b ph.1 ph.2 d1 (ha _ h1) p1 p2)
          (reverseIfDecreasing_cost a b ph.1 ph.2 n2 d1)) ?_
        rintro ph d2 n3 ⟨⟨w2, p1, p2⟩, c3⟩
        have w2 := w1.trans w2
        have h2 := h.win w2
        rw [cw_bind]
        refine cw_mono (cw_wp (tryPartial_sorted hw _ a b h0 (by omega) d2 h2 (hl.win w2 (Int.le_refl _)))
          (tryPartial_cost hw _ a b h0 (by omega) n3 d2 h2 (hl.win w2 (Int.le_refl _)))) ?_
        rintro done d3 n4 ⟨⟨w3, -⟩, c4⟩
        have w3 := w2.trans w3
        have h3 := h.win w3
        have hl3 := hl.win w3 (Int.le_refl _)
        have hzero := sum_parts (s := b - a) (x := 0) (y := 0) (W := 4 * K + 11) t (by omega) (by omega)
        split
        · rw [cw_pure]; omega
        · rw [cw_bind]
          refine cw_mono (cw_wp (manyEqual_any a b ph.1 d3 h3 p1 p2) (manyEqual_cost a ph.1 n4 d3)) ?_
          rintro eq d3 n5 ⟨⟨rfl, he⟩, c5⟩
          split
          · rename_i heq
            obtain ⟨hapos, hnlt⟩ := he heq
            have hple : le lt (el d3 ph.1) (el d3 (a - 1)) := by
              unfold le; simpa [exact] using hnlt
            have ht : 2 * (k + 1 + lim + b2n wb) + 1 ≤ t + 1 := by
              rcases ht with ⟨hs, -⟩ | ht
              · have := (hs.win w3) hapos ph.1 p1 p2
                unfold le at hple; rw [this] at hple; cases hple
              · exact ht
            rw [cw_bind]
            refine cw_mono (cw_wp (partitionEqual_any a b ph.1 _ (ha _ h3) p1 p2 (by omega))
              (partitionEqual_cost a b ph.1 (by omega) n5 _)) ?_
            rintro mid d4 n6 ⟨⟨w4, q1, q2, q3, q4, q5⟩, c6⟩
            have hl4 := hl3.win w4 (Int.le_refl _)
            have w34 := w3.trans w4
            generalize el d3 ph.1 = p at *
            have hle : ∀ k, a ≤ k → k < mid → le lt (el d4 k) p := by
              intro k hk1 hk2
              by_cases hk : k = a
              · subst hk; rw [q3]; exact hw.le_refl _
              · exact saysNlt_exact (q4 k (by omega) hk2)
            have hsl : SLow lt mid b d4 := by
              intro _ k hk1 hk2
              exact hw.lt_of_le_lt (hle (mid - 1) (by omega) (by omega)) (saysLt_exact (q5 k hk1 hk2))
            refine cw_mono (ih t (k + 1) lim' mid b _ _ (by omega) (by omega) (by omega) (by omega)
              (hk.mono (by omega)) n6 d4 (h.win w34)
              (fun h0 k h1 h2 => hw.le_of_lt (hsl h0 k h1 h2)) (Or.inl ⟨hsl, ?_⟩)) fun _ _ n' h => ?_
            · omega
            · have := sum_parts (s := b - a) (x := b - mid) (y := 0) (W := 4 * K + 11) t (by omega) (by omega)
              omega
          · have ht : 2 * (k + 1 + lim + b2n wb) ≤ t + 1 := by
              rcases ht with ⟨-, ht⟩ | ht <;> omega
            rw [cw_bind]
            refine cw_mono (cw_wp (partition_any a b ph.1 _ (ha _ h3) p1 p2)
              (partition_cost a b ph.1 (by omega) n5 _)) ?_
            rintro mp d4 n6 ⟨⟨w4, q1, q2, q3, q4, q5⟩, c6⟩
            have hl4 := hl3.win w4 (Int.le_refl _)
            have w34 := w3.trans w4
            have h4 := h.win w34
            generalize el d3 ph.1 = p at *
            have hrr : ∀ k, mp.1 + 1 ≤ k → k < b → le lt p (el d4 k) :=
              fun k h1 h2 => saysNlt_exact (q5 k (by omega) h2)
            have lowR : ∀ d5, Win a mp.1 d4 d5 ∨ d5 = d4 → Low lt (mp.1 + 1) b d5 := by
              intro d5 hd5 _ k hk1 hk2
              have e : mp.1 + 1 - 1 = mp.1 := by omega
              rw [e]
              rcases hd5 with w5 | rfl
              · rw [w5.frame _ (by omega), w5.frame _ (by omega), q3]; exact hrr k hk1 hk2
              · rw [q3]; exact hrr k hk1 hk2
            have lowL : ∀ d5, Win (mp.1 + 1) b d4 d5 ∨ d5 = d4 → Low lt a mp.1 d5 := by
              intro d5 hd5 hpos k hk1 hk2
              rcases hd5 with w5 | rfl
              · rw [w5.frame _ (by omega), w5.frame _ (by omega)]; exact hl4 hpos k hk1 (by omega)
              · exact hl4 hpos k hk1 (by omega)
            have hsum := sum_parts (s := b - a) (x := mp.1 - a) (y := b - (mp.1 + 1)) (W := 4 * K + 11) t
              (by omega) (by omega)
            -- the larger part either is small enough or costs a unit of the limit
            have big : ∀ x y : Int, x ≤ b - a → 8 * x ≤ 7 * (b - a) + 7 ∨ ¬ y ≥ (b - a) / 8 →
                ∃ k', Fits x k' ∧ k' + b2n (decide (y ≥ (b - a) / 8)) ≤ k + 1 := by
              intro x y hx hxy
              by_cases hb : y ≥ (b - a) / 8
              · refine ⟨k, hk.step (by omega), by simp [b2n, hb]⟩
              · exact ⟨k + 1, hk.mono hx, by simp [b2n, hb]⟩
            split
            · rw [cw_bind, cw_recurse]
              refine cw_mono (cw_wp (pdqsort_sorted hw fuel a mp.1 lim' true true (by omega) (by omega) h0
                (by omega) d4 (h4.sub (by omega) (by omega)) (lowL d4 (Or.inr rfl)))
                (ih t k lim' a mp.1 true true (by omega) h0 (by omega) (by omega)
                  (hk.step (by omega)) n6 d4 (h4.sub (by omega) (by omega)) (lowL d4 (Or.inr rfl))
                  (Or.inr (by simp only [b2n, if_true]; omega)))) ?_
              rintro _ d5 n7 ⟨hd5, c7⟩
              obtain ⟨k', hk', hk2⟩ := big (b - (mp.1 + 1)) (mp.1 - a) (by omega) (by omega)
              refine cw_mono (ih t k' lim' (mp.1 + 1) b _ _ (by omega) (by omega) (by omega) (by omega)
                hk' n7 d5 (h4.win hd5.1) (lowR d5 (Or.inl hd5.1))
                (Or.inr ?_)) fun _ _ n' h => ?_
              · omega
              · omega
            · rw [cw_bind, cw_recurse]
              refine cw_mono (cw_wp (pdqsort_sorted hw fuel (mp.1 + 1) b lim' true true (by omega) (by omega)
                (by omega) (by omega) d4 h4 (lowR d4 (Or.inr rfl)))
                (ih t k lim' (mp.1 + 1) b true true (by omega) (by omega) (by omega) (by omega)
                  (hk.step (by omega)) n6 d4 h4 (lowR d4 (Or.inr rfl))
                  (Or.inr (by simp only [b2n, if_true]; omega)))) ?_
              rintro _ d5 n7 ⟨hd5, c7⟩
              obtain ⟨k', hk', hk2⟩ := big (mp.1 - a) (b - mp.1) (by omega) (by omega)
              refine cw_mono (ih t k' lim' a mp.1 _ _ (by omega) (by omega) (by omega) (by omega)
                hk' n7 d5 ((h4.win hd5.1).sub (by omega) (by omega)) (lowL d5 (Or.inl hd5.1))
                (Or.inr ?_)) fun _ _ n' h => ?_
              · omega
              · omega

theorem lt_two_pow_bitsLen (n : Nat) : n < 2 ^ bitsLen n := by
  unfold bitsLen
  split
  · omega
  · exact Nat.lt_log2_self

theorem fits_bitsLen (n L : Nat) (h : n < 2 ^ L) : Fits n (6 * L) := by
  unfold Fits
  have h2 : (2 : Int) ^ L * 7 ^ (6 * L) ≤ 8 ^ (6 * L) := by
    have h : 2 ^ L * 7 ^ (6 * L) ≤ 8 ^ (6 * L) := by
      rw [Nat.pow_mul, Nat.pow_mul, ← Nat.mul_pow]
      exact Nat.pow_le_pow_left (by omega) _
    exact_mod_cast h
  have h3 : ((n : Int) - 7) * 7 ^ (6 * L) ≤ 2 ^ L * 7 ^ (6 * L) :=
    Int.mul_le_mul_of_nonneg_right (by
      have : (n : Int) < 2 ^ L := by exact_mod_cast h
      omega) (Int.le_of_lt (Int.pow_pos (by omega)))
  omega

/-- `pdqsort` asks at most `130·L + 29` questions per element, `L` being `bits.Len(len(data))`. -/
theorem sortProg_cost (hw : StrictWeak lt) (d : List E) :
    cw (exact lt) sortProg (fun _ _ n => n ≤ d.length * (130 * bitsLen d.length + 29)) 0 d := by
  have hlt := lt_two_pow_bitsLen d.length
  have := pdqsort_cost hw (bitsLen d.length) (d.length + 1) (14 * bitsLen d.length + 2)
    (6 * bitsLen d.length) (bitsLen d.length) 0 d.length true true (by omega) (by omega) (by omega)
    (by have : ((d.length : Nat) : Int) < 2 ^ bitsLen d.length := by exact_mod_cast hlt
        omega)
    (by have := fits_bitsLen _ _ hlt; simpa using this) 0 d ⟨by omega, by omega⟩ (fun h => by omega)
    (Or.inl ⟨fun h => by omega, by simp only [b2n, if_true]; omega⟩)
  refine cw_mono (Q := fun _ _ n => (n : Int) ≤ (0 : Nat) + ((d.length : Int) - 0) *
    (9 * (14 * bitsLen d.length + 2 : Nat) + (4 * (bitsLen d.length) + 11))) this ?_
  intro _ _ n hn
  have e : ((d.length : Int) - 0) * (9 * ((14 * bitsLen d.length + 2 : Nat) : Int) +
      (4 * (bitsLen d.length : Int) + 11)) = ((d.length * (130 * bitsLen d.length + 29) : Nat) : Int) := by
    push_cast
    rw [Int.sub_zero]
    congr 1
    omega
  omega

end Verif.Sort
