import Verif.Sort.EventProps

/-!
# Property C115: sorting looks at elements only through the comparator

Two runs of a sort, on slices of different element types even, with comparators that give the same answers, do the
same: the same comparisons, exchanges and recursive calls, in the same order. So the place an element ends up at
depends on nothing but the comparator's answers.

`Alike R m m'`: on slices whose elements are related by `R`, place by place, the programs `m` and `m'` are the same
but for the elements. All functions of the sorting package are alike themselves.
-/

namespace Verif.Sort

variable {E F : Type} [Inhabited E] [Inhabited F] {R : E → F → Prop} {α β : Type}
set_option linter.unusedSectionVars false

/-- Two slices of the same length, whose elements are related place by place. -/
def Places (R : E → F → Prop) (d : List E) (d' : List F) : Prop :=
  d.length = d'.length ∧ ∀ (i : Nat) (h : i < d.length) (h' : i < d'.length), R (d[i]'h) (d'[i]'h')

/-- The same decision tree but for the elements, which are related. -/
def Prog.Same (R : E → F → Prop) (Q : α → β → Prop) : Prog E α → Prog F β → Prop
  | .ret a, .ret a' => Q a a'
  | .fail msg, .fail msg' => msg = msg'
  | .note e p, .note e' p' => e = e' ∧ p.Same R Q p'
  | .ask k x y d next, .ask k' x' y' d' next' =>
    k = k' ∧ R x x' ∧ R y y' ∧ Places R d d' ∧ ∀ b, (next b).Same R Q (next' b)
  | _, _ => False

/-- Equal results, and related slices. -/
def Ends (R : E → F → Prop) (p : α × List E) (p' : α × List F) : Prop := p.1 = p'.1 ∧ Places R p.2 p'.2

/-- See above. -/
structure Alike (R : E → F → Prop) (m : M E α) (m' : M F α) : Prop where
  /-- from related slices -/
  same : ∀ d d', Places R d d' → (m d).Same R (Ends R) (m' d')

theorem Prog.Same.bind {α' β' : Type} {Q : α → β → Prop} {Q' : α' → β' → Prop} {p : Prog E α} {p' : Prog F β}
    {f : α → Prog E α'} {f' : β → Prog F β'} (h : p.Same R Q p') (hf : ∀ a b, Q a b → (f a).Same R Q' (f' b)) :
    (p.bind f).Same R Q' (p'.bind f') := by
  induction p generalizing p' with
  | ret a => cases p' <;> first | exact hf _ _ h | exact h.elim
  | fail msg => cases p' <;> first | exact h | exact h.elim
  | note e p ih => cases p' <;> first | exact ⟨h.1, ih h.2⟩ | exact h.elim
  | ask k x y d next ih =>
    cases p' <;> first | exact ⟨h.1, h.2.1, h.2.2.1, h.2.2.2.1, fun b => ih b (h.2.2.2.2 b)⟩ | exact h.elim

theorem Alike.pure (a : α) : Alike R (Pure.pure a : M E α) (Pure.pure a : M F α) := ⟨fun _ _ h => ⟨rfl, h⟩⟩

theorem Alike.fail (msg : String) : Alike R (M.fail msg : M E α) (M.fail msg : M F α) := ⟨fun _ _ _ => rfl⟩

theorem Alike.bind {m : M E α} {m' : M F α} {f : α → M E β} {f' : α → M F β} (h : Alike R m m')
    (hf : ∀ a, Alike R (f a) (f' a)) : Alike R (m >>= f) (m' >>= f') := by
  refine ⟨fun d d' hd => ?_⟩
  refine Prog.Same.bind (h.same d d' hd) ?_
  rintro ⟨a, e⟩ ⟨a', e'⟩ ⟨rfl, he⟩
  exact (hf a).same e e' he

theorem places_el {d : List E} {d' : List F} (h : Places R d d') {i : Int} (hi : inRange d i) :
    inRange d' i ∧ R (el d i) (el d' i) := by
  obtain ⟨h0, h1⟩ := hi
  have h1' : i < d'.length := by rw [← h.1]; exact h1
  refine ⟨⟨h0, h1'⟩, ?_⟩
  have a : i.toNat < d.length := by omega
  have a' : i.toNat < d'.length := by omega
  simp only [el, h0, if_true, List.getD_eq_getElem?_getD, List.getElem?_eq_getElem a, List.getElem?_eq_getElem a',
    Option.getD_some]
  exact h.2 _ a a'

theorem places_range {d : List E} {d' : List F} (h : Places R d d') (i : Int) : inRange d i ↔ inRange d' i := by
  unfold inRange; rw [h.1]

/-- Two elements are compared. -/
theorem Alike.compare (k : Kind) (i j : Int) :
    Alike R (get i >>= fun x => get j >>= fun y => ask k x y : M E Bool)
      (get i >>= fun x => get j >>= fun y => ask k x y : M F Bool) := by
  refine ⟨fun d d' hd => ?_⟩
  by_cases hi : inRange d i
  · obtain ⟨hi', ri⟩ := places_el hd hi
    by_cases hj : inRange d j
    · obtain ⟨hj', rj⟩ := places_el hd hj
      simp only [Bind.bind, get, hi, hi', hj, hj', if_true, Prog.bind, ask]
      exact ⟨rfl, ri, rj, hd, fun b => ⟨rfl, hd⟩⟩
    · have hj' : ¬ inRange d' j := fun c => hj ((places_range hd j).2 c)
      simp only [Bind.bind, get, hi, hi', hj, hj', if_true, if_false, Prog.bind]
      rfl
  · have hi' : ¬ inRange d' i := fun c => hi ((places_range hd i).2 c)
    simp only [Bind.bind, get, hi, hi', if_false, Prog.bind]
    rfl

theorem Alike.lessAt (i j : Int) : Alike R (lessAt i j : M E Bool) (lessAt i j : M F Bool) := Alike.compare .lt i j

theorem Alike.nlessAt (i j : Int) : Alike R (nlessAt i j : M E Bool) (nlessAt i j : M F Bool) := Alike.compare .nlt i j

theorem places_set {d : List E} {d' : List F} (h : Places R d d') (i : Nat) {x : E} {x' : F} (hx : R x x') :
    Places R (d.set i x) (d'.set i x') := by
  refine ⟨by simp [h.1], ?_⟩
  intro j hj hj'
  rw [List.getElem_set, List.getElem_set]
  split
  · exact hx
  · exact h.2 _ _ _

theorem Alike.swap (i j : Int) : Alike R (swap i j : M E Unit) (swap i j : M F Unit) := by
  refine ⟨fun d d' hd => ?_⟩
  unfold Sort.swap
  by_cases hij : inRange d i ∧ inRange d j
  · obtain ⟨hi', ri⟩ := places_el hd hij.1
    obtain ⟨hj', rj⟩ := places_el hd hij.2
    rw [if_pos hij, if_pos ⟨hi', hj'⟩]
    exact ⟨rfl, rfl, places_set (places_set hd _ rj) _ ri⟩
  · have hij' : ¬ (inRange d' i ∧ inRange d' j) := fun c =>
      hij ⟨(places_range hd i).2 c.1, (places_range hd j).2 c.2⟩
    rw [if_neg hij, if_neg hij']
    rfl

theorem Alike.recurse {m : M E Unit} {m' : M F Unit} (h : Alike R m m') : Alike R (recurse m) (recurse m') := by
  have note : ∀ e, Alike R (M.note e : M E Unit) (M.note e : M F Unit) := fun e => ⟨fun d d' hd => ⟨rfl, rfl, hd⟩⟩
  exact Alike.bind (note .enter) fun _ => Alike.bind h fun _ => note .leave

theorem Alike.length {f : Nat → M E α} {f' : Nat → M F α} (h : ∀ n, Alike R (f n) (f' n)) :
    Alike R (fun d => f d.length d) (fun d => f' d.length d) := by
  refine ⟨fun d d' hd => ?_⟩
  have := (h d.length).same d d' hd
  simp only [hd.1] at this ⊢
  exact this

theorem Alike.when {c : Prop} [Decidable c] {m : M E Unit} {m' : M F Unit} (h : Alike R m m') :
    Alike R (M.when c m) (M.when c m') := by
  unfold M.when; split
  · exact h
  · exact Alike.pure ()

/-- Descend through two programs; leaves the calls for which no lemma is known. -/
macro "alike_step" : tactic =>
  `(tactic| repeat' first
    | intro _
    | exact Alike.pure _
    | exact Alike.fail _
    | exact Alike.lessAt _ _
    | exact Alike.nlessAt _ _
    | exact Alike.swap _ _
    | assumption
    | with_reducible apply Alike.when
    | with_reducible apply Alike.bind
    | split)

theorem insInner_alike (a j : Int) : Alike R (insInner a j : M E Unit) (insInner a j : M F Unit) := by
  unfold insInner; alike_step
  exact insInner_alike a (j - 1)
termination_by (j - a).toNat

theorem insOuter_alike (a b i : Int) : Alike R (insOuter a b i : M E Unit) (insOuter a b i : M F Unit) := by
  have h := insInner_alike (R := R) a i
  unfold insOuter; alike_step
  exact insOuter_alike a b (i + 1)
termination_by (b - i).toNat

theorem insertionSort_alike (a b : Int) : Alike R (insertionSort a b : M E Unit) (insertionSort a b : M F Unit) := insOuter_alike ..

theorem pickChild_alike (c hi f : Int) : Alike R (pickChild c hi f : M E Int) (pickChild c hi f : M F Int) := by
  unfold pickChild; alike_step

theorem siftDown_alike (root hi first : Int) : Alike R (siftDown root hi first : M E Unit) (siftDown root hi first : M F Unit) := by
  have h := pickChild_alike (R := R) (2 * root + 1) hi first
  unfold siftDown; alike_step
  exact siftDown_alike _ hi first
termination_by (hi - root).toNat

theorem heapBuild_alike (i hi first : Int) : Alike R (heapBuild i hi first : M E Unit) (heapBuild i hi first : M F Unit) := by
  have h := siftDown_alike (R := R) i hi first
  unfold heapBuild; alike_step
  exact heapBuild_alike _ hi first
termination_by (i + 1).toNat

theorem heapPop_alike (i first : Int) : Alike R (heapPop i first : M E Unit) (heapPop i first : M F Unit) := by
  have h := siftDown_alike (R := R) 0 i first
  unfold heapPop; alike_step
  exact heapPop_alike _ first
termination_by (i + 1).toNat

theorem heapSort_alike (a b : Int) : Alike R (heapSort a b : M E Unit) (heapSort a b : M F Unit) := by
  unfold heapSort; alike_step
  · exact heapBuild_alike ..
  · exact heapPop_alike ..

theorem scanUp_alike (a j i : Int) : Alike R (scanUp a j i : M E Int) (scanUp a j i : M F Int) := by
  unfold scanUp; alike_step
  exact scanUp_alike a j _
termination_by (j + 1 - i).toNat

theorem scanDown_alike (a i j : Int) : Alike R (scanDown a i j : M E Int) (scanDown a i j : M F Int) := by
  unfold scanDown; alike_step
  exact scanDown_alike a i _
termination_by (j + 1 - i).toNat

theorem partLoop_alike (n : Nat) (a i j : Int) : Alike R (partLoop n a i j : M E Int) (partLoop n a i j : M F Int) := by
  induction n generalizing i j with
  | zero => exact Alike.fail _
  | succ n ih =>
    unfold partLoop
    alike_step
    · exact scanUp_alike ..
    · exact scanDown_alike ..
    · exact ih ..

theorem partition_alike (a b p : Int) : Alike R (partition a b p : M E (Int × Bool)) (partition a b p : M F (Int × Bool)) := by
  unfold partition; alike_step
  · exact scanUp_alike ..
  · exact scanDown_alike ..
  · exact partLoop_alike ..

theorem scanUpEq_alike (a j i : Int) : Alike R (scanUpEq a j i : M E Int) (scanUpEq a j i : M F Int) := by
  unfold scanUpEq; alike_step
  exact scanUpEq_alike a j _
termination_by (j + 1 - i).toNat

theorem scanDownEq_alike (a i j : Int) : Alike R (scanDownEq a i j : M E Int) (scanDownEq a i j : M F Int) := by
  unfold scanDownEq; alike_step
  exact scanDownEq_alike a i _
termination_by (j + 1 - i).toNat

theorem partEqLoop_alike (n : Nat) (a i j : Int) : Alike R (partEqLoop n a i j : M E Int) (partEqLoop n a i j : M F Int) := by
  induction n generalizing i j with
  | zero => exact Alike.fail _
  | succ n ih =>
    unfold partEqLoop
    alike_step
    · exact scanUpEq_alike ..
    · exact scanDownEq_alike ..
    · exact ih ..

theorem partitionEqual_alike (a b p : Int) : Alike R (partitionEqual a b p : M E Int) (partitionEqual a b p : M F Int) := by
  unfold partitionEqual; alike_step
  exact partEqLoop_alike ..

theorem scanSorted_alike (b i : Int) : Alike R (scanSorted b i : M E Int) (scanSorted b i : M F Int) := by
  unfold scanSorted; alike_step
  exact scanSorted_alike b _
termination_by (b - i).toNat

theorem shiftLeft_alike (j : Int) : Alike R (shiftLeft j : M E Unit) (shiftLeft j : M F Unit) := by
  unfold shiftLeft; alike_step
  exact shiftLeft_alike _
termination_by j.toNat

theorem shiftRight_alike (b j : Int) : Alike R (shiftRight b j : M E Unit) (shiftRight b j : M F Unit) := by
  unfold shiftRight; alike_step
  exact shiftRight_alike b _
termination_by (b - j).toNat

theorem partialLoop_alike (n : Nat) (a b i : Int) : Alike R (partialLoop n a b i : M E Bool) (partialLoop n a b i : M F Bool) := by
  induction n generalizing i with
  | zero => exact Alike.pure _
  | succ n ih =>
    unfold partialLoop
    alike_step
    · exact scanSorted_alike ..
    · exact shiftLeft_alike ..
    · exact shiftRight_alike ..
    · exact ih ..

theorem breakLoop_alike (n : Nat) (a l i : Int) (x : BitVec 64) :
    Alike R (breakLoop n a l i x : M E Unit) (breakLoop n a l i x : M F Unit) := by
  induction n generalizing i x with
  | zero => exact Alike.pure _
  | succ n ih =>
    unfold breakLoop
    alike_step
    exact ih ..

theorem breakIfUnbalanced_alike (w : Bool) (a b l : Int) : Alike R (breakIfUnbalanced w a b l : M E Int) (breakIfUnbalanced w a b l : M F Int) := by
  unfold breakIfUnbalanced breakPatterns; dsimp only; alike_step
  exact breakLoop_alike ..

theorem order2_alike (a b : Int) (s : Nat) : Alike R (order2 a b s : M E _) (order2 a b s : M F _) := by
  unfold order2; alike_step

theorem median_alike (a b c : Int) (s : Nat) : Alike R (median a b c s : M E _) (median a b c s : M F _) := by
  unfold median; alike_step <;> exact order2_alike ..

theorem choosePivot_alike (a b : Int) : Alike R (choosePivot a b : M E _) (choosePivot a b : M F _) := by
  unfold choosePivot pivotOf ninther medianAdjacent; alike_step <;> exact median_alike ..

theorem revLoop_alike (i j : Int) : Alike R (revLoop i j : M E Unit) (revLoop i j : M F Unit) := by
  unfold revLoop; alike_step
  exact revLoop_alike _ _
termination_by (j - i).toNat

theorem reverseIfDecreasing_alike (a b p : Int) (h : Hint) :
    Alike R (reverseIfDecreasing a b p h : M E _) (reverseIfDecreasing a b p h : M F _) := by
  unfold reverseIfDecreasing reverseRange; alike_step
  exact revLoop_alike ..

theorem tryPartial_alike (c : Prop) [Decidable c] (a b : Int) : Alike R (tryPartial c a b : M E Bool) (tryPartial c a b : M F Bool) := by
  unfold tryPartial partialInsertionSort; alike_step
  exact partialLoop_alike ..

theorem manyEqual_alike (a p : Int) : Alike R (manyEqual a p : M E Bool) (manyEqual a p : M F Bool) := by
  unfold manyEqual; alike_step

theorem pdqsort_alike (n : Nat) (a b l : Int) (w v : Bool) : Alike R (pdqsort n a b l w v : M E Unit) (pdqsort n a b l w v : M F Unit) := by
  induction n generalizing a b l w v with
  | zero => exact Alike.fail _
  | succ n ih =>
    unfold pdqsort
    dsimp only
    alike_step
    all_goals first
      | exact insertionSort_alike ..
      | exact heapSort_alike ..
      | exact breakIfUnbalanced_alike ..
      | exact choosePivot_alike ..
      | exact reverseIfDecreasing_alike ..
      | exact tryPartial_alike ..
      | exact manyEqual_alike ..
      | exact partitionEqual_alike ..
      | exact partition_alike ..
      | exact ih ..
      | exact Alike.recurse (ih ..)

theorem sortProg_alike : Alike R (sortProg : M E Unit) (sortProg : M F Unit) := 
  Alike.length (f := fun n => pdqsort (n + 1) 0 n (bitsLen n) true true) fun _ => pdqsort_alike ..

theorem swapRange_alike (a b n i : Int) : Alike R (swapRange a b n i : M E Unit) (swapRange a b n i : M F Unit) := by
  unfold swapRange; alike_step
  exact swapRange_alike a b n _
termination_by (n - i).toNat

theorem rotateLoop_alike (m i j : Int) : Alike R (rotateLoop m i j : M E Unit) (rotateLoop m i j : M F Unit) := by
  have h := fun a b n i => swapRange_alike (R := R) a b n i
  unfold rotateLoop; alike_step
  · exact h ..
  · exact h ..
  · exact rotateLoop_alike m _ _
  · exact h ..
  · exact rotateLoop_alike m _ _
termination_by (i + j).toNat

theorem searchGE_alike (a i j : Int) : Alike R (searchGE a i j : M E Int) (searchGE a i j : M F Int) := by
  unfold searchGE; alike_step <;> exact searchGE_alike a _ _
termination_by (j - i).toNat

theorem searchGT_alike (a i j : Int) : Alike R (searchGT a i j : M E Int) (searchGT a i j : M F Int) := by
  unfold searchGT; alike_step <;> exact searchGT_alike a _ _
termination_by (j - i).toNat

theorem searchSym_alike (p i j : Int) : Alike R (searchSym p i j : M E Int) (searchSym p i j : M F Int) := by
  unfold searchSym; alike_step <;> exact searchSym_alike p _ _
termination_by (j - i).toNat

theorem bubbleUp_alike (i k : Int) : Alike R (bubbleUp i k : M E Unit) (bubbleUp i k : M F Unit) := by
  unfold bubbleUp; alike_step
  exact bubbleUp_alike i _
termination_by (i - k).toNat

theorem bubbleDown_alike (i k : Int) : Alike R (bubbleDown i k : M E Unit) (bubbleDown i k : M F Unit) := by
  unfold bubbleDown; alike_step
  exact bubbleDown_alike i _
termination_by (k - i).toNat

theorem symMerge_alike (a m b : Int) : Alike R (symMerge a m b : M E Unit) (symMerge a m b : M F Unit) := by
  unfold symMerge
  refine ?_
  split
  · exact Alike.bind (searchGE_alike ..) fun _ => bubbleUp_alike ..
  · split
    · exact Alike.bind (searchGT_alike ..) fun _ => bubbleDown_alike ..
    · refine Alike.bind (searchSym_alike ..) fun start => ?_
      refine Alike.bind (Alike.when (rotateLoop_alike ..)) fun _ => ?_
      refine Alike.bind ?_ fun _ => ?_
      · split
        · exact Alike.recurse (symMerge_alike a start _)
        · exact Alike.pure _
      · split
        · exact Alike.recurse (symMerge_alike _ _ b)
        · exact Alike.pure _
termination_by (b - a).toNat

theorem blockLoop_alike (n a b : Int) : Alike R (blockLoop n a b : M E Int) (blockLoop n a b : M F Int) := by
  unfold blockLoop; alike_step
  · exact insertionSort_alike ..
  · exact blockLoop_alike n _ _
termination_by (n + 1 - b).toNat

theorem mergePass_alike (n bs a b : Int) : Alike R (mergePass n bs a b : M E Int) (mergePass n bs a b : M F Int) := by
  unfold mergePass; alike_step
  · exact symMerge_alike ..
  · exact mergePass_alike n bs _ _
termination_by (n + 1 - b).toNat

theorem stableLoop_alike (n bs : Int) : Alike R (stableLoop n bs : M E Unit) (stableLoop n bs : M F Unit) := by
  unfold stableLoop; alike_step
  · exact mergePass_alike ..
  · exact symMerge_alike ..
  · exact stableLoop_alike n _
termination_by (n - bs).toNat

theorem stableProg_alike : Alike R (stableProg : M E Unit) (stableProg : M F Unit) := by
  have key : ∀ n : Int, Alike R (stable n : M E Unit) (stable n : M F Unit) := by
    intro n
    unfold stable; alike_step
    · exact blockLoop_alike ..
    · exact insertionSort_alike ..
    · exact stableLoop_alike ..
  exact Alike.length (f := fun n => stable n) fun _ => key _

/-! ## Runs of programs that are alike -/

/-- Two comparators that answer the same about related elements, the states they keep related by `S`. -/
def Agree {σ τ : Type} (R : E → F → Prop) (S : σ → τ → Prop) (cmp : σ → Kind → E → E → Bool × σ)
    (cmp' : τ → Kind → F → F → Bool × τ) : Prop :=
  ∀ s t k x y x' y', S s t → R x x' → R y y' →
    (cmp s k x y).1 = (cmp' t k x' y').1 ∧ S (cmp s k x y).2 (cmp' t k x' y').2

theorem Prog.Same.exec {σ τ : Type} {S : σ → τ → Prop} {cmp : σ → Kind → E → E → Bool × σ}
    {cmp' : τ → Kind → F → F → Bool × τ} (hc : Agree R S cmp cmp') {Q : α → β → Prop} {p : Prog E α}
    {p' : Prog F β} (h : p.Same R Q p') {s : σ} {t : τ} (hs : S s t) {a : α} {s' : σ} {n : Nat}
    (he : p.exec cmp s = .ok (a, s', n)) : ∃ a' t', p'.exec cmp' t = .ok (a', t', n) ∧ Q a a' := by
  induction p generalizing p' s t n with
  | ret b =>
    cases p' with
    | ret b' =>
      simp only [Prog.exec, Except.ok.injEq, Prod.mk.injEq] at he
      obtain ⟨rfl, rfl, rfl⟩ := he
      exact ⟨b', t, rfl, h⟩
    | fail _ => exact h.elim
    | note _ _ => exact h.elim
    | ask _ _ _ _ _ => exact h.elim
  | fail msg => cases he
  | note e p ih =>
    cases p' with
    | note e' p' => exact ih h.2 hs he
    | ret _ => exact h.elim
    | fail _ => exact h.elim
    | ask _ _ _ _ _ => exact h.elim
  | ask k x y d next ih =>
    cases p' with
    | ask k' x' y' d' next' =>
      obtain ⟨rfl, hx, hy, -, hn⟩ := h
      obtain ⟨h1, h2⟩ := hc s t k x y x' y' hs hx hy
      simp only [Prog.exec] at he ⊢
      rcases hr : (next (cmp s k x y).1).exec cmp (cmp s k x y).2 with e | ⟨b, u, l⟩
      · rw [hr] at he; cases he
      · rw [hr] at he
        simp only [Except.ok.injEq, Prod.mk.injEq] at he
        obtain ⟨rfl, rfl, rfl⟩ := he
        obtain ⟨a', t', g1, g2⟩ := ih _ (hn _) h2 hr
        rw [← h1, g1]
        exact ⟨a', t', rfl, g2⟩
    | ret _ => exact h.elim
    | fail _ => exact h.elim
    | note _ _ => exact h.elim

theorem Prog.Same.trace {σ τ : Type} {S : σ → τ → Prop} {cmp : σ → Kind → E → E → Bool × σ}
    {cmp' : τ → Kind → F → F → Bool × τ} (hc : Agree R S cmp cmp') {Q : α → β → Prop} {p : Prog E α}
    {p' : Prog F β} (h : p.Same R Q p') {s : σ} {t : τ} (hs : S s t) : p.trace cmp s = p'.trace cmp' t := by
  induction p generalizing p' s t with
  | ret b => cases p' <;> first | rfl | exact h.elim
  | fail msg => cases p' <;> first | rfl | exact h.elim
  | note e p ih =>
    cases p' with
    | note e' p' => simp only [Prog.trace, ih h.2 hs, h.1]
    | ret _ => exact h.elim
    | fail _ => exact h.elim
    | ask _ _ _ _ _ => exact h.elim
  | ask k x y d next ih =>
    cases p' with
    | ask k' x' y' d' next' =>
      obtain ⟨rfl, hx, hy, -, hn⟩ := h
      obtain ⟨h1, h2⟩ := hc s t k x y x' y' hs hx hy
      simp only [Prog.trace, ← h1, ih _ (hn _) h2]
    | ret _ => exact h.elim
    | fail _ => exact h.elim
    | note _ _ => exact h.elim

theorem Alike.run {σ τ : Type} {S : σ → τ → Prop} {cmp : σ → Kind → E → E → Bool × σ}
    {cmp' : τ → Kind → F → F → Bool × τ} (hc : Agree R S cmp cmp') {m : M E Unit} {m' : M F Unit} (h : Alike R m m')
    {s : σ} {t : τ} (hs : S s t) {d : List E} {d' : List F} (hd : Places R d d') {out : List E} {n : Nat}
    (he : runProg m cmp s d = .ok (out, n)) :
    ∃ out', runProg m' cmp' t d' = .ok (out', n) ∧ Places R out out' ∧ steps m cmp s d = steps m' cmp' t d' := by
  unfold runProg at he
  rcases hr : (m d).exec cmp s with e | ⟨⟨u, o⟩, s', l⟩
  · rw [hr] at he; cases he
  · rw [hr] at he
    injection he with he
    injection he with h1 h2
    subst h1 h2
    obtain ⟨⟨u', o'⟩, t', g1, g2⟩ := (h.same d d' hd).exec hc hs hr
    refine ⟨o', ?_, g2.2, (h.same d d' hd).trace hc hs⟩
    unfold runProg
    rw [g1]

/-! ## C115 -/

/-- **C115.** `Sort` and `Stable` on two slices of the same length, with comparators that may keep states: if they
answer the same about elements that stand at the same place, or that `R` relates, both runs take the same steps, with
as many calls of the comparator, and elements at the same place afterwards are related again. -/
theorem C115_parametric {σ τ : Type} (S : σ → τ → Prop) (less : σ → E → E → Bool × σ) (less' : τ → F → F → Bool × τ)
    (hc : ∀ s t x y x' y', S s t → R x x' → R y y' →
      (less s x y).1 = (less' t x' y').1 ∧ S (less s x y).2 (less' t x' y').2)
    (data : List E) (data' : List F) (hd : Places R data data') (s : σ) (t : τ) (hs : S s t) :
    ∀ pp ∈ [((sortProg : M E Unit), (sortProg : M F Unit)), (stableProg, stableProg)], ∃ out out' n,
      runProg pp.1 (ofStateful less) s data = .ok (out, n) ∧ runProg pp.2 (ofStateful less') t data' = .ok (out', n) ∧
      Places R out out' ∧ steps pp.1 (ofStateful less) s data = steps pp.2 (ofStateful less') t data' := by
  have hag : Agree R S (ofStateful less) (ofStateful less') := by
    intro s t k x y x' y' h1 h2 h3
    obtain ⟨e1, e2⟩ := hc s t x y x' y' h1 h2 h3
    cases k
    · exact ⟨e1, e2⟩
    · exact ⟨by simp only [ofStateful, e1], e2⟩
  intro pp hp
  rcases List.mem_cons.1 hp with rfl | hp
  · obtain ⟨out, n, h, -⟩ := (C02_sort_rearranges data).2.2 σ less s
    obtain ⟨out', h1, h2, h3⟩ := Alike.run hag sortProg_alike hs hd h
    exact ⟨out, out', n, h, h1, h2, h3⟩
  · obtain rfl := List.mem_singleton.1 hp
    obtain ⟨out, n, h, -⟩ := C02_stable_rearranges data σ less s
    obtain ⟨out', h1, h2, h3⟩ := Alike.run hag stableProg_alike hs hd h
    exact ⟨out, out', n, h, h1, h2, h3⟩

theorem places_map (f : E → F) {d : List E} {d' : List F} : Places (fun x x' => x' = f x) d d' ↔ d' = d.map f := by
  constructor
  · rintro ⟨h1, h2⟩
    apply List.ext_getElem (by simp [h1])
    intro i h h'
    rw [List.getElem_map]
    exact h2 i (by rw [h1]; exact h) h
  · rintro rfl
    exact ⟨by simp, fun i h h' => by simp⟩

/-- The image of the slice after a run. -/
def mapped (f : E → F) : Go (List E) → Go (List F)
  | .ok out => .ok (out.map f)
  | .error e => .error e

/-- **C115.** Sorting by what a function gives of the elements, then taking the function of them, is sorting what the
function gives; for `Sort`, `Stable`, `SortOrdered` and `StableOrdered`. -/
theorem C115_map (f : E → F) (data : List E) :
    (∀ less : F → F → Bool, sort less (data.map f) = mapped f (sort (fun x y => less (f x) (f y)) data)) ∧
    (∀ less : F → F → Bool, stableSort less (data.map f) = mapped f (stableSort (fun x y => less (f x) (f y)) data)) ∧
    (∀ lt ge : F → F → Bool, sortOrdered lt ge (data.map f) =
      mapped f (sortOrdered (fun x y => lt (f x) (f y)) (fun x y => ge (f x) (f y)) data)) ∧
    (∀ lt ge : F → F → Bool, stableOrdered lt ge (data.map f) =
      mapped f (stableOrdered (fun x y => lt (f x) (f y)) (fun x y => ge (f x) (f y)) data)) := by
  have key : ∀ (m : M E Unit) (m' : M F Unit), Alike (fun x x' => x' = f x) m m' →
      ∀ (cmp : Unit → Kind → E → E → Bool × Unit) (cmp' : Unit → Kind → F → F → Bool × Unit),
      Agree (fun x x' => x' = f x) (fun _ _ => True) cmp cmp' → ∀ out, contentsOf (runProg m cmp () data) = .ok out →
      contentsOf (runProg m' cmp' () (data.map f)) = mapped f (contentsOf (runProg m cmp () data)) := by
    intro m m' hm cmp cmp' hc out ho
    rcases hr : runProg m cmp () data with e | ⟨o, n⟩
    · rw [hr] at ho; cases ho
    · obtain ⟨o', h1, h2, -⟩ := Alike.run hc hm (s := ()) (t := ()) trivial ((places_map f).2 rfl) hr
      rw [h1, (places_map f).1 h2]
      rfl
  have hless : ∀ less : F → F → Bool, Agree (fun x x' => x' = f x) (fun _ _ => True)
      (ofLess fun x y => less (f x) (f y)) (ofLess less) := by
    rintro less s t k x y x' y' - rfl rfl
    cases k <;> exact ⟨rfl, trivial⟩
  have hops : ∀ lt ge : F → F → Bool, Agree (fun x x' => x' = f x) (fun _ _ => True)
      (ofOps (fun x y => lt (f x) (f y)) (fun x y => ge (f x) (f y))) (ofOps lt ge) := by
    rintro lt ge s t k x y x' y' - rfl rfl
    cases k <;> exact ⟨rfl, trivial⟩
  refine ⟨fun less => ?_, fun less => ?_, fun lt ge => ?_, fun lt ge => ?_⟩
  · obtain ⟨out, h, -⟩ := (C02_sort_rearranges data).1 fun x y => less (f x) (f y)
    exact key _ _ sortProg_alike _ _ (hless less) out h
  · obtain ⟨out, h⟩ := (C03_returns_normally data (fun x y => less (f x) (f y)) (fun _ _ => true) (fun _ _ => true)).2.2.1
    exact key _ _ stableProg_alike _ _ (hless less) out h
  · obtain ⟨out, h, -⟩ := (C02_sort_rearranges data).2.1 (fun x y => lt (f x) (f y)) (fun x y => ge (f x) (f y))
    exact key _ _ sortProg_alike _ _ (hops lt ge) out h
  · obtain ⟨out, h⟩ := (C03_returns_normally data (fun _ _ => true) (fun x y => lt (f x) (f y)) (fun x y => ge (f x) (f y))).2.2.2.1
    exact key _ _ stableProg_alike _ _ (hops lt ge) out h

/-- **C115.** Which element ends up where depends only on the length of the slice and on what the comparator says of
the elements at any two places: there is one rearrangement of the places for all slices, of any type, that agree in
this. -/
theorem C115_rearrangement (n : Nat) (ans : Nat → Nat → Bool) (which : Bool) : ∃ places : List Nat,
    places.Perm (List.range n) ∧ ∀ (E : Type) [Inhabited E] (less : E → E → Bool) (data : List E), data.length = n →
      (∀ (i j : Nat) (x y : E), data[i]? = some x → data[j]? = some y → less x y = ans i j) →
      (if which then sort less data else stableSort less data) = .ok (places.map fun i => data.getD i default) := by
  -- the places are what sorting the places gives
  have run : ∀ (m : M Nat Unit), (m = sortProg ∨ m = stableProg) → ∃ places k, places.Perm (List.range n) ∧
      runProg m (ofLess ans) () (List.range n) = .ok (places, k) := by
    rintro m (rfl | rfl)
    · obtain ⟨o, k, h1, h2⟩ := runProg_ok (adm := fun _ _ _ _ => True) (cmp := ofLess ans) ()
        (fun _ _ _ _ => trivial) (sortProg_any (List.range n))
      exact ⟨o, k, h2, h1⟩
    · obtain ⟨o, k, h1, h2⟩ := runProg_ok (adm := fun _ _ _ _ => True) (cmp := ofLess ans) ()
        (fun _ _ _ _ => trivial) (stableProg_any (List.range n))
      exact ⟨o, k, h2, h1⟩
  have lift : ∀ (m : M Nat Unit) (places : List Nat) (k : Nat),
      runProg m (ofLess ans) () (List.range n) = .ok (places, k) →
      ∀ (E : Type) [Inhabited E] (m' : M E Unit), (∀ R : Nat → E → Prop, Alike R m m') → ∀ (less : E → E → Bool)
      (data : List E), data.length = n →
      (∀ (i j : Nat) (x y : E), data[i]? = some x → data[j]? = some y → less x y = ans i j) →
      contentsOf (runProg m' (ofLess less) () data) = .ok (places.map fun i => data.getD i default) := by
    intro m places k hrun E _ m' hm less data hlen hans
    have hag : Agree (fun (i : Nat) (x : E) => data[i]? = some x) (fun _ _ => True) (ofLess ans) (ofLess less) := by
      intro s t kind i j x y _ hx hy
      cases kind <;> simp [ofLess, hans i j x y hx hy]
    obtain ⟨out, h1, h2, -⟩ := Alike.run hag (hm _) (s := ()) (t := ()) trivial (d' := data)
      ⟨by simp [hlen], fun i h h' => by simp⟩ hrun
    rw [h1]
    have : out = places.map fun i => data.getD i default := by
      apply List.ext_getElem (by simp [h2.1])
      intro i h h'
      rw [List.getElem_map]
      have := h2.2 i (by simpa using h') h
      simp [this]
    rw [this]
    rfl
  cases which with
  | true =>
    obtain ⟨places, k, hp, hrun⟩ := run sortProg (.inl rfl)
    exact ⟨places, hp, fun E _ less data hlen hans =>
      lift _ places k hrun E sortProg (fun R => sortProg_alike) less data hlen hans⟩
  | false =>
    obtain ⟨places, k, hp, hrun⟩ := run stableProg (.inr rfl)
    exact ⟨places, hp, fun E _ less data hlen hans =>
      lift _ places k hrun E stableProg (fun R => stableProg_alike) less data hlen hans⟩

/-! ## With comparators that panic -/

/-- Two runs that end the same way, with slices related by `R`. -/
def Outcome.Like (R : E → F → Prop) : Outcome (Unit × List E) E → Outcome (Unit × List F) F → Prop
  | .done a, .done a' => Places R a.2 a'.2
  | .panicked msg d, .panicked msg' d' => msg = msg' ∧ Places R d d'
  | .crashed msg, .crashed msg' => msg = msg'
  | _, _ => False

/-- **C115.** The same for comparators that may panic: both panic at the same step, with elements at the same place
related, or neither does. -/
theorem C115_panics {σ τ : Type} (S : σ → τ → Prop) (less : σ → E → E → Go Bool × σ) (less' : τ → F → F → Go Bool × τ)
    (hc : ∀ s t x y x' y', S s t → R x x' → R y y' →
      (less s x y).1 = (less' t x' y').1 ∧ S (less s x y).2 (less' t x' y').2)
    (data : List E) (data' : List F) (hd : Places R data data') (s : σ) (t : τ) (hs : S s t) :
    ((sortProg data).runP (ofPanicking less) s).Like R ((sortProg data').runP (ofPanicking less') t) ∧
    ((stableProg data).runP (ofPanicking less) s).Like R ((stableProg data').runP (ofPanicking less') t) := by
  have key : ∀ (p : Prog E (Unit × List E)) (p' : Prog F (Unit × List F)) (s : σ) (t : τ), S s t →
      p.Same R (Ends R) p' → (p.runP (ofPanicking less) s).Like R (p'.runP (ofPanicking less') t) := by
    intro p
    induction p with
    | ret a => intro p' s t _ h; cases p' <;> first | exact h.2 | exact h.elim
    | fail msg => intro p' s t _ h; cases p' <;> first | exact h | exact h.elim
    | note e p ih =>
      intro p' s t hs h
      cases p' with
      | note e' p' => simp only [Prog.runP]; exact ih p' s t hs h.2
      | ret _ => exact h.elim
      | fail _ => exact h.elim
      | ask _ _ _ _ _ => exact h.elim
    | ask k x y d next ih =>
      intro p' s t hs h
      cases p' with
      | ask k' x' y' d' next' =>
        obtain ⟨rfl, hx, hy, hd, hn⟩ := h
        have h12 : (ofPanicking less s k x y).1 = (ofPanicking less' t k x' y').1 ∧
            S (ofPanicking less s k x y).2 (ofPanicking less' t k x' y').2 := by
          obtain ⟨e1, e2⟩ := hc s t x y x' y' hs hx hy
          cases k
          · exact ⟨e1, e2⟩
          · exact ⟨by simp only [ofPanicking, e1], e2⟩
        simp only [Prog.runP, ← h12.1]
        cases (ofPanicking less s k x y).1 with
        | ok b => exact ih b _ _ _ h12.2 (hn b)
        | error e => exact ⟨rfl, hd⟩
      | ret _ => exact h.elim
      | fail _ => exact h.elim
      | note _ _ => exact h.elim
  exact ⟨key _ _ s t hs (sortProg_alike.same data data' hd), key _ _ s t hs (stableProg_alike.same data data' hd)⟩

/-! ## Examples -/

/-- Sorting pairs by their first part, and sorting the first parts. -/
example : sort (fun a b : Nat × Char => decide (a.1 < b.1)) [(3, 'c'), (1, 'a'), (2, 'b')] =
    .ok [(1, 'a'), (2, 'b'), (3, 'c')] := by decide +kernel
example : sort (fun a b : Nat => decide (a < b)) ([(3, 'c'), (1, 'a'), (2, 'b')].map Prod.fst) =
    mapped Prod.fst (sort (fun a b : Nat × Char => decide (a.1 < b.1)) [(3, 'c'), (1, 'a'), (2, 'b')]) := by
  decide +kernel
/-- Two slices whose elements stand in the same order, place by place. -/
example : Places (fun (a : Nat) (b : Int) => b = 10 * (a : Int) - 7) [3, 1, 2] [23, 3, 13] :=
  (places_map _).2 rfl

end Verif.Sort
