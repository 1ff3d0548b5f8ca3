import Verif.Sort.More
import Verif.Sort.Parametric

/-!
# Property C123: sorting a slice that the comparator changes

`less` is called while the slice is half sorted, and may itself write to it. Then the run is no longer given by a
decision tree over the elements at the start (Sort/Prog.lean); but the sorting functions use the slice only by place:
they compare the elements at two places and exchange the elements at two places. `Ix` is a program of that kind,
`Ix.on` what it does to a slice nobody else writes to, and `Ix.run` what it does with a comparator that may write.
`ByPlace`: all functions of the package are such programs.
-/

namespace Verif.Sort

variable {α β : Type}

/-- A program that compares and exchanges what is at given places of a slice. -/
inductive Ix (α : Type)
  | ret (a : α)
  | fail (msg : String)
  /-- see `Prog.note` -/
  | note (e : Event) (next : Ix α)
  /-- `data[i], data[j] = data[j], data[i]` -/
  | swap (i j : Int) (next : Ix α)
  /-- `less(data[i], data[j])`, or its negation -/
  | ask (k : Kind) (i j : Int) (next : Bool → Ix α)

/-- What it does in the model of Sort/Model.lean. -/
def Ix.on (E : Type) [Inhabited E] : Ix α → M E α
  | .ret a => pure a
  | .fail msg => M.fail msg
  | .note e p => M.note e >>= fun _ => p.on E
  | .swap i j p => Sort.swap i j >>= fun _ => p.on E
  | .ask .lt i j next => lessAt i j >>= fun b => (next b).on E
  | .ask .nlt i j next => nlessAt i j >>= fun b => (next b).on E

/-- A function of the model, for all element types, is a program of this kind. -/
def ByPlace (f : (E : Type) → [Inhabited E] → M E α) : Prop :=
  ∃ q : Ix α, ∀ (E : Type) [Inhabited E], f E = q.on E

/-- Sequencing. -/
def Ix.bind : Ix α → (α → Ix β) → Ix β
  | .ret a, f => f a
  | .fail msg, _ => .fail msg
  | .note e p, f => .note e (p.bind f)
  | .swap i j p, f => .swap i j (p.bind f)
  | .ask k i j next, f => .ask k i j fun b => (next b).bind f

theorem Prog.bind_bind {E γ : Type} (p : Prog E α) (f : α → Prog E β) (g : β → Prog E γ) :
    (p.bind f).bind g = p.bind fun a => (f a).bind g := by
  induction p with
  | ret a => rfl
  | fail msg => rfl
  | note e p ih => exact congrArg _ ih
  | ask k x y d next ih => exact congrArg _ (funext ih)

theorem M.bind_bind {E γ : Type} (m : M E α) (f : α → M E β) (g : β → M E γ) :
    (m >>= f) >>= g = m >>= fun a => f a >>= g := funext fun d => Prog.bind_bind (m d) _ _

theorem Ix.on_bind (E : Type) [Inhabited E] (q : Ix α) (f : α → Ix β) :
    (q.bind f).on E = q.on E >>= fun a => (f a).on E := by
  induction q with
  | ret a => rfl
  | fail msg => rfl
  | note e p ih => simp only [Ix.bind, Ix.on, ih, M.bind_bind]
  | swap i j p ih => simp only [Ix.bind, Ix.on, ih, M.bind_bind]
  | ask k i j next ih => cases k <;> simp only [Ix.bind, Ix.on, ih, M.bind_bind]

theorem ByPlace.pure (a : α) : ByPlace fun E [Inhabited E] => (Pure.pure a : M E α) := ⟨.ret a, fun _ _ => rfl⟩

theorem ByPlace.fail (msg : String) : ByPlace fun E [Inhabited E] => (M.fail msg : M E α) := ⟨.fail msg, fun _ _ => rfl⟩

theorem ByPlace.bind {m : (E : Type) → [Inhabited E] → M E α} {f : α → (E : Type) → [Inhabited E] → M E β}
    (h : ByPlace m) (hf : ∀ a, ByPlace (f a)) : ByPlace fun E [Inhabited E] => (m E >>= fun a => f a E : M E β) := by
  obtain ⟨q, hq⟩ := h
  refine ⟨q.bind fun a => Classical.choose (hf a), fun E _ => ?_⟩
  rw [Ix.on_bind, ← hq]
  exact congrArg _ (funext fun a => (Classical.choose_spec (hf a)) E)

theorem M.bind_pure {E : Type} (m : M E α) : m >>= Pure.pure = m := by
  refine funext fun d => ?_
  change (m d).bind _ = m d
  induction m d with
  | ret a => rfl
  | fail msg => rfl
  | note e p ih => exact congrArg _ ih
  | ask k x y d next ih => exact congrArg _ (funext ih)

theorem ByPlace.lessAt (i j : Int) : ByPlace fun E [Inhabited E] => (lessAt i j : M E Bool) :=
  ⟨.ask .lt i j .ret, fun _ _ => (M.bind_pure (Sort.lessAt i j)).symm⟩

theorem ByPlace.nlessAt (i j : Int) : ByPlace fun E [Inhabited E] => (nlessAt i j : M E Bool) :=
  ⟨.ask .nlt i j .ret, fun _ _ => (M.bind_pure (Sort.nlessAt i j)).symm⟩

theorem ByPlace.swap (i j : Int) : ByPlace fun E [Inhabited E] => (swap i j : M E Unit) :=
  ⟨.swap i j (.ret ()), fun _ _ => (M.bind_pure (Sort.swap i j)).symm⟩

theorem ByPlace.recurse {m : (E : Type) → [Inhabited E] → M E Unit} (h : ByPlace m) :
    ByPlace fun E [Inhabited E] => (recurse (m E) : M E Unit) := by
  have note : ∀ e, ByPlace fun E [Inhabited E] => (M.note e : M E Unit) :=
    fun e => ⟨.note e (.ret ()), fun _ _ => (M.bind_pure (M.note e)).symm⟩
  exact ByPlace.bind (note .enter) fun _ => ByPlace.bind h fun _ => note .leave

theorem ByPlace.when {c : Prop} [Decidable c] {m : (E : Type) → [Inhabited E] → M E Unit} (h : ByPlace m) :
    ByPlace fun E [Inhabited E] => (M.when c (m E) : M E Unit) := by
  unfold M.when; split
  · exact h
  · exact ByPlace.pure ()

/-- Descend through a program; leaves the calls for which no lemma is known. -/
macro "place_step" : tactic =>
  `(tactic| repeat' first
    | intro _
    | exact ByPlace.pure _
    | exact ByPlace.fail _
    | exact ByPlace.lessAt _ _
    | exact ByPlace.nlessAt _ _
    | exact ByPlace.swap _ _
    | assumption
    | with_reducible apply ByPlace.when
    | with_reducible apply ByPlace.bind
    | split)

theorem insInner_byPlace (a j : Int) : ByPlace fun E [Inhabited E] => (insInner a j : M E Unit) := by
  unfold insInner; place_step
  exact insInner_byPlace a (j - 1)
termination_by (j - a).toNat

theorem insOuter_byPlace (a b i : Int) : ByPlace fun E [Inhabited E] => (insOuter a b i : M E Unit) := by
  have h := insInner_byPlace a i
  unfold insOuter; place_step
  exact insOuter_byPlace a b (i + 1)
termination_by (b - i).toNat

theorem insertionSort_byPlace (a b : Int) : ByPlace fun E [Inhabited E] => (insertionSort a b : M E Unit) := insOuter_byPlace ..

theorem pickChild_byPlace (c hi f : Int) : ByPlace fun E [Inhabited E] => (pickChild c hi f : M E Int) := by
  unfold pickChild; place_step

theorem siftDown_byPlace (root hi first : Int) : ByPlace fun E [Inhabited E] => (siftDown root hi first : M E Unit) := by
  have h := pickChild_byPlace (2 * root + 1) hi first
  unfold siftDown; place_step
  exact siftDown_byPlace _ hi first
termination_by (hi - root).toNat

theorem heapBuild_byPlace (i hi first : Int) : ByPlace fun E [Inhabited E] => (heapBuild i hi first : M E Unit) := by
  have h := siftDown_byPlace i hi first
  unfold heapBuild; place_step
  exact heapBuild_byPlace _ hi first
termination_by (i + 1).toNat

theorem heapPop_byPlace (i first : Int) : ByPlace fun E [Inhabited E] => (heapPop i first : M E Unit) := by
  have h := siftDown_byPlace 0 i first
  unfold heapPop; place_step
  exact heapPop_byPlace _ first
termination_by (i + 1).toNat

theorem heapSort_byPlace (a b : Int) : ByPlace fun E [Inhabited E] => (heapSort a b : M E Unit) := by
  unfold heapSort; place_step
  · exact heapBuild_byPlace ..
  · exact heapPop_byPlace ..

theorem scanUp_byPlace (a j i : Int) : ByPlace fun E [Inhabited E] => (scanUp a j i : M E Int) := by
  unfold scanUp; place_step
  exact scanUp_byPlace a j _
termination_by (j + 1 - i).toNat

theorem scanDown_byPlace (a i j : Int) : ByPlace fun E [Inhabited E] => (scanDown a i j : M E Int) := by
  unfold scanDown; place_step
  exact scanDown_byPlace a i _
termination_by (j + 1 - i).toNat

theorem partLoop_byPlace (n : Nat) (a i j : Int) : ByPlace fun E [Inhabited E] => (partLoop n a i j : M E Int) := by
  induction n generalizing i j with
  | zero => exact ByPlace.fail _
  | succ n ih =>
    unfold partLoop
    place_step
    · exact scanUp_byPlace ..
    · exact scanDown_byPlace ..
    · exact ih ..

theorem partition_byPlace (a b p : Int) : ByPlace fun E [Inhabited E] => (partition a b p : M E (Int × Bool)) := by
  unfold partition; place_step
  · exact scanUp_byPlace ..
  · exact scanDown_byPlace ..
  · exact partLoop_byPlace ..

theorem scanUpEq_byPlace (a j i : Int) : ByPlace fun E [Inhabited E] => (scanUpEq a j i : M E Int) := by
  unfold scanUpEq; place_step
  exact scanUpEq_byPlace a j _
termination_by (j + 1 - i).toNat

theorem scanDownEq_byPlace (a i j : Int) : ByPlace fun E [Inhabited E] => (scanDownEq a i j : M E Int) := by
  unfold scanDownEq; place_step
  exact scanDownEq_byPlace a i _
termination_by (j + 1 - i).toNat

theorem partEqLoop_byPlace (n : Nat) (a i j : Int) : ByPlace fun E [Inhabited E] => (partEqLoop n a i j : M E Int) := by
  induction n generalizing i j with
  | zero => exact ByPlace.fail _
  | succ n ih =>
    unfold partEqLoop
    place_step
    · exact scanUpEq_byPlace ..
    · exact scanDownEq_byPlace ..
    · exact ih ..

theorem partitionEqual_byPlace (a b p : Int) : ByPlace fun E [Inhabited E] => (partitionEqual a b p : M E Int) := by
  unfold partitionEqual; place_step
  exact partEqLoop_byPlace ..

theorem scanSorted_byPlace (b i : Int) : ByPlace fun E [Inhabited E] => (scanSorted b i : M E Int) := by
  unfold scanSorted; place_step
  exact scanSorted_byPlace b _
termination_by (b - i).toNat

theorem shiftLeft_byPlace (j : Int) : ByPlace fun E [Inhabited E] => (shiftLeft j : M E Unit) := by
  unfold shiftLeft; place_step
  exact shiftLeft_byPlace _
termination_by j.toNat

theorem shiftRight_byPlace (b j : Int) : ByPlace fun E [Inhabited E] => (shiftRight b j : M E Unit) := by
  unfold shiftRight; place_step
  exact shiftRight_byPlace b _
termination_by (b - j).toNat

theorem partialLoop_byPlace (n : Nat) (a b i : Int) : ByPlace fun E [Inhabited E] => (partialLoop n a b i : M E Bool) := by
  induction n generalizing i with
  | zero => exact ByPlace.pure _
  | succ n ih =>
    unfold partialLoop
    place_step
    · exact scanSorted_byPlace ..
    · exact shiftLeft_byPlace ..
    · exact shiftRight_byPlace ..
    · exact ih ..

theorem breakLoop_byPlace (n : Nat) (a l i : Int) (x : BitVec 64) :
    ByPlace fun E [Inhabited E] => (breakLoop n a l i x : M E Unit) := by
  induction n generalizing i x with
  | zero => exact ByPlace.pure _
  | succ n ih =>
    unfold breakLoop
    place_step
    exact ih ..

theorem breakIfUnbalanced_byPlace (w : Bool) (a b l : Int) : ByPlace fun E [Inhabited E] => (breakIfUnbalanced w a b l : M E Int) := by
  unfold breakIfUnbalanced breakPatterns; dsimp only; place_step
  exact breakLoop_byPlace ..

theorem order2_byPlace (a b : Int) (s : Nat) : ByPlace fun E [Inhabited E] => (order2 a b s : M E _) := by
  unfold order2; place_step

theorem median_byPlace (a b c : Int) (s : Nat) : ByPlace fun E [Inhabited E] => (median a b c s : M E _) := by
  unfold median; place_step <;> exact order2_byPlace ..

theorem choosePivot_byPlace (a b : Int) : ByPlace fun E [Inhabited E] => (choosePivot a b : M E _) := by
  unfold choosePivot pivotOf ninther medianAdjacent; place_step <;> exact median_byPlace ..

theorem revLoop_byPlace (i j : Int) : ByPlace fun E [Inhabited E] => (revLoop i j : M E Unit) := by
  unfold revLoop; place_step
  exact revLoop_byPlace _ _
termination_by (j - i).toNat

theorem reverseIfDecreasing_byPlace (a b p : Int) (h : Hint) :
    ByPlace fun E [Inhabited E] => (reverseIfDecreasing a b p h : M E _) := by
  unfold reverseIfDecreasing reverseRange; place_step
  exact revLoop_byPlace ..

theorem tryPartial_byPlace (c : Prop) [Decidable c] (a b : Int) : ByPlace fun E [Inhabited E] => (tryPartial c a b : M E Bool) := by
  unfold tryPartial partialInsertionSort; place_step
  exact partialLoop_byPlace ..

theorem manyEqual_byPlace (a p : Int) : ByPlace fun E [Inhabited E] => (manyEqual a p : M E Bool) := by
  unfold manyEqual; place_step

theorem pdqsort_byPlace (n : Nat) (a b l : Int) (w v : Bool) : ByPlace fun E [Inhabited E] => (pdqsort n a b l w v : M E Unit) := by
  induction n generalizing a b l w v with
  | zero => exact ByPlace.fail _
  | succ n ih =>
    unfold pdqsort
    dsimp only
    place_step
    all_goals first
      | exact insertionSort_byPlace ..
      | exact heapSort_byPlace ..
      | exact breakIfUnbalanced_byPlace ..
      | exact choosePivot_byPlace ..
      | exact reverseIfDecreasing_byPlace ..
      | exact tryPartial_byPlace ..
      | exact manyEqual_byPlace ..
      | exact partitionEqual_byPlace ..
      | exact partition_byPlace ..
      | exact ih ..
      | exact ByPlace.recurse (ih ..)

theorem swapRange_byPlace (a b n i : Int) : ByPlace fun E [Inhabited E] => (swapRange a b n i : M E Unit) := by
  unfold swapRange; place_step
  exact swapRange_byPlace a b n _
termination_by (n - i).toNat

theorem rotateLoop_byPlace (m i j : Int) : ByPlace fun E [Inhabited E] => (rotateLoop m i j : M E Unit) := by
  have h := fun a b n i => swapRange_byPlace a b n i
  unfold rotateLoop; place_step
  · exact h ..
  · exact h ..
  · exact rotateLoop_byPlace m _ _
  · exact h ..
  · exact rotateLoop_byPlace m _ _
termination_by (i + j).toNat

theorem searchGE_byPlace (a i j : Int) : ByPlace fun E [Inhabited E] => (searchGE a i j : M E Int) := by
  unfold searchGE; place_step <;> exact searchGE_byPlace a _ _
termination_by (j - i).toNat

theorem searchGT_byPlace (a i j : Int) : ByPlace fun E [Inhabited E] => (searchGT a i j : M E Int) := by
  unfold searchGT; place_step <;> exact searchGT_byPlace a _ _
termination_by (j - i).toNat

theorem searchSym_byPlace (p i j : Int) : ByPlace fun E [Inhabited E] => (searchSym p i j : M E Int) := by
  unfold searchSym; place_step <;> exact searchSym_byPlace p _ _
termination_by (j - i).toNat

theorem bubbleUp_byPlace (i k : Int) : ByPlace fun E [Inhabited E] => (bubbleUp i k : M E Unit) := by
  unfold bubbleUp; place_step
  exact bubbleUp_byPlace i _
termination_by (i - k).toNat

theorem bubbleDown_byPlace (i k : Int) : ByPlace fun E [Inhabited E] => (bubbleDown i k : M E Unit) := by
  unfold bubbleDown; place_step
  exact bubbleDown_byPlace i _
termination_by (k - i).toNat

theorem symMerge_byPlace (a m b : Int) : ByPlace fun E [Inhabited E] => (symMerge a m b : M E Unit) := by
  unfold symMerge
  refine ?_
  split
  · exact ByPlace.bind (searchGE_byPlace ..) fun _ => bubbleUp_byPlace ..
  · split
    · exact ByPlace.bind (searchGT_byPlace ..) fun _ => bubbleDown_byPlace ..
    · refine ByPlace.bind (searchSym_byPlace ..) fun start => ?_
      refine ByPlace.bind (ByPlace.when (rotateLoop_byPlace ..)) fun _ => ?_
      refine ByPlace.bind ?_ fun _ => ?_
      · split
        · exact ByPlace.recurse (symMerge_byPlace a start _)
        · exact ByPlace.pure _
      · split
        · exact ByPlace.recurse (symMerge_byPlace _ _ b)
        · exact ByPlace.pure _
termination_by (b - a).toNat

theorem blockLoop_byPlace (n a b : Int) : ByPlace fun E [Inhabited E] => (blockLoop n a b : M E Int) := by
  unfold blockLoop; place_step
  · exact insertionSort_byPlace ..
  · exact blockLoop_byPlace n _ _
termination_by (n + 1 - b).toNat

theorem mergePass_byPlace (n bs a b : Int) : ByPlace fun E [Inhabited E] => (mergePass n bs a b : M E Int) := by
  unfold mergePass; place_step
  · exact symMerge_byPlace ..
  · exact mergePass_byPlace n bs _ _
termination_by (n + 1 - b).toNat

theorem stableLoop_byPlace (n bs : Int) : ByPlace fun E [Inhabited E] => (stableLoop n bs : M E Unit) := by
  unfold stableLoop; place_step
  · exact mergePass_byPlace ..
  · exact symMerge_byPlace ..
  · exact stableLoop_byPlace n _
termination_by (n - bs).toNat

theorem stable_byPlace (n : Int) : ByPlace fun E [Inhabited E] => (stable n : M E Unit) := by
  unfold stable; place_step
  · exact blockLoop_byPlace ..
  · exact insertionSort_byPlace ..
  · exact stableLoop_byPlace ..

/-! ## A comparator that writes -/

variable {E : Type} [Inhabited E] {σ : Type}

/-- `q n` is what the sorting function `f` does with slices of `n` elements, of whatever type. -/
def Describes (q : Nat → Ix Unit) (f : (E : Type) → [Inhabited E] → M E Unit) : Prop :=
  ∀ (E : Type) [Inhabited E] (data : List E), f E data = (q data.length).on E data

/-- A run with a comparator that sees the slice and may write to it: it takes a state of its own, the slice, and the
two elements, and gives the answer, the slice afterwards and its state. The result of the run, the slice afterwards and
the number of calls. -/
def Ix.run (cmp : σ → List E → Kind → E → E → Bool × List E × σ) : σ → List E → Ix α → Go (α × List E × Nat)
  | _, d, .ret a => .ok (a, d, 0)
  | _, _, .fail msg => .error msg
  | s, d, .note _ p => p.run cmp s d
  | s, d, .swap i j p =>
    if inRange d i ∧ inRange d j then p.run cmp s ((d.set i.toNat (el d j)).set j.toNat (el d i))
    else .error "index out of range"
  | s, d, .ask k i j next =>
    if inRange d i ∧ inRange d j then
      let r := cmp s d k (el d i) (el d j)
      match (next r.1).run cmp r.2.2 r.2.1 with
      | .ok (a, d', n) => .ok (a, d', n + 1)
      | .error e => .error e
    else .error "index out of range"

/-- `less` as the sorting functions use it: `less(x, y)` and `!less(x, y)`. -/
def ofWriting (less : σ → List E → E → E → Bool × List E × σ) : σ → List E → Kind → E → E → Bool × List E × σ
  | s, d, .lt, x, y => less s d x y
  | s, d, .nlt, x, y => (!(less s d x y).1, (less s d x y).2)

/-- It writes within the slice, which cannot get longer or shorter. -/
structure KeepsLength (less : σ → List E → E → E → Bool × List E × σ) : Prop where
  /-- the length afterwards -/
  same : ∀ s d x y, (less s d x y).2.1.length = d.length

end Verif.Sort
