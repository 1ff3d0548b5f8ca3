import Verif.Sort.OrderedModel
import Verif.Sort.Props

/-!
# C06: `sort_ordered.go` as written does what the common model does
-/

set_option linter.unusedSectionVars false

namespace Verif.Sort.Ordered

open Verif.Sort

variable {E : Type} [Inhabited E] {lt ge : E → E → Bool} {α β : Type}

/-- Run a decision tree with the operators `<` and `>=`. -/
def ev (lt ge : E → E → Bool) : Prog E α → Go α
  | .ret a => .ok a
  | .fail msg => .error msg
  | .note _ p => ev lt ge p
  | .ask .lt x y _ next => ev lt ge (next (lt x y))
  | .ask .nlt x y _ next => ev lt ge (next (ge x y))

theorem ev_exec (p : Prog E α) {a : α} {s : Unit} {n : Nat} (h : p.exec (ofOps lt ge) () = .ok (a, s, n)) :
    ev lt ge p = .ok a := by
  induction p generalizing n s with
  | ret b => simp only [Prog.exec] at h; cases h; rfl
  | fail msg => cases h
  | note e p ih => exact ih h
  | ask k x y d next ih =>
    cases k with
    | lt =>
      simp only [Prog.exec, ofOps] at h
      split at h
      · rename_i e; cases h; exact ih _ e
      · cases h
    | nlt =>
      simp only [Prog.exec, ofOps] at h
      split at h
      · rename_i e; cases h; exact ih _ e
      · cases h

theorem ev_bind (p : Prog E α) (f : α → Prog E β) : ev lt ge (p.bind f) = (ev lt ge p).bind fun a => ev lt ge (f a) := by
  induction p with
  | ret a => rfl
  | fail msg => rfl
  | note e p ih => exact ih
  | ask k x y d next ih => cases k <;> exact ih _

/-- The model's program, run on `d`, returns `x` and leaves `d'`. -/
def Does (lt ge : E → E → Bool) (p : M E α) (d : List E) (x : α) (d' : List E) : Prop := ev lt ge (p d) = .ok (x, d')

/-- On slices of length `n`, whenever the program `p` of the model returns, the function `q` returns the same. -/
def Sim (lt ge : E → E → Bool) (n : Nat) (f : α → β) (p : M E α) (q : I E β) : Prop :=
  ∀ d x d', d.length = n → Does lt ge p d x d' → q d = some (.ok (f x, d')) ∧ d'.length = n

variable {n : Nat}

theorem Sim.pure {f : α → β} (x : α) {y : β} (h : f x = y) : Sim lt ge n f (Pure.pure x) (Pure.pure y) := by
  intro d a d' hd hp
  unfold Does at hp
  cases hp
  subst h
  exact ⟨rfl, hd⟩

theorem Sim.fail {f : α → β} (msg : String) (q : I E β) : Sim lt ge n f (M.fail msg) q := by
  intro d a d' hd hp
  cases hp

theorem does_bind {α' : Type} {p : M E α'} {k : α' → M E α} {d d' : List E} {x : α} (h : Does lt ge (p >>= k) d x d') :
    ∃ a d1, Does lt ge p d a d1 ∧ Does lt ge (k a) d1 x d' := by
  unfold Does at *
  have : ev lt ge ((p d).bind fun a => k a.1 a.2) = .ok (x, d') := h
  rw [ev_bind] at this
  cases e : ev lt ge (p d) with
  | error m => rw [e] at this; cases this
  | ok a => rw [e] at this; exact ⟨a.1, a.2, rfl, this⟩

theorem Sim.bind {α' β' : Type} {f : α' → β'} {g : α → β} {p : M E α'} {k : α' → M E α} {q : I E β'} {l : β' → I E β}
    (h : Sim lt ge n f p q) (hk : ∀ a, (∃ d d', d.length = n ∧ Does lt ge p d a d') → Sim lt ge n g (k a) (l (f a))) :
    Sim lt ge n g (p >>= k) (q >>= l) := by
  intro d x d' hd hp
  obtain ⟨a, d1, h1, h2⟩ := does_bind hp
  obtain ⟨e1, n1⟩ := h d a d1 hd h1
  obtain ⟨e2, n2⟩ := hk a ⟨d, d1, hd, h1⟩ d1 x d' n1 h2
  refine ⟨?_, n2⟩
  show (q d >>= fun p => l p.1 p.2 : ExceptT String Option _) = _
  rw [e1]
  exact e2

theorem Sim.ite {f : α → β} {c : Prop} [Decidable c] {p p' : M E α} {q q' : I E β} (h : c → Sim lt ge n f p q)
    (h' : ¬ c → Sim lt ge n f p' q') : Sim lt ge n f (if c then p else p') (if c then q else q') := by
  by_cases hc : c
  · simp only [if_pos hc]; exact h hc
  · simp only [if_neg hc]; exact h' hc

theorem goGet_in {d : List E} {i : Int} (h : inRange d i) : goGet d i = .ok (el d i) := by
  obtain ⟨h0, h1⟩ := h
  have : i.toNat < d.length := by omega
  apply goGet_ok h0
  simp [el, h0, List.getD, List.getElem?_eq_getElem this]

theorem at_in {d : List E} {i : Int} (h : inRange d i) : at_ i d = some (.ok (el d i, d)) := by
  unfold at_
  rw [goGet_in h]

theorem does_get {d d' : List E} {i : Int} {x : E} (h : Does lt ge (Sort.get i) d x d') :
    inRange d i ∧ x = el d i ∧ d' = d := by
  unfold Does Sort.get at h
  split at h
  · rename_i hh; cases h; exact ⟨hh, rfl, rfl⟩
  · cases h

theorem does_less {d d' : List E} {i j : Int} {b : Bool} (h : Does lt ge (lessAt i j) d b d') :
    inRange d i ∧ inRange d j ∧ b = lt (el d i) (el d j) ∧ d' = d := by
  obtain ⟨x, d1, h1, h2⟩ := does_bind h
  obtain ⟨r1, rfl, rfl⟩ := does_get h1
  obtain ⟨y, d2, h3, h4⟩ := does_bind h2
  obtain ⟨r2, rfl, rfl⟩ := does_get h3
  cases h4
  exact ⟨r1, r2, rfl, rfl⟩

theorem does_nless {d d' : List E} {i j : Int} {b : Bool} (h : Does lt ge (nlessAt i j) d b d') :
    inRange d i ∧ inRange d j ∧ b = ge (el d i) (el d j) ∧ d' = d := by
  obtain ⟨x, d1, h1, h2⟩ := does_bind h
  obtain ⟨r1, rfl, rfl⟩ := does_get h1
  obtain ⟨y, d2, h3, h4⟩ := does_bind h2
  obtain ⟨r2, rfl, rfl⟩ := does_get h3
  cases h4
  exact ⟨r1, r2, rfl, rfl⟩

theorem bind_some {α β : Type} {q : I E α} {l : α → I E β} {d d1 : List E} {a : α} (h : q d = some (.ok (a, d1))) :
    (q >>= l) d = l a d1 := by
  show (q d >>= fun p => l p.1 p.2 : ExceptT String Option _) = _
  rw [h]
  rfl

theorem Sim.less (i j : Int) : Sim lt ge n id (lessAt i j) (isLt lt i j) := by
  intro d b d' hd hp
  obtain ⟨r1, r2, rfl, rfl⟩ := does_less hp
  refine ⟨?_, hd⟩
  unfold isLt
  rw [bind_some (at_in r1), bind_some (at_in r2)]
  rfl

theorem Sim.nless (i j : Int) : Sim lt ge n id (nlessAt i j) (isGe ge i j) := by
  intro d b d' hd hp
  obtain ⟨r1, r2, rfl, rfl⟩ := does_nless hp
  refine ⟨?_, hd⟩
  unfold isGe
  rw [bind_some (at_in r1), bind_some (at_in r2)]
  rfl

theorem Sim.swap (i j : Int) : Sim lt ge n id (Sort.swap i j) (exchange i j) := by
  intro d b d' hd hp
  unfold Does Sort.swap at hp
  split at hp
  · rename_i hr
    obtain ⟨r1, r2⟩ := hr
    simp only [ev] at hp
    cases hp
    refine ⟨?_, by simp [hd]⟩
    unfold exchange
    rw [bind_some (at_in r2), bind_some (at_in r1)]
    have s1 : put i (el d j) d = some (.ok ((), d.set i.toNat (el d j))) := by
      unfold put
      rw [goSet_ok r1.1 (by have := r1.1; have := r1.2; omega)]
    rw [bind_some s1]
    unfold put
    rw [goSet_ok r2.1 (by have := r2.1; have := r2.2; simp; omega)]
  · cases hp

/-- What the model asks for must be inside the slice. -/
theorem range_less {i j : Int} {b : Bool} (h : ∃ d d', d.length = n ∧ Does lt ge (lessAt i j) d b d') :
    0 ≤ i ∧ i < n ∧ 0 ≤ j ∧ j < n := by
  obtain ⟨d, d', rfl, h⟩ := h
  obtain ⟨r1, r2, -⟩ := does_less h
  exact ⟨r1.1, r1.2, r2.1, r2.2⟩

theorem range_nless {i j : Int} {b : Bool} (h : ∃ d d', d.length = n ∧ Does lt ge (nlessAt i j) d b d') :
    0 ≤ i ∧ i < n ∧ 0 ≤ j ∧ j < n := by
  obtain ⟨d, d', rfl, h⟩ := h
  obtain ⟨r1, r2, -⟩ := does_nless h
  exact ⟨r1.1, r1.2, r2.1, r2.2⟩

theorem Sim.recurse {p : M E Unit} {q : I E Unit} (h : Sim lt ge n id p q) : Sim lt ge n id (recurse p) q := by
  intro d x d' hd hp
  obtain ⟨_, d1, h1, h2⟩ := does_bind hp
  cases h1
  obtain ⟨_, d2, h3, h4⟩ := does_bind h2
  cases h4
  exact h d _ _ hd h3

/-- Sequencing. -/
theorem Sim.seq {g : α → β} {p : M E Unit} {k : M E α} {q : I E Unit} {l : I E β}
    (h : Sim lt ge n id p q) (hk : Sim lt ge n g k l) : Sim lt ge n g (do p; k) (do q; l) :=
  h.bind fun _ _ => hk

/-! ## Function by function -/

theorem sim_insInner (a j : Int) : Sim lt ge n id (insInner a j) (insertionInner lt a j) := by
  rw [insInner, insertionInner]
  refine .ite (fun h => ?_) (fun _ => .pure _ rfl)
  exact (Sim.less _ _).bind fun b _ => .ite (fun _ => (Sim.swap _ _).seq (sim_insInner a (j - 1)))
    (fun _ => .pure _ rfl)
termination_by (j - a).toNat

theorem sim_insOuter (a b i : Int) : Sim lt ge n id (insOuter a b i) (insertionOuter lt a b i) := by
  rw [insOuter, insertionOuter]
  exact .ite (fun h => (sim_insInner a i).seq (sim_insOuter a b (i + 1))) (fun _ => .pure _ rfl)
termination_by (b - i).toNat

theorem sim_insertionSort (a b : Int) : Sim lt ge n id (Sort.insertionSort a b) (insertionSort lt a b) :=
  sim_insOuter a b (a + 1)

theorem sim_pickChild (child hi first : Int) : Sim lt ge n id (pickChild child hi first) (largerChild lt hi first child) :=
  .ite (fun _ => (Sim.less _ _).bind fun _ _ => .ite (fun _ => .pure _ rfl) (fun _ => .pure _ rfl)) (fun _ => .pure _ rfl)

theorem sim_siftDown (root hi first : Int) : Sim lt ge n id (Sort.siftDown root hi first) (siftLoop lt ge hi first root) := by
  rw [Sort.siftDown, siftLoop]
  refine .ite (fun _ => .pure _ rfl) (fun h => (sim_pickChild _ _ _).bind fun child _ => ?_)
  by_cases hc : root < child ∧ child < hi
  · rw [dif_pos hc]
    exact (Sim.nless _ _).bind fun b _ => .ite (fun _ => .pure _ rfl) (fun _ => (Sim.swap _ _).seq (sim_siftDown child hi first))
  · rw [dif_neg hc]
    exact .fail _ _
termination_by (hi - root).toNat

theorem sim_heapBuild (i hi first : Int) : Sim lt ge n id (Sort.heapBuild i hi first) (heapBuild lt ge hi first i) := by
  rw [Sort.heapBuild, heapBuild]
  exact .ite (fun h => (sim_siftDown _ _ _).seq (sim_heapBuild (i - 1) hi first)) (fun _ => .pure _ rfl)
termination_by (i + 1).toNat

theorem sim_heapPop (i first : Int) : Sim lt ge n id (Sort.heapPop i first) (heapPop lt ge 0 first i) := by
  rw [Sort.heapPop, heapPop]
  exact .ite (fun h => (Sim.swap _ _).seq ((sim_siftDown _ _ _).seq (sim_heapPop (i - 1) first))) (fun _ => .pure _ rfl)
termination_by (i + 1).toNat

theorem sim_heapSort (a b : Int) (h : a < b) : Sim lt ge n id (Sort.heapSort a b) (heapSort lt ge a b) := by
  have e : (b - a - 1).tdiv 2 = (b - a - 1) / 2 := Int.tdiv_eq_ediv_of_nonneg (by omega)
  unfold Sort.heapSort heapSort
  simp only [e]
  exact (sim_heapBuild _ _ _).seq (sim_heapPop _ _)

theorem sim_scanUp (a j i : Int) : Sim lt ge n id (scanUp a j i) (partUp lt a j i) := by
  rw [scanUp, partUp]
  exact .ite (fun h => (Sim.less _ _).bind fun b _ => .ite (fun _ => sim_scanUp a j (i + 1)) (fun _ => .pure _ rfl))
    (fun _ => .pure _ rfl)
termination_by (j + 1 - i).toNat

theorem sim_scanDown (a i j : Int) : Sim lt ge n id (scanDown a i j) (partDown ge a i j) := by
  rw [scanDown, partDown]
  exact .ite (fun h => (Sim.nless _ _).bind fun b _ => .ite (fun _ => sim_scanDown a i (j - 1)) (fun _ => .pure _ rfl))
    (fun _ => .pure _ rfl)
termination_by (j + 1 - i).toNat

theorem sim_partLoop (a : Int) {β : Type} (g : Int → β) : ∀ (fuel : Nat) (i j : Int),
    Sim lt ge n g (Sort.partLoop fuel a i j) (do let j ← partLoop lt ge a i j; exchange j a; pure (g j)) := by
  intro fuel
  induction fuel with
  | zero => intro i j; exact .fail _ _
  | succ fuel ih =>
    intro i j
    rw [Sort.partLoop, partLoop, bind_assoc]
    refine (sim_scanUp _ _ _).bind fun i _ => ?_
    rw [bind_assoc]
    refine (sim_scanDown _ _ _).bind fun j _ => ?_
    simp only [id]
    by_cases h : i > j
    · rw [if_pos h, if_pos h, pure_bind]
      exact (Sim.swap _ _).seq (.pure _ rfl)
    · rw [if_neg h, if_neg h, bind_assoc]
      exact (Sim.swap _ _).seq (ih _ _)

theorem sim_partition (a b pivot : Int) : Sim lt ge n id (Sort.partition a b pivot) (partition lt ge a b pivot) := by
  unfold Sort.partition partition
  refine (Sim.swap _ _).seq ((sim_scanUp _ _ _).bind fun i _ => (sim_scanDown _ _ _).bind fun j _ => ?_)
  refine .ite (fun _ => (Sim.swap _ _).seq (.pure _ rfl)) (fun _ => (Sim.swap _ _).seq ?_)
  have h := (sim_partLoop (lt := lt) (ge := ge) (n := n) a (fun j => (j, false)) (b - a).toNat (i + 1) (j - 1)).bind
    (g := id) (k := fun j => pure (j, false)) (l := pure) fun _ _ => .pure _ rfl
  simp only [bind_assoc, pure_bind] at h
  exact h

theorem sim_scanUpEq (a j i : Int) : Sim lt ge n id (scanUpEq a j i) (equalUp ge a j i) := by
  rw [scanUpEq, equalUp]
  exact .ite (fun h => (Sim.nless _ _).bind fun b _ => .ite (fun _ => sim_scanUpEq a j (i + 1)) (fun _ => .pure _ rfl))
    (fun _ => .pure _ rfl)
termination_by (j + 1 - i).toNat

theorem sim_scanDownEq (a i j : Int) : Sim lt ge n id (scanDownEq a i j) (equalDown lt a i j) := by
  rw [scanDownEq, equalDown]
  exact .ite (fun h => (Sim.less _ _).bind fun b _ => .ite (fun _ => sim_scanDownEq a i (j - 1)) (fun _ => .pure _ rfl))
    (fun _ => .pure _ rfl)
termination_by (j + 1 - i).toNat

theorem sim_partEqLoop (a : Int) : ∀ (fuel : Nat) (i j : Int),
    Sim lt ge n id (partEqLoop fuel a i j) (equalLoop lt ge a i j) := by
  intro fuel
  induction fuel with
  | zero => intro i j; exact .fail _ _
  | succ fuel ih =>
    intro i j
    rw [partEqLoop, equalLoop]
    exact (sim_scanUpEq _ _ _).bind fun i _ => (sim_scanDownEq _ _ _).bind fun j _ =>
      .ite (fun _ => .pure _ rfl) (fun _ => (Sim.swap _ _).seq (ih _ _))

theorem sim_partitionEqual (a b pivot : Int) :
    Sim lt ge n id (Sort.partitionEqual a b pivot) (partitionEqual lt ge a b pivot) :=
  (Sim.swap _ _).seq (sim_partEqLoop _ _ _ _)

theorem sim_scanSorted (b i : Int) : Sim lt ge n id (scanSorted b i) (ascend ge b i) := by
  rw [scanSorted, ascend]
  exact .ite (fun h => (Sim.nless _ _).bind fun _ _ => .ite (fun _ => sim_scanSorted b (i + 1)) (fun _ => .pure _ rfl))
    (fun _ => .pure _ rfl)
termination_by (b - i).toNat

theorem sim_shiftLeft (j : Int) : Sim lt ge n id (shiftLeft j) (toLeft ge j) := by
  rw [shiftLeft, toLeft]
  exact .ite (fun h => (Sim.nless _ _).bind fun _ _ => .ite (fun _ => .pure _ rfl)
    (fun _ => (Sim.swap _ _).seq (sim_shiftLeft (j - 1)))) (fun _ => .pure _ rfl)
termination_by j.toNat

theorem sim_shiftRight (b j : Int) : Sim lt ge n id (shiftRight b j) (toRight ge b j) := by
  rw [shiftRight, toRight]
  exact .ite (fun h => (Sim.nless _ _).bind fun _ _ => .ite (fun _ => .pure _ rfl)
    (fun _ => (Sim.swap _ _).seq (sim_shiftRight b (j + 1)))) (fun _ => .pure _ rfl)
termination_by (b - j).toNat

theorem sim_when {c : Prop} [Decidable c] {p : M E Unit} {q : I E Unit} (h : c → Sim lt ge n id p q) :
    Sim lt ge n id (M.when c p) (if c then q else pure ()) := .ite h (fun _ => .pure _ rfl)

theorem sim_partialLoop (a b : Int) : ∀ (m : Nat) (i j : Int), j + m = 5 →
    Sim lt ge n id (Sort.partialLoop m a b i) (partialLoop ge a b i j) := by
  intro m
  induction m with
  | zero =>
    intro i j h
    rw [Sort.partialLoop, partialLoop, if_neg (by omega)]
    exact .pure _ rfl
  | succ m ih =>
    intro i j h
    rw [Sort.partialLoop, partialLoop, if_pos (by omega)]
    exact (sim_scanSorted _ _).bind fun i _ => .ite (fun _ => .pure _ rfl) (fun _ => .ite (fun _ => .pure _ rfl) (fun _ =>
      (Sim.swap _ _).seq ((sim_when fun _ => sim_shiftLeft _).seq ((sim_when fun _ => sim_shiftRight _ _).seq
        (ih i (j + 1) (by omega))))))

theorem sim_partialInsertionSort (a b : Int) :
    Sim lt ge n id (Sort.partialInsertionSort a b) (partialInsertionSort ge a b) := sim_partialLoop a b 5 _ 0 rfl

theorem bitsLen_le {m : Nat} (h : m < 2 ^ 63) : bitsLen m ≤ 63 := by
  unfold bitsLen
  split
  · omega
  · rename_i h0
    have := (Nat.log2_lt h0).2 h
    omega

theorem mask_small (r : BitVec 64) {m : Nat} (h : m < 2 ^ 63) :
    (r &&& (1#64 <<< bitsLen m - 1#64)).toInt = ((r &&& (1#64 <<< bitsLen m - 1#64)).toNat : Int) := by
  have hb := bitsLen_le h
  generalize bitsLen m = s at hb
  apply BitVec.toInt_eq_toNat_of_lt
  have h1 : (1#64 <<< s).toNat = 2 ^ s := by
    rw [BitVec.toNat_shiftLeft, BitVec.toNat_ofNat, Nat.shiftLeft_eq]
    have : 2 ^ s ≤ 2 ^ 63 := Nat.pow_le_pow_right (by omega) hb
    rw [Nat.mod_eq_of_lt (by omega : 1 % 2 ^ 64 * 2 ^ s < 2 ^ 64)]
    simp
  have h2 : (1#64 <<< s - 1#64).toNat < 2 ^ 63 := by
    have p : 0 < 2 ^ s := Nat.two_pow_pos s
    have : 2 ^ s ≤ 2 ^ 63 := Nat.pow_le_pow_right (by omega) hb
    rw [BitVec.toNat_sub_of_le (by rw [BitVec.le_def, h1]; exact p), h1]
    show 2 ^ s - 1 < _
    omega
  rw [BitVec.toNat_and]
  have := Nat.and_le_right (n := r.toNat) (m := (1#64 <<< s - 1#64).toNat)
  omega

theorem sim_breakRound (a length idx idx' : Int) (h8 : 8 ≤ length) (hl : length < 2 ^ 63) (r : BitVec 64) (m : Nat)
    (hi : idx ≤ a + length / 4 * 2 + 1) (e : idx' = idx + 1)
    (h : Sim lt ge n id (Sort.breakLoop m a length idx' (xorshiftNext r)) (breakLoop a length idx' (xorshiftNext r))) :
    Sim lt ge n id (Sort.breakLoop (m + 1) a length idx r) (breakLoop a length idx r) := by
  subst e
  have e4 : length.tdiv 4 = length / 4 := Int.tdiv_eq_ediv_of_nonneg (by omega)
  rw [Sort.breakLoop, breakLoop, e4, if_pos hi]
  simp only [mask_small _ (m := length.toNat) (by omega)]
  exact (Sim.swap _ _).seq h

theorem sim_breakPatterns (a b : Int) (hl : b - a < 2 ^ 63) : Sim lt ge n id (Sort.breakPatterns a b) (breakPatterns a b) := by
  unfold Sort.breakPatterns breakPatterns
  refine .ite (fun h8 => ?_) (fun _ => .pure _ rfl)
  have e4 : (b - a).tdiv 4 = (b - a) / 4 := Int.tdiv_eq_ediv_of_nonneg (by omega)
  rw [e4]
  refine sim_breakRound _ _ _ (a + (b - a) / 4 * 2) h8 hl _ _ (by omega) (by omega) ?_
  refine sim_breakRound _ _ _ (a + (b - a) / 4 * 2 + 1) h8 hl _ _ (by omega) (by omega) ?_
  refine sim_breakRound _ _ _ (a + (b - a) / 4 * 2 + 2) h8 hl _ _ (by omega) (by omega) ?_
  rw [Sort.breakLoop, breakLoop, e4, if_neg (by omega)]
  exact .pure _ rfl

theorem sim_order2 (a b : Int) (s : Nat) :
    Sim lt ge n (fun x => (x.1, x.2.1, (x.2.2 : Int))) (Sort.order2 a b s) (order2 lt a b s) :=
  (Sim.less _ _).bind fun _ _ => .ite (fun _ => .pure _ rfl) (fun _ => .pure _ rfl)

theorem sim_median (a b c : Int) (s : Nat) :
    Sim lt ge n (fun x => (x.1, (x.2 : Int))) (Sort.median a b c s) (median lt a b c s) :=
  (sim_order2 _ _ _).bind fun _ _ => (sim_order2 _ _ _).bind fun _ _ => (sim_order2 _ _ _).bind fun _ _ => .pure _ rfl

theorem sim_medianAdjacent (a : Int) (s : Nat) :
    Sim lt ge n (fun x => (x.1, (x.2 : Int))) (Sort.medianAdjacent a s) (medianAdjacent lt a s) := sim_median _ _ _ _

theorem sim_ninther (l i j k : Int) :
    Sim lt ge n (fun x => (x.1, x.2.1, x.2.2.1, (x.2.2.2 : Int))) (Sort.ninther l i j k) (ninther lt l i j k 0) :=
  .ite (fun _ => (sim_medianAdjacent i 0).bind fun _ _ => (sim_medianAdjacent _ _).bind fun _ _ =>
    (sim_medianAdjacent _ _).bind fun _ _ => .pure _ rfl) (fun _ => .pure _ rfl)

theorem sim_pivotOf (l i j k : Int) :
    Sim lt ge n (fun x => (x.1, (x.2 : Int))) (pivotOf l i j k) (candidate lt l i j k 0) :=
  .ite (fun _ => (sim_ninther _ _ _ _).bind fun _ _ => sim_median _ _ _ _) (fun _ => .pure _ rfl)

theorem sim_choosePivot (a b : Int) (h : a ≤ b) : Sim lt ge n id (Sort.choosePivot a b) (choosePivot lt a b) := by
  have e4 : (b - a).tdiv 4 = (b - a) / 4 := Int.tdiv_eq_ediv_of_nonneg (by omega)
  unfold Sort.choosePivot choosePivot
  simp only [e4]
  refine (sim_pivotOf _ _ _ _).bind fun x _ => ?_
  obtain ⟨j, s⟩ := x
  by_cases h0 : s = 0
  · subst h0; exact .pure _ rfl
  · by_cases h12 : s = 12
    · subst h12; exact .pure _ rfl
    · have g0 : ¬ (s : Int) = 0 := by omega
      have g12 : ¬ (s : Int) = 4 * 3 := by omega
      simp only [if_neg h0, if_neg h12, if_neg g0, if_neg g12]
      exact .pure _ rfl

theorem sim_revLoop (i j : Int) : Sim lt ge n id (revLoop i j) (reverseLoop i j) := by
  rw [revLoop, reverseLoop]
  exact .ite (fun h => (Sim.swap _ _).seq (sim_revLoop (i + 1) (j - 1))) (fun _ => .pure _ rfl)
termination_by (j - i).toNat

/-- What holds after every run holds after this one. -/
theorem ev_wp {p : Prog E α} {Q : α → Prop} (h : p.wp (fun _ _ _ _ => True) Q) {x : α} (hx : ev lt ge p = .ok x) : Q x := by
  induction p with
  | ret a => cases hx; exact h
  | fail msg => cases h
  | note e p ih => exact ih h hx
  | ask k a b d next ih => cases k <;> exact ih _ (h _ trivial) hx

theorem does_wp {p : M E α} {Q : α → List E → Prop} {d d' : List E} {x : α} (h : wp (fun _ _ _ _ => True) p Q d)
    (hx : Does lt ge p d x d') : Q x d' := ev_wp h hx

theorem sim_reverseIfDecreasing (a b pivot : Int) (hint : Hint) :
    Sim lt ge n id (reverseIfDecreasing a b pivot hint) (if hint = .decreasing then do
        reverseRange a b
        pure ((b - 1) - (pivot - a), .increasing)
      else pure (pivot, hint)) :=
  .ite (fun _ => (sim_revLoop _ _).seq (.pure _ rfl)) (fun _ => .pure _ rfl)

theorem sim_breakIfUnbalanced (wb : Bool) (a b limit : Int) (hl : b - a < 2 ^ 63) :
    Sim lt ge n id (breakIfUnbalanced wb a b limit)
      (if !wb then do breakPatterns a b; pure (limit - 1) else pure limit) := by
  cases wb
  · exact (sim_breakPatterns a b hl).seq (.pure _ rfl)
  · exact .pure _ rfl

theorem sim_tryPartial (wb wp : Bool) (hint : Hint) (a b : Int) :
    Sim lt ge n id (tryPartial (wb = true ∧ wp = true ∧ hint = .increasing) a b)
      (if wb && wp && decide (hint = .increasing) then partialInsertionSort ge a b else pure false) := by
  unfold tryPartial
  by_cases h : wb = true ∧ wp = true ∧ hint = .increasing
  · rw [if_pos h, if_pos (by obtain ⟨rfl, rfl, rfl⟩ := h; rfl)]
    exact sim_partialInsertionSort _ _
  · rw [if_neg h, if_neg (by simpa [and_assoc] using h)]
    exact .pure _ rfl

theorem sim_manyEqual (a pivot : Int) :
    Sim lt ge n id (manyEqual a pivot) (if a > 0 then isGe ge (a - 1) pivot else pure false) :=
  .ite (fun _ => Sim.nless _ _) (fun _ => .pure _ rfl)

theorem sim_pdqsort (hn : n < 2 ^ 63) : ∀ (fuel : Nat) (a b limit : Int) (wb wp : Bool), 0 ≤ a → a ≤ b → b ≤ n →
    Sim lt ge n id (Sort.pdqsort fuel a b limit wb wp) (pdqLoop lt ge a b limit wb wp) := by
  intro fuel
  induction fuel with
  | zero => intro a b limit wb wp _ _ _; exact .fail _ _
  | succ fuel ih =>
    intro a b limit wb wp ha hab hb
    have e8 : (b - a).tdiv 8 = (b - a) / 8 := Int.tdiv_eq_ediv_of_nonneg (by omega)
    rw [Sort.pdqsort, pdqLoop]
    refine .ite (fun _ => sim_insertionSort _ _) (fun h12 => .ite (fun _ => sim_heapSort _ _ (by omega)) (fun _ => ?_))
    refine (sim_breakIfUnbalanced _ _ _ _ (by omega)).bind fun limit _ => ?_
    refine (sim_choosePivot _ _ hab).bind fun ph hp => ?_
    have hp1 : a ≤ ph.1 ∧ ph.1 < b := by
      obtain ⟨d, d', hd, hp⟩ := hp
      exact (does_wp (choosePivot_any a b d ⟨ha, by omega⟩ (by omega)) hp).2
    refine (sim_reverseIfDecreasing _ _ _ _).bind fun ph' hp' => ?_
    have hp2 : a ≤ ph'.1 ∧ ph'.1 < b := by
      obtain ⟨d, d', hd, hp'⟩ := hp'
      exact (does_wp (reverseIfDecreasing_any a b ph.1 ph.2 d ⟨ha, by omega⟩ hp1.1 hp1.2) hp').2
    refine (sim_tryPartial _ _ _ _ _).bind fun done _ => ?_
    refine .ite (fun _ => .pure _ rfl) (fun _ => ?_)
    refine (sim_manyEqual _ _).bind fun many _ => ?_
    refine .ite (fun _ => ?_) (fun _ => ?_)
    · refine (sim_partitionEqual _ _ _).bind fun mid hm => ?_
      have hm1 : a < mid ∧ mid ≤ b := by
        obtain ⟨d, d', hd, hm⟩ := hm
        have := (does_wp (partitionEqual_any a b ph'.1 d ⟨ha, by omega⟩ hp2.1 hp2.2 (by omega)) hm).2
        exact ⟨this.1, this.2.1⟩
      exact ih _ _ _ _ _ (by omega) hm1.2 hb
    · refine (sim_partition _ _ _).bind fun mp hm => ?_
      have hm1 : a ≤ mp.1 ∧ mp.1 < b := by
        obtain ⟨d, d', hd, hm⟩ := hm
        have := (does_wp (partition_any a b ph'.1 d ⟨ha, by omega⟩ hp2.1 hp2.2) hm).2
        exact ⟨this.1, this.2.1⟩
      simp only [e8, id]
      exact .ite (fun _ => (ih a mp.1 limit true true ha hm1.1 (by omega)).recurse.seq
          (ih (mp.1 + 1) b limit _ mp.2 (by omega) (by omega) hb))
        (fun _ => (ih (mp.1 + 1) b limit true true (by omega) (by omega) hb).recurse.seq
          (ih a mp.1 limit _ mp.2 ha hm1.1 (by omega)))

theorem sim_swapRange (a b m i : Int) : Sim lt ge n id (Sort.swapRange a b m i) (swapRange a b m i) := by
  rw [Sort.swapRange, swapRange]
  exact .ite (fun h => (Sim.swap _ _).seq (sim_swapRange a b m (i + 1))) (fun _ => .pure _ rfl)
termination_by (m - i).toNat

theorem sim_rotateLoop (m i j : Int) : Sim lt ge n id (Sort.rotateLoop m i j) (rotateLoop m i j) := by
  rw [Sort.rotateLoop, rotateLoop]
  by_cases h : i = j
  · rw [if_pos h, if_neg (by simpa using h)]
    exact sim_swapRange _ _ _ _
  · rw [if_neg h, if_pos h]
    by_cases h0 : i ≤ 0 ∨ j ≤ 0
    · rw [if_pos h0]; exact .fail _ _
    · rw [if_neg h0]
      exact .ite (fun h1 => (sim_swapRange _ _ _ _).seq (sim_rotateLoop m (i - j) j))
        (fun h1 => (sim_swapRange _ _ _ _).seq (sim_rotateLoop m i (j - i)))
termination_by (i + j).toNat

theorem half_eq {x : Int} (h0 : 0 ≤ x) (h1 : x < 2 ^ 64) : half x = x / 2 := by
  unfold half
  rw [Int.emod_eq_of_lt h0 h1]

/-- A comparison of the model is inside the slice. -/
theorem Sim.inside_less {g : α → β} {i j : Int} {k : Bool → M E α} {q : I E β}
    (h : 0 ≤ i → i < n → Sim lt ge n g (lessAt i j >>= k) q) : Sim lt ge n g (lessAt i j >>= k) q := by
  intro d x d' hd hp
  obtain ⟨b, d1, h1, -⟩ := does_bind hp
  have := range_less ⟨d, d1, hd, h1⟩
  exact h this.1 this.2.1 d x d' hd hp

theorem Sim.inside_nless {g : α → β} {i j : Int} {k : Bool → M E α} {q : I E β}
    (h : 0 ≤ j → j < n → Sim lt ge n g (nlessAt i j >>= k) q) : Sim lt ge n g (nlessAt i j >>= k) q := by
  intro d x d' hd hp
  obtain ⟨b, d1, h1, -⟩ := does_bind hp
  have := range_nless ⟨d, d1, hd, h1⟩
  exact h this.2.2.1 this.2.2.2 d x d' hd hp

theorem sim_searchGE (hn : n < 2 ^ 63) (a i j : Int) : Sim lt ge n id (searchGE a i j) (searchLow lt a i j) := by
  rw [searchGE, searchLow]
  refine .ite (fun h => .inside_less fun h0 h1 => ?_) (fun _ => .pure _ rfl)
  simp only [half_eq (x := i + j) (by omega) (by omega)]
  exact (Sim.less _ _).bind fun _ _ => .ite (fun _ => sim_searchGE hn a ((i + j) / 2 + 1) j)
    (fun _ => sim_searchGE hn a i ((i + j) / 2))
termination_by (j - i).toNat

theorem sim_searchGT (hn : n < 2 ^ 63) (m i j : Int) : Sim lt ge n id (searchGT m i j) (searchHigh ge m i j) := by
  rw [searchGT, searchHigh]
  refine .ite (fun h => .inside_nless fun h0 h1 => ?_) (fun _ => .pure _ rfl)
  simp only [half_eq (x := i + j) (by omega) (by omega)]
  exact (Sim.nless _ _).bind fun _ _ => .ite (fun _ => sim_searchGT hn m ((i + j) / 2 + 1) j)
    (fun _ => sim_searchGT hn m i ((i + j) / 2))
termination_by (j - i).toNat

theorem sim_searchSym (hn : n < 2 ^ 63) (p start r : Int) :
    Sim lt ge n id (searchSym p start r) (searchMiddle ge p start r) := by
  rw [searchSym, searchMiddle]
  refine .ite (fun h => .inside_nless fun h0 h1 => ?_) (fun _ => .pure _ rfl)
  simp only [half_eq (x := start + r) (by omega) (by omega)]
  exact (Sim.nless _ _).bind fun _ _ => .ite (fun _ => sim_searchSym hn p ((start + r) / 2 + 1) r)
    (fun _ => sim_searchSym hn p start ((start + r) / 2))
termination_by (r - start).toNat

theorem sim_bubbleUp (i k : Int) : Sim lt ge n id (bubbleUp i k) (moveUp i k) := by
  rw [bubbleUp, moveUp]
  exact .ite (fun h => (Sim.swap _ _).seq (sim_bubbleUp i (k + 1))) (fun _ => .pure _ rfl)
termination_by (i - k).toNat

theorem sim_bubbleDown (i k : Int) : Sim lt ge n id (bubbleDown i k) (moveDown i k) := by
  rw [bubbleDown, moveDown]
  exact .ite (fun h => (Sim.swap _ _).seq (sim_bubbleDown i (k - 1))) (fun _ => .pure _ rfl)
termination_by (k - i).toNat

theorem sim_symMerge (hn : n < 2 ^ 63) (a m b : Int) (ha : 0 ≤ a) (ha' : a ≤ n) (hb : 0 ≤ b) (hb' : b ≤ n) :
    Sim lt ge n id (Sort.symMerge a m b) (symMerge lt ge a m b) := by
  rw [Sort.symMerge, symMerge]
  refine .ite (fun _ => (sim_searchGE hn _ _ _).bind fun _ _ => sim_bubbleUp _ _) (fun _ => ?_)
  refine .ite (fun _ => (sim_searchGT hn _ _ _).bind fun _ _ => sim_bubbleDown _ _) (fun _ => ?_)
  simp only [half_eq (x := a + b) (by omega) (by omega)]
  have e : (if m > (a + b) / 2 then ((a + b) / 2 + m - b, (a + b) / 2) else (a, m)) =
      ((if m > (a + b) / 2 then (a + b) / 2 + m - b else a), (if m > (a + b) / 2 then (a + b) / 2 else m)) := by
    split <;> rfl
  rw [e]
  refine (sim_searchSym hn _ _ _).bind fun start _ => ?_
  simp only [id]
  refine (sim_when fun _ => sim_rotateLoop _ _ _).seq (Sim.seq ?_ ?_)
  · by_cases h : a < start ∧ start < (a + b) / 2
    · rw [dif_pos h, if_pos h]
      exact (sim_symMerge hn a start ((a + b) / 2) ha ha' (by omega) (by omega)).recurse
    · rw [dif_neg h, if_neg h]
      exact .pure _ rfl
  · by_cases h : (a + b) / 2 < (a + b) / 2 + m - start ∧ (a + b) / 2 + m - start < b
    · rw [dif_pos h, if_pos h]
      exact (sim_symMerge hn ((a + b) / 2) ((a + b) / 2 + m - start) b (by omega) (by omega) hb hb').recurse
    · rw [dif_neg h, if_neg h]
      exact .pure _ rfl
termination_by (b - a).toNat

theorem sim_blockLoop (m a b : Int) : Sim lt ge n id (blockLoop m a b) (blocks lt m 20 a b) := by
  rw [blockLoop, blocks]
  exact .ite (fun h => (sim_insertionSort _ _).seq (sim_blockLoop m b (b + 20))) (fun _ => .pure _ rfl)
termination_by (m + 1 - b).toNat

theorem sim_mergePass (hn : n < 2 ^ 63) (bs a b : Int) (ha : 0 ≤ a) (ha' : a ≤ n) (hb : 0 ≤ b) :
    Sim lt ge n id (mergePass n bs a b) (mergePairs lt ge n bs a b) := by
  rw [mergePass, mergePairs]
  by_cases h0 : bs ≤ 0
  · rw [if_pos h0]; exact .fail _ _
  · rw [if_neg h0]
    exact .ite (fun h => (sim_symMerge hn _ _ _ ha ha' hb h).seq (sim_mergePass hn bs b (b + 2 * bs) hb h (by omega)))
      (fun _ => .pure _ rfl)
termination_by ((n : Int) + 1 - b).toNat

theorem does_mergePass (m bs a b : Int) (ha : 0 ≤ a) (hb : 0 ≤ b) {d d' : List E} {x : Int}
    (h : Does lt ge (mergePass m bs a b) d x d') : 0 ≤ x := by
  rw [mergePass] at h
  by_cases h0 : bs ≤ 0
  · rw [if_pos h0] at h; cases h
  · rw [if_neg h0] at h
    by_cases h1 : b ≤ m
    · rw [if_pos h1] at h
      obtain ⟨_, d1, _, h2⟩ := does_bind h
      exact does_mergePass m bs b (b + 2 * bs) hb (by omega) h2
    · rw [if_neg h1] at h
      cases h
      exact ha
termination_by (m + 1 - b).toNat

theorem sim_stableLoop (hn : n < 2 ^ 63) (bs : Int) : Sim lt ge n id (stableLoop n bs) (doubling lt ge n bs) := by
  rw [stableLoop, doubling]
  by_cases h0 : bs ≤ 0
  · rw [if_pos h0]; exact .fail _ _
  · rw [if_neg h0]
    refine .ite (fun h => ?_) (fun _ => .pure _ rfl)
    refine (sim_mergePass hn bs 0 (2 * bs) (by omega) (by omega) (by omega)).bind fun a hp => ?_
    have hx : 0 ≤ a := by
      obtain ⟨d, d', -, hp⟩ := hp
      exact does_mergePass _ _ _ _ (by omega) (by omega) hp
    exact (sim_when fun h1 => sim_symMerge hn _ _ _ hx (by omega) (by omega) (by omega)).seq
      (sim_stableLoop hn (bs * 2))
termination_by ((n : Int) - bs).toNat

theorem sim_stable (hn : n < 2 ^ 63) : Sim lt ge n id (Sort.stable n) (stable lt ge n) :=
  (sim_blockLoop _ _ _).bind fun _ _ => (sim_insertionSort _ _).seq (sim_stableLoop hn _)

/-! ## The exported functions -/

theorem contents_does {p : M E Unit} {d out : List E} (h : contentsOf (runProg p (ofOps lt ge) () d) = .ok out) :
    Does lt ge p d () out := by
  unfold runProg at h
  cases e : (p d).exec (ofOps lt ge) () with
  | error m => rw [e] at h; cases h
  | ok r =>
    obtain ⟨⟨⟨⟩, d'⟩, s, k⟩ := r
    rw [e] at h
    cases h
    exact ev_exec _ e

/-- **`sort_ordered.go` as written.** For every pair of operators and every slice a Go program can have,
`SortOrdered` and `StableOrdered`, transcribed on their own and without any bound on their loops, end without a
panic and leave in the slice what the common model says. -/
theorem C06_as_written (lt ge : E → E → Bool) (data : List E) (hn : data.length < 2 ^ 63) :
    SortOrdered lt ge data = some (sortOrdered lt ge data) ∧
    StableOrdered lt ge data = some (Sort.stableOrdered lt ge data) := by
  obtain ⟨-, ⟨o1, h1⟩, -, ⟨o2, h2⟩, -⟩ := C03_returns_normally data lt lt ge
  refine ⟨?_, ?_⟩
  · rw [h1]
    have := (sim_pdqsort hn (data.length + 1) 0 data.length (bitsLen data.length) true true (by omega) (by omega)
      (by omega) data () o1 rfl (contents_does h1)).1
    show after (pdqLoop lt ge 0 data.length (bitsLen data.length) true true data) = _
    rw [this]
    rfl
  · rw [h2]
    have := (sim_stable hn data () o2 rfl (contents_does h2)).1
    unfold StableOrdered
    rw [this]
    rfl

/-- **C06 for the code as written.** On a type whose `<` is a total order with `>=` its negation, `SortOrdered` gives
exactly what `Sort` with `<` gives and `StableOrdered` exactly what `Stable` gives. -/
theorem C06_written_variants (lt ge : E → E → Bool) (hge : ∀ x y, ge x y = !lt x y) (data : List E)
    (hn : data.length < 2 ^ 63) :
    SortOrdered lt ge data = some (sort lt data) ∧ StableOrdered lt ge data = some (stableSort lt data) := by
  obtain ⟨h1, h2⟩ := C06_as_written lt ge data hn
  rw [h1, h2]
  unfold sortOrdered Sort.stableOrdered
  rw [ofOps_eq_ofLess hge]
  exact ⟨rfl, rfl⟩

example : ∃ out, SortOrdered (fun x y : Int => decide (x < y)) (fun x y => decide (x ≥ y)) [3, 1, 2] = some (.ok out) ∧
    out.Perm [3, 1, 2] ∧ out.Pairwise (· ≤ ·) := by
  obtain ⟨out, h, h'⟩ := (C06_ordered_variants (E := Int) (by omega) (by omega) (by omega) (by omega) [3, 1, 2]).2.2.1
  exact ⟨out, by rw [(C06_as_written _ _ _ (by simp)).1, h], h'⟩

/-- Operators like those of floats, where `>=` is not the negation of `<`: the slice is still what the model says. -/
example : SortOrdered (fun x y : Nat => decide (0 < x ∧ 0 < y ∧ x < y)) (fun x y => decide (0 < x ∧ 0 < y ∧ x ≥ y))
    [3, 0, 2] = some (sortOrdered (fun x y : Nat => decide (0 < x ∧ 0 < y ∧ x < y))
      (fun x y => decide (0 < x ∧ 0 < y ∧ x ≥ y)) [3, 0, 2]) := (C06_as_written _ _ _ (by simp)).1

end Verif.Sort.Ordered
