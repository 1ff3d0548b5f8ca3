import Verif.Src.SortAnyBasic

/-!
# xsort/sort_any.go: partitions, partial insertion sort

As in Src/SortAnyBasic.lean.
-/

namespace Verif.Src.Sort.Any

open Verif.Sort (M el inRange ofOps swapL)

variable {E : Type} [Inhabited E] {lt : E → E → Bool} (lt0 ge0 : E → E → Bool) {m : Mem E} {v : Val E} {k : Nat}

/-! ## Partition -/

theorem scanUp_src (C : Calls E) (h : On m v k) (hk : k < 2 ^ 60) {a b pivot j x : Int} {al : Bool} {i i' : Int} {d d' : List E}
    (hd : d.length = k) (hr : Ran lt (fun x y => !lt x y) (Verif.Sort.scanUp a j i) d i' d') :
    d' = d ∧ forOf (ctx lt0 ge0 lt) C (nth partitionLessFunc_fn.body 2)
        [("j", .num .int j), ("i", .num .int i), ("newpivot", .num .int x), ("alreadyPartitioned", .bool al), ("data", v),
          ("a", .num .int a), ("b", .num .int b), ("pivot", .num .int pivot), ("less", .fn "less")] (wr m v d) =
      pure (.next, [("j", .num .int j), ("i", .num .int i'), ("newpivot", .num .int x), ("alreadyPartitioned", .bool al),
          ("data", v), ("a", .num .int a), ("b", .num .int b), ("pivot", .num .int pivot), ("less", .fn "less")], wr m v d) := by
  generalize hn : (j + 1 - i).toNat = n
  induction n using Nat.strongRecOn generalizing i with
  | _ n ih =>
    unfold Verif.Sort.scanUp at hr
    simp only [partitionLessFunc_fn, nth, forOf] at ih ⊢
    rw [rounds_eq]
    by_cases hja : i ≤ j
    · rw [if_pos hja] at hr
      obtain ⟨c, d1, h1, hr⟩ := hr.bind
      obtain ⟨r1, r2, hc, rfl⟩ := h1.lessAt
      cases c with
      | true =>
        simp only [if_true] at hr
        obtain ⟨g1, g2⟩ := ih _ (by omega) hr rfl
        refine ⟨g1, ?_⟩
        go_run [h.fetch, h.index, hc, g2]
      | false =>
        obtain ⟨rfl, rfl⟩ := hr.ret
        refine ⟨rfl, ?_⟩
        go_run [h.fetch, h.index, hc]
    · rw [if_neg hja] at hr
      obtain ⟨rfl, rfl⟩ := hr.ret
      exact ⟨rfl, by go_run []⟩

theorem scanDown_src (C : Calls E) (h : On m v k) (hk : k < 2 ^ 60) {a b pivot i x : Int} {al : Bool} {j j' : Int} {d d' : List E}
    (hd : d.length = k) (hr : Ran lt (fun x y => !lt x y) (Verif.Sort.scanDown a i j) d j' d') :
    d' = d ∧ forOf (ctx lt0 ge0 lt) C (nth partitionLessFunc_fn.body 3)
        [("j", .num .int j), ("i", .num .int i), ("newpivot", .num .int x), ("alreadyPartitioned", .bool al), ("data", v),
          ("a", .num .int a), ("b", .num .int b), ("pivot", .num .int pivot), ("less", .fn "less")] (wr m v d) =
      pure (.next, [("j", .num .int j'), ("i", .num .int i), ("newpivot", .num .int x), ("alreadyPartitioned", .bool al),
          ("data", v), ("a", .num .int a), ("b", .num .int b), ("pivot", .num .int pivot), ("less", .fn "less")], wr m v d) := by
  generalize hn : (j + 1 - i).toNat = n
  induction n using Nat.strongRecOn generalizing j with
  | _ n ih =>
    unfold Verif.Sort.scanDown at hr
    simp only [partitionLessFunc_fn, nth, forOf] at ih ⊢
    rw [rounds_eq]
    by_cases hja : i ≤ j
    · rw [if_pos hja] at hr
      obtain ⟨c, d1, h1, hr⟩ := hr.bind
      obtain ⟨r1, r2, hc, rfl⟩ := h1.nlessAt
      cases c with
      | true =>
        simp only [if_true] at hr
        obtain ⟨g1, g2⟩ := ih _ (by omega) hr rfl
        refine ⟨g1, ?_⟩
        go_run [h.fetch, h.index, hc, g2]
      | false =>
        obtain ⟨rfl, rfl⟩ := hr.ret
        refine ⟨rfl, ?_⟩
        go_run [h.fetch, h.index, hc]
    · rw [if_neg hja] at hr
      obtain ⟨rfl, rfl⟩ := hr.ret
      exact ⟨rfl, by go_run []⟩

/-- The loop, up to the last exchange. -/
theorem partLoop_src (C : Calls E) (h : On m v k) (hk : k < 2 ^ 60) {a b pivot x : Int} {al : Bool} (fuel : Nat) {i j j' : Int}
    {d d' : List E} (hd : d.length = k) (hr : Ran lt (fun x y => !lt x y) (Verif.Sort.partLoop fuel a i j) d j' d') :
    ∃ i' d1, d1.length = k ∧ Ran lt (fun x y => !lt x y) (Verif.Sort.swap j' a) d1 () d' ∧ forOf (ctx lt0 ge0 lt) C (nth partitionLessFunc_fn.body 8)
        [("j", .num .int j), ("i", .num .int i), ("newpivot", .num .int x), ("alreadyPartitioned", .bool al), ("data", v),
          ("a", .num .int a), ("b", .num .int b), ("pivot", .num .int pivot), ("less", .fn "less")] (wr m v d) =
      pure (.next, [("j", .num .int j'), ("i", .num .int i'), ("newpivot", .num .int x), ("alreadyPartitioned", .bool al),
          ("data", v), ("a", .num .int a), ("b", .num .int b), ("pivot", .num .int pivot), ("less", .fn "less")], wr m v d1) := by
  induction fuel generalizing i j d with
  | zero => exact hr.fail.elim
  | succ fuel ih =>
    unfold Verif.Sort.partLoop at hr
    obtain ⟨i1, d1, h1, hr1⟩ := hr.bind
    obtain ⟨rfl, f1⟩ := scanUp_src lt0 ge0 C h hk (b := b) (pivot := pivot) (x := x) (al := al) hd h1
    obtain ⟨j1, d2, h2, hr2⟩ := hr1.bind
    obtain ⟨rfl, f2⟩ := scanDown_src lt0 ge0 C h hk (b := b) (pivot := pivot) (x := x) (al := al) hd h2
    simp only [partitionLessFunc_fn, nth, forOf] at ih f1 f2 ⊢
    rw [rounds_eq]
    by_cases hja : i1 > j1
    · rw [if_pos hja] at hr2
      obtain ⟨_, d3, h3, hr3⟩ := hr2.bind
      obtain ⟨rfl, rfl⟩ := hr3.ret
      refine ⟨i1, d2, hd, h3, ?_⟩
      go_run [f1, f2]
    · rw [if_neg hja] at hr2
      obtain ⟨_, d3, h3, hr3⟩ := hr2.bind
      obtain ⟨r1, r2, hl, hs⟩ := h3.swap
      obtain ⟨i', d4, g1, g2, g3⟩ := ih (hl.trans hd) hr3
      refine ⟨i', d4, g1, g2, ?_⟩
      go_run [f1, f2, h.fetch, h.index, h.store, hs, g3]

set_option maxHeartbeats 1000000 in
theorem partition_src (n : Nat) (h : On m v k) (hk : k < 2 ^ 60) {a b pivot : Int} (hb : b ≤ k) {p : Int × Bool}
    {d d' : List E} (hd : d.length = k) (hb0 : 0 ≤ b) (hr : Ran lt (fun x y => !lt x y) (Verif.Sort.partition a b pivot) d p d') :
    d'.length = k ∧ (0 ≤ p.1 ∧ p.1 < k) ∧ calls (ctx lt0 ge0 lt) (n + 1) "partitionLessFunc" [v, .num .int a, .num .int b, .num .int pivot, .fn "less"]
      (wr m v d) = pure ([.num .int p.1, .bool p.2], wr m v d') := by
  obtain ⟨_, d1, h1, hr1⟩ := hr.bind
  obtain ⟨r1, r2, hl, hs⟩ := h1.swap
  obtain ⟨i1, d2, h2, hr2⟩ := hr1.bind
  obtain ⟨rfl, f1⟩ := scanUp_src lt0 ge0 (calls (ctx lt0 ge0 lt) n) h hk (b := b) (pivot := pivot) (x := 0) (al := false) (hl.trans hd) h2
  obtain ⟨j1, d3, h3, hr3⟩ := hr2.bind
  obtain ⟨rfl, f2⟩ := scanDown_src lt0 ge0 (calls (ctx lt0 ge0 lt) n) h hk (b := b) (pivot := pivot) (x := 0) (al := false) (hl.trans hd) h3
  simp only [partitionLessFunc_fn, nth, forOf] at f1 f2
  rw [calls]
  by_cases hja : i1 > j1
  · rw [if_pos hja] at hr3
    obtain ⟨_, d4, h4, hr4⟩ := hr3.bind
    obtain ⟨rfl, rfl⟩ := hr4.ret
    obtain ⟨q1, q2, hl', hs'⟩ := h4.swap
    refine ⟨by omega, by simp only; omega, ?_⟩
    go_run [partitionLessFunc_fn, h.coerce, h.fetch, h.index, h.store, hs, f1, f2, hs']
  · rw [if_neg hja] at hr3
    obtain ⟨_, d4, h4, hr4⟩ := hr3.bind
    obtain ⟨q1, q2, hl', hs'⟩ := h4.swap
    obtain ⟨j2, d5, h5, hr5⟩ := hr4.bind
    obtain ⟨i2, d6, g1, g2, g3⟩ := partLoop_src lt0 ge0 (calls (ctx lt0 ge0 lt) n) h hk (b := b) (pivot := pivot) (x := 0) (al := false) _
      (by omega) h5
    simp only [partitionLessFunc_fn, nth, forOf] at g3
    obtain ⟨s1, s2, hl'', hs''⟩ := g2.swap
    obtain ⟨rfl, rfl⟩ := hr5.ret
    refine ⟨by omega, by simp only; omega, ?_⟩
    go_run [partitionLessFunc_fn, h.coerce, h.fetch, h.index, h.store, hs, f1, f2, hs', g3, hs'']

/-! ## Partition by equality -/

theorem scanUpEq_src (C : Calls E) (h : On m v k) (hk : k < 2 ^ 60) {a b pivot j x : Int} {i i' : Int} (hi0 : 0 ≤ i) (hik : i ≤ k)
    {d d' : List E}
    (hd : d.length = k) (hr : Ran lt (fun x y => !lt x y) (Verif.Sort.scanUpEq a j i) d i' d') :
    d' = d ∧ (0 ≤ i' ∧ i' ≤ k) ∧ forOf (ctx lt0 ge0 lt) C (nth (bodyOf (nth partitionEqualLessFunc_fn.body 2)) 0)
        [("j", .num .int j), ("i", .num .int i), ("newpivot", .num .int x), ("data", v),
          ("a", .num .int a), ("b", .num .int b), ("pivot", .num .int pivot), ("less", .fn "less")] (wr m v d) =
      pure (.next, [("j", .num .int j), ("i", .num .int i'), ("newpivot", .num .int x),
          ("data", v), ("a", .num .int a), ("b", .num .int b), ("pivot", .num .int pivot), ("less", .fn "less")], wr m v d) := by
  generalize hn : (j + 1 - i).toNat = n
  induction n using Nat.strongRecOn generalizing i with
  | _ n ih =>
    unfold Verif.Sort.scanUpEq at hr
    simp only [partitionEqualLessFunc_fn, nth, bodyOf, forOf] at ih ⊢
    rw [rounds_eq]
    by_cases hja : i ≤ j
    · rw [if_pos hja] at hr
      obtain ⟨c, d1, h1, hr⟩ := hr.bind
      obtain ⟨r1, r2, hc, rfl⟩ := h1.nlessAt
      cases c with
      | true =>
        simp only [if_true] at hr
        obtain ⟨g1, g2, g3⟩ := ih _ (by omega) (by omega) (by omega) hr rfl
        refine ⟨g1, g2, ?_⟩
        go_run [h.fetch, h.index, hc, g3]
      | false =>
        obtain ⟨rfl, rfl⟩ := hr.ret
        refine ⟨rfl, ⟨hi0, hik⟩, ?_⟩
        go_run [h.fetch, h.index, hc]
    · rw [if_neg hja] at hr
      obtain ⟨rfl, rfl⟩ := hr.ret
      exact ⟨rfl, ⟨hi0, hik⟩, by go_run []⟩

theorem scanDownEq_src (C : Calls E) (h : On m v k) (hk : k < 2 ^ 60) {a b pivot i x : Int} {j j' : Int} {d d' : List E}
    (hd : d.length = k) (hr : Ran lt (fun x y => !lt x y) (Verif.Sort.scanDownEq a i j) d j' d') :
    d' = d ∧ forOf (ctx lt0 ge0 lt) C (nth (bodyOf (nth partitionEqualLessFunc_fn.body 2)) 1)
        [("j", .num .int j), ("i", .num .int i), ("newpivot", .num .int x), ("data", v),
          ("a", .num .int a), ("b", .num .int b), ("pivot", .num .int pivot), ("less", .fn "less")] (wr m v d) =
      pure (.next, [("j", .num .int j'), ("i", .num .int i), ("newpivot", .num .int x),
          ("data", v), ("a", .num .int a), ("b", .num .int b), ("pivot", .num .int pivot), ("less", .fn "less")], wr m v d) := by
  generalize hn : (j + 1 - i).toNat = n
  induction n using Nat.strongRecOn generalizing j with
  | _ n ih =>
    unfold Verif.Sort.scanDownEq at hr
    simp only [partitionEqualLessFunc_fn, nth, bodyOf, forOf] at ih ⊢
    rw [rounds_eq]
    by_cases hja : i ≤ j
    · rw [if_pos hja] at hr
      obtain ⟨c, d1, h1, hr⟩ := hr.bind
      obtain ⟨r1, r2, hc, rfl⟩ := h1.lessAt
      cases c with
      | true =>
        simp only [if_true] at hr
        obtain ⟨g1, g2⟩ := ih _ (by omega) hr rfl
        refine ⟨g1, ?_⟩
        go_run [h.fetch, h.index, hc, g2]
      | false =>
        obtain ⟨rfl, rfl⟩ := hr.ret
        refine ⟨rfl, ?_⟩
        go_run [h.fetch, h.index, hc]
    · rw [if_neg hja] at hr
      obtain ⟨rfl, rfl⟩ := hr.ret
      exact ⟨rfl, by go_run []⟩

theorem partEqLoop_src (C : Calls E) (h : On m v k) (hk : k < 2 ^ 60) {a b pivot x : Int} (fuel : Nat) {i j i' : Int}
    (hi0 : 0 ≤ i) (hik : i ≤ k) {d d' : List E} (hd : d.length = k) (hr : Ran lt (fun x y => !lt x y) (Verif.Sort.partEqLoop fuel a i j) d i' d') :
    d'.length = k ∧ (0 ≤ i' ∧ i' ≤ k) ∧ ∃ j', forOf (ctx lt0 ge0 lt) C (nth partitionEqualLessFunc_fn.body 2)
        [("j", .num .int j), ("i", .num .int i), ("newpivot", .num .int x), ("data", v),
          ("a", .num .int a), ("b", .num .int b), ("pivot", .num .int pivot), ("less", .fn "less")] (wr m v d) =
      pure (.next, [("j", .num .int j'), ("i", .num .int i'), ("newpivot", .num .int x),
          ("data", v), ("a", .num .int a), ("b", .num .int b), ("pivot", .num .int pivot), ("less", .fn "less")], wr m v d') := by
  induction fuel generalizing i j d with
  | zero => exact hr.fail.elim
  | succ fuel ih =>
    unfold Verif.Sort.partEqLoop at hr
    obtain ⟨i1, d1, h1, hr1⟩ := hr.bind
    obtain ⟨rfl, b1, f1⟩ := scanUpEq_src lt0 ge0 C h hk (b := b) (pivot := pivot) (x := x) hi0 hik hd h1
    obtain ⟨j1, d2, h2, hr2⟩ := hr1.bind
    obtain ⟨rfl, f2⟩ := scanDownEq_src lt0 ge0 C h hk (b := b) (pivot := pivot) (x := x) hd h2
    simp only [partitionEqualLessFunc_fn, nth, bodyOf, forOf] at ih f1 f2 ⊢
    rw [rounds_eq]
    by_cases hja : i1 > j1
    · rw [if_pos hja] at hr2
      obtain ⟨rfl, rfl⟩ := hr2.ret
      refine ⟨hd, b1, j1, ?_⟩
      go_run [f1, f2]
    · rw [if_neg hja] at hr2
      obtain ⟨_, d3, h3, hr3⟩ := hr2.bind
      obtain ⟨r1, r2, hl, hs⟩ := h3.swap
      obtain ⟨g1, g2, j', g3⟩ := ih (by omega) (by omega) (hl.trans hd) hr3
      refine ⟨g1, g2, j', ?_⟩
      go_run [f1, f2, h.fetch, h.index, h.store, hs, g3]

theorem partitionEqual_src (n : Nat) (h : On m v k) (hk : k < 2 ^ 60) {a b pivot : Int} (hb0 : 0 ≤ b) (hb : b ≤ k) {p : Int}
    {d d' : List E} (hd : d.length = k) (hr : Ran lt (fun x y => !lt x y) (Verif.Sort.partitionEqual a b pivot) d p d') :
    d'.length = k ∧ (0 ≤ p ∧ p ≤ k) ∧
      calls (ctx lt0 ge0 lt) (n + 1) "partitionEqualLessFunc" [v, .num .int a, .num .int b, .num .int pivot, .fn "less"]
        (wr m v d) = pure ([.num .int p], wr m v d') := by
  obtain ⟨_, d1, h1, hr1⟩ := hr.bind
  obtain ⟨r1, r2, hl, hs⟩ := h1.swap
  obtain ⟨g1, g2, j', g3⟩ := partEqLoop_src lt0 ge0 (calls (ctx lt0 ge0 lt) n) h hk (b := b) (pivot := pivot) (x := 0) _ (by omega) (by omega)
    (by omega) hr1
  simp only [partitionEqualLessFunc_fn, nth, forOf] at g3
  refine ⟨g1, g2, ?_⟩
  rw [calls]
  go_run [partitionEqualLessFunc_fn, h.coerce, h.fetch, h.index, h.store, hs, g3]

/-! ## Partial insertion sort -/

theorem scanSorted_src (C : Calls E) (h : On m v k) (hk : k < 2 ^ 60) {a b s : Int} {i i' : Int} {d d' : List E}
    (hd : d.length = k) (hi0 : 0 ≤ i) (hik : i ≤ k) (hr : Ran lt (fun x y => !lt x y) (Verif.Sort.scanSorted b i) d i' d') :
    d' = d ∧ (0 ≤ i' ∧ i' ≤ k) ∧ forOf (ctx lt0 ge0 lt) C (nth (bodyOf (nth partialInsertionSortLessFunc_fn.body 3)) 0)
        [("j", .num .int s), ("i", .num .int i), ("shortestShifting", .num .lit 50), ("maxSteps", .num .lit 5), ("data", v),
          ("a", .num .int a), ("b", .num .int b), ("less", .fn "less")] (wr m v d) =
      pure (.next, [("j", .num .int s), ("i", .num .int i'), ("shortestShifting", .num .lit 50), ("maxSteps", .num .lit 5),
          ("data", v), ("a", .num .int a), ("b", .num .int b), ("less", .fn "less")], wr m v d) := by
  generalize hn : (b - i).toNat = n
  induction n using Nat.strongRecOn generalizing i with
  | _ n ih =>
    unfold Verif.Sort.scanSorted at hr
    simp only [partialInsertionSortLessFunc_fn, nth, bodyOf, forOf] at ih ⊢
    rw [rounds_eq]
    by_cases hja : i < b
    · rw [if_pos hja] at hr
      obtain ⟨c, d1, h1, hr⟩ := hr.bind
      obtain ⟨r1, r2, hc, rfl⟩ := h1.nlessAt
      cases c with
      | true =>
        simp only [if_true] at hr
        obtain ⟨g1, g2, g3⟩ := ih _ (by omega) (by omega) (by omega) hr rfl
        refine ⟨g1, g2, ?_⟩
        go_run [h.fetch, h.index, hc, g3]
      | false =>
        obtain ⟨rfl, rfl⟩ := hr.ret
        refine ⟨rfl, ⟨hi0, hik⟩, ?_⟩
        go_run [h.fetch, h.index, hc]
    · rw [if_neg hja] at hr
      obtain ⟨rfl, rfl⟩ := hr.ret
      exact ⟨rfl, ⟨hi0, hik⟩, by go_run []⟩

theorem shiftLeft_src (C : Calls E) (h : On m v k) (hk : k < 2 ^ 60) {a b s i : Int} {j : Int} {d d' : List E}
    (hd : d.length = k) (hr : Ran lt (fun x y => !lt x y) (Verif.Sort.shiftLeft j) d () d') :
    d'.length = k ∧ ∃ j', forOf (ctx lt0 ge0 lt) C (nth (bodyOf (nth (bodyOf (nth partialInsertionSortLessFunc_fn.body 3)) 4)) 0)
        [("j", .num .int j), ("j", .num .int s), ("i", .num .int i), ("shortestShifting", .num .lit 50),
          ("maxSteps", .num .lit 5), ("data", v), ("a", .num .int a), ("b", .num .int b), ("less", .fn "less")] (wr m v d) =
      pure (.next, [("j", .num .int j'), ("j", .num .int s), ("i", .num .int i), ("shortestShifting", .num .lit 50),
          ("maxSteps", .num .lit 5), ("data", v), ("a", .num .int a), ("b", .num .int b), ("less", .fn "less")], wr m v d') := by
  generalize hn : j.toNat = n
  induction n using Nat.strongRecOn generalizing j d with
  | _ n ih =>
    unfold Verif.Sort.shiftLeft at hr
    simp only [partialInsertionSortLessFunc_fn, nth, bodyOf, forOf] at ih ⊢
    rw [rounds_eq]
    by_cases hja : j ≥ 1
    · rw [if_pos hja] at hr
      obtain ⟨c, d1, h1, hr1⟩ := hr.bind
      obtain ⟨r1, r2, hc, rfl⟩ := h1.nlessAt
      cases c with
      | true =>
        obtain ⟨-, rfl⟩ := hr1.ret
        refine ⟨hd, j, ?_⟩
        go_run [h.fetch, h.index, hc]
      | false =>
        simp only [Bool.false_eq_true, if_false] at hr1
        obtain ⟨_, d2, h2, hr2⟩ := hr1.bind
        obtain ⟨-, -, hl, hs⟩ := h2.swap
        obtain ⟨g1, j', g2⟩ := ih _ (by omega) (hl.trans hd) hr2 rfl
        refine ⟨g1, j', ?_⟩
        go_run [h.fetch, h.index, hc, h.store, hs, g2]
    · rw [if_neg hja] at hr
      obtain ⟨-, rfl⟩ := hr.ret
      exact ⟨hd, j, by go_run []⟩

theorem shiftRight_src (C : Calls E) (h : On m v k) (hk : k < 2 ^ 60) {a b s i : Int} {j : Int} {d d' : List E}
    (hd : d.length = k) (hr : Ran lt (fun x y => !lt x y) (Verif.Sort.shiftRight b j) d () d') :
    d'.length = k ∧ ∃ j', forOf (ctx lt0 ge0 lt) C (nth (bodyOf (nth (bodyOf (nth partialInsertionSortLessFunc_fn.body 3)) 5)) 0)
        [("j", .num .int j), ("j", .num .int s), ("i", .num .int i), ("shortestShifting", .num .lit 50),
          ("maxSteps", .num .lit 5), ("data", v), ("a", .num .int a), ("b", .num .int b), ("less", .fn "less")] (wr m v d) =
      pure (.next, [("j", .num .int j'), ("j", .num .int s), ("i", .num .int i), ("shortestShifting", .num .lit 50),
          ("maxSteps", .num .lit 5), ("data", v), ("a", .num .int a), ("b", .num .int b), ("less", .fn "less")], wr m v d') := by
  generalize hn : (b - j).toNat = n
  induction n using Nat.strongRecOn generalizing j d with
  | _ n ih =>
    unfold Verif.Sort.shiftRight at hr
    simp only [partialInsertionSortLessFunc_fn, nth, bodyOf, forOf] at ih ⊢
    rw [rounds_eq]
    by_cases hja : j < b
    · rw [if_pos hja] at hr
      obtain ⟨c, d1, h1, hr1⟩ := hr.bind
      obtain ⟨r1, r2, hc, rfl⟩ := h1.nlessAt
      cases c with
      | true =>
        obtain ⟨-, rfl⟩ := hr1.ret
        refine ⟨hd, j, ?_⟩
        go_run [h.fetch, h.index, hc]
      | false =>
        simp only [Bool.false_eq_true, if_false] at hr1
        obtain ⟨_, d2, h2, hr2⟩ := hr1.bind
        obtain ⟨-, -, hl, hs⟩ := h2.swap
        obtain ⟨g1, j', g2⟩ := ih _ (by omega) (hl.trans hd) hr2 rfl
        refine ⟨g1, j', ?_⟩
        go_run [h.fetch, h.index, hc, h.store, hs, g2]
    · rw [if_neg hja] at hr
      obtain ⟨-, rfl⟩ := hr.ret
      exact ⟨hd, j, by go_run []⟩

theorem partialLoop_src (C : Calls E) (h : On m v k) (hk : k < 2 ^ 60) {a b : Int} (ha : 0 ≤ a) (hak : a ≤ k) (hb0 : 0 ≤ b)
    (hb : b ≤ k) (t : Nat) (ht : t ≤ 5) {i : Int} (hi0 : 0 ≤ i) (hik : i ≤ k) {q : Bool}
    {d d' : List E} (hd : d.length = k) (hr : Ran lt (fun x y => !lt x y) (Verif.Sort.partialLoop t a b i) d q d') :
    d'.length = k ∧ ∃ j' i' f, (f = .ret [.bool q] ∨ f = .next ∧ q = false) ∧
      forOf (ctx lt0 ge0 lt) C (nth partialInsertionSortLessFunc_fn.body 3)
        [("j", .num .int (5 - t)), ("i", .num .int i), ("shortestShifting", .num .lit 50), ("maxSteps", .num .lit 5), ("data", v),
          ("a", .num .int a), ("b", .num .int b), ("less", .fn "less")] (wr m v d) =
      pure (f, [("j", .num .int j'), ("i", .num .int i'), ("shortestShifting", .num .lit 50), ("maxSteps", .num .lit 5),
          ("data", v), ("a", .num .int a), ("b", .num .int b), ("less", .fn "less")], wr m v d') := by
  induction t generalizing i d with
  | zero =>
    obtain ⟨rfl, rfl⟩ := hr.ret
    refine ⟨hd, 5, i, .next, Or.inr ⟨rfl, rfl⟩, ?_⟩
    simp only [partialInsertionSortLessFunc_fn, nth, forOf]
    rw [rounds_eq]
    go_run []
  | succ t ih =>
    unfold Verif.Sort.partialLoop at hr
    obtain ⟨i1, d1, h1, hr1⟩ := hr.bind
    obtain ⟨rfl, b1, f1⟩ := scanSorted_src lt0 ge0 C h hk (a := a) (s := 5 - (t + 1 : Nat)) hd hi0 hik h1
    simp only [partialInsertionSortLessFunc_fn, nth, bodyOf, forOf] at ih f1 ⊢
    rw [rounds_eq]
    by_cases hib : i1 = b
    · rw [if_pos hib] at hr1
      obtain ⟨rfl, rfl⟩ := hr1.ret
      refine ⟨hd, 5 - (t + 1 : Nat), i1, .ret [.bool true], Or.inl rfl, ?_⟩
      go_run [f1]
    rw [if_neg hib] at hr1
    by_cases hs : b - a < 50
    · rw [if_pos hs] at hr1
      obtain ⟨rfl, rfl⟩ := hr1.ret
      refine ⟨hd, 5 - (t + 1 : Nat), i1, .ret [.bool false], Or.inl rfl, ?_⟩
      go_run [f1]
    rw [if_neg hs] at hr1
    obtain ⟨_, d2, h2, hr2⟩ := hr1.bind
    obtain ⟨q1, q2, hl, hsw⟩ := h2.swap
    obtain ⟨_, d3, h3, hr3⟩ := hr2.bind
    obtain ⟨_, d4, h4, hr4⟩ := hr3.bind
    have hj : (5 - (t + 1 : Nat) : Int) + 1 = 5 - t := by omega
    by_cases c1 : i1 - a ≥ 2
    · rw [Verif.Sort.M.when, if_pos c1] at h3
      obtain ⟨e1, j1, e2⟩ := shiftLeft_src lt0 ge0 C h hk (a := a) (b := b) (i := i1) (s := 5 - (t + 1 : Nat)) (by omega) h3
      by_cases c2 : b - i1 ≥ 2
      · rw [Verif.Sort.M.when, if_pos c2] at h4
        obtain ⟨e3, j2, e4⟩ := shiftRight_src lt0 ge0 C h hk (a := a) (b := b) (i := i1) (s := 5 - (t + 1 : Nat)) (by omega) h4
        obtain ⟨g1, j', i', f, g2, g3⟩ := ih (by omega) (by omega) (by omega) e3 hr4
        simp only [partialInsertionSortLessFunc_fn, nth, bodyOf, forOf] at e2 e4
        refine ⟨g1, j', i', f, g2, ?_⟩
        go_run [f1, h.fetch, h.index, h.store, hsw, e2, e4, hj, g3]
      · rw [Verif.Sort.M.when, if_neg c2] at h4
        obtain ⟨-, rfl⟩ := h4.ret
        obtain ⟨g1, j', i', f, g2, g3⟩ := ih (by omega) (by omega) (by omega) e1 hr4
        simp only [partialInsertionSortLessFunc_fn, nth, bodyOf, forOf] at e2
        refine ⟨g1, j', i', f, g2, ?_⟩
        go_run [f1, h.fetch, h.index, h.store, hsw, e2, hj, g3]
    · rw [Verif.Sort.M.when, if_neg c1] at h3
      obtain ⟨-, rfl⟩ := h3.ret
      by_cases c2 : b - i1 ≥ 2
      · rw [Verif.Sort.M.when, if_pos c2] at h4
        obtain ⟨e3, j2, e4⟩ := shiftRight_src lt0 ge0 C h hk (a := a) (b := b) (i := i1) (s := 5 - (t + 1 : Nat)) (by omega) h4
        obtain ⟨g1, j', i', f, g2, g3⟩ := ih (by omega) (by omega) (by omega) e3 hr4
        simp only [partialInsertionSortLessFunc_fn, nth, bodyOf, forOf] at e4
        refine ⟨g1, j', i', f, g2, ?_⟩
        go_run [f1, h.fetch, h.index, h.store, hsw, e4, hj, g3]
      · omega

theorem partialInsertionSort_src (n : Nat) (h : On m v k) (hk : k < 2 ^ 60) {a b : Int} (ha : 0 ≤ a) (hab : a < b) (hb : b ≤ k)
    {q : Bool} {d d' : List E} (hd : d.length = k) (hr : Ran lt (fun x y => !lt x y) (Verif.Sort.partialInsertionSort a b) d q d') :
    d'.length = k ∧
      calls (ctx lt0 ge0 lt) (n + 1) "partialInsertionSortLessFunc" [v, .num .int a, .num .int b, .fn "less"] (wr m v d) =
        pure ([.bool q], wr m v d') := by
  obtain ⟨g1, j', i', f, g2, g3⟩ := partialLoop_src lt0 ge0 (calls (ctx lt0 ge0 lt) n) h hk ha (by omega) (by omega) hb 5 (by omega) (by omega)
    (by omega) hd hr
  simp only [partialInsertionSortLessFunc_fn, nth, forOf] at g3
  rw [show (5 - (5 : Nat) : Int) = 0 from rfl] at g3
  refine ⟨g1, ?_⟩
  rw [calls]
  rcases g2 with rfl | ⟨rfl, rfl⟩ <;> go_run [partialInsertionSortLessFunc_fn, h.coerce, h.fetch, g3]

/-! ## Reversing -/

theorem revLoop_src (C : Calls E) (h : On m v k) (hk : k < 2 ^ 60) {a b i j : Int} {d d' : List E}
    (hd : d.length = k) (hr : Ran lt (fun x y => !lt x y) (Verif.Sort.revLoop i j) d () d') :
    d'.length = k ∧ ∃ i' j', forOf (ctx lt0 ge0 lt) C (nth reverseRangeLessFunc_fn.body 2)
        [("j", .num .int j), ("i", .num .int i), ("data", v), ("a", .num .int a), ("b", .num .int b), ("less", .fn "less")] (wr m v d) =
      pure (.next, [("j", .num .int j'), ("i", .num .int i'), ("data", v), ("a", .num .int a), ("b", .num .int b), ("less", .fn "less")],
        wr m v d') := by
  generalize hn : (j - i).toNat = n
  induction n using Nat.strongRecOn generalizing i j d with
  | _ n ih =>
    unfold Verif.Sort.revLoop at hr
    simp only [reverseRangeLessFunc_fn, nth, forOf] at ih ⊢
    rw [rounds_eq]
    by_cases hja : i < j
    · rw [if_pos hja] at hr
      obtain ⟨_, d1, h1, hr1⟩ := hr.bind
      obtain ⟨r1, r2, hl, hs⟩ := h1.swap
      obtain ⟨g1, i', j', g2⟩ := ih _ (by omega) (hl.trans hd) hr1 rfl
      refine ⟨g1, i', j', ?_⟩
      go_run [h.fetch, h.index, h.store, hs, g2]
    · rw [if_neg hja] at hr
      obtain ⟨-, rfl⟩ := hr.ret
      exact ⟨hd, i, j, by go_run []⟩

theorem reverseRange_src (n : Nat) (h : On m v k) (hk : k < 2 ^ 60) {a b : Int} (hb0 : 0 ≤ b) (hb : b ≤ k)
    {d d' : List E} (hd : d.length = k) (hr : Ran lt (fun x y => !lt x y) (Verif.Sort.reverseRange a b) d () d') :
    d'.length = k ∧
      calls (ctx lt0 ge0 lt) (n + 1) "reverseRangeLessFunc" [v, .num .int a, .num .int b, .fn "less"] (wr m v d) = pure ([], wr m v d') := by
  obtain ⟨g1, i', j', g2⟩ := revLoop_src lt0 ge0 (calls (ctx lt0 ge0 lt) n) h hk (a := a) (b := b) hd hr
  simp only [reverseRangeLessFunc_fn, nth, forOf] at g2
  refine ⟨g1, ?_⟩
  rw [calls]
  go_run [reverseRangeLessFunc_fn, h.coerce, h.fetch, g2]

end Verif.Src.Sort.Any
