import Verif.Src.SortOrderedPartition
import Verif.Src.SortOrderedPivot

/-!
# xsort/sort_ordered.go: the pattern-defeating quicksort

As in Src/SortOrderedBasic.lean.
-/

namespace Verif.Src.Sort.Ordered

open Verif.Sort (M el inRange ofOps swapL)

variable {E : Type} [Inhabited E] {lt ge : E → E → Bool} (less : E → E → Bool) {m : Mem E} {v : Val E} {k : Nat}

/-- The variables around the loop of `pdqsort`. -/
abbrev outer (v : Val E) (a b limit : Int) (wb wp : Bool) : Env E :=
  [("wasPartitioned", .bool wp), ("wasBalanced", .bool wb), ("maxInsertion", .num .lit 12), ("data", v), ("a", .num .int a),
    ("b", .num .int b), ("limit", .num .int limit)]

/-- The body of the loop of `pdqsort`. -/
abbrev pdqBody : List Stmt := bodyOf (nth pdqsortOrdered_fn.body 3)

theorem breakIf_src (n : Nat) (h : On m v k) (hk : k < 2 ^ 60) {a b limit limit' : Int} (ha : 0 ≤ a) (hab : 8 ≤ b - a) (hb : b ≤ k)
    (hl0 : 0 < limit) (hl : limit < 2 ^ 60) {wb wp : Bool} {d d' : List E} (hd : d.length = k)
    (hr : Ran lt ge (Verif.Sort.breakIfUnbalanced wb a b limit) d limit' d') :
    d'.length = k ∧ (0 ≤ limit' ∧ limit' ≤ limit) ∧ ∃ m', Ext m m' ∧
      exec (ctx lt ge less) (calls (ctx lt ge less) (n + 2)) (nth pdqBody 3) (("length", .num .int (b - a)) :: outer v a b limit wb wp) (wr m v d) =
        pure (.next, ("length", .num .int (b - a)) :: outer v a b limit' wb wp, wr m' v d') := by
  unfold Verif.Sort.breakIfUnbalanced at hr
  simp only [pdqBody, pdqsortOrdered_fn, nth, bodyOf, outer]
  cases wb with
  | true =>
    rw [if_pos rfl] at hr
    obtain ⟨rfl, rfl⟩ := hr.ret
    refine ⟨hd, ⟨by omega, Int.le_refl _⟩, m, .refl m, ?_⟩
    go_run []
  | false =>
    rw [if_neg (by decide)] at hr
    obtain ⟨_, d1, h1, hr1⟩ := hr.bind
    obtain ⟨rfl, rfl⟩ := hr1.ret
    obtain ⟨g1, m', g2, g3⟩ := breakPatterns_src less n h hk ha hab hb hd h1
    refine ⟨g1, ⟨by omega, by omega⟩, m', g2, ?_⟩
    go_run [h.fetch, g3]

theorem reverseIf_src (n : Nat) (h : On m v k) (hk : k < 2 ^ 60) {a b limit pivot len : Int} {hint : Verif.Sort.Hint} (ha : 0 ≤ a)
    (hab : a ≤ b) (hb : b ≤ k) (hp0 : 0 ≤ pivot) (hp : pivot < k)
    {wb wp : Bool} {p : Int × Verif.Sort.Hint} {d d' : List E} (hd : d.length = k)
    (hr : Ran lt ge (Verif.Sort.reverseIfDecreasing a b pivot hint) d p d') :
    d'.length = k ∧
      exec (ctx lt ge less) (calls (ctx lt ge less) (n + 1)) (nth pdqBody 5) (("hint", .num .int (hintNum hint)) :: ("pivot", .num .int pivot) ::
          ("length", .num .int len) :: outer v a b limit wb wp) (wr m v d) =
        pure (.next, ("hint", .num .int (hintNum p.2)) :: ("pivot", .num .int p.1) ::
          ("length", .num .int len) :: outer v a b limit wb wp, wr m v d') := by
  unfold Verif.Sort.reverseIfDecreasing at hr
  simp only [pdqBody, pdqsortOrdered_fn, nth, bodyOf, outer]
  by_cases hh : hint = .decreasing
  · rw [if_pos hh] at hr
    subst hh
    obtain ⟨_, d1, h1, hr1⟩ := hr.bind
    obtain ⟨rfl, rfl⟩ := hr1.ret
    obtain ⟨g1, g2⟩ := reverseRange_src less n h hk (by omega) hb hd h1
    refine ⟨g1, ?_⟩
    go_run [h.fetch, g2, hintNum]
  · rw [if_neg hh] at hr
    obtain ⟨rfl, rfl⟩ := hr.ret
    refine ⟨hd, ?_⟩
    cases hint with
    | unknown => go_run [hintNum]
    | increasing => go_run [hintNum]
    | decreasing => exact absurd rfl hh

theorem tryPartial_src (n : Nat) (h : On m v k) (hk : k < 2 ^ 60) {a b limit pivot len : Int} {hint : Verif.Sort.Hint} (ha : 0 ≤ a)
    (hab : a < b) (hb : b ≤ k)
    {wb wp q : Bool} {d d' : List E} (hd : d.length = k)
    (hr : Ran lt ge (Verif.Sort.tryPartial (wb = true ∧ wp = true ∧ hint = .increasing) a b) d q d') :
    d'.length = k ∧
      exec (ctx lt ge less) (calls (ctx lt ge less) (n + 1)) (nth pdqBody 6) (("hint", .num .int (hintNum hint)) :: ("pivot", .num .int pivot) ::
          ("length", .num .int len) :: outer v a b limit wb wp) (wr m v d) =
        pure (bif q then .ret [] else .next, ("hint", .num .int (hintNum hint)) :: ("pivot", .num .int pivot) ::
          ("length", .num .int len) :: outer v a b limit wb wp, wr m v d') := by
  unfold Verif.Sort.tryPartial at hr
  simp only [pdqBody, pdqsortOrdered_fn, nth, bodyOf, outer]
  by_cases hh : wb = true ∧ wp = true ∧ hint = .increasing
  · rw [if_pos hh] at hr
    obtain ⟨rfl, rfl, rfl⟩ := hh
    obtain ⟨g1, g2⟩ := partialInsertionSort_src less n h hk ha hab hb hd hr
    refine ⟨g1, ?_⟩
    cases q <;> go_run [h.fetch, g2, hintNum, cond_true, cond_false]
  · rw [if_neg hh] at hr
    obtain ⟨rfl, rfl⟩ := hr.ret
    refine ⟨hd, ?_⟩
    cases wb <;> cases wp <;> cases hint <;> first | exact absurd ⟨rfl, rfl, rfl⟩ hh | go_run [hintNum, cond_false]

theorem equalNo_src (C : Calls E) (h : On m v k) (hk : k < 2 ^ 60) {a b limit pivot len : Int} {hint : Verif.Sort.Hint}
    (hak : a ≤ k) {wb wp : Bool} {d d' : List E} (hd : d.length = k)
    (hr : Ran lt ge (Verif.Sort.manyEqual a pivot) d false d') :
    d' = d ∧
      exec (ctx lt ge less) C (nth pdqBody 7) (("hint", .num .int (hintNum hint)) :: ("pivot", .num .int pivot) ::
          ("length", .num .int len) :: outer v a b limit wb wp) (wr m v d) =
        pure (.next, ("hint", .num .int (hintNum hint)) :: ("pivot", .num .int pivot) ::
          ("length", .num .int len) :: outer v a b limit wb wp, wr m v d) := by
  unfold Verif.Sort.manyEqual at hr
  simp only [pdqBody, pdqsortOrdered_fn, nth, bodyOf, outer]
  by_cases ha : a > 0
  · rw [if_pos ha] at hr
    obtain ⟨r1, r2, hc, rfl⟩ := hr.nlessAt
    refine ⟨rfl, ?_⟩
    go_run [h.fetch, h.index, hc]
  · rw [if_neg ha] at hr
    obtain ⟨-, rfl⟩ := hr.ret
    refine ⟨rfl, ?_⟩
    go_run []

theorem equalYes_src (n : Nat) (h : On m v k) (hk : k < 2 ^ 60) {a b limit pivot len mid : Int} {hint : Verif.Sort.Hint}
    (hb0 : 0 ≤ b) (hb : b ≤ k) {wb wp : Bool} {d d1 d' : List E} (hd : d.length = k)
    (hr : Ran lt ge (Verif.Sort.manyEqual a pivot) d true d1) (hr1 : Ran lt ge (Verif.Sort.partitionEqual a b pivot) d1 mid d') :
    d'.length = k ∧ (0 ≤ mid ∧ mid ≤ k) ∧
      exec (ctx lt ge less) (calls (ctx lt ge less) (n + 1)) (nth pdqBody 7) (("hint", .num .int (hintNum hint)) :: ("pivot", .num .int pivot) ::
          ("length", .num .int len) :: outer v a b limit wb wp) (wr m v d) =
        pure (.cont, ("hint", .num .int (hintNum hint)) :: ("pivot", .num .int pivot) ::
          ("length", .num .int len) :: outer v mid b limit wb wp, wr m v d') := by
  unfold Verif.Sort.manyEqual at hr
  simp only [pdqBody, pdqsortOrdered_fn, nth, bodyOf, outer]
  by_cases ha : a > 0
  · rw [if_pos ha] at hr
    obtain ⟨r1, r2, hc, rfl⟩ := hr.nlessAt
    obtain ⟨g1, g2, g3⟩ := partitionEqual_src less n h hk hb0 hb hd hr1
    refine ⟨g1, g2, ?_⟩
    go_run [h.fetch, h.index, hc, g3]
  · rw [if_neg ha] at hr
    obtain ⟨hq, -⟩ := hr.ret
    cases hq

theorem pdqCall_src (n : Nat) (h : On m v k) {q : Kind} (hq : q = .int ∨ q = .lit) {a b limit : Int} {env' : Env E} {m' : Mem E}
    {d : List E}
    (hf : forOf (ctx lt ge less) (calls (ctx lt ge less) n) (nth pdqsortOrdered_fn.body 3) (outer v a b limit true true) (wr m v d) =
      pure (.ret [], env', m')) :
    calls (ctx lt ge less) (n + 1) "pdqsortOrdered" [v, .num q a, .num .int b, .num .int limit] (wr m v d) = pure ([], m') := by
  have hc := h.coerce
  rw [calls]
  simp only [pdqsortOrdered_fn, nth, forOf, outer] at hf
  rcases hq with rfl | rfl <;> go_run [pdqsortOrdered_fn, hc, wrap_lit, hf]

set_option maxHeartbeats 4000000 in
theorem pdqLoop_src (fuel : Nat) : ∀ (n : Nat) (_ : fuel + 5 ≤ n) {m : Mem E} (_ : On m v k) (_ : k < 2 ^ 60) {a b limit : Int}
    (_ : 0 ≤ a) (_ : a ≤ k) (_ : 0 ≤ b) (_ : b ≤ k) (_ : 0 ≤ limit) (_ : limit < 2 ^ 60) {wb wp : Bool} {d d' : List E}
    (_ : d.length = k) (_ : Ran lt ge (Verif.Sort.pdqsort fuel a b limit wb wp) d () d'),
    d'.length = k ∧ ∃ m' env', Ext m m' ∧
      forOf (ctx lt ge less) (calls (ctx lt ge less) n) (nth pdqsortOrdered_fn.body 3) (outer v a b limit wb wp) (wr m v d) =
        pure (.ret [], env', wr m' v d') := by
  induction fuel with
  | zero => intro n hn m h hk a b limit _ _ _ _ _ _ wb wp d d' _ hr; exact hr.fail.elim
  | succ fuel ih =>
    intro n hn m h hk a b limit ha hak hb0 hb hl0 hl wb wp d d' hd hr
    unfold Verif.Sort.pdqsort at hr
    obtain ⟨n, rfl⟩ : ∃ n', n = n' + 6 := ⟨n - 6, by omega⟩
    simp only [forOf, pdqsortOrdered_fn, nth, outer]
    rw [rounds_eq]
    by_cases c1 : b - a ≤ 12
    · rw [if_pos c1] at hr
      obtain ⟨g1, g2⟩ := insertionSort_src less (n + 5) h hk ha hak hb hd hr
      refine ⟨g1, m, outer v a b limit wb wp, .refl m, ?_⟩
      go_run [h.fetch, g2, outer]
    rw [if_neg c1] at hr
    by_cases c2 : limit = 0
    · rw [if_pos c2] at hr
      obtain ⟨g1, g2⟩ := heapSort_src less (n + 4) h hk ha (by omega) hb hd hr
      refine ⟨g1, m, outer v a b limit wb wp, .refl m, ?_⟩
      go_run [h.fetch, g2, outer]
    rw [if_neg c2] at hr
    obtain ⟨limit', d1, hr1, hr2⟩ := hr.bind
    obtain ⟨l1, ⟨l2, l3⟩, m1, x1, e3⟩ := breakIf_src less (n + 4) h hk (wp := wp) ha (by omega) hb (by omega) hl hd hr1
    obtain ⟨⟨pivot, hint⟩, d2, hr3, hr4⟩ := hr2.bind
    obtain ⟨rfl, ⟨p0, p1⟩, m2, x2, e4⟩ := choosePivot_src less (n + 2) (h.ext x1) hk ha (by omega) hb l1 hr3
    have h' := (h.ext x1).ext x2
    obtain ⟨⟨pivot', hint'⟩, d3, hr5, hr6⟩ := hr4.bind
    obtain ⟨l4, e5⟩ := reverseIf_src less (n + 5) h' hk (limit := limit') (len := b - a) (wb := wb) (wp := wp) ha (by omega) hb p0 p1
      l1 hr5
    obtain ⟨q, d4, hr7, hr8⟩ := hr6.bind
    obtain ⟨l5, e6⟩ := tryPartial_src less (n + 5) h' hk (limit := limit') (pivot := pivot') (len := b - a) ha (by omega) hb l4 hr7
    simp only [pdqBody, pdqsortOrdered_fn, nth, bodyOf, outer] at e3 e4 e5 e6
    cases q with
    | true =>
      rw [if_pos rfl] at hr8
      obtain ⟨-, rfl⟩ := hr8.ret
      rw [cond_true] at e6
      refine ⟨l5, m2, outer v a b limit' wb wp, x1.trans x2, ?_⟩
      go_run [h.fetch, (h.ext x1).fetch, e3, e4, e5, e6, outer]
    | false =>
      rw [if_neg (by decide)] at hr8
      rw [cond_false] at e6
      obtain ⟨q, d5, hr9, hr10⟩ := hr8.bind
      cases q with
      | true =>
        rw [if_pos rfl] at hr10
        obtain ⟨mid, d6, hr11, hr12⟩ := hr10.bind
        obtain ⟨l6, ⟨q0, q1⟩, e7⟩ := equalYes_src less (n + 5) h' hk (limit := limit') (hint := hint') (len := b - a) (wb := wb)
          (wp := wp) hb0 hb l5 hr9 hr11
        obtain ⟨g1, m3, env', x3, g2⟩ := ih (n + 6) (by omega) h' hk q0 q1 hb0 hb l2 (by omega) l6 hr12
        simp only [pdqBody, pdqsortOrdered_fn, nth, bodyOf, outer, forOf] at e7 g2
        refine ⟨g1, m3, env', (x1.trans x2).trans x3, ?_⟩
        go_run [h.fetch, (h.ext x1).fetch, e3, e4, e5, e6, e7, g2]
      | false =>
        rw [if_neg (by decide)] at hr10
        obtain ⟨rfl, e7⟩ := equalNo_src less (calls (ctx lt ge less) (n + 6)) h' hk (b := b) (limit := limit') (hint := hint') (len := b - a)
          (wb := wb) (wp := wp) hak l5 hr9
        obtain ⟨⟨mid, al⟩, d6, hr11, hr12⟩ := hr10.bind
        obtain ⟨l6, ⟨q0, q1⟩, e8⟩ := partition_src less (n + 5) h' hk hb l5 hb0 hr11
        simp only at q0 q1 e8 hr12
        have o8 : (b - a) / 8 = (b - a).tdiv 8 := (Int.tdiv_eq_ediv_of_nonneg (by omega)).symm
        simp only [pdqBody, pdqsortOrdered_fn, nth, bodyOf, outer] at e7
        by_cases c3 : mid - a < b - mid
        · rw [if_pos c3] at hr12
          obtain ⟨_, d7, hr13, hr14⟩ := hr12.bind
          obtain ⟨l7, m3, env1, x3, f3⟩ := ih (n + 5) (by omega) h' hk ha hak q0 (by omega) l2 (by omega) l6 hr13.recurse
          have f4 := pdqCall_src less (n + 5) h' (.inl rfl) f3
          obtain ⟨g1, m4, env', x4, g2⟩ := ih (n + 6) (by omega) (h'.ext x3) hk (by omega) (by omega) hb0 hb l2 (by omega) l7 hr14
          simp only [pdqsortOrdered_fn, nth, outer, forOf] at g2
          refine ⟨g1, m4, env', ((x1.trans x2).trans x3).trans x4, ?_⟩
          go_run [h.fetch, (h.ext x1).fetch, e3, e4, e5, e6, e7, e8, f4, g2]
        · rw [if_neg c3] at hr12
          obtain ⟨_, d7, hr13, hr14⟩ := hr12.bind
          obtain ⟨l7, m3, env1, x3, f3⟩ := ih (n + 5) (by omega) h' hk (by omega) (by omega) hb0 hb l2 (by omega) l6 hr13.recurse
          have f4 := pdqCall_src less (n + 5) h' (.inl rfl) f3
          obtain ⟨g1, m4, env', x4, g2⟩ := ih (n + 6) (by omega) (h'.ext x3) hk ha hak q0 (by omega) l2 (by omega) l7 hr14
          simp only [pdqsortOrdered_fn, nth, outer, forOf] at g2
          refine ⟨g1, m4, env', ((x1.trans x2).trans x3).trans x4, ?_⟩
          go_run [h.fetch, (h.ext x1).fetch, e3, e4, e5, e6, e7, e8, f4, g2]

theorem pdqsort_src (fuel n : Nat) (hn : fuel + 5 ≤ n) (h : On m v k) (hk : k < 2 ^ 60) {q : Kind} (hq : q = .int ∨ q = .lit)
    {a b limit : Int}
    (ha : 0 ≤ a) (hak : a ≤ k) (hb0 : 0 ≤ b) (hb : b ≤ k) (hl0 : 0 ≤ limit) (hl : limit < 2 ^ 60) {d d' : List E}
    (hd : d.length = k) (hr : Ran lt ge (Verif.Sort.pdqsort fuel a b limit true true) d () d') :
    d'.length = k ∧ ∃ m', Ext m m' ∧
      calls (ctx lt ge less) (n + 1) "pdqsortOrdered" [v, .num q a, .num .int b, .num .int limit] (wr m v d) = pure ([], wr m' v d') := by
  obtain ⟨g1, m', env', x, g2⟩ := pdqLoop_src less fuel n hn h hk ha hak hb0 hb hl0 hl hd hr
  exact ⟨g1, m', x, pdqCall_src less n h hq g2⟩

end Verif.Src.Sort.Ordered
