import Verif.Src.SortAnyBasic
import Verif.Src.SortBoxes

/-!
# xsort/sort_any.go: choosing a pivot, breaking patterns

As in Src/SortAnyBasic.lean.
-/

namespace Verif.Src.Sort.Any

open Verif.Sort (M el inRange ofOps swapL)

variable {E : Type} [Inhabited E] {lt : E → E → Bool} (lt0 ge0 : E → E → Bool) {m : Mem E} {v : Val E} {k : Nat}

/-! ## Choosing a pivot -/

theorem order2_src (n : Nat) (h : On m v k) {a b : Int} {s : Nat} (hs : s < 100) {p : Int × Int × Nat}
    {d d' : List E} (hd : d.length = k) (hr : Ran lt (fun x y => !lt x y) (Verif.Sort.order2 a b s) d p d') :
    d' = d ∧ (0 ≤ p.1 ∧ p.1 < k) ∧ (0 ≤ p.2.1 ∧ p.2.1 < k) ∧ p.2.2 ≤ s + 1 ∧
      calls (ctx lt0 ge0 lt) (n + 1) "order2LessFunc" [v, .num .int a, .num .int b, .ptr m.arrs.length 0 [], .fn "less"]
        (wr (m.alloc [.num .int s]) v d) =
        pure ([.num .int p.1, .num .int p.2.1], wr (m.alloc [.num .int p.2.2]) v d) := by
  obtain ⟨c, d1, h1, hr1⟩ := hr.bind
  obtain ⟨r1, r2, hc, rfl⟩ := h1.lessAt
  have ha := h.alloc [.num .int s]
  rw [calls]
  cases c with
  | true =>
    obtain ⟨rfl, rfl⟩ := hr1.ret
    refine ⟨rfl, by simp only; omega, by simp only; omega, by simp only; omega, ?_⟩
    go_run [order2LessFunc_fn, h.coerce, h.fetch, ha.index, hc, h.box, h.setBox]
    rfl
  | false =>
    obtain ⟨rfl, rfl⟩ := hr1.ret
    refine ⟨rfl, by simp only; omega, by simp only; omega, by simp only; omega, ?_⟩
    go_run [order2LessFunc_fn, h.coerce, h.fetch, ha.index, hc]

theorem median_src (n : Nat) (h : On m v k) {a b c : Int} {s : Nat} (hs : s < 50) {p : Int × Nat}
    {d d' : List E} (hd : d.length = k) (hr : Ran lt (fun x y => !lt x y) (Verif.Sort.median a b c s) d p d') :
    d' = d ∧ (0 ≤ p.1 ∧ p.1 < k) ∧ p.2 ≤ s + 3 ∧
      calls (ctx lt0 ge0 lt) (n + 2) "medianLessFunc" [v, .num .int a, .num .int b, .num .int c, .ptr m.arrs.length 0 [], .fn "less"]
        (wr (m.alloc [.num .int s]) v d) =
        pure ([.num .int p.1], wr (m.alloc [.num .int p.2]) v d) := by
  obtain ⟨⟨a1, b1, s1⟩, d1, h1, hr1⟩ := hr.bind
  obtain ⟨rfl, f1, f2, f3, f4⟩ := order2_src lt0 ge0 n h (by omega) hd h1
  obtain ⟨⟨b2, c2, s2⟩, d2, h2, hr2⟩ := hr1.bind
  simp only at f1 f2 f3 f4 h2
  obtain ⟨rfl, g1, g2, g3, g4⟩ := order2_src lt0 ge0 n h (by omega) hd h2
  obtain ⟨⟨a3, b3, s3⟩, d3, h3, hr3⟩ := hr2.bind
  simp only at g1 g2 g3 g4 h3
  obtain ⟨rfl, e1, e2, e3, e4⟩ := order2_src lt0 ge0 n h (by omega) hd h3
  obtain ⟨rfl, rfl⟩ := hr3.ret
  simp only at e1 e2 e3 e4
  refine ⟨rfl, e2, by simp only; omega, ?_⟩
  rw [calls]
  go_run [medianLessFunc_fn, h.coerce, h.fetch, f4, g4, e4]

theorem medianAdjacent_src (n : Nat) (h : On m v k) (hk : k < 2 ^ 60) {a : Int} (ha0 : 0 ≤ a) (ha : a ≤ k) {s : Nat} (hs : s < 50)
    {p : Int × Nat}
    {d d' : List E} (hd : d.length = k) (hr : Ran lt (fun x y => !lt x y) (Verif.Sort.medianAdjacent a s) d p d') :
    d' = d ∧ (0 ≤ p.1 ∧ p.1 < k) ∧ p.2 ≤ s + 3 ∧
      calls (ctx lt0 ge0 lt) (n + 3) "medianAdjacentLessFunc" [v, .num .int a, .ptr m.arrs.length 0 [], .fn "less"]
        (wr (m.alloc [.num .int s]) v d) =
        pure ([.num .int p.1], wr (m.alloc [.num .int p.2]) v d) := by
  obtain ⟨rfl, f1, f2, f3⟩ := median_src lt0 ge0 n h hs hd hr
  refine ⟨rfl, f1, f2, ?_⟩
  rw [calls]
  go_run [medianAdjacentLessFunc_fn, h.coerce, h.fetch, f3]

set_option maxHeartbeats 2000000 in
theorem choosePivot_src (n : Nat) (h : On m v k) (hk : k < 2 ^ 60) {a b : Int} (ha : 0 ≤ a) (hab : 8 ≤ b - a) (hb : b ≤ k)
    {p : Int × Verif.Sort.Hint} {d d' : List E} (hd : d.length = k) (hr : Ran lt (fun x y => !lt x y) (Verif.Sort.choosePivot a b) d p d') :
    d' = d ∧ (0 ≤ p.1 ∧ p.1 < k) ∧ ∃ m', Ext m m' ∧
      calls (ctx lt0 ge0 lt) (n + 4) "choosePivotLessFunc" [v, .num .int a, .num .int b, .fn "less"] (wr m v d) =
        pure ([.num .int p.1, .num .int (hintNum p.2)], wr m' v d) := by
  obtain ⟨⟨j, s⟩, d1, h1, hr1⟩ := hr.bind
  unfold Verif.Sort.pivotOf at h1
  rw [if_pos hab] at h1
  obtain ⟨⟨i1, j1, k1, s1⟩, d2, h2, h3⟩ := h1.bind
  obtain ⟨rfl, rfl⟩ := hr1.ret
  unfold Verif.Sort.ninther at h2
  refine ⟨?_, ?_, m.alloc [.num .int s], .alloc _ _, ?_⟩
  all_goals by_cases hl : b - a ≥ 50
  all_goals
    first
      | rw [if_pos hl] at h2
        obtain ⟨⟨i2, s2⟩, d3, h4, h5⟩ := h2.bind
        obtain ⟨rfl, f1, f2, f3⟩ := medianAdjacent_src lt0 ge0 n h hk (by omega) (by omega) (by omega) hd h4
        obtain ⟨⟨j2, s3⟩, d4, h6, h7⟩ := h5.bind
        simp only at f1 f2 f3 h6
        rw [show ((0 : Nat) : Int) = 0 from rfl] at f3
        obtain ⟨rfl, g1, g2, g3⟩ := medianAdjacent_src lt0 ge0 n h hk (by omega) (by omega) (by omega) hd h6
        obtain ⟨⟨k2, s4⟩, d5, h8, h9⟩ := h7.bind
        simp only at g1 g2 g3 h8
        obtain ⟨rfl, e1, e2, e3⟩ := medianAdjacent_src lt0 ge0 n h hk (by omega) (by omega) (by omega) hd h8
        obtain ⟨hq, rfl⟩ := h9.ret
        cases hq
        simp only at e1 e2 e3 h3
        obtain ⟨rfl, q1, q2, q3⟩ := median_src lt0 ge0 (n + 1) h (by omega) hd h3
        simp only at q1 q2 q3
      | rw [if_neg hl] at h2
        obtain ⟨hq, rfl⟩ := h2.ret
        cases hq
        simp only at h3
        obtain ⟨rfl, q1, q2, q3⟩ := median_src lt0 ge0 (n + 1) h (by omega) hd h3
        simp only at q1 q2 q3
        rw [show ((0 : Nat) : Int) = 0 from rfl] at q3
  all_goals first | rfl | exact q1 | skip
  · rw [calls]
    by_cases c1 : s = 0
    · go_run [choosePivotLessFunc_fn, h.coerce, h.fetch, h.wr_alloc, wr_length, h.box, wrap_lit, f3, g3, e3, q3, hintNum]
    · by_cases c2 : s = 12
      · go_run [choosePivotLessFunc_fn, h.coerce, h.fetch, h.wr_alloc, wr_length, h.box, wrap_lit, f3, g3, e3, q3, hintNum]
      · go_run [choosePivotLessFunc_fn, h.coerce, h.fetch, h.wr_alloc, wr_length, h.box, wrap_lit, f3, g3, e3, q3, hintNum]
  · rw [calls]
    by_cases c1 : s = 0
    · go_run [choosePivotLessFunc_fn, h.coerce, h.fetch, h.wr_alloc, wr_length, h.box, wrap_lit, q3, hintNum]
    · by_cases c2 : s = 12
      · omega
      · go_run [choosePivotLessFunc_fn, h.coerce, h.fetch, h.wr_alloc, wr_length, h.box, wrap_lit, q3, hintNum]

/-! ## Breaking patterns -/

theorem breakLoop_src (n : Nat) (h : On m v k) (hk : k < 2 ^ 60) {a b : Int} (ha : 0 ≤ a) (hab : 8 ≤ b - a) (hb : b ≤ k)
    (t : Nat) (ht : t ≤ 3) (r : BitVec 64)
    {d d' : List E} (hd : d.length = k)
    (hr : Ran lt (fun x y => !lt x y) (Verif.Sort.breakLoop t a (b - a) (a + (b - a) / 4 * 2 + 2 - t) r) d () d') :
    d'.length = k ∧ ∃ r' : BitVec 64, ∃ i',
      forOf (ctx lt0 ge0 lt) (calls (ctx lt0 ge0 lt) (n + 1)) (nth (bodyOf (nth breakPatternsLessFunc_fn.body 1)) 2)
        [("idx", .num .int (a + (b - a) / 4 * 2 + 2 - t)),
          ("modulus", .num .uint ((1#64 <<< Verif.Sort.bitsLen (b - a).toNat).toNat : Int)),
          ("random", .box m.arrs.length), ("length", .num .int (b - a)), ("data", v), ("a", .num .int a), ("b", .num .int b), ("less", .fn "less")]
        (wr (m.alloc [.num (.named "xorshift") (r.toNat : Int)]) v d) =
      pure (.next, [("idx", .num .int i'),
          ("modulus", .num .uint ((1#64 <<< Verif.Sort.bitsLen (b - a).toNat).toNat : Int)),
          ("random", .box m.arrs.length), ("length", .num .int (b - a)), ("data", v), ("a", .num .int a), ("b", .num .int b), ("less", .fn "less")],
        wr (m.alloc [.num (.named "xorshift") (r'.toNat : Int)]) v d') := by
  induction t generalizing r d with
  | zero =>
    obtain ⟨-, rfl⟩ := hr.ret
    refine ⟨hd, r, a + (b - a) / 4 * 2 + 2 - (0 : Nat), ?_⟩
    simp only [breakPatternsLessFunc_fn, nth, bodyOf, forOf]
    rw [rounds_eq]
    go_run []
  | succ t ih =>
    unfold Verif.Sort.breakLoop at hr
    obtain ⟨_, d1, h1, hr1⟩ := hr.bind
    obtain ⟨r1, r2, hl, hs⟩ := h1.swap
    rw [show a + (b - a) / 4 * 2 + 2 - ((t + 1 : Nat) : Int) + 1 = a + (b - a) / 4 * 2 + 2 - t by omega] at hr1
    obtain ⟨g1, r', i', g2⟩ := ih (by omega) (Verif.Sort.xorshiftNext r) (hl.trans hd) hr1
    refine ⟨g1, r', i', ?_⟩
    have hn := next_src (ctx lt0 ge0 lt) (ctx_prog _ _ _) rfl n h r d
    have ho := mask_lt (n := (b - a).toNat) (by omega) (Verif.Sort.xorshiftNext r)
    have h2 := h.alloc [.num (.named "xorshift") ((Verif.Sort.xorshiftNext r).toNat : Int)]
    have hj : a + (b - a) / 4 * 2 + 2 - ((t + 1 : Nat) : Int) + 1 = a + (b - a) / 4 * 2 + 2 - t := by omega
    simp only [breakPatternsLessFunc_fn, nth, bodyOf, forOf] at g2 ⊢
    rw [rounds_eq]
    unfold Verif.Sort.breakOther at r2 hs
    simp only at r2 hs
    generalize ho' : Verif.Sort.xorshiftNext r &&& (1#64 <<< Verif.Sort.bitsLen (b - a).toNat - 1#64) = o at ho r2 hs
    by_cases c : (o.toNat : Int) ≥ b - a
    · rw [if_pos c] at r2 hs
      go_run [h.fetch, h.box, next_recv, hn, word_uint, word_pred, word_and, word_nonneg, ho', h2.index, h2.store, hs, hj, g2]
    · rw [if_neg c] at r2 hs
      go_run [h.fetch, h.box, next_recv, hn, word_uint, word_pred, word_and, word_nonneg, ho', h2.index, h2.store, hs, hj, g2]

theorem breakPatterns_src (n : Nat) (h : On m v k) (hk : k < 2 ^ 60) {a b : Int} (ha : 0 ≤ a) (hab : 8 ≤ b - a) (hb : b ≤ k)
    {d d' : List E} (hd : d.length = k) (hr : Ran lt (fun x y => !lt x y) (Verif.Sort.breakPatterns a b) d () d') :
    d'.length = k ∧ ∃ m', Ext m m' ∧
      calls (ctx lt0 ge0 lt) (n + 2) "breakPatternsLessFunc" [v, .num .int a, .num .int b, .fn "less"] (wr m v d) = pure ([], wr m' v d') := by
  unfold Verif.Sort.breakPatterns at hr
  simp only at hr
  rw [if_pos hab, show a + (b - a) / 4 * 2 - 1 = a + (b - a) / 4 * 2 + 2 - (3 : Nat) by omega] at hr
  obtain ⟨g1, r', i', g2⟩ := breakLoop_src lt0 ge0 n h hk ha hab hb 3 (by omega) _ hd hr
  refine ⟨g1, _, .alloc m [.num (.named "xorshift") (r'.toNat : Int)], ?_⟩
  rw [show a + (b - a) / 4 * 2 + 2 - (3 : Nat) = a + (b - a) / 4 * 2 - 1 by omega] at g2
  simp only [breakPatternsLessFunc_fn, nth, bodyOf, forOf] at g2
  have hp := fun m' => power_src (E := E) lt0 ge0 lt n (m := m') (len := b - a) (by omega) (by omega)
  rw [calls]
  go_run [breakPatternsLessFunc_fn, h.coerce, h.fetch, h.wr_alloc, wr_length, word_ofInt, hp, g2]

end Verif.Src.Sort.Any
