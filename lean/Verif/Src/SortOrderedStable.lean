import Verif.Src.SortOrderedBasic

/-!
# xsort/sort_ordered.go: the stable sort

As in Src/SortOrderedBasic.lean.
-/

namespace Verif.Src.Sort.Ordered

open Verif.Sort (M el inRange ofOps swapL)

variable {E : Type} [Inhabited E] {lt ge : E → E → Bool} (less : E → E → Bool) {m : Mem E} {v : Val E} {k : Nat}

/-! ## Rotation -/

theorem swapLoop_src (C : Calls E) (h : On m v k) (hk : k < 2 ^ 60) {a b n i : Int} (hi : 0 ≤ i) (hn : n ≤ k) {d d' : List E}
    (hd : d.length = k) (hr : Ran lt ge (Verif.Sort.swapRange a b n i) d () d') :
    d'.length = k ∧ ∃ i', forOf (ctx lt ge less) C (nth swapRangeOrdered_fn.body 0)
        [("i", .num .int i), ("data", v), ("a", .num .int a), ("b", .num .int b), ("n", .num .int n)] (wr m v d) =
      pure (.next, [("i", .num .int i'), ("data", v), ("a", .num .int a), ("b", .num .int b), ("n", .num .int n)],
        wr m v d') := by
  generalize hn : (n - i).toNat = t
  induction t using Nat.strongRecOn generalizing i d with
  | _ t ih =>
    unfold Verif.Sort.swapRange at hr
    simp only [swapRangeOrdered_fn, nth, forOf] at ih ⊢
    rw [rounds_eq]
    by_cases hja : i < n
    · rw [if_pos hja] at hr
      obtain ⟨_, d1, h1, hr1⟩ := hr.bind
      obtain ⟨r1, r2, hl, hs⟩ := h1.swap
      obtain ⟨g1, i', g2⟩ := ih _ (by omega) (by omega) (hl.trans hd) hr1 rfl
      refine ⟨g1, i', ?_⟩
      go_run [h.fetch, h.index, h.store, hs, g2]
    · rw [if_neg hja] at hr
      obtain ⟨-, rfl⟩ := hr.ret
      exact ⟨hd, i, by go_run []⟩

theorem swapRange_src (t : Nat) (h : On m v k) (hk : k < 2 ^ 60) {a b n : Int} (hn : n ≤ k) {d d' : List E}
    (hd : d.length = k) (hr : Ran lt ge (Verif.Sort.swapRange a b n 0) d () d') :
    d'.length = k ∧ calls (ctx lt ge less) (t + 1) "swapRangeOrdered" [v, .num .int a, .num .int b, .num .int n] (wr m v d) =
      pure ([], wr m v d') := by
  obtain ⟨g1, i', g2⟩ := swapLoop_src less (calls (ctx lt ge less) t) h hk (Int.le_refl 0) hn hd hr
  simp only [swapRangeOrdered_fn, nth, forOf] at g2
  refine ⟨g1, ?_⟩
  rw [calls]
  go_run [swapRangeOrdered_fn, h.coerce, h.fetch, g2]

theorem rotateLoop_src (t : Nat) (h : On m v k) (hk : k < 2 ^ 60) {a b md i j : Int} (hm0 : 0 ≤ md) (hm : md ≤ k)
    (hi0 : 0 ≤ i) (hi : i ≤ k) (hj0 : 0 ≤ j) (hj : j ≤ k) {d d' : List E}
    (hd : d.length = k) (hr : Ran lt ge (Verif.Sort.rotateLoop md i j) d () d') :
    ∃ (i' : Int) (d1 : List E), d1.length = k ∧ (0 ≤ i' ∧ i' ≤ k) ∧ Ran lt ge (Verif.Sort.swapRange (md - i') md i' 0) d1 () d' ∧
      forOf (ctx lt ge less) (calls (ctx lt ge less) (t + 1)) (nth rotateOrdered_fn.body 2)
        [("j", .num .int j), ("i", .num .int i), ("data", v), ("a", .num .int a), ("m", .num .int md), ("b", .num .int b)]
        (wr m v d) =
      pure (.next, [("j", .num .int i'), ("i", .num .int i'), ("data", v), ("a", .num .int a), ("m", .num .int md),
        ("b", .num .int b)], wr m v d1) := by
  generalize hn : (i + j).toNat = n
  induction n using Nat.strongRecOn generalizing i j d with
  | _ n ih =>
    unfold Verif.Sort.rotateLoop at hr
    simp only [rotateOrdered_fn, nth, forOf] at ih ⊢
    rw [rounds_eq]
    by_cases hij : i = j
    · subst hij
      rw [if_pos rfl] at hr
      refine ⟨i, d, hd, ⟨hi0, hi⟩, hr, ?_⟩
      go_run []
    rw [if_neg hij] at hr
    by_cases hz : i ≤ 0 ∨ j ≤ 0
    · rw [if_pos hz] at hr; exact hr.fail.elim
    rw [if_neg hz] at hr
    by_cases hlt : i > j
    · rw [if_pos hlt] at hr
      obtain ⟨_, d1, h1, hr1⟩ := hr.bind
      obtain ⟨f1, f2⟩ := swapRange_src less t h hk hj hd h1
      obtain ⟨i', d2, g1, g2, g3, g4⟩ := ih _ (by omega) (by omega) (by omega) (by omega) (by omega) f1 hr1 rfl
      refine ⟨i', d2, g1, g2, g3, ?_⟩
      go_run [h.fetch, f2, g4]
    · rw [if_neg hlt] at hr
      obtain ⟨_, d1, h1, hr1⟩ := hr.bind
      obtain ⟨f1, f2⟩ := swapRange_src less t h hk hi hd h1
      obtain ⟨i', d2, g1, g2, g3, g4⟩ := ih _ (by omega) (by omega) (by omega) (by omega) (by omega) f1 hr1 rfl
      refine ⟨i', d2, g1, g2, g3, ?_⟩
      go_run [h.fetch, f2, g4]

theorem rotate_src (t : Nat) (h : On m v k) (hk : k < 2 ^ 60) {a md b : Int} (ha : 0 ≤ a) (ham : a ≤ md) (hmb : md ≤ b)
    (hb : b ≤ k) {d d' : List E} (hd : d.length = k) (hr : Ran lt ge (Verif.Sort.rotate a md b) d () d') :
    d'.length = k ∧ calls (ctx lt ge less) (t + 2) "rotateOrdered" [v, .num .int a, .num .int md, .num .int b] (wr m v d) =
      pure ([], wr m v d') := by
  obtain ⟨i', d1, g1, g2, g3, g4⟩ := rotateLoop_src less t h hk (a := a) (b := b) (by omega) (by omega) (by omega) (by omega)
    (by omega) (by omega) hd hr
  obtain ⟨f1, f2⟩ := swapRange_src less t h hk g2.2 g1 g3
  simp only [rotateOrdered_fn, nth, forOf] at g4
  refine ⟨f1, ?_⟩
  rw [calls]
  go_run [rotateOrdered_fn, h.coerce, h.fetch, g4, f2]

/-! ## Merging -/

theorem searchGE_src (C : Calls E) (h : On m v k) (hk : k < 2 ^ 60) {a md b i j i' : Int} (hi0 : 0 ≤ i) (hi : i ≤ k)
    (hj0 : 0 ≤ j) (hj : j ≤ k) {d d' : List E} (hd : d.length = k) (hr : Ran lt ge (Verif.Sort.searchGE a i j) d i' d') :
    d' = d ∧ (0 ≤ i' ∧ i' ≤ k) ∧ ∃ j', forOf (ctx lt ge less) C (nth (bodyOf (nth symMergeOrdered_fn.body 0)) 2)
        [("j", .num .int j), ("i", .num .int i), ("data", v), ("a", .num .int a), ("m", .num .int md), ("b", .num .int b)]
        (wr m v d) =
      pure (.next, [("j", .num .int j'), ("i", .num .int i'), ("data", v), ("a", .num .int a), ("m", .num .int md),
        ("b", .num .int b)], wr m v d) := by
  generalize hn : (j - i).toNat = t
  induction t using Nat.strongRecOn generalizing i j with
  | _ t ih =>
    unfold Verif.Sort.searchGE at hr
    simp only [symMergeOrdered_fn, nth, bodyOf, forOf] at ih ⊢
    rw [rounds_eq]
    by_cases hja : i < j
    · rw [if_pos hja] at hr
      obtain ⟨c, d1, h1, hr1⟩ := hr.bind
      obtain ⟨r1, r2, hc, rfl⟩ := h1.lessAt
      cases c with
      | true =>
        simp only [if_true] at hr1
        obtain ⟨g1, g2, j', g3⟩ := ih _ (by omega) (by omega) (by omega) hj0 hj hr1 rfl
        refine ⟨g1, g2, j', ?_⟩
        go_run [wrap_uint, Int.reducePow, h.fetch, h.index, hc, g3]
      | false =>
        simp only [Bool.false_eq_true, if_false] at hr1
        obtain ⟨g1, g2, j', g3⟩ := ih _ (by omega) hi0 hi (by omega) (by omega) hr1 rfl
        refine ⟨g1, g2, j', ?_⟩
        go_run [wrap_uint, Int.reducePow, h.fetch, h.index, hc, g3]
    · rw [if_neg hja] at hr
      obtain ⟨rfl, rfl⟩ := hr.ret
      exact ⟨rfl, ⟨hi0, hi⟩, j, by go_run []⟩

theorem bubbleUp_src (C : Calls E) (h : On m v k) (hk : k < 2 ^ 60) {a md b i j q : Int} (hi0 : 0 ≤ i) (hi : i ≤ k)
    {d d' : List E} (hd : d.length = k) (hr : Ran lt ge (Verif.Sort.bubbleUp i q) d () d') :
    d'.length = k ∧ ∃ q', forOf (ctx lt ge less) C (nth (bodyOf (nth symMergeOrdered_fn.body 0)) 3)
        [("k", .num .int q), ("j", .num .int j), ("i", .num .int i), ("data", v), ("a", .num .int a), ("m", .num .int md),
          ("b", .num .int b)] (wr m v d) =
      pure (.next, [("k", .num .int q'), ("j", .num .int j), ("i", .num .int i), ("data", v), ("a", .num .int a),
        ("m", .num .int md), ("b", .num .int b)], wr m v d') := by
  generalize hn : (i - q).toNat = t
  induction t using Nat.strongRecOn generalizing q d with
  | _ t ih =>
    unfold Verif.Sort.bubbleUp at hr
    simp only [symMergeOrdered_fn, nth, bodyOf, forOf] at ih ⊢
    rw [rounds_eq]
    by_cases hja : q < i - 1
    · rw [if_pos hja] at hr
      obtain ⟨_, d1, h1, hr1⟩ := hr.bind
      obtain ⟨r1, r2, hl, hs⟩ := h1.swap
      obtain ⟨g1, q', g2⟩ := ih _ (by omega) (hl.trans hd) hr1 rfl
      refine ⟨g1, q', ?_⟩
      go_run [h.fetch, h.index, h.store, hs, g2]
    · rw [if_neg hja] at hr
      obtain ⟨-, rfl⟩ := hr.ret
      exact ⟨hd, q, by go_run []⟩

theorem searchGT_src (C : Calls E) (h : On m v k) (hk : k < 2 ^ 60) {a md b i j i' : Int} (hi0 : 0 ≤ i) (hi : i ≤ k)
    (hj0 : 0 ≤ j) (hj : j ≤ k) {d d' : List E} (hd : d.length = k) (hr : Ran lt ge (Verif.Sort.searchGT md i j) d i' d') :
    d' = d ∧ (0 ≤ i' ∧ i' ≤ k) ∧ ∃ j', forOf (ctx lt ge less) C (nth (bodyOf (nth symMergeOrdered_fn.body 1)) 2)
        [("j", .num .int j), ("i", .num .int i), ("data", v), ("a", .num .int a), ("m", .num .int md), ("b", .num .int b)]
        (wr m v d) =
      pure (.next, [("j", .num .int j'), ("i", .num .int i'), ("data", v), ("a", .num .int a), ("m", .num .int md),
        ("b", .num .int b)], wr m v d) := by
  generalize hn : (j - i).toNat = t
  induction t using Nat.strongRecOn generalizing i j with
  | _ t ih =>
    unfold Verif.Sort.searchGT at hr
    simp only [symMergeOrdered_fn, nth, bodyOf, forOf] at ih ⊢
    rw [rounds_eq]
    by_cases hja : i < j
    · rw [if_pos hja] at hr
      obtain ⟨c, d1, h1, hr1⟩ := hr.bind
      obtain ⟨r1, r2, hc, rfl⟩ := h1.nlessAt
      cases c with
      | true =>
        simp only [if_true] at hr1
        obtain ⟨g1, g2, j', g3⟩ := ih _ (by omega) (by omega) (by omega) hj0 hj hr1 rfl
        refine ⟨g1, g2, j', ?_⟩
        go_run [wrap_uint, Int.reducePow, h.fetch, h.index, hc, g3]
      | false =>
        simp only [Bool.false_eq_true, if_false] at hr1
        obtain ⟨g1, g2, j', g3⟩ := ih _ (by omega) hi0 hi (by omega) (by omega) hr1 rfl
        refine ⟨g1, g2, j', ?_⟩
        go_run [wrap_uint, Int.reducePow, h.fetch, h.index, hc, g3]
    · rw [if_neg hja] at hr
      obtain ⟨rfl, rfl⟩ := hr.ret
      exact ⟨rfl, ⟨hi0, hi⟩, j, by go_run []⟩

theorem bubbleDown_src (C : Calls E) (h : On m v k) (hk : k < 2 ^ 60) {a md b i j q : Int}
    {d d' : List E} (hd : d.length = k) (hr : Ran lt ge (Verif.Sort.bubbleDown i q) d () d') :
    d'.length = k ∧ ∃ q', forOf (ctx lt ge less) C (nth (bodyOf (nth symMergeOrdered_fn.body 1)) 3)
        [("k", .num .int q), ("j", .num .int j), ("i", .num .int i), ("data", v), ("a", .num .int a), ("m", .num .int md),
          ("b", .num .int b)] (wr m v d) =
      pure (.next, [("k", .num .int q'), ("j", .num .int j), ("i", .num .int i), ("data", v), ("a", .num .int a),
        ("m", .num .int md), ("b", .num .int b)], wr m v d') := by
  generalize hn : (q - i).toNat = t
  induction t using Nat.strongRecOn generalizing q d with
  | _ t ih =>
    unfold Verif.Sort.bubbleDown at hr
    simp only [symMergeOrdered_fn, nth, bodyOf, forOf] at ih ⊢
    rw [rounds_eq]
    by_cases hja : q > i
    · rw [if_pos hja] at hr
      obtain ⟨_, d1, h1, hr1⟩ := hr.bind
      obtain ⟨r1, r2, hl, hs⟩ := h1.swap
      obtain ⟨g1, q', g2⟩ := ih _ (by omega) (hl.trans hd) hr1 rfl
      refine ⟨g1, q', ?_⟩
      go_run [h.fetch, h.index, h.store, hs, g2]
    · rw [if_neg hja] at hr
      obtain ⟨-, rfl⟩ := hr.ret
      exact ⟨hd, q, by go_run []⟩

theorem searchSym_src (C : Calls E) (h : On m v k) (hk : k < 2 ^ 60) {a md b n mid p start r s' : Int} (hi0 : 0 ≤ start)
    (hi : start ≤ k) (hj0 : 0 ≤ r) (hj : r ≤ k) {d d' : List E} (hd : d.length = k)
    (hr : Ran lt ge (Verif.Sort.searchSym p start r) d s' d') :
    d' = d ∧ (start ≤ s' ∧ s' ≤ k) ∧ ∃ r', forOf (ctx lt ge less) C (nth symMergeOrdered_fn.body 7)
        [("p", .num .int p), ("r", .num .int r), ("start", .num .int start), ("n", .num .int n), ("mid", .num .int mid),
          ("data", v), ("a", .num .int a), ("m", .num .int md), ("b", .num .int b)] (wr m v d) =
      pure (.next, [("p", .num .int p), ("r", .num .int r'), ("start", .num .int s'), ("n", .num .int n), ("mid", .num .int mid),
          ("data", v), ("a", .num .int a), ("m", .num .int md), ("b", .num .int b)], wr m v d) := by
  generalize hn : (r - start).toNat = t
  induction t using Nat.strongRecOn generalizing start r with
  | _ t ih =>
    unfold Verif.Sort.searchSym at hr
    simp only [symMergeOrdered_fn, nth, forOf] at ih ⊢
    rw [rounds_eq]
    by_cases hja : start < r
    · rw [if_pos hja] at hr
      obtain ⟨c, d1, h1, hr1⟩ := hr.bind
      obtain ⟨r1, r2, hc, rfl⟩ := h1.nlessAt
      cases c with
      | true =>
        simp only [if_true] at hr1
        obtain ⟨g1, g2, j', g3⟩ := ih _ (by omega) (by omega) (by omega) hj0 hj hr1 rfl
        refine ⟨g1, ⟨by omega, g2.2⟩, j', ?_⟩
        go_run [wrap_uint, Int.reducePow, h.fetch, h.index, hc, g3]
      | false =>
        simp only [Bool.false_eq_true, if_false] at hr1
        obtain ⟨g1, g2, j', g3⟩ := ih _ (by omega) hi0 hi (by omega) (by omega) hr1 rfl
        refine ⟨g1, ⟨by omega, g2.2⟩, j', ?_⟩
        go_run [wrap_uint, Int.reducePow, h.fetch, h.index, hc, g3]
    · rw [if_neg hja] at hr
      obtain ⟨rfl, rfl⟩ := hr.ret
      exact ⟨rfl, ⟨Int.le_refl _, hi⟩, r, by go_run []⟩

set_option maxHeartbeats 2000000 in
theorem symMerge_src (t : Nat) (h : On m v k) (hk : k < 2 ^ 60) {a md b : Int} (ha : 0 ≤ a) (ham : a < md) (hmb : md < b)
    (hb : b ≤ k) (ht : (b - a).toNat + 2 ≤ t) {d d' : List E} (hd : d.length = k)
    (hr : Ran lt ge (Verif.Sort.symMerge a md b) d () d') :
    d'.length = k ∧ calls (ctx lt ge less) t "symMergeOrdered" [v, .num .int a, .num .int md, .num .int b] (wr m v d) =
      pure ([], wr m v d') := by
  induction t generalizing a md b d d' with
  | zero => omega
  | succ t ih =>
    unfold Verif.Sort.symMerge at hr
    rw [calls]
    by_cases h1 : md - a = 1
    · rw [if_pos h1] at hr
      obtain ⟨i, d1, hr1, hr2⟩ := hr.bind
      obtain ⟨rfl, f2, j', f3⟩ := searchGE_src less (calls (ctx lt ge less) t) h hk (md := md) (b := b) (by omega) (by omega) (by omega)
        (by omega) hd hr1
      obtain ⟨g1, q', g2⟩ := bubbleUp_src less (calls (ctx lt ge less) t) h hk (a := a) (md := md) (b := b) (j := j') f2.1 f2.2 hd hr2
      simp only [symMergeOrdered_fn, nth, bodyOf, forOf] at f3 g2
      refine ⟨g1, ?_⟩
      go_run [symMergeOrdered_fn, h.coerce, h.fetch, f3, g2]
    rw [if_neg h1] at hr
    by_cases h2 : b - md = 1
    · rw [if_pos h2] at hr
      obtain ⟨i, d1, hr1, hr2⟩ := hr.bind
      obtain ⟨rfl, f2, j', f3⟩ := searchGT_src less (calls (ctx lt ge less) t) h hk (a := a) (b := b) (by omega) (by omega) (by omega)
        (by omega) hd hr1
      obtain ⟨g1, q', g2⟩ := bubbleDown_src less (calls (ctx lt ge less) t) h hk (a := a) (md := md) (b := b) (j := j') hd hr2
      simp only [symMergeOrdered_fn, nth, bodyOf, forOf] at f3 g2
      refine ⟨g1, ?_⟩
      go_run [symMergeOrdered_fn, h.coerce, h.fetch, f3, g2]
    rw [if_neg h2] at hr
    obtain ⟨start, d1, hr1, hr2⟩ := hr.bind
    obtain ⟨s0, hs0⟩ : ∃ s, s = if md > (a + b) / 2 then (a + b) / 2 + md - b else a := ⟨_, rfl⟩
    obtain ⟨r0, hr0⟩ : ∃ r, r = if md > (a + b) / 2 then (a + b) / 2 else md := ⟨_, rfl⟩
    rw [← hs0, ← hr0] at hr1
    obtain ⟨rfl, f2, r', f3⟩ := searchSym_src less (calls (ctx lt ge less) t) h hk (a := a) (md := md) (b := b) (n := (a + b) / 2 + md)
      (mid := (a + b) / 2) (by split at hs0 <;> omega) (by split at hs0 <;> omega) (by split at hr0 <;> omega)
      (by split at hr0 <;> omega) hd hr1
    have hs1 : 0 ≤ s0 ∧ (a + b) / 2 + md - s0 ≤ b := by split at hs0 <;> omega
    obtain ⟨_, d2, hr3, hr4⟩ := hr2.bind
    obtain ⟨_, d3, hr5, hr6⟩ := hr4.bind
    have e1 : d2.length = k ∧ exec (ctx lt ge less) (calls (ctx lt ge less) t) (nth symMergeOrdered_fn.body 9)
        [("end", .num .int ((a + b) / 2 + md - start)), ("p", .num .int ((a + b) / 2 + md - 1)), ("r", .num .int r'),
          ("start", .num .int start), ("n", .num .int ((a + b) / 2 + md)), ("mid", .num .int ((a + b) / 2)),
          ("data", v), ("a", .num .int a), ("m", .num .int md), ("b", .num .int b)] (wr m v d1) =
        pure (.next, [("end", .num .int ((a + b) / 2 + md - start)), ("p", .num .int ((a + b) / 2 + md - 1)), ("r", .num .int r'),
          ("start", .num .int start), ("n", .num .int ((a + b) / 2 + md)), ("mid", .num .int ((a + b) / 2)),
          ("data", v), ("a", .num .int a), ("m", .num .int md), ("b", .num .int b)], wr m v d2) := by
      simp only [symMergeOrdered_fn, nth]
      by_cases c1 : start < md
      · by_cases c2 : md < (a + b) / 2 + md - start
        · rw [Verif.Sort.M.when, if_pos ⟨c1, c2⟩] at hr3
          obtain ⟨t', rfl⟩ : ∃ t', t = t' + 2 := ⟨t - 2, by omega⟩
          obtain ⟨q1, q2⟩ := rotate_src less t' h hk (by omega) (by omega) (by omega) (by omega) hd hr3
          refine ⟨q1, ?_⟩
          go_run [h.fetch, q2]
        · rw [Verif.Sort.M.when, if_neg (by omega)] at hr3
          obtain ⟨-, rfl⟩ := hr3.ret
          refine ⟨hd, ?_⟩
          go_run [h.fetch]
      · rw [Verif.Sort.M.when, if_neg (by omega)] at hr3
        obtain ⟨-, rfl⟩ := hr3.ret
        refine ⟨hd, ?_⟩
        go_run [h.fetch]
    have e2 : d3.length = k ∧ exec (ctx lt ge less) (calls (ctx lt ge less) t) (nth symMergeOrdered_fn.body 10)
        [("end", .num .int ((a + b) / 2 + md - start)), ("p", .num .int ((a + b) / 2 + md - 1)), ("r", .num .int r'),
          ("start", .num .int start), ("n", .num .int ((a + b) / 2 + md)), ("mid", .num .int ((a + b) / 2)),
          ("data", v), ("a", .num .int a), ("m", .num .int md), ("b", .num .int b)] (wr m v d2) =
        pure (.next, [("end", .num .int ((a + b) / 2 + md - start)), ("p", .num .int ((a + b) / 2 + md - 1)), ("r", .num .int r'),
          ("start", .num .int start), ("n", .num .int ((a + b) / 2 + md)), ("mid", .num .int ((a + b) / 2)),
          ("data", v), ("a", .num .int a), ("m", .num .int md), ("b", .num .int b)], wr m v d3) := by
      simp only [symMergeOrdered_fn, nth]
      by_cases c1 : a < start
      · by_cases c2 : start < (a + b) / 2
        · rw [dif_pos ⟨c1, c2⟩] at hr5
          obtain ⟨q1, q2⟩ := ih ha c1 c2 (by omega) (by omega) e1.1 hr5.recurse
          refine ⟨q1, ?_⟩
          go_run [h.fetch, q2]
        · rw [dif_neg (by omega)] at hr5
          obtain ⟨-, rfl⟩ := hr5.ret
          refine ⟨e1.1, ?_⟩
          go_run [h.fetch]
      · rw [dif_neg (by omega)] at hr5
        obtain ⟨-, rfl⟩ := hr5.ret
        refine ⟨e1.1, ?_⟩
        go_run [h.fetch]
    have e3 : d'.length = k ∧ exec (ctx lt ge less) (calls (ctx lt ge less) t) (nth symMergeOrdered_fn.body 11)
        [("end", .num .int ((a + b) / 2 + md - start)), ("p", .num .int ((a + b) / 2 + md - 1)), ("r", .num .int r'),
          ("start", .num .int start), ("n", .num .int ((a + b) / 2 + md)), ("mid", .num .int ((a + b) / 2)),
          ("data", v), ("a", .num .int a), ("m", .num .int md), ("b", .num .int b)] (wr m v d3) =
        pure (.next, [("end", .num .int ((a + b) / 2 + md - start)), ("p", .num .int ((a + b) / 2 + md - 1)), ("r", .num .int r'),
          ("start", .num .int start), ("n", .num .int ((a + b) / 2 + md)), ("mid", .num .int ((a + b) / 2)),
          ("data", v), ("a", .num .int a), ("m", .num .int md), ("b", .num .int b)], wr m v d') := by
      simp only [symMergeOrdered_fn, nth]
      by_cases c1 : (a + b) / 2 < (a + b) / 2 + md - start
      · by_cases c2 : (a + b) / 2 + md - start < b
        · rw [dif_pos ⟨c1, c2⟩] at hr6
          obtain ⟨q1, q2⟩ := ih (by omega) c1 c2 (by omega) (by omega) e2.1 hr6.recurse
          refine ⟨q1, ?_⟩
          go_run [h.fetch, q2]
        · rw [dif_neg (by omega)] at hr6
          obtain ⟨-, rfl⟩ := hr6.ret
          refine ⟨e2.1, ?_⟩
          go_run [h.fetch]
      · rw [dif_neg (by omega)] at hr6
        obtain ⟨-, rfl⟩ := hr6.ret
        refine ⟨e2.1, ?_⟩
        go_run [h.fetch]
    refine ⟨e3.1, ?_⟩
    obtain ⟨-, e1⟩ := e1
    obtain ⟨-, e2⟩ := e2
    obtain ⟨-, e3⟩ := e3
    simp only [symMergeOrdered_fn, nth, forOf] at e1 e2 e3 f3
    by_cases hm : md > (a + b) / 2
    · rw [if_pos hm] at hs0 hr0
      subst hs0 hr0
      go_run [symMergeOrdered_fn, h.coerce, wrap_uint, Int.reducePow, f3, e1, e2, e3]
    · rw [if_neg hm] at hs0 hr0
      subst hs0 hr0
      go_run [symMergeOrdered_fn, h.coerce, wrap_uint, Int.reducePow, f3, e1, e2, e3]

/-! ## The stable sort -/

theorem blockLoop_src (t : Nat) (h : On m v k) (hk : k < 2 ^ 60) {n a b a' : Int} (ha : 0 ≤ a) (hab : a ≤ b) (hak : a ≤ n)
    (hn : n ≤ k)
    {d d' : List E} (hd : d.length = k) (hr : Ran lt ge (Verif.Sort.blockLoop n a b) d a' d') :
    d'.length = k ∧ (0 ≤ a' ∧ a' ≤ n) ∧ ∃ b', forOf (ctx lt ge less) (calls (ctx lt ge less) (t + 1)) (nth stableOrdered_fn.body 2)
        [("b", .num .int b), ("a", .num .int a), ("blockSize", .num .int 20), ("data", v), ("n", .num .int n)] (wr m v d) =
      pure (.next, [("b", .num .int b'), ("a", .num .int a'), ("blockSize", .num .int 20), ("data", v), ("n", .num .int n)],
        wr m v d') := by
  generalize hn : (n + 1 - b).toNat = q
  induction q using Nat.strongRecOn generalizing a b d with
  | _ q ih =>
    unfold Verif.Sort.blockLoop at hr
    simp only [stableOrdered_fn, nth, forOf] at ih ⊢
    rw [rounds_eq]
    by_cases hja : b ≤ n
    · rw [if_pos hja] at hr
      obtain ⟨_, d1, h1, hr1⟩ := hr.bind
      obtain ⟨f1, f2⟩ := insertionSort_src less t h hk ha (by omega) (by omega) hd h1
      obtain ⟨g1, g2, b', g3⟩ := ih _ (by omega) (by omega) (by omega) hja f1 hr1 rfl
      refine ⟨g1, g2, b', ?_⟩
      go_run [h.fetch, f2, g3]
    · rw [if_neg hja] at hr
      obtain ⟨rfl, rfl⟩ := hr.ret
      exact ⟨hd, ⟨ha, hak⟩, b, by go_run []⟩

theorem mergePass_src (t : Nat) (h : On m v k) (hk : k < 2 ^ 60) {n a b bs a' : Int} (ha : 0 ≤ a) (hab : b = a + 2 * bs)
    (hak : a ≤ n) (hn : n ≤ k) (hbs : bs ≤ k) (ht : k + 2 ≤ t)
    {d d' : List E} (hd : d.length = k) (hr : Ran lt ge (Verif.Sort.mergePass n bs a b) d a' d') :
    d'.length = k ∧ (0 ≤ a' ∧ a' ≤ n) ∧ ∃ b', forOf (ctx lt ge less) (calls (ctx lt ge less) t) (nth (bodyOf (nth stableOrdered_fn.body 4)) 1)
        [("b", .num .int b), ("a", .num .int a), ("blockSize", .num .int bs), ("data", v), ("n", .num .int n)] (wr m v d) =
      pure (.next, [("b", .num .int b'), ("a", .num .int a'), ("blockSize", .num .int bs), ("data", v), ("n", .num .int n)],
        wr m v d') := by
  generalize hn : (n + 1 - b).toNat = q
  induction q using Nat.strongRecOn generalizing a b d with
  | _ q ih =>
    unfold Verif.Sort.mergePass at hr
    by_cases hz : bs ≤ 0
    · rw [if_pos hz] at hr; exact hr.fail.elim
    rw [if_neg hz] at hr
    simp only [stableOrdered_fn, nth, bodyOf, forOf] at ih ⊢
    rw [rounds_eq]
    by_cases hja : b ≤ n
    · rw [if_pos hja] at hr
      obtain ⟨_, d1, h1, hr1⟩ := hr.bind
      obtain ⟨f1, f2⟩ := symMerge_src less t h hk ha (by omega) (by omega) (by omega) (by omega) hd h1
      obtain ⟨g1, g2, b', g3⟩ := ih _ (by omega) (by omega) rfl hja f1 hr1 rfl
      refine ⟨g1, g2, b', ?_⟩
      go_run [h.fetch, f2, g3]
    · rw [if_neg hja] at hr
      obtain ⟨rfl, rfl⟩ := hr.ret
      exact ⟨hd, ⟨ha, hak⟩, b, by go_run []⟩

theorem stableLoop_src (t : Nat) (h : On m v k) (hk : k < 2 ^ 60) {n bs a b : Int}
    (hn : n ≤ k) (ht : k + 2 ≤ t)
    {d d' : List E} (hd : d.length = k) (hr : Ran lt ge (Verif.Sort.stableLoop n bs) d () d') :
    d'.length = k ∧ ∃ bs' a' b', forOf (ctx lt ge less) (calls (ctx lt ge less) t) (nth stableOrdered_fn.body 4)
        [("b", .num .int b), ("a", .num .int a), ("blockSize", .num .int bs), ("data", v), ("n", .num .int n)] (wr m v d) =
      pure (.next, [("b", .num .int b'), ("a", .num .int a'), ("blockSize", .num .int bs'), ("data", v), ("n", .num .int n)],
        wr m v d') := by
  generalize hn : (n - bs).toNat = q
  induction q using Nat.strongRecOn generalizing a b bs d with
  | _ q ih =>
    unfold Verif.Sort.stableLoop at hr
    by_cases hz : bs ≤ 0
    · rw [if_pos hz] at hr; exact hr.fail.elim
    rw [if_neg hz] at hr
    simp only [stableOrdered_fn, nth, forOf] at ih ⊢
    rw [rounds_eq]
    by_cases hja : bs < n
    · rw [if_pos hja] at hr
      obtain ⟨a1, d1, h1, hr1⟩ := hr.bind
      obtain ⟨f1, f2, b1, f3⟩ := mergePass_src less t h hk (Int.le_refl 0) (by omega) (by omega) (by omega) (by omega) ht hd h1
      simp only [stableOrdered_fn, nth, bodyOf, forOf] at f3
      obtain ⟨_, d2, h2, hr2⟩ := hr1.bind
      by_cases hm : a1 + bs < n
      · rw [Verif.Sort.M.when, if_pos hm] at h2
        obtain ⟨e1, e2⟩ := symMerge_src less t h hk f2.1 (by omega) hm (by omega) (by omega) f1 h2
        obtain ⟨g1, bs', a', b', g3⟩ := ih _ (by omega) (a := a1) (b := b1) e1 hr2 rfl
        refine ⟨g1, bs', a', b', ?_⟩
        go_run [h.fetch, f3, e2, g3]
      · rw [Verif.Sort.M.when, if_neg hm] at h2
        obtain ⟨-, rfl⟩ := h2.ret
        obtain ⟨g1, bs', a', b', g3⟩ := ih _ (by omega) (a := a1) (b := b1) f1 hr2 rfl
        refine ⟨g1, bs', a', b', ?_⟩
        go_run [h.fetch, f3, g3]
    · rw [if_neg hja] at hr
      obtain ⟨-, rfl⟩ := hr.ret
      exact ⟨hd, bs, a, b, by go_run []⟩

theorem stable_src (t : Nat) (h : On m v k) (hk : k < 2 ^ 60) (ht : k + 3 ≤ t) {d d' : List E} (hd : d.length = k)
    (hr : Ran lt ge (Verif.Sort.stable k) d () d') :
    d'.length = k ∧ calls (ctx lt ge less) t "stableOrdered" [v, .num .int k] (wr m v d) = pure ([], wr m v d') := by
  obtain ⟨t, rfl⟩ : ∃ t', t = t' + 2 := ⟨t - 2, by omega⟩
  obtain ⟨a1, d1, h1, hr1⟩ := hr.bind
  obtain ⟨f1, f2, b1, f3⟩ := blockLoop_src less t h hk (Int.le_refl 0) (by omega) (by omega) (Int.le_refl _) hd h1
  obtain ⟨_, d2, h2, hr2⟩ := hr1.bind
  obtain ⟨e1, e2⟩ := insertionSort_src less t h hk f2.1 (by omega) (Int.le_refl _) f1 h2
  obtain ⟨g1, bs', a', b', g3⟩ := stableLoop_src less (t + 1) h hk (a := a1) (b := b1) (Int.le_refl _) (by omega) e1 hr2
  simp only [stableOrdered_fn, nth, forOf] at f3 g3
  refine ⟨g1, ?_⟩
  rw [calls]
  go_run [stableOrdered_fn, h.coerce, h.fetch, f3, e2, g3]

end Verif.Src.Sort.Ordered
