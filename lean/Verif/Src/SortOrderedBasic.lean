import Verif.Src.SortLoops

/-!
# xsort/sort_ordered.go: insertion sort, heap sort

Each lemma says: if the model of Sort/Model.lean, begun with the contents `d` of the slice, returns and leaves `d'`, then so does
the text.
-/

namespace Verif.Src.Sort.Ordered

open Verif.Sort (M el inRange ofOps swapL)

variable {E : Type} [Inhabited E] {lt ge : E → E → Bool} (less : E → E → Bool) {m : Mem E} {v : Val E} {k : Nat}

/-! ## Insertion sort -/

theorem insInner_src (C : Calls E) (h : On m v k) (hk : k < 2 ^ 60) {a b i : Int} {j : Int} {d d' : List E} (hd : d.length = k)
    (hr : Ran lt ge (Verif.Sort.insInner a j) d () d') :
    d'.length = k ∧ ∃ j', forOf (ctx lt ge less) C (nth (bodyOf (nth insertionSortOrdered_fn.body 0)) 0)
        [("j", .num .int j), ("i", .num .int i), ("data", v), ("a", .num .int a), ("b", .num .int b)] (wr m v d) =
      pure (.next, [("j", .num .int j'), ("i", .num .int i), ("data", v), ("a", .num .int a), ("b", .num .int b)],
        wr m v d') := by
  generalize hn : (j - a).toNat = n
  induction n using Nat.strongRecOn generalizing j d with
  | _ n ih =>
    unfold Verif.Sort.insInner at hr
    simp only [insertionSortOrdered_fn, nth, bodyOf, forOf] at ih ⊢
    rw [rounds_eq]
    by_cases hja : j > a
    · rw [if_pos hja] at hr
      obtain ⟨c, d1, h1, hr⟩ := hr.bind
      obtain ⟨r1, r2, hc, rfl⟩ := h1.lessAt
      cases c with
      | true =>
        simp only [if_true] at hr
        obtain ⟨_, d2, h1, hr⟩ := hr.bind
        obtain ⟨-, -, hl, hs⟩ := h1.swap
        obtain ⟨g1, j', g2⟩ := ih _ (by omega) (hl.trans hd) hr rfl
        refine ⟨g1, j', ?_⟩
        go_run [h.fetch, h.index, hc, h.store, hs, g2]
      | false =>
        obtain ⟨-, rfl⟩ := hr.ret
        refine ⟨hd, j, ?_⟩
        go_run [h.fetch, h.index, hc]
    · rw [if_neg hja] at hr
      obtain ⟨-, rfl⟩ := hr.ret
      exact ⟨hd, j, by go_run []⟩

theorem insOuter_src (C : Calls E) (h : On m v k) (hk : k < 2 ^ 60) {a b : Int} (hb : b ≤ k) {i : Int} (hi : 0 ≤ i)
    {d d' : List E} (hd : d.length = k) (hr : Ran lt ge (Verif.Sort.insOuter a b i) d () d') :
    d'.length = k ∧ ∃ i', forOf (ctx lt ge less) C (nth insertionSortOrdered_fn.body 0)
        [("i", .num .int i), ("data", v), ("a", .num .int a), ("b", .num .int b)] (wr m v d) =
      pure (.next, [("i", .num .int i'), ("data", v), ("a", .num .int a), ("b", .num .int b)], wr m v d') := by
  generalize hn : (b - i).toNat = n
  induction n using Nat.strongRecOn generalizing i d with
  | _ n ih =>
    unfold Verif.Sort.insOuter at hr
    simp only [insertionSortOrdered_fn, nth, forOf] at ih ⊢
    rw [rounds_eq]
    by_cases hja : i < b
    · rw [if_pos hja] at hr
      obtain ⟨c, d1, h1, hr⟩ := hr.bind
      obtain ⟨f1, j', f2⟩ := insInner_src less C h hk (b := b) (i := i) hd h1
      simp only [insertionSortOrdered_fn, nth, bodyOf, forOf] at f2
      obtain ⟨g1, i', g2⟩ := ih _ (by omega) (by omega) f1 hr rfl
      refine ⟨g1, i', ?_⟩
      go_run [f2, g2]
    · rw [if_neg hja] at hr
      obtain ⟨-, rfl⟩ := hr.ret
      exact ⟨hd, i, by go_run []⟩

theorem insertionSort_src (n : Nat) (h : On m v k) (hk : k < 2 ^ 60) {a b : Int} (ha : 0 ≤ a) (hak : a ≤ k) (hb : b ≤ k)
    {d d' : List E} (hd : d.length = k) (hr : Ran lt ge (Verif.Sort.insertionSort a b) d () d') :
    d'.length = k ∧
      calls (ctx lt ge less) (n + 1) "insertionSortOrdered" [v, .num .int a, .num .int b] (wr m v d) = pure ([], wr m v d') := by
  obtain ⟨f1, i', f2⟩ := insOuter_src less (calls (ctx lt ge less) n) h hk hb (by omega) hd hr
  simp only [insertionSortOrdered_fn, nth, forOf] at f2
  refine ⟨f1, ?_⟩
  rw [calls]
  go_run [insertionSortOrdered_fn, h.coerce, f2]

/-! ## Heap sort -/

theorem siftLoop_src (C : Calls E) (h : On m v k) (hk : k < 2 ^ 60) {lo hi first : Int} (hf' : first ≤ k) (hh : hi ≤ k)
    {root : Int} (h0 : 0 ≤ root) (h1 : root ≤ k) {d d' : List E} (hd : d.length = k)
    (hr : Ran lt ge (Verif.Sort.siftDown root hi first) d () d') :
    d'.length = k ∧ ∃ root', ∃ f, (f = .next ∨ f = .ret []) ∧ forOf (ctx lt ge less) C (nth siftDownOrdered_fn.body 1)
        [("root", .num .int root), ("data", v), ("lo", .num .int lo), ("hi", .num .int hi), ("first", .num .int first)]
        (wr m v d) =
      pure (f, [("root", .num .int root'), ("data", v), ("lo", .num .int lo), ("hi", .num .int hi),
        ("first", .num .int first)], wr m v d') := by
  generalize hn : (hi - root).toNat = n
  induction n using Nat.strongRecOn generalizing root d with
  | _ n ih =>
    unfold Verif.Sort.siftDown at hr
    simp only [siftDownOrdered_fn, nth, forOf] at ih ⊢
    rw [rounds_eq]
    by_cases hja : 2 * root + 1 ≥ hi
    · rw [if_pos hja] at hr
      obtain ⟨-, rfl⟩ := hr.ret
      refine ⟨hd, root, .next, Or.inl rfl, ?_⟩
      go_run []
    · rw [if_neg hja] at hr
      obtain ⟨c, d1, hp, hr1⟩ := hr.bind
      have hp : d1 = d ∧ (c = 2 * root + 1 ∧ ¬ 2 * root + 1 + 1 < hi ∨
          2 * root + 1 + 1 < hi ∧ first + (2 * root + 1) + 1 < k ∧
          (c = 2 * root + 1 ∧ lt (el d (first + (2 * root + 1))) (el d (first + (2 * root + 1) + 1)) = false ∨
           c = 2 * root + 1 + 1 ∧ lt (el d (first + (2 * root + 1))) (el d (first + (2 * root + 1) + 1)) = true)) := by
        unfold Verif.Sort.pickChild at hp
        split at hp
        · obtain ⟨q, d2, hq, hp⟩ := hp.bind
          obtain ⟨r1, r2, hcmp, rfl⟩ := hq.lessAt
          cases q <;> (obtain ⟨rfl, rfl⟩ := hp.ret; simp_all; try omega)
        · obtain ⟨rfl, rfl⟩ := hp.ret
          exact ⟨rfl, Or.inl ⟨rfl, by assumption⟩⟩
      obtain ⟨rfl, hp⟩ := hp
      by_cases hc : root < c ∧ c < hi
      case neg => rw [dif_neg hc] at hr1; exact hr1.fail.elim
      rw [dif_pos hc] at hr1
      obtain ⟨q, d2, hq, hr2⟩ := hr1.bind
      obtain ⟨r1, r2, hcmp, rfl⟩ := hq.nlessAt
      cases q with
      | true =>
        obtain ⟨-, rfl⟩ := hr2.ret
        refine ⟨hd, root, .ret [], Or.inr rfl, ?_⟩
        rcases hp with ⟨rfl, c1⟩ | ⟨c1, c2, ⟨rfl, c3⟩ | ⟨rfl, c3⟩⟩
        · go_run [h.fetch, h.index, hcmp]
        · go_run [h.fetch, h.index, c3, hcmp]
        · go_run [h.fetch, h.index, c3, hcmp]
      | false =>
        simp only [Bool.false_eq_true, if_false] at hr2
        obtain ⟨_, d2, hs, hr3⟩ := hr2.bind
        obtain ⟨-, -, hl, hs⟩ := hs.swap
        obtain ⟨g1, root', f, g2, g3⟩ := ih _ (by omega) (by omega) (by omega) (hl.trans hd) hr3 rfl
        refine ⟨g1, root', f, g2, ?_⟩
        rcases hp with ⟨rfl, c1⟩ | ⟨c1, c2, ⟨rfl, c3⟩ | ⟨rfl, c3⟩⟩
        · go_run [h.fetch, h.index, hcmp, h.store, hs, g3]
        · go_run [h.fetch, h.index, c3, hcmp, h.store, hs, g3]
        · go_run [h.fetch, h.index, c3, hcmp, h.store, hs, g3]

theorem siftDown_src (n : Nat) (h : On m v k) (hk : k < 2 ^ 60) {lo hi first : Int} (hf' : first ≤ k)
    (hh : hi ≤ k) (h0 : 0 ≤ lo) (h1 : lo ≤ k) {d d' : List E} (hd : d.length = k)
    (hr : Ran lt ge (Verif.Sort.siftDown lo hi first) d () d') :
    d'.length = k ∧
      calls (ctx lt ge less) (n + 1) "siftDownOrdered" [v, .num .int lo, .num .int hi, .num .int first] (wr m v d) =
        pure ([], wr m v d') := by
  obtain ⟨f1, i', f, hf, f2⟩ := siftLoop_src less (calls (ctx lt ge less) n) h hk hf' hh (lo := lo) h0 h1 hd hr
  simp only [siftDownOrdered_fn, nth, forOf] at f2
  refine ⟨f1, ?_⟩
  rw [calls]
  rcases hf with rfl | rfl <;> go_run [siftDownOrdered_fn, h.coerce, h.fetch, f2]

theorem heapBuild_src (n : Nat) (h : On m v k) (hk : k < 2 ^ 60) {a b lo hi first : Int} (hf' : first ≤ k)
    (hh : hi ≤ k) {i : Int} (hi0 : -1 ≤ i) (hik : i ≤ k) {d d' : List E} (hd : d.length = k)
    (hr : Ran lt ge (Verif.Sort.heapBuild i hi first) d () d') :
    d'.length = k ∧ ∃ i', forOf (ctx lt ge less) (calls (ctx lt ge less) (n + 1)) (nth heapSortOrdered_fn.body 3)
        [("i", .num .int i), ("hi", .num .int hi), ("lo", .num .int lo), ("first", .num .int first), ("data", v),
          ("a", .num .int a), ("b", .num .int b)] (wr m v d) =
      pure (.next, [("i", .num .int i'), ("hi", .num .int hi), ("lo", .num .int lo), ("first", .num .int first), ("data", v),
          ("a", .num .int a), ("b", .num .int b)], wr m v d') := by
  generalize hn : (i + 1).toNat = n'
  induction n' using Nat.strongRecOn generalizing i d with
  | _ n' ih =>
    unfold Verif.Sort.heapBuild at hr
    simp only [heapSortOrdered_fn, nth, forOf] at ih ⊢
    rw [rounds_eq]
    by_cases hja : i ≥ 0
    · rw [if_pos hja] at hr
      obtain ⟨c, d1, h1, hr⟩ := hr.bind
      obtain ⟨f1, f2⟩ := siftDown_src less n h hk hf' hh hja hik hd h1
      obtain ⟨g1, i', g2⟩ := ih _ (by omega) (by omega) (by omega) f1 hr rfl
      refine ⟨g1, i', ?_⟩
      go_run [h.fetch, f2, g2]
    · rw [if_neg hja] at hr
      obtain ⟨-, rfl⟩ := hr.ret
      exact ⟨hd, i, by go_run []⟩

theorem heapPop_src (n : Nat) (h : On m v k) (hk : k < 2 ^ 60) {a b hi first : Int} (hf' : first ≤ k)
    {i : Int} (hi0 : -1 ≤ i) (hik : i ≤ k) {d d' : List E} (hd : d.length = k)
    (hr : Ran lt ge (Verif.Sort.heapPop i first) d () d') :
    d'.length = k ∧ ∃ i', forOf (ctx lt ge less) (calls (ctx lt ge less) (n + 1)) (nth heapSortOrdered_fn.body 4)
        [("i", .num .int i), ("hi", .num .int hi), ("lo", .num .int 0), ("first", .num .int first), ("data", v),
          ("a", .num .int a), ("b", .num .int b)] (wr m v d) =
      pure (.next, [("i", .num .int i'), ("hi", .num .int hi), ("lo", .num .int 0), ("first", .num .int first), ("data", v),
          ("a", .num .int a), ("b", .num .int b)], wr m v d') := by
  generalize hn : (i + 1).toNat = n'
  induction n' using Nat.strongRecOn generalizing i d with
  | _ n' ih =>
    unfold Verif.Sort.heapPop at hr
    simp only [heapSortOrdered_fn, nth, forOf] at ih ⊢
    rw [rounds_eq]
    by_cases hja : i ≥ 0
    · rw [if_pos hja] at hr
      obtain ⟨c, d1, h1, hr⟩ := hr.bind
      obtain ⟨r1, r2, hl, hs⟩ := h1.swap
      obtain ⟨c, d2, h1, hr⟩ := hr.bind
      obtain ⟨f1, f2⟩ := siftDown_src less n h hk hf' hik (Int.le_refl 0) (by omega) (hl.trans hd) h1
      obtain ⟨g1, i', g2⟩ := ih _ (by omega) (by omega) (by omega) f1 hr rfl
      refine ⟨g1, i', ?_⟩
      go_run [h.fetch, h.index, h.store, hs, f2, g2]
    · rw [if_neg hja] at hr
      obtain ⟨-, rfl⟩ := hr.ret
      exact ⟨hd, i, by go_run []⟩

theorem heapSort_src (n : Nat) (h : On m v k) (hk : k < 2 ^ 60) {a b : Int} (ha : 0 ≤ a) (hab : a < b) (hb : b ≤ k)
    {d d' : List E} (hd : d.length = k) (hr : Ran lt ge (Verif.Sort.heapSort a b) d () d') :
    d'.length = k ∧
      calls (ctx lt ge less) (n + 2) "heapSortOrdered" [v, .num .int a, .num .int b] (wr m v d) = pure ([], wr m v d') := by
  obtain ⟨_, d1, h1, hr⟩ := hr.bind
  obtain ⟨f1, i1, f2⟩ := heapBuild_src less n h hk (a := a) (b := b) (lo := 0) (by omega) (by omega) (by omega) (by omega) hd h1
  obtain ⟨g1, i2, g2⟩ := heapPop_src less n h hk (a := a) (b := b) (hi := b - a) (by omega) (by omega) (by omega) f1 hr
  refine ⟨g1, ?_⟩
  simp only [heapSortOrdered_fn, nth, forOf] at f2 g2
  rw [calls]
  go_run [heapSortOrdered_fn, h.coerce, h.fetch, f2, g2]

end Verif.Src.Sort.Ordered
