import Verif.Sort.More
import Verif.Sort.Depth
import Verif.Sort.Swaps

/-! # C87, C88: how often elements are exchanged, how deep the sorts recurse -/

namespace Verif.Sort

variable {E : Type} [Inhabited E]
set_option linter.unusedSectionVars false

/-- What a sorting program does to a slice, step by step, when run against a comparator. -/
def steps {σ : Type} (p : M E Unit) (cmp : σ → Kind → E → E → Bool × σ) (s : σ) (d : List E) : List Act :=
  (p d).trace cmp s

/-- The calls of the comparator in it are those that `runProg` counts. -/
theorem Prog.trace_calls {α σ : Type} {cmp : σ → Kind → E → E → Bool × σ} {p : Prog E α} {s s' : σ} {a : α}
    {n : Nat} (he : p.exec cmp s = .ok (a, s', n)) : (p.trace cmp s).count .call = n := by
  induction p generalizing s n with
  | ret b =>
    simp only [Prog.exec, Except.ok.injEq, Prod.mk.injEq] at he
    obtain ⟨-, -, rfl⟩ := he
    rfl
  | fail msg => cases he
  | note e p ih =>
    rw [Prog.trace, List.count_cons_of_ne (by simp)]
    exact ih he
  | ask k x y d next ih =>
    simp only [Prog.exec] at he
    rcases hx : (next (cmp s k x y).1).exec cmp (cmp s k x y).2 with e | ⟨b, t', l⟩
    · rw [hx] at he; cases he
    · rw [hx] at he
      simp only [Except.ok.injEq, Prod.mk.injEq] at he
      obtain ⟨rfl, rfl, rfl⟩ := he
      rw [Prog.trace, List.count_cons_self, ih _ hx]

theorem steps_calls {σ : Type} {p : M E Unit} {cmp : σ → Kind → E → E → Bool × σ} {s : σ} {d out : List E} {n : Nat}
    (h : runProg p cmp s d = .ok (out, n)) : (steps p cmp s d).count .call = n := by
  unfold runProg at h
  rcases he : (p d).exec cmp s with e | ⟨⟨u, d'⟩, s', n'⟩
  · rw [he] at h; cases h
  · rw [he] at h
    injection h with h
    injection h with h1 h2
    subst h2
    exact Prog.trace_calls he

/-- What holds of all runs holds of each. -/
theorem steps_ew {S σ : Type} {step : Act → S → S} {t : S} {p : M E Unit} {cmp : σ → Kind → E → E → Bool × σ}
    {d : List E} {B : S → Prop} (h : ew step (fun _ _ _ _ => True) p (fun _ _ t => B t) t d) {s : σ}
    {out : List E} {n : Nat} (hr : runProg p cmp s d = .ok (out, n)) :
    B ((steps p cmp s d).foldl (fun t x => step x t) t) := by
  unfold runProg at hr
  rcases he : (p d).exec cmp s with e | ⟨⟨u, d'⟩, s', n'⟩
  · rw [he] at hr; cases hr
  · exact Prog.ew_exec (fun _ _ _ _ => trivial) h s he

theorem foldl_excess (l : List Act) (s : Int) :
    l.foldl (fun t x => excess x t) s = s + l.count (.ev .swap) - l.count .call := by
  induction l generalizing s with
  | nil => simp
  | cons x l ih =>
    rw [List.foldl_cons, ih, List.count_cons, List.count_cons]
    rcases x with _ | (_ | _ | _) <;> simp [excess] <;> omega

theorem foldl_exchanges (l : List Act) (s : Nat) :
    l.foldl (fun t x => exchanges x t) s = s + l.count (.ev .swap) := by
  induction l generalizing s with
  | nil => simp
  | cons x l ih =>
    rw [List.foldl_cons, ih, List.count_cons]
    rcases x with _ | (_ | _ | _) <;> simp [exchanges] <;> omega

/-! ## C87 -/

/-- **C87, any comparator.** `Sort` exchanges elements at most `2 * n` times more often than it calls the
comparator, even if the comparator is not an order or answers from a state. With C74, that is at most
quadratically often. -/
theorem C87_sort_exchanges (data : List E) {σ : Type} (less : σ → E → E → Bool × σ) (s : σ) :
    ∃ out n, runProg sortProg (ofStateful less) s data = .ok (out, n) ∧
      (steps sortProg (ofStateful less) s data).count .call = n ∧
      (steps sortProg (ofStateful less) s data).count (.ev .swap) ≤ n + 2 * data.length := by
  obtain ⟨out, n, h, -⟩ := (C02_sort_rearranges data).2.2 σ less s
  refine ⟨out, n, h, steps_calls h, ?_⟩
  have := steps_ew (B := fun t => t ≤ 2 * (data.length : Int)) (sortProg_x data) h
  rw [foldl_excess, steps_calls h] at this
  omega

/-- **C87, an order.** With a strict weak order, `Sort` exchanges elements `O(n log n)` times. -/
theorem C87_sort_exchanges_order (less : E → E → Bool) (data : List E) (hw : StrictWeakOn data less) :
    (steps sortProg (ofLess less) () data).count (.ev .swap) ≤
      data.length * (130 * (Nat.log2 data.length + 1) + 31) := by
  obtain ⟨⟨out, n, h, -, hn⟩, -⟩ := C72_sort_comparisons less data hw
  have := steps_ew (B := fun t => t ≤ 2 * (data.length : Int)) (sortProg_x data) h
  rw [foldl_excess, steps_calls h] at this
  have e : data.length * (130 * (Nat.log2 data.length + 1) + 31) =
      data.length * (130 * (Nat.log2 data.length + 1) + 29) + 2 * data.length := by
    rw [show 130 * (Nat.log2 data.length + 1) + 31 = 130 * (Nat.log2 data.length + 1) + 29 + 2 by omega,
      Nat.mul_add, Nat.mul_comm data.length 2]
  omega

/-- **C87, `Stable`.** `Stable` exchanges elements `O(n log² n)` times, for every comparator. -/
theorem C87_stable_exchanges (data : List E) {σ : Type} (less : σ → E → E → Bool × σ) (s : σ) :
    (steps stableProg (ofStateful less) s data).count (.ev .swap) ≤
      data.length * ((Nat.log2 data.length + 1) * (Nat.log2 data.length + 1) + 19) := by
  obtain ⟨out, n, h, -⟩ := C02_stable_rearranges data σ less s
  have := steps_ew (B := fun t => t ≤ data.length * (bitsLen data.length * bitsLen data.length + 19))
    (stableProg_s data) h
  rw [foldl_exchanges] at this
  rw [Nat.zero_add] at this
  exact Nat.le_trans this (Nat.mul_le_mul_left _ (Nat.add_le_add_right
    (Nat.mul_le_mul (bitsLen_le _) (bitsLen_le _)) 19))

/-- Exchange the elements at two positions. -/
def exchange (l : List E) (p : Nat × Nat) : List E := (l.set p.1 (l.getD p.2 default)).set p.2 (l.getD p.1 default)

/-- `l` becomes `l'` by exchanging elements at positions of `l` exactly `n` times. -/
def ByExchanges (n : Nat) (l l' : List E) : Prop :=
  ∃ ps : List (Nat × Nat), ps.length = n ∧ (∀ p ∈ ps, p.1 < l.length ∧ p.2 < l.length) ∧ l' = ps.foldl exchange l

theorem length_exchange (l : List E) (p : Nat × Nat) : (exchange l p).length = l.length := by
  simp [exchange]

theorem length_foldl_exchange (ps : List (Nat × Nat)) (l : List E) : (ps.foldl exchange l).length = l.length := by
  induction ps generalizing l with
  | nil => rfl
  | cons p ps ih => rw [List.foldl_cons, ih, length_exchange]

theorem ByExchanges.trans {m n : Nat} {l l' l'' : List E} (h : ByExchanges m l l') (h' : ByExchanges n l' l'') :
    ByExchanges (m + n) l l'' := by
  obtain ⟨ps, h1, h2, rfl⟩ := h
  obtain ⟨qs, g1, g2, rfl⟩ := h'
  refine ⟨ps ++ qs, by simp [h1, g1], ?_, by rw [List.foldl_append]⟩
  intro p hp
  rcases List.mem_append.1 hp with hp | hp
  · exact h2 p hp
  · have := g2 p hp
    rwa [length_foldl_exchange] at this

/-- The slice changes by exchanges only, and each is noted. -/
theorem Built.exchanges {adm : Kind → E → E → Bool → Prop} {r : Bool} {α : Type} {m : M E α} (h : Built r m)
    (n : Nat) (d : List E) :
    sw adm m (fun _ d' n' => ∃ k, n' = n + k ∧ ByExchanges k d d') n d := by
  have stay : ∀ (n : Nat) (d : List E), ∃ k, n = n + k ∧ ByExchanges k d d := fun n d =>
    ⟨0, rfl, [], rfl, fun _ hp => (by cases hp), rfl⟩
  induction h generalizing n d with
  | pure a => exact ew_pure.2 (stay n d)
  | fail msg => exact ew_fail
  | lessAt i j => exact ew_lessAt fun _ _ => stay n d
  | nlessAt i j => exact ew_nlessAt fun _ _ => stay n d
  | swap i j =>
    unfold sw ew Sort.swap
    split
    · rename_i hij
      obtain ⟨⟨i0, i1⟩, j0, j1⟩ := hij
      refine ⟨1, rfl, [(i.toNat, j.toNat)], rfl, ?_, ?_⟩
      · intro p hp
        rw [List.mem_singleton] at hp
        subst hp
        exact ⟨by simp; omega, by simp; omega⟩
      · simp [exchange, el, i0, j0]
    · trivial
  | bind _ _ h1 h2 =>
    refine ew_bind.2 (ew_mono (h1 n d) ?_)
    rintro a d1 n1 ⟨k, rfl, hk⟩
    refine ew_mono (h2 a _ d1) ?_
    rintro b d2 n2 ⟨k', rfl, hk'⟩
    exact ⟨k + k', by omega, hk.trans hk'⟩
  | recurse _ _ h => exact sw_recurse.2 (h n d)
  | length _ h => exact h d.length n d

/-- **C87, the exchanges are all there is.** The slice that `Sort` and `Stable` leave arises from the original
one by exchanging two elements as often as the trace says. -/
theorem C87_exchanges_only (data : List E) {σ : Type} (less : σ → E → E → Bool × σ) (s : σ) :
    ∀ p ∈ [sortProg, stableProg], ∃ out n, runProg p (ofStateful less) s data = .ok (out, n) ∧
      ByExchanges ((steps p (ofStateful less) s data).count (.ev .swap)) data out := by
  have key : ∀ (p : M E Unit), Built true p → ∀ out n, runProg p (ofStateful less) s data = .ok (out, n) →
      ByExchanges ((steps p (ofStateful less) s data).count (.ev .swap)) data out := by
    intro p hp out n h
    unfold runProg at h
    rcases he : (p data).exec (ofStateful less) s with e | ⟨⟨u, d'⟩, s', n'⟩
    · rw [he] at h; cases h
    · rw [he] at h
      injection h with h
      injection h with h1 h2
      subst h1
      obtain ⟨k, hk, hx⟩ := Prog.ew_exec (fun _ _ _ _ => trivial)
        (hp.exchanges (adm := fun _ _ _ _ => True) 0 data) s he
      rw [foldl_exchanges] at hk
      have : (steps p (ofStateful less) s data).count (.ev .swap) = k := by unfold steps; omega
      rw [this]; exact hx
  intro p hp
  rcases List.mem_cons.1 hp with rfl | hp
  · obtain ⟨out, n, h, -⟩ := (C02_sort_rearranges data).2.2 σ less s
    exact ⟨out, n, h, key _ sortProg_built _ _ h⟩
  · obtain rfl := List.mem_singleton.1 hp
    obtain ⟨out, n, h, -⟩ := C02_stable_rearranges data σ less s
    exact ⟨out, n, h, key _ stableProg_built _ _ h⟩

/-- Non-vacuity: a slice and an order; two exchanges, three comparisons. -/
example : steps sortProg (ofLess fun a b : Nat => decide (a < b)) () [2, 3, 1] =
    [.call, .call, .ev .swap, .call, .ev .swap] := by decide +kernel

/-- `Stable` on two blocks of 20 and 4. -/
example : (steps stableProg (ofLess fun a b : Nat => decide (a < b)) ()
    ((List.range 20).map (· + 4) ++ List.range 4)).count (.ev .swap) = 26 := by decide +kernel

/-! ## C88 -/

theorem depth_prefix (l : List Act) (c p : Int) (k : Nat) :
    c + (l.take k).count (.ev .enter) - (l.take k).count (.ev .leave) ≤
      max c (l.foldl (fun t x => depthStep x t) (c, p)).2 ∧
    p ≤ (l.foldl (fun t x => depthStep x t) (c, p)).2 ∧
    (l.foldl (fun t x => depthStep x t) (c, p)).1 = c + l.count (.ev .enter) - l.count (.ev .leave) := by
  induction l generalizing c p k with
  | nil => simp; omega
  | cons x l ih =>
    rw [List.foldl_cons]
    rcases k with _ | k
    · obtain ⟨-, h2, h3⟩ := ih (depthStep x (c, p)).1 (depthStep x (c, p)).2 0
      rw [List.count_cons, List.count_cons]
      refine ⟨by simp; omega, ?_, ?_⟩
      · rcases x with _ | (_ | _ | _) <;> simp [depthStep] at h2 ⊢ <;> omega
      · rcases x with _ | (_ | _ | _) <;> simp [depthStep] at h3 ⊢ <;> omega
    · obtain ⟨h1, h2, h3⟩ := ih (depthStep x (c, p)).1 (depthStep x (c, p)).2 k
      rw [List.take_succ_cons, List.count_cons, List.count_cons, List.count_cons, List.count_cons]
      rcases x with _ | (_ | _ | _) <;> simp [depthStep] at h1 h2 h3 ⊢ <;> omega

/-- At every moment of a run at most `k` recursive calls are in progress, and in the end none is. -/
def AtMostDeep (k : Nat) (l : List Act) : Prop :=
  (∀ i, (l.take i).count (.ev .enter) ≤ (l.take i).count (.ev .leave) + k) ∧
  l.count (.ev .enter) = l.count (.ev .leave)

theorem Deep.steps {k : Nat} {p : M E Unit} {d : List E} (h : Deep (fun _ _ _ _ => True) k p (fun _ _ => True) d)
    {σ : Type} {cmp : σ → Kind → E → E → Bool × σ} {s : σ} {out : List E} {n : Nat}
    (hr : runProg p cmp s d = .ok (out, n)) : AtMostDeep k (steps p cmp s d) := by
  obtain ⟨-, h1, h2⟩ := steps_ew (B := fun t : Int × Int => True ∧ t.1 = 0 ∧ t.2 ≤ max 0 (0 + (k : Int))) (h 0 0) hr
  obtain ⟨-, -, h3⟩ := depth_prefix (Sort.steps p cmp s d) 0 0 0
  refine ⟨fun i => ?_, by omega⟩
  obtain ⟨g1, -, -⟩ := depth_prefix (Sort.steps p cmp s d) 0 0 i
  omega

/-- **C88, `Sort`.** `pdqsort` calls itself only on the smaller part of a partition, so that a slice of fewer
than `13 * 2^k` elements never needs more than `k` nested calls — whatever the comparator answers. -/
theorem C88_sort_depth (data : List E) (k : Nat) (hk : data.length < 13 * 2 ^ k) {σ : Type}
    (less : σ → E → E → Bool × σ) (s : σ) : AtMostDeep k (steps sortProg (ofStateful less) s data) := by
  obtain ⟨out, n, h, -⟩ := (C02_sort_rearranges data).2.2 σ less s
  exact (sortProg_depth k data hk).steps h

/-- In particular at most `log₂ n`. -/
theorem C88_sort_depth_log (data : List E) {σ : Type} (less : σ → E → E → Bool × σ) (s : σ) :
    AtMostDeep (Nat.log2 data.length) (steps sortProg (ofStateful less) s data) := by
  refine C88_sort_depth data _ ?_ less s
  have := Nat.lt_log2_self (n := data.length)
  rw [Nat.pow_succ] at this
  omega

/-- **C88, `Stable`.** `symMerge` calls itself on halves: at most `k` nested calls on at most `3 * 2^k`
elements, whatever the comparator answers. -/
theorem C88_stable_depth (data : List E) (k : Nat) (hk : data.length ≤ 3 * 2 ^ k) {σ : Type}
    (less : σ → E → E → Bool × σ) (s : σ) : AtMostDeep k (steps stableProg (ofStateful less) s data) := by
  obtain ⟨out, n, h, -⟩ := C02_stable_rearranges data σ less s
  exact (stableProg_depth k data hk).steps h

theorem C88_stable_depth_log (data : List E) {σ : Type} (less : σ → E → E → Bool × σ) (s : σ) :
    AtMostDeep (Nat.log2 data.length) (steps stableProg (ofStateful less) s data) := by
  refine C88_stable_depth data _ ?_ less s
  have := Nat.lt_log2_self (n := data.length)
  rw [Nat.pow_succ] at this
  omega

/-- Non-vacuity: a slice that is partitioned, with a nested call in progress. -/
example : (steps sortProg (ofLess fun a b : Nat => decide (a < b)) ()
    [9, 3, 14, 1, 12, 5, 2, 8, 13, 7, 4, 10, 0, 11, 6]).count (.ev .enter) = 1 := by decide +kernel

example : (steps stableProg (ofLess fun a b : Nat => decide (a < b)) ()
    ((List.range 20).map (· + 4) ++ List.range 4)).count (.ev .enter) ≠ 0 := by decide +kernel

end Verif.Sort
