import Verif.Algo.Props

/-!
# The algorithms with comparators that have effects

In `Algo/Model.lean` comparators are pure functions. A Go comparator may count its calls, write to memory,
answer differently each time, or panic. Here the same loops are modelled with a comparator that is a call
on memory; `*_pure` show that for comparators without effects nothing changes.
-/

namespace Verif.Algo

open Verif.Iter Verif.Slice

variable {S T It : Type}

/-- A Go comparator: a call on memory. -/
abbrev Cmp (S T : Type) := T → T → St S Bool

/-- A comparator without effects. -/
def ofPure (comp : T → T → Bool) : Cmp S T := fun a b => pure (comp a b)

/-! ## Model -/

/-- algo/binary_search.go:14-25, loop of `UpperBoundIterators`. -/
def upperBoundLoopM [RandIter S T It] (comp : Cmp S T) (value : T) (first : It) (count : Nat) : St S It :=
  if 0 < count then do
    let step := count / 2
    let it ← St.lift (add first (step : Int))
    let x ← get it
    let c ← comp value x
    if !c then
      let it ← St.lift (next it)
      upperBoundLoopM comp value it (count - (step + 1))
    else upperBoundLoopM comp value first step
  else pure first
termination_by count
decreasing_by all_goals omega

/-- algo/binary_search.go:9-27 `UpperBoundIterators`. -/
def upperBoundM [RandIter S T It] (comp : Cmp S T) (first last : It) (value : T) : St S It := do
  let count ← St.lift (distance first last)
  if count < 0 then St.panic "invalid range"
  else upperBoundLoopM comp value first count.toNat

/-- algo/binary_search.go:34-45, loop of `LowerBoundIterators`. -/
def lowerBoundLoopM [RandIter S T It] (comp : Cmp S T) (value : T) (first : It) (count : Nat) : St S It :=
  if 0 < count then do
    let step := count / 2
    let it ← St.lift (add first (step : Int))
    let x ← get it
    let c ← comp x value
    if c then
      let it ← St.lift (next it)
      lowerBoundLoopM comp value it (count - (step + 1))
    else lowerBoundLoopM comp value first step
  else pure first
termination_by count
decreasing_by all_goals omega

/-- algo/binary_search.go:29-47 `LowerBoundIterators`. -/
def lowerBoundM [RandIter S T It] (comp : Cmp S T) (first last : It) (value : T) : St S It := do
  let count ← St.lift (distance first last)
  if count < 0 then St.panic "invalid range"
  else lowerBoundLoopM comp value first count.toNat

/-- algo/is_sorted.go:12-18, loop of `IsSortedUntilIterators`. -/
def isSortedLoopM [Iter S T It] (comp : Cmp S T) (last : It) : Nat → It → It → St S It
  | 0, _, _ => St.panic "fuel"
  | fuel + 1, first, nxt => do
    let e ← St.lift (equal nxt last)
    if e then pure last
    else
      let a ← get nxt
      let b ← get first
      let c ← comp a b
      if c then pure nxt
      else
        let nxt' ← St.lift (next nxt)
        isSortedLoopM comp last fuel nxt nxt'

/-- algo/is_sorted.go:9-21 `IsSortedUntilIterators`. -/
def isSortedUntilM [Iter S T It] (fuel : Nat) (comp : Cmp S T) (first last : It) : St S It := do
  let e ← St.lift (equal first last)
  if e then pure last
  else
    let nxt ← St.lift (next first)
    isSortedLoopM comp last fuel first nxt

/-- algo/next_permutation.go:13-16, the conditional exchange. -/
def permSwapM [RandIter S T It] (comp : Cmp S T) (rFirst rLast left : It) : St S Unit := do
  let e ← St.lift (equal left rLast)
  if e then pure ()
  else
    let x ← get left
    let right ← upperBoundM comp rFirst left x
    swap left right

/-- algo/next_permutation.go:9-19 `NextPermutationIterators`. -/
def nextPermutationM [RandIter S T It] (fuel : Nat) (comp : Cmp S T) (first last : It) : St S Bool := do
  let rFirst : Rev It := ⟨last⟩
  let rLast : Rev It := ⟨first⟩
  let left ← isSortedUntilM fuel comp rFirst rLast
  permSwapM comp rFirst rLast left
  reverse fuel left.base last
  let e ← St.lift (equal left rLast)
  pure !e

/-! ## Without effects it is the model of `Algo/Model.lean` -/

theorem bind_ofPure {β : Type} (comp : T → T → Bool) (a b : T) (f : Bool → St S β) :
    (ofPure comp a b >>= f) = f (comp a b) := rfl

theorem upperBoundLoopM_pure [RandIter S T It] (comp : T → T → Bool) (value : T) :
    ∀ (count : Nat) (first : It),
      upperBoundLoopM (ofPure comp) value first count = upperBoundLoop comp value first count := by
  intro count
  induction count using Nat.strongRecOn with
  | _ count ih =>
    intro first
    unfold upperBoundLoopM upperBoundLoop
    by_cases h0 : 0 < count
    · simp only [if_pos h0, bind_ofPure]
      rw [ih (count / 2) (by omega)]
      congr; funext it; congr; funext x; congr; funext it'
      exact ih _ (by omega) it'
    · rw [if_neg h0, if_neg h0]

theorem lowerBoundLoopM_pure [RandIter S T It] (comp : T → T → Bool) (value : T) :
    ∀ (count : Nat) (first : It),
      lowerBoundLoopM (ofPure comp) value first count = lowerBoundLoop comp value first count := by
  intro count
  induction count using Nat.strongRecOn with
  | _ count ih =>
    intro first
    unfold lowerBoundLoopM lowerBoundLoop
    by_cases h0 : 0 < count
    · simp only [if_pos h0, bind_ofPure]
      rw [ih (count / 2) (by omega)]
      congr; funext it; congr; funext x; congr; funext it'
      exact ih _ (by omega) it'
    · rw [if_neg h0, if_neg h0]

theorem isSortedLoopM_pure [Iter S T It] (comp : T → T → Bool) (last : It) :
    ∀ (fuel : Nat) (first nxt : It),
      isSortedLoopM (ofPure comp) last fuel first nxt = isSortedLoop comp last fuel first nxt := by
  intro fuel
  induction fuel with
  | zero => intros; rfl
  | succ fuel ih =>
    intro first nxt
    unfold isSortedLoopM isSortedLoop
    simp only [bind_ofPure, ih]

theorem lowerBoundM_pure [RandIter S T It] (comp : T → T → Bool) (first last : It) (value : T) :
    lowerBoundM (ofPure comp) first last value = lowerBound comp first last value := by
  unfold lowerBoundM lowerBound; simp only [lowerBoundLoopM_pure]

theorem upperBoundM_pure [RandIter S T It] (comp : T → T → Bool) (first last : It) (value : T) :
    upperBoundM (ofPure comp) first last value = upperBound comp first last value := by
  unfold upperBoundM upperBound; simp only [upperBoundLoopM_pure]

theorem isSortedUntilM_pure [Iter S T It] (fuel : Nat) (comp : T → T → Bool) (first last : It) :
    isSortedUntilM fuel (ofPure comp) first last = isSortedUntil fuel comp first last := by
  unfold isSortedUntilM isSortedUntil; simp only [isSortedLoopM_pure]

theorem nextPermutationM_pure [RandIter S T It] (fuel : Nat) (comp : T → T → Bool) (first last : It) :
    nextPermutationM fuel (ofPure comp) first last = nextPermutation fuel comp first last := by
  unfold nextPermutationM nextPermutation permSwapM permSwap
  simp only [isSortedUntilM_pure, upperBoundM_pure]

/-! ## Comparators that leave the range alone -/

variable [RandIter S T It]

/-- The comparator leaves the sequence alone, and `calls` counts its calls; it may do anything else to
memory, answer anything, or panic. -/
structure Tame (v : View S T It) (comp : Cmp S T) (calls : S → Nat) : Prop where
  ok : ∀ s a b, v.ok s → v.ok (comp a b s).2
  elems : ∀ s a b, v.ok s → v.elems (comp a b s).2 = v.elems s
  count : ∀ s a b, v.ok s → calls (comp a b s).2 = calls s + 1
  put : ∀ s l, v.ok s → l.length = v.n → calls (v.put s l) = calls s

/-- A run that read the sequence, called the comparator at most `n` times and either returned something
satisfying `Q`, or ended with a panic of the comparator itself. -/
structure Reads (v : View S T It) (comp : Cmp S T) (calls : S → Nat) {α : Type} (n : Nat) (Q : α → S → Prop)
    (s : S) (out : Go α × S) : Prop where
  ok : v.ok out.2
  elems : v.elems out.2 = v.elems s
  count : calls out.2 ≤ calls s + n
  res : (∃ a, out.1 = .ok a ∧ Q a out.2) ∨ (∃ e a b s', out.1 = .error e ∧ comp a b s' = (.error e, out.2))

theorem Reads.pure_ {v : View S T It} {comp : Cmp S T} {calls : S → Nat} {α : Type} {n : Nat}
    {Q : α → S → Prop} {s : S} (hs : v.ok s) {a : α} (h : Q a s) : Reads v comp calls n Q s (.ok a, s) :=
  ⟨hs, rfl, by simp, Or.inl ⟨a, rfl, h⟩⟩

/-- A call of the comparator, then the rest. -/
theorem Reads.ask {v : View S T It} {comp : Cmp S T} {calls : S → Nat} (t : Tame v comp calls) {α : Type}
    {n : Nat} {Q : α → S → Prop} {s : S} (hs : v.ok s) (a b : T) (f : Bool → St S α)
    (h : ∀ c s', v.ok s' → v.elems s' = v.elems s → calls s' = calls s + 1 →
      Reads v comp calls n Q s' (f c s')) :
    Reads v comp calls (n + 1) Q s ((comp a b >>= f) s) := by
  have h1 := t.ok s a b hs
  have h2 := t.elems s a b hs
  have h3 := t.count s a b hs
  rw [St.bind_apply]
  rcases e : comp a b s with ⟨r, s'⟩
  rw [e] at h1 h2 h3
  cases r with
  | error m => exact ⟨h1, h2, by simp only at h3 ⊢; omega, Or.inr ⟨m, a, b, s, rfl, e⟩⟩
  | ok c =>
    obtain ⟨g1, g2, g3, g4⟩ := h c s' h1 h2 h3
    exact ⟨g1, g2.trans h2, by simp only at h3 ⊢; omega, g4⟩

theorem Reads.mono {v : View S T It} {comp : Cmp S T} {calls : S → Nat} {α : Type} {n m : Nat}
    {Q R : α → S → Prop} {s : S} {out : Go α × S} (h : Reads v comp calls n Q s out) (hnm : n ≤ m)
    (hQ : ∀ a s', v.ok s' → v.elems s' = v.elems s → calls s' ≤ calls s + n → Q a s' → R a s') :
    Reads v comp calls m R s out :=
  ⟨h.ok, h.elems, by have := h.count; omega,
    h.res.imp (fun ⟨a, e, q⟩ => ⟨a, e, hQ a _ h.ok h.elems h.count q⟩) id⟩

/-- One run after the other. -/
theorem Reads.bind {v : View S T It} {comp : Cmp S T} {calls : S → Nat} {α β : Type} {n m : Nat}
    {Q : α → S → Prop} {R : β → S → Prop} {s : S} {p : St S α} (h : Reads v comp calls n Q s (p s))
    (f : α → St S β)
    (hf : ∀ a s', v.ok s' → v.elems s' = v.elems s → Q a s' → Reads v comp calls m R s' (f a s')) :
    Reads v comp calls (n + m) R s ((p >>= f) s) := by
  obtain ⟨h1, h2, h3, h4⟩ := h
  rw [St.bind_apply]
  rcases e : p s with ⟨r, s'⟩
  rw [e] at h1 h2 h3 h4
  rcases h4 with ⟨a, rfl, q⟩ | ⟨m', a, b, s'', rfl, hc⟩
  · obtain ⟨g1, g2, g3, g4⟩ := hf a s' h1 h2 q
    exact ⟨g1, g2.trans h2, by simp only at h3 ⊢; omega, g4⟩
  · exact ⟨h1, h2, by simp only at h3 ⊢; omega, Or.inr ⟨m', a, b, s'', rfl, hc⟩⟩

/-! ## Binary search -/

theorem upperBoundLoopM_reads {v : View S T It} {comp : Cmp S T} {calls : S → Nat} (t : Tame v comp calls)
    (value : T) : ∀ (b count i : Nat) (s : S), v.ok s → i + count ≤ v.n → count < 2 ^ b →
    Reads v comp calls b (fun it _ => ∃ k, i ≤ k ∧ k ≤ i + count ∧ it = v.pt k) s
      (upperBoundLoopM comp value (v.pt i) count s) := by
  intro b
  induction b with
  | zero =>
    intro count i s hs hi hb
    have : count = 0 := by simpa using hb
    subst this
    unfold upperBoundLoopM
    rw [if_neg (by omega)]
    exact Reads.pure_ hs ⟨i, by omega, by omega, rfl⟩
  | succ b ih =>
    intro count i s hs hi hb
    have hL := v.len s hs
    unfold upperBoundLoopM
    by_cases h0 : 0 < count
    · rw [if_pos h0]
      obtain ⟨x, hx⟩ : ∃ x, (v.elems s)[i + count / 2]? = some x := ⟨_, List.getElem?_eq_getElem (by omega)⟩
      have ha := v.add_pt i (i + count / 2) (by omega) (by omega)
      rw [show (((i + count / 2 : Nat) : Int) - (i : Int)) = ((count / 2 : Nat) : Int) by omega] at ha
      rw [St.bind_lift ha, St.bind_ok (v.get_pt s _ x hs hx)]
      apply Reads.ask t hs
      intro c s' hs' he' _
      rw [Nat.pow_succ] at hb
      cases c with
      | true =>
        rw [if_neg (by simp)]
        exact (ih (count / 2) i s' hs' (by omega) (by omega)).mono (Nat.le_refl _)
          (fun it s'' _ _ _ ⟨k, k1, k2, e⟩ => ⟨k, k1, by omega, e⟩)
      | false =>
        rw [if_pos (by simp), St.bind_lift (v.next_pt (i + count / 2) (by omega))]
        exact (ih (count - (count / 2 + 1)) (i + count / 2 + 1) s' hs' (by omega) (by omega)).mono (Nat.le_refl _)
          (fun it s'' _ _ _ ⟨k, k1, k2, e⟩ => ⟨k, by omega, by omega, e⟩)
    · rw [if_neg h0]
      exact Reads.pure_ hs ⟨i, by omega, by omega, rfl⟩

theorem lowerBoundLoopM_reads {v : View S T It} {comp : Cmp S T} {calls : S → Nat} (t : Tame v comp calls)
    (value : T) : ∀ (b count i : Nat) (s : S), v.ok s → i + count ≤ v.n → count < 2 ^ b →
    Reads v comp calls b (fun it _ => ∃ k, i ≤ k ∧ k ≤ i + count ∧ it = v.pt k) s
      (lowerBoundLoopM comp value (v.pt i) count s) := by
  intro b
  induction b with
  | zero =>
    intro count i s hs hi hb
    have : count = 0 := by simpa using hb
    subst this
    unfold lowerBoundLoopM
    rw [if_neg (by omega)]
    exact Reads.pure_ hs ⟨i, by omega, by omega, rfl⟩
  | succ b ih =>
    intro count i s hs hi hb
    have hL := v.len s hs
    unfold lowerBoundLoopM
    by_cases h0 : 0 < count
    · rw [if_pos h0]
      obtain ⟨x, hx⟩ : ∃ x, (v.elems s)[i + count / 2]? = some x := ⟨_, List.getElem?_eq_getElem (by omega)⟩
      have ha := v.add_pt i (i + count / 2) (by omega) (by omega)
      rw [show (((i + count / 2 : Nat) : Int) - (i : Int)) = ((count / 2 : Nat) : Int) by omega] at ha
      rw [St.bind_lift ha, St.bind_ok (v.get_pt s _ x hs hx)]
      apply Reads.ask t hs
      intro c s' hs' he' _
      rw [Nat.pow_succ] at hb
      cases c with
      | false =>
        rw [if_neg (by simp)]
        exact (ih (count / 2) i s' hs' (by omega) (by omega)).mono (Nat.le_refl _)
          (fun it s'' _ _ _ ⟨k, k1, k2, e⟩ => ⟨k, k1, by omega, e⟩)
      | true =>
        rw [if_pos rfl, St.bind_lift (v.next_pt (i + count / 2) (by omega))]
        exact (ih (count - (count / 2 + 1)) (i + count / 2 + 1) s' hs' (by omega) (by omega)).mono (Nat.le_refl _)
          (fun it s'' _ _ _ ⟨k, k1, k2, e⟩ => ⟨k, by omega, by omega, e⟩)
    · rw [if_neg h0]
      exact Reads.pure_ hs ⟨i, by omega, by omega, rfl⟩

/-- **C79.** For every comparator that leaves the range alone (it may have a state, answer
inconsistently, or panic), `LowerBound` and `UpperBound` on a range of fewer than `2^b` elements call it
at most `b` times, return a position of the range, and panic only if the comparator does; the range is
unchanged in every case. -/
theorem C79_search_calls (v : View S T It) (comp : Cmp S T) (calls : S → Nat) (t : Tame v comp calls)
    (s : S) (hs : v.ok s) (value : T) (i j b : Nat) (hij : i ≤ j) (hj : j ≤ v.n) (hb : j - i < 2 ^ b) :
    Reads v comp calls b (fun it _ => ∃ k, i ≤ k ∧ k ≤ j ∧ it = v.pt k) s
      (lowerBoundM comp (v.pt i) (v.pt j) value s) ∧
    Reads v comp calls b (fun it _ => ∃ k, i ≤ k ∧ k ≤ j ∧ it = v.pt k) s
      (upperBoundM comp (v.pt i) (v.pt j) value s) := by
  constructor
  · unfold lowerBoundM
    rw [St.bind_lift (v.distance_pt (by omega) hj), if_neg (by omega),
      show ((j : Int) - i).toNat = j - i by omega]
    exact (lowerBoundLoopM_reads t value b (j - i) i s hs (by omega) hb).mono (Nat.le_refl _)
      (fun it s'' _ _ _ ⟨k, k1, k2, e⟩ => ⟨k, k1, by omega, e⟩)
  · unfold upperBoundM
    rw [St.bind_lift (v.distance_pt (by omega) hj), if_neg (by omega),
      show ((j : Int) - i).toNat = j - i by omega]
    exact (upperBoundLoopM_reads t value b (j - i) i s hs (by omega) hb).mono (Nat.le_refl _)
      (fun it s'' _ _ _ ⟨k, k1, k2, e⟩ => ⟨k, k1, by omega, e⟩)

/-! ## Sorted prefix -/

theorem isSortedLoopM_reads {v : View S T It} {comp : Cmp S T} {calls : S → Nat} (t : Tame v comp calls)
    {j : Nat} (hj : j ≤ v.n) : ∀ (fuel p : Nat) (s : S), v.ok s → p + 1 ≤ j → j - p ≤ fuel →
    Reads v comp calls (j - (p + 1)) (fun it s' => ∃ k, p < k ∧ k ≤ j ∧ it = v.pt k ∧
        (if k = j then calls s' ≤ calls s + (j - (p + 1)) else calls s' = calls s + (k - p))) s
      (isSortedLoopM comp (v.pt j) fuel (v.pt p) (v.pt (p + 1)) s) := by
  intro fuel
  induction fuel with
  | zero => intro p s hs h1 h2; omega
  | succ fuel ih =>
    intro p s hs h1 h2
    have hL := v.len s hs
    unfold isSortedLoopM
    rw [St.bind_lift (v.equal_pt (p + 1) j (by omega) hj)]
    by_cases h0 : p + 1 = j
    · rw [if_pos (by simpa using h0)]
      exact Reads.pure_ hs ⟨j, by omega, by omega, rfl, by rw [if_pos rfl]; omega⟩
    · rw [if_neg (by simpa using h0)]
      obtain ⟨x, hx⟩ : ∃ x, (v.elems s)[p]? = some x := ⟨_, List.getElem?_eq_getElem (by omega)⟩
      obtain ⟨y, hy⟩ : ∃ y, (v.elems s)[p + 1]? = some y := ⟨_, List.getElem?_eq_getElem (by omega)⟩
      rw [St.bind_ok (v.get_pt s _ y hs hy), St.bind_ok (v.get_pt s _ x hs hx)]
      rw [show j - (p + 1) = j - (p + 1 + 1) + 1 by omega]
      apply Reads.ask t hs
      intro c s' hs' he' hc'
      cases c with
      | true =>
        rw [if_pos rfl]
        exact Reads.pure_ hs' ⟨p + 1, by omega, by omega, rfl, by rw [if_neg h0]; omega⟩
      | false =>
        rw [if_neg (by simp), St.bind_lift (v.next_pt (p + 1) (by omega))]
        refine (ih (p + 1) s' hs' (by omega) (by omega)).mono (Nat.le_refl _) ?_
        rintro it s'' _ _ _ ⟨k, k1, k2, e, hk⟩
        refine ⟨k, by omega, k2, e, ?_⟩
        by_cases c : k = j
        · rw [if_pos c] at hk ⊢; omega
        · rw [if_neg c] at hk ⊢; omega

/-- **C79.** `IsSortedUntil` on `[i, j)` calls the comparator at most once per pair of neighbours; when it
stops at `k` before the end it has called it `k - i` times, once per pair up to there. -/
theorem C79_isSorted_calls (v : View S T It) (comp : Cmp S T) (calls : S → Nat) (t : Tame v comp calls)
    (s : S) (hs : v.ok s) (i j : Nat) (hij : i ≤ j) (hj : j ≤ v.n) (fuel : Nat) (hf : j - i ≤ fuel) :
    Reads v comp calls (j - i - 1)
      (fun it s' => ∃ k, i ≤ k ∧ k ≤ j ∧ it = v.pt k ∧ (k < j → i < k ∧ calls s' = calls s + (k - i))) s
      (isSortedUntilM fuel comp (v.pt i) (v.pt j) s) := by
  unfold isSortedUntilM
  rw [St.bind_lift (v.equal_pt i j (by omega) hj)]
  by_cases h0 : i = j
  · rw [if_pos (by simpa using h0)]
    exact Reads.pure_ hs ⟨j, by omega, by omega, rfl, fun h => by omega⟩
  · rw [if_neg (by simpa using h0), St.bind_lift (v.next_pt i (by omega))]
    refine (isSortedLoopM_reads t hj fuel i s hs (by omega) hf).mono (by omega) ?_
    rintro it s'' _ _ _ ⟨k, k1, k2, e, hk⟩
    refine ⟨k, by omega, k2, e, fun h => ⟨k1, ?_⟩⟩
    rwa [if_neg (by omega)] at hk

/-! ## Next permutation -/

theorem exchange_perm {l : List T} {i j : Nat} (hi : i < l.length) (hj : j < l.length) :
    (exchange l i j).Perm l := by
  unfold exchange
  rw [List.getElem?_eq_getElem hi, List.getElem?_eq_getElem hj]
  simp only
  by_cases h : i = j
  · subst h
    rw [List.set_set, List.set_getElem_self]
  · exact List.set_set_perm hi hj

theorem reverseWindow_perm {l : List T} {i j : Nat} (hij : i ≤ j) : (reverseWindow l i j).Perm l := by
  unfold reverseWindow
  have h : l = l.take i ++ (l.drop i).take (j - i) ++ l.drop j := by
    rw [List.append_assoc]
    have h2 : (l.drop i).take (j - i) ++ l.drop j = l.drop i := by
      have := List.take_append_drop (j - i) (l.drop i)
      rwa [List.drop_drop, show i + (j - i) = j by omega] at this
    rw [h2, List.take_append_drop]
  conv => rhs; rw [h]
  exact ((List.reverse_perm _).append_left _).append_right _

theorem Tame.rev {v : View S T It} {comp : Cmp S T} {calls : S → Nat} (t : Tame v comp calls) :
    Tame v.rev comp calls where
  ok s a b h := t.ok s a b h
  elems s a b h := congrArg List.reverse (t.elems s a b h)
  count s a b h := t.count s a b h
  put s l h hl := t.put s l.reverse h (by rw [List.length_reverse]; exact hl)

theorem Reads.unrev {v : View S T It} {comp : Cmp S T} {calls : S → Nat} {α : Type} {n : Nat}
    {Q : α → S → Prop} {s : S} {out : Go α × S} (h : Reads v.rev comp calls n Q s out) :
    Reads v comp calls n Q s out :=
  ⟨h.ok, List.reverse_inj.1 h.elems, h.count, h.res⟩

/-- How `NextPermutation` may end: rearranged inside `[i, j)` only, or with a panic of the comparator and
the sequence as it was. -/
structure Rearranges (v : View S T It) (comp : Cmp S T) (calls : S → Nat) (i j n : Nat) (s : S)
    (out : Go Bool × S) : Prop where
  ok : v.ok out.2
  count : calls out.2 ≤ calls s + n
  perm : (v.elems out.2).Perm (v.elems s)
  outside : ∀ p, ¬ (i ≤ p ∧ p < j) → (v.elems out.2)[p]? = (v.elems s)[p]?
  res : (∃ r, out.1 = .ok r) ∨
    (∃ e a b s', out.1 = .error e ∧ comp a b s' = (.error e, out.2) ∧ v.elems out.2 = v.elems s)

/-- **C80.** For every comparator that leaves the range alone, be it inconsistent, stateful or panicking:
`NextPermutation` on `[i, j)` only rearranges these elements, leaves all others in place, calls the
comparator fewer than `(j - i) + b` times if `j - i < 2^b`, and panics only if the comparator does,
before having moved anything. -/
theorem C80_nextPermutation_any (v : View S T It) (comp : Cmp S T) (calls : S → Nat) (t : Tame v comp calls)
    (s : S) (hs : v.ok s) (i j b : Nat) (hij : i ≤ j) (hj : j ≤ v.n) (hb : j - i < 2 ^ b)
    (fuel : Nat) (hf : j - i < fuel) :
    Rearranges v comp calls i j (j - i - 1 + b) s (nextPermutationM fuel comp (v.pt i) (v.pt j) s) := by
  have ptF : (⟨v.pt j⟩ : Rev It) = v.rev.pt (v.n - j) := by
    show _ = (⟨v.pt (v.n - _)⟩ : Rev It); congr 2; omega
  have ptL : (⟨v.pt i⟩ : Rev It) = v.rev.pt (v.n - i) := by
    show _ = (⟨v.pt (v.n - _)⟩ : Rev It); congr 2; omega
  have rn : v.rev.n = v.n := rfl
  unfold nextPermutationM
  rw [ptF, ptL]
  -- the search for the descending tail
  have r1 := C79_isSorted_calls v.rev comp calls t.rev s hs (v.n - j) (v.n - i) (by omega) (by omega) fuel (by omega)
  obtain ⟨h1, h2, h3, h4⟩ := r1
  rw [St.bind_apply]
  rcases e1 : isSortedUntilM fuel comp (v.rev.pt (v.n - j)) (v.rev.pt (v.n - i)) s with ⟨r, s1⟩
  rw [e1] at h1 h2 h3 h4
  have h2' : v.elems s1 = v.elems s := List.reverse_inj.1 h2
  simp only at h1 h3
  rcases h4 with ⟨left, er, k, k1, k2, ek, -⟩ | ⟨m, a, c, s', er, hc⟩
  swap
  · simp only at er; subst er
    exact ⟨h1, by simp only; omega, by simp only; rw [h2'], fun p _ => by simp only; rw [h2'],
      Or.inr ⟨m, a, c, s', rfl, hc, h2'⟩⟩
  simp only at er; subst er; subst ek
  simp only
  -- the exchange
  have base : (v.rev.pt k).base = v.pt (v.n - k) := rfl
  have key : ∀ s2 l, v.ok s2 → v.elems s2 = v.elems s → l.length = v.n → l.Perm (v.elems s) →
      (∀ p, ¬ (i ≤ p ∧ p < j) → l[p]? = (v.elems s)[p]?) → calls s2 ≤ calls s + (j - i - 1 + b) →
      Rearranges v comp calls i j (j - i - 1 + b) s
        ((do
          reverse fuel (v.rev.pt k).base (v.pt j)
          let e ← St.lift (equal (v.rev.pt k) (v.rev.pt (v.n - i)))
          pure !e) (v.put s2 l)) := by
    intro s2 l hs2 he2 hl hp ho hc
    rw [base, St.bind_ok (reverse_put v hs2 fuel l (v.n - k) j hl (by omega) hj (by omega)),
      St.bind_lift (v.rev.equal_pt k (v.n - i) (by omega) (by omega))]
    have hl2 : (reverseWindow l (v.n - k) j).length = v.n := by
      rw [length_reverseWindow (by omega) (by omega)]; exact hl
    refine ⟨v.ok_put _ _ hs2 hl2, ?_, ?_, ?_, Or.inl ⟨_, rfl⟩⟩
    · show calls (v.put s2 _) ≤ _
      rw [t.put _ _ hs2 hl2]; exact hc
    · show (v.elems (v.put s2 _)).Perm _
      rw [v.elems_put _ _ hs2 hl2]
      exact (reverseWindow_perm (by omega)).trans hp
    · intro p hp'
      show (v.elems (v.put s2 _))[p]? = _
      rw [v.elems_put _ _ hs2 hl2, getElem?_reverseWindow (by omega) (by omega), if_neg (by omega)]
      exact ho p hp'
  have hL1 := v.len s1 h1
  unfold permSwapM
  rw [St.bind_apply]
  rw [St.bind_lift (v.rev.equal_pt k (v.n - i) (by omega) (by omega))]
  by_cases hk : k = v.n - i
  · rw [if_pos (by simpa using hk)]
    have := key s1 (v.elems s1) h1 h2' hL1 (by rw [h2']) (fun p _ => by rw [h2']) (by omega)
    rw [v.put_elems s1 h1] at this
    exact this
  · rw [if_neg (by simpa using hk)]
    obtain ⟨x, hx⟩ : ∃ x, (v.rev.elems s1)[k]? = some x :=
      ⟨_, List.getElem?_eq_getElem (by rw [v.rev.len s1 h1]; omega)⟩
    rw [St.bind_ok (v.rev.get_pt s1 k x h1 hx)]
    obtain ⟨g1, g2, g3, g4⟩ := (C79_search_calls v.rev comp calls t.rev s1 h1 x (v.n - j) k b k1 (by omega)
      (by omega)).2
    rw [St.bind_apply]
    rcases e2 : upperBoundM comp (v.rev.pt (v.n - j)) (v.rev.pt k) x s1 with ⟨r, s2⟩
    rw [e2] at g1 g2 g3 g4
    have g2' : v.elems s2 = v.elems s := (List.reverse_inj.1 g2).trans h2'
    simp only at g1 g3
    rcases g4 with ⟨right, er, q, q1, q2, eq⟩ | ⟨m, a, c, s', er, hc⟩
    swap
    · simp only at er; subst er
      exact ⟨g1, by simp only; omega, by simp only; rw [g2'], fun p _ => by simp only; rw [g2'],
        Or.inr ⟨m, a, c, s', rfl, hc, g2'⟩⟩
    simp only at er; subst er; subst eq
    simp only
    have hL2 : (v.rev.elems s2).length = v.n := v.rev.len s2 g1
    have esw := swap_put v.rev g1 (v.rev.len s2 g1) (i := k) (j := q) (by omega) (by omega)
    rw [v.rev.put_elems s2 g1] at esw
    rw [esw]
    simp only
    have hlx : (exchange (v.rev.elems s2) k q).length = v.n := by rw [length_exchange]; exact hL2
    have hre : (v.rev.elems s2).reverse = v.elems s := by
      show (v.elems s2).reverse.reverse = _; rw [List.reverse_reverse, g2']
    refine key s2 (exchange (v.rev.elems s2) k q).reverse g1 g2' (by rw [List.length_reverse]; exact hlx) ?_ ?_ (by omega)
    · rw [← hre]
      exact (List.reverse_perm _).trans ((exchange_perm (by omega) (by omega)).trans (List.reverse_perm _).symm)
    · intro p hp
      by_cases hpn : p < v.n
      · rw [List.getElem?_reverse (by omega), getElem?_exchange (by omega) (by omega), if_neg (by omega),
          if_neg (by omega), ← hre, List.getElem?_reverse (by omega)]
        rw [hlx, hL2]
      · rw [List.getElem?_eq_none (by rw [List.length_reverse]; omega),
          List.getElem?_eq_none (by rw [← hre, List.length_reverse]; omega)]

/-! ## A comparator with effects -/

/-- A comparator that logs its arguments in a new array at each call, answers according to how many there
are, and panics on a 3. -/
def logging : Cmp (Heap Nat) Nat := fun a b h =>
  if a = 3 then (.error "three", h ++ [[a, b]]) else (.ok (h.length % 2 == 0), h ++ [[a, b]])

theorem logging_tame (s : Slice) (hc : (s.cap : Int) < 9223372036854775808) (hlc : s.len ≤ s.cap) :
    Tame (Slice.view (T := Nat) s hc hlc) logging List.length where
  ok h a b hv := by
    show Valid (logging a b h).2 s
    have e : (logging a b h).2 = h ++ [[a, b]] := by unfold logging; split <;> rfl
    rw [e]
    change Valid h s at hv
    obtain ⟨v1, v2, v3⟩ := hv
    refine ⟨v1, v2, ?_⟩
    split at v3
    · exact v3
    · exact v3
    · obtain ⟨A, hA, hl⟩ := v3
      exact ⟨A, by rw [List.getElem?_append_left (List.getElem?_eq_some_iff.1 hA).1]; exact hA, hl⟩
  elems h a b hv := by
    show contents (logging a b h).2 s = contents h s
    have e : (logging a b h).2 = h ++ [[a, b]] := by unfold logging; split <;> rfl
    rw [e]
    change Valid h s at hv
    obtain ⟨v1, v2, v3⟩ := hv
    unfold contents
    split at v3
    · rename_i hp; rw [hp]
    · rename_i hp; rw [hp]
    · rename_i hp; rw [hp]
      obtain ⟨A, hA, hl⟩ := v3
      simp only
      rw [List.getElem?_append_left (List.getElem?_eq_some_iff.1 hA).1]
  count h a b hv := by
    show (logging a b h).2.length = _
    unfold logging; split <;> simp
  put h l hv hl := by
    show (poke h s.ptr 0 l).length = _
    unfold poke
    split <;> simp

-- seven elements (< 2^3): at most three calls
example : (lowerBoundM logging (⟨0, exS⟩ : SIter Nat) ⟨7, exS⟩ 4 exH).2 = exH ++ [[2, 4], [1, 4], [2, 4]] := by
  decide +kernel
example : (upperBoundM logging (⟨0, exS⟩ : SIter Nat) ⟨7, exS⟩ 4 exH).2 = exH ++ [[4, 2], [4, 5], [4, 3]] := by
  decide +kernel
-- a panic in the middle of NextPermutation: nothing has moved
example : nextPermutationM 8 logging (⟨0, exS⟩ : SIter Nat) ⟨7, exS⟩ exH =
    (.error "three", exH ++ [[5, 7], [3, 5]]) := by decide +kernel

end Verif.Algo
