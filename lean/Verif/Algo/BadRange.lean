import Verif.Algo.Props

/-!
# C104: ranges given back to front, or with ends in two different slices

The algorithms do not check that `first` comes before `last` (only the binary searches do). These theorems
say what happens then over iterators that panic outside their sequence, as slice iterators do.
-/

namespace Verif.Algo

open Verif.Iter

section general

variable {S T It : Type} [RandIter S T It]

/-- The iterators of the view panic outside the sequence: `Next` at the end with `up`, `Prev` at the start
with `down`, `Get` at the end with `out`. -/
structure Fenced (v : View S T It) (up down out : String) : Prop where
  next_end : next (v.pt v.n) = .error up
  prev_start : prev (v.pt 0) = .error down
  get_end : ∀ s, v.ok s → get (v.pt v.n) s = (.error out, s)

theorem Fenced.rev {v : View S T It} {up down out : String} (h : Fenced v up down out) :
    Fenced v.rev down up down where
  next_end := by
    show (match prev (v.pt (v.n - v.n)) with | .ok i => Except.ok (Rev.mk i) | .error e => .error e) = _
    rw [Nat.sub_self, h.prev_start]
  prev_start := by
    show (match next (v.pt (v.n - 0)) with | .ok i => Except.ok (Rev.mk i) | .error e => .error e) = _
    rw [Nat.sub_zero, h.next_end]
  get_end s _ := by
    show (St.lift (prev (v.pt (v.n - v.n))) >>= fun i => get i) s = _
    rw [Nat.sub_self, h.prev_start]; rfl

/-! ## `Reverse` -/

theorem reverse_bad (v : View S T It) {up down out : String} (hf : Fenced v up down out) :
    ∀ (m : Nat) (A B C D E : List T) (s : S) (fuel : Nat), B.length = m → D.length = m → m < fuel → C ≠ [] →
      (A = [] ∨ E = []) → v.ok s → v.elems s = A ++ B ++ C ++ D ++ E →
      reverse fuel (v.pt (A.length + B.length + C.length)) (v.pt (A.length + B.length)) s =
        (.error (if A.isEmpty then down else out), v.put s (A ++ D.reverse ++ C ++ B.reverse ++ E)) := by
  intro m
  induction m with
  | zero =>
    intro A B C D E s fuel hB hD hfuel hC hAE hs he
    obtain rfl := List.eq_nil_of_length_eq_zero hB
    obtain rfl := List.eq_nil_of_length_eq_zero hD
    have hL := v.len s hs
    rw [he] at hL
    simp only [List.length_append, List.length_nil] at hL
    have hC' : 0 < C.length := List.length_pos_iff.2 hC
    obtain ⟨fuel, rfl⟩ : ∃ f, fuel = f + 1 := ⟨fuel - 1, by omega⟩
    unfold reverse
    rw [St.bind_lift (v.equal_pt _ _ (by simp; omega) (by simp; omega)), if_neg (by simp; omega)]
    have hput : v.put s (A ++ [].reverse ++ C ++ [].reverse ++ E) = s := by
      have := v.put_elems s hs
      rw [he] at this
      simpa using this
    rw [hput]
    by_cases hA : A = []
    · subst hA
      have : St.lift (S := S) (prev (v.pt (([] : List T).length + ([] : List T).length))) s = (.error down, s) := by
        simp only [List.length_nil, Nat.add_zero]
        rw [hf.prev_start]; rfl
      rw [St.bind_error this]; rfl
    · have hE : E = [] := hAE.resolve_left hA
      subst hE
      have hA' : 0 < A.length := List.length_pos_iff.2 hA
      simp only [List.length_nil] at hL
      have hp := v.prev_pt (A.length - 1) (by omega)
      rw [show A.length - 1 + 1 = A.length + ([] : List T).length by simp; omega] at hp
      rw [St.bind_lift hp, St.bind_lift (v.equal_pt _ _ (by simp; omega) (by omega)), if_neg (by simp; omega)]
      have hsw : swap (v.pt (A.length + ([] : List T).length + C.length)) (v.pt (A.length - 1)) s = (.error out, s) := by
        unfold swap
        rw [St.bind_lift (v.equal_pt _ _ (by simp; omega) (by omega)), if_neg (by simp; omega)]
        have := hf.get_end s hs
        rw [show v.n = A.length + ([] : List T).length + C.length by simp; omega] at this
        rw [St.bind_error this]
      rw [St.bind_error hsw]
      cases A with
      | nil => exact absurd rfl hA
      | cons a A => rfl
  | succ m ih =>
    intro A B C D E s fuel hB hD hfuel hC hAE hs he
    obtain ⟨B', b, rfl⟩ : ∃ B' b, B = B' ++ [b] := by
      have hne : B ≠ [] := by intro h; subst h; simp at hB
      exact ⟨_, _, (List.dropLast_append_getLast hne).symm⟩
    obtain ⟨d, D', rfl⟩ : ∃ d D', D = d :: D' := by
      cases D with
      | nil => simp at hD
      | cons d D' => exact ⟨d, D', rfl⟩
    have hL := v.len s hs
    rw [he] at hL
    simp only [List.length_append, List.length_cons, List.length_nil] at hL hB hD
    have hC' : 0 < C.length := List.length_pos_iff.2 hC
    obtain ⟨fuel, rfl⟩ : ∃ f, fuel = f + 1 := ⟨fuel - 1, by omega⟩
    unfold reverse
    have hlast : A.length + (B' ++ [b]).length = A.length + B'.length + 1 := by simp; omega
    have hfirst : A.length + (B' ++ [b]).length + C.length = (A ++ B').length + 1 + C.length := by simp; omega
    rw [hfirst, hlast]
    rw [St.bind_lift (v.equal_pt _ _ (by simp; omega) (by omega)), if_neg (by simp; omega)]
    rw [St.bind_lift (v.prev_pt (A.length + B'.length) (by omega))]
    rw [St.bind_lift (v.equal_pt _ _ (by simp; omega) (by omega)), if_neg (by simp; omega)]
    have hsw := ((C13_swap v s hs).1 (A ++ B') C (D' ++ E) b d (by rw [he]; simp)).2
    rw [show A.length + B'.length = (A ++ B').length by simp]
    rw [St.bind_ok hsw]
    rw [St.bind_lift (v.next_pt ((A ++ B').length + 1 + C.length) (by simp; omega))]
    have hlen : (A ++ B' ++ d :: (C ++ b :: (D' ++ E))).length = v.n := by simp; omega
    have := ih A B' (d :: (C ++ [b])) D' E (v.put s (A ++ B' ++ d :: (C ++ b :: (D' ++ E)))) fuel (by omega) (by omega)
      (by omega) (by simp) hAE (v.ok_put s _ hs hlen) (by rw [v.elems_put s _ hs hlen]; simp)
    rw [show A.length + B'.length + (d :: (C ++ [b])).length = (A ++ B').length + 1 + C.length + 1 by simp; omega,
      show A.length + B'.length = (A ++ B').length by simp] at this
    rw [this, v.put_put s _ _ hs hlen (by simp; omega)]
    simp

/-- **C104**, `Reverse` with `last` before `first`: it never loops and never loses an element. It exchanges
the elements before `last` with the elements from `first` on, mirrored, until one of the two ends of the
sequence is reached, and then panics. `B` are the elements before `last` and `D` those from `first` on that
get exchanged; nothing is left before `B` or nothing is left behind `D`. -/
theorem C104_reverse (v : View S T It) {up down out : String} (hf : Fenced v up down out) (s : S) (hs : v.ok s)
    (A B C D E : List T) (he : v.elems s = A ++ B ++ C ++ D ++ E) (hlen : B.length = D.length) (hC : C ≠ [])
    (hAE : A = [] ∨ E = []) (fuel : Nat) (hfuel : v.n < fuel) :
    reverse fuel (v.pt (A.length + B.length + C.length)) (v.pt (A.length + B.length)) s =
      (.error (if A.isEmpty then down else out), v.put s (A ++ D.reverse ++ C ++ B.reverse ++ E)) := by
  have hL := v.len s hs
  rw [he] at hL
  simp only [List.length_append] at hL
  exact reverse_bad v hf B.length A B C D E s fuel rfl hlen.symm (by omega) hC hAE hs he

/-- Every pair of positions out of order is of the form `C104_reverse` speaks of. -/
theorem C104_reverse_covers (l : List T) (i j : Nat) (hij : j < i) (hi : i ≤ l.length) :
    ∃ A B C D E : List T, l = A ++ B ++ C ++ D ++ E ∧ B.length = D.length ∧ C ≠ [] ∧ (A = [] ∨ E = []) ∧
      i = A.length + B.length + C.length ∧ j = A.length + B.length := by
  let m := min j (l.length - i)
  refine ⟨l.take (j - m), (l.drop (j - m)).take m, (l.drop j).take (i - j), (l.drop i).take m, l.drop (i + m),
    ?_, ?_, ?_, ?_, ?_, ?_⟩
  · have h1 : l.drop i = (l.drop i).take m ++ l.drop (i + m) := by
      rw [← List.drop_drop]; exact (List.take_append_drop _ _).symm
    have h2 : l.drop j = (l.drop j).take (i - j) ++ l.drop i := by
      conv_lhs => rw [← List.take_append_drop (i - j) (l.drop j)]
      rw [List.drop_drop]; congr 2; omega
    have h3 : l.drop (j - m) = (l.drop (j - m)).take m ++ l.drop j := by
      conv_lhs => rw [← List.take_append_drop m (l.drop (j - m))]
      rw [List.drop_drop]; congr 2; omega
    have h4 : l = l.take (j - m) ++ l.drop (j - m) := (List.take_append_drop _ _).symm
    rw [List.append_assoc, List.append_assoc, List.append_assoc, ← h1, ← h2, ← h3, ← h4]
  · simp only [List.length_take, List.length_drop]; omega
  · intro h
    have := congrArg List.length h
    simp only [List.length_take, List.length_drop, List.length_nil] at this
    omega
  · by_cases h : j ≤ l.length - i
    · left; rw [show j - m = 0 by omega]; rfl
    · right; apply List.drop_of_length_le; omega
  · simp only [List.length_take, List.length_drop]; omega
  · simp only [List.length_take, List.length_drop]; omega

/-! ## `IsSorted` -/

theorem isSortedLoop_bad (v : View S T It) {up down out : String} (hfe : Fenced v up down out) {s : S} (hs : v.ok s)
    (comp : T → T → Bool) {j : Nat} (hj : j ≤ v.n) :
    ∀ (fuel p : Nat), j ≤ p → p < v.n → v.n - p ≤ fuel →
    (∃ k, p < k ∧ k < v.n ∧ isSortedLoop comp (v.pt j) fuel (v.pt p) (v.pt (p + 1)) s = (.ok (v.pt k), s) ∧
      SortedTo comp (v.elems s) p k ∧ ¬ SortedTo comp (v.elems s) p (k + 1)) ∨
    (isSortedLoop comp (v.pt j) fuel (v.pt p) (v.pt (p + 1)) s = (.error out, s) ∧
      SortedTo comp (v.elems s) p v.n) := by
  intro fuel
  induction fuel with
  | zero => intro p h1 h2; omega
  | succ fuel ih =>
    intro p hjp hpn hf
    have hL := v.len s hs
    unfold isSortedLoop
    rw [St.bind_lift (v.equal_pt (p + 1) j (by omega) hj), if_neg (by simp; omega)]
    by_cases hend : p + 1 = v.n
    · right
      rw [hend, St.bind_error (hfe.get_end s hs)]
      exact ⟨rfl, fun t x y h1 h2 => by omega⟩
    · obtain ⟨x, hx⟩ : ∃ x, (v.elems s)[p]? = some x := ⟨_, List.getElem?_eq_getElem (by omega)⟩
      obtain ⟨y, hy⟩ : ∃ y, (v.elems s)[p + 1]? = some y := ⟨_, List.getElem?_eq_getElem (by omega)⟩
      rw [St.bind_ok (v.get_pt s _ y hs hy), St.bind_ok (v.get_pt s _ x hs hx)]
      by_cases hc : comp y x = true
      · rw [if_pos hc]
        refine Or.inl ⟨p + 1, by omega, by omega, rfl, fun t x y _ _ => by omega, fun h => ?_⟩
        have := h p x y (by omega) (by omega) hx hy
        rw [hc] at this; cases this
      · rw [if_neg hc, St.bind_lift (v.next_pt (p + 1) (by omega))]
        have hext : ∀ k, SortedTo comp (v.elems s) (p + 1) k → SortedTo comp (v.elems s) p k := by
          intro k h t x' y' h1 h2 hx' hy'
          by_cases c : t = p
          · subst c
            rw [hx] at hx'; rw [hy] at hy'
            injection hx' with hx'; injection hy' with hy'
            rw [← hx', ← hy']; simpa using hc
          · exact h t x' y' (by omega) h2 hx' hy'
        rcases ih (p + 1) (by omega) (by omega) (by omega) with ⟨k, k1, k2, e, h1, h2⟩ | ⟨e, h1⟩
        · exact Or.inl ⟨k, by omega, k2, e, hext k h1, fun h => h2 (fun t x y a b => h t x y (by omega) b)⟩
        · exact Or.inr ⟨e, hext _ h1⟩

/-- **C104**, `IsSortedUntil` and `IsSorted` with `last` before `first`: nothing is changed; the scan goes on to
the end of the whole sequence. If it meets a descent on the way it returns that position (`IsSorted` returns
false); otherwise it panics. `IsSorted` never returns true. -/
theorem C104_isSorted (v : View S T It) {up down out : String} (hfe : Fenced v up down out) (s : S) (hs : v.ok s)
    (comp : T → T → Bool) (i j : Nat) (hij : j < i) (hi : i ≤ v.n) (fuel : Nat) (hf : v.n ≤ fuel) :
    (∀ k, i < k → k < v.n → SortedTo comp (v.elems s) i k → ¬ SortedTo comp (v.elems s) i (k + 1) →
      isSortedUntil fuel comp (v.pt i) (v.pt j) s = (.ok (v.pt k), s) ∧
      isSorted fuel comp (v.pt i) (v.pt j) s = (.ok false, s)) ∧
    (SortedTo comp (v.elems s) i v.n →
      isSortedUntil fuel comp (v.pt i) (v.pt j) s = (.error (if i = v.n then up else out), s) ∧
      isSorted fuel comp (v.pt i) (v.pt j) s = (.error (if i = v.n then up else out), s)) := by
  have h0 : ∀ k, k < v.n → ¬ SortedTo comp (v.elems s) i (k + 1) → ¬ SortedTo comp (v.elems s) i v.n :=
    fun k hk h h' => h (fun t x y a b => h' t x y a (by omega))
  have hmono : ∀ k k', k < k' → SortedTo comp (v.elems s) i k' → SortedTo comp (v.elems s) i (k + 1) :=
    fun k k' hk h t x y a b => h t x y a (by omega)
  have start : isSortedUntil fuel comp (v.pt i) (v.pt j) s =
      ((St.lift (next (v.pt i)) : St S It) >>= fun nxt => isSortedLoop comp (v.pt j) fuel (v.pt i) nxt) s := by
    unfold isSortedUntil
    rw [St.bind_lift (v.equal_pt i j hi (by omega)), if_neg (by simp; omega)]
  by_cases hend : i = v.n
  · subst hend
    have e : isSortedUntil fuel comp (v.pt v.n) (v.pt j) s = (.error up, s) := by
      rw [start, hfe.next_end]; rfl
    refine ⟨fun k h1 h2 => by omega, fun _ => ?_⟩
    rw [if_pos rfl]
    refine ⟨e, ?_⟩
    unfold isSorted
    rw [St.bind_error e]
  · rw [St.bind_lift (v.next_pt i (by omega))] at start
    rcases isSortedLoop_bad v hfe hs comp (j := j) (by omega) fuel i (by omega) (by omega) (by omega) with
      ⟨k, k1, k2, e, h1, h2⟩ | ⟨e, h1⟩
    · rw [← start] at e
      refine ⟨fun k' k1' k2' h1' h2' => ?_, fun h => absurd h (h0 k k2 h2)⟩
      have hk : k' = k := by
        rcases Nat.lt_trichotomy k' k with c | c | c
        · exact absurd (hmono k' k c h1) h2'
        · exact c
        · exact absurd (hmono k k' c h1') h2
      subst hk
      refine ⟨e, ?_⟩
      unfold isSorted
      rw [St.bind_ok e, v.equal_pt k' j (by omega) (by omega)]
      show (Except.ok (decide (k' = j)), s) = _
      rw [decide_eq_false (by omega)]
    · rw [← start] at e
      refine ⟨fun k' k1' k2' h1' h2' => absurd h1 (h0 k' k2' h2'), fun _ => ?_⟩
      rw [if_neg hend]
      refine ⟨e, ?_⟩
      unfold isSorted
      rw [St.bind_error e]

/-! ## `NextPermutation` -/

/-- **C104**, `NextPermutation` with `last` before `first`, for every comparator: it works on everything
before `last`. If that has a next permutation, this is made and true is returned — elements outside
`[last, first]` have moved; otherwise it panics, having changed nothing. (`C80_nextPermutation_any` and
`C11_nextPermutation` say what the call on `[0, last)` does: it always returns one or the other.) -/
theorem C104_nextPermutation (v : View S T It) {up down out : String} (hfe : Fenced v up down out) (s : S)
    (hs : v.ok s) (comp : T → T → Bool) (i j : Nat) (hij : j < i) (hi : i ≤ v.n) (fuel : Nat) (hf : v.n ≤ fuel) :
    ((nextPermutation fuel comp (v.pt 0) (v.pt j) s).1 = .ok true →
      nextPermutation fuel comp (v.pt i) (v.pt j) s = nextPermutation fuel comp (v.pt 0) (v.pt j) s) ∧
    ((nextPermutation fuel comp (v.pt 0) (v.pt j) s).1 = .ok false →
      nextPermutation fuel comp (v.pt i) (v.pt j) s = (.error down, s)) := by
  have ptF : (⟨v.pt j⟩ : Rev It) = v.rev.pt (v.n - j) := by
    show _ = (⟨v.pt (v.n - _)⟩ : Rev It); congr 2; omega
  have ptL : (⟨v.pt i⟩ : Rev It) = v.rev.pt (v.n - i) := by
    show _ = (⟨v.pt (v.n - _)⟩ : Rev It); congr 2; omega
  have pt0 : (⟨v.pt 0⟩ : Rev It) = v.rev.pt v.n := by
    show _ = (⟨v.pt (v.n - _)⟩ : Rev It); congr 2; omega
  have rn : v.rev.n = v.n := rfl
  obtain ⟨b1, b2⟩ := C104_isSorted v.rev hfe.rev s hs comp (v.n - j) (v.n - i) (by omega) (by omega) fuel (by omega)
  obtain ⟨k, k1, k2, e, g1, g2⟩ := (C10_isSortedUntil v.rev s hs comp (v.n - j) v.n (by omega) (by omega) fuel
    (by omega)).1
  unfold nextPermutation
  rw [ptF, ptL, pt0, St.bind_ok e]
  by_cases hk : k = v.n
  · subst hk
    have hbad : isSortedUntil fuel comp (v.rev.pt (v.n - j)) (v.rev.pt (v.n - i)) s = (.error down, s) := by
      have := (b2 g1).1
      split at this <;> exact this
    have hgood : permSwap comp (v.rev.pt (v.n - j)) (v.rev.pt v.n) (v.rev.pt v.n) s = (.ok (), s) := by
      unfold permSwap
      rw [St.bind_lift (v.rev.equal_pt v.n v.n (by omega) (by omega)), if_pos (by simp)]; rfl
    rw [St.bind_error hbad]
    refine ⟨fun h => ?_, fun _ => rfl⟩
    exfalso
    rw [St.bind_ok hgood, St.bind_apply] at h
    rcases hr : reverse fuel (v.rev.pt v.n).base (v.pt j) s with ⟨r, s'⟩
    rw [hr] at h
    cases r with
    | error e => cases h
    | ok u =>
      simp only at h
      rw [St.bind_lift (v.rev.equal_pt v.n v.n (by omega) (by omega))] at h
      simp at h
  · have hlt : k < v.n := by omega
    have hjk : v.n - j < k := by
      rcases Nat.lt_or_ge (v.n - j) k with c | c
      · exact c
      · exact absurd (fun t x y a b => by omega) (g2 (k + 1) (by omega) (by omega))
    have hbad := (b1 k hjk hlt g1 (g2 (k + 1) (by omega) (by omega))).1
    rw [St.bind_ok hbad]
    have hp : ∀ q, q ≤ v.n → q ≠ k → ∀ s', permSwap comp (v.rev.pt (v.n - j)) (v.rev.pt q) (v.rev.pt k) s' =
        (do let x ← get (v.rev.pt k)
            let right ← upperBound comp (v.rev.pt (v.n - j)) (v.rev.pt k) x
            swap (v.rev.pt k) right : St S Unit) s' := by
      intro q hq hne s'
      unfold permSwap
      rw [St.bind_lift (v.rev.equal_pt k q (by omega) hq), if_neg (by simp; omega)]
    rw [St.bind_apply, St.bind_apply, hp (v.n - i) (by omega) (by omega), hp v.n (by omega) (by omega)]
    rcases hr : (do let x ← get (v.rev.pt k)
                    let right ← upperBound comp (v.rev.pt (v.n - j)) (v.rev.pt k) x
                    swap (v.rev.pt k) right : St S Unit) s with ⟨r, s'⟩
    cases r with
    | error e => exact ⟨(fun h => by cases h), (fun h => by cases h)⟩
    | ok u =>
      simp only
      rw [St.bind_apply, St.bind_apply]
      rcases hr : reverse fuel (v.rev.pt k).base (v.pt j) s' with ⟨r, s2⟩
      cases r with
      | error e => exact ⟨(fun h => by cases h), (fun h => by cases h)⟩
      | ok u =>
        simp only
        rw [St.bind_lift (v.rev.equal_pt k (v.n - i) (by omega) (by omega)),
          St.bind_lift (v.rev.equal_pt k v.n (by omega) (by omega)),
          decide_eq_false (show ¬ k = v.n - i by omega), decide_eq_false hk]
        exact ⟨fun _ => rfl, (fun h => by cases h)⟩

/-! ## Iterators that cannot be compared -/

/-- **C104**: if `Equal` panics on the two ends, every algorithm panics with the same message before anything
else, so nothing is read, compared or changed. -/
theorem C104_foreign (a b : It) (msg msg' : String) (hab : equal a b = .error msg) (hba : equal b a = .error msg')
    (s : S) (comp : T → T → Bool) (value : T) (fuel : Nat) :
    lowerBound comp a b value s = (.error msg, s) ∧ upperBound comp a b value s = (.error msg, s) ∧
    isSortedUntil fuel comp a b s = (.error msg, s) ∧ isSorted fuel comp a b s = (.error msg, s) ∧
    swap a b s = (.error msg, s) ∧ reverse (fuel + 1) a b s = (.error msg, s) ∧
    nextPermutation fuel comp a b s = (.error msg', s) := by
  have hl : ∀ {α : Type} (g : Bool → St S α), ((St.lift (equal a b) : St S Bool) >>= g) s = (.error msg, s) := by
    intro α g; rw [St.bind_error]; rw [hab]; rfl
  have hd : ∀ {α : Type} (g : Int → St S α), ((St.lift (distance a b) : St S Int) >>= g) s = (.error msg, s) := by
    intro α g; rw [St.bind_error]; unfold distance; rw [hab]; rfl
  have hu : isSortedUntil fuel comp a b s = (.error msg, s) := by unfold isSortedUntil; rw [hl]
  refine ⟨?_, ?_, hu, ?_, ?_, ?_, ?_⟩
  · unfold lowerBound; rw [hd]
  · unfold upperBound; rw [hd]
  · unfold isSorted; rw [St.bind_error hu]
  · unfold swap; rw [hl]
  · unfold reverse; rw [hl]
  · unfold nextPermutation
    apply St.bind_error
    unfold isSortedUntil
    apply St.bind_error
    show (equal b a, s) = _
    rw [hba]

end general

/-! ## Slices -/

open Verif.Slice

variable {T : Type} [Inhabited T]

/-- Slice iterators are fenced (ds/xslice/iterator.go:47-67, 20-22). -/
theorem fenced_slice {h : Heap T} {s : Slice} (hv : Valid h s) :
    Fenced (viewOf hv) "increment out of bound" "decrement out of bound" "index out of range" where
  next_end := by
    show SIter.inc (⟨s.len, s⟩ : SIter T) = _
    unfold SIter.inc; simp
  prev_start := by
    show SIter.dec (⟨0, s⟩ : SIter T) = _
    unfold SIter.dec; simp
  get_end h' hv' := by
    show load s (s.len : Int) h' = _
    unfold load
    rw [if_pos (by omega), List.getElem?_eq_none]
    have : (contents h' s).length = s.len := length_contents hv'
    omega

/-- **C104** for slices: with `first` behind `last`, `Reverse` always panics; it loses nothing, writes nothing
outside the slice, and leaves the elements between `last` and `first` and those out of reach of the mirrored
exchange in place. -/
theorem C104_slice {h : Heap T} {s : Slice} (hv : Valid h s) (i j : Nat) (hij : j < i) (hi : i ≤ s.len)
    (fuel : Nat) (hf : s.len < fuel) :
    ∃ msg h', reverse fuel (⟨i, s⟩ : SIter T) ⟨j, s⟩ h = (.error msg, h') ∧
      (msg = "decrement out of bound" ∨ msg = "index out of range") ∧
      (contents h' s).Perm (contents h s) ∧
      (∀ k, ¬ ((j ≤ k + (s.len - i) ∧ k < j) ∨ (i ≤ k ∧ k < i + j)) → (contents h' s)[k]? = (contents h s)[k]?) ∧
      Upd (fun a k => ∃ off, s.ptr = .arr a off ∧ off ≤ k ∧ k < off + s.len) h h' := by
  have hL := length_contents hv
  obtain ⟨A, B, C, D, E, he, hlen, hC, hAE, ei, ej⟩ := C104_reverse_covers (contents h s) i j hij (by omega)
  have hr := C104_reverse (viewOf hv) (fenced_slice hv) h hv A B C D E he hlen hC hAE fuel hf
  have hl' : (A ++ D.reverse ++ C ++ B.reverse ++ E).length = s.len := by
    rw [← hL, he]; simp; omega
  have hc : contents (poke h s.ptr 0 (A ++ D.reverse ++ C ++ B.reverse ++ E)) s = A ++ D.reverse ++ C ++ B.reverse ++ E :=
    (viewOf hv).elems_put h _ hv hl'
  rw [← ei, ← ej] at hr
  refine ⟨_, _, hr, ?_, ?_, ?_, ?_⟩
  · cases A.isEmpty
    · right; rfl
    · left; rfl
  · show (contents (poke h s.ptr 0 _) s).Perm _
    rw [hc, he]
    have p1 : (D.reverse ++ (C ++ (B.reverse ++ E))).Perm (B ++ (C ++ (D ++ E))) := by
      have q1 : (D.reverse ++ (C ++ (B.reverse ++ E))).Perm (D ++ (C ++ (B ++ E))) :=
        (List.reverse_perm D).append ((List.Perm.refl C).append ((List.reverse_perm B).append (List.Perm.refl E)))
      refine q1.trans ?_
      have sw : ∀ X Y Z : List T, (X ++ (Y ++ Z)).Perm (Y ++ (X ++ Z)) := fun X Y Z => by
        rw [← List.append_assoc, ← List.append_assoc]; exact List.perm_append_comm.append_right _
      exact (sw D C _).trans (((List.Perm.refl C).append (sw D B E)).trans (sw C B _))
    simpa using (List.Perm.refl A).append p1
  · intro k hk
    show (contents (poke h s.ptr 0 _) s)[k]? = _
    rw [hc, he]
    rw [he] at hL
    simp only [List.length_append] at hL
    simp only [List.getElem?_append, List.length_append, List.length_reverse]
    rcases hAE with hA | hE
    · subst hA
      simp only [List.length_nil] at *
      by_cases c1 : k < j
      · omega
      · by_cases c2 : k < i
        · rw [if_pos (by omega), if_pos (by omega), if_neg (by omega), if_pos (by omega), if_pos (by omega), if_neg (by omega)]
          congr 1; omega
        · rw [if_neg (by omega), if_neg (by omega)]; congr 1; omega
    · subst hE
      simp only [List.length_nil] at *
      by_cases c1 : k < A.length
      · simp [c1, show k < A.length + D.length by omega, show k < A.length + D.length + C.length by omega,
          show k < A.length + D.length + C.length + B.length by omega, show k < A.length + B.length by omega,
          show k < A.length + B.length + C.length by omega, show k < A.length + B.length + C.length + D.length by omega]
      · by_cases c2 : k < j
        · omega
        · by_cases c3 : k < i
          · rw [if_pos (by omega), if_pos (by omega), if_neg (by omega), if_pos (by omega), if_pos (by omega), if_neg (by omega)]
            congr 1; omega
          · rw [List.getElem?_eq_none (l := ([] : List T)) (by simp), if_neg (by omega), if_neg (by omega)]
            simp
  · have u := poke_upd hv (i := 0) (l := A ++ D.reverse ++ C ++ B.reverse ++ E) (by have := hv.1; omega)
    refine u.mono ?_
    rintro a k - ⟨off, h1, h2, h3⟩
    exact ⟨off, h1, by omega, by omega⟩

omit [Inhabited T] in
/-- **C104** for slices over different arrays (or different parts of one): every algorithm panics at once. -/
theorem C104_foreign_slice (s t : Slice) (hne : s.ptr ≠ t.ptr) (i j : Int) (h : Heap T) (comp : T → T → Bool)
    (value : T) (fuel : Nat) :
    ∃ msg, lowerBound comp (⟨i, s⟩ : SIter T) ⟨j, t⟩ value h = (.error msg, h) ∧
      upperBound comp (⟨i, s⟩ : SIter T) ⟨j, t⟩ value h = (.error msg, h) ∧
      isSortedUntil fuel comp (⟨i, s⟩ : SIter T) ⟨j, t⟩ h = (.error msg, h) ∧
      isSorted fuel comp (⟨i, s⟩ : SIter T) ⟨j, t⟩ h = (.error msg, h) ∧
      swap (⟨i, s⟩ : SIter T) ⟨j, t⟩ h = (.error msg, h) ∧
      reverse (fuel + 1) (⟨i, s⟩ : SIter T) ⟨j, t⟩ h = (.error msg, h) ∧
      nextPermutation fuel comp (⟨i, s⟩ : SIter T) ⟨j, t⟩ h = (.error msg, h) := by
  refine ⟨_, C104_foreign _ _ "compare iterator of different slices" _ ?_ ?_ h comp value fuel⟩
  · show (if !referenceEqual s t then _ else _) = _
    rw [if_pos (by simpa [referenceEqual] using hne)]
  · show (if !referenceEqual t s then _ else _) = _
    rw [if_pos (by simpa [referenceEqual] using fun h => hne h.symm)]

/-- `[1,2,3,4,5]` from 3 to 2: 2 and 4, 1 and 5 are exchanged, then the start is reached. -/
example : reverse 6 (⟨3, ⟨.arr 0 0, 5, 5⟩⟩ : SIter Nat) ⟨2, ⟨.arr 0 0, 5, 5⟩⟩ [[1, 2, 3, 4, 5]] =
    (.error "decrement out of bound", [[5, 4, 3, 2, 1]]) := by decide +kernel
/-- From 4 to 3: one exchange, then the end is reached. -/
example : reverse 6 (⟨4, ⟨.arr 0 0, 5, 5⟩⟩ : SIter Nat) ⟨3, ⟨.arr 0 0, 5, 5⟩⟩ [[1, 2, 3, 4, 5]] =
    (.error "index out of range", [[1, 2, 5, 4, 3]]) := by decide +kernel
/-- `NextPermutation` from 4 to 2 moves the first two elements. -/
example : nextPermutation 6 natLt (⟨4, ⟨.arr 0 0, 5, 5⟩⟩ : SIter Nat) ⟨2, ⟨.arr 0 0, 5, 5⟩⟩ [[1, 2, 3, 4, 5]] =
    (.ok true, [[2, 1, 3, 4, 5]]) := by decide +kernel
example : nextPermutation 6 natLt (⟨4, ⟨.arr 0 0, 5, 5⟩⟩ : SIter Nat) ⟨2, ⟨.arr 0 0, 5, 5⟩⟩ [[2, 1, 3, 4, 5]] =
    (.error "decrement out of bound", [[2, 1, 3, 4, 5]]) := by decide +kernel
example : isSorted 6 natLt (⟨2, ⟨.arr 0 0, 5, 5⟩⟩ : SIter Nat) ⟨1, ⟨.arr 0 0, 5, 5⟩⟩ [[1, 2, 3, 4, 0]] =
    (.ok false, [[1, 2, 3, 4, 0]]) := by decide +kernel
example : isSorted 6 natLt (⟨2, ⟨.arr 0 0, 5, 5⟩⟩ : SIter Nat) ⟨1, ⟨.arr 0 0, 5, 5⟩⟩ [[1, 2, 3, 4, 5]] =
    (.error "index out of range", [[1, 2, 3, 4, 5]]) := by decide +kernel
/-- Ends in two slices. -/
example : equal (⟨0, ⟨.arr 0 0, 2, 2⟩⟩ : SIter Nat) ⟨2, ⟨.arr 1 0, 2, 2⟩⟩ =
    .error "compare iterator of different slices" := rfl

end Verif.Algo
