import Verif.Src.SliceIter
import Verif.Src.SortRun
import Verif.Algo.Props

/-!
# algo over slices: what the text does

C150: the text of algo, of the reverse iterators of ds/iter and of the iterators of ds/xslice, by the semantics of Src/Sem.lean. The
statements speak of memory and of values; the order of the elements is any function. A slice is walked forwards by its iterators and
backwards by reverse iterators over these (`Walks`); every function does the same on both.
-/

namespace Verif.Src.Algo

open Verif.Iter Verif.Algo
open Verif.Sort (StrictWeak Ascending)
open Verif.Src.Sort (On wr Ext Only)

variable {E : Type} [Inhabited E]

/-- **C150.** The program is what the parser makes of the quoted lines. -/
theorem C150_text : texts.map (fun x => (x.1, parseFn x.2)) = prog.fns.map (fun x => (x.1, some x.2)) := text

/-! ## What the program is run with -/

/-- `ReferenceEqual` (ds/xslice/ops.go:50-54, which compares addresses), and the comparator given to the functions that take one. -/
def ext (comp : E → E → Bool) : String → List (Val E) → Mem E → R (List (Val E) × Mem E)
  | "ReferenceEqual", [.slice a o _ _, .slice b q _ _], m => pure ([.bool (decide (a = b ∧ o = q))], m)
  | "ReferenceEqual", [.nil, .nil], m => pure ([.bool true], m)
  | "ReferenceEqual", [.nil, .slice ..], m => pure ([.bool false], m)
  | "ReferenceEqual", [.slice .., .nil], m => pure ([.bool false], m)
  | "comp", [.elem x, .elem y], m => pure ([.bool (comp x y)], m)
  | _, _, _ => stuck

/-- `<` of the elements is `lt`, the comparator is `comp`; `append` gives any capacity. -/
def par (lt comp : E → E → Bool) (grow : Nat → Nat → Nat) : Par E where
  cmp op x y := if op = "<" then some (lt x y) else none
  zeroT := .elem default
  grow := grow
  ext := ext comp

section
variable (lt comp : E → E → Bool) (grow : Nat → Nat → Nat)

theorem par_same {m0 : Mem E} {v : Val E} {n : Nat} (h : On m0 v n) (m : Mem E) :
    (par lt comp grow).ext "ReferenceEqual" [v, v] m = pure ([.bool true], m) := by
  cases h with
  | nil => rfl
  | @some a o k c arr h =>
    show pure ([Val.bool (decide (a = a ∧ o = o))], m) = _
    simp

theorem isComp (k : Nat) : IsComp (ctx (par lt comp grow)) .elem k "comp" comp := by
  intro n _ a b m
  go_run []
  rfl

theorem isLess (k : Nat) (hk : 1 ≤ k) : IsComp (ctx (par lt comp grow)) .elem k "xfn.Less" lt := by
  intro n hn a b m
  obtain ⟨n, rfl⟩ : ∃ n', n = n' + 1 := ⟨n - 1, by omega⟩
  have : ∀ x y, (par lt comp grow).cmp "<" x y = some (lt x y) := fun _ _ => rfl
  go_run [calls, xfn_Less_fn, this]
end

/-! ## Walks -/

/-- A reverse iterator value over the iterator at index `i` of the slice `v`. -/
def itRev (v : Val E) (i : Int) : Val E := .struct "ReverseRandomIterator" [("i", itAt v i)]

/-- `w i` is an iterator value at position `i` of the elements `l`: those of the slice `v`, from its begin or from its end. -/
inductive Walks (m : Mem E) (v : Val E) : (Nat → Val E) → List E → Prop
  | forward {d : List E} (h : Slice m v d) : Walks m v (fun i => itAt v i) d
  | backward {d : List E} (h : Slice m v d) : Walks m v (fun i => itRev v ((d.length - i : Nat) : Int)) d.reverse

omit [Inhabited E] in
theorem holds_start {m : Mem E} {v : Val E} {d : List E} (h : Slice m v d) : Holds m v d.length d m :=
  ⟨m, .refl m, (Verif.Src.Sort.wr_self h).symm, rfl⟩

omit [Inhabited E] in
theorem holds_end {m m' : Mem E} {v : Val E} {n : Nat} {d : List E} (h : On m v n) (h' : Holds m v n d m') :
    Slice m' v d ∧ Only v m m' := by
  obtain ⟨m1, hx, rfl, rfl⟩ := h'
  exact ⟨(h.ext hx).slice rfl, .of h hx⟩

/-- A walk is a view whose iterators are the values. -/
theorem Walks.impl (lt comp : E → E → Bool) (grow : Nat → Nat → Nat) {m : Mem E} {v : Val E} {w : Nat → Val E} {l : List E} (h : Walks m v w l)
    (hl : (l.length : Int) < 9223372036854775808) :
    ∃ (J : Type) (_ : RandIter (List E) E J) (Rep : List E → Mem E → Prop) (enc : J → Val E) (V : View (List E) E J) (s : List E),
      RandImpl (ctx (par lt comp grow)) Rep .elem 3 enc ∧ V.ok s ∧ Rep s m ∧ V.elems s = l ∧ V.n = l.length ∧
      (∀ i, i ≤ V.n → enc (V.pt i) = w i) ∧
      ∀ s' m', V.ok s' → Rep s' m' → Walks m' v w (V.elems s') ∧ Only v m m' := by
  cases h with
  | forward h =>
    have ho := On.of h
    have H := slice_impl (p := par lt comp grow) (par_same lt comp grow ho) ho hl
    refine ⟨Pos E l.length, _, _, _, listView E l.length hl, l, RandImpl.mk (Impl.mk H.plain H.vals (fun n hn => H.next n (by omega)) (fun n hn => H.get n (by omega))
      (fun n hn => H.set n (by omega)) (fun n hn => H.equal n (by omega))) (fun n hn => H.prev n (by omega)) (fun n hn => H.add n (by omega))
      (fun n hn => H.pos n (by omega)), rfl, holds_start h, rfl, rfl, fun i hi => ?_, fun s' m' hs hr => ?_⟩
    · show itAt v (Pos.mk' E l.length i).at_ = itAt v i
      rw [Pos.mk'_at (n := l.length) hi]
    · obtain ⟨h1, h2⟩ := holds_end ho hr
      exact ⟨.forward h1, h2⟩
  | @backward d h =>
    rw [List.length_reverse] at hl
    have ho := On.of h
    have H := rev_impl (slice_impl (p := par lt comp grow) (par_same lt comp grow ho) ho hl)
    refine ⟨Rev (Pos E d.length), _, _, _, (listView E d.length hl).rev, d, H, rfl, holds_start h, rfl, (List.length_reverse).symm, fun i hi => ?_, fun s' m' hs hr => ?_⟩
    · show itRev v (Pos.mk' E d.length (d.length - i)).at_ = itRev v ((d.length - i : Nat) : Int)
      rw [Pos.mk'_at (by omega)]
    · obtain ⟨h1, h2⟩ := holds_end ho hr
      refine ⟨?_, h2⟩
      have hs : s'.length = d.length := hs
      have := Walks.backward h1
      rw [hs] at this
      exact this

omit [Inhabited E] in
/-- The walks of the one kind, and of the other, are the slices. -/
theorem forward_iff {m : Mem E} {v : Val E} {l : List E} : Walks m v (fun i => itAt v i) l ↔ Slice m v l := by
  refine ⟨fun h => ?_, .forward⟩
  generalize hw : (fun i : Nat => itAt v i) = w at h
  cases h with
  | forward h => exact h
  | backward h =>
    have := congrFun hw 0
    injection this with this
    exact absurd this (by decide)

omit [Inhabited E] in
theorem backward_iff {m : Mem E} {v : Val E} {n : Nat} {l : List E} (hl : l.length = n) :
    Walks m v (fun i => itRev v ((n - i : Nat) : Int)) l ↔ Slice m v l.reverse := by
  subst hl
  refine ⟨fun h => ?_, fun h => ?_⟩
  · generalize hw : (fun i : Nat => itRev v ((l.length - i : Nat) : Int)) = w at h
    cases h with
    | forward h =>
      have := congrFun hw 0
      injection this with this
      exact absurd this (by decide)
    | backward h => rwa [List.reverse_reverse]
  · have := Walks.backward h
    rwa [List.reverse_reverse, List.length_reverse] at this

/-- A range of the program. -/
def rangeOf (a b : Val E) : Val E := .struct "Range" [("Begin", a), ("End", b)]

/-- The three forms that the functions of algo with a comparator have: with two iterators, with a range, and with a range and `<` for
the comparator. `xs` are the other arguments. -/
inductive Form (lt comp : E → E → Bool) (base : String) (a b : Val E) (xs : List (Val E)) :
    String → List (Val E) → (E → E → Bool) → Prop
  | iterators : Form lt comp base a b xs (base ++ "Iterators") (a :: b :: (xs ++ [.fn "comp"])) comp
  | any : Form lt comp base a b xs (base ++ "Any") (rangeOf a b :: (xs ++ [.fn "comp"])) comp
  | ordered : Form lt comp base a b xs base (rangeOf a b :: xs) lt

theorem Does.ok {S α β : Type} {x : R β} {y : Go α × S} {P : α → S → β → Prop} (h : Does x y P) {a : α} {s : S} (e : y = (.ok a, s)) :
    ∃ b, x = pure b ∧ P a s b := by
  subst e
  exact h

theorem Does.err {S α β : Type} {x : R β} {y : Go α × S} {P : α → S → β → Prop} (h : Does x y P) {e : String} {s : S}
    (he : y = (.error e, s)) (hf : e ≠ "fuel") : x = panic e := by
  subst he
  exact h.resolve_left hf

/-! ## binary_search.go -/

section
variable {lt comp : E → E → Bool} {grow : Nat → Nat → Nat} {m : Mem E} {v : Val E} {w : Nat → Val E} {l : List E}

/-- **C150.** `LowerBound`, `LowerBoundAny`, `LowerBoundIterators`: they return the iterator of a position of the range, which on a range
partitioned by the comparator is the partition point; the elements stay. -/
theorem C150_lowerBound (h : Walks m v w l) (hl : l.length < 2 ^ 63) (x : E) (i j : Nat) (hij : i ≤ j) (hj : j ≤ l.length)
    {f : String} {vs : List (Val E)} {c : E → E → Bool} (hf : Form lt comp "LowerBound" (w i) (w j) [.elem x] f vs c)
    (t : Nat) (ht : 6 ≤ t) :
    ∃ k m', i ≤ k ∧ k ≤ j ∧ calls (ctx (par lt comp grow)) t f vs m = pure ([w k], m') ∧ Walks m' v w l ∧ Only v m m' ∧
      (Partitioned (fun y => c y x) l i j → SplitsAt (fun y => c y x) l i j k) := by
  obtain ⟨J, _, Rep, enc, V, s, H, hs, hm, rfl, hn, hw, hend⟩ := h.impl lt comp grow (by omega)
  obtain ⟨k, k1, k2, e, hk⟩ := C08_lowerBound V s hs c x i j hij (by omega)
  refine ⟨k, ?_⟩
  have fin : ∀ X : R (List (Val E) × Mem E), Does X (lowerBound c (V.pt i) (V.pt j) x s) (Gives Rep enc) → ∃ m', i ≤ k ∧ k ≤ j ∧ X = pure ([w k], m') ∧ Walks m' v w (V.elems s) ∧ Only v m m' ∧
      (Partitioned (fun y => c y x) (V.elems s) i j → SplitsAt (fun y => c y x) (V.elems s) i j k) := by
    intro X hX
    obtain ⟨⟨_, m'⟩, rfl, rfl, hm'⟩ := hX.ok e
    obtain ⟨h1, h2⟩ := hend s m' hs hm'
    exact ⟨m', k1, k2, by rw [hw k (by omega)], h1, h2, hk⟩
  rw [← hw i (by omega), ← hw j (by omega)] at hf
  obtain ⟨t, rfl⟩ : ∃ n, t = n + 3 := ⟨t - 3, by omega⟩
  cases hf with
  | iterators => exact fin _ (lower_src H (isComp lt comp grow 3) (t + 1) (by omega) _ _ x s m hm)
  | any => exact fin _ (lowerAny_src H (isComp lt comp grow 3) t (by omega) _ _ x s m hm)
  | ordered => exact fin _ (lowerOrd_src H (isLess lt comp grow 3 (by omega)) t (by omega) _ _ x s m hm)

/-- **C150.** `UpperBound`, `UpperBoundAny`, `UpperBoundIterators`. -/
theorem C150_upperBound (h : Walks m v w l) (hl : l.length < 2 ^ 63) (x : E) (i j : Nat) (hij : i ≤ j) (hj : j ≤ l.length)
    {f : String} {vs : List (Val E)} {c : E → E → Bool} (hf : Form lt comp "UpperBound" (w i) (w j) [.elem x] f vs c)
    (t : Nat) (ht : 6 ≤ t) :
    ∃ k m', i ≤ k ∧ k ≤ j ∧ calls (ctx (par lt comp grow)) t f vs m = pure ([w k], m') ∧ Walks m' v w l ∧ Only v m m' ∧
      (Partitioned (fun y => !c x y) l i j → SplitsAt (fun y => !c x y) l i j k) := by
  obtain ⟨J, _, Rep, enc, V, s, H, hs, hm, rfl, hn, hw, hend⟩ := h.impl lt comp grow (by omega)
  obtain ⟨k, k1, k2, e, hk⟩ := C09_upperBound V s hs c x i j hij (by omega)
  refine ⟨k, ?_⟩
  have fin : ∀ X : R (List (Val E) × Mem E), Does X (upperBound c (V.pt i) (V.pt j) x s) (Gives Rep enc) → ∃ m', i ≤ k ∧ k ≤ j ∧ X = pure ([w k], m') ∧ Walks m' v w (V.elems s) ∧ Only v m m' ∧
      (Partitioned (fun y => !c x y) (V.elems s) i j → SplitsAt (fun y => !c x y) (V.elems s) i j k) := by
    intro X hX
    obtain ⟨⟨_, m'⟩, rfl, rfl, hm'⟩ := hX.ok e
    obtain ⟨h1, h2⟩ := hend s m' hs hm'
    exact ⟨m', k1, k2, by rw [hw k (by omega)], h1, h2, hk⟩
  rw [← hw i (by omega), ← hw j (by omega)] at hf
  obtain ⟨t, rfl⟩ : ∃ n, t = n + 3 := ⟨t - 3, by omega⟩
  cases hf with
  | iterators => exact fin _ (upper_src H (isComp lt comp grow 3) (t + 1) (by omega) _ _ x s m hm)
  | any => exact fin _ (upperAny_src H (isComp lt comp grow 3) t (by omega) _ _ x s m hm)
  | ordered => exact fin _ (upperOrd_src H (isLess lt comp grow 3 (by omega)) t (by omega) _ _ x s m hm)

/-- **C150.** A range whose end comes before its begin makes them panic. -/
theorem C150_bound_invalid (h : Walks m v w l) (hl : l.length < 2 ^ 63) (x : E) (i j : Nat) (hij : j < i) (hi : i ≤ l.length)
    {base f : String} (hb : base = "LowerBound" ∨ base = "UpperBound") {vs : List (Val E)} {c : E → E → Bool}
    (hf : Form lt comp base (w i) (w j) [.elem x] f vs c) (t : Nat) (ht : 6 ≤ t) :
    calls (ctx (par lt comp grow)) t f vs m = panic "invalid range" := by
  obtain ⟨J, _, Rep, enc, V, s, H, hs, hm, rfl, hn, hw, hend⟩ := h.impl lt comp grow (by omega)
  obtain ⟨e1, e2⟩ := C08_invalid V s c x i j (by omega) hij
  rw [← hw i (by omega), ← hw j (by omega)] at hf
  obtain ⟨t, rfl⟩ : ∃ n, t = n + 3 := ⟨t - 3, by omega⟩
  rcases hb with rfl | rfl
  · cases hf with
    | iterators => exact (lower_src H (isComp lt comp grow 3) (t + 1) (by omega) _ _ x s m hm).err e1 (by decide)
    | any => exact (lowerAny_src H (isComp lt comp grow 3) t (by omega) _ _ x s m hm).err e1 (by decide)
    | ordered => exact (lowerOrd_src H (isLess lt comp grow 3 (by omega)) t (by omega) _ _ x s m hm).err e1 (by decide)
  · cases hf with
    | iterators => exact (upper_src H (isComp lt comp grow 3) (t + 1) (by omega) _ _ x s m hm).err e2 (by decide)
    | any => exact (upperAny_src H (isComp lt comp grow 3) t (by omega) _ _ x s m hm).err e2 (by decide)
    | ordered => exact (upperOrd_src H (isLess lt comp grow 3 (by omega)) t (by omega) _ _ x s m hm).err e2 (by decide)

/-! ## is_sorted.go -/

/-- **C150.** `IsSortedUntil`, `IsSortedUntilAny`, `IsSortedUntilIterators`: the end of the longest prefix in which no element is less than
the one before. -/
theorem C150_isSortedUntil (h : Walks m v w l) (hl : l.length < 2 ^ 63) (i j : Nat) (hij : i ≤ j) (hj : j ≤ l.length)
    {f : String} {vs : List (Val E)} {c : E → E → Bool} (hf : Form lt comp "IsSortedUntil" (w i) (w j) [] f vs c)
    (t : Nat) (ht : 6 ≤ t) :
    ∃ k m', i ≤ k ∧ k ≤ j ∧ calls (ctx (par lt comp grow)) t f vs m = pure ([w k], m') ∧ Walks m' v w l ∧ Only v m m' ∧
      SortedTo c l i k ∧ ∀ k', k < k' → k' ≤ j → ¬ SortedTo c l i k' := by
  obtain ⟨J, _, Rep, enc, V, s, H, hs, hm, rfl, hn, hw, hend⟩ := h.impl lt comp grow (by omega)
  obtain ⟨⟨k, k1, k2, e, hk, hk'⟩, -⟩ := C10_isSortedUntil V s hs c i j hij (by omega) (j - i) (by omega)
  refine ⟨k, ?_⟩
  have fin : ∀ X : R (List (Val E) × Mem E), Does X (isSortedUntil (j - i) c (V.pt i) (V.pt j) s) (Gives Rep enc) → ∃ m', i ≤ k ∧ k ≤ j ∧ X = pure ([w k], m') ∧ Walks m' v w (V.elems s) ∧ Only v m m' ∧
      SortedTo c (V.elems s) i k ∧ ∀ k', k < k' → k' ≤ j → ¬ SortedTo c (V.elems s) i k' := by
    intro X hX
    obtain ⟨⟨_, m'⟩, rfl, rfl, hm'⟩ := hX.ok e
    obtain ⟨h1, h2⟩ := hend s m' hs hm'
    exact ⟨m', k1, k2, by rw [hw k (by omega)], h1, h2, hk, hk'⟩
  rw [← hw i (by omega), ← hw j (by omega)] at hf
  obtain ⟨t, rfl⟩ : ∃ n, t = n + 3 := ⟨t - 3, by omega⟩
  cases hf with
  | iterators => exact fin _ (sortedUntil_src H.toImpl (isComp lt comp grow 3) (t + 2) (by omega) _ _ _ s m hm)
  | any => exact fin _ (sortedUntilAny_src H.toImpl (isComp lt comp grow 3) (t + 1) (by omega) _ _ _ s m hm)
  | ordered => exact fin _ (sortedUntilOrd_src H.toImpl (isLess lt comp grow 3 (by omega)) (t + 1) (by omega) _ _ _ s m hm)

/-- **C150.** `IsSorted`, `IsSortedAny`, `IsSortedIterators`. -/
theorem C150_isSorted (h : Walks m v w l) (hl : l.length < 2 ^ 63) (i j : Nat) (hij : i ≤ j) (hj : j ≤ l.length)
    {f : String} {vs : List (Val E)} {c : E → E → Bool} (hf : Form lt comp "IsSorted" (w i) (w j) [] f vs c)
    (t : Nat) (ht : 6 ≤ t) :
    ∃ b m', calls (ctx (par lt comp grow)) t f vs m = pure ([.bool b], m') ∧ Walks m' v w l ∧ Only v m m' ∧
      (b = true ↔ SortedTo c l i j) := by
  obtain ⟨J, _, Rep, enc, V, s, H, hs, hm, rfl, hn, hw, hend⟩ := h.impl lt comp grow (by omega)
  obtain ⟨-, b, e, hb⟩ := C10_isSortedUntil V s hs c i j hij (by omega) (j - i) (by omega)
  refine ⟨b, ?_⟩
  have fin : ∀ X : R (List (Val E) × Mem E), Does X (isSorted (j - i) c (V.pt i) (V.pt j) s) (Gives Rep .bool) → ∃ m', X = pure ([.bool b], m') ∧ Walks m' v w (V.elems s) ∧ Only v m m' ∧
      (b = true ↔ SortedTo c (V.elems s) i j) := by
    intro X hX
    obtain ⟨⟨_, m'⟩, rfl, rfl, hm'⟩ := hX.ok e
    obtain ⟨h1, h2⟩ := hend s m' hs hm'
    exact ⟨m', rfl, h1, h2, hb⟩
  rw [← hw i (by omega), ← hw j (by omega)] at hf
  obtain ⟨t, rfl⟩ : ∃ n, t = n + 3 := ⟨t - 3, by omega⟩
  cases hf with
  | iterators => exact fin _ (sorted_src H.toImpl (isComp lt comp grow 3) (t + 1) (by omega) _ _ _ s m hm)
  | any => exact fin _ (sortedAny_src H.toImpl (isComp lt comp grow 3) t (by omega) _ _ _ s m hm)
  | ordered => exact fin _ (sortedOrd_src H.toImpl (isLess lt comp grow 3 (by omega)) t (by omega) _ _ _ s m hm)

/-! ## next_permutation.go -/

/-- **C150.** `NextPermutation`, `NextPermutationAny`, `NextPermutationIterators` on the part `B` of the elements, for a strict weak order:
the next rearrangement of `B` in lexicographic order and `true`, or, if `B` is the last, the first and `false`. -/
theorem C150_nextPermutation {A B C : List E} (h : Walks m v w (A ++ B ++ C)) (hl : (A ++ B ++ C).length < 2 ^ 63)
    {f : String} {vs : List (Val E)} {c : E → E → Bool} (hc : StrictWeak c)
    (hf : Form lt comp "NextPermutation" (w A.length) (w (A.length + B.length)) [] f vs c) (t : Nat) (ht : 8 ≤ t) :
    ∃ b B' m', calls (ctx (par lt comp grow)) t f vs m = pure ([.bool b], m') ∧ Walks m' v w (A ++ B' ++ C) ∧ Only v m m' ∧
      B'.Perm B ∧ (b = true → NextInOrder c B B') ∧ (b = false → LastInOrder c B ∧ Ascending c B') ∧
      (b = true ↔ ∃ q : List E, q.Perm B ∧ lexLt c B q) := by
  obtain ⟨J, _, Rep, enc, V, s, H, hs, hm, hd, hn, hw, hend⟩ := h.impl lt comp grow (by omega)
  obtain ⟨b, B', e, p1, p2, p3, p4⟩ := C11_nextPermutation V s hs c hc A B C hd (B.length + 1) (by omega)
  refine ⟨b, B', ?_⟩
  have hL : (A ++ B' ++ C).length = V.n := by
    rw [hn]
    simp only [List.length_append, p1.length_eq]
  have fin : ∀ X : R (List (Val E) × Mem E), Does X (nextPermutation (B.length + 1) c (V.pt A.length) (V.pt (A.length + B.length)) s) (Gives Rep .bool) →
      ∃ m', X = pure ([.bool b], m') ∧ Walks m' v w (A ++ B' ++ C) ∧ Only v m m' ∧
      B'.Perm B ∧ (b = true → NextInOrder c B B') ∧ (b = false → LastInOrder c B ∧ Ascending c B') ∧
      (b = true ↔ ∃ q : List E, q.Perm B ∧ lexLt c B q) := by
    intro X hX
    obtain ⟨⟨_, m'⟩, rfl, rfl, hm'⟩ := hX.ok e
    obtain ⟨h1, h2⟩ := hend _ m' (V.ok_put s _ hs hL) hm'
    rw [V.elems_put s _ hs hL] at h1
    exact ⟨m', rfl, h1, h2, p1, p2, p3, p4⟩
  have hA : A.length ≤ V.n ∧ A.length + B.length ≤ V.n := by
    rw [hn]
    simp only [List.length_append]
    omega
  rw [← hw _ hA.1, ← hw _ hA.2] at hf
  obtain ⟨t, rfl⟩ : ∃ n, t = n + 5 := ⟨t - 5, by omega⟩
  cases hf with
  | iterators => exact fin _ (nextPermutation_src H (isComp lt comp grow 3) (t + 1) (by omega) _ _ _ s m hm)
  | any => exact fin _ (nextPermutationAny_src H (isComp lt comp grow 3) t (by omega) _ _ _ s m hm)
  | ordered => exact fin _ (nextPermutationOrd_src H (isLess lt comp grow 3 (by omega)) t (by omega) _ _ _ s m hm)

/-! ## generic.go, fill.go -/

/-- **C150.** `Reverse` reverses the part `B` of the elements. -/
theorem C150_reverse {A B C : List E} (h : Walks m v w (A ++ B ++ C)) (hl : (A ++ B ++ C).length < 2 ^ 63) (t : Nat) (ht : 5 ≤ t) :
    ∃ m', calls (ctx (par lt comp grow)) t "Reverse" [w A.length, w (A.length + B.length)] m = pure ([], m') ∧
      Walks m' v w (A ++ B.reverse ++ C) ∧ Only v m m' := by
  obtain ⟨J, _, Rep, enc, V, s, H, hs, hm, hd, hn, hw, hend⟩ := h.impl lt comp grow (by omega)
  have e := C13_reverse V s hs A B C hd (B.length + 1) (by omega)
  have hL : (A ++ B.reverse ++ C).length = V.n := by
    rw [hn]
    simp only [List.length_append, List.length_reverse]
  have hA : A.length ≤ V.n ∧ A.length + B.length ≤ V.n := by
    rw [hn]
    simp only [List.length_append]
    omega
  rw [← hw _ hA.1, ← hw _ hA.2]
  obtain ⟨t, rfl⟩ : ∃ n, t = n + 2 := ⟨t - 2, by omega⟩
  obtain ⟨⟨_, m'⟩, e1, rfl, hm'⟩ := (reverse_src H t (by omega) _ _ _ s m hm).ok e
  obtain ⟨h1, h2⟩ := hend _ m' (V.ok_put s _ hs hL) hm'
  rw [V.elems_put s _ hs hL] at h1
  exact ⟨m', e1, h1, h2⟩

/-- **C150.** `Swap` exchanges two elements. -/
theorem C150_swap {A B C : List E} {a b : E} (h : Walks m v w (A ++ a :: (B ++ b :: C))) (hl : (A ++ a :: (B ++ b :: C)).length < 2 ^ 63)
    (t : Nat) (ht : 4 ≤ t) :
    (∃ m', calls (ctx (par lt comp grow)) t "Swap" [w A.length, w (A.length + 1 + B.length)] m = pure ([], m') ∧
      Walks m' v w (A ++ b :: (B ++ a :: C)) ∧ Only v m m') ∧
    (∃ m', calls (ctx (par lt comp grow)) t "Swap" [w (A.length + 1 + B.length), w A.length] m = pure ([], m') ∧
      Walks m' v w (A ++ b :: (B ++ a :: C)) ∧ Only v m m') := by
  obtain ⟨J, _, Rep, enc, V, s, H, hs, hm, hd, hn, hw, hend⟩ := h.impl lt comp grow (by omega)
  obtain ⟨e1, e2⟩ := (C13_swap V s hs).1 A B C a b hd
  have hL : (A ++ b :: (B ++ a :: C)).length = V.n := by
    rw [hn]
    simp only [List.length_append, List.length_cons]
  have hA : A.length ≤ V.n ∧ A.length + 1 + B.length ≤ V.n := by
    rw [hn]
    simp only [List.length_append, List.length_cons]
    omega
  rw [← hw _ hA.1, ← hw _ hA.2]
  obtain ⟨t, rfl⟩ : ∃ n, t = n + 1 := ⟨t - 1, by omega⟩
  obtain ⟨⟨_, m1⟩, f1, rfl, hm1⟩ := (swap_src H.toImpl t (by omega) _ _ s m hm).ok e1
  obtain ⟨⟨_, m2⟩, f2, rfl, hm2⟩ := (swap_src H.toImpl t (by omega) _ _ s m hm).ok e2
  obtain ⟨h1, h2⟩ := hend _ m1 (V.ok_put s _ hs hL) hm1
  obtain ⟨g1, g2⟩ := hend _ m2 (V.ok_put s _ hs hL) hm2
  rw [V.elems_put s _ hs hL] at h1 g1
  exact ⟨⟨m1, f1, h1, h2⟩, m2, f2, g1, g2⟩

/-- `FillN` on a view. -/
theorem fillLoop_view {S T J : Type} [RandIter S T J] (V : View S T J) (x : T) (A C : List T) (B : List T) :
    ∀ s, V.ok s → V.elems s = A ++ B ++ C →
      fillLoop x B.length (V.pt A.length) s = (.ok (V.pt (A.length + B.length)), V.put s (A ++ List.replicate B.length x ++ C)) := by
  induction B generalizing A with
  | nil =>
    intro s hs hd
    show (Except.ok _, s) = _
    rw [show A ++ List.replicate ([] : List T).length x ++ C = V.elems s by rw [hd]; rfl, V.put_elems s hs]
    rfl
  | cons y B ih =>
    intro s hs hd
    have hn : V.n = A.length + (B.length + 1) + C.length := by
      rw [← V.len s hs, hd]
      simp only [List.length_append, List.length_cons]
    have e1 := V.set_pt s A.length x hs (by omega)
    have e2 : (V.elems s).set A.length x = A ++ [x] ++ B ++ C := by
      rw [hd]
      simp
    rw [e2] at e1
    have hL : (A ++ [x] ++ B ++ C).length = V.n := by
      rw [hn]
      simp only [List.length_append, List.length_cons, List.length_nil]
      omega
    have := ih (A ++ [x]) (V.put s (A ++ [x] ++ B ++ C)) (V.ok_put _ _ hs hL) (V.elems_put _ _ hs hL)
    show (Iter.set (V.pt A.length) x >>= fun _ => _) s = _
    rw [St.bind_apply, e1]
    show ((St.lift (next (V.pt A.length)) : St S J) >>= fun first => fillLoop x B.length first) _ = _
    rw [St.bind_lift (V.next_pt A.length (by omega))]
    rw [List.length_append, List.length_singleton] at this
    rw [this, V.put_put _ _ _ hs hL (by rw [hn]; simp only [List.length_append, List.length_replicate, List.length_cons, List.length_nil]; omega)]
    congr 2
    · congr 1
      simp only [List.length_cons]
      omega
    · simp [List.replicate_succ]

/-- **C150.** `FillN(first, n, x)` writes `x` to `n` elements and returns the iterator behind them; nothing happens for `n ≤ 0`. -/
theorem C150_fillN {A B C : List E} (h : Walks m v w (A ++ B ++ C)) (hl : (A ++ B ++ C).length < 2 ^ 63) (x : E) (t : Nat) (ht : 4 ≤ t) :
    (∃ m', calls (ctx (par lt comp grow)) t "FillN" [w A.length, .num .int B.length, .elem x] m = pure ([w (A.length + B.length)], m') ∧
      Walks m' v w (A ++ List.replicate B.length x ++ C) ∧ Only v m m') ∧
    ∀ n, n ≤ 0 → isInt64 n → ∃ m', calls (ctx (par lt comp grow)) t "FillN" [w A.length, .num .int n, .elem x] m = pure ([w A.length], m') ∧
      Walks m' v w (A ++ B ++ C) ∧ Only v m m' := by
  obtain ⟨J, _, Rep, enc, V, s, H, hs, hm, hd, hn, hw, hend⟩ := h.impl lt comp grow (by omega)
  have hL : (A ++ List.replicate B.length x ++ C).length = V.n := by
    rw [hn]
    simp only [List.length_append, List.length_replicate]
  have hA : A.length ≤ V.n ∧ A.length + B.length ≤ V.n ∧ A.length + B.length < 2 ^ 63 := by
    rw [hn]
    simp only [List.length_append] at hl ⊢
    omega
  rw [← hw _ hA.1, ← hw _ hA.2.1]
  obtain ⟨t, rfl⟩ : ∃ n, t = n + 1 := ⟨t - 1, by omega⟩
  constructor
  · obtain ⟨⟨_, m'⟩, e1, rfl, hm'⟩ := (fill_src H.toImpl t (by omega) x B.length (by unfold isInt64; omega) (V.pt A.length) s m hm).ok
      (by rw [fillN, Int.toNat_natCast]; exact fillLoop_view V x A C B s hs hd)
    obtain ⟨h1, h2⟩ := hend _ m' (V.ok_put s _ hs hL) hm'
    rw [V.elems_put s _ hs hL] at h1
    exact ⟨m', e1, h1, h2⟩
  · intro n hn0 hb
    have e : fillN (V.pt A.length) n x s = (.ok (V.pt A.length), s) := by
      rw [fillN, show n.toNat = 0 by omega]
      rfl
    obtain ⟨⟨_, m'⟩, e1, rfl, hm'⟩ := (fill_src H.toImpl t (by omega) x n hb (V.pt A.length) s m hm).ok e
    obtain ⟨h1, h2⟩ := hend _ m' hs hm'
    rw [hd] at h1
    exact ⟨m', e1, h1, h2⟩
end

/-! ## A case -/

/-- The elements 3, 1, 2, 5 of an array with an element before and one behind. -/
def exMem : Mem Int := ⟨[[.elem 7, .elem 3, .elem 1, .elem 2, .elem 5, .elem 9]], []⟩

def exSlice : Val Int := .slice 0 1 4 5

theorem exHolds : Slice exMem exSlice [3, 1, 2, 5] :=
  @Slice.some Int exMem 0 1 5 [.elem 7, .elem 3, .elem 1, .elem 2, .elem 5, .elem 9] [3, 1, 2, 5] rfl rfl (by decide) (by decide)

theorem exForward : Walks exMem exSlice (fun i => itAt exSlice i) [3, 1, 2, 5] := .forward exHolds

theorem exBackward : Walks exMem exSlice (fun i => itRev exSlice ((4 - i : Nat) : Int)) [5, 2, 1, 3] := .backward exHolds

def exLt : Int → Int → Bool := fun x y => decide (x < y)

def exPar : Par Int := par exLt (fun x y => exLt y x) (fun _ n => n)

/-- `1 2 5` is sorted, so that the lower bound of 2 in it is the position of 2, and the upper bound that of 5. -/
example : (∃ k m', calls (ctx exPar) 6 "LowerBound" [rangeOf (itAt exSlice (1 : Nat)) (itAt exSlice (4 : Nat)), .elem 2] exMem =
      pure ([itAt exSlice (k : Nat)], m') ∧ k = 2) ∧
    ∃ k m', calls (ctx exPar) 6 "UpperBound" [rangeOf (itAt exSlice (1 : Nat)) (itAt exSlice (4 : Nat)), .elem 2] exMem =
      pure ([itAt exSlice (k : Nat)], m') ∧ k = 3 := by
  constructor
  · obtain ⟨k, m', h1, h2, h3, -, -, h4⟩ := C150_lowerBound (grow := fun _ n => n) exForward (by decide) 2 1 4 (by decide) (by decide)
      (Form.ordered (lt := exLt) (comp := fun x y => exLt y x)) 6 (by decide)
    refine ⟨k, m', h3, ?_⟩
    obtain ⟨-, -, h5, h6⟩ := h4 ⟨2, by decide, by decide,
      fun p x _ _ e => by obtain rfl : p = 1 := by omega
                          cases e; rfl,
      fun p x _ _ e => by obtain rfl | rfl : p = 2 ∨ p = 3 := by omega
                          all_goals cases e; rfl⟩
    have := fun h => h6 1 1 h (by decide) rfl
    have := fun h => h5 2 2 (by decide) h rfl
    have : exLt 1 2 = true := rfl
    have : exLt 2 2 = false := rfl
    grind
  · obtain ⟨k, m', h1, h2, h3, -, -, h4⟩ := C150_upperBound (grow := fun _ n => n) exForward (by decide) 2 1 4 (by decide) (by decide)
      (Form.ordered (lt := exLt) (comp := fun x y => exLt y x)) 6 (by decide)
    refine ⟨k, m', h3, ?_⟩
    obtain ⟨-, -, h5, h6⟩ := h4 ⟨3, by decide, by decide,
      fun p x _ _ e => by obtain rfl | rfl : p = 1 ∨ p = 2 := by omega
                          all_goals cases e; rfl,
      fun p x _ _ e => by obtain rfl : p = 3 := by omega
                          cases e; rfl⟩
    have := fun h => h6 2 2 h (by decide) rfl
    have := fun h => h5 3 5 (by decide) h rfl
    have : exLt 2 2 = false := rfl
    have : exLt 2 5 = true := rfl
    grind

/-- By the reverse iterators the order is `5 2 1 3`. With the comparator `>` the next permutation of `2 1 3` is one that comes after. -/
example : ∃ B' m', calls (ctx exPar) 8 "NextPermutationIterators" [itRev exSlice (3 : Nat), itRev exSlice (0 : Nat), .fn "comp"] exMem =
    pure ([.bool true], m') ∧ Slice m' exSlice ([5] ++ B').reverse ∧ Only exSlice exMem m' ∧ NextInOrder (fun x y => exLt y x) [2, 1, 3] B' := by
  obtain ⟨b, B', m', h1, h2, h3, h4, h5, -, h6⟩ := C150_nextPermutation (grow := fun _ n => n) (A := [5]) (B := [2, 1, 3]) (C := []) exBackward (by decide)
    (by constructor <;> simp [exLt] <;> omega) (Form.iterators (lt := exLt) (comp := fun x y => exLt y x)) 8 (by decide)
  obtain rfl : b = true := h6.2 ⟨[1, 3, 2], by decide, by decide⟩
  refine ⟨B', m', h1, ?_, h3, h5 rfl⟩
  rw [List.append_nil] at h2
  exact (backward_iff (by rw [List.length_append, h4.length_eq]; rfl)).1 h2

example : ∃ k m', calls (ctx exPar) 6 "IsSortedUntil" [rangeOf (itAt exSlice (1 : Nat)) (itAt exSlice (4 : Nat))] exMem =
      pure ([itAt exSlice (k : Nat)], m') ∧ k = 4 := by
  obtain ⟨k, m', h1, h2, h3, -, -, -, h4⟩ := C150_isSortedUntil (grow := fun _ n => n) exForward (by decide) 1 4 (by decide) (by decide)
      (Form.ordered (lt := exLt) (comp := fun x y => exLt y x)) 6 (by decide)
  refine ⟨k, m', h3, Decidable.byContradiction fun hk => h4 4 (by omega) (by decide) ?_⟩
  intro t x y _ _ e1 e2
  obtain rfl | rfl : t = 1 ∨ t = 2 := by omega
  all_goals cases e1; cases e2; rfl

example : ∃ m', calls (ctx exPar) 6 "IsSortedAny" [rangeOf (itAt exSlice (0 : Nat)) (itAt exSlice (4 : Nat)), .fn "comp"] exMem =
      pure ([.bool false], m') := by
  obtain ⟨b, m', h1, -, -, h2⟩ := C150_isSorted (grow := fun _ n => n) exForward (by decide) 0 4 (by decide) (by decide)
      (Form.any (lt := exLt) (comp := fun x y => exLt y x)) 6 (by decide)
  cases b with
  | false => exact ⟨m', h1⟩
  | true => exact absurd (h2.1 rfl 1 1 2 (by decide) (by decide) rfl rfl) (by decide)

example : calls (ctx exPar) 6 "UpperBoundAny" [rangeOf (itAt exSlice (3 : Nat)) (itAt exSlice (1 : Nat)), .elem 2, .fn "comp"] exMem =
    panic "invalid range" :=
  C150_bound_invalid exForward (by decide) 2 3 1 (by decide) (by decide) (.inr rfl) (Form.any (lt := exLt) (comp := fun x y => exLt y x)) 6 (by decide)

example : ∃ m', calls (ctx exPar) 5 "Reverse" [itAt exSlice (0 : Nat), itAt exSlice (3 : Nat)] exMem = pure ([], m') ∧
    Walks m' exSlice (fun i => itAt exSlice i) [2, 1, 3, 5] ∧ Only exSlice exMem m' :=
  C150_reverse (A := []) (B := [3, 1, 2]) (C := [5]) exForward (by decide) 5 (by decide)

example : ∃ m', calls (ctx exPar) 4 "Swap" [itAt exSlice (3 : Nat), itAt exSlice (1 : Nat)] exMem = pure ([], m') ∧
    Walks m' exSlice (fun i => itAt exSlice i) [3, 5, 2, 1] ∧ Only exSlice exMem m' :=
  (C150_swap (A := [3]) (B := [2]) (C := []) exForward (by decide) 4 (by decide)).2

example : ∃ m', calls (ctx exPar) 4 "FillN" [itRev exSlice (4 : Nat), .num .int (2 : Nat), .elem 0] exMem = pure ([itRev exSlice (2 : Nat)], m') ∧
    Walks m' exSlice (fun i => itRev exSlice ((4 - i : Nat) : Int)) [0, 0, 1, 3] ∧ Only exSlice exMem m' :=
  (C150_fillN (A := []) (B := [5, 2]) (C := [1, 3]) exBackward (by decide) 0 4 (by decide)).1

end Verif.Src.Algo
