import Verif.Algo.Props
import Verif.Sort.Props

/-!
# Property C89: sorting, then searching and enumerating

`Sort` and `Stable` (xsort/sort.go:10-51) take the slice itself, the searches (algo/binary_search.go:9-63),
`IsSorted` (algo/is_sorted.go:9-41) and `NextPermutation` (algo/next_permutation.go:9-27) take iterators
into it. A program that sorts a slice and then searches it goes through both, so the theorems here speak
of the memory left by the sort: `v.put s out` is the memory in which the sequence has been replaced by
what the sort left in the slice.
-/

namespace Verif.Algo

open Verif.Iter Verif.Sort Verif.Slice

variable {S T It : Type} [RandIter S T It]

/-- A list split where `q` stops holding has as many elements before the split as satisfy `q`. -/
theorem countP_of_split (q : T → Bool) : ∀ (l : List T) (k : Nat), SplitsAt q l 0 l.length k → l.countP q = k := by
  intro l k ⟨_, hk, h1, h2⟩
  rw [← List.take_append_drop k l, List.countP_append]
  have e1 : (l.take k).countP q = (l.take k).length := by
    rw [List.countP_eq_length]
    intro x hx
    obtain ⟨p, hp, e⟩ := List.mem_iff_getElem.1 hx
    rw [List.length_take] at hp
    rw [List.getElem_take] at e
    exact h1 p x (by omega) (by omega) (by rw [List.getElem?_eq_getElem (by omega), e])
  have e2 : (l.drop k).countP q = 0 := by
    rw [List.countP_eq_zero]
    intro x hx
    obtain ⟨p, hp, e⟩ := List.mem_iff_getElem.1 hx
    rw [List.length_drop] at hp
    rw [List.getElem_drop] at e
    rw [h2 (k + p) x (by omega) (by omega) (by rw [List.getElem?_eq_getElem (by omega), e])]
    simp
  rw [e1, e2, List.length_take]
  omega

/-- How many elements are less than `x`, equivalent to `x`. -/
def numLess (lt : T → T → Bool) (x : T) (l : List T) : Nat := l.countP fun y => lt y x
@[inherit_doc numLess] def numEquiv (lt : T → T → Bool) (x : T) (l : List T) : Nat :=
  l.countP fun y => equiv lt y x

/-- The elements that `x` is not less than are those less than `x` and those equivalent to `x`. -/
theorem countP_notGreater {lt : T → T → Bool} (hw : StrictWeak lt) (x : T) (l : List T) :
    (l.countP fun y => !lt x y) = numLess lt x l + numEquiv lt x l := by
  unfold numLess numEquiv
  induction l with
  | nil => rfl
  | cons y l ih =>
    simp only [List.countP_cons, ih]
    have : ¬ (lt x y = true ∧ lt y x = true) := fun ⟨a, b⟩ => by
      have := hw.trans x y x a b
      rw [hw.irrefl] at this; cases this
    unfold equiv
    cases h1 : lt x y <;> cases h2 : lt y x <;> simp [h1, h2] at this ⊢ <;> omega

/-- What can be asked of a memory whose sequence is an ascending rearrangement of `data`. -/
structure Searchable (v : View S T It) (lt : T → T → Bool) (data : List T) (s : S) : Prop where
  /-- `IsSorted` says so. -/
  sorted : ∀ fuel, v.n ≤ fuel → isSorted fuel lt (v.pt 0) (v.pt v.n) s = (.ok true, s)
  /-- `LowerBound` stops after the elements of `data` less than `x`, `UpperBound` after those and the ones
  equivalent to `x`. -/
  search : ∀ x, lowerBound lt (v.pt 0) (v.pt v.n) x s = (.ok (v.pt (numLess lt x data)), s) ∧
    upperBound lt (v.pt 0) (v.pt v.n) x s = (.ok (v.pt (numLess lt x data + numEquiv lt x data)), s)
  /-- What lies between the two is equivalent to `x`. -/
  between : ∀ x p y, numLess lt x data ≤ p → p < numLess lt x data + numEquiv lt x data →
    (v.elems s)[p]? = some y → equiv lt y x = true
  /-- An element equivalent to `x` is found at the lower bound if `data` has one, and only then. -/
  found : ∀ x, (∃ y ∈ data, equiv lt y x = true) ↔
    numLess lt x data < v.n ∧ ∃ y, get (v.pt (numLess lt x data)) s = (.ok y, s) ∧ equiv lt y x = true

theorem searchable_of_ascending (v : View S T It) (s : S) (hs : v.ok s) (lt : T → T → Bool) (hw : StrictWeak lt)
    (data : List T) (hp : (v.elems s).Perm data) (ha : Ascending lt (v.elems s)) : Searchable v lt data s := by
  have hL := v.len s hs
  have hasc : Ascending lt (((v.elems s).drop 0).take (v.n - 0)) := by
    rw [List.drop_zero, Nat.sub_zero, List.take_of_length_le (by omega)]; exact ha
  have key : ∀ x, (lowerBound lt (v.pt 0) (v.pt v.n) x s = (.ok (v.pt (numLess lt x data)), s) ∧
        SplitsAt (fun y => lt y x) (v.elems s) 0 v.n (numLess lt x data)) ∧
      upperBound lt (v.pt 0) (v.pt v.n) x s = (.ok (v.pt (numLess lt x data + numEquiv lt x data)), s) ∧
        SplitsAt (fun y => !lt x y) (v.elems s) 0 v.n (numLess lt x data + numEquiv lt x data) := by
    intro x
    obtain ⟨⟨k1, e1, h1⟩, k2, e2, h2⟩ := C08_C09_sorted v s hs lt hw x 0 v.n (by omega) (by omega) hasc
    have c1 := countP_of_split _ _ _ (by rw [hL]; exact h1)
    have c2 := countP_of_split _ _ _ (by rw [hL]; exact h2)
    rw [hp.countP_eq] at c1 c2
    rw [countP_notGreater hw] at c2
    have c1' : numLess lt x data = k1 := c1
    rw [c2, c1']
    exact ⟨⟨e1, h1⟩, e2, h2⟩
  refine ⟨fun fuel hf => ?_, fun x => ⟨(key x).1.1, (key x).2.1⟩, ?_, ?_⟩
  · obtain ⟨b, e, hb⟩ := C10_isSorted_ascending v s hs lt hw fuel hf
    rw [e, hb.2 ha]
  · intro x p y h1 h2 hy
    obtain ⟨⟨_, _, _, _, l2⟩, _, _, u0, u1, _⟩ := key x
    have a := l2 p y h1 (by omega) hy
    have b := u1 p y (by omega) h2 hy
    simp only [Bool.not_eq_true'] at b
    simp [equiv, a, b]
  · intro x
    obtain ⟨⟨_, _, l0, l1, l2⟩, _, _, u0, u1, u2⟩ := key x
    constructor
    · rintro ⟨y, hy, he⟩
      have hpos : 0 < numEquiv lt x data := List.countP_pos_iff.2 ⟨y, hy, he⟩
      obtain ⟨z, hz⟩ : ∃ z, (v.elems s)[numLess lt x data]? = some z :=
        ⟨_, List.getElem?_eq_getElem (by omega)⟩
      refine ⟨by omega, z, v.get_pt s _ _ hs hz, ?_⟩
      have a := l2 _ z (Nat.le_refl _) (by omega) hz
      have b := u1 _ z (by omega) (by omega) hz
      simp only [Bool.not_eq_true'] at b
      simp [equiv, a, b]
    · rintro ⟨hlt, y, hg, he⟩
      obtain ⟨z, hz⟩ : ∃ z, (v.elems s)[numLess lt x data]? = some z :=
        ⟨_, List.getElem?_eq_getElem (by omega)⟩
      have := v.get_pt s _ _ hs hz
      rw [this] at hg
      injection hg with hg
      injection hg with hg
      subst hg
      exact ⟨z, hp.mem_iff.1 (List.mem_of_getElem? hz), he⟩

/-- **C89.** Sorting a sequence with a strict weak order, by `Sort` or by `Stable`, makes it searchable:
`IsSorted` is true; `LowerBound` and `UpperBound` delimit exactly the elements equivalent to the value
looked for, as many as the unsorted data had; and reading at the lower bound finds an equivalent element
just when the unsorted data contained one. -/
theorem C89_sort_then_search [Inhabited T] (v : View S T It) (s : S) (hs : v.ok s) (lt : T → T → Bool) (hw : StrictWeak lt) :
    (∃ out, sort lt (v.elems s) = .ok out ∧ Searchable v lt (v.elems s) (v.put s out)) ∧
    (∃ out, stableSort lt (v.elems s) = .ok out ∧ Searchable v lt (v.elems s) (v.put s out)) := by
  have hL := v.len s hs
  have fin : ∀ out, out.Perm (v.elems s) → Ascending lt out → Searchable v lt (v.elems s) (v.put s out) := by
    intro out hp ha
    have hl : out.length = v.n := by rw [hp.length_eq, hL]
    have he := v.elems_put s out hs hl
    exact searchable_of_ascending v _ (v.ok_put s out hs hl) lt hw _ (by rw [he]; exact hp) (by rw [he]; exact ha)
  constructor
  · obtain ⟨out, e, ha⟩ := C01_sort_ascending lt hw (v.elems s)
    obtain ⟨out', e', hp⟩ := (C02_sort_rearranges (v.elems s)).1 lt
    rw [e] at e'; injection e' with e'; subst e'
    exact ⟨out, e, fin out hp ha⟩
  · obtain ⟨out, e, ha, hp⟩ := C04_stable_sorts lt hw (v.elems s)
    exact ⟨out, e, fin out hp ha⟩

/-- **C89**, enumeration: sorting and then calling `NextPermutation` until it returns false visits every
distinct arrangement of the original sequence exactly once, and leaves the sorted sequence. -/
theorem C89_sort_then_enumerate [Inhabited T] (v : View S T It) (s : S) (hs : v.ok s) (lt : T → T → Bool) (h : StrictLinear lt)
    (fuel : Nat) (hf : v.n < fuel) :
    ∃ out, sort lt (v.elems s) = .ok out ∧ ∃ N, ∀ k, N ≤ k → ∃ visited,
      permLoop fuel lt (v.pt 0) (v.pt v.n) k (v.put s out) = (.ok visited, v.put s out) ∧
      visited.Nodup ∧ ∀ l : List T, l ∈ visited ↔ l.Perm (v.elems s) := by
  have hL := v.len s hs
  obtain ⟨out, e, ha⟩ := C01_sort_ascending lt h.toStrictWeak (v.elems s)
  obtain ⟨out', e', hp⟩ := (C02_sort_rearranges (v.elems s)).1 lt
  rw [e] at e'; injection e' with e'; subst e'
  have hl : out.length = v.n := by rw [hp.length_eq, hL]
  refine ⟨out, e, ?_⟩
  obtain ⟨N, hN⟩ := C12_enumerates v (v.put s out) (v.ok_put s out hs hl) lt h [] out []
    (by rw [v.elems_put s out hs hl]; simp) ha fuel (by omega)
  refine ⟨N, fun k hk => ?_⟩
  obtain ⟨visited, e1, e2, e3⟩ := hN k hk
  rw [List.length_nil, Nat.zero_add, hl] at e1
  exact ⟨visited, e1, e2, fun l => (e3 l).trans ⟨fun q => q.trans hp, fun q => q.trans hp.symm⟩⟩

/-! Non-vacuity: a slice with a foreign element on either side, unsorted and with repeated elements. -/

/-- The memory before sorting. -/
def unsortedH : Heap Nat := [[9, 3, 1, 2, 7, 2, 1, 5, 0]]
theorem unsortedV : Valid unsortedH exS := ⟨by decide, by decide, [9, 3, 1, 2, 7, 2, 1, 5, 0], rfl, by decide⟩
example : (viewOf unsortedV).elems unsortedH = [3, 1, 2, 7, 2, 1, 5] := by decide +kernel
example : sort natLt [3, 1, 2, 7, 2, 1, 5] = .ok [1, 1, 2, 2, 3, 5, 7] := by decide +kernel
example : (viewOf unsortedV).put unsortedH [1, 1, 2, 2, 3, 5, 7] = exH := by decide +kernel
/-- Two ones, then two twos: the twos are the positions 2 and 3 of the sorted slice. -/
example : numLess natLt 2 [3, 1, 2, 7, 2, 1, 5] = 2 ∧ numEquiv natLt 2 [3, 1, 2, 7, 2, 1, 5] = 2 := by decide
example : ¬ Ascending natLt [3, 1, 2, 7, 2, 1, 5] := by unfold Ascending; decide
/-- Nothing is found of a value that was not there. -/
example : ¬ ∃ y ∈ [3, 1, 2, 7, 2, 1, 5], equiv natLt y 4 = true := by decide
example : ∃ out, sort natLt [3, 1, 2, 7, 2, 1, 5] = .ok out ∧
    Searchable (viewOf unsortedV) natLt [3, 1, 2, 7, 2, 1, 5] ((viewOf unsortedV).put unsortedH out) :=
  (C89_sort_then_search (viewOf unsortedV) unsortedH unsortedV natLt natLt_strict.toStrictWeak).1

end Verif.Algo
