import Verif.Algo.Props

/-!
# C84: iterators and ranges of a slice

`IteratorAt`, `Begin`, `End`, `Range`, `SubRange` (ds/xslice/slice.go:103-136) and `iter.SubRange`,
`iter.RangeDistance` (ds/iter/range.go:16-22).
-/

namespace Verif.Algo

open Verif.Iter Verif.Slice

variable {T : Type} [Inhabited T]

omit [Inhabited T] in
/-- C84: `IteratorAt(pos)` gives the iterator at `pos` if `0 ≤ pos ≤ len` and panics otherwise, for every
integer; `Begin` and `End` are the two extremes. -/
theorem C84_iteratorAt {h : Heap T} {s : Slice} (hv : Valid h s) (pos : Int) :
    (0 ≤ pos ∧ pos ≤ s.len → (iteratorAt s pos : Go (SIter T)) = .ok ⟨pos, s⟩ ∧
      InRange (⟨pos, s⟩ : SIter T)) ∧
    (¬ (0 ≤ pos ∧ pos ≤ s.len) → ∃ msg, (iteratorAt s pos : Go (SIter T)) = .error msg) ∧
    (iteratorAt s 0 : Go (SIter T)) = .ok (begin_ s) ∧
    (iteratorAt s s.len : Go (SIter T)) = .ok (end_ s) := by
  have h1 := hv.1
  have h2 := hv.2.1
  refine ⟨fun hp => ⟨?_, hp.1, hp.2, ?_⟩, fun hp => ⟨"out of bound", ?_⟩, ?_, ?_⟩
  · unfold iteratorAt; rw [if_neg (by omega)]
  · show (s.len : Int) < _; omega
  · unfold iteratorAt; rw [if_pos (by omega)]
  · unfold iteratorAt; rw [if_neg (by omega)]; rfl
  · unfold iteratorAt; rw [if_neg (by omega)]; rfl

/-- C84: walking `Range()` gives the elements of the slice in order and changes nothing. -/
theorem C84_range {h : Heap T} {s : Slice} (hv : Valid h s) (fuel : Nat) (hf : s.len < fuel) :
    collect (Slice.range s : Range (SIter T)).last fuel (Slice.range s : Range (SIter T)).first h =
      (.ok (contents h s), h) := by
  have hL := length_contents hv
  have := collect_spec (viewOf hv) (s := h) hv (j := s.len) (Nat.le_refl _) fuel 0 (by omega) (by omega)
  refine this.trans ?_
  show (Except.ok (((contents h s).drop 0).take (s.len - 0)), h) = _
  rw [List.drop_zero, List.take_of_length_le (by omega)]

/-- C84: `SubRange(first, last)` panics exactly if one of the ends is outside `[0, len]`. Walking it gives the
elements `first … last-1` in order, and `RangeDistance` is `last - first`. -/
theorem C84_subRange {h : Heap T} {s : Slice} (hv : Valid h s) (first last : Int) :
    (∀ i j : Nat, first = i → last = j → i ≤ s.len → j ≤ s.len →
      ∃ r : Range (SIter T), Slice.subRange s first last = .ok r ∧ rangeDistance r = last - first ∧
        (i ≤ j → ∀ fuel, j - i < fuel → collect r.last fuel r.first h =
          (.ok (((contents h s).drop i).take (j - i)), h))) ∧
    (¬ (0 ≤ first ∧ first ≤ s.len ∧ 0 ≤ last ∧ last ≤ s.len) →
      ∃ msg, (Slice.subRange s first last : Go (Range (SIter T))) = .error msg) := by
  have h1 := hv.1
  have h2 := hv.2.1
  constructor
  · rintro i j rfl rfl hi hj
    refine ⟨⟨⟨i, s⟩, ⟨j, s⟩⟩, ?_, ?_, ?_⟩
    · unfold Slice.subRange
      rw [((C84_iteratorAt hv i).1 (by omega)).1, ((C84_iteratorAt hv j).1 (by omega)).1]
      rfl
    · show wrap64 ((j : Int) - i) = _
      rw [wrap64_id (by unfold isInt64; omega)]
    · intro hij fuel hf
      exact collect_spec (viewOf hv) (s := h) hv (j := j) hj fuel i hij (by omega)
  · intro hn
    unfold Slice.subRange
    by_cases hi : 0 ≤ first ∧ first ≤ s.len
    · rw [((C84_iteratorAt hv first).1 hi).1]
      obtain ⟨msg, e⟩ := (C84_iteratorAt (T := T) hv last).2.1 (by omega)
      exact ⟨msg, by rw [e]; rfl⟩
    · obtain ⟨msg, e⟩ := (C84_iteratorAt (T := T) hv first).2.1 hi
      exact ⟨msg, by rw [e]; rfl⟩

/-- C84: a sub-range whose ends are exchanged is accepted by `SubRange`, but it cannot be walked: the walk
runs to the end of the slice and panics there. -/
theorem C84_exchanged {h : Heap T} {s : Slice} (hv : Valid h s) (j : Nat) :
    ∀ (fuel i : Nat), j < i → i ≤ s.len → ∃ msg,
      collect (⟨j, s⟩ : SIter T) fuel ⟨i, s⟩ h = (.error msg, h) := by
  have hL := length_contents hv
  intro fuel
  induction fuel with
  | zero => intro i _ _; exact ⟨_, rfl⟩
  | succ fuel ih =>
    intro i hji hi
    unfold collect
    have hne : equal (⟨i, s⟩ : SIter T) ⟨j, s⟩ = .ok false := by
      have := (viewOf hv).equal_pt i j hi (by show j ≤ s.len; omega)
      rw [decide_eq_false (by omega)] at this
      exact this
    rw [St.bind_lift hne, if_neg (by simp)]
    rcases Nat.lt_or_ge i s.len with hlt | hge
    · obtain ⟨y, hy⟩ : ∃ y, (contents h s)[i]? = some y := ⟨_, List.getElem?_eq_getElem (by omega)⟩
      have hget : get (⟨i, s⟩ : SIter T) h = (.ok y, h) := load_ok hy
      have hnext : next (⟨i, s⟩ : SIter T) = .ok ⟨((i + 1 : Nat) : Int), s⟩ := (viewOf hv).next_pt i hlt
      obtain ⟨msg, e⟩ := ih (i + 1) (by omega) hlt
      refine ⟨msg, ?_⟩
      rw [St.bind_ok hget, St.bind_lift hnext]
      exact St.bind_error e _
    · have : get (⟨i, s⟩ : SIter T) h = (.error "index out of range", h) := by
        show load s i h = _
        unfold load
        rw [if_pos (by omega), List.getElem?_eq_none (by rw [Int.toNat_natCast]; omega)]
      exact ⟨_, by rw [St.bind_error this]⟩

omit [Inhabited T] in
/-- C84 for `iter.SubRange`, on the range `[a, b)` of any sequence: offsets are relative to its beginning. -/
theorem C84_iterSubRange {S It : Type} [RandIter S T It] (v : View S T It) (m : S) (hm : v.ok m)
    {a b i j : Nat} (hab : a ≤ b) (hij : i ≤ j) (hj : a + j ≤ v.n) (hb : b ≤ v.n) :
    ∃ r : Range It, Iter.subRange ⟨v.pt a, v.pt b⟩ (i : Int) (j : Int) = .ok r ∧
      rangeDistance r = (j : Int) - i ∧
      ∀ fuel, j - i < fuel → collect r.last fuel r.first m =
        (.ok (((v.elems m).drop (a + i)).take (j - i)), m) := by
  have hN := v.hn
  refine ⟨⟨v.pt (a + i), v.pt (a + j)⟩, ?_, ?_, ?_⟩
  · unfold Iter.subRange
    have hi := v.add_pt a (a + i) (by omega) (by omega)
    have hj' := v.add_pt a (a + j) (by omega) (by omega)
    rw [show (((a + i : Nat) : Int) - (a : Int)) = i by omega] at hi
    rw [show (((a + j : Nat) : Int) - (a : Int)) = j by omega] at hj'
    rw [hi, hj']
    rfl
  · unfold rangeDistance
    rw [v.pos_pt _ _ (by omega) (by omega), wrap64_id (by unfold isInt64; omega)]
    omega
  · intro fuel hf
    have := collect_spec v (s := m) hm (j := a + j) hj fuel (a + i) (by omega) (by omega)
    rwa [show a + j - (a + i) = j - i by omega] at this

example : (match (Slice.subRange exS 1 4 : Go (Range (SIter Nat))) with
    | .ok r => collect r.last 9 r.first exH | .error e => (.error e, exH)) = (.ok [1, 2, 2], exH) := by
  decide +kernel
example : (Slice.subRange exS 4 8 : Go (Range (SIter Nat))) = .error "out of bound" := by rfl
example : (match (Slice.subRange exS 4 1 : Go (Range (SIter Nat))) with
    | .ok r => (collect r.last 9 r.first exH).1 | .error e => .error e) = .error "index out of range" := by
  decide +kernel

end Verif.Algo
