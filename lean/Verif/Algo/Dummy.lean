import Verif.Algo.Model

/-! # C136: the algorithms on dummy iterators -/

namespace Verif.Algo.Dummies

open Verif.Iter Verif.Algo

variable {S T : Type} [Inhabited T]

/-- The dummy iterator (ds/iter/dummy.go:9-11 `Dummy`). -/
abbrev dummy : Dummy S T := ⟨⟩

/-- **C136.** Two dummy iterators delimit an empty range: every algorithm on them returns without changing memory, whatever
it is asked to write. -/
theorem C136_dummy (s : S) (comp : T → T → Bool) (value : T) (count : Int) (fuel : Nat) :
    upperBound comp (dummy : Dummy S T) dummy value s = (.ok dummy, s) ∧
    lowerBound comp (dummy : Dummy S T) dummy value s = (.ok dummy, s) ∧
    isSortedUntil (fuel + 1) comp (dummy : Dummy S T) dummy s = (.ok dummy, s) ∧
    isSorted (fuel + 1) comp (dummy : Dummy S T) dummy s = (.ok true, s) ∧
    swap (dummy : Dummy S T) dummy s = (.ok (), s) ∧
    reverse (fuel + 1) (dummy : Dummy S T) dummy s = (.ok (), s) ∧
    nextPermutation (fuel + 1) comp (dummy : Dummy S T) dummy s = (.ok false, s) ∧
    fillN (dummy : Dummy S T) count value s = (.ok dummy, s) ∧
    collect (dummy : Dummy S T) (fuel + 1) dummy s = (.ok [], s) ∧
    distance (dummy : Dummy S T) dummy = .ok 0 ∧
    rangeDistance (⟨dummy, dummy⟩ : Range (Dummy S T)) = 0 ∧
    (∀ a b, subRange (⟨dummy, dummy⟩ : Range (Dummy S T)) a b = .ok ⟨dummy, dummy⟩) := by
  have hd : distance (dummy : Dummy S T) dummy = .ok 0 := rfl
  refine ⟨?_, ?_, rfl, rfl, rfl, rfl, rfl, ?_, rfl, hd, rfl, fun _ _ => rfl⟩
  · unfold upperBound
    rw [St.bind_lift hd]
    unfold upperBoundLoop
    rfl
  · unfold lowerBound
    rw [St.bind_lift hd]
    unfold lowerBoundLoop
    rfl
  · unfold fillN
    generalize count.toNat = n
    induction n with
    | zero => rfl
    | succ n ih => exact ih

/-- A step of a program that uses a random iterator. -/
inductive Move (T : Type) where
  | next | prev | add (n : Int) | set (v : T)

/-- Moves and writes with an iterator, then reads it and asks for its position and whether it is where it was. -/
def walk {It : Type} [RandIter S T It] (start : It) : It → List (Move T) → St S (T × Int × Bool)
  | it, [] => do
    let x ← Iter.get it
    let e ← St.lift (Iter.equal it start)
    pure (x, RandIter.pos it, e)
  | it, .next :: l => do
    let i ← St.lift (Iter.next it)
    walk start i l
  | it, .prev :: l => do
    let i ← St.lift (RandIter.prev it)
    walk start i l
  | it, .add n :: l => do
    let i ← St.lift (RandIter.add it n)
    walk start i l
  | it, .set v :: l => do
    Iter.set it v
    walk start it l

/-- **C136.** However a dummy iterator is moved and written to, it stays where it is, at position 0, reads the zero value
and leaves memory alone. -/
theorem C136_walk (s : S) (l : List (Move T)) :
    walk (dummy : Dummy S T) dummy l s = (.ok (default, 0, true), s) := by
  induction l with
  | nil => rfl
  | cons m l ih => cases m <;> exact ih

example : fillN (dummy : Dummy Nat Nat) 3 7 5 = (.ok dummy, 5) := rfl

end Verif.Algo.Dummies
