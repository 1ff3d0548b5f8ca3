import Verif.Stream.Fails
import Verif.Slice.Props

/-!
# C99: streams over iterators that panic
-/

namespace Verif.Stream

open Iter (equal get)

/-- `OfIterators`, `OfRange` (stream/source.go:129-137) for random-access iterators: the two iterators are
compared once, so that a mismatch shows at once. -/
def ofIterators (E : Type) {T M It : Type} [Iter.RandIter M T It] (m : M) (first last : It) :
    Go (Stream (randSource (T := T) E m last)) :=
  match equal first last with
  | .error e => .error e
  | .ok _ => .ok (new (randSource E m last) first)

/-- The same for other iterators. -/
def ofForward (E : Type) {T M It : Type} [Iter.Iter M T It] (m : M) (first last : It) :
    Go (Stream (fwdSource (T := T) E m last)) :=
  match equal first last with
  | .error e => .error e
  | .ok _ => .ok (new (fwdSource E m last) first)

section
variable {T M It : Type} [Iter.Iter M T It]

/-- Going from `cur` towards `last` one meets the elements `xs` and comes to `cur'`. -/
inductive Walks (m : M) (last : It) : It → List T → It → Prop
  | nil (cur : It) : Walks m last cur [] cur
  | cons {cur cur' cur'' : It} {x : T} {m' : M} {xs : List T} : equal cur last = .ok false → get cur m = (.ok x, m') →
      Iter.next cur = .ok cur' → Walks m last cur' xs cur'' → Walks m last cur (x :: xs) cur''

/-- At `cur` one of the iterator's methods panics with `e`, in the order in which they are called. -/
def Stuck (m : M) (last cur : It) (e : String) : Prop :=
  equal cur last = .error e ∨
  equal cur last = .ok false ∧ ((∃ m', get cur m = (.error e, m')) ∨
    (∃ x m', get cur m = (.ok x, m')) ∧ Iter.next cur = .error e)

theorem walks_fwd {E : Type} {m : M} {last cur cur' : It} {xs : List T} (h : Walks m last cur xs cur') :
    SourceReads (fwdSource E m last) cur xs cur' := by
  induction h with
  | nil => exact .nil _
  | cons h1 h2 h3 _ ih => exact .cons (l := []) (by simp [fwdSource, fwdNext, h1, h2, h3]) ih

theorem stuck_fwd {E : Type} {m : M} {last cur : It} {e : String} (h : Stuck m last cur e) :
    Fails (some e) ((fwdSource E m last).next cur) := by
  rcases h with h | ⟨h, ⟨m', h2⟩ | ⟨⟨x, m', h2⟩, h3⟩⟩
  · simp [Fails, fwdSource, fwdNext, h]
  · simp [Fails, fwdSource, fwdNext, h, h2]
  · simp [Fails, fwdSource, fwdNext, h, h2, h3]
end

section
variable {T M It : Type} [Iter.RandIter M T It]

theorem walks_rand {E : Type} {m : M} {last cur cur' : It} {xs : List T} (h : Walks m last cur xs cur') :
    SourceReads (randSource E m last) cur xs cur' := by
  induction h with
  | nil => exact .nil _
  | cons h1 h2 h3 _ ih => exact .cons (l := []) (by simp [randSource, h1, h2, h3]) ih

theorem stuck_rand {E : Type} {m : M} {last cur : It} {e : String} (h : Stuck m last cur e) :
    Fails (some e) ((randSource E m last).next cur) := by
  rcases h with h | ⟨h, ⟨m', h2⟩ | ⟨⟨x, m', h2⟩, h3⟩⟩
  · simp [Fails, randSource, h]
  · simp [Fails, randSource, h, h2]
  · simp [Fails, randSource, h, h2, h3]
end

/-- **C99.** `OfIterators` and `OfRange` panic if comparing the two iterators does. Otherwise, if going from the
first iterator one meets `xs` and then a method of the iterator panics, a chain of `Map`, `Filter` and `Peek`
gives what the chain makes of `xs` and then panics with the iterator's panic. -/
theorem C99_forward {E T M It : Type} [Iter.Iter M T It] (m : M) (first last : It) :
    (∀ e, equal first last = .error e → ofForward (T := T) E m first last = .error e) ∧
    ∀ (b : Bool), equal first last = .ok b → ∃ s, ofForward (T := T) E m first last = .ok s ∧
      ∀ (xs : List T) (cur : It) (e : String), Walks m last first xs cur → Stuck m last cur e →
      ∀ cs : List (Call T E), (∀ c ∈ cs, c.simple) →
        ∃ s₁ s₂, s.chain cs = .ok s₁ ∧ Reads s₁ (listChain cs xs) s₂ ∧ Fails (some e) s₂.next := by
  refine ⟨fun e h => by simp [ofForward, h], fun b h => ⟨_, by simp [ofForward, h]; rfl, ?_⟩⟩
  intro xs cur e hw hs cs hc
  exact C92_chain_fails _ _ _ _ (walks_fwd hw) (stuck_fwd hs) cs hc

/-- **C99** for random-access iterators. -/
theorem C99_random {E T M It : Type} [Iter.RandIter M T It] (m : M) (first last : It) :
    (∀ e, equal first last = .error e → ofIterators (T := T) E m first last = .error e) ∧
    ∀ (b : Bool), equal first last = .ok b → ∃ s, ofIterators (T := T) E m first last = .ok s ∧
      ∀ (xs : List T) (cur : It) (e : String), Walks m last first xs cur → Stuck m last cur e →
      ∀ cs : List (Call T E), (∀ c ∈ cs, c.simple) →
        ∃ s₁ s₂, s.chain cs = .ok s₁ ∧ Reads s₁ (listChain cs xs) s₂ ∧ Fails (some e) s₂.next := by
  refine ⟨fun e h => by simp [ofIterators, h], fun b h => ⟨_, by simp [ofIterators, h]; rfl, ?_⟩⟩
  intro xs cur e hw hs cs hc
  exact C92_chain_fails _ _ _ _ (walks_rand hw) (stuck_rand hs) cs hc

/-- The slice of C16's examples, read from position 1 towards position 0: `12` and `13` come out, doubled, and then
the iterator's `Get` panics. -/
example : ∃ s s₁ s₂, ofIterators (T := Nat) Unit Slice.exHeap (⟨1, Slice.exSlice⟩ : Slice.SIter Nat) ⟨0, Slice.exSlice⟩
      = .ok s ∧ s.chain [.map (· * 2)] = .ok s₁ ∧ Reads s₁ [24, 26] s₂ ∧ Fails (some "index out of range") s₂.next := by
  obtain ⟨s, h1, h2⟩ := (C99_random (E := Unit) (T := Nat) Slice.exHeap (⟨1, Slice.exSlice⟩ : Slice.SIter Nat)
    ⟨0, Slice.exSlice⟩).2 false (by decide)
  obtain ⟨s₁, s₂, h3, h4, h5⟩ := h2 [12, 13] ⟨3, Slice.exSlice⟩ "index out of range"
    (.cons (cur' := ⟨2, Slice.exSlice⟩) (m' := Slice.exHeap) (by decide) (by decide) (by decide)
      (.cons (m' := Slice.exHeap) (by decide) (by decide) (by decide) (.nil _)))
    (.inr ⟨by decide, .inl ⟨Slice.exHeap, by decide⟩⟩) [.map (· * 2)] (by simp [Call.simple])
  exact ⟨s, s₁, s₂, h1, h3, h4, h5⟩

/-- Iterators of two slices. -/
example : ∃ e, ofIterators (T := Nat) Unit Slice.exHeap (⟨1, Slice.exSlice⟩ : Slice.SIter Nat) ⟨0, ⟨.arr 1 0, 1, 1⟩⟩
    = .error e :=
  ⟨_, (C99_random (E := Unit) (T := Nat) Slice.exHeap _ _).1 "compare iterator of different slices" (by decide)⟩

end Verif.Stream
