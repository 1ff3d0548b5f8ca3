import Verif.Stream.Str
import Verif.Xfn.Model
import Verif.Xfn.Arith
import Verif.Slice.Model

/-!
# Tests of `stream` and of `xfn` on streams

The loops of the model are least fixed points, which the kernel does not run. They are run here with a bound on the number
of rounds; a run that ends within the bound is a run of the loop.
-/

namespace Verif.Conformance.Stream

open Verif.Stream

variable {T E A : Type} {S : Source T E}

/-- What the source's `Next` gives, or nothing if that takes too long. -/
abbrev Approx (S : Source T E) := { nx : S.σ → Option (Go (Step T S.σ E)) // ∀ q {r}, nx q = some r → S.next q = some r }

/-- A source without a loop of its own. -/
def exact (S : Source T E) : Approx S := ⟨S.next, fun _ _ h => h⟩

/-- At most `k` rounds of the loop of `Next`. -/
def loopN (X : Approx S) : Nat → List (Op T E) → S.σ → Option (Go (Option T × Option (S.σ × List (Op T E)) × List E))
  | 0, _, _ => none
  | k + 1, ops, s =>
    match X.1 s with
    | none => none
    | some (.error e) => some (.error e)
    | some (.ok ⟨none, _, l⟩) => some (.ok (none, none, l))
    | some (.ok ⟨some v, s', l⟩) =>
      match runOps ops v with
      | .pass v ops' l' => some (.ok (some v, some (s', ops'), l ++ l'))
      | .stop l' => some (.ok (none, none, l ++ l'))
      | .drop ops' l' =>
        match loopN X k ops' s' with
        | none => none
        | some (.error e) => some (.error e)
        | some (.ok (r, st, l'')) => some (.ok (r, st, l ++ l' ++ l''))

theorem loopN_sound (X : Approx S) (k : Nat) : ∀ (ops : List (Op T E)) (s : S.σ) {r}, loopN X k ops s = some r → loop S ops s = some r := by
  induction k with
  | zero => intro ops s r h; cases h
  | succ k ih =>
    intro ops s r h
    rw [loop]
    unfold loopN at h
    cases hn : X.1 s with
    | none => rw [hn] at h; cases h
    | some x =>
      rw [X.2 s hn]
      rw [hn] at h
      rcases x with e | ⟨v, s', l⟩
      · exact h
      · cases v with
        | none => exact h
        | some v =>
          simp only [Option.bind_eq_bind, Option.bind_some] at h ⊢
          cases hr : runOps ops v with
          | pass => rw [hr] at h; exact h
          | stop => rw [hr] at h; exact h
          | drop ops' l' =>
            rw [hr] at h
            simp only at h ⊢
            cases hk : loopN X k ops' s' with
            | none => rw [hk] at h; cases h
            | some y => rw [ih _ _ hk]; rw [hk] at h; rcases y with e | ⟨r', st, l''⟩ <;> exact h

/-- `Next` with at most `k` rounds. -/
def nextN (X : Approx S) (k : Nat) (s : Stream S) : Option (Go (Step T (Stream S) E)) :=
  match s.src with
  | none => some (.ok ⟨none, s.clear, []⟩)
  | some q =>
    match loopN X k s.ops q with
    | none => none
    | some (.error e) => some (.error e)
    | some (.ok (v, none, l)) => some (.ok ⟨v, s.clear, l⟩)
    | some (.ok (v, some (q', ops'), l)) => some (.ok ⟨v, ⟨some q', ops', s.hasPred⟩, l⟩)

theorem nextN_sound (X : Approx S) {k : Nat} {s : Stream S} {r} (h : nextN X k s = some r) : s.next = some r := by
  unfold Stream.next
  unfold nextN at h
  cases hs : s.src with
  | none => rw [hs] at h; exact h
  | some q =>
    rw [hs] at h
    simp only at h ⊢
    cases hl : loopN X k s.ops q with
    | none => rw [hl] at h; cases h
    | some y =>
      rw [loopN_sound X k _ _ hl]; rw [hl] at h
      rcases y with e | ⟨v, _ | ⟨q', ops'⟩, l⟩ <;> exact h

/-- `Reduce` over at most `k` elements. -/
def reduceN (X : Approx S) (acc : A → T → A) : Nat → A → Stream S → Option (Go (Fin A S))
  | 0, _, _ => none
  | k + 1, r, s =>
    match nextN X (k + 1) s with
    | none => none
    | some (.error e) => some (.error e)
    | some (.ok ⟨none, s', l⟩) => some (.ok ⟨r, s', l⟩)
    | some (.ok ⟨some v, s', l⟩) =>
      match reduceN X acc k (acc r v) s' with
      | none => none
      | some (.error e) => some (.error e)
      | some (.ok ⟨r', s'', l'⟩) => some (.ok ⟨r', s'', l ++ l'⟩)

theorem reduceN_sound (X : Approx S) (acc : A → T → A) (k : Nat) : ∀ (r : A) (s : Stream S) {x}, reduceN X acc k r s = some x →
    s.reduce acc r = some x := by
  induction k with
  | zero => intro r s x h; cases h
  | succ k ih =>
    intro r s x h
    rw [Stream.reduce]
    unfold reduceN at h
    cases hn : nextN X (k + 1) s with
    | none => rw [hn] at h; cases h
    | some y =>
      rw [nextN_sound X hn]
      rw [hn] at h
      rcases y with e | ⟨v, s', l⟩
      · exact h
      · cases v with
        | none => exact h
        | some v =>
          simp only [Option.bind_eq_bind, Option.bind_some] at h ⊢
          cases hk : reduceN X acc k (acc r v) s' with
          | none => rw [hk] at h; cases h
          | some z => rw [ih _ _ hk]; rw [hk] at h; rcases z with e | ⟨r', s'', l'⟩ <;> exact h

/-- The result of a terminal operation and the events, without the stream that is left. -/
def seen : Option (Go (Fin A S)) → Option (Go (A × List E))
  | none => none
  | some (.error e) => some (.error e)
  | some (.ok r) => some (.ok (r.res, r.log))

/-- An evaluation within a bound is an evaluation. -/
theorem seen_reduce (X : Approx S) (k : Nat) {acc : A → T → A} {r : A} {s : Stream S} {x : Go (A × List E)}
    (h : seen (reduceN X acc k r s) = some x) : seen (s.reduce acc r) = some x := by
  cases hk : reduceN X acc k r s with
  | none => rw [hk] at h; cases h
  | some y => rw [reduceN_sound X acc k _ _ hk, ← hk]; exact h

theorem seen_slice (X : Approx S) (k : Nat) {s : Stream S} {x : Go (List T × List E)}
    (h : seen (reduceN X (fun r v => r ++ [v]) k [] s) = some x) : seen s.slice = some x := seen_reduce X k h

/-- The stream that `stream.Map` reads, with at most `k` rounds for each of its elements. -/
def mapped {R : Type} (f : T → R) (X : Approx S) (k : Nat) : Approx (tts S f) :=
  ⟨fun s =>
    match nextN X k s with
    | none => none
    | some (.error e) => some (.error e)
    | some (.ok ⟨none, s', l⟩) => some (.ok ⟨none, s', l⟩)
    | some (.ok ⟨some v, s', l⟩) => some (.ok ⟨some (f v), s', l⟩), by
    intro q r h
    simp only at h
    cases hn : nextN X k q with
    | none => rw [hn] at h; cases h
    | some y =>
      rw [hn] at h
      simp only [tts]
      rw [nextN_sound X hn]
      rcases y with e | ⟨_ | v, s', l⟩ <;> exact h⟩

/-! ## stream/stream_test.go -/

/-- `int`. -/
abbrev I := BitVec 64

/-- The operations, on a stream that may not have come about. -/
def chained (s : Go (Stream S)) (cs : List (Call T E)) : Go (Stream S) := s.bind (·.chain cs)

/-- `Slice`. -/
def sliced (s : Go (Stream S)) : Option (Go (List T × List E)) :=
  match s with
  | .error e => some (.error e)
  | .ok s => seen s.slice

/-- The same within a bound. -/
def slicedN (X : Approx S) (k : Nat) (s : Go (Stream S)) : Option (Go (List T × List E)) :=
  match s with
  | .error e => some (.error e)
  | .ok s => seen (reduceN X (fun r v => r ++ [v]) k [] s)

theorem run (k : Nat) {s : Go (Stream S)} {x : Go (List T × List E)} (h : slicedN (exact S) k s = some x) : sliced s = some x := by
  cases s with
  | error e => exact h
  | ok s => exact seen_slice _ k h

-- TestNew, stream/stream_test.go:28-31
example : seen (⟨none, [], false⟩ : Stream (sliceSource Unit ([] : List Nat))).slice = some (.ok ([], [])) :=
  seen_slice (exact _) 1 rfl
example : sliced (.ok (ofSlice Unit [1, 2, 3])) = some (.ok ([1, 2, 3], [])) := run 4 rfl
-- TestOf, stream/stream_test.go:33-36
example : sliced (.ok (ofSlice Unit ([] : List Nat))) = some (.ok ([], [])) := run 4 rfl

/-- `MockIterator`: the answers of `Next`, in order, and what `SkipNext` may be called with and returns; any other call is
a panic. The state is what is still expected. -/
def mock (E : Type) : Source Int E where
  σ := List (Option Int) × List (Int × Int)
  next s :=
    match s.1 with
    | [] => some (.error "mock: unexpected call of Next")
    | x :: l => some (.ok ⟨x, (l, s.2), []⟩)
  skip n s :=
    match s.2 with
    | [] => .error "mock: unexpected call of SkipNext"
    | (k, r) :: l => if n = k then .ok (r, (s.1, l)) else .error "mock: other argument"

-- TestStream_Source, stream/stream_test.go:38-87. Every expected call is made (`AssertExpectations`): with the last of them
-- left out, the mock panics.
example : sliced (.ok (new (mock Unit) ([some 1, some 2, none], []))) = some (.ok ([1, 2], [])) := run 4 rfl
example : sliced (.ok (new (mock Unit) ([some 1, some 2], []))) = some (.error "mock: unexpected call of Next") := run 4 rfl
example : sliced (.ok (new (mock Unit) ([none], []))) = some (.ok ([], [])) := run 4 rfl
example : sliced (.ok (new (mock Unit) ([], []))) = some (.error "mock: unexpected call of Next") := run 4 rfl
example : sliced (chained (.ok (new (mock Unit) ([some 1, none], [(5, -1)]))) [.skip 5]) = some (.ok ([1], [])) := run 4 rfl
example : sliced (chained (.ok (new (mock Unit) ([some 1], [(5, -1)]))) [.skip 5]) =
    some (.error "mock: unexpected call of Next") := run 4 rfl
example : sliced (chained (.ok (new (mock Unit) ([some 1, none], []))) [.skip 5]) =
    some (.error "mock: unexpected call of SkipNext") := run 4 rfl

-- "NoSkip": the predicates of the model have no effects, so a `Peek` in front of each counts.
example : sliced (chained (.ok (new (mock Bool) ([some 1, some 2, some 3, none], [])))
    [.peek fun _ => [true], .filter fun _ => true, .skip 1, .peek fun _ => [false], .filter fun _ => true]) =
    some (.ok ([2, 3], [true, true, false, true, false])) := run 5 rfl

-- TestStream_Map, stream/stream_test.go:89-110
example : sliced (chained (range Unit true (0 : I) 9 3) [.map fun x => x * x]) = some (.ok ([0, 9, 36, 81], [])) :=
  run 5 (by decide +kernel)
example : sliced (chained (range Unit true (0 : I) 50 3) [.map fun x => x * x, .filter fun x => x.smod 2 == 1,
    .map fun x => x - 1, .map fun x => x.sdiv 2, .skip 1, .limit 2]) = some (.ok ([40, 112], [])) :=
  run 20 (by decide +kernel)

-- TestStream_Peek, stream/stream_test.go:112-126: `a.Append` and `r.Append` as events
example : sliced (chained (range (Bool × I) true (0 : I) 9 3) [.peek fun x => [(false, x)], .map fun x => x * x,
    .peek fun x => [(true, x)]]) =
    some (.ok ([0, 9, 36, 81], [(false, 0), (true, 0), (false, 3), (true, 9), (false, 6), (true, 36), (false, 9), (true, 81)])) :=
  run 5 (by decide +kernel)

-- TestStream_String, stream/stream_test.go:128-132
example : ∃ s' l, (ofSlice Unit [1, 2, 3]).string "int" (toString : Nat → String) =
    some (.ok ⟨"Stream[int]{1, 2, 3}", s', l⟩) := by
  unfold Stream.string
  rw [reduceN_sound (exact _) _ 4 _ _ (x := .ok ⟨(false, "Stream[int]{1, 2, 3"), ⟨none, [], false⟩, []⟩) (by rfl)]
  exact ⟨_, _, rfl⟩

-- TestMap, stream/stream_test.go:134-139
example : seen (mapTo (new (intSource Unit true (9 : I) 3 false) (0 : I)) fun x : I => toString x.toInt).slice =
    some (.ok (["0", "3", "6", "9"], [])) := seen_slice (mapped _ (exact _) 1) 5 (by decide +kernel)

/-! ## stream/source_test.go -/

-- TestGenerate, stream/source_test.go:13-32, with a generator of small numbers in place of `math/rand`
/-- A linear congruence. -/
def lcg (x : Nat) : Nat × Nat := (x, (x * 5 + 3) % 64)
example : sliced (chained (.ok (new (generator Unit lcg) (1 : Nat))) [.skip 5, .limit 10]) =
    some (.ok (((List.range 10).map fun i => (lcg (callN lcg (5 + i) 1)).1), [])) := run 12 (by decide +kernel)

-- TestOfRange, stream/source_test.go:34-45
/-- `xslice.Of(0, 1, 2, 3, 4)`. -/
def five : Slice.Slice := ⟨.arr 0 0, 5, 5⟩
/-- `OfRange`. -/
def ofRange (h : Slice.Heap Int) (r : Iter.Range (Slice.SIter Int)) : Stream (randSource (T := Int) Unit h r.last) :=
  new _ r.first
example : sliced (chained (.ok (ofRange [[0, 1, 2, 3, 4]] (Slice.range five))) [.skip 3, .map fun i => i * 2]) =
    some (.ok ([6, 8], [])) := run 4 (by decide +kernel)
example : sliced (chained (.ok (ofRange [[0, 1, 2, 3, 4]] (Slice.range five))) [.skip 10]) =
    some (.ok ([], [])) := run 4 (by decide +kernel)

/-! ## xfn/arthmetic_test.go, xfn/predicate_test.go -/

-- TestPlus, TestPlus2
example : sliced (chained (rangeN Unit true (3 : I)) [.map (Xfn.Plus (Xfn.signed 64) 1), .map (Xfn.Mult (Xfn.signed 64) 2)]) =
    some (.ok ([2, 4, 6], [])) := run 5 (by decide +kernel)
example : seen (Stream.reduce (Xfn.PlusOp (Xfn.signed 64)) 0 (((new (intSource Unit true (2 : I) 1 false) (0 : I)).map
    (Xfn.Plus (Xfn.signed 64) 1)).map (Xfn.Mult (Xfn.signed 64) 2))) = some (.ok (12, [])) :=
  seen_reduce (exact _) 5 (by decide +kernel)

/-- A predicate that does not panic, as the argument of `Filter`. -/
def keep (p : Xfn.Predicate I) : I → Bool := fun x => match p x with | .ok b => b | .error _ => false

-- TestEq, TestEqAny
example : sliced (chained (rangeN Unit true (4 : I)) [.filter (keep (Xfn.isEq (Xfn.signedOps 64) 2))]) =
    some (.ok ([2], [])) := run 6 (by decide +kernel)
example : sliced (chained (rangeN Unit true (4 : I)) [.filter (keep (Xfn.isEq (Xfn.signedOps 64) 2).neg)]) =
    some (.ok ([0, 1, 3], [])) := run 6 (by decide +kernel)
example : sliced (chained (rangeN Unit true (4 : I)) [.filter (keep (Xfn.isEqAny (Xfn.signedOps 64) [-1, 2, 1]))]) =
    some (.ok ([1, 2], [])) := run 6 (by decide +kernel)

end Verif.Conformance.Stream
