import Verif.Conformance.Basic
import Verif.Ring.Model

/-! # ds/xring/ring_test.go on the model -/

namespace Verif.Conformance.Ring

open Verif.Ring Verif.Conformance

/-- A method that changes the ring. -/
def do_ (f : Ring Int → Go (Ring Int)) : St (Ring Int) Unit := fun r =>
  match f r with
  | .ok r' => (.ok (), r')
  | .error e => (.error e, r)

/-- A method that does not. -/
def ask {α : Type} (f : Ring Int → Go α) : St (Ring Int) α := fun r => (f r, r)

def app (v : Int) : St (Ring Int) Unit := do_ (append · v)
def pre (v : Int) : St (Ring Int) Unit := do_ (prepend · v)
def slice : St (Ring Int) (Option (List Int)) := ask fun r => (toSlice r none).map (·.1)

/-- TestRing (ds/xring/ring_test.go:11-37). -/
def testRing : St (Ring Int) Unit := do
  panics (do_ deleteLast)
  panics (do_ deleteFirst)
  panics (ask first)
  panics (ask last)
  panics (ask (at_ · 0))
  same none (← slice)
  app 1
  same (some [1]) (← slice)
  app 1
  app 2
  same 2 (← ask last)
  same 1 (← ask first)
  app 3
  app 4
  same (some [1, 1, 2, 3, 4]) (← slice)
  pre 5
  same 5 (← ask first)
  same (some [5, 1, 1, 2, 3, 4]) (← slice)
  same 8 (← ask fun r => .ok (Cap r))
  panics (ask (at_ · (-1)))
  panics (ask (at_ · 6))

example : passes new testRing = true := by decide +kernel

/-- `for i := a; i <= b; i++`. -/
def up (a : Int) : Nat → (Int → St (Ring Int) Unit) → St (Ring Int) Unit
  | 0, _ => pure ()
  | n + 1, f => do
    f a
    up (a + 1) n f

/-- `for i := a; i >= b; i--`, `n` times. -/
def down (a : Int) : Nat → (Int → St (Ring Int) Unit) → St (Ring Int) Unit
  | 0, _ => pure ()
  | n + 1, f => do
    f a
    down (a - 1) n f

def both (i : Int) : St (Ring Int) Unit := do
  same (-i) (← ask first)
  same i (← ask last)
  do_ deleteFirst
  do_ deleteLast

/-- TestRing_Large (ds/xring/ring_test.go:39-75). -/
def testLarge (n : Nat) : St (Ring Int) Unit := do
  up 1 n fun i => do
    app i
    pre (-i)
    same (-i) (← ask (at_ · 0))
    same i (← ask fun r => at_ r (Len r - 1))
  check (decide (n * 2 ≤ (← ask fun r => .ok (Cap r))))
  down n (n - n / 2 + 1) both
  up 1 n fun i => do
    app i
    pre (-i)
  down n n both
  down (n / 2 - 1 : Nat) (n / 2 - 1) both
  same none (← slice)
  check (decide ((← ask fun r => .ok (Cap r)) < 1024))

/-! It is run for every `n` in Conformance/RingLarge.lean. -/

end Verif.Conformance.Ring
