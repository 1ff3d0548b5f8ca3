import Verif.Iter.State

/-!
# Test programs

The files in this directory replay tests of the repository, with their literal data, on the models. They are tests of the
models, not proofs of properties: a model that answered otherwise than the Go code is expected to would be noticed here.
-/

namespace Verif.Conformance

variable {S α : Type}

/-- `assert.True`. -/
def check (b : Bool) : St S Unit := if b then pure () else St.panic "assertion failed"

/-- `assert.Equal`. -/
def same [BEq α] (want got : α) : St S Unit := check (want == got)

/-- `assert.Panics`: the memory is as the panicking call has left it. -/
def panics (m : St S α) : St S Unit := fun s =>
  match m s with
  | (.ok _, s') => (.error "did not panic", s')
  | (.error _, s') => (.ok (), s')

/-- `assert.PanicsWithValue`. -/
def panicsWith (msg : String) (m : St S α) : St S Unit := fun s =>
  match m s with
  | (.ok _, s') => (.error "did not panic", s')
  | (.error e, s') => if e = msg then (.ok (), s') else (.error "other panic", s')

/-- The test passes, beginning with memory `s`. -/
def passes (s : S) (m : St S Unit) : Bool := match (m s).1 with
  | .ok _ => true
  | .error _ => false

/-- The memory. -/
def now : St S S := fun s => (.ok s, s)

end Verif.Conformance
