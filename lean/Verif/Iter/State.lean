import Verif.Base

/-! # Programs with a mutable state that survives a panic -/

namespace Verif

/-- A Go call on memory `S`: a value or a panic, and the memory afterwards (also after a panic). -/
def St (S α : Type) := S → Go α × S

namespace St

variable {S α β : Type}

instance : Monad (St S) where
  pure a := fun s => (.ok a, s)
  bind m f := fun s =>
    match m s with
    | (.ok a, s') => f a s'
    | (.error e, s') => (.error e, s')

/-- A panic. -/
def panic (msg : String) : St S α := fun s => (.error msg, s)

/-- A call that touches no memory. -/
def lift (g : Go α) : St S α := fun s => (g, s)

@[simp] theorem pure_apply (a : α) (s : S) : (pure a : St S α) s = (.ok a, s) := rfl

theorem bind_apply (m : St S α) (f : α → St S β) (s : S) :
    (m >>= f) s = match m s with
      | (.ok a, s') => f a s'
      | (.error e, s') => (.error e, s') := rfl

/-- Running past a call that returns. -/
theorem bind_ok {m : St S α} {s s' : S} {a : α} (h : m s = (.ok a, s')) (f : α → St S β) :
    (m >>= f) s = f a s' := by rw [bind_apply, h]

theorem bind_error {m : St S α} {s s' : S} {e : String} (h : m s = (.error e, s')) (f : α → St S β) :
    (m >>= f) s = (.error e, s') := by rw [bind_apply, h]

theorem lift_ok {g : Go α} {a : α} (h : g = .ok a) (s : S) : (lift g : St S α) s = (.ok a, s) := by
  rw [h]; rfl

theorem bind_lift {g : Go α} {a : α} (h : g = .ok a) (f : α → St S β) (s : S) :
    (lift g >>= f) s = f a s := bind_ok (lift_ok h s) f

end St

/-- 64-bit two's complement wrap-around of an exact integer result: what Go's `int` arithmetic gives. -/
def wrap64 (x : Int) : Int := (x + 9223372036854775808) % 18446744073709551616 - 9223372036854775808

/-- `x` is a Go `int`. -/
def isInt64 (x : Int) : Prop := -9223372036854775808 ≤ x ∧ x < 9223372036854775808

theorem wrap64_id {x : Int} (h : isInt64 x) : wrap64 x = x := by
  unfold wrap64 isInt64 at *; omega

theorem wrap64_isInt64 (x : Int) : isInt64 (wrap64 x) := by
  unfold wrap64 isInt64; omega

example : wrap64 9223372036854775808 = -9223372036854775808 := by decide

end Verif
