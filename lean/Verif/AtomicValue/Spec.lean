import Verif.AtomicValue.Model
import Verif.Conc.Lin

/-!
# What the methods of `atomic.Value` do on a plain variable
-/

namespace Verif.AtomicValue

open Verif.Conc

/-- On a variable holding `x` the call `op` may return `r` and leave `x'`.
`CompareAndSwap` returns true only if `x == old`, and then the variable holds `new`; if `new == old` it may also
be left as it is (which matters only if `==` does not imply equality, as for 0 and -0). It returns false only
if not `x == old`; but if `strict` is false it may return false at any time. -/
def Legal {T : Type} (E : GoEq T) (strict : Bool) (x : T) : Op T → Res T → T → Prop
  | .load, r, x' => r = .val x ∧ x' = x
  | .store v, r, x' => r = .unit ∧ x' = v
  | .swap v, r, x' => r = .val x ∧ x' = v
  | .cas old new, r, x' =>
    (r = .bool true ∧ E.eq x old = true ∧ (x' = new ∨ E.eq new old = true ∧ x' = x)) ∨
    (r = .bool false ∧ x' = x ∧ (strict = true → E.eq x old = false))

/-- The variable. -/
def var {T : Type} [Inhabited T] (E : GoEq T) (strict : Bool) : SeqSpec (Op T) (Res T) := ⟨T, default, Legal E strict⟩

end Verif.AtomicValue
