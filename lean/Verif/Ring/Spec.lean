import Verif.Ring.Model

/-!
# Specification of a double-ended queue: a plain list

`specStep` says what each call means on a list, with no reference to the ring's representation.
-/

namespace Verif.Ring

variable {T : Type}

/-- What each method means on a plain list. -/
def specStep (l : List T) : Op T → List T × Out T
  | .append v => (l ++ [v], .unit)
  | .push v => (l ++ [v], .unit)
  | .prepend v => (v :: l, .unit)
  | .pop => match l with | [] => ([], .panic) | v :: t => (t, .val v)
  | .deleteFirst => match l with | [] => ([], .panic) | _ :: t => (t, .unit)
  | .deleteLast => if l = [] then (l, .panic) else (l.dropLast, .unit)
  | .set i v => if 0 ≤ i ∧ i < l.length then (l.set i.toNat v, .unit) else (l, .panic)
  | .at i => if 0 ≤ i then match l[i.toNat]? with | some v => (l, .val v) | none => (l, .panic)
             else (l, .panic)
  | .first => match l with | [] => ([], .panic) | v :: t => (v :: t, .val v)
  | .last => match l.getLast? with | some v => (l, .val v) | none => (l, .panic)
  | .len => (l, .num l.length)
  | .isEmpty => (l, .bool l.isEmpty)
  | .toSlice => (l, .slice (if l = [] then none else some l))

/-- A sequence of calls on a list. -/
def specRun (l : List T) : List (Op T) → List T × List (Out T)
  | [] => (l, [])
  | o :: os =>
    let (l₁, out) := specStep l o
    let (l₂, outs) := specRun l₁ os
    (l₂, out :: outs)

/-- The ways a caller can obtain a ring, with the list it starts as. -/
inductive Made [Inhabited T] : Ring T → List T → Prop
  | new : Made new []
  | newLen (n : Nat) : Made (newLen n) (List.replicate n default)
  | newLenCap (n c : Nat) (r : Ring T) : newLenCap n c = .ok r → Made r (List.replicate n default)
  | ofSlice (l : List T) : Made (ofSlice l) l
  | copy (l : List T) : Made (copy l) l

end Verif.Ring
