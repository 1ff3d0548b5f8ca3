import Verif.Base

/-!
# `Bind` (xfn/bind.go)

`reflect` is represented by `Refl`: types, values with their types, conversion, and assignability. A function value is
its signature and what it does with its inputs. Panic messages are shortened to their first words.
-/

namespace Verif.Xfn

/-- What is used of package `reflect`. -/
structure Refl where
  Ty : Type
  Val : Type
  [dec : DecidableEq Ty]
  /-- `Value.Type` -/
  typeOf : Val → Ty
  /-- `Value.CanConvert` and `Value.Convert` -/
  conv : Val → Ty → Option Val
  conv_type : ∀ v t w, conv v t = some w → typeOf w = t
  /-- `Type.Elem` of a slice type -/
  elem : Ty → Ty
  /-- `Type.AssignableTo`, and the value after assignment to a variable of the type -/
  assign : Val → Ty → Option Val
  assign_self : ∀ v, assign v (typeOf v) = some v
  /-- a slice with the given type of elements -/
  pack : Ty → List Val → Val

attribute [instance] Refl.dec

/-- A function type; the last input of a variadic function is a slice. -/
structure Sig (R : Refl) where
  ins : List R.Ty
  outs : List R.Ty
  variadic : Bool

/-- The value `src`: nil, not a function, or a function. -/
inductive Src (R : Refl) where
  | nil
  | other
  | func (sig : Sig R) (f : List R.Val → Go (List R.Val))

/-- The type `Dest`. -/
inductive Dest (R : Refl) where
  | other
  | func (sig : Sig R)

/-- An argument of `Bind`: a placeholder, nil, or another value. -/
inductive Arg (R : Refl) where
  | ph (k : Int)
  | nil
  | val (v : R.Val)

variable {R : Refl}

/-- `make([]reflect.Value, srcIn)` and `placeholders`: the values to be passed (a zero `Value` where none is bound), and
from where to where inputs go. -/
structure Bound (R : Refl) where
  values : List (Option R.Val)
  placeholders : List (Nat × Nat)

/-- The loop over the bind arguments (xfn/bind.go:83-107). -/
def argLoop (sIns dIns : List R.Ty) : Nat → List (Arg R) → Bound R → Nat → Go (Bound R × Nat)
  | _, [], b, destIdx => .ok (b, destIdx)
  | i, .ph k :: as, b, destIdx => do
    let destPH := k - 1
    if destPH < 0 ∨ (dIns.length : Int) ≤ destPH then throw "invalid placeholder"
    if (← goGet sIns i) ≠ (← goGet dIns destPH) then throw "type mismatch"
    argLoop sIns dIns (i + 1) as { b with placeholders := b.placeholders ++ [(destPH.toNat, i)] }
      (max destIdx (destPH.toNat + 1))
  | _, .nil :: _, _, _ => .error "call of CanConvert on zero Value"
  | i, .val v :: as, b, destIdx => do
    match R.conv v (← goGet sIns i) with
    | none => throw "type mismatch"
    | some w => argLoop sIns dIns (i + 1) as { b with values := ← goSet b.values i (some w) } destIdx

/-- The loop over the remaining inputs of `src` (xfn/bind.go:122-130), `n` of them. -/
def restLoop (sIns dIns : List R.Ty) : Nat → Nat → Nat → List (Nat × Nat) → Go (List (Nat × Nat))
  | 0, _, _, ps => .ok ps
  | n + 1, i, destIdx, ps => do
    if (← goGet sIns i) ≠ (← goGet dIns destIdx) then throw "type mismatch"
    restLoop sIns dIns n (i + 1) (destIdx + 1) (ps ++ [(destIdx, i)])

/-- `Bind[Dest](src, args...)` up to `MakeFunc` (xfn/bind.go:50-130). -/
def bind (src : Src R) (dest : Dest R) (args : List (Arg R)) : Go (Bound R) :=
  match src with
  | .nil => .error "reflect: Type of zero Value"
  | .other => .error "invalid type: src"
  | .func s _ =>
    match dest with
    | .other => .error "invalid type: dest"
    | .func d =>
      if s.outs.length ≠ d.outs.length then .error "incompatible output"
      else if s.outs ≠ d.outs then .error "incompatible output"
      else if args.length > s.ins.length then .error "too many arguments"
      else do
        let (b, destIdx) ← argLoop s.ins d.ins 0 args ⟨List.replicate s.ins.length none, []⟩ 0
        let need : Int := s.ins.length - args.length
        let have_ : Int := d.ins.length - destIdx
        if need > have_ then throw "not enough inputs"
        let ps ← restLoop s.ins d.ins (s.ins.length - args.length) args.length destIdx b.placeholders
        return { b with placeholders := ps }

/-- A call: the calls of `src` with their inputs, in order, and what is returned. -/
abbrev Called (R : Refl) := List (List R.Val) × Go (List R.Val)

/-- Pass each value to its parameter: `reflect.Value.Call` panics for a zero `Value` and for a value that is not
assignable. -/
def passAll : List (Option R.Val) → List R.Ty → Go (List R.Val)
  | [], [] => .ok []
  | none :: _, _ => .error "reflect: Call using zero Value argument"
  | some v :: vs, t :: ts =>
    match R.assign v t with
    | none => .error "reflect: Call using value as type"
    | some w => do return w :: (← passAll vs ts)
  | _, _ => .error "reflect: Call with wrong number of input arguments"

/-- `reflect.Value.Call`: for a variadic function the inputs after the fixed ones are passed as elements of a new
slice. -/
def call (s : Sig R) (f : List R.Val → Go (List R.Val)) (vs : List (Option R.Val)) : Called R :=
  let m := if s.variadic then s.ins.length - 1 else s.ins.length
  let ins : Go (List R.Val) :=
    if s.variadic then
      match s.ins.getLast? with
      | none => .error "not a function type"
      | some st =>
        if vs.length < m then .error "reflect: Call with too few input arguments"
        else do
          let fixed ← passAll (vs.take m) (s.ins.take m)
          let more ← passAll (vs.drop m) (List.replicate (vs.length - m) (R.elem st))
          return fixed ++ [R.pack (R.elem st) more]
    else passAll vs s.ins
  match ins with
  | .error msg => ([], .error msg)
  | .ok xs => ([xs], f xs)

/-- `callValues[pi.toArg] = args[pi.fromArg]` (xfn/bind.go:133-135). -/
def fill (ys : List R.Val) : List (Nat × Nat) → List (Option R.Val) → Go (List (Option R.Val))
  | [], vs => .ok vs
  | (from_, to) :: ps, vs => do
    let y ← goGet ys from_
    let vs ← goSet vs to (some y)
    fill ys ps vs

/-- A call of the function `Bind` made (xfn/bind.go:131-137). `MakeFunc` checks that the results have the output types
of `Dest`, which are those of `src`. -/
def Bound.call (b : Bound R) (s : Sig R) (f : List R.Val → Go (List R.Val)) (ys : List R.Val) : Called R :=
  match fill ys b.placeholders b.values with
  | .error msg => ([], .error msg)
  | .ok vs => Xfn.call s f vs

end Verif.Xfn
