import Verif.Base

/-!
# Predicates and comparators (xfn/predicate.go, xfn/comparator.go, xmath/number.go)

Predicates may panic, so they return `Go Bool`. A variadic argument is a list; a predicate that is a nil function is one
that panics when called.
-/

namespace Verif.Xfn

variable {T : Type}

/-- xfn/types.go:3 -/
abbrev Predicate (T : Type) := T → Go Bool

/-! ## Combinators -/

/-- xfn/predicate.go:67-79 -/
def Or : List (Predicate T) → Predicate T
  | [], _ => .ok false
  | f :: fns, v => do if ← f v then return true else Or fns v

/-- xfn/predicate.go:81-90 -/
def And : List (Predicate T) → Predicate T
  | [], _ => .ok false
  | f :: fns, v => do if ← f v then return true else And fns v

/-- xfn/predicate.go:92-101 -/
def Not : List (Predicate T) → Predicate T
  | [], _ => .ok true
  | f :: fns, v => do if ← f v then return false else Not fns v

/-- xfn/predicate.go:13-15: `append([]Predicate[T]{p}, fns...)` is a new slice -/
def Predicate.or (p : Predicate T) (fns : List (Predicate T)) : Predicate T := Or (p :: fns)

/-- xfn/predicate.go:17-19 -/
def Predicate.and (p : Predicate T) (fns : List (Predicate T)) : Predicate T := And (p :: fns)

/-- xfn/predicate.go:21-23 -/
def Predicate.neg (p : Predicate T) : Predicate T := fun v => do return !(← p v)

/-- xfn/predicate.go:59-61 -/
def True' : Predicate T := fun _ => .ok true

/-- xfn/predicate.go:63-65 -/
def False' : Predicate T := fun _ => .ok false

/-! ## Comparisons

Go's comparison operators on a type are given by `Ops`. -/

/-- `==`, `<`, `<=`, `>`, `>=`; `!=` is the negation of `==` in Go. -/
structure Ops (T : Type) where
  eq : T → T → Bool
  lt : T → T → Bool
  le : T → T → Bool
  gt : T → T → Bool
  ge : T → T → Bool

variable (o : Ops T)

/-- xfn/predicate.go:25-29 -/
def isEq (rhs : T) : Predicate T := fun lhs => .ok (o.eq lhs rhs)

/-- xfn/predicate.go:31-40 -/
def isEqAny : List T → Predicate T
  | [], _ => .ok false
  | r :: rhs, v => if o.eq v r then .ok true else isEqAny rhs v

/-- xfn/predicate.go:42-46 -/
def isNeq (rhs : T) : Predicate T := fun lhs => .ok (!o.eq lhs rhs)

/-- xfn/predicate.go:48-57 -/
def isNeqAny : List T → Predicate T
  | [], _ => .ok true
  | r :: rhs, v => if o.eq v r then .ok false else isNeqAny rhs v

/-- xfn/predicate.go:103-107 -/
def isGreater (rhs : T) : Predicate T := fun v => .ok (o.gt v rhs)

/-- xfn/predicate.go:109-113 -/
def isGreaterEq (rhs : T) : Predicate T := fun v => .ok (o.ge v rhs)

/-- xfn/predicate.go:115-119 -/
def isLess (rhs : T) : Predicate T := fun v => .ok (o.lt v rhs)

/-- xfn/predicate.go:121-125 -/
def isLessEq (rhs : T) : Predicate T := fun v => .ok (o.le v rhs)

/-- xfn/predicate.go:155-157 -/
def equal (lhs rhs : T) : Bool := o.eq lhs rhs
/-- xfn/predicate.go:159-161 -/
def notEqual (lhs rhs : T) : Bool := !o.eq lhs rhs
/-- xfn/predicate.go:163-165 -/
def greater (lhs rhs : T) : Bool := o.gt lhs rhs
/-- xfn/predicate.go:167-169 -/
def greaterEq (lhs rhs : T) : Bool := o.ge lhs rhs
/-- xfn/predicate.go:171-173 -/
def less (lhs rhs : T) : Bool := o.lt lhs rhs
/-- xfn/predicate.go:175-177 -/
def lessEq (lhs rhs : T) : Bool := o.le lhs rhs

/-- xfn/predicate.go:179-187; NaN is what is not equal to itself -/
def lessFloat (lhs rhs : T) : Bool :=
  let lhsNan := !o.eq lhs lhs
  let rhsNan := !o.eq rhs rhs
  if lhsNan || rhsNan then lhsNan && !rhsNan else o.lt lhs rhs

/-- xfn/comparator.go:14-23 -/
def fullComparatorOf (a b : T) : Int :=
  if o.lt a b then -1 else if o.gt a b then 1 else 0

/-- xmath/number.go:7-13 -/
def min (a b : T) : T := if o.le a b then a else b

/-- xmath/number.go:15-21 -/
def max (a b : T) : T := if o.ge a b then a else b

/-! ## Prefixes and suffixes

A string is its bytes. -/

/-- Bytes. -/
abbrev Bytes := List UInt8

/-- `v[lo:hi]` of a string or slice of length `len(v)`, which panics unless `lo <= hi <= len(v)` (for a slice a greater
`hi` up to the capacity is allowed, but does not occur here). -/
def sub (v : Bytes) (lo hi : Int) : Go Bytes :=
  if 0 ≤ lo ∧ lo ≤ hi ∧ hi ≤ v.length then .ok ((v.take hi.toNat).drop lo.toNat)
  else .error "slice bounds out of range"

/-- xfn/predicate.go:127-132 (strings) and 141-146 (`bytes.Equal` compares the contents) -/
def hasPrefix (pre : Bytes) : Predicate Bytes := fun v => do
  let i : Int := pre.length
  if (v.length : Int) ≥ i then
    let w ← sub v 0 i
    return decide (w = pre)
  else return false

/-- xfn/predicate.go:134-139 (strings) and 148-153 (`bytes.Equal`) -/
def hasSuffix (suf : Bytes) : Predicate Bytes := fun v => do
  let i : Int := suf.length
  if (v.length : Int) ≥ i then
    let w ← sub v (v.length - i) v.length
    return decide (w = suf)
  else return false

/-! ## Go's types -/

/-- Comparison by an integer that stands for the value. -/
def opsOf (key : T → Int) : Ops T where
  eq a b := decide (key a = key b)
  lt a b := decide (key a < key b)
  le a b := decide (key a ≤ key b)
  gt a b := decide (key b < key a)
  ge a b := decide (key b ≤ key a)

/-- Signed integers of `n` bits. -/
def signedOps (n : Nat) : Ops (BitVec n) := opsOf BitVec.toInt

/-- Unsigned integers of `n` bits. -/
def unsignedOps (n : Nat) : Ops (BitVec n) := opsOf fun x => (x.toNat : Int)

/-- Lexicographic order of byte strings. -/
def strLt : Bytes → Bytes → Bool
  | _, [] => false
  | [], _ :: _ => true
  | a :: s, b :: t => if a < b then true else if b < a then false else strLt s t

/-- Strings. -/
def stringOps : Ops Bytes where
  eq a b := decide (a = b)
  lt a b := strLt a b
  le a b := !strLt b a
  gt a b := strLt b a
  ge a b := !strLt a b

/-- The bits of an IEEE 754 number with an exponent of `e` bits and a fraction of `m` bits: `float32` is `Float 8 23`,
`float64` is `Float 11 52`. -/
structure Float (e m : Nat) where
  sign : Bool
  exp : BitVec e
  frac : BitVec m
  deriving DecidableEq

namespace Float
variable {e m : Nat}

/-- NaN: the greatest exponent and a fraction that is not zero. -/
def isNaN (x : Float e m) : Bool := x.exp == BitVec.allOnes e && x.frac != 0

/-- The absolute value in units of the least positive number (infinity comes out above all numbers). -/
def units (x : Float e m) : Nat :=
  if x.exp = 0 then x.frac.toNat else (2 ^ m + x.frac.toNat) * 2 ^ (x.exp.toNat - 1)

/-- The value in those units. -/
def value (x : Float e m) : Int := if x.sign then -(x.units : Int) else x.units

end Float

/-- Go's operators on floats: by value, and false if there is a NaN. -/
def floatOps (e m : Nat) : Ops (Float e m) where
  eq a b := !a.isNaN && !b.isNaN && decide (a.value = b.value)
  lt a b := !a.isNaN && !b.isNaN && decide (a.value < b.value)
  le a b := !a.isNaN && !b.isNaN && decide (a.value ≤ b.value)
  gt a b := !a.isNaN && !b.isNaN && decide (b.value < a.value)
  ge a b := !a.isNaN && !b.isNaN && decide (b.value ≤ a.value)

end Verif.Xfn
