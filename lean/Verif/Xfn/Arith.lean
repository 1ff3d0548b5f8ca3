import Verif.Base

/-!
# C78: arithmetic operators as functions (xfn/arithmetic.go)

Go's operators on a type are given by `Arith`; the integer types of every width are instances, with the
rules of the Go specification ("Arithmetic operators", "Integer overflow"): the results wrap around,
division truncates towards zero, and dividing by zero panics. Floats and complex numbers are not
modelled beyond the definitions, which are the same for every type.
-/

namespace Verif.Xfn

/-- Go's `+`, `-`, `*`, `/`, `%` on a type. -/
structure Arith (T : Type) where
  add : T → T → T
  sub : T → T → T
  mul : T → T → T
  div : T → T → Go T
  mod : T → T → Go T

section
variable {T : Type} (o : Arith T)

/-- xfn/arithmetic.go:7-11 -/
def Plus (rhs : T) : T → T := fun lhs => o.add lhs rhs

/-- xfn/arithmetic.go:13-17 -/
def Minus (rhs : T) : T → T := fun lhs => o.sub lhs rhs

/-- xfn/arithmetic.go:19-23 -/
def Mult (rhs : T) : T → T := fun lhs => o.mul lhs rhs

/-- xfn/arithmetic.go:25-29 -/
def Div (rhs : T) : T → Go T := fun lhs => o.div lhs rhs

/-- xfn/arithmetic.go:31-35 -/
def Mod (rhs : T) : T → Go T := fun lhs => o.mod lhs rhs

/-- xfn/arithmetic.go:37-39 -/
def PlusOp (lhs rhs : T) : T := o.add lhs rhs

/-- xfn/arithmetic.go:41-43 -/
def MultOp (lhs rhs : T) : T := o.mul lhs rhs

/-- xfn/arithmetic.go:45-48 -/
def DivOp (lhs rhs : T) : Go T := o.div lhs rhs

/-- xfn/arithmetic.go:50-52 -/
def ModOp (lhs rhs : T) : Go T := o.mod lhs rhs
end

/-- What Go panics with when an integer is divided by zero. -/
def divideByZero : String := "runtime error: integer divide by zero"

/-- A signed integer type of `w` bits in two's complement. -/
def signed (w : Nat) : Arith (BitVec w) where
  add := (· + ·)
  sub := (· - ·)
  mul := (· * ·)
  div a b := if b = 0#w then .error divideByZero else .ok (a.sdiv b)
  mod a b := if b = 0#w then .error divideByZero else .ok (a.srem b)

/-- An unsigned integer type of `w` bits. -/
def unsigned (w : Nat) : Arith (BitVec w) where
  add := (· + ·)
  sub := (· - ·)
  mul := (· * ·)
  div a b := if b = 0#w then .error divideByZero else .ok (a / b)
  mod a b := if b = 0#w then .error divideByZero else .ok (a % b)

/-! ## What the functions compute, in integers -/

/-- The value an integer `n` has in a signed type of `w` bits: `n` shifted by a multiple of `2^w` into
`[-2^(w-1), 2^(w-1))`. -/
def SignedRepr (w : Nat) (n : Int) (x : BitVec w) : Prop :=
  (2 ^ w : Int) ∣ (x.toInt - n) ∧ -(2 ^ w : Int) ≤ 2 * x.toInt ∧ 2 * x.toInt < (2 ^ w : Int)

/-- The value an integer `n` has in an unsigned type of `w` bits. -/
def UnsignedRepr (w : Nat) (n : Int) (x : BitVec w) : Prop :=
  (2 ^ w : Int) ∣ ((x.toNat : Int) - n) ∧ (x.toNat : Int) < (2 ^ w : Int)

theorem signedRepr_of {w : Nat} {n : Int} {x : BitVec w} (h : x.toInt = n.bmod (2 ^ w)) : SignedRepr w n x := by
  refine ⟨?_, ?_, ?_⟩
  · have := Int.dvd_bmod_sub_self (x := n) (m := 2 ^ w)
    rw [h]; exact_mod_cast this
  · exact_mod_cast BitVec.le_two_mul_toInt (x := x)
  · exact_mod_cast BitVec.two_mul_toInt_lt (x := x)

theorem unsignedRepr_of {w : Nat} {n : Int} {x : BitVec w} (h : (2 ^ w : Int) ∣ ((x.toNat : Int) - n)) :
    UnsignedRepr w n x := by
  refine ⟨h, ?_⟩
  exact_mod_cast x.isLt

/-- **C78**, signed types: `Plus(rhs)(lhs)` and `PlusOp(lhs, rhs)` are `lhs + rhs`, `Minus(rhs)(lhs)` is
`lhs - rhs`, `Mult(rhs)(lhs)` and `MultOp(lhs, rhs)` are `lhs * rhs`, all wrapping around. -/
theorem C78_signed (w : Nat) (lhs rhs : BitVec w) :
    SignedRepr w (lhs.toInt + rhs.toInt) (Plus (signed w) rhs lhs) ∧
    SignedRepr w (lhs.toInt + rhs.toInt) (PlusOp (signed w) lhs rhs) ∧
    SignedRepr w (lhs.toInt - rhs.toInt) (Minus (signed w) rhs lhs) ∧
    SignedRepr w (lhs.toInt * rhs.toInt) (Mult (signed w) rhs lhs) ∧
    SignedRepr w (lhs.toInt * rhs.toInt) (MultOp (signed w) lhs rhs) := by
  refine ⟨signedRepr_of ?_, signedRepr_of ?_, signedRepr_of ?_, signedRepr_of ?_, signedRepr_of ?_⟩ <;>
    simp [Plus, PlusOp, Minus, Mult, MultOp, signed]

theorem dvd_emod_sub' (a m : Int) : m ∣ (a % m - a) := by
  rw [Int.emod_def]
  exact ⟨-(a / m), by rw [Int.mul_neg]; omega⟩

/-- **C78**, unsigned types. -/
theorem C78_unsigned (w : Nat) (lhs rhs : BitVec w) :
    UnsignedRepr w (lhs.toNat + rhs.toNat) (Plus (unsigned w) rhs lhs) ∧
    UnsignedRepr w (lhs.toNat + rhs.toNat) (PlusOp (unsigned w) lhs rhs) ∧
    UnsignedRepr w (lhs.toNat - rhs.toNat) (Minus (unsigned w) rhs lhs) ∧
    UnsignedRepr w (lhs.toNat * rhs.toNat) (Mult (unsigned w) rhs lhs) ∧
    UnsignedRepr w (lhs.toNat * rhs.toNat) (MultOp (unsigned w) lhs rhs) := by
  have hp : (2 ^ w : Int) ∣ (((lhs + rhs).toNat : Int) - (lhs.toNat + rhs.toNat)) := by
    rw [BitVec.toNat_add]; push_cast; exact dvd_emod_sub' _ _
  have hm : (2 ^ w : Int) ∣ (((lhs * rhs).toNat : Int) - (lhs.toNat * rhs.toNat)) := by
    rw [BitVec.toNat_mul]; push_cast; exact dvd_emod_sub' _ _
  have hs : (2 ^ w : Int) ∣ (((lhs - rhs).toNat : Int) - ((lhs.toNat : Int) - rhs.toNat)) := by
    rw [BitVec.toNat_sub]
    have hle : rhs.toNat ≤ 2 ^ w := Nat.le_of_lt rhs.isLt
    obtain ⟨k, hk⟩ := dvd_emod_sub' (((2 ^ w - rhs.toNat + lhs.toNat : Nat)) : Int) (2 ^ w)
    refine ⟨k + 1, ?_⟩
    rw [Int.mul_add, ← hk]
    have hc : ((2 ^ w - rhs.toNat : Nat) : Int) = (2 ^ w : Int) - rhs.toNat := by
      rw [Int.ofNat_sub hle]; push_cast; rfl
    push_cast
    rw [hc]
    omega
  exact ⟨unsignedRepr_of hp, unsignedRepr_of hp, unsignedRepr_of hs, unsignedRepr_of hm, unsignedRepr_of hm⟩

/-- **C78**: dividing by zero panics, whatever the dividend. -/
theorem C78_divide_by_zero (w : Nat) (lhs : BitVec w) :
    (∀ o ∈ [signed w, unsigned w],
      (Div o 0#w lhs).panics = true ∧ (Mod o 0#w lhs).panics = true ∧
      (DivOp o lhs 0#w).panics = true ∧ (ModOp o lhs 0#w).panics = true) := by
  intro o ho
  simp only [List.mem_cons, List.not_mem_nil, or_false] at ho
  rcases ho with rfl | rfl <;> simp [Div, Mod, DivOp, ModOp, signed, unsigned, Go.panics]

/-- **C78**, division of unsigned integers: quotient and remainder are the ones of Euclid. -/
theorem C78_unsigned_div (w : Nat) (lhs rhs : BitVec w) (h : rhs ≠ 0#w) :
    ∃ q m : BitVec w, Div (unsigned w) rhs lhs = .ok q ∧ Mod (unsigned w) rhs lhs = .ok m ∧
      DivOp (unsigned w) lhs rhs = .ok q ∧ ModOp (unsigned w) lhs rhs = .ok m ∧
      lhs.toNat = q.toNat * rhs.toNat + m.toNat ∧ m.toNat < rhs.toNat := by
  refine ⟨lhs / rhs, lhs % rhs, ?_, ?_, ?_, ?_, ?_, ?_⟩
  · simp [Div, unsigned, h]
  · simp [Mod, unsigned, h]
  · simp [DivOp, unsigned, h]
  · simp [ModOp, unsigned, h]
  · rw [BitVec.toNat_udiv, BitVec.toNat_umod, Nat.mul_comm]
    exact (Nat.div_add_mod _ _).symm
  · rw [BitVec.toNat_umod]
    apply Nat.mod_lt
    have : rhs.toNat ≠ 0 := by
      intro h0; apply h; apply BitVec.eq_of_toNat_eq; simpa using h0
    omega

/-- **C78**, division of signed integers. The remainder is smaller than the divisor and has the sign of
the dividend; dividend = quotient * divisor + remainder. Only the least integer divided by -1 overflows,
and then the quotient is the dividend and the remainder 0, so that the equation holds in wrapping
arithmetic without exception. -/
theorem C78_signed_div (w : Nat) (lhs rhs : BitVec w) (h : rhs ≠ 0#w) :
    ∃ q m : BitVec w, Div (signed w) rhs lhs = .ok q ∧ Mod (signed w) rhs lhs = .ok m ∧
      DivOp (signed w) lhs rhs = .ok q ∧ ModOp (signed w) lhs rhs = .ok m ∧
      m.toInt.natAbs < rhs.toInt.natAbs ∧
      (0 ≤ lhs.toInt → 0 ≤ m.toInt) ∧ (lhs.toInt ≤ 0 → m.toInt ≤ 0) ∧
      lhs = q * rhs + m ∧
      (¬ (lhs = BitVec.intMin w ∧ rhs = -1#w) → lhs.toInt = q.toInt * rhs.toInt + m.toInt) ∧
      (lhs = BitVec.intMin w → rhs = -1#w → q = lhs ∧ m.toInt = 0) := by
  have hr0 : rhs.toInt ≠ 0 := by
    intro h0; apply h; apply BitVec.eq_of_toInt_eq; simpa using h0
  have hm : (lhs.srem rhs).toInt = lhs.toInt.tmod rhs.toInt := BitVec.toInt_srem _ _
  have hq : (lhs.sdiv rhs).toInt = (lhs.toInt.tdiv rhs.toInt).bmod (2 ^ w) := BitVec.toInt_sdiv _ _
  refine ⟨lhs.sdiv rhs, lhs.srem rhs, ?_, ?_, ?_, ?_, ?_, ?_, ?_, ?_, ?_, ?_⟩
  · simp [Div, signed, h]
  · simp [Mod, signed, h]
  · simp [DivOp, signed, h]
  · simp [ModOp, signed, h]
  · rw [hm, Int.natAbs_tmod]
    exact Nat.mod_lt _ (by omega)
  · intro h0; rw [hm]; exact Int.tmod_nonneg _ h0
  · intro h0; rw [hm]
    have := Int.tmod_nonneg rhs.toInt (a := -lhs.toInt) (by omega)
    rw [Int.neg_tmod] at this; omega
  · apply BitVec.eq_of_toInt_eq
    rw [BitVec.toInt_add, BitVec.toInt_mul, hm, hq]
    simp only [Int.bmod_add_bmod, Int.bmod_mul_bmod]
    rw [Int.mul_comm, Int.mul_tdiv_add_tmod]
    exact (BitVec.toInt_bmod_cancel _).symm
  · intro hn
    have hne : lhs ≠ BitVec.intMin w ∨ rhs ≠ -1#w := by
      by_cases c : lhs = BitVec.intMin w
      · right; intro c'; exact hn ⟨c, c'⟩
      · left; exact c
    rw [hm, BitVec.toInt_sdiv_of_ne_or_ne _ _ hne, Int.mul_comm]
    exact (Int.mul_tdiv_add_tmod _ _).symm
  · intro h1 h2
    subst h1; subst h2
    constructor
    · exact BitVec.intMin_sdiv_neg_one
    · rw [hm]
      have : (-1#w).toInt = -1 := by
        rcases Nat.lt_or_ge 0 w with hw | hw
        · rw [BitVec.neg_one_eq_allOnes, BitVec.toInt_allOnes, if_pos hw]
        · exfalso; apply h
          have : w = 0 := by omega
          subst this; decide
      rw [this]; simp

/-- **C78**: on integers of any type, `Minus(x)` undoes `Plus(x)` and the other way round, also when the
intermediate result overflows. -/
theorem C78_plus_minus (w : Nat) (x v : BitVec w) : ∀ o ∈ [signed w, unsigned w],
    Minus o x (Plus o x v) = v ∧ Plus o x (Minus o x v) = v := by
  intro o ho
  simp only [List.mem_cons, List.not_mem_nil, or_false] at ho
  rcases ho with rfl | rfl <;>
    exact ⟨BitVec.add_sub_cancel _ _, BitVec.sub_add_cancel _ _⟩

-- int8: 100 + 100 wraps to -56; -7 / 2 = -3 remainder -1; -128 / -1 = -128
example : (Plus (signed 8) 100#8 100#8).toInt = -56 := by decide
example : (Div (signed 8) 2#8 (-7#8)).map BitVec.toInt = .ok (-3) := by decide
example : (Mod (signed 8) 2#8 (-7#8)).map BitVec.toInt = .ok (-1) := by decide
example : (Div (signed 8) (-1#8) (-128#8)).map BitVec.toInt = .ok (-128) := by decide
-- uint8: 3 - 5 = 254
example : (Minus (unsigned 8) 5#8 3#8).toNat = 254 := by decide

end Verif.Xfn
