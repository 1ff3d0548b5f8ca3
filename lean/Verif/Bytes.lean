import Verif.Base

/-!
# Eight bytes as a 64-bit integer

`toUint64` and `putUint64` of xhash/binary.go, and the copy of `toUint64` in secrand/rng.go.
-/

namespace Verif

/-- A byte. -/
abbrev Byte := BitVec 8

/-- Read byte `i` and move it to its place (`uint64(b[i])<<(8*i)`). -/
def byteAt (b : List Byte) (i : Nat) : Go (BitVec 64) := do
  return (← goGet b i).setWidth 64 <<< (8 * i)

/-- xhash/binary.go:3-7 and secrand/rng.go:129-133: panics for fewer than eight bytes. -/
def toUint64 (b : List Byte) : Go (BitVec 64) := do
  let _ ← goGet b 7
  return (← byteAt b 0) ||| (← byteAt b 1) ||| (← byteAt b 2) ||| (← byteAt b 3) ||| (← byteAt b 4) ||| (← byteAt b 5) |||
    (← byteAt b 6) ||| (← byteAt b 7)

/-- xhash/binary.go:9-19 -/
def putUint64 (b : List Byte) (v : BitVec 64) : Go (List Byte) := do
  let _ ← goGet b 7
  let b ← goSet b 0 (v.setWidth 8)
  let b ← goSet b 1 ((v >>> 8).setWidth 8)
  let b ← goSet b 2 ((v >>> 16).setWidth 8)
  let b ← goSet b 3 ((v >>> 24).setWidth 8)
  let b ← goSet b 4 ((v >>> 32).setWidth 8)
  let b ← goSet b 5 ((v >>> 40).setWidth 8)
  let b ← goSet b 6 ((v >>> 48).setWidth 8)
  goSet b 7 ((v >>> 56).setWidth 8)

/-- Specification: the number whose digits to base 256 are the given ones, the lowest first. -/
def leValue : List Byte → Nat
  | [] => 0
  | b :: bs => b.toNat + 256 * leValue bs

theorem leValue_inj : ∀ {a b : List Byte}, a.length = b.length → leValue a = leValue b → a = b
  | [], [], _, _ => rfl
  | x :: a, y :: b, hl, h => by
    simp only [leValue] at h
    have hx := x.isLt
    have hy := y.isLt
    have e : x = y := BitVec.eq_of_toNat_eq (by omega)
    subst e
    rw [leValue_inj (a := a) (b := b) (by simpa using hl) (by omega)]

/-- The eight bytes of `v`. -/
def bytesOf (v : BitVec 64) : List Byte :=
  [v.setWidth 8, (v >>> 8).setWidth 8, (v >>> 16).setWidth 8, (v >>> 24).setWidth 8, (v >>> 32).setWidth 8,
    (v >>> 40).setWidth 8, (v >>> 48).setWidth 8, (v >>> 56).setWidth 8]

theorem bytesOf_length (v : BitVec 64) : (bytesOf v).length = 8 := rfl

theorem leValue_bytesOf (v : BitVec 64) : leValue (bytesOf v) = v.toNat := by
  have := v.isLt
  simp only [bytesOf, leValue, BitVec.toNat_setWidth, BitVec.toNat_ushiftRight, Nat.shiftRight_eq_div_pow]
  omega

theorem putUint64_ok {b : List Byte} (h : b.length = 8) (v : BitVec 64) : putUint64 b v = .ok (bytesOf v) := by
  match b, h with
  | [_, _, _, _, _, _, _, _], _ => rfl

/-- The 64-bit number with the given bytes. -/
def ofBytes (b0 b1 b2 b3 b4 b5 b6 b7 : Byte) : BitVec 64 :=
  b0.setWidth 64 <<< 0 ||| b1.setWidth 64 <<< 8 ||| b2.setWidth 64 <<< 16 ||| b3.setWidth 64 <<< 24 |||
    b4.setWidth 64 <<< 32 ||| b5.setWidth 64 <<< 40 ||| b6.setWidth 64 <<< 48 ||| b7.setWidth 64 <<< 56

theorem toUint64_ok (b0 b1 b2 b3 b4 b5 b6 b7 : Byte) (more : List Byte) :
    toUint64 (b0 :: b1 :: b2 :: b3 :: b4 :: b5 :: b6 :: b7 :: more) = .ok (ofBytes b0 b1 b2 b3 b4 b5 b6 b7) := rfl

theorem or_add (a b n : Nat) (h : a < 2 ^ n) : a ||| (b <<< n) = a + b * 2 ^ n := by
  rw [Nat.or_comm, ← Nat.shiftLeft_add_eq_or_of_lt h, Nat.shiftLeft_eq, Nat.add_comm]

theorem ofBytes_toNat (b0 b1 b2 b3 b4 b5 b6 b7 : Byte) :
    (ofBytes b0 b1 b2 b3 b4 b5 b6 b7).toNat = leValue [b0, b1, b2, b3, b4, b5, b6, b7] := by
  have h0 := b0.isLt
  have h1 := b1.isLt
  have h2 := b2.isLt
  have h3 := b3.isLt
  have h4 := b4.isLt
  have h5 := b5.isLt
  have h6 := b6.isLt
  have h7 := b7.isLt
  have sh : ∀ (b : Byte) (k : Nat), k ≤ 56 → (b.setWidth 64 <<< k).toNat = b.toNat <<< k := by
    intro b k hk
    have hb := b.isLt
    rw [BitVec.toNat_shiftLeft, BitVec.toNat_setWidth, Nat.mod_eq_of_lt (a := b.toNat) (by omega), Nat.mod_eq_of_lt]
    rw [Nat.shiftLeft_eq]
    have : 2 ^ k ≤ 2 ^ 56 := Nat.pow_le_pow_right (by decide) hk
    calc b.toNat * 2 ^ k ≤ 255 * 2 ^ k := Nat.mul_le_mul_right _ (by omega)
      _ < 2 ^ 64 := by omega
  unfold ofBytes
  simp only [BitVec.toNat_or]
  rw [sh b0 0 (by omega), sh b1 8 (by omega), sh b2 16 (by omega), sh b3 24 (by omega), sh b4 32 (by omega),
    sh b5 40 (by omega), sh b6 48 (by omega), sh b7 56 (by omega)]
  rw [Nat.shiftLeft_zero, or_add _ _ 8 (by omega), or_add _ _ 16 (by omega), or_add _ _ 24 (by omega),
    or_add _ _ 32 (by omega), or_add _ _ 40 (by omega), or_add _ _ 48 (by omega), or_add _ _ 56 (by omega)]
  simp only [leValue]
  omega

/-- `toUint64` returns the little-endian value of the first eight bytes. -/
theorem toUint64_spec {b : List Byte} (h : 8 ≤ b.length) : ∃ v, toUint64 b = .ok v ∧ v.toNat = leValue (b.take 8) := by
  match b, h with
  | b0 :: b1 :: b2 :: b3 :: b4 :: b5 :: b6 :: b7 :: more, _ =>
    exact ⟨_, toUint64_ok b0 b1 b2 b3 b4 b5 b6 b7 more, ofBytes_toNat b0 b1 b2 b3 b4 b5 b6 b7⟩

/-- Fewer than eight bytes: panic. -/
theorem toUint64_short {b : List Byte} (h : b.length < 8) : ∃ msg, toUint64 b = .error msg := by
  have : goGet b 7 = .error "index out of range" := by
    unfold goGet
    rw [if_pos (by decide), List.getElem?_eq_none (by simpa using Nat.le_of_lt_succ h)]
  exact ⟨_, by unfold toUint64; rw [this]; rfl⟩

theorem toUint64_bytesOf (v : BitVec 64) : toUint64 (bytesOf v) = .ok v := by
  obtain ⟨w, h1, h2⟩ := toUint64_spec (b := bytesOf v) (Nat.le_refl 8)
  rw [h1]
  congr 1
  apply BitVec.eq_of_toNat_eq
  rw [h2, ← leValue_bytesOf v]
  rfl

theorem bytesOf_toUint64 {b : List Byte} (h : b.length = 8) {v : BitVec 64} (hv : toUint64 b = .ok v) : bytesOf v = b := by
  obtain ⟨w, h1, h2⟩ := toUint64_spec (b := b) (by omega)
  rw [hv] at h1
  injection h1 with h1
  subst h1
  refine leValue_inj (by rw [h]; rfl) ?_
  rw [leValue_bytesOf, h2, List.take_of_length_le (by omega)]

example : toUint64 [1, 2, 0, 0, 0, 0, 0, 0x80] = .ok 0x8000000000000201 := by decide +kernel

end Verif
