import Verif.Secrand.SplitProps

/-!
# ChaCha, and examples

The keystream of ChaCha with a nonce of 8 bytes and a 64-bit block counter, which is what package chacha computes. The
properties hold for every keystream; this one is used for the examples.
-/

namespace Verif.Secrand

/-- A word. -/
abbrev Word := BitVec 32

/-- The quarter round. -/
def quarter (a b c d : Word) : Word × Word × Word × Word :=
  let a := a + b
  let d := (d ^^^ a).rotateLeft 16
  let c := c + d
  let b := (b ^^^ c).rotateLeft 12
  let a := a + b
  let d := (d ^^^ a).rotateLeft 8
  let c := c + d
  let b := (b ^^^ c).rotateLeft 7
  (a, b, c, d)

/-- A quarter round on four words of the state. -/
def quarterAt (s : List Word) (i j k l : Nat) : List Word :=
  match quarter (s.getD i 0) (s.getD j 0) (s.getD k 0) (s.getD l 0) with
  | (a, b, c, d) => (((s.set i a).set j b).set k c).set l d

/-- Two rounds. -/
def doubleRound (s : List Word) : List Word :=
  let s := quarterAt s 0 4 8 12
  let s := quarterAt s 1 5 9 13
  let s := quarterAt s 2 6 10 14
  let s := quarterAt s 3 7 11 15
  let s := quarterAt s 0 5 10 15
  let s := quarterAt s 1 6 11 12
  let s := quarterAt s 2 7 8 13
  quarterAt s 3 4 9 14

/-- `n` double rounds. -/
def doubleRounds : Nat → List Word → List Word
  | 0, s => s
  | n + 1, s => doubleRounds n (doubleRound s)

/-- Bytes to words, the lowest byte first. -/
def words : List Byte → List Word
  | a :: b :: c :: d :: l =>
    (a.setWidth 32 ||| b.setWidth 32 <<< 8 ||| c.setWidth 32 <<< 16 ||| d.setWidth 32 <<< 24) :: words l
  | _ => []

/-- The initial state. -/
def initial (key nonce : List Byte) (counter : Nat) : List Word :=
  [0x61707865, 0x3320646e, 0x79622d32, 0x6b206574] ++ words key ++
    [BitVec.ofNat 32 counter, BitVec.ofNat 32 (counter / 2 ^ 32)] ++ words nonce

/-- The words of a block. -/
def block (key nonce : List Byte) (rounds counter : Nat) : List Word :=
  let s := initial key nonce counter
  List.zipWith (· + ·) s (doubleRounds (rounds / 2) s)

/-- The keystream. -/
def chacha : Cipher := fun key nonce rounds i =>
  (((block key nonce rounds (i / 64)).getD (i % 64 / 4) 0) >>> (8 * (i % 4))).setWidth 8

/-- 32 zero bytes -/
def zeroKey : List Byte := List.replicate 32 0
/-- 8 zero bytes -/
def zeroNonce : List Byte := List.replicate 8 0

/-- The published first words of the keystreams for key and nonce zero: 3e00ef2f 895f40d6…, 9bf49a6a 0755f953…,
76b8e0ad a0f13d90…, as little-endian numbers. -/
example : (block zeroKey zeroNonce 8 0).take 2 = [0x2fef003e, 0xd6405f89] := by decide +kernel
example : (block zeroKey zeroNonce 12 0).take 2 = [0x6a9af49b, 0x53f95507] := by decide +kernel
example : (block zeroKey zeroNonce 20 0).take 2 = [0xade0b876, 0x903df1a0] := by decide +kernel

/-- A new generator. -/
theorem new_zero : newRNGCustom chacha zeroKey zeroNonce 64 8 =
    .ok ⟨xorStream (chacha zeroKey zeroNonce 8) (List.replicate 96 0), 32, 8, zeroNonce⟩ := rfl

/-- The generator after its first byte was read. -/
def afterOne : RNG :=
  { buf := erase (xorStream (chacha zeroKey zeroNonce 8) (List.replicate 96 0)) 32 33, n := 33, rounds := 8, nonce := zeroNonce }

theorem afterOne_good : Good afterOne :=
  good_small (new_good (C := chacha) (seed := zeroKey) (nonce := zeroNonce) rfl rfl new_zero) (k := 1) (by decide)

/-- C70 is false for ChaCha: there are two ways to read the same number of bytes, none larger than the buffer, from
`NewRNGCustom(0, 0, 64, 8)` after its first byte, with different results. -/
theorem not_splitFree : ¬ SplitFree chacha afterOne := by
  intro h
  have hx : afterOne.buf[afterOne.n]? = some 0x4c := by
    show (erase (xorStream (chacha zeroKey zeroNonce 8) (List.replicate 96 0)) 32 33)[33]? = _
    rw [erase_get (by decide) (by decide), if_neg (by decide), xorStream_get]
    have : chacha zeroKey zeroNonce 8 33 = 0x4c := by decide +kernel
    rw [this]
    decide
  obtain ⟨as, bs, h1, h2, r1, r2, o1, o2, e1, e2, hne⟩ := straddle_differs (C := chacha) afterOne_good (by decide) hx (by decide)
  obtain ⟨r', out, g1, g2⟩ := h as bs h1 h2
  rw [e1] at g1
  rw [e2] at g2
  injection g1 with g1
  injection g2 with g2
  injection g1 with _ g1
  injection g2 with _ g2
  exact hne (g1.trans g2.symm)

/-- Non-vacuity for C60: after reading 3 bytes and a `Uint64` positions 32 to 42 have been handed out. -/
example : ∃ r ev, runAll chacha ⟨xorStream (chacha zeroKey zeroNonce 8) (List.replicate 96 0), 32, 8, zeroNonce⟩
    [.read [0, 0, 0], .uint64] = .ok (r, ev) ∧ ev = [.out 32 35, .out 35 43] := ⟨_, _, rfl, rfl⟩

/-- Non-vacuity for `NoStraddles`: two reads of half the buffer. -/
example : NoStraddle afterOne 63 ∧ ¬ NoStraddle afterOne 64 := by
  refine ⟨Or.inl (by decide), ?_⟩
  rintro (h | ⟨h, -⟩)
  · exact absurd h (by decide)
  · exact absurd h (by decide)

end Verif.Secrand
