import Verif.Xhash.Props

/-!
# C145: Uint64 and Uint64Seed are XXH3 of eight bytes

The specification is XXH3 with 64 bits of output for inputs of 4 to 8 bytes, written down on natural numbers from its
published description (package xxh3, which xhash/fast64_test.go compares with, is not part of the repository).
-/

namespace Verif.Xhash.Xxh3

open Verif.Xhash

/-! ## XXH3, inputs of 4 to 8 bytes -/

/-- The first 24 bytes of XXH3's default secret. -/
def secret : List Byte :=
  [0xb8, 0xfe, 0x6c, 0x39, 0x23, 0xa4, 0x4b, 0xbe, 0x7c, 0x01, 0x81, 0x2c, 0xf7, 0x21, 0xad, 0x1c,
    0xde, 0xd4, 0x6d, 0xe9, 0x83, 0x90, 0x97, 0xdb]

/-- `PRIME_MX2` -/
def prime : Nat := 0x9FB21C651E98DF25

/-- Rotation of a 64-bit number to the left. -/
def rotl (x k : Nat) : Nat := x * 2 ^ k % 2 ^ 64 + x / 2 ^ (64 - k)

/-- The 32-bit number with the bytes of `x` in opposite order. -/
def bswap32 (x : Nat) : Nat := x % 256 * 2 ^ 24 + x / 256 % 256 * 2 ^ 16 + x / 2 ^ 16 % 256 * 2 ^ 8 + x / 2 ^ 24 % 256

/-- XXH3 with 64 bits of output on an input of 4 to 8 bytes. -/
def hash (input : List Byte) (seed : Nat) : Nat :=
  let first := leValue (input.take 4)
  let last := leValue (input.drop (input.length - 4))
  let seed := seed ^^^ (bswap32 (seed % 2 ^ 32) * 2 ^ 32)
  let words := leValue ((secret.drop 8).take 8) ^^^ leValue ((secret.drop 16).take 8)
  let v := (words + (2 ^ 64 - seed)) % 2 ^ 64 ^^^ (last + first * 2 ^ 32)
  let v := v ^^^ rotl v 49 ^^^ rotl v 24
  let v := v * prime % 2 ^ 64
  let v := v ^^^ (v / 2 ^ 35 + input.length)
  let v := v * prime % 2 ^ 64
  v ^^^ (v / 2 ^ 28)

/-- The four bytes of a 32-bit number, the lowest first. -/
def le32 (x : BitVec 32) : List Byte :=
  [x.setWidth 8, (x >>> 8).setWidth 8, (x >>> 16).setWidth 8, (x >>> 24).setWidth 8]

/-- The bytes the tests hash (xhash/fast64_test.go:63-64, 83-84): the upper half, then the lower half. -/
def halves (v : BitVec 64) : List Byte := le32 ((v >>> 32).setWidth 32) ++ le32 (v.setWidth 32)

/-! ## The functions of the package -/

theorem leValue_le32 (x : BitVec 32) : leValue (le32 x) = x.toNat := by
  have := x.isLt
  simp only [le32, leValue, BitVec.toNat_setWidth, BitVec.toNat_ushiftRight, Nat.shiftRight_eq_div_pow]
  omega

theorem rotl_toNat (x : BitVec 64) {k : Nat} (h0 : 0 < k) (hk : k < 64) : (x.rotateLeft k).toNat = rotl x.toNat k := by
  rw [BitVec.toNat_rotateLeft, Nat.mod_eq_of_lt hk, Nat.shiftLeft_eq, Nat.shiftRight_eq_div_pow]
  unfold rotl
  have hx := x.isLt
  have h1 : x.toNat / 2 ^ (64 - k) < 2 ^ k := by
    rw [Nat.div_lt_iff_lt_mul (Nat.two_pow_pos _), ← Nat.pow_add]
    rwa [show k + (64 - k) = 64 by omega]
  have h2 : x.toNat * 2 ^ k % 2 ^ 64 = (x.toNat % 2 ^ (64 - k)) * 2 ^ k := by
    rw [show (2 : Nat) ^ 64 = 2 ^ (64 - k) * 2 ^ k by rw [← Nat.pow_add]; congr 1; omega, Nat.mul_mod_mul_right]
  rw [h2, Nat.or_comm, ← Nat.shiftLeft_eq, or_add _ _ k h1, Nat.shiftLeft_eq, Nat.add_comm]

theorem rrmxmx_toNat (h : BitVec 64) : (rrmxmx h).toNat =
    let v := h.toNat
    let v := v ^^^ rotl v 49 ^^^ rotl v 24
    let v := v * prime % 2 ^ 64
    let v := v ^^^ (v / 2 ^ 35 + 8)
    let v := v * prime % 2 ^ 64
    v ^^^ (v / 2 ^ 28) := by
  have sh : ∀ x : BitVec 64, ((x >>> 35) + 8#64).toNat = x.toNat / 2 ^ 35 + 8 := by
    intro x
    have := x.isLt
    rw [BitVec.toNat_add, BitVec.toNat_ushiftRight, Nat.shiftRight_eq_div_pow, BitVec.toNat_ofNat]
    omega
  have mu : ∀ x : BitVec 64, (x * 0x9fb21c651e98df25#64).toNat = x.toNat * prime % 2 ^ 64 := by
    intro x
    rw [BitVec.toNat_mul]
    rfl
  simp only [rrmxmx, BitVec.toNat_xor, BitVec.toNat_ushiftRight, Nat.shiftRight_eq_div_pow, mu, sh,
    rotl_toNat _ (show 0 < 49 by decide) (by decide), rotl_toNat _ (show 0 < 24 by decide) (by decide), Nat.xor_assoc]

theorem reverseBytes_toNat (x : BitVec 32) : (reverseBytes32 x).toNat = bswap32 x.toNat := by
  have hx := x.isLt
  unfold reverseBytes32 bswap32
  simp only [BitVec.toNat_append, BitVec.extractLsb'_toNat, Nat.shiftRight_eq_div_pow]
  have a (n k : Nat) : n / 2 ^ k % 2 ^ 8 < 2 ^ 8 := Nat.mod_lt _ (by decide)
  rw [← Nat.shiftLeft_add_eq_or_of_lt (a _ _), ← Nat.shiftLeft_add_eq_or_of_lt (a _ _),
    ← Nat.shiftLeft_add_eq_or_of_lt (a _ _)]
  simp only [Nat.shiftLeft_eq]
  omega

theorem words_eq : leValue ((secret.drop 8).take 8) ^^^ leValue ((secret.drop 16).take 8) = (key008 ^^^ key016).toNat := by
  decide

theorem input_eq (v : BitVec 64) :
    leValue ((halves v).drop ((halves v).length - 4)) + leValue ((halves v).take 4) * 2 ^ 32 = v.toNat := by
  show leValue (le32 (v.setWidth 32)) + leValue (le32 ((v >>> 32).setWidth 32)) * 2 ^ 32 = v.toNat
  have := v.isLt
  rw [leValue_le32, leValue_le32, BitVec.toNat_setWidth, BitVec.toNat_setWidth, BitVec.toNat_ushiftRight,
    Nat.shiftRight_eq_div_pow]
  omega

/-- C145: `Uint64Seed(v, seed)` is XXH3 with that seed of the eight bytes of `v`, upper half first. -/
theorem C145_seed (v seed : BitVec 64) : (uint64Seed v seed).toNat = hash (halves v) seed.toNat := by
  have e1 : (seed ^^^ ((reverseBytes32 (seed.setWidth 32)).setWidth 64 <<< 32)).toNat =
      seed.toNat ^^^ (bswap32 (seed.toNat % 2 ^ 32) * 2 ^ 32) := by
    rw [BitVec.toNat_xor, BitVec.toNat_shiftLeft, BitVec.toNat_setWidth, reverseBytes_toNat, BitVec.toNat_setWidth,
      Nat.shiftLeft_eq]
    congr 1
    have hb : bswap32 (seed.toNat % 2 ^ 32) < 2 ^ 32 := by unfold bswap32; omega
    generalize bswap32 (seed.toNat % 2 ^ 32) = x at hb
    omega
  unfold uint64Seed
  rw [rrmxmx_toNat]
  unfold hash
  simp only [input_eq, words_eq]
  rw [BitVec.toNat_xor, BitVec.toNat_sub, e1, Nat.add_comm (2 ^ 64 - _), Nat.xor_comm v.toNat]
  rfl

/-- C145: `Uint64(v)` is XXH3 of the eight bytes of `v`, upper half first. -/
theorem C145_uint64 (v : BitVec 64) : (uint64 v).toNat = hash (halves v) 0 := by
  have : uint64 v = uint64Seed v 0 := by
    unfold uint64 uint64Seed
    congr 2
  rw [this, C145_seed]
  rfl

/-- C145: all inputs of eight bytes are such halves, so `Uint64Seed` computes XXH3 of every one of them. -/
theorem C145_every (input : List Byte) (h : input.length = 8) (seed : BitVec 64) :
    ∃ v, halves v = input ∧ (uint64Seed v seed).toNat = hash input seed.toNat := by
  match input, h with
  | [a, b, c, d, e, f, g, i], _ =>
    have key : halves (ofBytes e f g i a b c d) = [a, b, c, d, e, f, g, i] := by
      have ht := ofBytes_toNat e f g i a b c d
      have := a.isLt; have := b.isLt; have := c.isLt; have := d.isLt
      have := e.isLt; have := f.isLt; have := g.isLt; have := i.isLt
      generalize ofBytes e f g i a b c d = v at ht
      have hv := v.isLt
      simp only [leValue] at ht
      simp only [halves, le32, List.cons_append, List.nil_append, List.cons.injEq, and_true]
      refine ⟨?_, ?_, ?_, ?_, ?_, ?_, ?_, ?_⟩ <;> apply BitVec.eq_of_toNat_eq <;>
        simp only [BitVec.toNat_setWidth, BitVec.toNat_ushiftRight, Nat.shiftRight_eq_div_pow] <;> omega
    exact ⟨_, key, by rw [C145_seed, key]⟩

/-- C145: XXH3 has no collisions on inputs of eight bytes, with any seed. -/
theorem C145_no_collision (a b : List Byte) (ha : a.length = 8) (hb : b.length = 8) (seed : BitVec 64)
    (h : hash a seed.toNat = hash b seed.toNat) : a = b := by
  obtain ⟨v, rfl, hv⟩ := C145_every a ha seed
  obtain ⟨w, rfl, hw⟩ := C145_every b hb seed
  rw [(uint64Seed_bijective seed).1 _ _ (BitVec.eq_of_toNat_eq (hv.trans (h.trans hw.symm)))]

/-- C145: an `Incremental64` chains XXH3: each word is hashed with what came before as the seed, and `Sum64` hashes the
last of these once more. -/
theorem C145_incremental (ws : List (BitVec 64)) :
    (sum64 (ws.foldl writeUint64 newFast64)).toNat =
      hash (halves (BitVec.ofNat 64 (ws.foldl (fun h w => hash (halves w) h) (leValue (secret.take 8))))) 0 := by
  have main : ∀ (ws : List (BitVec 64)) (h : BitVec 64),
      (ws.foldl writeUint64 h).toNat = ws.foldl (fun h w => hash (halves w) h) h.toNat := by
    intro ws
    induction ws with
    | nil => intro h; rfl
    | cons w ws ih =>
      intro h
      rw [List.foldl_cons, List.foldl_cons, ih, ← C145_seed]
      rfl
  have e : leValue (secret.take 8) = newFast64.toNat := by decide
  rw [e, ← main, BitVec.ofNat_toNat, BitVec.setWidth_eq]
  exact C145_uint64 _

/-- The hash of eight zero bytes. -/
example : hash (List.replicate 8 0) 0 = 0xc77b3abb6f87acd9 ∧ (uint64 0).toNat = 0xc77b3abb6f87acd9 := by decide +kernel

end Verif.Xhash.Xxh3
