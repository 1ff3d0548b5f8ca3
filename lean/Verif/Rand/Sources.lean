import Verif.Rand.Never
import Verif.Rand.Read
import Verif.Secrand.KeyStream
import Verif.Xrand.Crypto

/-!
# The sources
-/

namespace Verif.Rand

open Secrand

/-- A `secrand.RNG` as the source (secrand/pool.go:8-12, secrand/rng.go:121-146). -/
def rngSource (C : Cipher) : Source where
  σ := RNG
  int63 r := (Secrand.int63 C r).map fun x => (x.2.1, x.1)
  uint64 r := (Secrand.uint64 C r).map fun x => (x.2.1, x.1)

/-- `xrand.Crypto()` as the source (xrand/crypto.go:13-30). -/
def cryptoSource (R : Xrand.Entropy) : Source where
  σ := R.σ
  int63 q := match Xrand.int63 R q with
    | (.error e, _) => .error e
    | (.ok v, q') => .ok (v, q')
  uint64 q := match Xrand.uint64 R q with
    | (.error e, _) => .error e
    | (.ok v, q') => .ok (v, q')

variable {C : Cipher}

theorem rng_nonNeg (C : Cipher) : NonNeg (rngSource C) := by
  intro q v q' h
  have h : (Secrand.int63 C q).map (fun x => (x.2.1, x.1)) = .ok (v, q') := h
  cases e : Secrand.uint64 C q with
  | error m =>
    have e2 : Secrand.int63 C q = .error m := by unfold Secrand.int63; rw [e]; rfl
    rw [e2] at h; cases h
  | ok x =>
    obtain ⟨r', u, ev⟩ := x
    obtain ⟨w, e2, hw, -⟩ := int63_spec e
    rw [e2] at h
    cases h
    rw [hw]
    exact Nat.mod_lt _ (by decide)

theorem crypto_nonNeg (R : Xrand.Entropy) : NonNeg (cryptoSource R) := by
  intro q v q' h
  simp only [cryptoSource, Xrand.int63] at h
  cases e : Xrand.uint64 R q with
  | mk a q1 =>
    rw [e] at h
    cases a with
    | error m => simp only at h; cases h
    | ok u =>
      simp only at h
      cases h
      rw [Xrand.mask]
      exact Nat.mod_lt _ (by decide)

/-- A generator that was made properly does not panic. -/
theorem rng_safe (C : Cipher) : Safe (rngSource C) Good := by
  intro r h
  obtain ⟨r', v, out, ev, h1, h2, h3, h4⟩ := uint64_is_read (C := C) h (List.replicate 8 0) (by simp)
  obtain ⟨w, e, -, -⟩ := int63_spec h1
  obtain ⟨r'', out', ev', e1, hg, -⟩ := read_returns (C := C) h (List.replicate 8 0)
  rw [h2] at e1
  cases e1
  refine ⟨w, r', ?_, hg⟩
  show (Secrand.int63 C r).map (fun x => (x.2.1, x.1)) = _
  rw [e]; rfl

/-! ## What the generator's bytes become -/

variable {seed nonce : List Byte} {rounds size : Nat}

/-- The seven lower bytes of the number made of eight bytes without its highest bit. -/
theorem low_of (b0 b1 b2 b3 b4 b5 b6 b7 : Byte) {w : BitVec 64}
    (h : w.toNat = leValue [b0, b1, b2, b3, b4, b5, b6, b7] % 2 ^ 63) : low w 7 = [b0, b1, b2, b3, b4, b5, b6] := by
  have h0 := b0.isLt
  have h1 := b1.isLt
  have h2 := b2.isLt
  have h3 := b3.isLt
  have h4 := b4.isLt
  have h5 := b5.isLt
  have h6 := b6.isLt
  have h7 := b7.isLt
  simp only [leValue] at h
  have e : low w 7 = [(w >>> 0).setWidth 8, (w >>> 8).setWidth 8, (w >>> 16).setWidth 8, (w >>> 24).setWidth 8, (w >>> 32).setWidth 8,
      (w >>> 40).setWidth 8, (w >>> 48).setWidth 8] := rfl
  rw [e]
  have key : ∀ (s : Nat) (b : Byte), w.toNat / 2 ^ s % 2 ^ 8 = b.toNat → ((w >>> s).setWidth 8 : Byte) = b := by
    intro s b hb
    apply BitVec.eq_of_toNat_eq
    rw [BitVec.toNat_setWidth, BitVec.toNat_ushiftRight, Nat.shiftRight_eq_div_pow, hb]
  rw [key 0 b0 (by omega), key 8 b1 (by omega), key 16 b2 (by omega), key 24 b3 (by omega), key 32 b4 (by omega),
    key 40 b5 (by omega), key 48 b6 (by omega)]

/-- The seven bytes taken of a number are seven bytes of the output. -/
theorem follows_int63 (hsz : 0 < size) (h8 : size % 8 = 0) {p : Nat} (hp : p % 8 = 0) {r : RNG}
    (h : Follows C seed nonce rounds size p r) : ∃ w r', (rngSource C).int63 r = .ok (w, r') ∧
      w.toNat = leValue (outBytes C seed nonce rounds size p 8) % 2 ^ 63 ∧ low w 7 = outBytes C seed nonce rounds size p 7 ∧
      Follows C seed nonce rounds size (p + 8) r' := by
  obtain ⟨j, q, hpj, hq, hn, -, -⟩ := h.place
  have hlen := h.len
  have hleft : r.left = size - q := by simp only [RNG.left]; omega
  have hsize : r.size = size := by simp only [RNG.size]; omega
  have hq8 : q % 8 = 0 := by
    have : j * size % 8 = 0 := by rw [Nat.mul_mod, h8]; simp
    omega
  have hns : NoStraddle r (List.replicate 8 (0 : Byte)).length := by
    rw [List.length_replicate]
    unfold NoStraddle
    rw [hleft, hsize]
    omega
  obtain ⟨r', ev, e1, hf⟩ := follows_read hsz h (List.replicate 8 0) hns
  rw [List.length_replicate] at e1 hf
  obtain ⟨r'', v, out, ev', h1, h2, h3, h4⟩ := uint64_is_read (C := C) h.good (List.replicate 8 0) (by simp)
  rw [e1] at h2
  cases h2
  obtain ⟨w, e, hw, -⟩ := int63_spec h1
  rw [h4] at hw
  refine ⟨w, r', ?_, hw, ?_, hf⟩
  · show (Secrand.int63 C r).map (fun x => (x.2.1, x.1)) = _
    rw [e]; rfl
  · exact low_of _ _ _ _ _ _ _ _ hw

theorem follows_drawn (hsz : 0 < size) (h8 : size % 8 = 0) : ∀ (m p : Nat), p % 8 = 0 → ∀ r : RNG,
    Follows C seed nonce rounds size p r → ∃ ws r', drawn (rngSource C) m r = .ok (ws, r') ∧
      Follows C seed nonce rounds size (p + 8 * m) r' ∧
      ws.flatMap (low · 7) = (List.range (7 * m)).map fun x => outByte C seed nonce rounds size (p + (x / 7 * 8 + x % 7)) := by
  intro m
  induction m with
  | zero => intro p _ r h; exact ⟨[], r, rfl, h, rfl⟩
  | succ m ih =>
    intro p hp r h
    obtain ⟨w, r1, e1, -, hl, hf1⟩ := follows_int63 hsz h8 hp h
    obtain ⟨ws, r2, e2, hf2, hws⟩ := ih (p + 8) (by omega) r1 hf1
    refine ⟨w :: ws, r2, ?_, by rw [show p + 8 * (m + 1) = p + 8 + 8 * m by omega]; exact hf2, ?_⟩
    · show (do let (v, q) ← (rngSource C).int63 r; let (ws, q) ← drawn (rngSource C) m q; .ok (v :: ws, q) :
        Go (List (BitVec 64) × RNG)) = _
      rw [e1]
      simp only [bind, Except.bind]
      rw [e2]
      rfl
    · rw [List.flatMap_cons, hl, hws, show 7 * (m + 1) = 7 + 7 * m by omega, List.range_add, List.map_append, List.map_map]
      have e3 : outBytes C seed nonce rounds size p 7 =
          (List.range 7).map fun x => outByte C seed nonce rounds size (p + (x / 7 * 8 + x % 7)) := by
        unfold outBytes
        apply List.map_congr_left
        intro i hi
        have : i < 7 := by simpa using hi
        rw [show i / 7 * 8 + i % 7 = i by omega]
      rw [e3]
      congr 1
      · apply List.map_congr_left
        intro i _
        simp only [Function.comp]
        rw [show p + 8 + (i / 7 * 8 + i % 7) = p + ((7 + i) / 7 * 8 + (7 + i) % 7) by omega]

end Verif.Rand
