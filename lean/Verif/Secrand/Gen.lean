import Verif.Secrand.EveryRead
import Verif.Secrand.Chacha

/-!
# C141: what secrand/dieharder_test/main.go prints

The program prints the output of a generator for ever, in one of two ways: eight bytes at a time with `Uint64`, or 499 bytes at
a time with `Read`. A run is cut off after a number of turns of its loop. Parsing the seed is left out.
-/

namespace Verif.Secrand.Gen

open Verif.Secrand

variable {C : Cipher} {nonce : List Byte}

/-- `seed32` (secrand/dieharder_test/main.go:21-22): the eight bytes of the number, then zeros. -/
def seed32 (seed : BitVec 64) : List Byte := bytesOf seed ++ List.replicate 24 0

/-- `n` turns of the loop without `-raw` (secrand/dieharder_test/main.go:30-31): what they print. `ibuf` is the variable
of that name, before. -/
def words (C : Cipher) : Nat → RNG → List Byte → Go (List Byte)
  | 0, _, _ => .ok []
  | n + 1, r, ibuf => do
    let (r, v, _) ← uint64 C r
    let ibuf ← putUint64 ibuf v
    let more ← words C n r ibuf
    return ibuf ++ more

/-- `n` turns of the loop with `-raw` (secrand/dieharder_test/main.go:27-28). `buf` is the variable of that name, before. -/
def raws (C : Cipher) : Nat → RNG → List Byte → Go (List Byte)
  | 0, _, _ => .ok []
  | n + 1, r, buf => do
    let (r, buf, _, _) ← read C r buf
    let more ← raws C n r buf
    return buf ++ more

/-- The program (secrand/dieharder_test/main.go:11-34): what `n` turns of its loop print. `nonce` is `_defaultNonce`. -/
def main (C : Cipher) (nonce : List Byte) (seed : BitVec 64) (raw : Bool) (n : Nat) : Go (List Byte) := do
  let r ← newRNGFromSeed C nonce (seed32 seed)
  if raw then raws C n r (List.replicate 499 0) else words C n r (List.replicate 8 0)

/-! ## Words -/

theorem words_follow {seed : List Byte} : ∀ (n k : Nat) (r : RNG) (ibuf : List Byte), ibuf.length = 8 →
    Follows C seed nonce 12 1024 (8 * k) r →
    words C n r ibuf = .ok (outBytes C seed nonce 12 1024 (8 * k) (8 * n)) := by
  intro n
  induction n with
  | zero => exact fun k r ibuf _ _ => rfl
  | succ n ih =>
    intro k r ibuf hi h
    have hns : NoStraddle r (List.replicate 8 (0 : Byte)).length := by
      obtain ⟨j, q, hp, hq, hrn, -, -⟩ := h.place
      have hl := h.len
      simp only [NoStraddle, List.length_replicate, RNG.left, RNG.size]
      omega
    obtain ⟨r1, ev, e1, h1⟩ := follows_read (by decide) h (List.replicate 8 0) hns
    rw [List.length_replicate] at e1 h1
    obtain ⟨r2, v, out, ev2, e2, e3, hout, hv⟩ := uint64_is_read (C := C) h.good (List.replicate 8 0) (by simp)
    rw [e1] at e3
    injection e3 with e3
    injection e3 with e4 e3
    injection e3 with e5 e3
    subst e4 e5
    rw [show 8 * k + 8 = 8 * (k + 1) by omega] at h1
    have hb : bytesOf v = outBytes C seed nonce 12 1024 (8 * k) 8 := by
      refine leValue_inj (by rw [hout]; rfl) ?_
      rw [leValue_bytesOf, hv]
    unfold words
    rw [e2]
    show (putUint64 ibuf v >>= fun ibuf => words C n r1 ibuf >>= fun more => Except.ok (ibuf ++ more)) = _
    rw [putUint64_ok hi]
    show (words C n r1 (bytesOf v) >>= fun more => Except.ok (bytesOf v ++ more)) = _
    rw [ih (k + 1) r1 (bytesOf v) rfl h1, hb]
    show Except.ok _ = Except.ok _
    rw [show 8 * (n + 1) = 8 + 8 * n by omega, outBytes_add, show 8 * k + 8 = 8 * (k + 1) by omega]

/-! ## Blocks -/

theorem bytesAt_add {seed : List Byte} {rounds size : Nat} (ns : List Nat) (p k l : Nat) :
    bytesAt C seed nonce rounds size ns p (k + l) =
      bytesAt C seed nonce rounds size ns p k ++ bytesAt C seed nonce rounds size ns (p + k) l := by
  unfold bytesAt
  rw [List.range_add, List.map_append, List.map_map]
  congr 1
  apply List.map_congr_left
  intro i _
  show byteAt C seed nonce rounds size ns (p + (k + i)) = _
  rw [Nat.add_assoc]

theorem raws_track {seed : List Byte} : ∀ (n : Nat) (ns : List Nat) (r : RNG) (buf : List Byte), buf.length = 499 →
    Tracks C seed nonce 12 1024 ns r →
    raws C n r buf = .ok (bytesAt C seed nonce 12 1024 (ns ++ List.replicate n 499) ns.sum (499 * n)) := by
  intro n
  induction n with
  | zero => exact fun ns r buf _ _ => rfl
  | succ n ih =>
    intro ns r buf hb h
    obtain ⟨r1, ev, e1, h1⟩ := tracks_read (by decide) h buf (by omega)
    rw [hb] at e1 h1
    have e2 := ih (ns ++ [499]) r1 (bytesAt C seed nonce 12 1024 (ns ++ [499]) ns.sum 499) (bytesAt_length _ _ _) h1
    unfold raws
    rw [e1]
    show (raws C n r1 (bytesAt C seed nonce 12 1024 (ns ++ [499]) ns.sum 499) >>= fun more =>
      Except.ok (bytesAt C seed nonce 12 1024 (ns ++ [499]) ns.sum 499 ++ more)) = _
    rw [e2]
    show Except.ok _ = Except.ok _
    have hsum : (ns ++ [499]).sum = ns.sum + 499 := by simp
    rw [hsum, List.replicate_succ, show ns ++ 499 :: List.replicate n 499 = ns ++ [499] ++ List.replicate n 499 by simp]
    have hst := bytesAt_stable (C := C) (seed := seed) (nonce := nonce) (rounds := 12) (size := 1024) (ns := ns ++ [499])
      (List.replicate n 499) (p := ns.sum) (k := 499) (by rw [hsum]; exact Nat.le_refl _)
    rw [← hst, show 499 * (n + 1) = 499 + 499 * n by omega, bytesAt_add]

theorem startOf_replicate (x : Nat) : ∀ (n base : Nat), base ≤ x → x < base + 499 * n →
    startOf (List.replicate n 499) base x = x - (x - base) % 499 := by
  intro n
  induction n with
  | zero => intro base h1 h2; omega
  | succ n ih =>
    intro base h1 h2
    rw [List.replicate_succ, startOf]
    by_cases c : x < base + 499
    · rw [if_pos c, Nat.mod_eq_of_lt (by omega)]; omega
    · rw [if_neg c, ih _ (by omega) (by omega), show x - base = x - (base + 499) + 499 by omega, Nat.add_mod_right]

/-! ## What is printed -/

/-- **C141.** The seed is the number, written with 32 digits to base 256, the lowest first: so different numbers are
different seeds. -/
theorem C141_seed32 (seed : BitVec 64) : (seed32 seed).length = 32 ∧
    (∀ i : Nat, i < 32 → (seed32 seed)[i]? = some (BitVec.ofNat 8 (seed.toNat / 256 ^ i))) ∧
    ∀ seed' : BitVec 64, seed32 seed' = seed32 seed → seed' = seed := by
  refine ⟨rfl, fun i hi => ?_, fun seed' h => ?_⟩
  · have hlt := seed.isLt
    by_cases c : i < 8
    · have : ∀ j : Nat, i = j → j < 8 → (seed32 seed)[j]? = some (BitVec.ofNat 8 (seed.toNat / 256 ^ j)) := by
        intro j _ hj
        match j, hj with
        | 0, _ | 1, _ | 2, _ | 3, _ | 4, _ | 5, _ | 6, _ | 7, _ =>
          refine congrArg some (BitVec.eq_of_toNat_eq ?_)
          simp [Nat.shiftRight_eq_div_pow]
      exact this i rfl c
    · rw [seed32, List.getElem?_append_right (by rw [bytesOf_length]; omega), bytesOf_length,
        List.getElem?_replicate, if_pos (by omega)]
      have h1 : 256 ^ 8 ≤ 256 ^ i := Nat.pow_le_pow_right (by decide) (by omega)
      rw [Nat.div_eq_of_lt (by omega)]
      rfl
  · have := List.append_inj_left h rfl
    have h1 := congrArg leValue this
    rw [leValue_bytesOf, leValue_bytesOf] at h1
    exact BitVec.eq_of_toNat_eq h1

/-- **C141.** Without `-raw` the program prints the bytes of the formula of C105, from the first on. -/
theorem C141_words (hn : nonce.length = 8) (seed : BitVec 64) (n : Nat) :
    main C nonce seed false n = .ok (outBytes C (seed32 seed) nonce 12 1024 0 (8 * n)) := by
  obtain ⟨r, e⟩ := newRNGFromSeed_ok (C := C) (seed := seed32 seed) (by rfl) hn
  unfold main
  rw [e]
  exact words_follow n 0 r _ (by simp) (follows_new (by rfl) hn e)

/-- **C141.** With `-raw` it prints `499 * n` bytes in `n` turns. The 1024 bytes of a filling are those of the formula, except that
the last ones are xored with the bytes printed 1024 places before: as many as the call of `Read` that needed this filling
had taken of the one before, which is the remainder of the filling's first place divided by 499. -/
theorem C141_raw (hn : nonce.length = 8) (seed : BitVec 64) (n : Nat) : ∃ out : List Byte,
    main C nonce seed true n = .ok out ∧ out.length = 499 * n ∧
    ∀ k i : Nat, i < 1024 → 1024 * k + i < 499 * n → out[1024 * k + i]? = some
      (outByte C (seed32 seed) nonce 12 1024 (1024 * k + i) ^^^
        if 1024 ≤ i + 1024 * k % 499 then out.getD (1024 * k + i - 1024) 0 else 0) := by
  obtain ⟨r, e⟩ := newRNGFromSeed_ok (C := C) (seed := seed32 seed) (by rfl) hn
  refine ⟨bytesAt C (seed32 seed) nonce 12 1024 (List.replicate n 499) 0 (499 * n), ?_, bytesAt_length _ _ _, ?_⟩
  · unfold main
    rw [e]
    exact raws_track n [] r _ List.length_replicate (tracks_new (by rfl) hn e)
  · intro k i hi hp
    rw [bytesAt_get _ hp, Nat.zero_add, byteAt]
    have hdiv : (1024 * k + i) / 1024 * 1024 = 1024 * k := by omega
    rw [hdiv, startOf_replicate _ n 0 (Nat.zero_le _) (by omega), Nat.sub_zero]
    have hm : 1024 * k % 499 < 499 := Nat.mod_lt _ (by decide)
    have hle : 1024 * k % 499 ≤ 1024 * k := Nat.mod_le _ _
    congr 2
    by_cases c : 1024 ≤ i + 1024 * k % 499
    · rw [if_pos c, if_pos (by omega), List.getD_eq_getElem?_getD, bytesAt_get _ (by omega)]
      simp
    · rw [if_neg c, if_neg (by omega)]

/-- **C141.** What the two ways print is the same up to byte 2022 and in the first 526 bytes of every filling. -/
theorem C141_same (hn : nonce.length = 8) (seed : BitVec 64) (n m : Nat) (a b : List Byte)
    (ha : main C nonce seed false n = .ok a) (hb : main C nonce seed true m = .ok b) (p : Nat) (h1 : p < 8 * n)
    (h2 : p < 499 * m) (h : p < 2022 ∨ p % 1024 < 526) : a[p]? = b[p]? := by
  rw [C141_words hn] at ha
  injection ha with ha
  subst ha
  obtain ⟨out, e, -, hout⟩ := C141_raw (C := C) hn seed m
  rw [hb] at e
  injection e with e
  subst e
  have hd := Nat.div_add_mod p 1024
  have hr := Nat.mod_lt p (show 0 < 1024 by decide)
  have := hout (p / 1024) (p % 1024) hr (by omega)
  rw [hd] at this
  rw [this, outBytes_get h1, Nat.zero_add]
  have hm : 1024 * (p / 1024) % 499 < 499 := Nat.mod_lt _ (by decide)
  have : ¬ 1024 ≤ p % 1024 + 1024 * (p / 1024) % 499 := by
    rcases h with h | h
    · have : p / 1024 = 0 ∨ p / 1024 = 1 := by omega
      rcases this with c | c <;> rw [c] <;> omega
    · omega
  rw [if_neg this]
  simp

/-- **C141.** Of the next 26 bytes each is the same exactly if the byte 1024 places before is zero. -/
theorem C141_differ (hn : nonce.length = 8) (seed : BitVec 64) (n m : Nat) (a b : List Byte)
    (ha : main C nonce seed false n = .ok a) (hb : main C nonce seed true m = .ok b) (i : Nat) (hi : i < 26)
    (h1 : 2048 ≤ 8 * n) (h2 : 2048 ≤ 499 * m) : a[2022 + i]? = b[2022 + i]? ↔ a[998 + i]? = some 0 := by
  have hs := C141_same hn seed n m a b ha hb (998 + i) (by omega) (by omega) (by omega)
  rw [C141_words hn] at ha
  injection ha with ha
  subst ha
  obtain ⟨out, e, -, hout⟩ := C141_raw (C := C) hn seed m
  rw [hb] at e
  injection e with e
  subst e
  have := hout 1 (998 + i) (by omega) (by omega)
  rw [if_pos (by omega), show 1024 * 1 + (998 + i) = 2022 + i by omega, show 2022 + i - 1024 = 998 + i by omega,
    List.getD_eq_getElem?_getD, ← hs] at this
  rw [this]
  rw [outBytes_get (by omega), outBytes_get (by omega)]
  simp only [Nat.zero_add, Option.getD_some, Option.some.injEq]
  generalize outByte C (seed32 seed) nonce 12 1024 (2022 + i) = x
  generalize outByte C (seed32 seed) nonce 12 1024 (998 + i) = y
  constructor
  · intro h
    have := congrArg (x ^^^ ·) h
    simp only [← BitVec.xor_assoc, BitVec.xor_self, BitVec.zero_xor] at this
    exact this.symm
  · rintro rfl
    simp

/-- A nonce. -/
def oneNonce : List Byte := [1, 0, 0, 0, 0, 0, 0, 0]

/-- **C141.** The seed does not determine what is printed: `_defaultNonce` is drawn anew by every process, and with ChaCha two
nonces give different first words for the same seed. -/
theorem C141_nonce : ∃ a b, main chacha zeroNonce 0 false 1 = .ok a ∧ main chacha oneNonce 0 false 1 = .ok b ∧ a ≠ b := by
  refine ⟨_, _, C141_words (by rfl) 0 1, C141_words (by rfl) 0 1, fun h => ?_⟩
  have := congrArg (·[0]?) h
  simp only [outBytes_get (show 0 < 8 * 1 by decide)] at this
  revert this
  decide +kernel

/-- How much of the fillings before is left over at the second and at the twentieth. -/
example : 1024 * 1 % 499 = 26 ∧ 1024 * 19 % 499 = 494 := by decide

end Verif.Secrand.Gen
