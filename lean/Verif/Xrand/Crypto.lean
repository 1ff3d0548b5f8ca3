import Verif.Bytes

/-!
# `xrand.Crypto` (xrand/crypto.go)

The operating system's source of random bytes is arbitrary: it has a state and at each call either gives as
many bytes as asked for or an error.
-/

namespace Verif.Xrand

/-- `crypto/rand.Read`: bytes filling the whole slice, or an error (`none`). -/
structure Entropy where
  /-- what the next bytes depend on -/
  σ : Type
  /-- `Read` into a slice of the given length -/
  read : Nat → σ → Option (List Byte) × σ
  /-- without an error the slice is filled -/
  fills : ∀ n q bs, (read n q).1 = some bs → bs.length = n

variable (R : Entropy)

/-- `cryptoSource.Uint64` (xrand/crypto.go:17-24); `binary.LittleEndian.Uint64` is `toUint64`. -/
def uint64 (q : R.σ) : Go (BitVec 64) × R.σ :=
  match R.read 8 q with
  | (none, q') => (.error "cannot read from crypto/rand", q')
  | (some b, q') => (toUint64 b, q')

/-- `cryptoSource.Int63` (xrand/crypto.go:13-15): the result is an `int64`. -/
def int63 (q : R.σ) : Go (BitVec 64) × R.σ :=
  match uint64 R q with
  | (.error e, q') => (.error e, q')
  | (.ok v, q') => (.ok (v &&& ~~~ (1#64 <<< 63)), q')

/-- `cryptoSource.Seed` (xrand/crypto.go:11). -/
def seed (_ : BitVec 64) (q : R.σ) : R.σ := q

theorem mask (v : BitVec 64) : (v &&& ~~~ (1#64 <<< 63)).toNat = v.toNat % 2 ^ 63 := by
  have : (~~~ (1#64 <<< 63)).toNat = 2 ^ 63 - 1 := by decide
  rw [BitVec.toNat_and, this, Nat.and_two_pow_sub_one_eq_mod]

/-- **C94.** `Uint64` makes one read of eight bytes and returns their little-endian value, or panics if the
read fails; `Int63` returns the same without the highest bit, as a non-negative `int64`; `Seed` has no effect. -/
theorem C94_value (q : R.σ) :
    (match R.read 8 q with
     | (none, q') => uint64 R q = (.error "cannot read from crypto/rand", q') ∧
        int63 R q = (.error "cannot read from crypto/rand", q')
     | (some bs, q') => ∃ v w : BitVec 64, uint64 R q = (.ok v, q') ∧ int63 R q = (.ok w, q') ∧
        v.toNat = leValue bs ∧ w.toInt = (leValue bs : Int) % 2 ^ 63) ∧
    ∀ s, uint64 R (seed R s q) = uint64 R q ∧ int63 R (seed R s q) = int63 R q := by
  refine ⟨?_, fun s => ⟨rfl, rfl⟩⟩
  rcases h : R.read 8 q with ⟨_ | bs, q'⟩
  · simp [uint64, int63, h]
  · have hl := R.fills 8 q bs (by rw [h])
    obtain ⟨v, hv, hn⟩ := toUint64_spec (b := bs) (by omega)
    rw [List.take_of_length_le (by omega)] at hn
    refine ⟨v, v &&& ~~~ (1#64 <<< 63), ?_, ?_, hn, ?_⟩
    · simp [uint64, h, hv]
    · simp [int63, uint64, h, hv]
    · have := mask v
      rw [BitVec.toInt_eq_toNat_cond, this, hn]
      omega

/-- An entropy source that gives these eight bytes. -/
def Gives (q : R.σ) (bs : List Byte) : Prop := (R.read 8 q).1 = some bs

/-- **C94**, nothing lost: different bytes give different `Uint64`; they give the same `Int63` just if they
differ in the highest bit of the last byte at most. Every 64-bit number is the `Uint64` of some eight bytes, so
each is equally likely if all bytes are, and each non-negative `int64` is the `Int63` of exactly two. -/
theorem C94_uniform :
    (∀ (q₁ q₂ : R.σ) bs₁ bs₂, Gives R q₁ bs₁ → Gives R q₂ bs₂ →
      ((uint64 R q₁).1 = (uint64 R q₂).1 ↔ bs₁ = bs₂) ∧
      ((int63 R q₁).1 = (int63 R q₂).1 ↔
        bs₁.take 7 = bs₂.take 7 ∧ (bs₁.drop 7).map (· &&& 0x7f#8) = (bs₂.drop 7).map (· &&& 0x7f#8))) ∧
    ∀ v : BitVec 64, ∃ bs : List Byte, bs.length = 8 ∧ ∀ q, Gives R q bs → (uint64 R q).1 = .ok v := by
  have val : ∀ (q : R.σ) bs, Gives R q bs → bs.length = 8 ∧ ∃ v : BitVec 64, (uint64 R q).1 = .ok v ∧
      (int63 R q).1 = .ok (v &&& ~~~ (1#64 <<< 63)) ∧ v.toNat = leValue bs := by
    intro q bs h
    have hl := R.fills 8 q bs h
    obtain ⟨v, hv, hn⟩ := toUint64_spec (b := bs) (by omega)
    rw [List.take_of_length_le (by omega)] at hn
    have h' : R.read 8 q = (some bs, (R.read 8 q).2) := by rw [← h]
    refine ⟨hl, v, ?_, ?_, hn⟩
    · unfold uint64; rw [h']; exact hv
    · unfold int63 uint64; rw [h']; simp only; rw [hv]
  refine ⟨fun q₁ q₂ bs₁ bs₂ h₁ h₂ => ?_, fun v => ⟨bytesOf v, rfl, fun q h => ?_⟩⟩
  · obtain ⟨l₁, v₁, e₁, f₁, n₁⟩ := val q₁ bs₁ h₁
    obtain ⟨l₂, v₂, e₂, f₂, n₂⟩ := val q₂ bs₂ h₂
    constructor
    · rw [e₁, e₂]
      constructor
      · intro h
        cases h
        exact leValue_inj (by omega) (by omega)
      · rintro rfl
        rw [BitVec.eq_of_toNat_eq (n₁.trans n₂.symm)]
    · rw [f₁, f₂]
      have key : (v₁ &&& ~~~ (1#64 <<< 63)) = (v₂ &&& ~~~ (1#64 <<< 63)) ↔
          leValue bs₁ % 2 ^ 63 = leValue bs₂ % 2 ^ 63 := by
        rw [← BitVec.toNat_inj, mask, mask, n₁, n₂]
      rw [Except.ok.injEq, key]
      match bs₁, l₁, bs₂, l₂ with
      | [a0, a1, a2, a3, a4, a5, a6, a7], _, [b0, b1, b2, b3, b4, b5, b6, b7], _ =>
        have m : ∀ x : Byte, (x &&& 0x7f#8).toNat = x.toNat % 2 ^ 7 := by
          intro x
          rw [BitVec.toNat_and, ← Nat.and_two_pow_sub_one_eq_mod]; rfl
        simp only [leValue, List.take, List.drop, List.map, List.cons.injEq, and_true, ← BitVec.toNat_inj, m]
        have p0 := a0.isLt; have p1 := a1.isLt; have p2 := a2.isLt; have p3 := a3.isLt
        have p4 := a4.isLt; have p5 := a5.isLt; have p6 := a6.isLt; have p7 := a7.isLt
        have r0 := b0.isLt; have r1 := b1.isLt; have r2 := b2.isLt; have r3 := b3.isLt
        have r4 := b4.isLt; have r5 := b5.isLt; have r6 := b6.isLt; have r7 := b7.isLt
        omega
  · obtain ⟨-, w, e, -, n⟩ := val q _ h
    rw [e]
    congr 1
    exact BitVec.eq_of_toNat_eq (n.trans (leValue_bytesOf v))

/-- A source that counts: `1 0 0 0 0 0 0 128`, then an error. -/
def counting : Entropy where
  σ := Nat
  read n q := if q = 0 ∧ n = 8 then (some [1, 0, 0, 0, 0, 0, 0, 128], 1) else (none, q + 1)
  fills n q bs h := by
    by_cases h' : q = 0 ∧ n = 8
    · rw [if_pos h'] at h; cases h; exact h'.2.symm
    · rw [if_neg h'] at h; cases h

example : uint64 counting (0 : Nat) = (.ok 0x8000000000000001#64, (1 : Nat)) ∧
    int63 counting (0 : Nat) = (.ok 1#64, (1 : Nat)) ∧
    int63 counting (1 : Nat) = (.error "cannot read from crypto/rand", (2 : Nat)) := ⟨rfl, rfl, rfl⟩

example : Gives counting (0 : Nat) [1, 0, 0, 0, 0, 0, 0, 128] := rfl

end Verif.Xrand
