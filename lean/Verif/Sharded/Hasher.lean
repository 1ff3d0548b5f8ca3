import Verif.Sharded.AnyKey
import Verif.Xrand.Crypto

/-!
# C108: package `hasher` and `NewSharded`

`hasher.Of` takes the hash function out of the runtime's description of a map type (hasher/hasher.go:31-34,
hasher/runtime_go118.go: unsafe, and right only for the Go versions whose layout it copies). That function is
`Runtime.hash` here; what the Go maps themselves rely on is `Runtime.equal`.
-/

namespace Verif.Sharded

open Verif.Conc Verif.GoMap

/-- The runtime's hash of keys of type `K`, `w` the width of `uintptr`. It panics on interface values that hold a slice, a
map or a function, and is random for a NaN: `ω` is where the randomness comes from. -/
structure Runtime (K : Type) [BEq K] (w : Nat) where
  Ω : Type
  hash : Ω → K → BitVec w → Go (BitVec w)
  equal : ∀ ω ω' k k' s, (k == k') = true → hash ω k s = hash ω' k' s

variable {K V : Type} [BEq K] [Inhabited V] {w : Nat}

/-- `defaultSeed` (hasher/hasher.go:9): the low bits of a random `uint64`; a panic at program start if there is none. -/
def defaultSeed (w : Nat) (R : Xrand.Entropy) (q : R.σ) : Go (BitVec w) := (Xrand.uint64 R q).1.map (·.setWidth w)

/-- `Hasher.Hash` (hasher/hasher.go:15-17), `hasher.Hash` (36-38) and `HashOp` (44-46). -/
def Runtime.Hash (h : Runtime K w) (ω : h.Ω) (dflt : BitVec w) (k : K) : Go (BitVec 64) :=
  (h.hash ω k dflt).map (·.setWidth 64)

/-- `Hasher.HashSeed` (hasher/hasher.go:19-21) and `hasher.HashSeed` (40-42). -/
def Runtime.HashSeed (h : Runtime K w) (ω : h.Ω) (k : K) (seed : BitVec 64) : Go (BitVec 64) :=
  (h.hash ω k (seed.setWidth w)).map (·.setWidth 64)

/-- `Hasher.HashPointer` (hasher/hasher.go:23-25): the key is where the pointer points. -/
def Runtime.HashPointer {P : Type} (h : Runtime K w) (ω : h.Ω) (dflt : BitVec w) (mem : P → K) (p : P) :
    Go (BitVec 64) := (h.hash ω (mem p) dflt).map (·.setWidth 64)

/-- `Hasher.HashPointerSeed` (hasher/hasher.go:27-29). -/
def Runtime.HashPointerSeed {P : Type} (h : Runtime K w) (ω : h.Ω) (mem : P → K) (p : P) (seed : BitVec 64) :
    Go (BitVec 64) := (h.hash ω (mem p) (seed.setWidth w)).map (·.setWidth 64)

/-- The shards of a map made by `NewSharded` (ds/xmap/sharded.go:27-29): `DefaultShards` of them (a variable that anyone
may set), and `HashSeed` with a random seed. For keys on which the hash panics see `Bad`. -/
def newSharded (h : Runtime K w) (ω : h.Ω) (defaultShards : Int) (hi : defaultShards < 2 ^ 63) (seed : BitVec 64) :
    Go (Conf K) :=
  if hp : defaultShards ≤ 0 then .error "invalid number of shards"
  else .ok
    { n := defaultShards.toNat
      pos := by omega
      int := by omega
      hash := fun k s => match h.HashSeed ω k s.toBitVec with
        | .ok v => ⟨v⟩
        | .error _ => 0
      seed := ⟨seed⟩ }

/-- **C108.** The four methods are one: through a pointer is the same as by value, and the default seed is a seed. -/
theorem C108_ways {P : Type} (h : Runtime K w) (hw : w ≤ 64) (ω : h.Ω) (dflt : BitVec w) (seed : BitVec 64) (mem : P → K)
    (p : P) : h.HashPointer ω dflt mem p = h.Hash ω dflt (mem p) ∧
    h.HashPointerSeed ω mem p seed = h.HashSeed ω (mem p) seed ∧
    h.Hash ω dflt (mem p) = h.HashSeed ω (mem p) (dflt.setWidth 64) := by
  refine ⟨rfl, rfl, ?_⟩
  have : (dflt.setWidth 64).setWidth w = dflt := by
    apply BitVec.eq_of_toNat_eq
    rw [BitVec.toNat_setWidth, BitVec.toNat_setWidth,
      Nat.mod_eq_of_lt (a := dflt.toNat) (Nat.lt_of_lt_of_le dflt.isLt (Nat.pow_le_pow_right (by decide) hw)),
      Nat.mod_eq_of_lt dflt.isLt]
  unfold Runtime.Hash Runtime.HashSeed
  rw [this]

/-- **C108.** Keys that are `==` have the same hash, at any time; a hash is less than `2 ^ w`; and of the seed only the
low `w` bits matter. -/
theorem C108_hash (h : Runtime K w) (ω ω' : h.Ω) (k k' : K) (seed seed' : BitVec 64)
    (hk : (k == k') = true) (hs : seed.toNat % 2 ^ w = seed'.toNat % 2 ^ w) :
    h.HashSeed ω k seed = h.HashSeed ω' k' seed' ∧ ∀ v, h.HashSeed ω k seed = .ok v → v.toNat < 2 ^ w := by
  have e : seed.setWidth w = seed'.setWidth w := by
    apply BitVec.eq_of_toNat_eq
    rw [BitVec.toNat_setWidth, BitVec.toNat_setWidth, hs]
  refine ⟨?_, fun v hv => ?_⟩
  · unfold Runtime.HashSeed
    rw [h.equal ω ω' k k' _ hk, e]
  · unfold Runtime.HashSeed at hv
    cases hh : h.hash ω k (seed.setWidth w) with
    | error e => rw [hh] at hv; cases hv
    | ok x =>
      rw [hh] at hv
      cases hv
      rw [BitVec.toNat_setWidth]
      exact Nat.lt_of_le_of_lt (Nat.mod_le _ _) x.isLt

/-- **C108.** `NewSharded` panics iff `DefaultShards` has been set to something that is not positive; otherwise the map
uses the same shard for keys that are `==`, whenever it is asked, so that (C102) it is one map for every key type: any
sequence of calls has the results it would have on one Go map. -/
theorem C108_newSharded [PartialEquivBEq K] (h : Runtime K w) (shards : Int) (hi : shards < 2 ^ 63)
    (seed : BitVec 64) :
    (∀ ω, (newSharded h ω shards hi seed).panics = true ↔ shards ≤ 0) ∧
    ∀ ω0 c0, newSharded h ω0 shards hi seed = .ok c0 →
      (∀ ω c, newSharded h ω shards hi seed = .ok c → Agrees c0 c ∧ (c.n : Int) = shards ∧ ∀ k, shardOf c k < c.n) ∧
      ∀ (t : Tid) (l : List (Op K V × Res K V)) (σ : Sh K V), OneByOne2 c0 t l σ →
        (∀ e ∈ l, e.1 ≠ .iterateShards) → ∃ m : Tab K V, SeqSpec.Run (oneTab K V) [] l m := by
  refine ⟨fun ω => ?_, fun ω0 c0 h0 => ⟨fun ω c hc => ?_, fun t l σ hl hops => (C102_one_map c0 t l σ hl hops).1⟩⟩
  · unfold newSharded
    split <;> rename_i hp <;> simp [Go.panics, hp]
  · unfold newSharded at h0 hc
    split at h0
    · cases h0
    · rename_i hp
      rw [dif_neg hp] at hc
      cases h0
      cases hc
      refine ⟨⟨rfl, fun k k' hk => ?_⟩, by simp; omega, fun k => ?_⟩
      · show (match h.HashSeed ω k seed with | .ok v => (⟨v⟩ : UInt64) | .error _ => 0) =
          match h.HashSeed ω0 k' seed with | .ok v => (⟨v⟩ : UInt64) | .error _ => 0
        unfold Runtime.HashSeed
        rw [h.equal ω ω0 k k' _ hk]
      · exact shardOf_lt _ k

/-- **C108.** The default seed is as random as the operating system's bytes: the low `w` bits of eight of them. -/
theorem C108_defaultSeed (R : Xrand.Entropy) (q : R.σ) : match (R.read 8 q).1 with
    | none => (defaultSeed w R q).panics = true
    | some bs => ∃ s, defaultSeed w R q = .ok s ∧ s.toNat = leValue bs % 2 ^ w := by
  have := (Xrand.C94_value R q).1
  rcases h : R.read 8 q with ⟨_ | bs, q'⟩
  · rw [h] at this
    simp [defaultSeed, this.1, Except.map, Go.panics]
  · rw [h] at this
    obtain ⟨v, -, h1, -, h2, -⟩ := this
    exact ⟨v.setWidth w, by simp [defaultSeed, h1, Except.map], by rw [BitVec.toNat_setWidth, h2]⟩

/-- Numbers and a NaN. -/
inductive Num where
  | nan
  | num (n : Nat)

instance : BEq Num := ⟨fun
  | .num a, .num b => a == b
  | _, _ => false⟩

/-- A hash on a 32-bit machine, random for the NaN. -/
def numHash : Runtime Num 32 where
  Ω := Nat
  hash ω k s := match k with
    | .nan => .ok (BitVec.ofNat 32 ω + s)
    | .num n => .ok (BitVec.ofNat 32 (n * 31) + s)
  equal ω ω' k k' s h := by
    cases k with
    | nan => cases h
    | num a => cases k' with
      | nan => cases h
      | num b =>
        have : a = b := by simpa [BEq.beq] using h
        rw [this]

example : numHash.HashSeed (0 : Nat) (.num 4) 3#64 = .ok 127#64 ∧
    numHash.HashSeed (7 : Nat) (.num 4) 0x500000003#64 = .ok 127#64 ∧
    numHash.HashSeed (0 : Nat) .nan 3#64 ≠ numHash.HashSeed (7 : Nat) .nan 3#64 ∧
    ∃ c, newSharded numHash (0 : Nat) 16 (by decide) 3#64 = .ok c ∧ shardOf c (.num 4) = 15 :=
  ⟨rfl, rfl, by decide, _, rfl, by decide⟩

end Verif.Sharded
