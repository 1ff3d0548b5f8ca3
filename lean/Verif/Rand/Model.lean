import Verif.Bytes

/-!
# The package-level functions of `xrand` and `secrand` (xrand/xrand.go, secrand/secrand.go)

Each takes a `*math/rand.Rand` from the pool, calls the method of the same name and puts the generator back (that is
C65); here is what these methods do with the source of the generator, which is a `secrand.RNG`, the source of
`math/rand`, or `xrand.Crypto()`. The methods are those of `math/rand` of Go 1.18, which is not in /repo; they are
written from its documentation and source as they are known and are part of the trusted base. `Float64` and `Float32`
are in `Verif.Rand.Floats`; `NormFloat64` and `ExpFloat64` are not modelled.

The loops that draw again have no bound; they are `partial_fixpoint` definitions in `Option`, `none` for a loop that
does not end.
-/

namespace Verif.Rand

/-- `rand.Source64`: the next `Int63` and the next `Uint64` (bits). A source may panic. -/
structure Source where
  /-- what the next numbers depend on -/
  σ : Type
  /-- `Int63` -/
  int63 : σ → Go (BitVec 64 × σ)
  /-- `Uint64` -/
  uint64 : σ → Go (BitVec 64 × σ)

variable (S : Source)

/-- A method: may panic, or not end. -/
abbrev Draw (α : Type) := StateT S.σ (ExceptT String Option) α

/-- A panic. -/
def panic {α : Type} (m : String) : Draw S α := fun _ => some (.error m)

/-- `Rand.Int63`: xrand/xrand.go:5-9, secrand/secrand.go:5-9. -/
def int63 : Draw S (BitVec 64) := fun q => some (S.int63 q)

/-- `Rand.Uint64` of a `Source64`: xrand/xrand.go:21-25, secrand/secrand.go:21-25. -/
def uint64 : Draw S (BitVec 64) := fun q => some (S.uint64 q)

/-- `Rand.Uint32`, `uint32(r.Int63() >> 31)`: xrand/xrand.go:13-17, secrand/secrand.go:13-17. -/
def uint32 : Draw S (BitVec 32) := do return ((← int63 S).sshiftRight 31).setWidth 32

/-- `Rand.Int31`, `int32(r.Int63() >> 32)`: xrand/xrand.go:29-33, secrand/secrand.go:29-33. -/
def int31 : Draw S (BitVec 32) := do return ((← int63 S).sshiftRight 32).setWidth 32

/-- `Rand.Int`, `u := uint(r.Int63()); int(u << 1 >> 1)`: xrand/xrand.go:36-40, secrand/secrand.go:36-40. -/
def int : Draw S (BitVec 64) := do return (← int63 S) <<< 1 >>> 1

/-- `v := draw(); for bad(v) { v = draw() }` -/
def again {α : Type} (draw : S.σ → Option (Go (α × S.σ))) (bad : α → Bool) (q : S.σ) : Option (Go (α × S.σ)) :=
  match draw q with
  | none => none
  | some (.error e) => some (.error e)
  | some (.ok (v, q')) => if bad v then again draw bad q' else some (.ok (v, q'))
partial_fixpoint

/-- `Rand.Int63n`: xrand/xrand.go:45-49, secrand/secrand.go:45-49. -/
def int63n (n : BitVec 64) : Draw S (BitVec 64) :=
  if n.sle 0 then panic S "invalid argument to Int63n"
  else if n &&& (n - 1) = 0 then do
    return (← int63 S) &&& (n - 1)
  else do
    let max : BitVec 64 := BitVec.ofNat 64 (2 ^ 63 - 1) - BitVec.ofNat 64 (2 ^ 63) % n
    let v ← again S (int63 S) fun v => max.slt v
    return v.srem n

/-- `Rand.Int31n`: xrand/xrand.go:54-58, secrand/secrand.go:54-58. -/
def int31n (n : BitVec 32) : Draw S (BitVec 32) :=
  if n.sle 0 then panic S "invalid argument to Int31n"
  else if n &&& (n - 1) = 0 then do
    return (← int31 S) &&& (n - 1)
  else do
    let max : BitVec 32 := BitVec.ofNat 32 (2 ^ 31 - 1) - BitVec.ofNat 32 (2 ^ 31) % n
    let v ← again S (int31 S) fun v => max.slt v
    return v.srem n

/-- `Rand.Intn`: xrand/xrand.go:63-67, secrand/secrand.go:63-67. -/
def intn (n : BitVec 64) : Draw S (BitVec 64) :=
  if n.sle 0 then panic S "invalid argument to Intn"
  else if n.sle (BitVec.ofNat 64 (2 ^ 31 - 1)) then do
    return (← int31n S (n.setWidth 32)).signExtend 64
  else int63n S n

/-- `v = r.Uint32(); prod = uint64(v) * uint64(n)` -/
def prodOf (n : BitVec 32) : Draw S (BitVec 64) := do return (← uint32 S).setWidth 64 * n.signExtend 64

/-- The faster method `Shuffle` uses; `low` is `uint32(prod)`, `thresh` is `uint32(-n) % uint32(n)`. It may be called
with `n > 0` only. -/
def int31nFast (n : BitVec 32) : Draw S (BitVec 32) := do
  let prod ← prodOf S n
  if (prod.setWidth 32 : BitVec 32) < n then do
    let thresh : BitVec 32 := (-n) % n
    if (prod.setWidth 32 : BitVec 32) < thresh then do
      let prod ← again S (prodOf S n) fun prod : BitVec 64 =>
        decide ((prod.setWidth 32 : BitVec 32) < thresh)
      return (prod >>> 32).setWidth 32
    else return (prod >>> 32).setWidth 32
  else return (prod >>> 32).setWidth 32

/-- The loop of `Rand.Perm` from `i` on, `k` rounds to go. -/
def permLoop : (k i : Nat) → List Int → Draw S (List Int)
  | 0, _, m => return m
  | k + 1, i, m => do
    let j ← intn S (BitVec.ofNat 64 (i + 1))
    let x ← fun q => some ((goGet m j.toInt).map (·, q))
    let m ← fun q => some ((goSet m i x).map (·, q))
    let m ← fun q => some ((goSet m j.toInt i).map (·, q))
    permLoop k (i + 1) m

/-- `Rand.Perm`: xrand/xrand.go:87-91, secrand/secrand.go:87-91. `make` panics for a negative length. -/
def perm (n : Int) : Draw S (List Int) :=
  if n < 0 then panic S "makeslice: len out of range" else permLoop S n.toNat 0 (List.replicate n.toNat 0)

/-- The index `j` of `Rand.Shuffle` for `i`. -/
def shuffleIndex (i : Nat) : Draw S Int :=
  if 2 ^ 31 - 1 - 1 < i then do return (← int63n S (BitVec.ofNat 64 (i + 1))).toInt
  else do return (← int31nFast S (BitVec.ofNat 32 (i + 1))).toInt

/-- `Rand.Shuffle`'s loop from `i` down; `swap` changes some state `τ` and may panic. -/
def shuffleLoop {τ : Type} (swap : τ → Nat → Int → Go τ) : Nat → τ → Draw S τ
  | 0, s => return s
  | i + 1, s => do
    let j ← shuffleIndex S (i + 1)
    let s ← fun q => some ((swap s (i + 1) j).map (·, q))
    shuffleLoop swap i s

/-- `Rand.Shuffle`: xrand/xrand.go:96-100, secrand/secrand.go:96-100. -/
def shuffle {τ : Type} (n : Int) (swap : τ → Nat → Int → Go τ) (s : τ) : Draw S τ :=
  if n < 0 then panic S "invalid argument to Shuffle" else shuffleLoop S swap (n.toNat - 1) s

/-- `rand.Rand`, as far as `Read` is concerned: the source and what is left of its last number. -/
structure State where
  /-- `src` -/
  src : S.σ
  /-- `readVal` -/
  val : BitVec 64
  /-- `readPos` -/
  pos : Nat

/-- `rand.New`. -/
def new (q : S.σ) : State S := ⟨q, 0, 0⟩

/-- `Rand.Read` into a slice of length `k`: xrand/xrand.go:105-109, secrand/secrand.go:105-109. What was in the slice
does not matter, every place is assigned to. The result is the contents; `n` is the length and `err` nil. -/
def read : Nat → State S → Go (List Byte × State S)
  | 0, r => .ok ([], r)
  | k + 1, r => do
    let r ← if r.pos = 0 then do
        let (v, q) ← S.int63 r.src
        pure (⟨q, v, 7⟩ : State S)
      else pure r
    let (bs, r') ← read k ⟨r.src, r.val.sshiftRight 8, r.pos - 1⟩
    .ok (r.val.setWidth 8 :: bs, r')

end Verif.Rand
