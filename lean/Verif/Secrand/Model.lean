import Verif.Bytes

/-!
# `secrand.RNG` (secrand/rng.go)

Package chacha is represented by an arbitrary keystream function; `chacha` in Verif/Secrand/Chacha.lean is one.
-/

namespace Verif.Secrand

/-- The keystream for a key, a nonce and a number of rounds. -/
abbrev Cipher := List Byte → List Byte → Nat → Nat → Byte

/-- `chacha.KeySize` -/
def keySize : Nat := 32
/-- `chacha.NonceSize` -/
def nonceSize : Nat := 8

/-- The bytes of `l`, each xored with that of the stream. -/
def xorStream (s : Nat → Byte) (l : List Byte) : List Byte := l.mapIdx fun i x => x ^^^ s i

/-- `chacha.XORKeyStream(dst, src, nonce, key, rounds)` with `dst` and `src` the same slice: what is in it afterwards.
Key and nonce are copied before anything is written, so the key may be part of the slice. -/
def xorKeyStream (C : Cipher) (dst nonce key : List Byte) (rounds : Nat) : Go (List Byte) :=
  if key.length ≠ keySize then .error "chacha: bad key length"
  else if nonce.length ≠ nonceSize then .error "chacha: bad nonce length"
  else if rounds ≠ 8 ∧ rounds ≠ 12 ∧ rounds ≠ 20 then .error "chacha: bad number of rounds"
  else .ok (xorStream (C key nonce rounds) dst)

/-- secrand/rng.go:39-44 -/
structure RNG where
  buf : List Byte
  n : Nat
  rounds : Nat
  nonce : List Byte

/-- What a call did with the buffer, for the statements: positions `lo` to `hi-1` were handed out; it was filled anew. -/
inductive Event where
  | out (lo hi : Nat)
  | refill
  deriving DecidableEq

/-- `NewRNGCustom` (secrand/rng.go:76-90) -/
def newRNGCustom (C : Cipher) (seed nonce : List Byte) (bufsize : Int) (rounds : Nat) : Go RNG :=
  if bufsize < keySize * 2 then .error "frand: bufsize must be at least 64"
  else if ¬ (rounds = 8 ∨ rounds = 12 ∨ rounds = 20) then .error "frand: rounds must be 8, 12, or 20"
  else do
    let buf := List.replicate (keySize + bufsize.toNat) (0 : Byte)
    let buf ← xorKeyStream C buf nonce seed rounds
    return { buf := buf, n := keySize, rounds := rounds, nonce := nonce }

/-- Go's `copy(dst, src)`: what is in `dst` afterwards, and how many were copied. -/
def copy (dst src : List Byte) : List Byte × Nat :=
  let n := min dst.length src.length
  (src.take n ++ dst.drop n, n)

/-- `erase(buf[lo:hi])` (secrand/rng.go:148-153) -/
def erase (buf : List Byte) (lo hi : Nat) : List Byte :=
  buf.take lo ++ List.replicate (hi - lo) 0 ++ buf.drop hi

/-- `Read` (secrand/rng.go:101-119): the generator and `b` afterwards, the returned number and the events; the returned
error is nil. `fuel` bounds the depth of the recursion. -/
def readN (C : Cipher) : Nat → RNG → List Byte → Go (RNG × List Byte × Nat × List Event)
  | 0, _, _ => .error "stack overflow"
  | fuel + 1, r, b => do
    let rest ← goSlice r.buf r.n r.buf.length
    if b.length ≤ rest.length then
      -- r.n += copyAndErase(b, r.buf[r.n:])
      let (b', k) := copy b rest
      .ok ({ r with buf := erase r.buf r.n (r.n + k), n := r.n + k }, b', b.length, [.out r.n (r.n + k)])
    else do
      let tail ← goSlice r.buf keySize r.buf.length
      if b.length ≤ rest.length + tail.length then do
        let (b1, k) := copy b rest
        let key ← goSlice r.buf 0 keySize
        let buf ← xorKeyStream C r.buf r.nonce key r.rounds
        let b2 ← goSlice b1 k b1.length
        let src ← goSlice buf keySize buf.length
        let (b2, k2) := copy b2 src
        .ok ({ r with buf := erase buf keySize (keySize + k2), n := keySize + k2 }, b1.take k ++ b2, b.length,
          [.out r.n (r.n + k), .refill, .out keySize (keySize + k2)])
      else do
        let (r, tmpKey, _, ev) ← readN C fuel r (List.replicate keySize 0)
        let b' ← xorKeyStream C b r.nonce tmpKey r.rounds
        .ok (r, b', b.length, ev)

/-- `Read`: the recursion is at most one deep, see `readN_fuel`. -/
def read (C : Cipher) (r : RNG) (b : List Byte) : Go (RNG × List Byte × Nat × List Event) := readN C 2 r b

/-- `Uint64` (secrand/rng.go:135-146) -/
def uint64 (C : Cipher) (r : RNG) : Go (RNG × BitVec 64 × List Event) := do
  let rest ← goSlice r.buf r.n r.buf.length
  if 8 ≤ rest.length then do
    let b ← goSlice r.buf r.n (r.n + 8)
    let v ← toUint64 b
    .ok ({ r with buf := erase r.buf r.n (r.n + 8), n := r.n + 8 }, v, [.out r.n (r.n + 8)])
  else do
    let (r, b, _, ev) ← read C r (List.replicate 8 0)
    let v ← toUint64 b
    .ok (r, v, ev)

/-- `Int63` (secrand/rng.go:121-123): the bits of the returned `int64`. -/
def int63 (C : Cipher) (r : RNG) : Go (RNG × BitVec 64 × List Event) := do
  let (r, v, ev) ← uint64 C r
  .ok (r, v &&& ~~~(1#64 <<< 63), ev)

/-- `Seed` (secrand/rng.go:125-127) -/
def seed (_ : RNG) (_ : Int) : Go RNG := .error "secrand.RNG.Seed is not supported"

/-- A call. -/
inductive Op where
  | read (b : List Byte)
  | uint64
  | int63

/-- The generator after a call, and the events. -/
def Op.run (C : Cipher) (r : RNG) : Op → Go (RNG × List Event)
  | .read b => do
    let (r, _, _, ev) ← Secrand.read C r b
    return (r, ev)
  | .uint64 => do
    let (r, _, ev) ← Secrand.uint64 C r
    return (r, ev)
  | .int63 => do
    let (r, _, ev) ← Secrand.int63 C r
    return (r, ev)

/-- The generator after several calls, and all events. -/
def runAll (C : Cipher) : RNG → List Op → Go (RNG × List Event)
  | r, [] => .ok (r, [])
  | r, op :: ops => do
    let (r, ev) ← op.run C r
    let (r, ev') ← runAll C r ops
    return (r, ev ++ ev')

end Verif.Secrand
