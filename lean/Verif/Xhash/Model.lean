import Verif.Bytes

/-!
# `xhash.Incremental64` (xhash/fast64.go)

The functions in xhash/xxh3.go only call package xxh3, which is not part of the repository; they are not modelled.
-/

namespace Verif.Xhash

/-- xhash/fast64.go:12 -/
def key000 : BitVec 64 := 0xbe4ba423396cfeb8
/-- xhash/fast64.go:13 -/
def key008 : BitVec 64 := 0x1cad21f72c81017c
/-- xhash/fast64.go:14 -/
def key016 : BitVec 64 := 0xdb979083e96dd4de

/-- xhash/fast64.go:21-28; `bits.RotateLeft64` is `BitVec.rotateLeft`. -/
def rrmxmx (h : BitVec 64) : BitVec 64 :=
  let h := h ^^^ (h.rotateLeft 49 ^^^ h.rotateLeft 24)
  let h := h * 0x9fb21c651e98df25#64
  let h := h ^^^ ((h >>> 35) + 8#64)
  let h := h * 0x9fb21c651e98df25#64
  h ^^^ (h >>> 28)

/-- xhash/fast64.go:30-33 -/
def uint64 (v : BitVec 64) : BitVec 64 := rrmxmx (v ^^^ (key008 ^^^ key016))

/-- `bits.ReverseBytes32` -/
def reverseBytes32 (x : BitVec 32) : BitVec 32 :=
  x.extractLsb' 0 8 ++ x.extractLsb' 8 8 ++ x.extractLsb' 16 8 ++ x.extractLsb' 24 8

/-- xhash/fast64.go:36-40; `^` and `-` have the same precedence in Go. -/
def uint64Seed (v seed : BitVec 64) : BitVec 64 :=
  let seed := seed ^^^ ((reverseBytes32 (seed.setWidth 32)).setWidth 64 <<< 32)
  rrmxmx (v ^^^ ((key008 ^^^ key016) - seed))

/-- The state of an `Incremental64` is its field `h`; `NewFast64` (xhash/fast64.go:17-19). -/
def newFast64 : BitVec 64 := key000

/-- xhash/fast64.go:42-44 -/
def writeUint64 (h v : BitVec 64) : BitVec 64 := uint64Seed v h

/-- A byte slice: the array from the start of the slice on, up to its capacity, and its length. -/
structure Slice where
  arr : List Byte
  len : Nat
  ok : len ≤ arr.length

/-- The bytes of a slice. -/
def Slice.bytes (p : Slice) : List Byte := p.arr.take p.len

/-- The loop of `Write` (xhash/fast64.go:49-51). `p[i : i+8]` is in range if `i+8` is not above the *capacity*. Returns
the state, also after a panic, and `i`. -/
def writeLoop (p : Slice) (i : Nat) (h : BitVec 64) : BitVec 64 × Go Nat :=
  if i < p.len then
    match goSlice p.arr i (i + 8) >>= toUint64 with
    | .error msg => (h, .error msg)
    | .ok w => writeLoop p (i + 8) (writeUint64 h w)
  else (h, .ok i)
  termination_by p.len - i

/-- `Write` (xhash/fast64.go:46-58): the state and the returned `n`; the returned error is nil. -/
def write (h : BitVec 64) (p : Slice) : BitVec 64 × Go Nat :=
  match writeLoop p 0 (writeUint64 h (BitVec.ofNat 64 p.len)) with
  | (h, .error msg) => (h, .error msg)
  | (h, .ok i) =>
    if i < p.len then
      let rem := (p.bytes.drop i).take 8
      match toUint64 (rem ++ List.replicate (8 - rem.length) 0) with
      | .error msg => (h, .error msg)
      | .ok w => (writeUint64 h w, .ok i)
    else (h, .ok i)

/-- `Sum64` (xhash/fast64.go:78-80) -/
def sum64 (h : BitVec 64) : BitVec 64 := uint64 h

/-- `Sum` (xhash/fast64.go:60-64): the state and the result. -/
def sum (h : BitVec 64) (b : List Byte) : BitVec 64 × Go (List Byte) :=
  (h, do
    let a ← putUint64 (List.replicate 8 0) (sum64 h)
    return b ++ a)

/-- `Reset` (xhash/fast64.go:66-68) -/
def reset (_ : BitVec 64) : BitVec 64 := newFast64

/-- `Size` (xhash/fast64.go:70-72) -/
def size (_ : BitVec 64) : Nat := 8

/-- `BlockSize` (xhash/fast64.go:74-76) -/
def blockSize (_ : BitVec 64) : Nat := 8

end Verif.Xhash
