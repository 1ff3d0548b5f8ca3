import Verif.Src.HashProg

/-!
# xhash: numbers as bit vectors, and the functions without memory
-/

namespace Verif.Src.Hash

variable {E : Type} (g : Nat → Nat → Nat) (m : Mem E)

/-- A `uint64` as a value. -/
abbrev u64 (v : BitVec 64) : Val E := .num .u64 (v.toNat : Int)
/-- A `uint32` as a value. -/
abbrev u32 (v : BitVec 32) : Val E := .num .u32 (v.toNat : Int)
/-- A byte as a value. -/
abbrev u8 (v : Byte) : Val E := .num .u8 (v.toNat : Int)

section
variable (X : Ctx E) (a b : BitVec 64) {k : Int}

theorem wrap_toNat {n : Nat} (e : a.toNat = n % 2 ^ 64) : wrap .u64 (n : Int) = (a.toNat : Int) := by
  show (n : Int) % 2 ^ 64 = _
  rw [e]; omega

theorem xor_src : binop X "^" (u64 a) (u64 b) = pure (u64 (a ^^^ b)) := by
  have : arith (E := E) "^" .u64 (a.toNat : Int) (b.toNat : Int) = pure (u64 (a ^^^ b)) := by
    go_run [u64, BitVec.toNat_xor, Int.toNat_natCast]
  simpa [binop, join] using this

theorem or_src : binop X "|" (u64 a) (u64 b) = pure (u64 (a ||| b)) := by
  have : arith (E := E) "|" .u64 (a.toNat : Int) (b.toNat : Int) = pure (u64 (a ||| b)) := by
    go_run [u64, BitVec.toNat_or, Int.toNat_natCast]
  simpa [binop, join] using this

theorem xorLit_src (h0 : 0 ≤ k) (h1 : k < 2 ^ 64) : binop X "^" (u64 a) (.num .lit k) = pure (u64 (a ^^^ BitVec.ofNat 64 k.toNat)) := by
  have : arith (E := E) "^" .u64 (a.toNat : Int) k = pure (u64 (a ^^^ BitVec.ofNat 64 k.toNat)) := by
    go_run [u64, BitVec.toNat_xor, Int.toNat_natCast, BitVec.toNat_ofNat, Nat.mod_eq_of_lt]
  simpa [binop, join] using this

theorem mulLit_src (h0 : 0 ≤ k) : binop X "*" (u64 a) (.num .lit k) = pure (u64 (a * BitVec.ofNat 64 k.toNat)) := by
  obtain ⟨n, rfl⟩ := Int.eq_ofNat_of_zero_le h0
  have e : (a * BitVec.ofNat 64 n).toNat = (a.toNat * n) % 2 ^ 64 := by simp [BitVec.toNat_mul]
  have : arith (E := E) "*" .u64 (a.toNat : Int) n = pure (u64 (a * BitVec.ofNat 64 n)) := by
    go_run []
    rw [← Int.natCast_mul, wrap_toNat _ e]
  simpa [binop, join] using this

theorem addLit_src (h0 : 0 ≤ k) : binop X "+" (u64 a) (.num .lit k) = pure (u64 (a + BitVec.ofNat 64 k.toNat)) := by
  obtain ⟨n, rfl⟩ := Int.eq_ofNat_of_zero_le h0
  have e : (a + BitVec.ofNat 64 n).toNat = (a.toNat + n) % 2 ^ 64 := by simp [BitVec.toNat_add]
  have : arith (E := E) "+" .u64 (a.toNat : Int) n = pure (u64 (a + BitVec.ofNat 64 n)) := by
    go_run []
    rw [← Int.natCast_add, wrap_toNat _ e]
  simpa [binop, join] using this

theorem litSub_src (h0 : 0 ≤ k) : binop X "-" (.num .lit k) (u64 a) = pure (u64 (BitVec.ofNat 64 k.toNat - a)) := by
  obtain ⟨n, rfl⟩ := Int.eq_ofNat_of_zero_le h0
  have := a.isLt
  have e : wrap .u64 ((n : Int) - (a.toNat : Int)) = ((BitVec.ofNat 64 n - a).toNat : Int) := by
    show ((n : Int) - (a.toNat : Int)) % 2 ^ 64 = _
    rw [BitVec.toNat_sub, BitVec.toNat_ofNat]; omega
  have : arith (E := E) "-" .u64 (n : Int) (a.toNat : Int) = pure (u64 (BitVec.ofNat 64 n - a)) := by
    go_run []
    rw [e]
  simpa [binop, join] using this

theorem shl_src (h0 : 0 ≤ k) : binop X "<<" (u64 a) (.num .lit k) = pure (u64 (a <<< k.toNat)) := by
  obtain ⟨n, rfl⟩ := Int.eq_ofNat_of_zero_le h0
  have e : (a <<< n).toNat = (a.toNat * 2 ^ n) % 2 ^ 64 := by rw [BitVec.toNat_shiftLeft, Nat.shiftLeft_eq]
  have : binop X "<<" (u64 a) (.num .lit (n : Int)) = pure (u64 (a <<< n)) := by
    go_run [Int.toNat_natCast]
    have c : (a.toNat : Int) * 2 ^ n = ((a.toNat * 2 ^ n : Nat) : Int) := by simp
    rw [c, wrap_toNat _ e]
  simpa using this

theorem shr_src (h0 : 0 ≤ k) : binop X ">>" (u64 a) (.num .lit k) = pure (u64 (a >>> k.toNat)) := by
  obtain ⟨n, rfl⟩ := Int.eq_ofNat_of_zero_le h0
  have e : (a >>> n).toNat = a.toNat / 2 ^ n := by rw [BitVec.toNat_ushiftRight, Nat.shiftRight_eq_div_pow]
  have : binop X ">>" (u64 a) (.num .lit (n : Int)) = pure (u64 (a >>> n)) := by
    go_run [Int.toNat_natCast]
    simp [u64, e]
  simpa using this

theorem rotate_src (h0 : 0 ≤ k) : (ctx E g).ext "bits.RotateLeft64" [u64 a, .num .lit k] m = pure ([u64 (a.rotateLeft k.toNat)], m) := by
  obtain ⟨n, rfl⟩ := Int.eq_ofNat_of_zero_le h0
  have : (ctx E g).ext "bits.RotateLeft64" [u64 a, .num .lit (n : Int)] m = pure ([u64 ((BitVec.ofInt 64 (a.toNat : Int)).rotateLeft n)], m) := rfl
  rw [this, BitVec.ofInt_natCast, BitVec.ofNat_toNat, BitVec.setWidth_eq]
  rfl

theorem reverse_src (x : BitVec 32) : (ctx E g).ext "bits.ReverseBytes32" [u32 x] m = pure ([u32 (Xhash.reverseBytes32 x)], m) := by
  have : (ctx E g).ext "bits.ReverseBytes32" [u32 x] m = pure ([u32 (Xhash.reverseBytes32 (BitVec.ofInt 32 (x.toNat : Int)))], m) := rfl
  rw [this, BitVec.ofInt_natCast, BitVec.ofNat_toNat, BitVec.setWidth_eq]

theorem keys_src : binop X "^" (.num .lit 0x1cad21f72c81017c) (.num .lit 0xdb979083e96dd4de) = pure (.num .lit 0xc73ab174c5ecd5a2) := rfl

theorem byte_to64 (x : Byte) : convert (ctx E g) (.name "uint64" []) (u8 x) = pure (u64 (x.setWidth 64)) := by
  have := x.isLt
  go_run [u64, u32, u8]
  rw [BitVec.toNat_setWidth]
  congr 2

theorem word_to64 (x : BitVec 32) : convert (ctx E g) (.name "uint64" []) (u32 x) = pure (u64 (x.setWidth 64)) := by
  have := x.isLt
  go_run [u64, u32, u8]
  rw [BitVec.toNat_setWidth]
  congr 2

theorem int_to64 (n : Nat) : convert (ctx E g) (.name "uint64" []) (.num .int (n : Int)) = pure (u64 (BitVec.ofNat 64 n)) := by
  go_run [u64, u32, u8]
  rw [BitVec.toNat_ofNat]
  congr 2

theorem to32 : convert (ctx E g) (.name "uint32" []) (u64 a) = pure (u32 (a.setWidth 32)) := by
  go_run [u64, u32, u8]
  rw [BitVec.toNat_setWidth]
  congr 2

theorem to8 : convert (ctx E g) (.name "byte" []) (u64 a) = pure (u8 (a.setWidth 8)) := by
  go_run [u64, u32, u8]
  rw [BitVec.toNat_setWidth]
  congr 2

end

theorem rrmxmx_src (n : Nat) (h : BitVec 64) : calls (ctx E g) (n + 1) "rrmxmx" [u64 h] m = pure ([u64 (Xhash.rrmxmx h)], m) := by
  rw [calls]
  go_run [rrmxmx_fn, ↓xor_src, ↓mulLit_src, ↓addLit_src, ↓shr_src, ↓rotate_src]
  rfl

theorem uint64_src (n : Nat) (v : BitVec 64) : calls (ctx E g) (n + 2) "Uint64" [u64 v] m = pure ([u64 (Xhash.uint64 v)], m) := by
  rw [calls]
  go_run [Uint64_fn, ↓keys_src, ↓xorLit_src, ↓rrmxmx_src]
  rfl

theorem uint64Seed_src (n : Nat) (v seed : BitVec 64) :
    calls (ctx E g) (n + 2) "Uint64Seed" [u64 v, u64 seed] m = pure ([u64 (Xhash.uint64Seed v seed)], m) := by
  rw [calls]
  go_run [Uint64Seed_fn, ↓keys_src, ↓xor_src, ↓litSub_src, ↓to32, ↓word_to64, ↓reverse_src, ↓shl_src, ↓rrmxmx_src]
  rfl

/-! ## Objects -/

/-- An `Incremental64` as a value. -/
abbrev obj (h : BitVec 64) : Val E := .struct "Incremental64" [("h", u64 h)]

theorem new_src (n : Nat) : calls (ctx E g) (n + 1) "NewFast64" [] m = pure ([obj Xhash.newFast64], m) := by
  rw [calls]
  go_run [NewFast64_fn]
  rfl

section
variable {m} {a i : Nat} {h : BitVec 64} (hm : m.cell a i = some (obj h))
include hm

theorem sum64_src (n : Nat) : calls (ctx E g) (n + 3) "Incremental64.Sum64" [.ptr a i []] m = pure ([u64 (Xhash.sum64 h)], m) := by
  rw [calls]
  go_run [Incremental64_Sum64_fn, hm, ↓uint64_src]
  rfl

theorem writeUint64_src (n : Nat) (v : BitVec 64) : calls (ctx E g) (n + 3) "Incremental64.WriteUint64" [.ptr a i [], u64 v] m =
    pure ([], m.put a i (obj (Xhash.writeUint64 h v))) := by
  rw [calls]
  go_run [Incremental64_WriteUint64_fn, hm, ↓uint64Seed_src]
  rfl

theorem reset_src (n : Nat) : calls (ctx E g) (n + 2) "Incremental64.Reset" [.ptr a i []] m =
    pure ([], m.put a i (obj (Xhash.reset h))) := by
  rw [calls]
  go_run [Incremental64_Reset_fn, hm, ↓new_src]
  rfl
end

theorem size_src (n : Nat) (v : Val E) : calls (ctx E g) (n + 1) "Incremental64.Size" [v] m = pure ([.num .int 8], m) := by
  rw [calls]
  go_run [Incremental64_Size_fn]

theorem blockSize_src (n : Nat) (v : Val E) : calls (ctx E g) (n + 1) "Incremental64.BlockSize" [v] m = pure ([.num .int 8], m) := by
  rw [calls]
  go_run [Incremental64_BlockSize_fn]

end Verif.Src.Hash
