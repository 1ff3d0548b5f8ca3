import Verif.Src.SortLoops

/-!
# Variables in memory beside the slice, and the random words

`choosePivot` keeps `swaps`, and `breakPatterns` keeps `random`, in a cell of its own; the memory grows by it.
-/

namespace Verif.Src.Sort

variable {E : Type} [Inhabited E]

theorem modify_append_lt {α : Type} (f : α → α) (r : List α) {l : List α} {i : Nat} (h : i < l.length) :
    (l ++ r).modify i f = l.modify i f ++ r := by
  induction l generalizing i with
  | nil => cases h
  | cons x l ih =>
    cases i with
    | zero => simp
    | succ i =>
      simp only [List.cons_append, List.modify_succ_cons]
      rw [ih (by simpa using h)]

theorem modify_append_last {α : Type} (f : α → α) (l : List α) (x : α) : (l ++ [x]).modify l.length f = l ++ [f x] := by
  induction l with
  | nil => rfl
  | cons y l ih =>
    simp only [List.cons_append, List.length_cons, List.modify_succ_cons, ih]

/-- `m'` is `m` and further arrays. -/
def Ext (m m' : Mem E) : Prop := ∃ l, m' = { m with arrs := m.arrs ++ l }

section
variable {m m' m'' : Mem E} {v : Val E} {k : Nat}

omit [Inhabited E] in
theorem Ext.refl (m : Mem E) : Ext m m := ⟨[], by simp⟩

omit [Inhabited E] in
theorem Ext.alloc (m : Mem E) (l : List (Val E)) : Ext m (m.alloc l) := ⟨[l], rfl⟩

omit [Inhabited E] in
theorem Ext.trans (h : Ext m m') (h' : Ext m' m'') : Ext m m'' := by
  obtain ⟨l, rfl⟩ := h
  obtain ⟨l', rfl⟩ := h'
  exact ⟨l ++ l', by simp⟩

omit [Inhabited E] in
theorem On.ext (h : On m v k) (e : Ext m m') : On m' v k := by
  obtain ⟨l, rfl⟩ := e
  cases h with
  | nil => exact .nil
  | some h hc hb =>
    refine .some ?_ hc hb
    obtain ⟨hi, _⟩ := List.getElem?_eq_some_iff.mp h
    rw [List.getElem?_append_left hi, h]

omit [Inhabited E] in
theorem On.alloc (h : On m v k) (l : List (Val E)) : On (m.alloc l) v k := h.ext (.alloc m l)

omit [Inhabited E] in
theorem wr_length (m : Mem E) (v : Val E) (d : List E) : (wr m v d).arrs.length = m.arrs.length := by
  unfold wr
  split
  · simp
  · rfl

omit [Inhabited E] in
theorem On.wr_alloc (h : On m v k) (d : List E) (l : List (Val E)) : (wr m v d).alloc l = wr (m.alloc l) v d := by
  cases h with
  | nil => rfl
  | @some a o _ c arr h hc hb =>
    obtain ⟨hi, _⟩ := List.getElem?_eq_some_iff.mp h
    simp only [wr, Mem.alloc, Mem.puts]
    congr 1
    exact (modify_append_lt _ _ hi).symm

omit [Inhabited E] in
theorem On.box (h : On m v k) (d : List E) (x : Val E) : (wr (m.alloc [x]) v d).cell m.arrs.length 0 = .some x := by
  rw [← h.wr_alloc]
  simp [Mem.cell, Mem.alloc, ← wr_length m v d]

omit [Inhabited E] in
theorem On.setBox (h : On m v k) (d : List E) (x y : Val E) :
    (wr (m.alloc [x]) v d).put m.arrs.length 0 y = wr (m.alloc [y]) v d := by
  rw [← h.wr_alloc, ← h.wr_alloc, ← wr_length m v d]
  simp only [Mem.put, Mem.alloc, modify_append_last, List.set_cons_zero]
end

/-! ## Words -/

theorem wrap_lit (n : Int) : wrap .lit n = n := rfl

theorem word_shl (s : String) (r : BitVec 64) (n : Nat) : wrap (.named s) ((r.toNat : Int) * 2 ^ n) = ((r <<< n).toNat : Int) := by
  show ((r.toNat : Int) * 2 ^ n) % 2 ^ 64 = _
  rw [BitVec.toNat_shiftLeft, Nat.shiftLeft_eq]
  simp

theorem word_shr (r : BitVec 64) (n : Nat) : (r.toNat : Int) / 2 ^ n = ((r >>> n).toNat : Int) := by
  rw [BitVec.toNat_ushiftRight, Nat.shiftRight_eq_div_pow]
  simp

theorem word_xor (x y : BitVec 64) : ((x.toNat : Int).toNat ^^^ (y.toNat : Int).toNat) = (x ^^^ y).toNat := by
  simp

theorem word_and (x y : BitVec 64) : ((x.toNat : Int).toNat &&& (y.toNat : Int).toNat) = (x &&& y).toNat := by
  simp

theorem word_named (s : String) (x : BitVec 64) : wrap (.named s) (x.toNat : Int) = (x.toNat : Int) := by
  show (x.toNat : Int) % 2 ^ 64 = _
  have := x.isLt
  omega

theorem word_uint (x : BitVec 64) : wrap .uint (x.toNat : Int) = (x.toNat : Int) := by
  show (x.toNat : Int) % 2 ^ 64 = _
  have := x.isLt
  omega

theorem word_u64 (x : BitVec 64) : wrap .u64 (x.toNat : Int) = (x.toNat : Int) := by
  show (x.toNat : Int) % 2 ^ 64 = _
  have := x.isLt
  omega

theorem word_ofInt (s : String) (n : Int) : wrap (.named s) n = ((BitVec.ofInt 64 n).toNat : Int) := by
  show n % 2 ^ 64 = _
  rw [BitVec.toNat_ofInt]
  have : 0 ≤ n % (2 ^ 64 : Nat) := Int.emod_nonneg _ (by decide)
  rw [Int.toNat_of_nonneg this]
  rfl

theorem word_pred (x : BitVec 64) : wrap .uint ((x.toNat : Int) - 1) = ((x - 1#64).toNat : Int) := by
  show ((x.toNat : Int) - 1) % 2 ^ 64 = _
  rw [BitVec.toNat_sub]
  have := x.isLt
  simp
  omega

theorem word_nonneg (x y : BitVec 64) : 0 ≤ (x.toNat : Int) ∧ 0 ≤ (y.toNat : Int) := by omega

theorem bitsLen_le {n j : Nat} (h : n < 2 ^ j) : Verif.Sort.bitsLen n ≤ j := by
  unfold Verif.Sort.bitsLen
  split
  · omega
  · rename_i hn
    have := (Nat.log2_lt hn).mpr h
    omega

theorem pow_word {n : Nat} (h : n < 2 ^ 60) : (1#64 <<< Verif.Sort.bitsLen n).toNat = 2 ^ Verif.Sort.bitsLen n := by
  have hb := bitsLen_le h
  rw [BitVec.toNat_shiftLeft, Nat.shiftLeft_eq]
  have : (2 : Nat) ^ Verif.Sort.bitsLen n ≤ 2 ^ 60 := Nat.pow_le_pow_right (by decide) hb
  simp
  omega

/-- The masked word is small. -/
theorem mask_lt {n : Nat} (h : n < 2 ^ 60) (x : BitVec 64) : (x &&& (1#64 <<< Verif.Sort.bitsLen n - 1#64)).toNat < 2 ^ 60 := by
  have hb := bitsLen_le h
  have h1 : (2 : Nat) ^ Verif.Sort.bitsLen n ≤ 2 ^ 60 := Nat.pow_le_pow_right (by decide) hb
  have h0 : 0 < (2 : Nat) ^ Verif.Sort.bitsLen n := Nat.pow_pos (by decide)
  have := pow_word h
  rw [BitVec.toNat_and]
  refine Nat.lt_of_le_of_lt Nat.and_le_right ?_
  rw [BitVec.toNat_sub, this]
  simp
  omega

/-- The constants of xsort/sort.go:12-16. -/
def hintNum : Verif.Sort.Hint → Int
  | .unknown => 0
  | .increasing => 1
  | .decreasing => 2

/-! ## xsort/sort.go: the random words -/

theorem next_recv : xorshift_Next_fn.recv = some ("r", "xorshift", true) := rfl

omit [Inhabited E] in
theorem next_src (X : Ctx E) (hX : X.prog = prog) (hb : X.boxedParams = []) (n : Nat) {m : Mem E} {v : Val E} {k : Nat} (h : On m v k) (r : BitVec 64)
    (d : List E) :
    calls X (n + 1) "xorshift.Next" [.ptr m.arrs.length 0 []] (wr (m.alloc [.num (.named "xorshift") (r.toNat : Int)]) v d) =
      pure ([.num .u64 ((Verif.Sort.xorshiftNext r).toNat : Int)],
        wr (m.alloc [.num (.named "xorshift") ((Verif.Sort.xorshiftNext r).toNat : Int)]) v d) := by
  rw [calls]
  go_run [hX, hb, xorshift_Next_fn, h.box, h.setBox, word_shl, word_shr, word_xor, word_nonneg, word_u64, Verif.Sort.xorshiftNext]

theorem power_src (lt ge less : E → E → Bool) (n : Nat) {m : Mem E} {len : Int} (h0 : 0 ≤ len) (h1 : len < 2 ^ 60) :
    calls (ctx lt ge less) (n + 1) "nextPowerOfTwo" [.num .int len] m =
      pure ([.num .uint ((1#64 <<< Verif.Sort.bitsLen len.toNat).toNat : Int)], m) := by
  have hb : Verif.Sort.bitsLen len.toNat ≤ 60 := bitsLen_le (by omega)
  have hp : wrap .uint (1 * 2 ^ Verif.Sort.bitsLen len.toNat) = ((1#64 <<< Verif.Sort.bitsLen len.toNat).toNat : Int) := by
    rw [pow_word (by omega)]
    have : (2 : Nat) ^ Verif.Sort.bitsLen len.toNat ≤ 2 ^ 60 := Nat.pow_le_pow_right (by decide) hb
    rw [wrap_uint]
    · simp
    · rw [Int.one_mul]; exact Int.le_of_lt (Int.pow_pos (by decide))
    · have h2 : ((2 ^ Verif.Sort.bitsLen len.toNat : Nat) : Int) ≤ ((2 ^ 60 : Nat) : Int) := by exact_mod_cast this
      rw [Int.one_mul]
      simp at h2 ⊢
      omega
  rw [calls]
  go_run [nextPowerOfTwo_fn, wrap_uint, wrap_lit, Int.toNat_natCast, hp]

end Verif.Src.Sort
