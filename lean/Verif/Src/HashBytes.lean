import Verif.Src.HashRun
import Verif.Src.Items

/-!
# xhash: the functions on bytes in memory
-/

namespace Verif.Src.Hash

variable {E : Type} (g : Nat → Nat → Nat) {m : Mem E}

theorem fit_u8 (w : Val E) (x : Byte) : fit w (u8 x) = u8 x := by cases w <;> rfl

/-- What a computation of the model is as a result of a call. -/
def outcome {α : Type} (x : Go α) (f : α → List (Val E) × Mem E) : R (List (Val E) × Mem E) :=
  match x with
  | .ok a => pure (f a)
  | .error e => panic e

theorem toUint64_src (n : Nat) {v : Val E} {l : List Byte} (h : Items u8 m v l) :
    calls (ctx E g) (n + 1) "toUint64" [v] m = outcome (toUint64 l) (fun w => ([u64 w], m)) := by
  rw [calls]
  by_cases h8 : 7 < l.length
  · match l, h8, h with
    | b0 :: b1 :: b2 :: b3 :: b4 :: b5 :: b6 :: b7 :: l, h8, h =>
      have e0 : index m v (.num .lit 0) = pure (u8 b0) := h.index (by decide) (by simp)
      have e1 : index m v (.num .lit 1) = pure (u8 b1) := h.index (by decide) (by simp)
      have e2 : index m v (.num .lit 2) = pure (u8 b2) := h.index (by decide) (by simp)
      have e3 : index m v (.num .lit 3) = pure (u8 b3) := h.index (by decide) (by simp)
      have e4 : index m v (.num .lit 4) = pure (u8 b4) := h.index (by decide) (by simp)
      have e5 : index m v (.num .lit 5) = pure (u8 b5) := h.index (by decide) (by simp)
      have e6 : index m v (.num .lit 6) = pure (u8 b6) := h.index (by decide) (by simp)
      have e7 : index m v (.num .lit 7) = pure (u8 b7) := h.index (by decide) (by simp)
      rw [toUint64_ok]
      go_run [toUint64_fn, h.fetch, h.coerce, e0, e1, e2, e3, e4, e5, e6, e7, ↓byte_to64, ↓or_src, ↓shl_src]
      simp only [outcome, ofBytes, u64, BitVec.shiftLeft_zero]
  · have e7 : index m v (.num .lit 7) = panic "index out of range" := h.index_bad (by omega)
    have em : toUint64 l = .error "index out of range" := by
      have : goGet l 7 = .error "index out of range" := by
        have : l[7]? = none := List.getElem?_eq_none (by omega)
        simp [goGet, this]
      unfold toUint64
      rw [this]; rfl
    rw [em]
    go_run [toUint64_fn, h.fetch, h.coerce, e7]
    rfl

theorem putUint64_src (n : Nat) {v : Val E} {l : List Byte} (h : Items u8 m v l) (h8 : 7 < l.length) (w : BitVec 64) :
    ∃ m', calls (ctx E g) (n + 1) "putUint64" [v, u64 w] m = pure ([], m') ∧ Items u8 m' v (bytesOf w ++ l.drop 8) ∧
      m'.arrs.length = m.arrs.length ∧ m'.maps = m.maps ∧ ∀ q, Apart q v → m'.arrs[q]? = m.arrs[q]? := by
  match l, h8, h with
  | b0 :: b1 :: b2 :: b3 :: b4 :: b5 :: b6 :: b7 :: l, h8, h =>
    have e7 : index m v (.num .lit 7) = pure (u8 b7) := h.index (by decide) (by simp)
    have h1 := h.set (i := 0) (by simp) (w.setWidth 8)
    have h2 := h1.set (i := 1) (by simp) ((w >>> 8).setWidth 8)
    have h3 := h2.set (i := 2) (by simp) ((w >>> 16).setWidth 8)
    have h4 := h3.set (i := 3) (by simp) ((w >>> 24).setWidth 8)
    have h5 := h4.set (i := 4) (by simp) ((w >>> 32).setWidth 8)
    have h6 := h5.set (i := 5) (by simp) ((w >>> 40).setWidth 8)
    have h7 := h6.set (i := 6) (by simp) ((w >>> 48).setWidth 8)
    have h8 := h7.set (i := 7) (by simp) ((w >>> 56).setWidth 8)
    refine ⟨_, ?_, h8, ?_, ?_, ?_⟩
    · rw [calls]
      go_run [putUint64_fn, h.fetch, h.coerce, e7, ↓to8, ↓shr_src]
      have s0 := fun env => h.store (k := .lit) (i := 0) fit_u8 env (by decide) (by simp) (w.setWidth 8)
      have s1 := fun env => h1.store (k := .lit) (i := 1) fit_u8 env (by decide) (by simp) ((w >>> 8).setWidth 8)
      have s2 := fun env => h2.store (k := .lit) (i := 2) fit_u8 env (by decide) (by simp) ((w >>> 16).setWidth 8)
      have s3 := fun env => h3.store (k := .lit) (i := 3) fit_u8 env (by decide) (by simp) ((w >>> 24).setWidth 8)
      have s4 := fun env => h4.store (k := .lit) (i := 4) fit_u8 env (by decide) (by simp) ((w >>> 32).setWidth 8)
      have s5 := fun env => h5.store (k := .lit) (i := 5) fit_u8 env (by decide) (by simp) ((w >>> 40).setWidth 8)
      have s6 := fun env => h6.store (k := .lit) (i := 6) fit_u8 env (by decide) (by simp) ((w >>> 48).setWidth 8)
      have s7 := fun env => h7.store (k := .lit) (i := 7) fit_u8 env (by decide) (by simp) ((w >>> 56).setWidth 8)
      simp only [Int.reduceToNat] at s0 s1 s2 s3 s4 s5 s6 s7
      go_run [↓s0, ↓s1, ↓s2, ↓s3, ↓s4, ↓s5, ↓s6, ↓s7, h1.fetch, h2.fetch, h3.fetch, h4.fetch, h5.fetch, h6.fetch, h7.fetch,
        ↓to8, ↓shr_src]
    · cases v <;> simp [setAt]
    · cases v <;> simp [setAt, Mem.put]
    · intro q hq
      simp only [Slice.setAt_arrs hq]

theorem putUint64_short (n : Nat) {v : Val E} {l : List Byte} (h : Items u8 m v l) (h8 : l.length ≤ 7) (w : BitVec 64) :
    calls (ctx E g) (n + 1) "putUint64" [v, u64 w] m = panic "index out of range" := by
  have e7 : index m v (.num .lit 7) = panic "index out of range" := h.index_bad (by omega)
  rw [calls]
  go_run [putUint64_fn, h.fetch, h.coerce, e7]

/-! ## Sum -/

/-- `append(v, xs...)`. -/
theorem appends {A : Type} {f : A → Val E} {v : Val E} {l : List A} (h : Items f m v l) (X : Ctx E) {xs : List A} (hx : xs ≠ []) :
    ∃ v' m', append X m v (xs.map f) = pure (v', m') ∧ Items f m' v' (l ++ xs) ∧
      (∀ q, q < m.arrs.length → Apart q v → m'.arrs[q]? = m.arrs[q]?) := by
  have hp : 0 < xs.length := List.length_pos_iff.mpr hx
  cases h with
  | nil =>
    refine ⟨.slice m.arrs.length 0 xs.length (xs.length + X.grow 0 xs.length),
      m.alloc (xs.map f ++ List.replicate (X.grow 0 xs.length) X.pad), ?_, ?_, ?_⟩
    · simp only [append, List.length_map]
      rw [if_neg (by omega)]
    · refine .some (alloc_new _ _) ?_ (by omega) (by simp)
      rw [List.drop_zero, List.take_append_of_le_length (by simp), List.take_of_length_le (by simp)]
    · intro q hq _
      exact alloc_arrs hq _
  | @some a o c arr _ h hl hc hb =>
    have hn : l.length + xs.length = (l ++ xs).length := by simp
    by_cases hx : l.length + xs.length ≤ c
    · refine ⟨.slice a o (l.length + xs.length) c, m.puts a (o + l.length) (xs.map f), ?_, ?_, ?_⟩
      · simp only [append, List.length_map, hx, if_true]
      · rw [hn]
        refine .some (puts_same_arr h _) ?_ (by simpa using hx) ?_
        · have e : arr.take (o + l.length) = arr.take o ++ l.map f := by
            rw [← hl, List.take_add]
          rw [e, List.drop_append_of_le_length (by simp; omega), List.drop_append_of_le_length (by simp; omega),
            List.drop_append_of_le_length (by simp; omega), List.drop_eq_nil_of_le (by simp; omega), List.nil_append,
            List.length_append, List.map_append, List.take_append_of_le_length (by simp), List.take_of_length_le (by simp)]
        · simp; omega
      · intro q hq hp
        exact puts_arrs (fun e => hp a o _ c rfl e.symm) _
    · refine ⟨.slice m.arrs.length 0 (l.length + xs.length) (l.length + xs.length + X.grow c (l.length + xs.length)),
        m.alloc (l.map f ++ xs.map f ++ List.replicate (X.grow c (l.length + xs.length)) X.pad), ?_, ?_, ?_⟩
      · simp only [append, List.length_map, hx, if_false, Mem.cells, h, hl]
      · rw [hn]
        refine .some (alloc_new _ _) ?_ (by simp) (by simp; omega)
        rw [List.drop_zero, List.map_append, List.take_append_of_le_length (by simp), List.take_of_length_le (by simp)]
      · intro q hq hp
        exact alloc_arrs hq _

theorem values_items {A : Type} {f : A → Val E} {v : Val E} {l : List A} (h : Items f m v l) : values m v = pure (l.map f) := by
  cases h with
  | nil => rfl
  | some h hl hc hb => simp only [values, Mem.cells, h, hl]

theorem cell_lt {a i : Nat} {v : Val E} (h : m.cell a i = some v) : a < m.arrs.length := by
  unfold Mem.cell at h
  cases ha : m.arrs[a]? with
  | none => rw [ha] at h; cases h
  | some l => exact (List.getElem?_eq_some_iff.mp ha).1

theorem sum_src (n : Nat) {a i : Nat} {h : BitVec 64} (hm : m.cell a i = some (obj h)) {b : Val E} {l : List Byte} (hb : Items u8 m b l) :
    ∃ v' m', calls (ctx E g) (n + 4) "Incremental64.Sum" [.ptr a i [], b] m = pure ([v'], m') ∧
      Items u8 m' v' (l ++ bytesOf (Xhash.sum64 h)) ∧ (∀ q, q < m.arrs.length → Apart q b → m'.arrs[q]? = m.arrs[q]?) := by
  have ha := cell_lt hm
  obtain ⟨m1, hm1⟩ : ∃ m1, m1 = m.alloc (List.replicate 8 (.num .u8 0)) := ⟨_, rfl⟩
  have c1 : m1.cell a i = some (obj h) := by rw [← hm, hm1]; exact cell_of_arrs (alloc_arrs ha _) i
  have i1 : Items u8 m1 (.slice m.arrs.length 0 8 8) (List.replicate 8 (0 : Byte)) :=
    Items.some (l := List.replicate 8 (0 : Byte)) (by rw [hm1]; exact alloc_new m _) rfl (by simp) (by simp)
  obtain ⟨m2, e2, i2, l2, -, k2⟩ := putUint64_src g (n + 2) i1 (by decide) (Xhash.sum64 h)
  rw [List.drop_replicate, Nat.sub_self, List.replicate_zero, List.append_nil] at i2
  have hb2 : Items u8 m2 b l := hb.mono fun q o k c hv => by
    have hq := hb.old q o k c hv
    rw [k2 q (fun a o l c hv' => by cases hv'; omega)]
    rw [hm1]; exact alloc_arrs hq _
  obtain ⟨v', m3, e3, i3, k3⟩ := appends hb2 (ctx E g) (xs := bytesOf (Xhash.sum64 h)) (by simp [bytesOf])
  refine ⟨v', m3, ?_, i3, ?_⟩
  · rw [calls]
    go_run [Incremental64_Sum_fn, hb.coerce, c1, ↓sum64_src g c1 n, ↓e2, ← hm1, hb2.fetch, ↓values_items i2, ↓e3]
  · intro q hq hqb
    rw [k3 q (by rw [l2, hm1]; simp; omega) hqb, k2 q (fun a o l c hv' => by cases hv'; omega), hm1]
    exact alloc_arrs hq _

end Verif.Src.Hash
