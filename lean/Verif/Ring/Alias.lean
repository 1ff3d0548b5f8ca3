import Verif.Ring.Lemmas

/-!
# `ToSlice` with a caller-supplied buffer that may share memory with the ring

The memory is one flat array of cells (`Nat → T`); a slice is a window of it.  The ring's `buf` is
such a window, and so is the buffer passed to `ToSlice`; the two windows may overlap, as they do
when the ring was built with `OfSlice(arr)` and `arr` is passed back as the buffer
(ds/xring/ring.go:33-39 stores `values` itself).
-/

namespace Verif.Ring

variable {T : Type}

/-- A Go slice value: a window of the memory. -/
structure Win where
  off : Nat
  len : Nat
  cap : Nat

/-- Contents of `n` cells from `off`. -/
def readMem (m : Nat → T) (off n : Nat) : List T := (List.range n).map fun i => m (off + i)

/-- Go `copy` of `xs` to the cells from `off` (memmove: `xs` was read before the first write). -/
def writeMem (m : Nat → T) (off : Nat) (xs : List T) : Nat → T :=
  fun a => if off ≤ a then (xs[a - off]?).getD (m a) else m a

/-- The slice being built by `append`: still inside the memory, or moved to a fresh array. -/
inductive Built (T : Type)
  | inMem (w : Win)
  | fresh (l : List T)

/-- Go `append`. -/
def appendMem (m : Nat → T) (b : Built T) (xs : List T) : (Nat → T) × Built T :=
  match b with
  | .inMem w =>
    if w.len + xs.length ≤ w.cap then
      (writeMem m (w.off + w.len) xs, .inMem { w with len := w.len + xs.length })
    else (m, .fresh (readMem m w.off w.len ++ xs))
  | .fresh l => (m, .fresh (l ++ xs))

/-- Contents of the slice being built, in the given memory. -/
def Built.val (m : Nat → T) : Built T → List T
  | .inMem w => readMem m w.off w.len
  | .fresh l => l

/-- A ring living in memory: `buf` is the `n` cells from `off`. -/
structure MemRing where
  off : Nat
  n : Nat
  st : Nat
  len : Nat

/-- The ring value (as in `Verif.Ring.Model`) that a `MemRing` denotes in a memory. -/
def MemRing.denote (m : Nat → T) (r : MemRing) : Ring T := ⟨readMem m r.off r.n, r.st, r.len⟩

/-- ds/xring/ring.go:152-168 `ToSlice(s)` for a non-nil `s`; each operand of an `append` is read
from the memory as it is at that moment. Result: new memory and the returned slice (`none` = nil). -/
def toSliceMem (m : Nat → T) (r : MemRing) (s : Win) : (Nat → T) × Option (Built T) :=
  if r.len = 0 then (m, none)
  else
    let s := { s with len := 0 }
    if r.st + r.len ≤ r.n then
      let (m₁, b) := appendMem m (.inMem s) (readMem m (r.off + r.st) r.len)
      (m₁, some b)
    else
      let (m₁, b) := appendMem m (.inMem s) (readMem m (r.off + r.st) (r.n - r.st))
      let (m₂, b) := appendMem m₁ b (readMem m₁ r.off (r.st + r.len - r.n))
      (m₂, some b)

theorem readMem_length (m : Nat → T) (off n : Nat) : (readMem m off n).length = n := by
  simp [readMem]

theorem readMem_getElem? (m : Nat → T) (off n i : Nat) :
    (readMem m off n)[i]? = if i < n then some (m (off + i)) else none := by
  simp [readMem]
  split <;> simp_all

theorem readMem_congr {m m' : Nat → T} {off n : Nat} (h : ∀ a, off ≤ a → a < off + n → m' a = m a) :
    readMem m' off n = readMem m off n := by
  apply List.ext_getElem?
  intro i
  simp only [readMem_getElem?]
  split
  · rw [h _ (by omega) (by omega)]
  · rfl

theorem writeMem_out (m : Nat → T) (off : Nat) (xs : List T) (a : Nat)
    (h : a < off ∨ off + xs.length ≤ a) : writeMem m off xs a = m a := by
  unfold writeMem
  split
  · rw [List.getElem?_eq_none (by omega)]; rfl
  · rfl

theorem writeMem_in (m : Nat → T) (off : Nat) (xs : List T) (i : Nat)
    (h : i < xs.length) : some (writeMem m off xs (off + i)) = xs[i]? := by
  unfold writeMem
  rw [if_pos (by omega)]
  simp [h]

theorem read_write (m : Nat → T) (off k : Nat) (xs : List T) :
    readMem (writeMem m (off + k) xs) off (k + xs.length) = readMem m off k ++ xs := by
  apply List.ext_getElem?
  intro i
  rw [readMem_getElem?, List.getElem?_append, readMem_length, readMem_getElem?]
  by_cases h1 : i < k
  · rw [if_pos (by omega), if_pos h1, if_pos h1, writeMem_out _ _ _ _ (by omega)]
  · rw [if_neg h1]
    by_cases h2 : i - k < xs.length
    · rw [if_pos (by omega), ← writeMem_in m (off+k) xs _ h2]
      congr 2; omega
    · rw [if_neg (by omega), List.getElem?_eq_none (by omega)]

/-- One append extends the value built so far and touches no cell outside its window. -/
theorem appendMem_spec (m : Nat → T) (b : Built T) (xs : List T) (lo hi : Nat)
    (hw : ∀ w, b = .inMem w → lo = w.off ∧ hi = w.off + w.cap) :
    let p := appendMem m b xs
    p.2.val p.1 = b.val m ++ xs ∧ (∀ a, (a < lo ∨ hi ≤ a) → p.1 a = m a) ∧
      (∀ w, p.2 = .inMem w → lo = w.off ∧ hi = w.off + w.cap) := by
  cases b with
  | fresh l => simp [appendMem, Built.val]
  | inMem w =>
    obtain ⟨rfl, rfl⟩ := hw w rfl
    unfold appendMem
    by_cases h : w.len + xs.length ≤ w.cap
    · simp only [h, if_true, Built.val]
      refine ⟨read_write .., ?_, ?_⟩
      · intro a ha; exact writeMem_out _ _ _ _ (by omega)
      · intro w' hw'; cases hw'; exact ⟨rfl, rfl⟩
    · simp [h, Built.val]

theorem read_split (m : Nat → T) (r : MemRing) (hl : r.len ≤ r.n) (hs : r.st < r.n ∨ r.st = 0) :
    contents (r.denote m) =
      if r.st + r.len ≤ r.n then readMem m (r.off + r.st) r.len
      else readMem m (r.off + r.st) (r.n - r.st) ++ readMem m r.off (r.st + r.len - r.n) := by
  have hwf : WF (r.denote m) := by
    refine ⟨?_, ?_⟩ <;> simp [MemRing.denote, readMem_length, hl, hs]
  apply contents_eq_of hwf
  · split
    · simp [readMem_length, MemRing.denote]
    · simp [readMem_length, MemRing.denote]; omega
  · intro i hi
    simp only [MemRing.denote] at hi
    simp only [MemRing.denote, readMem_length, readMem_getElem?]
    by_cases h1 : r.st + r.len ≤ r.n
    · simp only [h1, if_true, readMem_getElem?, hi]
      rw [show wrapIdx r.n (r.st + i) = r.st + i by unfold wrapIdx; split <;> omega, if_pos (by omega)]
      congr 2; omega
    · simp only [h1, if_false, List.getElem?_append, readMem_length, readMem_getElem?]
      by_cases h2 : i < r.n - r.st
      · simp only [h2, if_true]
        rw [show wrapIdx r.n (r.st + i) = r.st + i by unfold wrapIdx; split <;> omega,
          if_pos (by omega)]
        congr 2; omega
      · simp only [h2, if_false]
        rw [show wrapIdx r.n (r.st + i) = r.st + i - r.n by unfold wrapIdx; split <;> omega,
          if_pos (by omega), if_pos (by omega)]
        congr 2; omega

end Verif.Ring
