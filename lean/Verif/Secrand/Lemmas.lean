import Verif.Secrand.Model

/-!
# What `Read` does, by cases
-/

namespace Verif.Secrand

variable {C : Cipher}

/-- What is always true of a generator. -/
structure Good (r : RNG) : Prop where
  len : 96 ≤ r.buf.length
  lo : 32 ≤ r.n
  hi : r.n ≤ r.buf.length
  nonce : r.nonce.length = 8
  rounds : r.rounds = 8 ∨ r.rounds = 12 ∨ r.rounds = 20
  zero : ∀ (i : Nat), 32 ≤ i → i < r.n → r.buf[i]? = some 0

/-- Bytes left. -/
def RNG.left (r : RNG) : Nat := r.buf.length - r.n

/-- The size of the buffer, without the key. -/
def RNG.size (r : RNG) : Nat := r.buf.length - 32

/-- The keystream for the next refill. -/
def RNG.stream (C : Cipher) (r : RNG) : Nat → Byte := C (r.buf.take 32) r.nonce r.rounds

theorem goSlice_from {l : List Byte} {n : Nat} (h : n ≤ l.length) : goSlice l n l.length = .ok (l.drop n) := by
  unfold goSlice
  rw [if_pos (by omega)]
  simp

theorem goSlice_to {l : List Byte} {n : Nat} (h : n ≤ l.length) : goSlice l 0 n = .ok (l.take n) := by
  unfold goSlice
  rw [if_pos (by omega)]
  simp

theorem xorStream_length (s : Nat → Byte) (l : List Byte) : (xorStream s l).length = l.length := by
  simp [xorStream]

theorem xorStream_get (s : Nat → Byte) (l : List Byte) (i : Nat) : (xorStream s l)[i]? = l[i]?.map (· ^^^ s i) := by
  simp [xorStream]

theorem erase_length {buf : List Byte} {lo hi : Nat} (h1 : lo ≤ hi) (h2 : hi ≤ buf.length) :
    (erase buf lo hi).length = buf.length := by
  simp [erase]; omega

theorem erase_get {buf : List Byte} {lo hi : Nat} (h1 : lo ≤ hi) (h2 : hi ≤ buf.length) (i : Nat) :
    (erase buf lo hi)[i]? = if lo ≤ i ∧ i < hi then some 0 else buf[i]? := by
  unfold erase
  by_cases c1 : i < lo
  · rw [if_neg (by omega), List.append_assoc, List.getElem?_append_left (by simp; omega), List.getElem?_take_of_lt c1]
  · by_cases c2 : i < hi
    · rw [if_pos (by omega), List.getElem?_append_left (by simp; omega), List.getElem?_append_right (by simp; omega),
        List.getElem?_replicate, if_pos (by simp; omega)]
    · rw [if_neg (by omega), List.getElem?_append_right (by simp; omega), List.getElem?_drop]
      congr 1
      simp
      omega

theorem xorKeyStream_ok {dst nonce key : List Byte} {rounds : Nat} (hk : key.length = 32) (hn : nonce.length = 8)
    (hr : rounds = 8 ∨ rounds = 12 ∨ rounds = 20) :
    xorKeyStream C dst nonce key rounds = .ok (xorStream (C key nonce rounds) dst) := by
  unfold xorKeyStream
  rw [if_neg (by rw [hk]; decide), if_neg (by rw [hn]; decide), if_neg (by omega)]

/-- First case: enough bytes left. -/
theorem readN_small {r : RNG} (h : Good r) {b : List Byte} (hb : b.length ≤ r.left) (f : Nat) :
    readN C (f + 1) r b = .ok ({ r with buf := erase r.buf r.n (r.n + b.length), n := r.n + b.length },
      (r.buf.drop r.n).take b.length, b.length, [.out r.n (r.n + b.length)]) := by
  have hl : (r.buf.drop r.n).length = r.left := by simp [RNG.left]
  have hm : min b.length r.left = b.length := by omega
  unfold readN
  rw [goSlice_from h.hi]
  show (if b.length ≤ (r.buf.drop r.n).length then _ else _) = _
  rw [if_pos (by omega)]
  simp only [hl, hm, List.drop_length, List.append_nil]

/-- Second case: enough bytes after a refill. -/
theorem readN_refill {r : RNG} (h : Good r) {b : List Byte} (hb : r.left < b.length) (hb' : b.length ≤ r.left + r.size)
    (f : Nat) :
    readN C (f + 1) r b = .ok
      ({ r with buf := erase (xorStream (r.stream C) r.buf) 32 (32 + (b.length - r.left)), n := 32 + (b.length - r.left) },
      r.buf.drop r.n ++ ((xorStream (r.stream C) r.buf).drop 32).take (b.length - r.left), b.length,
      [.out r.n (r.n + r.left), .refill, .out 32 (32 + (b.length - r.left))]) := by
  have hlen := h.len
  have hl : (r.buf.drop r.n).length = r.left := by simp [RNG.left]
  have ht : (r.buf.drop keySize).length = r.size := by simp [RNG.size, keySize]
  have hm : min b.length r.left = r.left := by omega
  have htake : (r.buf.drop r.n).take r.left = r.buf.drop r.n := List.take_of_length_le (by omega)
  have hx := xorStream_length (r.stream C) r.buf
  have hks : keySize ≤ r.buf.length := by simp only [keySize]; omega
  unfold readN
  rw [goSlice_from h.hi]
  show (if b.length ≤ (r.buf.drop r.n).length then _ else _) = _
  rw [if_neg (by omega), goSlice_from hks]
  show (if b.length ≤ (r.buf.drop r.n).length + (r.buf.drop keySize).length then _ else _) = _
  rw [if_pos (by omega)]
  simp only [copy, hl, hm, htake]
  rw [goSlice_to hks]
  show (xorKeyStream C r.buf r.nonce (r.buf.take 32) r.rounds >>= _) = _
  rw [xorKeyStream_ok (by simp; omega) h.nonce h.rounds, show C (r.buf.take 32) r.nonce r.rounds = r.stream C from rfl]
  show (goSlice (r.buf.drop r.n ++ b.drop r.left) r.left _ >>= _) = _
  rw [goSlice_from (by simp [hl])]
  have hd : (r.buf.drop r.n ++ b.drop r.left).drop r.left = b.drop r.left := by
    rw [List.drop_append_of_le_length (by omega), List.drop_of_length_le (by omega)]
    rfl
  rw [hd]
  show (goSlice (xorStream (r.stream C) r.buf) keySize _ >>= _) = _
  rw [goSlice_from (by rw [hx]; exact hks)]
  have h2 : min (b.drop r.left).length ((xorStream (r.stream C) r.buf).drop keySize).length = b.length - r.left := by
    simp only [List.length_drop, hx, keySize]
    simp only [RNG.size] at hb'
    omega
  show Except.ok _ = _
  simp only [h2]
  have e1 : (r.buf.drop r.n ++ b.drop r.left).take r.left = r.buf.drop r.n := by
    rw [List.take_append_of_le_length (by omega), htake]
  have e2 : (b.drop r.left).drop (b.length - r.left) = [] := List.drop_of_length_le (by simp)
  rw [e1, e2, List.append_nil]
  rfl

/-- What remains of a good generator after the first case. -/
theorem good_small {r : RNG} (h : Good r) {k : Nat} (hk : k ≤ r.left) :
    Good { r with buf := erase r.buf r.n (r.n + k), n := r.n + k } := by
  have hhi := h.hi
  have hlo := h.lo
  simp only [RNG.left] at hk
  have he := erase_length (buf := r.buf) (lo := r.n) (hi := r.n + k) (by omega) (by omega)
  refine ⟨?_, ?_, ?_, h.nonce, h.rounds, ?_⟩
  · dsimp only; rw [he]; exact h.len
  · dsimp only; omega
  · dsimp only; rw [he]; omega
  · intro i h1 h2
    dsimp only at h2 ⊢
    rw [erase_get (by omega) (by omega)]
    split
    · rfl
    · exact h.zero i h1 (by omega)

/-- And after the second. -/
theorem good_refill {r : RNG} (h : Good r) {k : Nat} (hk : k ≤ r.size) :
    Good { r with buf := erase (xorStream (r.stream C) r.buf) 32 (32 + k), n := 32 + k } := by
  have hlen := h.len
  simp only [RNG.size] at hk
  have hx := xorStream_length (r.stream C) r.buf
  have he := erase_length (buf := xorStream (r.stream C) r.buf) (lo := 32) (hi := 32 + k) (by omega) (by omega)
  refine ⟨?_, ?_, ?_, h.nonce, h.rounds, ?_⟩
  · dsimp only; rw [he, hx]; exact h.len
  · dsimp only; omega
  · dsimp only; rw [he, hx]; omega
  · intro i h1 h2
    dsimp only at h2 ⊢
    rw [erase_get (by omega) (by omega), if_pos (by omega)]

/-- Small reads: what is returned, whatever case. -/
theorem readN_some {r : RNG} (h : Good r) {b : List Byte} (hb : b.length ≤ r.left + r.size) (f : Nat) :
    ∃ r' out ev, readN C (f + 1) r b = .ok (r', out, b.length, ev) ∧ Good r' ∧ out.length = b.length ∧
      r'.buf.length = r.buf.length ∧
      ∀ b' : List Byte, b'.length = b.length → ∀ f', readN C (f' + 1) r b' = .ok (r', out, b.length, ev) := by
  have hhi := h.hi
  have hlen := h.len
  by_cases c : b.length ≤ r.left
  · refine ⟨_, _, _, readN_small h c f, good_small h c, ?_, ?_, ?_⟩
    · simp only [List.length_take, List.length_drop]; simp only [RNG.left] at c; omega
    · simp only [RNG.left] at c
      exact erase_length (by omega) (by omega)
    · intro b' e f'
      rw [readN_small h (by omega) f', e]
  · refine ⟨_, _, _, readN_refill h (by omega) hb f, good_refill h (by omega), ?_, ?_, ?_⟩
    · simp only [List.length_append, List.length_take, List.length_drop, xorStream_length]
      simp only [RNG.left, RNG.size] at c hb ⊢
      omega
    · simp only [RNG.left, RNG.size] at c hb ⊢
      rw [erase_length (by omega) (by rw [xorStream_length]; omega), xorStream_length]
    · intro b' e f'
      rw [readN_refill h (by omega) (by omega) f', e]

/-- Third case. -/
theorem readN_large {r : RNG} (h : Good r) {b : List Byte} (hb : r.left + r.size < b.length) (f : Nat) :
    ∃ r' key ev, readN C (f + 1) r (List.replicate 32 0) = .ok (r', key, 32, ev) ∧ Good r' ∧ key.length = 32 ∧
      readN C (f + 2) r b = .ok (r', xorStream (C key r'.nonce r'.rounds) b, b.length, ev) := by
  have hlen := h.len
  obtain ⟨r', key, ev, e, hg, hk, -, -⟩ := readN_some (C := C) h (b := List.replicate 32 0) (by simp [RNG.size]; omega) f
  rw [List.length_replicate] at e hk
  refine ⟨r', key, ev, e, hg, hk, ?_⟩
  have hl : (r.buf.drop r.n).length = r.left := by simp [RNG.left]
  have ht : (r.buf.drop keySize).length = r.size := by simp [RNG.size, keySize]
  have hks : keySize ≤ r.buf.length := by simp only [keySize]; omega
  rw [readN, goSlice_from h.hi]
  show (if b.length ≤ (r.buf.drop r.n).length then _ else _) = _
  rw [if_neg (by omega), goSlice_from hks]
  show (if b.length ≤ (r.buf.drop r.n).length + (r.buf.drop keySize).length then _ else _) = _
  rw [if_neg (by omega)]
  show (readN C (f + 1) r (List.replicate 32 0) >>= _) = _
  rw [e]
  show (xorKeyStream C b r'.nonce key r'.rounds >>= _) = _
  rw [xorKeyStream_ok hk hg.nonce hg.rounds]
  rfl

end Verif.Secrand
