import Verif.Secrand.KeyStream

/-!
# C105 for every sequence of `Read`s

A `Read` that uses the end of one filling of the buffer and the start of the next does not erase the former (`copy`, not
`copyAndErase`, secrand/rng.go:106-109), and the next filling is xored onto it. So a byte of the output depends on how
the output was split, but only on that: it is xored with the byte `size` places before it if that one was handed out by
the same call as the first byte of its filling.
-/

namespace Verif.Secrand

/-- Several calls of `Read`: what each put into its argument. -/
def readEach (C : Cipher) : RNG → List (List Byte) → Go (RNG × List (List Byte))
  | r, [] => .ok (r, [])
  | r, b :: bs => do
    let (r, out, _, _) ← read C r b
    let (r, more) ← readEach C r bs
    return (r, out :: more)

/-! ## The specification -/

/-- How much of the current filling is left when `p` bytes have been used; the next filling is made when it is needed. -/
def leftAt (size p : Nat) : Nat := if p = 0 then size else size - 1 - (p - 1) % size

/-- How many bytes a `Read` of length `n` uses: 32 if two fillings are not enough. -/
def takes (size p n : Nat) : Nat := if n ≤ leftAt size p + size then n else 32

/-- The same for several `Read`s. -/
def takesAll (size : Nat) : Nat → List Nat → List Nat
  | _, [] => []
  | p, n :: ns => takes size p n :: takesAll size (p + takes size p n) ns

/-- If calls use `ns` bytes in turn, the first from `base` on, where the call starts that uses byte `x`. -/
def startOf : List Nat → Nat → Nat → Nat
  | [], base, _ => base
  | n :: ns, base, x => if x < base + n then base else startOf ns (base + n) x

/-- Byte `p`, if calls use `ns` bytes in turn. -/
def byteAt (C : Cipher) (seed nonce : List Byte) (rounds size : Nat) (ns : List Nat) (p : Nat) : Byte :=
  outByte C seed nonce rounds size p ^^^
    if 0 < size ∧ size ≤ p ∧ startOf ns 0 (p / size * size) ≤ p - size then
      byteAt C seed nonce rounds size ns (p - size)
    else 0
termination_by p
decreasing_by omega

/-- Bytes `p` to `p + k - 1`. -/
def bytesAt (C : Cipher) (seed nonce : List Byte) (rounds size : Nat) (ns : List Nat) (p k : Nat) : List Byte :=
  (List.range k).map fun i => byteAt C seed nonce rounds size ns (p + i)

/-- What calls of `Read` with arguments `bs` put there, when `p` bytes have been used before. -/
def specOut (C : Cipher) (seed nonce : List Byte) (rounds size : Nat) (ns : List Nat) :
    Nat → List (List Byte) → List (List Byte)
  | _, [] => []
  | p, b :: bs =>
    (if b.length ≤ leftAt size p + size then bytesAt C seed nonce rounds size ns p b.length
      else xorStream (C (bytesAt C seed nonce rounds size ns p 32) nonce rounds) b) ::
    specOut C seed nonce rounds size ns (p + takes size p b.length) bs

/-! ## The calls and their bytes -/

theorem startOf_append (ms : List Nat) {x : Nat} : ∀ (ns : List Nat) (base : Nat), x < base + ns.sum →
    startOf (ns ++ ms) base x = startOf ns base x
  | [], base, h => by
    cases ms with
    | nil => rfl
    | cons m ms => simp only [List.sum_nil, Nat.add_zero] at h; simp [startOf]; omega
  | n :: ns, base, h => by
    simp only [List.cons_append, startOf]
    by_cases c : x < base + n
    · rw [if_pos c, if_pos c]
    · rw [if_neg c, if_neg c]
      exact startOf_append ms ns _ (by simp only [List.sum_cons] at h; omega)

theorem startOf_last {n x : Nat} : ∀ (ns : List Nat) (base : Nat), base + ns.sum ≤ x → x < base + ns.sum + n →
    startOf (ns ++ [n]) base x = base + ns.sum
  | [], base, h, h' => by
    simp only [List.sum_nil, Nat.add_zero] at h h' ⊢
    show (if x < base + n then base else base + n) = base
    rw [if_pos h']
  | m :: ns, base, h, h' => by
    simp only [List.cons_append, startOf, List.sum_cons] at h h' ⊢
    rw [if_neg (by omega), startOf_last ns (base + m) (by omega) (by omega)]
    omega

variable {C : Cipher} {seed nonce : List Byte} {rounds size : Nat}

theorem byteAt_stable (ns ms : List Nat) : ∀ p : Nat, p / size * size < ns.sum ∨ p < size →
    byteAt C seed nonce rounds size (ns ++ ms) p = byteAt C seed nonce rounds size ns p := by
  intro p
  induction p using Nat.strongRecOn with
  | ind p ih =>
    intro h
    rw [byteAt.eq_1 C seed nonce rounds size (ns ++ ms) p, byteAt.eq_1 C seed nonce rounds size ns p]
    by_cases c : 0 < size ∧ size ≤ p
    · have hlt : p / size * size < ns.sum := by omega
      rw [startOf_append ms ns 0 (by omega)]
      by_cases c2 : startOf ns 0 (p / size * size) ≤ p - size
      · rw [if_pos ⟨c.1, c.2, c2⟩, if_pos ⟨c.1, c.2, c2⟩]
        rw [ih (p - size) (by omega)]
        left
        exact Nat.lt_of_le_of_lt (Nat.mul_le_mul_right _ (Nat.div_le_div_right (by omega))) hlt
      · rw [if_neg (fun h => c2 h.2.2), if_neg (fun h => c2 h.2.2)]
    · rw [if_neg (fun h => c ⟨h.1, h.2.1⟩), if_neg (fun h => c ⟨h.1, h.2.1⟩)]

theorem div_size (hsz : 0 < size) {j q : Nat} (hq : q < size) : (j * size + q) / size = j := by
  rw [Nat.add_comm, Nat.add_mul_div_right _ _ hsz, Nat.div_eq_of_lt hq, Nat.zero_add]

/-- A byte of the first filling. -/
theorem byteAt_first (ns : List Nat) {i : Nat} (hi : i < size) :
    byteAt C seed nonce rounds size ns i = C seed nonce rounds (32 + i) := by
  rw [byteAt, if_neg (by omega)]
  have := outByte_eq (C := C) (seed := seed) (nonce := nonce) (rounds := rounds) (size := size) (by omega) (j := 0) hi
  rw [Nat.zero_mul, Nat.zero_add] at this
  rw [this]
  simp [fillKey]

/-- A byte of a later filling. -/
theorem byteAt_later (ns : List Nat) {j i : Nat} (hi : i < size) :
    byteAt C seed nonce rounds size ns ((j + 1) * size + i) = C (fillKey C seed nonce rounds (j + 1)) nonce rounds (32 + i) ^^^
      if startOf ns 0 ((j + 1) * size) ≤ j * size + i then byteAt C seed nonce rounds size ns (j * size + i) else 0 := by
  rw [byteAt, outByte_eq (by omega) hi, div_size (by omega) hi]
  have e : (j + 1) * size + i - size = j * size + i := by rw [Nat.succ_mul]; omega
  have hle : size ≤ (j + 1) * size + i := by rw [Nat.succ_mul]; omega
  rw [e]
  by_cases c : startOf ns 0 ((j + 1) * size) ≤ j * size + i
  · rw [if_pos c, if_pos ⟨by omega, hle, c⟩]
  · rw [if_neg c, if_neg (fun h => c h.2.2)]

theorem bytesAt_length (ns : List Nat) (p k : Nat) : (bytesAt C seed nonce rounds size ns p k).length = k := by
  simp [bytesAt]

theorem bytesAt_get (ns : List Nat) {p k i : Nat} (h : i < k) :
    (bytesAt C seed nonce rounds size ns p k)[i]? = some (byteAt C seed nonce rounds size ns (p + i)) := by
  unfold bytesAt
  rw [List.getElem?_map, List.getElem?_range h]; rfl

/-! ## The generator follows the formula -/

/-- Calls have used `ns` bytes in turn: `j` fillings are used up and `q` bytes of the current one. -/
structure Tracks (C : Cipher) (seed nonce : List Byte) (rounds size : Nat) (ns : List Nat) (r : RNG) : Prop where
  good : Good r
  len : r.buf.length = 32 + size
  non : r.nonce = nonce
  rnd : r.rounds = rounds
  place : ∃ j q, ns.sum = j * size + q ∧ q ≤ size ∧ (0 < j → 0 < q) ∧ r.n = 32 + q ∧
    r.buf.take 32 = fillKey C seed nonce rounds (j + 1) ∧
    ∀ i, q ≤ i → i < size → r.buf[32 + i]? = some (byteAt C seed nonce rounds size ns (j * size + i))

theorem tracks_new (hs : seed.length = 32) (hn : nonce.length = 8) {r : RNG}
    (h : newRNGCustom C seed nonce size rounds = .ok r) : Tracks C seed nonce rounds size [] r := by
  have hf := follows_new hs hn h
  obtain ⟨j, q, hp, hq, hrn, hkey, hb⟩ := hf.place
  have hsz : 0 < size := by
    have := ((new_returns_iff C hs hn size rounds).1 ⟨r, h⟩).1
    omega
  have hj : j = 0 := by
    cases j with
    | zero => rfl
    | succ j => rw [Nat.succ_mul] at hp; omega
  subst hj
  refine ⟨hf.good, hf.len, hf.non, hf.rnd, 0, q, by simpa using hp, hq, by omega, hrn, hkey, fun i h1 h2 => ?_⟩
  rw [hb _ (by omega) (by omega), Nat.zero_mul, Nat.zero_add, byteAt_first _ h2]
  rfl

theorem tracks_left (hsz : 0 < size) {ns : List Nat} {r : RNG} (h : Tracks C seed nonce rounds size ns r) :
    r.left = leftAt size ns.sum ∧ r.size = size := by
  obtain ⟨j, q, hp, hq, hj, hrn, -, -⟩ := h.place
  have hlen := h.len
  refine ⟨?_, by simp only [RNG.size]; omega⟩
  simp only [RNG.left, leftAt]
  by_cases c : ns.sum = 0
  · rw [if_pos c]; omega
  · rw [if_neg c]
    have hq0 : 0 < q := by
      cases j with
      | zero => omega
      | succ j => exact hj (by omega)
    have : (ns.sum - 1) % size = q - 1 := by
      rw [show ns.sum - 1 = (q - 1) + j * size by omega, Nat.add_mul_mod_self_right, Nat.mod_eq_of_lt (by omega)]
    rw [this]
    omega

/-- What is at `j * size + i` is settled once byte `j * size` has been used. -/
theorem settled (hsz : 0 < size) {ns ms : List Nat} {j q i : Nat} (hp : ns.sum = j * size + q) (hj : 0 < j → 0 < q)
    (hi : i < size) : byteAt C seed nonce rounds size (ns ++ ms) (j * size + i) =
      byteAt C seed nonce rounds size ns (j * size + i) := by
  apply byteAt_stable
  rw [div_size hsz hi]
  cases j with
  | zero => right; omega
  | succ j => left; have := hj (by omega); omega

theorem tracks_read (hsz : 0 < size) {ns : List Nat} {r : RNG} (h : Tracks C seed nonce rounds size ns r)
    (b : List Byte) (hb : b.length ≤ leftAt size ns.sum + size) :
    ∃ r' ev, read C r b = .ok (r', bytesAt C seed nonce rounds size (ns ++ [b.length]) ns.sum b.length, b.length, ev) ∧
      Tracks C seed nonce rounds size (ns ++ [b.length]) r' := by
  obtain ⟨hleft, hsize⟩ := tracks_left hsz h
  obtain ⟨j, q, hp, hq, hj, hn, hkey, hbytes⟩ := h.place
  have hlen := h.len
  have hhi := h.good.hi
  have hl : r.left = size - q := by simp only [RNG.left]; omega
  have hsum : (ns ++ [b.length]).sum = ns.sum + b.length := by simp
  by_cases c : b.length ≤ r.left
  · have e := read_small (C := C) h.good c
    have hout : (r.buf.drop r.n).take b.length = bytesAt C seed nonce rounds size (ns ++ [b.length]) ns.sum b.length := by
      refine List.ext_getElem? fun i => ?_
      rw [List.getElem?_take, List.getElem?_drop]
      by_cases ci : i < b.length
      · rw [if_pos ci, bytesAt_get _ ci, hn, Nat.add_assoc, hbytes (q + i) (by omega) (by omega), hp, Nat.add_assoc,
          settled hsz hp hj (by omega)]
      · rw [if_neg ci, List.getElem?_eq_none (by rw [bytesAt_length]; omega)]
    rw [hout] at e
    refine ⟨_, _, e, good_small h.good c, ?_, h.non, h.rnd, j, q + b.length, by omega, by omega, by omega, ?_, ?_, ?_⟩
    · exact (erase_length (by omega) (by omega)).trans hlen
    · show r.n + b.length = _; omega
    · rw [← hkey]
      exact take_erase (by omega) (by omega) (by omega)
    · intro i h1 h2
      show (erase r.buf r.n (r.n + b.length))[32 + i]? = _
      rw [erase_get (by omega) (by omega), if_neg (by omega), hbytes i (by omega) h2, settled hsz hp hj h2]
  · have e := read_refill (C := C) h.good (b := b) (by omega) (by omega)
    have hstream : r.stream C = C (fillKey C seed nonce rounds (j + 1)) nonce rounds := by
      unfold RNG.stream
      rw [hkey, h.non, h.rnd]
    have hj1 : (j + 1) * size = j * size + size := Nat.succ_mul j size
    have hstart : startOf (ns ++ [b.length]) 0 ((j + 1) * size) = ns.sum := by
      rw [startOf_last ns 0 (by omega) (by omega), Nat.zero_add]
    have hnew : ∀ i, i < size → (xorStream (r.stream C) r.buf)[32 + i]? =
        some (byteAt C seed nonce rounds size (ns ++ [b.length]) ((j + 1) * size + i)) := by
      intro i h1
      rw [xorStream_get, hstream, byteAt_later _ h1, hstart]
      by_cases ci : q ≤ i
      · rw [hbytes i ci h1, if_pos (by omega), settled hsz hp hj h1]
        simp [BitVec.xor_comm]
      · rw [h.good.zero (32 + i) (by omega) (by omega), if_neg (by omega)]
        simp [BitVec.xor_comm]
    have hxl := xorStream_length (r.stream C) r.buf
    have hout : r.buf.drop r.n ++ ((xorStream (r.stream C) r.buf).drop 32).take (b.length - r.left) =
        bytesAt C seed nonce rounds size (ns ++ [b.length]) ns.sum b.length := by
      refine List.ext_getElem? fun i => ?_
      have hdl : (r.buf.drop r.n).length = r.left := by simp [RNG.left]
      by_cases c1 : i < r.left
      · rw [List.getElem?_append_left (by omega), List.getElem?_drop, bytesAt_get _ (by omega), hn, Nat.add_assoc,
          hbytes (q + i) (by omega) (by omega), hp, Nat.add_assoc, settled hsz hp hj (by omega)]
      · rw [List.getElem?_append_right (by omega), hdl, List.getElem?_take, List.getElem?_drop]
        by_cases c2 : i < b.length
        · rw [if_pos (by omega), hnew _ (by omega), bytesAt_get _ c2]
          congr 2
          omega
        · rw [if_neg (by omega), List.getElem?_eq_none (by rw [bytesAt_length]; omega)]
    rw [hout] at e
    refine ⟨_, _, e, good_refill h.good (by omega), ?_, h.non, h.rnd, j + 1, b.length - r.left,
      by omega, by omega, by omega, rfl, ?_, ?_⟩
    · show (erase _ _ _).length = _
      rw [erase_length (by omega) (by omega), hxl, hlen]
    · show (erase _ _ _).take 32 = xorStream _ _
      rw [take_erase (by omega) (by omega) (by omega), hstream, ← hkey]
      refine List.ext_getElem? fun i => ?_
      rw [List.getElem?_take, xorStream_get, xorStream_get, List.getElem?_take]
      split <;> rfl
    · intro i h1 h2
      show (erase _ _ _)[32 + i]? = _
      rw [erase_get (by omega) (by omega), if_neg (by omega)]
      exact hnew i h2

theorem takes_le (size : Nat) (h : 64 ≤ size) (p n : Nat) : takes size p n ≤ leftAt size p + size := by
  unfold takes
  split <;> omega

/-- One call, of any length. -/
theorem tracks_any (hsz : 64 ≤ size) {ns : List Nat} {r : RNG} (h : Tracks C seed nonce rounds size ns r)
    (b : List Byte) : ∃ r' ev, read C r b = .ok (r',
      (if b.length ≤ leftAt size ns.sum + size then
        bytesAt C seed nonce rounds size (ns ++ [takes size ns.sum b.length]) ns.sum b.length
      else xorStream (C (bytesAt C seed nonce rounds size (ns ++ [takes size ns.sum b.length]) ns.sum 32) nonce rounds) b),
      b.length, ev) ∧ Tracks C seed nonce rounds size (ns ++ [takes size ns.sum b.length]) r' := by
  obtain ⟨hleft, hsize⟩ := tracks_left (by omega) h
  by_cases c : b.length ≤ leftAt size ns.sum + size
  · have e : takes size ns.sum b.length = b.length := if_pos c
    rw [if_pos c, e]
    exact tracks_read (by omega) h b c
  · have e : takes size ns.sum b.length = 32 := if_neg c
    rw [if_neg c, e]
    obtain ⟨r2, ev, e2, hf2⟩ := tracks_read (by omega) h (List.replicate 32 0)
      (by simp only [List.length_replicate]; omega)
    rw [List.length_replicate] at e2 hf2
    obtain ⟨r3, key, ev3, e3, hg3, -, e4⟩ := readN_large (C := C) h.good (b := b) (by omega) 1
    rw [show readN C (1 + 1) r (List.replicate 32 0) = read C r (List.replicate 32 0) from rfl, e2] at e3
    injection e3 with e3
    injection e3 with e5 e3
    injection e3 with e6 _
    subst e5 e6
    refine ⟨r2, ev3, ?_, hf2⟩
    have e4' : read C r b = _ := (readN_fuel (C := C) h.good b 1).symm.trans e4
    rw [e4', hf2.non, hf2.rnd]

theorem takesAll_sum (p : Nat) (ns : List Nat) (n : Nat) :
    takesAll size p (n :: ns) = takes size p n :: takesAll size (p + takes size p n) ns := rfl

theorem bytesAt_stable {ns : List Nat} (ms : List Nat) {p k : Nat} (h : p + k ≤ ns.sum) :
    bytesAt C seed nonce rounds size (ns ++ ms) p k = bytesAt C seed nonce rounds size ns p k := by
  unfold bytesAt
  apply List.map_congr_left
  intro i hi
  have hi := List.mem_range.1 hi
  apply byteAt_stable
  left
  have := Nat.div_mul_le_self (p + i) size
  omega

theorem tracks_each (hsz : 64 ≤ size) : ∀ (bs : List (List Byte)) {ns : List Nat} {r : RNG},
    Tracks C seed nonce rounds size ns r → ∃ r', readEach C r bs = .ok (r',
      specOut C seed nonce rounds size (ns ++ takesAll size ns.sum (bs.map List.length)) ns.sum bs)
  | [], ns, r, _ => ⟨r, rfl⟩
  | b :: bs, ns, r, h => by
    obtain ⟨r1, ev, e1, h1⟩ := tracks_any hsz h b
    obtain ⟨r2, e2⟩ := tracks_each hsz bs h1
    have hs : (ns ++ [takes size ns.sum b.length]).sum = ns.sum + takes size ns.sum b.length := by simp
    rw [hs, List.append_assoc, List.singleton_append] at e2
    refine ⟨r2, ?_⟩
    unfold readEach
    rw [e1]
    show (readEach C r1 bs >>= _) = _
    rw [e2]
    show Except.ok (r2, _ :: _) = Except.ok (r2, specOut _ _ _ _ _ _ _ (b :: bs))
    congr 2
    rw [specOut, List.map_cons, takesAll_sum]
    congr 1
    rw [show ns ++ takes size ns.sum b.length :: takesAll size (ns.sum + takes size ns.sum b.length) (bs.map List.length) =
      ns ++ [takes size ns.sum b.length] ++ takesAll size (ns.sum + takes size ns.sum b.length) (bs.map List.length) by simp]
    by_cases c : b.length ≤ leftAt size ns.sum + size
    · rw [if_pos c, if_pos c, bytesAt_stable (ns := ns ++ [takes size ns.sum b.length]) _ (by rw [hs]; simp [takes, c])]
    · rw [if_neg c, if_neg c, bytesAt_stable (ns := ns ++ [takes size ns.sum b.length]) _ (by rw [hs]; simp [takes, c])]

/-- **C105**, every sequence of `Read`s: for every seed, nonce, buffer size and number of rounds, each call of any length
returns the bytes of the formula (`byteAt`), which needs no more than how many bytes the calls used in turn. -/
theorem C105_every (hs : seed.length = 32) (hn : nonce.length = 8) {r : RNG}
    (h : newRNGCustom C seed nonce size rounds = .ok r) (bs : List (List Byte)) :
    ∃ r', readEach C r bs = .ok (r',
      specOut C seed nonce rounds size (takesAll size 0 (bs.map List.length)) 0 bs) := by
  have hsz : 64 ≤ size := by
    have := ((new_returns_iff C hs hn size rounds).1 ⟨r, h⟩).1
    omega
  exact tracks_each hsz bs (tracks_new hs hn h)

/-- **C105**: the formula is that of `C105_output` for a byte whose filling starts with a call of its own, that is, if no
call used both the last byte of one filling and the first of the next. -/
theorem C105_formula (ns : List Nat) (p : Nat)
    (h : startOf ns 0 (p / size * size) = p / size * size) :
    byteAt C seed nonce rounds size ns p = outByte C seed nonce rounds size p := by
  rw [byteAt]
  have : ¬ (0 < size ∧ size ≤ p ∧ startOf ns 0 (p / size * size) ≤ p - size) := by
    rintro ⟨h1, h2, h3⟩
    rw [h] at h3
    have := Nat.div_add_mod p size
    have := Nat.mod_lt p h1
    have := Nat.mul_comm size (p / size)
    omega
  rw [if_neg this]
  simp

/-- Three calls with 60, 40 and 300 bytes, a buffer of 64: the second call starts at byte 60 and has byte 64, so byte 124
would be xored with byte 60; the third is too large and uses 32 bytes, from 100 to 131. -/
example : takesAll 64 0 [60, 40, 300, 10] = [60, 40, 32, 10] ∧ startOf [60, 40, 32, 10] 0 64 = 60 ∧
    startOf [60, 40, 32, 10] 0 128 = 100 ∧ leftAt 64 60 = 4 ∧ leftAt 64 128 = 0 := by decide

example (C : Cipher) (s n : List Byte) : byteAt C s n 8 64 [60, 40, 32, 10] 124 =
    outByte C s n 8 64 124 ^^^ outByte C s n 8 64 60 := by
  rw [byteAt, if_pos (by decide), byteAt, if_neg (by decide)]
  simp

end Verif.Secrand
