import Verif.Secrand.SplitProps

/-!
# C105: which bytes a generator hands out, and the seeds of `NewRNG`

The specification is a formula: byte `p` of the output is byte `32 + p % size` of the keystream of a key that is
replaced after every `size` bytes; each key is the one before, xored with the first 32 bytes of its own keystream.
-/

namespace Verif.Secrand

/-! ## More of the code -/

/-- `NewRNGFromSeed` (secrand/rng.go:46-48): `DefaultBufSize` is 1024, `DefaultRounds` is 12 (13-16). -/
def newRNGFromSeed (C : Cipher) (nonce seed : List Byte) : Go RNG := newRNGCustom C seed nonce 1024 12

/-- `mustRead` (secrand/rng.go:24-29) of `len` bytes; `io.ReadFull` gave `bytes` and perhaps an error. -/
def mustRead (len : Nat) (bytes : List Byte) (err : Bool) : Go (List Byte) :=
  if err ∨ bytes.length ≠ len then .error "error reading random source: " else .ok bytes

/-- `NewRNGFromReader` (secrand/rng.go:54-58). -/
def newRNGFromReader (C : Cipher) (nonce : List Byte) (bytes : List Byte) (err : Bool) : Go RNG := do
  let seed ← mustRead keySize bytes err
  newRNGFromSeed C nonce seed

/-- `NewRNG` (secrand/rng.go:64-71): the master generator afterwards, and the new one. The lock makes calls
follow each other. -/
def newRNG (C : Cipher) (nonce : List Byte) (master : RNG) : Go (RNG × RNG) := do
  let (master, seed, _, _) ← read C master (List.replicate keySize 0)
  let r ← newRNGFromSeed C nonce seed
  return (master, r)

/-- `k` calls of `NewRNG`. -/
def newRNGs (C : Cipher) (nonce : List Byte) : Nat → RNG → Go (RNG × List RNG)
  | 0, master => .ok (master, [])
  | k + 1, master => do
    let (master, r) ← newRNG C nonce master
    let (master, rs) ← newRNGs C nonce k master
    return (master, r :: rs)

/-! ## The specification -/

/-- The key that makes filling `j` of the buffer; that of the first is the seed. The key of the second is the first
32 bytes of the seed's keystream; each further one is the one before xored with its own keystream. -/
def fillKey (C : Cipher) (seed nonce : List Byte) (rounds : Nat) : Nat → List Byte
  | 0 => seed
  | 1 => (List.range 32).map (C seed nonce rounds)
  | j + 2 => xorStream (C (fillKey C seed nonce rounds (j + 1)) nonce rounds) (fillKey C seed nonce rounds (j + 1))

/-- Byte `p` of the output of a generator whose buffer holds `size` bytes. -/
def outByte (C : Cipher) (seed nonce : List Byte) (rounds size p : Nat) : Byte :=
  C (fillKey C seed nonce rounds (p / size)) nonce rounds (32 + p % size)

/-- Bytes `p` to `p + k - 1` of the output. -/
def outBytes (C : Cipher) (seed nonce : List Byte) (rounds size p k : Nat) : List Byte :=
  (List.range k).map fun i => outByte C seed nonce rounds size (p + i)

/-! ## The generator follows it -/

variable {C : Cipher} {seed nonce : List Byte} {rounds size : Nat}

/-- The generator has handed out `p` bytes: `j` fillings are used up and `q` bytes of the current one. -/
structure Follows (C : Cipher) (seed nonce : List Byte) (rounds size p : Nat) (r : RNG) : Prop where
  good : Good r
  len : r.buf.length = 32 + size
  non : r.nonce = nonce
  rnd : r.rounds = rounds
  place : ∃ j q, p = j * size + q ∧ q ≤ size ∧ r.n = 32 + q ∧ r.buf.take 32 = fillKey C seed nonce rounds (j + 1) ∧
    ∀ i, r.n ≤ i → i < 32 + size → r.buf[i]? = some (C (fillKey C seed nonce rounds j) nonce rounds i)

theorem follows_new (hs : seed.length = 32) (hn : nonce.length = 8) {r : RNG}
    (h : newRNGCustom C seed nonce size rounds = .ok r) : Follows C seed nonce rounds size 0 r := by
  have hg := new_good hs hn h
  obtain ⟨h1, h2⟩ := (new_returns_iff C hs hn size rounds).1 ⟨r, h⟩
  unfold newRNGCustom at h
  rw [if_neg (by simp only [keySize]; omega), if_neg (fun hh => hh h2)] at h
  dsimp only at h
  rw [xorKeyStream_ok hs hn h2] at h
  injection h with h
  subst h
  refine ⟨hg, by simp [xorStream_length, keySize], rfl, rfl, 0, 0, by simp, by omega, rfl, ?_, ?_⟩
  · refine List.ext_getElem? fun i => ?_
    simp only [fillKey]
    rw [List.getElem?_take, xorStream_get, List.getElem?_replicate, List.getElem?_map]
    by_cases c : i < 32
    · rw [if_pos c, if_pos (by simp [keySize]; omega), List.getElem?_range c]
      simp
    · rw [if_neg c, List.getElem?_eq_none (by simp; omega)]; rfl
  · intro i hi hi'
    show (xorStream _ _)[i]? = _
    rw [xorStream_get, List.getElem?_replicate, if_pos (by simp [keySize]; omega)]
    simp [fillKey]

theorem outByte_eq (hsz : 0 < size) {j q : Nat} (hq : q < size) :
    outByte C seed nonce rounds size (j * size + q) = C (fillKey C seed nonce rounds j) nonce rounds (32 + q) := by
  have h1 : (j * size + q) / size = j := by
    rw [Nat.add_comm, Nat.add_mul_div_right _ _ hsz, Nat.div_eq_of_lt hq, Nat.zero_add]
  have h2 : (j * size + q) % size = q := by
    rw [Nat.add_comm, Nat.add_mul_mod_self_right, Nat.mod_eq_of_lt hq]
  unfold outByte
  rw [h1, h2]

theorem outBytes_length (p k : Nat) : (outBytes C seed nonce rounds size p k).length = k := by simp [outBytes]

theorem outBytes_get {p k i : Nat} (h : i < k) :
    (outBytes C seed nonce rounds size p k)[i]? = some (outByte C seed nonce rounds size (p + i)) := by
  unfold outBytes
  rw [List.getElem?_map, List.getElem?_range h]; rfl

theorem outBytes_add (p k l : Nat) : outBytes C seed nonce rounds size p (k + l) =
    outBytes C seed nonce rounds size p k ++ outBytes C seed nonce rounds size (p + k) l := by
  unfold outBytes
  rw [List.range_add, List.map_append, List.map_map]
  congr 1
  apply List.map_congr_left
  intro i _
  simp [Nat.add_assoc]

theorem follows_read (hsz : 0 < size) {p : Nat} {r : RNG} (h : Follows C seed nonce rounds size p r) (b : List Byte)
    (hb : NoStraddle r b.length) :
    ∃ r' ev, read C r b = .ok (r', outBytes C seed nonce rounds size p b.length, b.length, ev) ∧
      Follows C seed nonce rounds size (p + b.length) r' := by
  obtain ⟨j, q, hp, hq, hn, hkey, hbytes⟩ := h.place
  have hlen := h.len
  have hleft : r.left = size - q := by simp only [RNG.left]; omega
  have hsize : r.size = size := by simp only [RNG.size]; omega
  have hhi := h.good.hi
  by_cases c : b.length ≤ r.left
  · have e := read_small (C := C) h.good c
    have hout : (r.buf.drop r.n).take b.length = outBytes C seed nonce rounds size p b.length := by
      refine List.ext_getElem? fun i => ?_
      rw [List.getElem?_take, List.getElem?_drop]
      by_cases ci : i < b.length
      · rw [if_pos ci, outBytes_get ci, hbytes _ (by omega) (by omega), hp, Nat.add_assoc, outByte_eq hsz (by omega), hn]
        congr 2; omega
      · rw [if_neg ci, List.getElem?_eq_none (by rw [outBytes_length]; omega)]
    rw [hout] at e
    refine ⟨_, _, e, good_small h.good c, ?_, h.non, h.rnd, j, q + b.length, by omega, by omega, ?_, ?_, ?_⟩
    · exact (erase_length (by omega) (by omega)).trans hlen
    · show r.n + b.length = _; omega
    · rw [← hkey]
      exact take_erase (by omega) (by omega) (by omega)
    · intro i h1 h2
      have h1 : r.n + b.length ≤ i := h1
      show (erase r.buf r.n (r.n + b.length))[i]? = _
      rw [erase_get (by omega) (by omega), if_neg (by omega)]
      exact hbytes i (by omega) h2
  · have hb' : r.left = 0 ∧ b.length ≤ r.size := hb.resolve_left c
    have hqs : q = size := by omega
    subst hqs
    have e := read_refill (C := C) h.good (b := b) (by omega) (by omega)
    have hstream : r.stream C = C (fillKey C seed nonce rounds (j + 1)) nonce rounds := by
      unfold RNG.stream
      rw [hkey, h.non, h.rnd]
    have hdrop : r.buf.drop r.n = [] := List.drop_of_length_le (by omega)
    have hbl : b.length - r.left = b.length := by omega
    have hnew : ∀ i, 32 ≤ i → i < 32 + q →
        (xorStream (r.stream C) r.buf)[i]? = some (C (fillKey C seed nonce rounds (j + 1)) nonce rounds i) := by
      intro i h1 h2
      rw [xorStream_get, h.good.zero i h1 (by omega), hstream]
      simp
    have hxl := xorStream_length (r.stream C) r.buf
    have hout : r.buf.drop r.n ++ ((xorStream (r.stream C) r.buf).drop 32).take (b.length - r.left) =
        outBytes C seed nonce rounds q p b.length := by
      rw [hdrop, hbl, List.nil_append]
      refine List.ext_getElem? fun i => ?_
      rw [List.getElem?_take, List.getElem?_drop]
      by_cases ci : i < b.length
      · rw [if_pos ci, outBytes_get ci, hnew _ (by omega) (by omega), hp,
          show j * q + q + i = (j + 1) * q + i by rw [Nat.succ_mul], outByte_eq hsz (by omega)]
      · rw [if_neg ci, List.getElem?_eq_none (by rw [outBytes_length]; omega)]
    rw [hout] at e
    refine ⟨_, _, e, good_refill h.good (by omega), ?_, h.non, h.rnd, j + 1, b.length,
      by rw [hp, Nat.succ_mul], by omega, by rw [hbl], ?_, ?_⟩
    · show (erase _ _ _).length = _
      rw [erase_length (by omega) (by omega), hxl, hlen]
    · show (erase _ _ _).take 32 = xorStream _ _
      rw [take_erase (by omega) (by omega) (by omega), hstream, ← hkey]
      refine List.ext_getElem? fun i => ?_
      rw [List.getElem?_take, xorStream_get, xorStream_get, List.getElem?_take]
      split <;> rfl
    · intro i h1 h2
      have h1 : 32 + (b.length - r.left) ≤ i := h1
      show (erase _ _ _)[i]? = _
      rw [erase_get (by omega) (by omega), if_neg (by omega)]
      exact hnew i (by omega) h2

theorem follows_reads (hsz : 0 < size) : ∀ (bs : List (List Byte)) {p : Nat} {r : RNG},
    Follows C seed nonce rounds size p r → NoStraddles C r bs →
    ∃ r', reads C r bs = .ok (r', outBytes C seed nonce rounds size p bs.flatten.length) ∧
      Follows C seed nonce rounds size (p + bs.flatten.length) r'
  | [], p, r, h, _ => ⟨r, rfl, h⟩
  | b :: bs, p, r, h, hs => by
    obtain ⟨r1, ev, e1, h1⟩ := follows_read hsz h b hs.1
    obtain ⟨r2, e2, h2⟩ := follows_reads hsz bs h1 (hs.2 _ _ _ _ e1)
    refine ⟨r2, ?_, ?_⟩
    · rw [reads_cons e1 e2, List.flatten_cons, List.length_append, outBytes_add]
    · rw [List.flatten_cons, List.length_append, ← Nat.add_assoc]; exact h2

/-- **C105.** What a generator hands out: for every seed, nonce, buffer size and number of rounds and every sequence of
`Read`s none of which uses the end of one filling and the start of the next (`split_free_partial` is about those that
do), the bytes are those of the formula, from the first on. -/
theorem C105_output (hs : seed.length = 32) (hn : nonce.length = 8) {r : RNG}
    (h : newRNGCustom C seed nonce size rounds = .ok r) (bs : List (List Byte)) (hb : NoStraddles C r bs) :
    ∃ r', reads C r bs = .ok (r', outBytes C seed nonce rounds size 0 bs.flatten.length) := by
  have hsz : 0 < size := by
    have := ((new_returns_iff C hs hn size rounds).1 ⟨r, h⟩).1
    omega
  obtain ⟨r', e, -⟩ := follows_reads hsz bs (follows_new hs hn h) hb
  exact ⟨r', e⟩

/-- **C105**, larger `Read`s: having handed out `p` bytes, a `Read` larger than what two fillings can give uses the next
32 bytes of the formula as a key and xors its keystream onto the argument. -/
theorem C105_large (hs : seed.length = 32) (hn : nonce.length = 8) {r : RNG}
    (h : newRNGCustom C seed nonce size rounds = .ok r) (bs : List (List Byte)) (hb : NoStraddles C r bs) {r' : RNG}
    {out : List Byte} (hr : reads C r bs = .ok (r', out)) (hk : NoStraddle r' 32) (b : List Byte)
    (hlen : r'.left + r'.size < b.length) :
    ∃ r'' ev, read C r' b = .ok (r'', xorStream
      (C (outBytes C seed nonce rounds size bs.flatten.length 32) nonce rounds) b, b.length, ev) := by
  have hsz : 0 < size := by
    have := ((new_returns_iff C hs hn size rounds).1 ⟨r, h⟩).1
    omega
  obtain ⟨r1, e, hf⟩ := follows_reads hsz bs (follows_new hs hn h) hb
  rw [hr] at e
  injection e with e
  injection e with e _
  subst e
  rw [Nat.zero_add] at hf
  obtain ⟨r2, ev, e2, hf2⟩ := follows_read hsz hf (List.replicate 32 0) (by simpa using hk)
  obtain ⟨r3, key, ev3, e3, hg3, -, e4⟩ := readN_large (C := C) hf.good hlen 1
  have hfu := readN_fuel (C := C) hf.good (List.replicate 32 0) 0
  rw [show readN C (1 + 1) r' (List.replicate 32 0) = read C r' (List.replicate 32 0) from rfl] at e3
  rw [e3] at e2
  injection e2 with e2
  injection e2 with e5 e2
  injection e2 with e6 _
  subst e5 e6
  refine ⟨r3, ev3, ?_⟩
  have e4' : read C r' b = _ := (readN_fuel (C := C) hf.good b 1).symm.trans e4
  rw [e4', hf2.non, hf2.rnd, List.length_replicate]

/-- A new generator and a `Read` of 200 bytes meet the hypotheses: the buffer has 64. -/
example (C : Cipher) {r : RNG} (h : newRNGCustom C (List.replicate 32 7) (List.replicate 8 1) (64 : Nat) 8 = .ok r) :
    ∃ r'' ev, read C r (List.replicate 200 0) = .ok (r'', xorStream (C (outBytes C (List.replicate 32 7)
      (List.replicate 8 1) 8 64 0 32) (List.replicate 8 1) 8) (List.replicate 200 0), 200, ev) := by
  have hf := follows_new rfl rfl h
  obtain ⟨j, q, hp, hq, hn, -⟩ := hf.place
  have hl := hf.len
  exact C105_large rfl rfl h [] trivial rfl (by simp only [NoStraddle, RNG.left]; omega) (List.replicate 200 0)
    (by simp only [RNG.left, RNG.size, List.length_replicate]; omega)

/-! ## `NewRNG` -/

theorem newRNGFromSeed_ok (hs : seed.length = 32) (hn : nonce.length = 8) :
    ∃ r, newRNGFromSeed C nonce seed = .ok r :=
  (new_returns_iff C hs hn 1024 12).2 ⟨by omega, by omega⟩

theorem newRNGs_follow {mseed : List Byte} (hn : nonce.length = 8) : ∀ (k m : Nat) (master : RNG),
    Follows C mseed nonce 12 1024 (32 * m) master →
    ∃ master' rs, newRNGs C nonce k master = .ok (master', rs) ∧ rs.length = k ∧
      Follows C mseed nonce 12 1024 (32 * (m + k)) master' ∧
      ∀ i r, rs[i]? = some r → newRNGFromSeed C nonce (outBytes C mseed nonce 12 1024 (32 * (m + i)) 32) = .ok r
  | 0, m, master, h => ⟨master, [], rfl, rfl, h, fun i r hi => by simp at hi⟩
  | k + 1, m, master, h => by
    obtain ⟨j, q, hp, hq, hrn, hkey, hbytes⟩ := h.place
    have hlen := h.len
    -- the pieces fit: 1024 is a multiple of 32
    have hns : NoStraddle master (List.replicate keySize (0 : Byte)).length := by
      rw [List.length_replicate]
      simp only [NoStraddle, RNG.left, RNG.size, keySize]
      omega
    obtain ⟨m1, ev, e1, h1⟩ := follows_read (by omega) h (List.replicate keySize 0) hns
    rw [List.length_replicate, show keySize = 32 from rfl, show 32 * m + 32 = 32 * (m + 1) by omega] at h1
    rw [List.length_replicate] at e1
    have hsl : (outBytes C mseed nonce 12 1024 (32 * m) 32).length = 32 := outBytes_length _ _
    obtain ⟨r, er⟩ := newRNGFromSeed_ok (C := C) hsl hn
    obtain ⟨m2, rs, e2, hl, h2, hall⟩ := newRNGs_follow hn k (m + 1) m1 h1
    refine ⟨m2, r :: rs, ?_, by simp [hl], by rw [show m + (k + 1) = m + 1 + k by omega]; exact h2, ?_⟩
    · have e : newRNG C nonce master = .ok (m1, r) := by
        unfold newRNG
        rw [e1]
        show (newRNGFromSeed C nonce (outBytes C mseed nonce 12 1024 (32 * m) 32) >>= _) = _
        rw [er]; rfl
      unfold newRNGs
      rw [e]
      show (newRNGs C nonce k m1 >>= _) = _
      rw [e2]; rfl
    · intro i r' hi
      cases i with
      | zero =>
        injection hi with hi
        subst hi
        exact er
      | succ i =>
        rw [List.getElem?_cons_succ] at hi
        have := hall i r' hi
        rwa [show m + 1 + i = m + (i + 1) by omega] at this

/-- **C105**, `NewRNG`: if the operating system gave the 32 bytes of the master's seed, then any number of calls of
`NewRNG` return, and the seed of the `i`-th generator is the `i`-th piece of 32 bytes of the master's output. So no
byte of it is in two seeds. -/
theorem C105_newRNG {mseed : List Byte} (hm : mseed.length = 32) (hn : nonce.length = 8) :
    ∃ master, newRNGFromReader C nonce mseed false = .ok master ∧
      ∀ k, ∃ master' rs, newRNGs C nonce k master = .ok (master', rs) ∧ rs.length = k ∧
        ∀ i r, rs[i]? = some r → newRNGFromSeed C nonce (outBytes C mseed nonce 12 1024 (32 * i) 32) = .ok r := by
  obtain ⟨master, e⟩ := newRNGFromSeed_ok (C := C) hm hn
  refine ⟨master, ?_, fun k => ?_⟩
  · unfold newRNGFromReader mustRead
    rw [if_neg (by simp [keySize, hm])]
    exact e
  · obtain ⟨m', rs, h1, h2, -, h3⟩ := newRNGs_follow hn k 0 master (follows_new hm hn e)
    refine ⟨m', rs, h1, h2, fun i r hi => ?_⟩
    have := h3 i r hi
    rwa [Nat.zero_add] at this

/-- The hypotheses are met: a generator, and reads that reach the third filling of a buffer of 64 bytes. -/
example (C : Cipher) : ∃ r, newRNGCustom C (List.replicate 32 7) (List.replicate 8 1) (64 : Nat) 8 = .ok r ∧
    NoStraddles C r (bytewise 150) := by
  obtain ⟨r, h⟩ := (new_returns_iff C (seed := List.replicate 32 7) (nonce := List.replicate 8 1) rfl rfl (64 : Nat) 8).2
    ⟨by decide, Or.inl rfl⟩
  exact ⟨r, h, bytewise_noStraddles 150 (new_good rfl rfl h)⟩

/-- **C105**: without 32 bytes from the reader there is no generator. -/
theorem C105_reader (bytes : List Byte) (err : Bool) (hn : nonce.length = 8) :
    (∃ r, newRNGFromReader C nonce bytes err = .ok r) ↔ err = false ∧ bytes.length = 32 := by
  unfold newRNGFromReader mustRead
  constructor
  · rintro ⟨r, h⟩
    split at h
    · cases h
    · rename_i hc
      simp only [keySize, not_or, Bool.not_eq_true, ne_eq, Decidable.not_not] at hc
      exact hc
  · rintro ⟨h1, h2⟩
    rw [if_neg (by simp [keySize, h1, h2])]
    exact newRNGFromSeed_ok h2 hn

end Verif.Secrand
