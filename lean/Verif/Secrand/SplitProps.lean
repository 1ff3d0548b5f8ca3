import Verif.Secrand.Props

/-!
# How reads are split, and what they do with `b` (C62, C63, C70)
-/

namespace Verif.Secrand

variable {C : Cipher}

/-- Several `Read`s, one after the other: the generator afterwards and all bytes. -/
def reads (C : Cipher) : RNG → List (List Byte) → Go (RNG × List Byte)
  | r, [] => .ok (r, [])
  | r, b :: bs => do
    let (r, out, _, _) ← read C r b
    let (r, more) ← reads C r bs
    return (r, out ++ more)

theorem reads_cons {r r' r'' : RNG} {b out more : List Byte} {bs : List (List Byte)} {n : Nat} {ev : List Event}
    (h1 : read C r b = .ok (r', out, n, ev)) (h2 : reads C r' bs = .ok (r'', more)) :
    reads C r (b :: bs) = .ok (r'', out ++ more) := by
  unfold reads
  rw [h1]
  show (reads C r' bs >>= _) = _
  rw [h2]
  rfl

theorem read_small {r : RNG} (h : Good r) {b : List Byte} (hb : b.length ≤ r.left) :
    read C r b = .ok ({ r with buf := erase r.buf r.n (r.n + b.length), n := r.n + b.length },
      (r.buf.drop r.n).take b.length, b.length, [.out r.n (r.n + b.length)]) := readN_small h hb 1

theorem read_refill {r : RNG} (h : Good r) {b : List Byte} (hb : r.left < b.length) (hb' : b.length ≤ r.left + r.size) :
    read C r b = .ok
      ({ r with buf := erase (xorStream (r.stream C) r.buf) 32 (32 + (b.length - r.left)), n := 32 + (b.length - r.left) },
      r.buf.drop r.n ++ ((xorStream (r.stream C) r.buf).drop 32).take (b.length - r.left), b.length,
      [.out r.n (r.n + r.left), .refill, .out 32 (32 + (b.length - r.left))]) := readN_refill h hb hb' 1

/-! ## C62 -/

/-- The next bytes, as many as the buffer holds: those left, and then the keystream. -/
def upcoming (C : Cipher) (r : RNG) : List Byte :=
  r.buf.drop r.n ++ (List.range (r.n - 32)).map fun i => r.stream C (32 + i)

theorem upcoming_get {r : RNG} (h : Good r) {q : Nat} (hq : q < r.size) :
    (upcoming C r)[q]? = if q < r.left then r.buf[r.n + q]? else some (r.stream C (32 + (q - r.left))) := by
  have hlo := h.lo
  have hhi := h.hi
  have hleft : r.left = r.buf.length - r.n := rfl
  have hsize : r.size = r.buf.length - 32 := rfl
  unfold upcoming
  by_cases c : q < r.left
  · rw [if_pos c, List.getElem?_append_left (by simp; omega), List.getElem?_drop]
  · rw [if_neg c, List.getElem?_append_right (by simp; omega)]
    rw [List.getElem?_map, List.getElem?_range (by simp; omega)]
    simp [hleft]

theorem upcoming_length {r : RNG} (h : Good r) : (upcoming C r).length = r.size := by
  have hlo := h.lo
  have hhi := h.hi
  simp [upcoming, RNG.size]
  omega

/-- `r` is `r0` after `k` bytes, `k` at most the size of the buffer. -/
structure At (C : Cipher) (r0 : RNG) (k : Nat) (r : RNG) : Prop where
  good : Good r
  len : r.buf.length = r0.buf.length
  here : (k ≤ r0.left ∧ r.n = r0.n + k ∧ r.stream C = r0.stream C ∧ (∀ (i : Nat), 32 ≤ i → i < r.n → r.buf[i]? = some 0) ∧
      ∀ (i : Nat), r.n ≤ i → r.buf[i]? = r0.buf[i]?) ∨
    (r0.left < k ∧ r.n = 32 + (k - r0.left) ∧ ∀ (i : Nat), r.n ≤ i → i < r0.n → r.buf[i]? = some (r0.stream C i))

theorem at_zero {r0 : RNG} (h : Good r0) : At C r0 0 r0 :=
  ⟨h, rfl, Or.inl ⟨Nat.zero_le _, rfl, rfl, h.zero, fun _ _ => rfl⟩⟩

theorem take_erase {buf : List Byte} {lo hi : Nat} (h0 : 32 ≤ lo) (h1 : lo ≤ hi) (h2 : hi ≤ buf.length) :
    (erase buf lo hi).take 32 = buf.take 32 := by
  refine List.ext_getElem? fun i => ?_
  by_cases c : i < 32
  · rw [List.getElem?_take_of_lt c, List.getElem?_take_of_lt c, erase_get h1 h2, if_neg (by omega)]
  · rw [List.getElem?_eq_none (by simp; omega), List.getElem?_eq_none (by simp; omega)]

/-- One more read. -/
theorem at_read {r0 r : RNG} {k : Nat} (h0 : Good r0) (h : At C r0 k r) {b : List Byte} (hb : k + b.length ≤ r0.size) :
    ∃ r' ev, read C r b = .ok (r', ((upcoming C r0).drop k).take b.length, b.length, ev) ∧ At C r0 (k + b.length) r' := by
  have hg := h.good
  have hlen := h.len
  have hlo := hg.lo
  have hhi := hg.hi
  have h0lo := h0.lo
  have h0hi := h0.hi
  have h96 := h0.len
  have hul := upcoming_length (C := C) h0
  have hleft0 : r0.left = r0.buf.length - r0.n := rfl
  have hsize0 : r0.size = r0.buf.length - 32 := rfl
  have hleft : r.left = r.buf.length - r.n := rfl
  have hsize : r.size = r.buf.length - 32 := rfl
  rcases h.here with ⟨hk, hn, hst, hz, hrest⟩ | ⟨hk, hn, hrest⟩
  · by_cases c : b.length ≤ r.left
    · -- enough left
      have hgood := good_small hg c
      have hx := read_small (C := C) hg c
      have eout : (r.buf.drop r.n).take b.length = ((upcoming C r0).drop k).take b.length := by
        refine List.ext_getElem? fun i => ?_
        by_cases ci : i < b.length
        · rw [List.getElem?_take_of_lt ci, List.getElem?_take_of_lt ci, List.getElem?_drop, List.getElem?_drop,
            upcoming_get h0 (by omega), if_pos (by omega), hrest _ (by omega)]
          congr 1; omega
        · rw [List.getElem?_eq_none (by simp; omega), List.getElem?_eq_none (by simp; omega)]
      rw [eout] at hx
      refine ⟨_, _, hx, hgood, ?_, Or.inl ⟨by omega, ?_, ?_, hgood.zero, ?_⟩⟩
      · show (erase r.buf r.n (r.n + b.length)).length = _
        rw [erase_length (by omega) (by omega), hlen]
      · show r.n + b.length = _
        omega
      · rw [← hst]
        show C ((erase r.buf r.n (r.n + b.length)).take 32) r.nonce r.rounds = _
        rw [take_erase hlo (by omega) (by omega)]
        rfl
      · intro i hi
        show (erase r.buf r.n (r.n + b.length))[i]? = _
        have hi' : r.n + b.length ≤ i := hi
        rw [erase_get (by omega) (by omega), if_neg (by omega), hrest i (by omega)]
    · -- refill
      have hgood := good_refill (C := C) hg (k := b.length - r.left) (by omega)
      have hx := read_refill (C := C) hg (b := b) (by omega) (by omega)
      have hG : ∀ (i : Nat), 32 ≤ i → i < r0.n → (xorStream (r.stream C) r.buf)[i]? = some (r0.stream C i) := by
        intro i h1 h2
        rw [xorStream_get, hz i h1 (by omega), hst]
        simp
      have hxl := xorStream_length (r.stream C) r.buf
      have eout : r.buf.drop r.n ++ ((xorStream (r.stream C) r.buf).drop 32).take (b.length - r.left) =
          ((upcoming C r0).drop k).take b.length := by
        refine List.ext_getElem? fun i => ?_
        by_cases ci : i < b.length
        · rw [List.getElem?_take_of_lt ci, List.getElem?_drop, upcoming_get h0 (by omega)]
          by_cases cl : i < r.left
          · rw [List.getElem?_append_left (by simp; omega), List.getElem?_drop, if_pos (by omega), hrest _ (by omega)]
            congr 1; omega
          · rw [List.getElem?_append_right (by simp; omega), if_neg (by omega),
              List.getElem?_take_of_lt (by simp; omega), List.getElem?_drop, hG _ (by omega) (by simp; omega)]
            congr 2
            simp
            omega
        · rw [List.getElem?_eq_none (by simp [hxl]; omega), List.getElem?_eq_none (by simp; omega)]
      rw [eout] at hx
      refine ⟨_, _, hx, hgood, ?_, Or.inr ⟨by omega, ?_, ?_⟩⟩
      · show (erase (xorStream (r.stream C) r.buf) 32 (32 + (b.length - r.left))).length = _
        rw [erase_length (by omega) (by omega), hxl, hlen]
      · show 32 + (b.length - r.left) = _
        omega
      · intro i hi hi0
        have hi' : 32 + (b.length - r.left) ≤ i := hi
        show (erase (xorStream (r.stream C) r.buf) 32 (32 + (b.length - r.left)))[i]? = _
        rw [erase_get (by omega) (by omega), if_neg (by omega), hG i (by omega) hi0]
  · -- after the refill
    have c : b.length ≤ r.left := by omega
    have hgood := good_small hg c
    have hx := read_small (C := C) hg c
    have eout : (r.buf.drop r.n).take b.length = ((upcoming C r0).drop k).take b.length := by
      refine List.ext_getElem? fun i => ?_
      by_cases ci : i < b.length
      · rw [List.getElem?_take_of_lt ci, List.getElem?_take_of_lt ci, List.getElem?_drop, List.getElem?_drop,
          upcoming_get h0 (by omega), if_neg (by omega), hrest _ (by omega) (by omega)]
        congr 2; omega
      · rw [List.getElem?_eq_none (by simp; omega), List.getElem?_eq_none (by simp; omega)]
    rw [eout] at hx
    refine ⟨_, _, hx, hgood, ?_, Or.inr ⟨by omega, ?_, ?_⟩⟩
    · show (erase r.buf r.n (r.n + b.length)).length = _
      rw [erase_length (by omega) (by omega), hlen]
    · show r.n + b.length = _
      omega
    · intro i hi hi0
      have hi' : r.n + b.length ≤ i := hi
      show (erase r.buf r.n (r.n + b.length))[i]? = _
      rw [erase_get (by omega) (by omega), if_neg (by omega), hrest i (by omega) hi0]

theorem at_reads {r0 : RNG} (h0 : Good r0) : ∀ (bs : List (List Byte)) {r : RNG} {k : Nat}, At C r0 k r →
    k + bs.flatten.length ≤ r0.size →
    ∃ r', reads C r bs = .ok (r', ((upcoming C r0).drop k).take bs.flatten.length)
  | [], r, k, _, _ => ⟨r, by simp [reads]⟩
  | b :: bs, r, k, h, hk => by
    simp only [List.flatten_cons, List.length_append] at hk
    obtain ⟨r1, ev, e1, a1⟩ := at_read h0 h (b := b) (by omega)
    obtain ⟨r2, e2⟩ := at_reads h0 bs a1 (by omega)
    refine ⟨r2, ?_⟩
    rw [reads_cons e1 e2, List.flatten_cons, List.length_append, List.take_add, List.drop_drop]

/-- C62: bytes read in several `Read`s are those a single one gives, if they fit into the buffer. -/
theorem split_same {r : RNG} (h : Good r) (bs : List (List Byte)) (b : List Byte) (hlen : bs.flatten.length = b.length)
    (hsize : b.length ≤ r.size) :
    ∃ r' r'' out n ev, reads C r bs = .ok (r', out) ∧ read C r b = .ok (r'', out, n, ev) := by
  obtain ⟨r', e⟩ := at_reads (C := C) h bs (at_zero h) (by omega)
  obtain ⟨r'', ev, e', -⟩ := at_read (C := C) h (at_zero h) (b := b) (by omega)
  rw [hlen] at e
  exact ⟨r', r'', _, _, ev, e, e'⟩

/-! ## C70: what comes after -/

/-- A `Read` of `j` bytes does not use the end of one filling and the start of the next. -/
def NoStraddle (r : RNG) (j : Nat) : Prop := j ≤ r.left ∨ (r.left = 0 ∧ j ≤ r.size)

theorem erase_erase {buf : List Byte} {lo mid hi : Nat} (h1 : lo ≤ mid) (h2 : mid ≤ hi) (h3 : hi ≤ buf.length) :
    erase (erase buf lo mid) mid hi = erase buf lo hi := by
  refine List.ext_getElem? fun i => ?_
  have hl := erase_length h1 (Nat.le_trans h2 h3)
  rw [erase_get h2 (by omega), erase_get h1 (by omega), erase_get (by omega) h3]
  by_cases c1 : mid ≤ i ∧ i < hi
  · rw [if_pos c1, if_pos (by omega)]
  · rw [if_neg c1]
    by_cases c2 : lo ≤ i ∧ i < mid
    · rw [if_pos c2, if_pos (by omega)]
    · rw [if_neg c2, if_neg (by omega)]

theorem take_parts {G a b c : List Byte} {n : Nat} (hb : b.length = a.length + c.length) (hn : n + b.length ≤ G.length) :
    (G.drop n).take b.length =
      (G.drop n).take a.length ++ ((erase G n (n + a.length)).drop (n + a.length)).take c.length := by
  have hl := erase_length (buf := G) (lo := n) (hi := n + a.length) (by omega) (by omega)
  refine List.ext_getElem? fun i => ?_
  by_cases ci : i < b.length
  · rw [List.getElem?_take_of_lt ci]
    by_cases ca : i < a.length
    · rw [List.getElem?_append_left (by simp; omega), List.getElem?_take_of_lt ca]
    · rw [List.getElem?_append_right (by simp; omega), List.getElem?_take_of_lt (by simp; omega),
        List.getElem?_drop, List.getElem?_drop, erase_get (by omega) (by omega), if_neg (by omega)]
      congr 1
      simp
      omega
  · rw [List.getElem?_eq_none (by simp; omega), List.getElem?_eq_none (by simp only [List.length_append, List.length_take, List.length_drop, hl]; omega)]

/-- A `Read` that does not straddle is the same, for bytes and generator, as two. -/
theorem read_two {r : RNG} (h : Good r) {a c b : List Byte} (hb : b.length = a.length + c.length) (ha : 0 < a.length)
    (hs : NoStraddle r b.length) :
    ∃ r1 r2 o1 o2 e1 e2 e, read C r a = .ok (r1, o1, a.length, e1) ∧ read C r1 c = .ok (r2, o2, c.length, e2) ∧
      read C r b = .ok (r2, o1 ++ o2, b.length, e) ∧ c.length ≤ r1.left ∧ Good r1 := by
  have hlo := h.lo
  have hhi := h.hi
  have h96 := h.len
  have hleft : r.left = r.buf.length - r.n := rfl
  have hsize : r.size = r.buf.length - 32 := rfl
  rcases hs with hs | ⟨hz, hs⟩
  · have ea := read_small (C := C) h (b := a) (by omega)
    have eb := read_small (C := C) h hs
    have g1 := good_small h (k := a.length) (by omega)
    have hl1 : RNG.left { r with buf := erase r.buf r.n (r.n + a.length), n := r.n + a.length } = r.left - a.length := by
      simp only [RNG.left]
      rw [erase_length (by omega) (by omega)]
      omega
    have ec := read_small (C := C) g1 (b := c) (by omega)
    dsimp only at ec
    rw [erase_erase (by omega) (by omega) (by omega)] at ec
    have e1 : r.n + a.length + c.length = r.n + b.length := by omega
    rw [e1] at ec
    rw [take_parts hb (by omega)] at eb
    exact ⟨_, _, _, _, _, _, _, ea, ec, eb, by omega, g1⟩
  · have hnil : r.buf.drop r.n = [] := List.drop_of_length_le (by omega)
    have ea := read_refill (C := C) h (b := a) (by omega) (by omega)
    have eb := read_refill (C := C) h (b := b) (by omega) (by omega)
    rw [hz, hnil, List.nil_append, Nat.sub_zero] at ea eb
    have g1 := good_refill (C := C) h (k := a.length) (by omega)
    have hxl := xorStream_length (r.stream C) r.buf
    generalize xorStream (r.stream C) r.buf = G at *
    have hl1 : RNG.left { r with buf := erase G 32 (32 + a.length), n := 32 + a.length } = r.size - a.length := by
      simp only [RNG.left]
      rw [erase_length (by omega) (by omega)]
      omega
    have ec := read_small (C := C) g1 (b := c) (by omega)
    dsimp only at ec
    rw [erase_erase (by omega) (by omega) (by omega)] at ec
    have e1 : 32 + a.length + c.length = 32 + b.length := by omega
    rw [e1] at ec
    rw [take_parts hb (by omega)] at eb
    exact ⟨_, _, _, _, _, _, _, ea, ec, eb, by omega, g1⟩

/-- `n` reads of one byte. -/
def bytewise (n : Nat) : List (List Byte) := List.replicate n [0]

theorem reads_append {r' r'' : RNG} {o' : List Byte} : ∀ {as bs : List (List Byte)} {r : RNG} {o : List Byte},
    reads C r as = .ok (r', o) → reads C r' bs = .ok (r'', o') → reads C r (as ++ bs) = .ok (r'', o ++ o')
  | [], bs, r, o, h1, h2 => by
    injection h1 with h1
    injection h1 with h1 h3
    subst h1 h3
    exact h2
  | a :: as, bs, r, o, h1, h2 => by
    unfold reads at h1
    cases e : read C r a with
    | error m => rw [e] at h1; cases h1
    | ok x =>
      obtain ⟨r1, o1, n1, ev1⟩ := x
      rw [e] at h1
      have h1 : (reads C r1 as >>= fun y => (.ok (y.1, o1 ++ y.2) : Go (RNG × List Byte))) = .ok (r', o) := h1
      cases e2 : reads C r1 as with
      | error m => rw [e2] at h1; cases h1
      | ok y =>
        rw [e2] at h1
        injection h1 with h1
        injection h1 with h3 h4
        subst h3 h4
        rw [List.cons_append, reads_cons e (reads_append e2 h2), List.append_assoc]

/-- A `Read` that does not straddle is as good as reading its bytes one by one. -/
theorem read_bytewise : ∀ (j : Nat) {r : RNG} (_ : Good r) {b : List Byte} (_ : b.length = j) (_ : NoStraddle r j),
    ∃ r' out ev, read C r b = .ok (r', out, j, ev) ∧ reads C r (bytewise j) = .ok (r', out)
  | 0, r, h, b, hb, hs => by
    have hhi := h.hi
    have e := read_small (C := C) h (b := b) (by omega)
    rw [hb] at e
    refine ⟨_, _, _, e, ?_⟩
    have : erase r.buf r.n (r.n + 0) = r.buf := by
      refine List.ext_getElem? fun i => ?_
      rw [erase_get (by omega) (by omega), if_neg (by omega)]
    rw [this]
    rfl
  | j + 1, r, h, b, hb, hs => by
    obtain ⟨r1, r2, o1, o2, e1, e2, e, h1, h2, h3, h4, h5⟩ := read_two (C := C) h (a := [0]) (c := List.replicate j 0) (b := b)
      (by simp [hb]; omega) (by simp) (by rw [hb]; exact hs)
    rw [List.length_replicate] at h2 h4
    obtain ⟨r', out, ev, g1, g2⟩ := read_bytewise j h5 (b := List.replicate j 0) (by simp) (Or.inl h4)
    rw [h2] at g1
    injection g1 with g1
    injection g1 with g3 g1
    injection g1 with g4 g1
    subst g3 g4
    rw [hb] at h3
    exact ⟨r2, o1 ++ o2, e, h3, reads_cons h1 g2⟩

/-- No `Read` of the sequence straddles. -/
def NoStraddles (C : Cipher) : RNG → List (List Byte) → Prop
  | _, [] => True
  | r, b :: bs => NoStraddle r b.length ∧ ∀ r' out n ev, read C r b = .ok (r', out, n, ev) → NoStraddles C r' bs

theorem reads_bytewise : ∀ (bs : List (List Byte)) {r : RNG} (_ : Good r) (_ : NoStraddles C r bs),
    ∃ r' out, reads C r bs = .ok (r', out) ∧ reads C r (bytewise bs.flatten.length) = .ok (r', out)
  | [], r, _, _ => ⟨r, [], rfl, rfl⟩
  | b :: bs, r, h, hs => by
    obtain ⟨r1, o1, ev, e1, e2⟩ := read_bytewise (C := C) b.length h rfl hs.1
    obtain ⟨r1', o1', ev', e1', hg, -⟩ := read_returns (C := C) h b
    rw [e1] at e1'
    injection e1' with e1'
    injection e1' with e3 e1'
    subst e3
    obtain ⟨r2, o2, g1, g2⟩ := reads_bytewise bs hg (hs.2 _ _ _ _ e1)
    refine ⟨r2, o1 ++ o2, reads_cons e1 g1, ?_⟩
    have e : bytewise (b :: bs).flatten.length = bytewise b.length ++ bytewise bs.flatten.length := by
      simp [bytewise, List.replicate_append_replicate]
    rw [e]
    exact reads_append e2 g2

/-- C70 as it should be: reads that add up to the same number give the same bytes and leave the same generator. -/
def SplitFree (C : Cipher) (r : RNG) : Prop :=
  ∀ as bs : List (List Byte), as.flatten.length = bs.flatten.length → (∀ b ∈ as ++ bs, b.length ≤ r.size) →
    ∃ r' out, reads C r as = .ok (r', out) ∧ reads C r bs = .ok (r', out)

/-- C70, as far as it is true: if no `Read` straddles two fillings of the buffer. -/
theorem split_free_partial {r : RNG} (h : Good r) {as bs : List (List Byte)} (hl : as.flatten.length = bs.flatten.length)
    (ha : NoStraddles C r as) (hb : NoStraddles C r bs) :
    ∃ r' out, reads C r as = .ok (r', out) ∧ reads C r bs = .ok (r', out) := by
  obtain ⟨r1, o1, e1, e2⟩ := reads_bytewise as h ha
  obtain ⟨r2, o2, e3, e4⟩ := reads_bytewise bs h hb
  rw [hl, e4] at e2
  injection e2 with e2
  injection e2 with e5 e6
  subst e5 e6
  exact ⟨r2, o2, e1, e3⟩

/-- Reading one byte at a time never straddles. -/
theorem bytewise_noStraddles : ∀ (n : Nat) {r : RNG} (_ : Good r), NoStraddles C r (bytewise n)
  | 0, _, _ => trivial
  | n + 1, r, h => by
    have h96 := h.len
    refine ⟨?_, ?_⟩
    · simp only [NoStraddle, RNG.size, List.length_singleton]
      omega
    · intro r' out k ev e
      obtain ⟨r1, o1, ev1, e1, hg, -⟩ := read_returns (C := C) h [0]
      rw [e] at e1
      injection e1 with e1
      injection e1 with e2 _
      subst e2
      exact bytewise_noStraddles n hg

/-- C70 is false whenever a `Read` straddles and the first byte it took from the old filling was not zero: the later
output depends on the split. All reads are no larger than the buffer. -/
theorem straddle_differs {r : RNG} (h : Good r) (h33 : 33 ≤ r.n) {x : Byte} (hx : r.buf[r.n]? = some x) (hne : x ≠ 0) :
    ∃ as bs : List (List Byte), as.flatten.length = bs.flatten.length ∧ (∀ b ∈ as ++ bs, b.length ≤ r.size) ∧
      ∃ r1 r2 o1 o2, reads C r as = .ok (r1, o1) ∧ reads C r bs = .ok (r2, o2) ∧ o1 ≠ o2 := by
  have hhi := h.hi
  have h96 := h.len
  have hlt : r.n < r.buf.length := (List.getElem?_eq_some_iff.1 hx).1
  have hleft : r.left = r.buf.length - r.n := rfl
  have hsize : r.size = r.buf.length - 32 := rfl
  let z (n : Nat) : List Byte := List.replicate n 0
  have hz : ∀ n, (z n).length = n := fun n => List.length_replicate
  refine ⟨[z (r.left + 1), z (r.n - 32)], [z r.left, z 1, z (r.n - 32)], ?_, ?_, ?_⟩
  · simp [hz]; omega
  · intro b hb
    simp only [List.cons_append, List.nil_append, List.mem_cons, List.not_mem_nil, or_false] at hb
    rcases hb with rfl | rfl | rfl | rfl | rfl <;> rw [hz] <;> omega
  -- the generators after the refill
  have hxl := xorStream_length (r.stream C) r.buf
  have ea := read_refill (C := C) h (b := z (r.left + 1)) (by rw [hz]; omega) (by rw [hz]; omega)
  have ga := good_refill (C := C) h (k := 1) (by omega)
  have eb := read_small (C := C) h (b := z r.left) (by rw [hz]; omega)
  have gb := good_small h (k := r.left) (by omega)
  rw [hz] at ea eb
  have e1 : r.left + 1 - r.left = 1 := by omega
  rw [e1] at ea
  have e2 : r.n + r.left = r.buf.length := by omega
  rw [e2] at eb gb
  have hel := erase_length (buf := r.buf) (lo := r.n) (hi := r.buf.length) (by omega) (by omega)
  let rb : RNG := { r with buf := erase r.buf r.n r.buf.length, n := r.buf.length }
  have hbl : rb.left = 0 := by show (erase r.buf r.n r.buf.length).length - r.buf.length = 0; omega
  have hbs : rb.size = r.size := by show (erase r.buf r.n r.buf.length).length - 32 = _; omega
  have hst : rb.stream C = r.stream C := by
    show C ((erase r.buf r.n r.buf.length).take 32) r.nonce r.rounds = _
    rw [take_erase (by omega) (by omega) (by omega)]
    rfl
  have ec := read_refill (C := C) (r := rb) gb (b := z 1) (by rw [hz]; omega) (by rw [hz]; omega)
  have gc := good_refill (C := C) (r := rb) gb (k := 1) (by omega)
  rw [hz, hbl, Nat.sub_zero] at ec
  have hxlb := xorStream_length (rb.stream C) rb.buf
  have hrb : rb.buf.length = r.buf.length := hel
  let r1 : RNG := { r with buf := erase (xorStream (r.stream C) r.buf) 32 (32 + 1), n := 32 + 1 }
  let r2 : RNG := { rb with buf := erase (xorStream (rb.stream C) rb.buf) 32 (32 + 1), n := 32 + 1 }
  have hl1 : r1.left = r.size - 1 := by
    show (erase (xorStream (r.stream C) r.buf) 32 (32 + 1)).length - (32 + 1) = _
    rw [erase_length (by omega) (by omega)]; omega
  have hl2 : r2.left = r.size - 1 := by
    show (erase (xorStream (rb.stream C) rb.buf) 32 (32 + 1)).length - (32 + 1) = _
    rw [erase_length (by omega) (by omega)]; omega
  have ed := read_small (C := C) (r := r1) ga (b := z (r.n - 32)) (by rw [hz]; omega)
  have ee := read_small (C := C) (r := r2) gc (b := z (r.n - 32)) (by rw [hz]; omega)
  rw [hz] at ed ee
  have ra := reads_cons ea (reads_cons ed (rfl : reads C _ [] = _))
  have rb' := reads_cons eb (reads_cons ec (reads_cons ee (rfl : reads C _ [] = _)))
  refine ⟨_, _, _, _, ra, rb', ?_⟩
  intro heq
  -- the last byte
  have hlast := congrArg (fun l : List Byte => l[r.left + 1 + (r.n - 33)]?) heq
  have hk : ∀ {G : List Byte}, G.length = r.buf.length → ∀ {p : List Byte}, p.length = r.left + 1 →
      (p ++ (((erase G 32 (32 + 1)).drop (32 + 1)).take (r.n - 32) ++ []))[r.left + 1 + (r.n - 33)]? = G[r.n]? := by
    intro G hG p hp
    rw [List.append_nil, List.getElem?_append_right (by omega), hp, List.getElem?_take_of_lt (by omega), List.getElem?_drop,
      erase_get (by omega) (by omega), if_neg (by omega)]
    congr 1; omega
  rw [← List.append_assoc ((r.buf.drop r.n).take r.left)] at hlast
  rw [hk hxl (by simp [hxl]; omega), hk (by omega) (by
    simp only [List.length_append, List.length_take, List.length_drop, hxlb, hrb, show rb.n = r.buf.length from rfl]; omega)] at hlast
  rw [xorStream_get, xorStream_get, hx, hst] at hlast
  have hzero : rb.buf[r.n]? = some 0 := by
    show (erase r.buf r.n r.buf.length)[r.n]? = _
    rw [erase_get (by omega) (by omega), if_pos (by omega)]
  rw [hzero] at hlast
  simp only [Option.map_some, Option.some.injEq] at hlast
  apply hne
  have := congrArg (· ^^^ r.stream C r.n) hlast
  simpa [BitVec.xor_assoc] using this

/-! ## C63 -/

/-- C63 as stated: for every length there are random data which `Read` xors onto `b`. -/
def ReadXors (C : Cipher) (r : RNG) : Prop :=
  ∀ len : Nat, ∃ (data : Nat → Byte) (r' : RNG) (ev : List Event), ∀ b : List Byte, b.length = len →
    read C r b = .ok (r', xorStream data b, len, ev)

/-- C63 is false of every generator: reading one byte overwrites it. -/
theorem not_readXors {r : RNG} (h : Good r) : ¬ ReadXors C r := by
  intro hx
  obtain ⟨data, r', ev, hx⟩ := hx 1
  have h96 := h.len
  obtain ⟨r1, out, ev1, -, -, -, -, e⟩ := readN_some (C := C) h (b := [0]) (by simp [RNG.size]; omega) 1
  have e0 := e [0] rfl 1
  have e1 := e [1] rfl 1
  have g0 := hx [0] rfl
  have g1 := hx [1] rfl
  unfold read at g0 g1
  rw [e0] at g0
  rw [e1] at g1
  rw [g1] at g0
  simp only [Except.ok.injEq, Prod.mk.injEq] at g0
  have := g0.2.1
  simp only [xorStream, List.mapIdx_cons, List.mapIdx_nil, List.cons.injEq, and_true] at this
  have := congrArg (· ^^^ data 0) this
  simp [BitVec.xor_assoc] at this

/-- What `Read` does instead: up to what is left and one filling, it overwrites. -/
theorem read_overwrites {r : RNG} (h : Good r) (b b' : List Byte) (hl : b'.length = b.length)
    (hb : b.length ≤ r.left + r.size) : read C r b' = read C r b := by
  obtain ⟨r', out, ev, e, -, -, -, e'⟩ := readN_some (C := C) h hb 1
  unfold read
  rw [e, e' b' hl 1]

/-- C63 for larger slices: `Read` xors a keystream onto `b`, whose key is the next 32 bytes. -/
theorem read_xors_partial {r : RNG} (h : Good r) {len : Nat} (hlen : r.left + r.size < len) :
    ∃ (r' : RNG) (key : List Byte) (ev : List Event), key.length = 32 ∧
      read C r (List.replicate 32 0) = .ok (r', key, 32, ev) ∧
      ∀ b : List Byte, b.length = len → read C r b = .ok (r', xorStream (C key r'.nonce r'.rounds) b, len, ev) := by
  have h96 := h.len
  obtain ⟨r', key, ev, e, -, hk, -⟩ := readN_large (C := C) h (b := List.replicate len 0) (by simpa using hlen) 1
  refine ⟨r', key, ev, hk, e, ?_⟩
  intro b hb
  obtain ⟨r'', key', ev', e', -, -, e2⟩ := readN_large (C := C) h (b := b) (by omega) 0
  have := read_overwrites (C := C) h (List.replicate 32 0) (List.replicate 32 0) rfl (by simp [RNG.size]; omega)
  obtain ⟨r3, out, ev3, g1, -, -, -, g2⟩ := readN_some (C := C) h (b := List.replicate 32 0) (by simp [RNG.size]; omega) 0
  rw [g1] at e'
  rw [g2 _ rfl 1] at e
  rw [e] at e'
  injection e' with e'
  injection e' with a1 e'
  injection e' with a2 e'
  injection e' with _ a3
  subst a1 a2 a3
  rw [hb] at e2
  exact e2

/-- C63, exactly: a generator xors onto slices of length `len` just if they are empty or longer than what is left and one
filling together. -/
theorem C63_exact {r : RNG} (h : Good r) (len : Nat) :
    (∃ (data : Nat → Byte) (r' : RNG) (ev : List Event), ∀ b : List Byte, b.length = len →
      read C r b = .ok (r', xorStream data b, len, ev)) ↔ len = 0 ∨ r.left + r.size < len := by
  constructor
  · rintro ⟨data, r', ev, hx⟩
    refine Decidable.byContradiction fun hn => ?_
    have g0 := hx (List.replicate len 0) (by simp)
    have g1 := hx (List.replicate len 1) (by simp)
    rw [read_overwrites (C := C) h (List.replicate len 0) (List.replicate len 1) (by simp) (by simp; omega), g0] at g1
    simp only [Except.ok.injEq, Prod.mk.injEq] at g1
    have := congrArg (fun l : List Byte => l[0]?) g1.2.1
    obtain ⟨n, rfl⟩ : ∃ n, len = n + 1 := ⟨len - 1, by omega⟩
    simp only [xorStream, List.replicate_succ, List.mapIdx_cons, List.getElem?_cons_zero, Option.some.injEq] at this
    have := congrArg (· ^^^ data 0) this
    simp [BitVec.xor_assoc] at this
  · rintro (rfl | hl)
    · obtain ⟨r', out, ev, -, -, hout, -, e⟩ := readN_some (C := C) h (b := []) (by simp) 1
      have hout := List.eq_nil_of_length_eq_zero hout
      subst hout
      refine ⟨fun _ => 0, r', ev, fun b hb => ?_⟩
      have hb := List.eq_nil_of_length_eq_zero hb
      subst hb
      have := e [] rfl 1
      unfold read
      rw [this]
      rfl
    · obtain ⟨r', key, ev, -, -, e⟩ := read_xors_partial (C := C) h hl
      exact ⟨_, r', ev, e⟩

end Verif.Secrand
