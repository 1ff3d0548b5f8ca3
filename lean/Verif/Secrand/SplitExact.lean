import Verif.Secrand.Chacha

/-!
# C70: exactly when the split makes a difference

A sequence of `Read`s, none larger than the buffer, gives the bytes and leaves the generator that reading byte by byte
does, if and only if every `Read` in it that uses the end of one filling and the start of the next finds nothing but
zeros left of the old filling (for 8 bytes left that is one chance in 2^64).
-/

namespace Verif.Secrand

variable {C : Cipher}

/-- Every `Read` of the sequence lies within a filling, or the bytes left of the old filling are all zero. -/
def Harmless (C : Cipher) : RNG → List (List Byte) → Prop
  | _, [] => True
  | r, b :: bs => (NoStraddle r b.length ∨ ∀ i, r.n ≤ i → i < r.buf.length → r.buf[i]? = some 0) ∧
      ∀ r' out n ev, read C r b = .ok (r', out, n, ev) → Harmless C r' bs

/-- The sequence gives the bytes and leaves the generator that reading byte by byte does. -/
def LikeBytewise (C : Cipher) (r : RNG) (bs : List (List Byte)) : Prop :=
  ∃ r' out, reads C r bs = .ok (r', out) ∧ reads C r (bytewise bs.flatten.length) = .ok (r', out)

theorem bytewise_add (m n : Nat) : bytewise (m + n) = bytewise m ++ bytewise n := by
  simp [bytewise, List.replicate_append_replicate]

/-- `Read`s up to the size of the buffer leave its size. -/
theorem read_size {r : RNG} (h : Good r) {b : List Byte} (hb : b.length ≤ r.size) :
    ∃ r' out ev, read C r b = .ok (r', out, b.length, ev) ∧ Good r' ∧ out.length = b.length ∧ r'.size = r.size := by
  obtain ⟨r', out, ev, h1, h2, h3, h4, -⟩ := readN_some (C := C) h (b := b) (by omega) 1
  exact ⟨r', out, ev, h1, h2, h3, by simp only [RNG.size, h4]⟩

theorem reads_size : ∀ (bs : List (List Byte)) {r : RNG} (_ : Good r) (_ : ∀ b ∈ bs, b.length ≤ r.size),
    ∃ r' out, reads C r bs = .ok (r', out) ∧ Good r' ∧ out.length = bs.flatten.length ∧ r'.size = r.size
  | [], r, h, _ => ⟨r, [], rfl, h, rfl, rfl⟩
  | b :: bs, r, h, hs => by
    obtain ⟨r1, o1, ev, e1, g1, l1, s1⟩ := read_size (C := C) h (hs b (by simp))
    obtain ⟨r2, o2, e2, g2, l2, s2⟩ := reads_size bs g1 (fun b hb => by rw [s1]; exact hs b (by simp [hb]))
    exact ⟨r2, o1 ++ o2, reads_cons e1 e2, g2, by simp [l1, l2], by rw [s2, s1]⟩

theorem bytewise_le {r : RNG} (h : Good r) (n : Nat) : ∀ b ∈ bytewise n, b.length ≤ r.size := by
  intro b hb
  have h96 := h.len
  rw [(List.mem_replicate.1 hb).2]
  simp only [RNG.size, List.length_singleton]
  omega

theorem bytewise_flatten (n : Nat) : (bytewise n).flatten.length = n := by
  simp [bytewise]

/-- What is in the buffer comes out next, or stays. -/
theorem reads_front : ∀ (bs : List (List Byte)) {r : RNG} (_ : Good r) (_ : ∀ b ∈ bs, b.length ≤ r.size) {r' : RNG}
    {out : List Byte}, reads C r bs = .ok (r', out) → ∀ i, i < r.left → (out ++ r'.buf.drop r'.n)[i]? = r.buf[r.n + i]?
  | [], r, h, _, r', out, e, i, _ => by
    injection e with e
    injection e with e1 e2
    subst e1 e2
    rw [List.nil_append, List.getElem?_drop]
  | b :: bs, r, h, hs, r', out, e, i, hi => by
    have hhi := h.hi
    have hleft : r.left = r.buf.length - r.n := rfl
    obtain ⟨r1, o1, ev, e1, g1, l1, s1⟩ := read_size (C := C) h (hs b (by simp))
    have hs1 : ∀ b ∈ bs, b.length ≤ r1.size := fun b hb => by rw [s1]; exact hs b (by simp [hb])
    obtain ⟨r2, o2, e2, -, -, -⟩ := reads_size (C := C) bs g1 hs1
    rw [reads_cons e1 e2] at e
    injection e with e
    injection e with e3 e4
    subst e3 e4
    rw [List.append_assoc]
    by_cases c : b.length ≤ r.left
    · have hx := read_small (C := C) h c
      rw [e1] at hx
      injection hx with hx
      injection hx with hx1 hx
      injection hx with hx2 hx
      by_cases ci : i < b.length
      · rw [List.getElem?_append_left (by omega), hx2, List.getElem?_take_of_lt ci, List.getElem?_drop]
      · have hn1 : r1.n = r.n + b.length := by rw [hx1]
        have hb1 : r1.buf = erase r.buf r.n (r.n + b.length) := by rw [hx1]
        have hl1 : r1.left = r.left - b.length := by
          simp only [RNG.left, hn1, hb1]
          rw [erase_length (by omega) (by omega)]
          omega
        rw [List.getElem?_append_right (by omega), l1, reads_front bs g1 hs1 e2 _ (by omega), hn1, hb1,
          erase_get (by omega) (by omega), if_neg (by omega)]
        congr 1; omega
    · have hx := read_refill (C := C) h (b := b) (by omega) (by have := hs b (by simp); omega)
      rw [e1] at hx
      injection hx with hx
      injection hx with hx1 hx
      injection hx with hx2 hx
      rw [List.getElem?_append_left (by omega), hx2, List.getElem?_append_left (by simp; omega), List.getElem?_drop]

/-- A straddling `Read`, and its bytes one by one: the generators afterwards. -/
theorem straddle_states {r : RNG} (h : Good r) {b : List Byte} (hb : b.length ≤ r.size) (hs : ¬ NoStraddle r b.length) :
    ∃ r1 r2 o ev, read C r b = .ok (r1, o, b.length, ev) ∧ reads C r (bytewise b.length) = .ok (r2, o) ∧
      r1.n = 32 + (b.length - r.left) ∧ r2.n = 32 + (b.length - r.left) ∧ r1.rounds = r2.rounds ∧ r1.nonce = r2.nonce ∧
      r1.buf = erase (xorStream (r.stream C) r.buf) 32 (32 + (b.length - r.left)) ∧
      r2.buf = erase (xorStream (r.stream C) (erase r.buf r.n r.buf.length)) 32 (32 + (b.length - r.left)) := by
  have hlo := h.lo
  have hhi := h.hi
  have h96 := h.len
  have hleft : r.left = r.buf.length - r.n := rfl
  have hsize : r.size = r.buf.length - 32 := rfl
  simp only [NoStraddle, not_or, not_and] at hs
  have hlt : r.left < b.length := by omega
  have hne : r.left ≠ 0 := fun e => hs.2 e hb
  obtain ⟨k, hk⟩ : ∃ k, k = b.length - r.left := ⟨_, rfl⟩
  have ea := read_refill (C := C) h (b := b) hlt (by omega)
  rw [← hk] at ea ⊢
  -- what is left, byte by byte
  let z (n : Nat) : List Byte := List.replicate n 0
  have hz : ∀ n, (z n).length = n := fun n => List.length_replicate
  obtain ⟨rb, o1, ev1, x1, x2⟩ := read_bytewise (C := C) r.left h (b := z r.left) (hz _) (Or.inl (Nat.le_refl _))
  have eb := read_small (C := C) h (b := z r.left) (by rw [hz]; omega)
  have gb := good_small h (k := r.left) (by omega)
  rw [x1, hz] at eb
  injection eb with eb
  injection eb with eb1 eb
  injection eb with eb2 _
  rw [← eb1] at gb
  have e2 : r.n + r.left = r.buf.length := by omega
  rw [e2] at eb1
  have hel := erase_length (buf := r.buf) (lo := r.n) (hi := r.buf.length) (by omega) (by omega)
  have hbb : rb.buf = erase r.buf r.n r.buf.length := by rw [eb1]
  have hbn : rb.n = r.buf.length := by rw [eb1]
  have hbl : rb.left = 0 := by simp only [RNG.left, hbb, hbn]; omega
  have hbs : rb.size = r.size := by simp only [RNG.size, hbb]; omega
  have hst : rb.stream C = r.stream C := by
    rw [eb1]
    show C ((erase r.buf r.n r.buf.length).take 32) r.nonce r.rounds = _
    rw [take_erase (by omega) (by omega) (by omega)]
    rfl
  -- the rest, byte by byte
  obtain ⟨rc, o2, ev2, y1, y2⟩ := read_bytewise (C := C) k gb (b := z k) (hz _) (Or.inr ⟨hbl, by omega⟩)
  have ec := read_refill (C := C) gb (b := z k) (by rw [hz]; omega) (by rw [hz]; omega)
  rw [y1, hz, hbl, Nat.sub_zero] at ec
  injection ec with ec
  injection ec with ec1 ec
  injection ec with ec2 _
  have hall : reads C r (bytewise b.length) = .ok (rc, o1 ++ o2) := by
    have : b.length = r.left + k := by omega
    rw [this, bytewise_add]
    exact reads_append x2 y2
  have hxl := xorStream_length (r.stream C) r.buf
  have hxlb := xorStream_length (r.stream C) (erase r.buf r.n r.buf.length)
  refine ⟨{ r with buf := erase (xorStream (r.stream C) r.buf) 32 (32 + k), n := 32 + k }, rc, o1 ++ o2,
    [.out r.n (r.n + r.left), .refill, .out 32 (32 + k)], ?_, hall, rfl, by rw [ec1], by rw [ec1, eb1], by rw [ec1, eb1], rfl, by rw [ec1, hst, hbb]⟩
  · rw [ea]
    congr 3
    have t1 : (r.buf.drop r.n).take r.left = r.buf.drop r.n := List.take_of_length_le (by simp; omega)
    have t2 : (erase r.buf r.n r.buf.length).drop r.buf.length = [] := List.drop_of_length_le (by omega)
    rw [eb2, ec2, hst, hbb, hbn, t1, t2, List.nil_append]
    congr 1
    refine List.ext_getElem? fun i => ?_
    by_cases c : i < k
    · rw [List.getElem?_take_of_lt c, List.getElem?_take_of_lt c, List.getElem?_drop, List.getElem?_drop, xorStream_get,
        xorStream_get, erase_get (by omega) (by omega), if_neg (by omega)]
    · rw [List.getElem?_eq_none (by simp; omega), List.getElem?_eq_none (by simp; omega)]

/-- Bytes left that are all zero might as well have been erased. -/
theorem erase_zeros {buf : List Byte} {n : Nat} (hn : n ≤ buf.length) (hz : ∀ i, n ≤ i → i < buf.length → buf[i]? = some 0) :
    erase buf n buf.length = buf := by
  refine List.ext_getElem? fun i => ?_
  rw [erase_get hn (Nat.le_refl _)]
  by_cases c : n ≤ i ∧ i < buf.length
  · rw [if_pos c, hz i c.1 c.2]
  · rw [if_neg c]

/-- A `Read` leaves the generator that reading its bytes one by one does, if it is harmless. -/
theorem read_harmless {r : RNG} (h : Good r) {b : List Byte} (hb : b.length ≤ r.size)
    (hh : NoStraddle r b.length ∨ ∀ i, r.n ≤ i → i < r.buf.length → r.buf[i]? = some 0) :
    ∃ r' o ev, read C r b = .ok (r', o, b.length, ev) ∧ reads C r (bytewise b.length) = .ok (r', o) := by
  by_cases c : NoStraddle r b.length
  · obtain ⟨r1, o1, ev, e1, e2⟩ := read_bytewise (C := C) b.length h rfl c
    exact ⟨r1, o1, ev, e1, e2⟩
  · obtain ⟨r1, r2, o, ev, e1, e2, n1, n2, a1, a2, b1, b2⟩ := straddle_states (C := C) h hb c
    rw [erase_zeros h.hi (hh.resolve_left c), ← b1] at b2
    have : r1 = r2 := by
      obtain ⟨buf1, n1', k1, m1⟩ := r1
      obtain ⟨buf2, n2', k2, m2⟩ := r2
      simp only at n1 n2 a1 a2 b2
      subst n1 n2 a1 a2 b2
      rfl
    subst this
    exact ⟨r1, o, ev, e1, e2⟩

/-- C70, exactly. -/
theorem C70_exact : ∀ (bs : List (List Byte)) {r : RNG} (_ : Good r) (_ : ∀ b ∈ bs, b.length ≤ r.size),
    LikeBytewise C r bs ↔ Harmless C r bs
  | [], r, _, _ => ⟨fun _ => trivial, fun _ => ⟨r, [], rfl, rfl⟩⟩
  | b :: bs, r, h, hs => by
    have hb := hs b (by simp)
    obtain ⟨r1, o1, ev, e1, g1, l1, s1⟩ := read_size (C := C) h hb
    have hs1 : ∀ b ∈ bs, b.length ≤ r1.size := fun b hb => by rw [s1]; exact hs b (by simp [hb])
    have ih := C70_exact bs g1 hs1
    obtain ⟨r2, o2, e2, -, l2, -⟩ := reads_size (C := C) bs g1 hs1
    have hbw : bytewise (b :: bs).flatten.length = bytewise b.length ++ bytewise bs.flatten.length := by
      rw [List.flatten_cons, List.length_append, bytewise_add]
    -- the rest of a harmless `Read`
    have rest : (NoStraddle r b.length ∨ ∀ i, r.n ≤ i → i < r.buf.length → r.buf[i]? = some 0) →
        (LikeBytewise C r (b :: bs) ↔ LikeBytewise C r1 bs) := by
      intro hh
      obtain ⟨r1', o1', ev', f1, f2⟩ := read_harmless (C := C) h hb hh
      rw [e1] at f1
      injection f1 with f1
      injection f1 with f3 f1
      injection f1 with f4 _
      subst f3 f4
      obtain ⟨r3, o3, e3, -, l3, -⟩ := reads_size (C := C) (bytewise bs.flatten.length) g1 (bytewise_le g1 _)
      constructor
      · rintro ⟨r', out, x1, x2⟩
        rw [reads_cons e1 e2] at x1
        rw [hbw, reads_append f2 e3] at x2
        injection x1 with x1
        injection x1 with x3 x4
        injection x2 with x2
        injection x2 with x5 x6
        subst x3 x5
        rw [← x4] at x6
        have := List.append_cancel_left x6
        subst this
        exact ⟨_, _, e2, e3⟩
      · rintro ⟨r', out, x1, x2⟩
        exact ⟨r', o1 ++ out, reads_cons e1 x1, by rw [hbw]; exact reads_append f2 x2⟩
    constructor
    · intro hl
      have hh : NoStraddle r b.length ∨ ∀ i, r.n ≤ i → i < r.buf.length → r.buf[i]? = some 0 := by
        by_cases c : NoStraddle r b.length
        · exact Or.inl c
        · right
          intro i hi1 hi2
          have hlo := h.lo
          have hleft : r.left = r.buf.length - r.n := rfl
          have hsize : r.size = r.buf.length - 32 := rfl
          obtain ⟨ra, rb, o, ev', f1, f2, n1, n2, a1, a2, b1, b2⟩ := straddle_states (C := C) h hb c
          rw [e1] at f1
          injection f1 with f1
          injection f1 with f3 f1
          injection f1 with f4 _
          subst f3 f4
          simp only [NoStraddle, not_or] at c
          have hxl := xorStream_length (r.stream C) r.buf
          have hel := erase_length (buf := r.buf) (lo := r.n) (hi := r.buf.length) (by omega) (by omega)
          have hxlb := xorStream_length (r.stream C) (erase r.buf r.n r.buf.length)
          obtain ⟨rb', ob', y1, gb, -, -⟩ := reads_size (C := C) (bytewise b.length) h (bytewise_le h _)
          rw [f2] at y1
          injection y1 with y1
          injection y1 with y2 _
          subst y2
          obtain ⟨r3, o3, e3, -, l3, -⟩ := reads_size (C := C) (bytewise bs.flatten.length) gb (bytewise_le gb _)
          obtain ⟨r', out, x1, x2⟩ := hl
          rw [reads_cons e1 e2] at x1
          rw [hbw, reads_append f2 e3] at x2
          injection x1 with x1
          injection x1 with x3 x4
          injection x2 with x2
          injection x2 with x5 x6
          subst x3 x5
          rw [← x4] at x6
          have := List.append_cancel_left x6
          subst this
          have la : r1.left = r.buf.length - (32 + (b.length - r.left)) := by
            simp only [RNG.left, b1, n1]
            rw [erase_length (by omega) (by omega), hxl]
          have lb : rb.left = r.buf.length - (32 + (b.length - r.left)) := by
            simp only [RNG.left, b2, n2]
            rw [erase_length (by omega) (by omega), hxlb, hel]
          have p1 := reads_front bs g1 hs1 e2 (i - (32 + (b.length - r.left))) (by omega)
          have p2 := reads_front _ gb (bytewise_le gb _) e3 (i - (32 + (b.length - r.left))) (by omega)
          rw [p1, n1, n2, b1, b2, show 32 + (b.length - r.left) + (i - (32 + (b.length - r.left))) = i from by omega,
            erase_get (by omega) (by omega), if_neg (by omega), erase_get (by omega) (by omega), if_neg (by omega),
            xorStream_get, xorStream_get, erase_get (by omega) (by omega), if_pos ⟨hi1, hi2⟩,
            List.getElem?_eq_getElem hi2] at p2
          rw [List.getElem?_eq_getElem hi2]
          simp only [Option.map_some, Option.some.injEq] at p2 ⊢
          have := congrArg (· ^^^ r.stream C i) p2
          simpa [BitVec.xor_assoc] using this
      refine ⟨hh, ?_⟩
      intro r' out n ev' hx
      rw [e1] at hx
      injection hx with hx
      injection hx with hx _
      subst hx
      exact ih.1 ((rest hh).1 hl)
    · rintro ⟨hh, hrest⟩
      exact (rest hh).2 (ih.2 (hrest _ _ _ _ e1))

/-- With ChaCha, reading 64 bytes from `NewRNGCustom(0, 0, 64, 8)` after its first byte does not leave the generator that
64 reads of one byte do. -/
example : ¬ LikeBytewise chacha afterOne [List.replicate 64 0] := by
  rw [C70_exact _ afterOne_good (by simp; decide)]
  rintro ⟨h | h, -⟩
  · rcases h with h | ⟨h, -⟩
    · exact absurd h (by decide)
    · exact absurd h (by decide)
  · have hx := h 33 (Nat.le_refl _) (by decide)
    have : afterOne.buf[33]? = some 0x4c := by
      show (erase (xorStream (chacha zeroKey zeroNonce 8) (List.replicate 96 0)) 32 33)[33]? = _
      rw [erase_get (by decide) (by decide), if_neg (by decide), xorStream_get]
      have : chacha zeroKey zeroNonce 8 33 = 0x4c := by decide +kernel
      rw [this]
      decide
    rw [this] at hx
    exact absurd hx (by decide)

/-- A generator one byte before the end of a filling, that byte being 0. -/
def lastZero : RNG := ⟨List.replicate 96 0, 95, 8, zeroNonce⟩

/-- A straddling `Read` that is harmless. -/
example : LikeBytewise chacha lastZero [[0, 0]] := by
  have hz : ∀ i, i < 96 → lastZero.buf[i]? = some 0 := by decide
  have hg : Good lastZero := ⟨by decide, by decide, by decide, rfl, Or.inl rfl, fun i _ h => hz i (Nat.lt_trans h (by decide))⟩
  rw [C70_exact _ hg (by simp; decide)]
  exact ⟨Or.inr fun i _ h => hz i h, fun _ _ _ _ _ => trivial⟩

end Verif.Secrand
