import Verif.Secrand.Lemmas

/-!
# Properties of `RNG` (C59–C63, C70, C71)
-/

namespace Verif.Secrand

variable {C : Cipher}

/-! ## C59 -/

/-- C59: `NewRNGCustom` returns exactly for a buffer of at least 64 bytes and 8, 12 or 20 rounds, and what it returns is in
order. -/
theorem new_returns_iff (C : Cipher) {seed nonce : List Byte} (hs : seed.length = 32) (hn : nonce.length = 8) (bufsize : Int)
    (rounds : Nat) :
    (∃ r, newRNGCustom C seed nonce bufsize rounds = .ok r) ↔ 64 ≤ bufsize ∧ (rounds = 8 ∨ rounds = 12 ∨ rounds = 20) := by
  unfold newRNGCustom
  by_cases c1 : bufsize < keySize * 2
  · rw [if_pos c1]
    constructor
    · rintro ⟨r, h⟩; cases h
    · rintro ⟨h, -⟩; simp only [keySize] at c1; omega
  · rw [if_neg c1]
    by_cases c2 : rounds = 8 ∨ rounds = 12 ∨ rounds = 20
    · rw [if_neg (fun hh => hh c2)]
      dsimp only
      rw [xorKeyStream_ok hs hn c2]
      exact ⟨fun _ => ⟨by simp only [keySize] at c1; omega, c2⟩, fun _ => ⟨_, rfl⟩⟩
    · rw [if_pos c2]
      constructor
      · rintro ⟨r, h⟩; cases h
      · rintro ⟨-, h⟩; exact absurd h c2

theorem new_good {C : Cipher} {seed nonce : List Byte} (hs : seed.length = 32) (hn : nonce.length = 8) {bufsize : Int}
    {rounds : Nat} {r : RNG} (h : newRNGCustom C seed nonce bufsize rounds = .ok r) : Good r := by
  obtain ⟨h1, h2⟩ := (new_returns_iff C hs hn bufsize rounds).1 ⟨r, h⟩
  unfold newRNGCustom at h
  rw [if_neg (by simp only [keySize]; omega), if_neg (fun hh => hh h2)] at h
  dsimp only at h
  rw [xorKeyStream_ok hs hn h2] at h
  injection h with h
  subst h
  refine ⟨?_, ?_, ?_, hn, h2, ?_⟩
  · simp only [xorStream_length, List.length_replicate, keySize]; omega
  · exact Nat.le_refl 32
  · simp only [xorStream_length, List.length_replicate, keySize]; omega
  · intro i h1 h2
    simp only [keySize] at h2
    omega

/-- The recursion in `Read` is at most one deep. -/
theorem readN_fuel {r : RNG} (h : Good r) (b : List Byte) (f : Nat) : readN C (f + 2) r b = read C r b := by
  unfold read
  by_cases c : b.length ≤ r.left + r.size
  · obtain ⟨r', out, ev, e, -, -, -, e'⟩ := readN_some (C := C) h c (f + 1)
    rw [e, e' b rfl 1]
  · obtain ⟨r', key, ev, e, -, -, e2⟩ := readN_large (C := C) h (b := b) (by omega) f
    obtain ⟨r'', key', ev', e', -, -, e2'⟩ := readN_large (C := C) h (b := b) (by omega) 0
    have hs : (List.replicate 32 (0 : Byte)).length ≤ r.left + r.size := by
      have := h.len; simp [RNG.size]; omega
    obtain ⟨r3, out, ev3, g1, -, -, -, g2⟩ := readN_some (C := C) h hs f
    rw [g1] at e
    rw [g2 _ rfl 0] at e'
    rw [e'] at e
    injection e with e
    injection e with e3 e
    injection e with e4 e
    injection e with _ e5
    subst e3 e4 e5
    rw [e2, e2']

/-- What a call does to the buffer: it hands out the next bytes, or the rest, fills the buffer, and hands out the first
bytes. -/
def Shape (r r' : RNG) (ev : List Event) : Prop :=
  r'.buf.length = r.buf.length ∧
    ((ev = [.out r.n r'.n] ∧ r.n ≤ r'.n) ∨ ev = [.out r.n r.buf.length, .refill, .out 32 r'.n])

theorem readN_shape {r : RNG} (h : Good r) {b : List Byte} (hb : b.length ≤ r.left + r.size) (f : Nat) :
    ∃ r' out ev, readN C (f + 1) r b = .ok (r', out, b.length, ev) ∧ Shape r r' ev := by
  have hhi := h.hi
  have hlen := h.len
  by_cases c : b.length ≤ r.left
  · refine ⟨_, _, _, readN_small h c f, ?_, Or.inl ⟨rfl, ?_⟩⟩
    · simp only [RNG.left] at c
      exact erase_length (by omega) (by omega)
    · dsimp only; omega
  · refine ⟨_, _, _, readN_refill h (by omega) hb f, ?_, Or.inr ?_⟩
    · simp only [RNG.left, RNG.size] at c hb ⊢
      rw [erase_length (by omega) (by rw [xorStream_length]; omega), xorStream_length]
    · have e : r.n + r.left = r.buf.length := by simp only [RNG.left]; omega
      rw [e]

theorem read_shape {r : RNG} (h : Good r) (b : List Byte) :
    ∃ r' out ev, read C r b = .ok (r', out, b.length, ev) ∧ Good r' ∧ out.length = b.length ∧ Shape r r' ev := by
  unfold read
  by_cases c : b.length ≤ r.left + r.size
  · obtain ⟨r', out, ev, e, hg, hl, -⟩ := readN_some (C := C) h c 1
    obtain ⟨r'', out', ev', e', hs⟩ := readN_shape (C := C) h c 1
    rw [e] at e'
    injection e' with e'
    injection e' with e1 e'
    injection e' with e2 e'
    injection e' with _ e3
    subst e1 e2 e3
    exact ⟨r', out, ev, e, hg, hl, hs⟩
  · obtain ⟨r', key, ev, e, hg, hk, e2⟩ := readN_large (C := C) h (b := b) (by omega) 0
    have hs : (List.replicate 32 (0 : Byte)).length ≤ r.left + r.size := by
      have := h.len; simp [RNG.size]; omega
    obtain ⟨r'', out', ev', e', hs⟩ := readN_shape (C := C) h hs 0
    rw [List.length_replicate, e] at e'
    injection e' with e'
    injection e' with e1 e'
    injection e' with _ e'
    injection e' with _ e3
    subst e1 e3
    exact ⟨r', _, ev, e2, hg, xorStream_length _ _, hs⟩

/-- C59: `Read` returns normally and returns the length. -/
theorem read_returns {r : RNG} (h : Good r) (b : List Byte) :
    ∃ r' out ev, read C r b = .ok (r', out, b.length, ev) ∧ Good r' ∧ out.length = b.length := by
  obtain ⟨r', out, ev, h1, h2, h3, -⟩ := read_shape (C := C) h b
  exact ⟨r', out, ev, h1, h2, h3⟩

/-! ## C61 -/

/-- C61: `Uint64` is the little-endian value of the eight bytes a `Read` gives, and leaves the same generator. -/
theorem uint64_is_read {r : RNG} (h : Good r) (b : List Byte) (hb : b.length = 8) :
    ∃ r' v out ev, uint64 C r = .ok (r', v, ev) ∧ read C r b = .ok (r', out, 8, ev) ∧ out.length = 8 ∧
      v.toNat = leValue out := by
  have hlen := h.len
  have hhi := h.hi
  have hl : (r.buf.drop r.n).length = r.left := by simp [RNG.left]
  by_cases c : 8 ≤ r.left
  · have hsl : goSlice r.buf r.n (r.n + 8) = .ok ((r.buf.drop r.n).take 8) := by
      unfold goSlice
      rw [if_pos (by simp only [RNG.left] at c; omega)]
      congr 1
      have e1 : ((r.n : Int) + 8).toNat = r.n + 8 := by omega
      rw [e1, Int.toNat_natCast, List.drop_take]
      congr 1
      omega
    have hl8 : ((r.buf.drop r.n).take 8).length = 8 := by rw [List.length_take, hl]; omega
    obtain ⟨v, hv, hn⟩ := toUint64_spec (b := (r.buf.drop r.n).take 8) (by omega)
    rw [List.take_of_length_le (by omega)] at hn
    have e := readN_small (C := C) h (b := b) (by omega) 1
    rw [hb] at e
    refine ⟨_, v, (r.buf.drop r.n).take 8, _, ?_, e, hl8, hn⟩
    unfold uint64
    rw [goSlice_from h.hi]
    show (if 8 ≤ (r.buf.drop r.n).length then _ else _) = _
    rw [if_pos (by omega), hsl]
    show (toUint64 _ >>= _) = _
    rw [hv]
    rfl
  · obtain ⟨r', out, ev, e, hg, ho, -, e'⟩ := readN_some (C := C) h (b := b) (by simp only [RNG.size]; omega) 1
    rw [hb] at e ho
    obtain ⟨v, hv, hn⟩ := toUint64_spec (b := out) (by omega)
    rw [List.take_of_length_le (by omega)] at hn
    refine ⟨r', v, out, ev, ?_, e, ho, hn⟩
    have e2 : read C r (List.replicate 8 0) = .ok (r', out, 8, ev) := by
      have := e' (List.replicate 8 0) (by simp [hb]) 1
      rw [hb] at this
      exact this
    unfold uint64
    rw [goSlice_from h.hi]
    show (if 8 ≤ (r.buf.drop r.n).length then _ else _) = _
    rw [if_neg (by omega), e2]
    show (toUint64 out >>= _) = _
    rw [hv]
    rfl

/-- C61: `Int63` is that value with the top bit cleared, so it is not negative. -/
theorem int63_spec {r : RNG} {r' : RNG} {v : BitVec 64} {ev : List Event} (h : uint64 C r = .ok (r', v, ev)) :
    ∃ w, int63 C r = .ok (r', w, ev) ∧ w.toNat = v.toNat % 2 ^ 63 ∧ 0 ≤ w.toInt := by
  refine ⟨v &&& ~~~(1#64 <<< 63), ?_, ?_, ?_⟩
  · unfold int63
    rw [h]
    rfl
  all_goals
    have e : ~~~(1#64 <<< 63) = BitVec.ofNat 64 (2 ^ 63 - 1) := by decide +kernel
    have e2 : (v &&& ~~~(1#64 <<< 63)).toNat = v.toNat % 2 ^ 63 := by
      rw [e, BitVec.toNat_and, BitVec.toNat_ofNat, Nat.mod_eq_of_lt (by decide), Nat.and_two_pow_sub_one_eq_mod]
  · exact e2
  · rw [BitVec.toInt_eq_toNat_of_lt (by rw [e2]; have := Nat.mod_lt v.toNat (y := 2 ^ 63) (by decide); omega)]
    omega

/-! ## Sequences of calls: C59, C60, C71 -/

theorem op_shape {r : RNG} (h : Good r) (op : Op) : ∃ r' ev, op.run C r = .ok (r', ev) ∧ Good r' ∧ Shape r r' ev := by
  have h8 : ∃ r' v ev, uint64 C r = .ok (r', v, ev) ∧ Good r' ∧ Shape r r' ev := by
    obtain ⟨r', v, out, ev, h1, h2, -⟩ := uint64_is_read (C := C) h (List.replicate 8 0) (by simp)
    obtain ⟨r'', out', ev', g1, g2, -, g3⟩ := read_shape (C := C) h (List.replicate 8 0)
    rw [List.length_replicate, h2] at g1
    injection g1 with g1
    injection g1 with e1 g1
    injection g1 with _ g1
    injection g1 with _ e2
    subst e1 e2
    exact ⟨r', v, ev, h1, g2, g3⟩
  cases op with
  | read b =>
    obtain ⟨r', out, ev, h1, h2, -, h3⟩ := read_shape (C := C) h b
    exact ⟨r', ev, by unfold Op.run; dsimp only; rw [h1]; rfl, h2, h3⟩
  | uint64 =>
    obtain ⟨r', v, ev, h1, h2, h3⟩ := h8
    exact ⟨r', ev, by unfold Op.run; dsimp only; rw [h1]; rfl, h2, h3⟩
  | int63 =>
    obtain ⟨r', v, ev, h1, h2, h3⟩ := h8
    obtain ⟨w, h4, -⟩ := int63_spec h1
    exact ⟨r', ev, by unfold Op.run; dsimp only; rw [h4]; rfl, h2, h3⟩

/-- C59: every sequence of calls on a new generator returns normally. -/
theorem calls_return {seed nonce : List Byte} (hs : seed.length = 32) (hn : nonce.length = 8) {bufsize : Int} {rounds : Nat}
    {r : RNG} (h : newRNGCustom C seed nonce bufsize rounds = .ok r) (ops : List Op) :
    ∃ r' ev, runAll C r ops = .ok (r', ev) ∧ Good r' := by
  have hg := new_good hs hn h
  clear h
  induction ops generalizing r with
  | nil => exact ⟨r, [], rfl, hg⟩
  | cons op ops ih =>
    obtain ⟨r1, ev1, e1, g1, -⟩ := op_shape (C := C) hg op
    obtain ⟨r2, ev2, e2, g2⟩ := ih g1
    refine ⟨r2, ev1 ++ ev2, ?_, g2⟩
    unfold runAll
    rw [e1]
    show (runAll C r1 ops >>= _) = _
    rw [e2]
    rfl

/-- Position `i` of the buffer was handed out after the last refill. -/
def HandedOut (evs : List Event) (i : Nat) : Prop :=
  ∃ pre post lo hi, evs = pre ++ .out lo hi :: post ∧ Event.refill ∉ post ∧ lo ≤ i ∧ i < hi

theorem handedOut_append {a b : List Event} {i : Nat} (h : HandedOut (a ++ b) i) :
    HandedOut b i ∨ (Event.refill ∉ b ∧ HandedOut a i) := by
  obtain ⟨pre, post, lo, hi, e, h1, h2⟩ := h
  rcases List.append_eq_append_iff.1 e with ⟨c, e1, e2⟩ | ⟨c, e1, e2⟩
  · exact Or.inl ⟨c, post, lo, hi, e2, h1, h2⟩
  · cases c with
    | nil => exact Or.inl ⟨[], post, lo, hi, by simpa using e2.symm, h1, h2⟩
    | cons x c =>
      simp only [List.cons_append, List.cons.injEq] at e2
      obtain ⟨rfl, rfl⟩ := e2
      exact Or.inr ⟨fun hb => h1 (List.mem_append.2 (Or.inr hb)), pre, c, lo, hi, e1,
        fun hc => h1 (List.mem_append.2 (Or.inl hc)), h2⟩

theorem handedOut_single {lo hi i : Nat} {pre : List Event} (h : HandedOut (pre ++ [.out lo hi]) i)
    (hp : pre = [] ∨ ∃ l, pre = l ++ [.refill]) : lo ≤ i ∧ i < hi := by
  obtain ⟨p, post, lo', hi', e, h1, h2⟩ := h
  have : post = [] := by
    rcases List.eq_nil_or_concat post with rfl | ⟨q, x, rfl⟩
    · rfl
    · exfalso
      rw [List.concat_eq_append] at e h1
      rw [← List.cons_append, ← List.append_assoc] at e
      obtain ⟨e1, -⟩ := List.append_inj' e rfl
      rcases hp with rfl | ⟨l, rfl⟩
      · simp at e1
      · rcases List.eq_nil_or_concat q with rfl | ⟨q', y, rfl⟩
        · obtain ⟨-, e3⟩ := List.append_inj' e1 rfl
          cases e3
        · rw [List.concat_eq_append, ← List.cons_append, ← List.append_assoc] at e1
          obtain ⟨-, e3⟩ := List.append_inj' e1 rfl
          injection e3 with e3
          subst e3
          exact h1 (by simp)
  subst this
  obtain ⟨-, e2⟩ := List.append_inj' e rfl
  injection e2 with e2
  injection e2 with e3 e4
  subst e3 e4
  exact h2

/-- What is true after any calls. -/
structure Inv (r : RNG) (evs : List Event) : Prop where
  good : Good r
  handed : ∀ i, HandedOut evs i → 32 ≤ i ∧ i < r.n
  range : ∀ lo hi, Event.out lo hi ∈ evs → 32 ≤ lo ∧ hi ≤ r.buf.length
  once : ∀ pre mid post lo hi lo' hi', evs = pre ++ .out lo hi :: (mid ++ .out lo' hi' :: post) → Event.refill ∉ mid → lo < hi →
    hi ≤ lo'

theorem inv_step {r r' : RNG} {evs ev : List Event} (h : Inv r evs) (hg : Good r') (hs : Shape r r' ev) :
    Inv r' (evs ++ ev) := by
  obtain ⟨hlen, hs⟩ := hs
  have hlo := h.good.lo
  have hhi := h.good.hi
  have hlo' := hg.lo
  have hhi' := hg.hi
  refine ⟨hg, ?_, ?_, ?_⟩
  · intro i hi
    rcases handedOut_append hi with hi' | ⟨hn, hi'⟩
    · rcases hs with ⟨rfl, hle⟩ | rfl
      · obtain ⟨h1, h2⟩ := handedOut_single (pre := []) hi' (Or.inl rfl)
        omega
      · exact handedOut_single (pre := [.out r.n r.buf.length, .refill]) hi' (Or.inr ⟨[.out r.n r.buf.length], rfl⟩)
    · rcases hs with ⟨rfl, hle⟩ | rfl
      · obtain ⟨h1, h2⟩ := h.handed i hi'
        omega
      · simp at hn
  · intro lo hi hm
    rw [hlen]
    rcases List.mem_append.1 hm with hm | hm
    · exact h.range lo hi hm
    · rcases hs with ⟨rfl, hle⟩ | rfl
      · simp at hm; omega
      · simp at hm; omega
  · intro pre mid post lo hi lo' hi' e hmid hlt
    -- where the second one is
    have two : ∀ {a b x y : List Event} {p : Event}, a ++ b = x ++ p :: y →
        (∃ c, a = x ++ p :: c ∧ y = c ++ b) ∨ (∃ c, x = a ++ c ∧ b = c ++ p :: y) := by
      intro a b x y p e
      rcases List.append_eq_append_iff.1 e with ⟨c, e1, e2⟩ | ⟨c, e1, e2⟩
      · exact Or.inr ⟨c, e1, e2⟩
      · cases c with
        | nil => exact Or.inr ⟨[], by simpa using e1.symm, by simpa using e2.symm⟩
        | cons z c =>
          simp only [List.cons_append, List.cons.injEq] at e2
          obtain ⟨rfl, rfl⟩ := e2
          exact Or.inl ⟨c, e1, rfl⟩
    have e' : evs ++ ev = (pre ++ .out lo hi :: mid) ++ .out lo' hi' :: post := by rw [e]; simp
    rcases two e' with ⟨c, e1, -⟩ | ⟨c, e1, e2⟩
    · exact h.once pre mid c lo hi lo' hi' (by rw [e1]; simp) hmid hlt
    · rcases two e1.symm with ⟨d, e3, rfl⟩ | ⟨d, rfl, e3⟩
      · -- the first is old
        have hd : Event.refill ∉ d := fun hx => hmid (List.mem_append.2 (Or.inl hx))
        have hc : Event.refill ∉ c := fun hx => hmid (List.mem_append.2 (Or.inr hx))
        obtain ⟨-, h2⟩ := h.handed (hi - 1) ⟨pre, d, lo, hi, e3, hd, by omega, by omega⟩
        rcases hs with ⟨rfl, hle⟩ | rfl
        · cases c with
          | nil => injection e2 with e2; injection e2 with e2; omega
          | cons x c => simp at e2
        · match c, e2, hc with
          | [], e2, _ => injection e2 with e2; injection e2 with e2; omega
          | [x], e2, _ => simp at e2
          | x :: y :: c, e2, hc =>
            simp only [List.cons_append, List.cons.injEq] at e2
            obtain ⟨-, rfl, -⟩ := e2
            simp at hc
      · -- both are new
        rcases hs with ⟨rfl, hle⟩ | rfl
        · rw [e3] at e2
          have := congrArg List.length e2
          simp at this
          omega
        · rw [e3] at e2
          match d, mid, e2, hmid with
          | [], [], e2, _ => simp at e2
          | [], x :: m, e2, hmid =>
            simp only [List.nil_append, List.cons_append, List.cons.injEq] at e2
            obtain ⟨-, rfl, -⟩ := e2
            simp at hmid
          | x :: d, m, e2, _ =>
            have := congrArg List.length e2
            simp at this
            have hd : d = [] := List.eq_nil_of_length_eq_zero (by omega)
            have hm : m = [] := List.eq_nil_of_length_eq_zero (by omega)
            subst hd hm
            simp at e2

theorem calls_inv {r : RNG} {evs0 : List Event} (h : Inv r evs0) : ∀ (ops : List Op) {r' : RNG} {ev : List Event},
    runAll C r ops = .ok (r', ev) → Inv r' (evs0 ++ ev) := by
  intro ops
  induction ops generalizing r evs0 with
  | nil =>
    intro r' ev e
    injection e with e
    injection e with e1 e2
    subst e1 e2
    rw [List.append_nil]
    exact h
  | cons op ops ih =>
    intro r' ev e
    obtain ⟨r1, ev1, e1, g1, s1⟩ := op_shape (C := C) h.good op
    unfold runAll at e
    rw [e1] at e
    cases e2 : runAll C r1 ops with
    | error m =>
      have : (runAll C r1 ops >>= fun x => (.ok (x.1, ev1 ++ x.2) : Go (RNG × List Event))) = .ok (r', ev) := e
      rw [e2] at this
      cases this
    | ok x =>
      have : (runAll C r1 ops >>= fun x => (.ok (x.1, ev1 ++ x.2) : Go (RNG × List Event))) = .ok (r', ev) := e
      rw [e2] at this
      injection this with this
      injection this with a b
      subst a b
      rw [← List.append_assoc]
      exact ih (inv_step h g1 s1) e2

theorem inv_new {r : RNG} (h : Good r) : Inv r [] :=
  ⟨h, (by rintro i ⟨pre, post, lo, hi, e, -⟩; simp at e), (by intro lo hi h; cases h),
    (by intro pre mid post lo hi lo' hi' e; simp at e)⟩

/-- C60: after any calls on a new generator, every position handed out since the last refill is zero. -/
theorem erased {seed nonce : List Byte} (hs : seed.length = 32) (hn : nonce.length = 8) {bufsize : Int} {rounds : Nat}
    {r r' : RNG} {ops : List Op} {ev : List Event} (h : newRNGCustom C seed nonce bufsize rounds = .ok r)
    (hr : runAll C r ops = .ok (r', ev)) (i : Nat) (hi : HandedOut ev i) : r'.buf[i]? = some 0 := by
  have inv := calls_inv (inv_new (new_good hs hn h)) ops hr
  rw [List.nil_append] at inv
  obtain ⟨h1, h2⟩ := inv.handed i hi
  exact inv.good.zero i h1 h2

/-- C71: the first 32 bytes of the buffer, the next key, are never handed out, nor is anything outside of the buffer. -/
theorem key_kept {seed nonce : List Byte} (hs : seed.length = 32) (hn : nonce.length = 8) {bufsize : Int} {rounds : Nat}
    {r r' : RNG} {ops : List Op} {ev : List Event} (h : newRNGCustom C seed nonce bufsize rounds = .ok r)
    (hr : runAll C r ops = .ok (r', ev)) {lo hi : Nat} (ho : .out lo hi ∈ ev) : 32 ≤ lo ∧ hi ≤ r'.buf.length := by
  have inv := calls_inv (inv_new (new_good hs hn h)) ops hr
  rw [List.nil_append] at inv
  exact inv.range lo hi ho

/-- C71: between two refills no position is handed out twice. -/
theorem once_only {seed nonce : List Byte} (hs : seed.length = 32) (hn : nonce.length = 8) {bufsize : Int} {rounds : Nat}
    {r r' : RNG} {ops : List Op} {pre mid post : List Event} {lo hi lo' hi' : Nat}
    (h : newRNGCustom C seed nonce bufsize rounds = .ok r)
    (hr : runAll C r ops = .ok (r', pre ++ .out lo hi :: (mid ++ .out lo' hi' :: post))) (hm : Event.refill ∉ mid) (i : Nat)
    (hi1 : lo ≤ i ∧ i < hi) : ¬ (lo' ≤ i ∧ i < hi') := by
  have inv := calls_inv (inv_new (new_good hs hn h)) ops hr
  rw [List.nil_append] at inv
  have := inv.once pre mid post lo hi lo' hi' rfl hm (by omega)
  omega

end Verif.Secrand
