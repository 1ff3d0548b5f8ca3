import Verif.Xhash.Model

/-!
# Properties of `Incremental64` (C56–C58, C69)
-/

namespace Verif.Xhash

/-- One-to-one. -/
def Injective {α β : Type} (f : α → β) : Prop := ∀ a b, f a = f b → a = b

/-- Onto. -/
def Surjective {α β : Type} (f : α → β) : Prop := ∀ b, ∃ a, f a = b

/-- One-to-one and onto. -/
def Bijective {α β : Type} (f : α → β) : Prop := Injective f ∧ Surjective f

theorem bijective_of_inverse {α β : Type} {f : α → β} (g : β → α) (h1 : ∀ a, g (f a) = a) (h2 : ∀ b, f (g b) = b) :
    Bijective f :=
  ⟨fun a b h => by rw [← h1 a, h, h1], fun b => ⟨g b, h2 b⟩⟩

theorem Bijective.comp {α β γ : Type} {g : β → γ} {f : α → β} (hg : Bijective g) (hf : Bijective f) :
    Bijective fun x => g (f x) :=
  ⟨fun a b h => hf.1 _ _ (hg.1 _ _ h), fun c => by
    obtain ⟨b, rfl⟩ := hg.2 c
    obtain ⟨a, rfl⟩ := hf.2 b
    exact ⟨a, rfl⟩⟩

/-! ## The steps of the mixing function -/

/-- `h ^ rotl(h, a) ^ rotl(h, b)` -/
def rr (a b : Nat) (h : BitVec 64) : BitVec 64 := h ^^^ (h.rotateLeft a ^^^ h.rotateLeft b)

theorem rotl_bit (h : BitVec 64) (n i : Nat) (hi : i < 64) : (h.rotateLeft n).getLsbD i = h.getLsbD ((i + 64 - n % 64) % 64) := by
  rw [BitVec.getLsbD_rotateLeft]
  have hn : n % 64 < 64 := Nat.mod_lt _ (by decide)
  by_cases c : i < n % 64
  · simp only [c, decide_true, cond_true]
    congr 1; omega
  · simp only [c, decide_false, cond_false, hi, decide_true, Bool.true_and]
    congr 1; omega

/-- Doing it twice doubles the amounts: the mixed terms cancel. -/
theorem rr_twice (a b : Nat) (h : BitVec 64) : rr a b (rr a b h) = rr (2 * a) (2 * b) h := by
  refine BitVec.eq_of_getLsbD_eq fun i hi => ?_
  have hm : ∀ j, j % 64 < 64 := fun j => Nat.mod_lt _ (by decide)
  simp only [rr, BitVec.getLsbD_xor, rotl_bit _ _ _ hi, rotl_bit _ _ _ (hm _)]
  have e1 : ((i + 64 - a % 64) % 64 + 64 - a % 64) % 64 = (i + 64 - 2 * a % 64) % 64 := by omega
  have e2 : ((i + 64 - b % 64) % 64 + 64 - b % 64) % 64 = (i + 64 - 2 * b % 64) % 64 := by omega
  have e3 : ((i + 64 - b % 64) % 64 + 64 - a % 64) % 64 = ((i + 64 - a % 64) % 64 + 64 - b % 64) % 64 := by omega
  rw [e1, e2, e3]
  cases h.getLsbD i <;> cases h.getLsbD ((i + 64 - a % 64) % 64) <;> cases h.getLsbD ((i + 64 - b % 64) % 64) <;>
    cases h.getLsbD ((i + 64 - 2 * a % 64) % 64) <;> cases h.getLsbD ((i + 64 - 2 * b % 64) % 64) <;>
    cases h.getLsbD (((i + 64 - a % 64) % 64 + 64 - b % 64) % 64) <;> rfl

/-- Multiples of 64 turn everything around to where it was. -/
theorem rr_id (a b : Nat) (ha : a % 64 = 0) (hb : b % 64 = 0) (h : BitVec 64) : rr a b h = h := by
  refine BitVec.eq_of_getLsbD_eq fun i hi => ?_
  simp only [rr, BitVec.getLsbD_xor, rotl_bit _ _ _ hi, ha, hb]
  have e : (i + 64 - 0) % 64 = i := by omega
  rw [e]
  cases h.getLsbD i <;> rfl

theorem bijective_of_twice {f g : BitVec 64 → BitVec 64} (h : ∀ x, f (f x) = g x) (hg : Bijective g) : Bijective f :=
  ⟨fun a b e => hg.1 a b (by rw [← h, ← h, e]), fun c => by
    obtain ⟨a, ha⟩ := hg.2 c
    exact ⟨f a, by rw [h, ha]⟩⟩

theorem rr_bijective (a b : Nat) : Bijective (rr a b) := by
  have h64 : Bijective (rr (2 * (2 * (2 * (2 * (2 * (2 * a)))))) (2 * (2 * (2 * (2 * (2 * (2 * b))))))) :=
    bijective_of_inverse id (fun x => rr_id _ _ (by omega) (by omega) x) (fun x => rr_id _ _ (by omega) (by omega) x)
  exact bijective_of_twice (rr_twice _ _) (bijective_of_twice (rr_twice _ _) (bijective_of_twice (rr_twice _ _)
    (bijective_of_twice (rr_twice _ _) (bijective_of_twice (rr_twice _ _) (bijective_of_twice (rr_twice _ _) h64)))))

/-- Multiplication by the constant; it is odd, so it has an inverse. -/
theorem mul_bijective : Bijective fun h : BitVec 64 => h * 0x9fb21c651e98df25#64 := by
  have inv : 0x9fb21c651e98df25#64 * 0x2ab9c720d1024ad#64 = 1#64 := by decide +kernel
  refine bijective_of_inverse (fun h => h * 0x2ab9c720d1024ad#64) (fun h => ?_) (fun h => ?_)
  · show h * 0x9fb21c651e98df25#64 * 0x2ab9c720d1024ad#64 = h
    rw [BitVec.mul_assoc, inv, BitVec.mul_one]
  · show h * 0x2ab9c720d1024ad#64 * 0x9fb21c651e98df25#64 = h
    rw [BitVec.mul_assoc, BitVec.mul_comm 0x2ab9c720d1024ad#64, inv, BitVec.mul_one]

theorem xor_xor_cancel (a b : BitVec 64) : (a ^^^ b) ^^^ b = a := by
  rw [BitVec.xor_assoc, BitVec.xor_self, BitVec.xor_zero]

/-- The bits from 35 up do not change. -/
theorem shift35_same (h y : BitVec 64) : (y ^^^ ((h >>> 35) + 8#64)) >>> 35 = y >>> 35 := by
  rw [BitVec.ushiftRight_xor_distrib]
  have e : ((h >>> 35) + 8#64) >>> 35 = 0#64 := by
    apply BitVec.eq_of_toNat_eq
    have := h.isLt
    rw [BitVec.toNat_ushiftRight, BitVec.toNat_add, BitVec.toNat_ushiftRight, Nat.shiftRight_eq_div_pow, Nat.shiftRight_eq_div_pow]
    show ((h.toNat / 2 ^ 35 + 8) % 2 ^ 64) / 2 ^ 35 = 0
    omega
  rw [e, BitVec.xor_zero]

theorem shift35_bijective : Bijective fun h : BitVec 64 => h ^^^ ((h >>> 35) + 8#64) :=
  bijective_of_inverse (fun y => y ^^^ ((y >>> 35) + 8#64))
    (fun h => by show (h ^^^ ((h >>> 35) + 8#64)) ^^^ (((h ^^^ ((h >>> 35) + 8#64)) >>> 35) + 8#64) = h
                 rw [shift35_same, xor_xor_cancel])
    (fun h => by show (h ^^^ ((h >>> 35) + 8#64)) ^^^ (((h ^^^ ((h >>> 35) + 8#64)) >>> 35) + 8#64) = h
                 rw [shift35_same, xor_xor_cancel])

theorem shift28_bijective : Bijective fun h : BitVec 64 => h ^^^ (h >>> 28) := by
  have e84 : ∀ h : BitVec 64, h >>> 28 >>> 28 >>> 28 = 0#64 := by
    intro h
    apply BitVec.eq_of_toNat_eq
    have := h.isLt
    simp only [BitVec.toNat_ushiftRight, Nat.shiftRight_eq_div_pow]
    show _ = 0
    omega
  refine bijective_of_inverse (fun y => y ^^^ (y >>> 28) ^^^ (y >>> 28 >>> 28)) ?_ ?_
  · intro h
    simp only [BitVec.ushiftRight_xor_distrib, e84]
    generalize h >>> 28 >>> 28 = a
    generalize h >>> 28 = b
    refine BitVec.eq_of_getLsbD_eq fun i hi => ?_
    simp only [BitVec.getLsbD_xor, BitVec.getLsbD_zero]
    cases h.getLsbD i <;> cases a.getLsbD i <;> cases b.getLsbD i <;> rfl
  · intro h
    simp only [BitVec.ushiftRight_xor_distrib, e84]
    generalize h >>> 28 >>> 28 = a
    generalize h >>> 28 = b
    refine BitVec.eq_of_getLsbD_eq fun i hi => ?_
    simp only [BitVec.getLsbD_xor, BitVec.getLsbD_zero]
    cases h.getLsbD i <;> cases a.getLsbD i <;> cases b.getLsbD i <;> rfl

theorem rrmxmx_bijective : Bijective rrmxmx :=
  shift28_bijective.comp (mul_bijective.comp (shift35_bijective.comp (mul_bijective.comp (rr_bijective 49 24))))

theorem xor_bijective (c : BitVec 64) : Bijective fun v : BitVec 64 => v ^^^ c :=
  bijective_of_inverse (fun v => v ^^^ c) (fun v => xor_xor_cancel v c) (fun v => xor_xor_cancel v c)

/-! ## C56 -/

/-- C56, first part: `Uint64` maps distinct values to distinct hashes (and takes every value). -/
theorem uint64_bijective : Bijective uint64 := rrmxmx_bijective.comp (xor_bijective _)

/-- C56, second part: so does `Uint64Seed` for every seed. -/
theorem uint64Seed_bijective (seed : BitVec 64) : Bijective fun v => uint64Seed v seed :=
  rrmxmx_bijective.comp (xor_bijective _)

/-- The mixing of the seed does not change its lower half. -/
theorem seed_low (seed x : BitVec 64) : (seed ^^^ (x <<< 32)).setWidth 32 = seed.setWidth 32 := by
  refine BitVec.eq_of_getLsbD_eq fun i hi => ?_
  simp [hi]

theorem seedMix_bijective : Bijective fun seed : BitVec 64 =>
    seed ^^^ ((reverseBytes32 (seed.setWidth 32)).setWidth 64 <<< 32) :=
  bijective_of_inverse (fun seed => seed ^^^ ((reverseBytes32 (seed.setWidth 32)).setWidth 64 <<< 32))
    (fun s => by
      show (s ^^^ ((reverseBytes32 (s.setWidth 32)).setWidth 64 <<< 32)) ^^^ _ = s
      rw [seed_low, xor_xor_cancel])
    (fun s => by
      show (s ^^^ ((reverseBytes32 (s.setWidth 32)).setWidth 64 <<< 32)) ^^^ _ = s
      rw [seed_low, xor_xor_cancel])

theorem sub_sub (c s : BitVec 64) : c - (c - s) = s := by
  apply BitVec.eq_of_toNat_eq
  have := c.isLt
  have := s.isLt
  simp only [BitVec.toNat_sub]
  omega

/-- For a fixed value, distinct seeds give distinct hashes. -/
theorem uint64Seed_seed_bijective (v : BitVec 64) : Bijective fun seed => uint64Seed v seed := by
  have hsub : Bijective fun s : BitVec 64 => (key008 ^^^ key016) - s :=
    bijective_of_inverse (fun s => (key008 ^^^ key016) - s)
      (fun s => sub_sub _ _) (fun s => sub_sub _ _)
  have hx : Bijective fun w : BitVec 64 => v ^^^ w :=
    bijective_of_inverse (fun w => v ^^^ w)
      (fun w => by show v ^^^ (v ^^^ w) = w; rw [← BitVec.xor_assoc, BitVec.xor_self, BitVec.zero_xor])
      (fun w => by show v ^^^ (v ^^^ w) = w; rw [← BitVec.xor_assoc, BitVec.xor_self, BitVec.zero_xor])
  exact rrmxmx_bijective.comp (hx.comp (hsub.comp seedMix_bijective))

/-! ## C58 and C69 -/

/-- C58: equal states fed different words have different sums. -/
theorem last_word (h v w : BitVec 64) (hne : v ≠ w) : sum64 (writeUint64 h v) ≠ sum64 (writeUint64 h w) :=
  fun e => hne ((uint64Seed_bijective h).1 _ _ (uint64_bijective.1 _ _ e))

/-- C58: `Sum` appends the eight bytes of `Sum64`, the lowest first, and leaves the state alone. -/
theorem sum_spec (h : BitVec 64) (b : List Byte) :
    ∃ a, sum h b = (h, .ok (b ++ a)) ∧ a.length = size h ∧ leValue a = (sum64 h).toNat := by
  refine ⟨bytesOf (sum64 h), ?_, rfl, leValue_bytesOf _⟩
  unfold sum
  rw [putUint64_ok (by simp)]
  rfl

/-- The state after words were written. -/
def writeAll (h : BitVec 64) (ws : List (BitVec 64)) : BitVec 64 := ws.foldl writeUint64 h

/-- Different states stay different while the same words are written. -/
theorem writeAll_state (ws : List (BitVec 64)) : Injective fun h => writeAll h ws := by
  induction ws with
  | nil => exact fun _ _ h => h
  | cons w ws ih => exact fun a b h => (uint64Seed_seed_bijective w).1 _ _ (ih _ _ h)

/-- C69: two sequences of words that differ at one position give different sums. -/
theorem one_word (h : BitVec 64) (xs ys : List (BitVec 64)) (v w : BitVec 64) (hne : v ≠ w) :
    sum64 (writeAll h (xs ++ v :: ys)) ≠ sum64 (writeAll h (xs ++ w :: ys)) := by
  intro e
  have e := uint64_bijective.1 _ _ e
  simp only [writeAll, List.foldl_append, List.foldl_cons] at e
  exact hne ((uint64Seed_bijective _).1 _ _ (writeAll_state ys _ _ e))

/-- C69: different states have different sums after the same words. -/
theorem different_states (h h' : BitVec 64) (ws : List (BitVec 64)) (hne : h ≠ h') :
    sum64 (writeAll h ws) ≠ sum64 (writeAll h' ws) :=
  fun e => hne (writeAll_state ws _ _ (uint64_bijective.1 _ _ e))

/-! ## C57 -/

/-- The least multiple of 8 that is not below the length. -/
def roundUp (n : Nat) : Nat := (n + 7) / 8 * 8

theorem goSlice_eq {l : List Byte} {i : Nat} (h : i + 8 ≤ l.length) : goSlice l i (i + 8) = .ok ((l.drop i).take 8) := by
  unfold goSlice
  rw [if_pos (by omega)]
  congr 1
  have e1 : ((i : Int) + 8).toNat = i + 8 := by omega
  rw [e1, Int.toNat_natCast, List.drop_take]
  congr 1
  omega

theorem writeLoop_ok (p : Slice) : ∀ (n i : Nat) (h : BitVec 64), p.len - i ≤ n → roundUp p.len ≤ p.arr.length → i % 8 = 0 →
    i ≤ roundUp p.len → ∃ ws : List (BitVec 64), ws.flatMap bytesOf = (p.arr.drop i).take (roundUp p.len - i) ∧
      writeLoop p i h = (writeAll h ws, .ok (roundUp p.len)) := by
  intro n
  induction n using Nat.strongRecOn with
  | ind n ih =>
    intro i h hn hc hi hle
    rw [writeLoop]
    by_cases c : i < p.len
    · rw [if_pos c]
      have h8 : i + 8 ≤ roundUp p.len := by unfold roundUp; omega
      rw [goSlice_eq (by omega)]
      have hl : ((p.arr.drop i).take 8).length = 8 := by simp; omega
      obtain ⟨w, hw, -⟩ := toUint64_spec (b := (p.arr.drop i).take 8) (by omega)
      have hb := bytesOf_toUint64 hl hw
      have e : (Except.ok ((p.arr.drop i).take 8) >>= toUint64 : Go (BitVec 64)) = .ok w := hw
      rw [e]
      dsimp only
      obtain ⟨ws, h1, h2⟩ := ih (p.len - (i + 8)) (by omega) (i + 8) (writeUint64 h w) (Nat.le_refl _) hc (by omega) h8
      refine ⟨w :: ws, ?_, h2⟩
      rw [List.flatMap_cons, h1, hb]
      have e2 : roundUp p.len - i = 8 + (roundUp p.len - (i + 8)) := by omega
      rw [e2, List.take_add, List.drop_drop]
    · rw [if_neg c]
      have : roundUp p.len = i := by unfold roundUp at *; omega
      exact ⟨[], by rw [this]; simp, by rw [this]; rfl⟩

theorem writeLoop_panics (p : Slice) : ∀ (n i : Nat) (h : BitVec 64), p.len - i ≤ n → p.arr.length < roundUp p.len → i % 8 = 0 →
    i < p.len → ∃ h' msg, writeLoop p i h = (h', .error msg) := by
  intro n
  induction n using Nat.strongRecOn with
  | ind n ih =>
    intro i h hn hc hi hlt
    rw [writeLoop, if_pos hlt]
    by_cases c : i + 8 ≤ p.arr.length
    · rw [goSlice_eq c]
      have hl : ((p.arr.drop i).take 8).length = 8 := by simp; omega
      obtain ⟨w, hw, -⟩ := toUint64_spec (b := (p.arr.drop i).take 8) (by omega)
      have e : (Except.ok ((p.arr.drop i).take 8) >>= toUint64 : Go (BitVec 64)) = .ok w := hw
      rw [e]
      dsimp only
      have hlt' : i + 8 < p.len := by
        have := p.ok
        unfold roundUp at hc
        omega
      exact ih (p.len - (i + 8)) (by omega) (i + 8) _ (Nat.le_refl _) hc (by omega) hlt'
    · have e : goSlice p.arr i (i + 8) = .error "slice bounds out of range" := by
        unfold goSlice
        rw [if_neg (by omega)]
      rw [e]
      exact ⟨h, _, rfl⟩

/-- What `Write` does: it writes the length and then the words of the slice up to the next multiple of 8, which it also
returns; it panics if that is beyond the capacity. -/
theorem write_spec (h : BitVec 64) (p : Slice) :
    if roundUp p.len ≤ p.arr.length then
      ∃ ws : List (BitVec 64), ws.flatMap bytesOf = p.arr.take (roundUp p.len) ∧
        write h p = (writeAll h (BitVec.ofNat 64 p.len :: ws), .ok (roundUp p.len))
    else ∃ h' msg, write h p = (h', .error msg) := by
  split
  · rename_i c
    obtain ⟨ws, h1, h2⟩ := writeLoop_ok p p.len 0 (writeUint64 h (BitVec.ofNat 64 p.len)) (by omega) c rfl (by omega)
    refine ⟨ws, by simpa using h1, ?_⟩
    unfold write
    rw [h2]
    dsimp only
    rw [if_neg (by unfold roundUp; omega)]
    rfl
  · rename_i c
    have hpos : 0 < p.len := by
      rcases Nat.eq_zero_or_pos p.len with h0 | h0
      · rw [h0] at c; simp [roundUp] at c
      · exact h0
    obtain ⟨h', msg, e⟩ := writeLoop_panics p p.len 0 (writeUint64 h (BitVec.ofNat 64 p.len)) (by omega) (by omega) rfl hpos
    exact ⟨h', msg, by unfold write; rw [e]⟩

/-- C57 as stated: `Write` returns the length, and the new state depends on the bytes only. -/
def WriteDetermined : Prop :=
  ∀ (h : BitVec 64) (p q : Slice), p.bytes = q.bytes → ∃ h', write h p = (h', .ok p.len) ∧ write h q = (h', .ok q.len)

theorem flatMap_bytesOf_inj : ∀ {a b : List (BitVec 64)}, a.flatMap bytesOf = b.flatMap bytesOf → a = b
  | [], [], _ => rfl
  | [], w :: b, h => by
    have := congrArg List.length h
    simp [bytesOf_length] at this
    omega
  | w :: a, [], h => by
    have := congrArg List.length h
    simp [bytesOf_length] at this
  | v :: a, w :: b, h => by
    simp only [List.flatMap_cons] at h
    obtain ⟨h1, h2⟩ := List.append_inj h (by simp [bytesOf_length])
    have e : v = w := by
      apply BitVec.eq_of_toNat_eq
      rw [← leValue_bytesOf, h1, leValue_bytesOf]
    rw [e, flatMap_bytesOf_inj h2]

/-- C57 for slices with a length divisible by 8: `Write` does not panic, returns the length, and the state afterwards
is that after writing the length and the words the bytes spell. Missing: other lengths, for which it is false. -/
theorem write_aligned_partial (h : BitVec 64) (p : Slice) (h8 : p.len % 8 = 0) :
    ∃ ws : List (BitVec 64), ws.flatMap bytesOf = p.bytes ∧
      write h p = (writeAll h (BitVec.ofNat 64 p.len :: ws), .ok p.len) := by
  have e : roundUp p.len = p.len := by unfold roundUp; omega
  have := write_spec h p
  rw [e, if_pos p.ok] at this
  exact this

/-- C57 for slices with a length divisible by 8: the same bytes have the same effect. -/
theorem write_determined_partial (h : BitVec 64) (p q : Slice) (h8 : p.len % 8 = 0) (hb : p.bytes = q.bytes) :
    ∃ h', write h p = (h', .ok p.len) ∧ write h q = (h', .ok q.len) := by
  have hl : p.len = q.len := by
    have := congrArg List.length hb
    have h1 := p.ok
    have h2 := q.ok
    simp only [Slice.bytes, List.length_take] at this
    omega
  obtain ⟨ws, h1, h2⟩ := write_aligned_partial h p h8
  obtain ⟨ws', h1', h2'⟩ := write_aligned_partial h q (by omega)
  have : ws = ws' := flatMap_bytesOf_inj (by rw [h1, h1', hb])
  subst this
  rw [← hl] at h2' ⊢
  exact ⟨_, h2, h2'⟩

/-- When `Write` panics: the next multiple of 8 is beyond the capacity. -/
theorem write_panics_iff (h : BitVec 64) (p : Slice) :
    (∃ msg, (write h p).2 = .error msg) ↔ p.arr.length < roundUp p.len := by
  have := write_spec h p
  constructor
  · rintro ⟨msg, hm⟩
    by_cases c : roundUp p.len ≤ p.arr.length
    · rw [if_pos c] at this
      obtain ⟨ws, -, e⟩ := this
      rw [e] at hm
      cases hm
    · omega
  · intro c
    rw [if_neg (by omega)] at this
    obtain ⟨h', msg, e⟩ := this
    exact ⟨msg, by rw [e]⟩

/-- One byte with capacity 1. -/
def short : Slice := ⟨[1], 1, by decide⟩
/-- One byte with capacity 8 -/
def byte1 : Slice := ⟨[1, 0, 0, 0, 0, 0, 0, 0], 1, by decide⟩
/-- The same byte with something else after it. -/
def byte1' : Slice := ⟨[1, 2, 0, 0, 0, 0, 0, 0], 1, by decide⟩

/-- C57 is false: `Write` panics for a slice with one byte and no spare capacity, … -/
theorem write_short_panics (h : BitVec 64) : ∃ msg, (write h short).2 = .error msg :=
  (write_panics_iff h short).2 (by decide)

/-- … with spare capacity it returns 8 for one byte, … -/
theorem write_returns_too_much (h : BitVec 64) : (write h byte1).2 = .ok 8 := by
  have := write_spec h byte1
  rw [if_pos (by decide)] at this
  obtain ⟨ws, -, e⟩ := this
  rw [e]; rfl

/-- … and its effect depends on the memory after the slice. -/
theorem write_reads_beyond (h : BitVec 64) : byte1.bytes = byte1'.bytes ∧ (write h byte1).1 ≠ (write h byte1').1 := by
  refine ⟨rfl, ?_⟩
  obtain ⟨ws, h1, e⟩ := by simpa only [if_pos (show roundUp byte1.len ≤ byte1.arr.length by decide)] using write_spec h byte1
  obtain ⟨ws', h1', e'⟩ := by simpa only [if_pos (show roundUp byte1'.len ≤ byte1'.arr.length by decide)] using write_spec h byte1'
  have a : ws = [1] := flatMap_bytesOf_inj (by rw [h1]; decide +kernel)
  have a' : ws' = [0x201] := flatMap_bytesOf_inj (by rw [h1']; decide +kernel)
  rw [e, e', a, a']
  intro hh
  exact one_word h [BitVec.ofNat 64 1] [] 1 0x201 (by decide) (congrArg sum64 hh)

theorem not_writeDetermined : ¬ WriteDetermined := by
  intro hw
  obtain ⟨h', h1, -⟩ := hw 0 short short rfl
  obtain ⟨msg, h2⟩ := write_short_panics 0
  rw [h1] at h2
  cases h2

/-- C57: `Reset` goes back to the initial state. -/
theorem reset_spec (h : BitVec 64) : reset h = newFast64 := rfl

/-- Bytes in eights are words. -/
theorem words_of_bytes : ∀ (n : Nat) (b : List Byte), b.length = 8 * n → ∃ ws : List (BitVec 64), ws.flatMap bytesOf = b
  | 0, b, h => ⟨[], by simp at h; rw [h]; rfl⟩
  | n + 1, b, h => by
    have hl : (b.take 8).length = 8 := by simp; omega
    obtain ⟨w, hw, -⟩ := toUint64_spec (b := b.take 8) (by omega)
    obtain ⟨ws, hws⟩ := words_of_bytes n (b.drop 8) (by simp; omega)
    exact ⟨w :: ws, by rw [List.flatMap_cons, hws, bytesOf_toUint64 hl hw, List.take_append_drop]⟩

/-- C69 for `Write`: slices of the same length, divisible by 8, that differ in one aligned word have different sums. -/
theorem write_one_word (h : BitVec 64) (p q : Slice) (h8 : p.len % 8 = 0) (xs ys v w : List Byte)
    (hv : v.length = 8) (hw : w.length = 8) (hx : xs.length % 8 = 0) (hp : p.bytes = xs ++ v ++ ys)
    (hq : q.bytes = xs ++ w ++ ys) (hne : v ≠ w) : sum64 (write h p).1 ≠ sum64 (write h q).1 := by
  have lp : p.len = xs.length + 8 + ys.length := by
    have := congrArg List.length hp
    have h1 := p.ok
    simp only [Slice.bytes, List.length_take, List.length_append] at this
    omega
  have lq : q.len = xs.length + 8 + ys.length := by
    have := congrArg List.length hq
    have h1 := q.ok
    simp only [Slice.bytes, List.length_take, List.length_append] at this
    omega
  obtain ⟨ws, h1, h2⟩ := write_aligned_partial h p h8
  obtain ⟨ws', h1', h2'⟩ := write_aligned_partial h q (by omega)
  obtain ⟨wx, ex⟩ := words_of_bytes (xs.length / 8) xs (by omega)
  obtain ⟨wy, ey⟩ := words_of_bytes (ys.length / 8) ys (by omega)
  obtain ⟨wv, ev⟩ := toUint64_spec (b := v) (by omega)
  obtain ⟨ww, ew⟩ := toUint64_spec (b := w) (by omega)
  have bv := bytesOf_toUint64 hv ev.1
  have bw := bytesOf_toUint64 hw ew.1
  have e1 : ws = wx ++ wv :: wy := flatMap_bytesOf_inj (by
    rw [h1, hp, List.flatMap_append, List.flatMap_cons, ex, ey, bv, List.append_assoc])
  have e2 : ws' = wx ++ ww :: wy := flatMap_bytesOf_inj (by
    rw [h1', hq, List.flatMap_append, List.flatMap_cons, ex, ey, bw, List.append_assoc])
  rw [h2, h2', e1, e2, lp, lq]
  exact one_word h (BitVec.ofNat 64 (xs.length + 8 + ys.length) :: wx) wy wv ww (fun e => hne (by rw [← bv, e, bw]))

/-! ## Examples -/

/-- The XXH3 hash of eight zero bytes, and a seeded one. -/
example : uint64 0 = 0xc77b3abb6f87acd9 := by decide +kernel
example : uint64Seed 5 0x123456789abcdef0 = 0x2aa8ffa43c052fd2 := by decide +kernel

example : uint64 0 ≠ uint64 1 := fun h => absurd (uint64_bijective.1 _ _ h) (by decide)
example : (⟨[1, 2, 3, 4, 5, 6, 7, 8, 9], 8, by decide⟩ : Slice).len % 8 = 0 := rfl

end Verif.Xhash
