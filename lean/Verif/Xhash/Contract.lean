import Verif.Xhash.Props

/-!
# C100: `Incremental64` as a `hash.Hash`
-/

namespace Verif.Xhash

/-- The slices written one after the other; it stops at the first panic. -/
def writes (h : BitVec 64) : List Slice → BitVec 64 × Go Unit
  | [] => (h, .ok ())
  | p :: ps => match write h p with
    | (h, .error msg) => (h, .error msg)
    | (h, .ok _) => writes h ps

/-- C100 as stated: what counts is the bytes written, not how they were cut into slices. Even for slices that `Write`
can take (C57). -/
def Chunked : Prop :=
  ∀ (h : BitVec 64) (ps qs : List Slice), (∀ p ∈ ps ++ qs, p.len % 8 = 0) →
    ps.flatMap Slice.bytes = qs.flatMap Slice.bytes → (writes h ps).1 = (writes h qs).1

/-- A slice without bytes. -/
def nothing : Slice := ⟨[], 0, by decide⟩
/-- Eight bytes. -/
def eight : Slice := ⟨[1, 2, 3, 4, 5, 6, 7, 8], 8, by decide⟩
/-- Eight others. -/
def eight' : Slice := ⟨[11, 12, 13, 14, 15, 16, 17, 18], 8, by decide⟩
/-- Both. -/
def sixteen : Slice := ⟨[1, 2, 3, 4, 5, 6, 7, 8, 11, 12, 13, 14, 15, 16, 17, 18], 16, by decide⟩

/-- Writing nothing changes the hash of a new `Incremental64`. -/
theorem C100_empty_write : sum64 (write newFast64 nothing).1 ≠ sum64 newFast64 := by
  obtain ⟨ws, h1, e⟩ := write_aligned_partial newFast64 nothing rfl
  have a : ws = [] := flatMap_bytesOf_inj (by rw [h1]; rfl)
  rw [e, a]
  decide +kernel

theorem not_chunked : ¬ Chunked := by
  intro hc
  have := hc newFast64 [nothing] [] (by simp [nothing]) (by rfl)
  refine C100_empty_write (congrArg sum64 ?_)
  obtain ⟨ws, h1, e⟩ := write_aligned_partial newFast64 nothing rfl
  rw [← show (writes newFast64 [nothing]).1 = (write newFast64 nothing).1 by simp [writes, e]]
  exact this

/-- Nor are two writes of eight bytes one of sixteen. -/
theorem C100_two_writes : eight.bytes ++ eight'.bytes = sixteen.bytes ∧
    sum64 (writes newFast64 [eight, eight']).1 ≠ sum64 (writes newFast64 [sixteen]).1 := by
  refine ⟨by decide, ?_⟩
  obtain ⟨v, v1, v2⟩ := write_aligned_partial newFast64 eight rfl
  obtain ⟨w, w1, w2⟩ := write_aligned_partial newFast64 sixteen rfl
  have hv : v = [0x0807060504030201] := flatMap_bytesOf_inj (by rw [v1]; decide +kernel)
  have hw : w = [0x0807060504030201, 0x1211100f0e0d0c0b] := flatMap_bytesOf_inj (by rw [w1]; decide +kernel)
  obtain ⟨u, u1, u2⟩ := write_aligned_partial (write newFast64 eight).1 eight' rfl
  have hu : u = [0x1211100f0e0d0c0b] := flatMap_bytesOf_inj (by rw [u1]; decide +kernel)
  have e1 : (writes newFast64 [eight, eight']).1 =
      writeAll newFast64 [8, 0x0807060504030201, 8, 0x1211100f0e0d0c0b] := by
    rw [v2, hv, hu] at u2
    simp only [writes, v2, hv]
    dsimp only at u2
    rw [u2]
    rfl
  have e2 : (writes newFast64 [sixteen]).1 = writeAll newFast64 [16, 0x0807060504030201, 0x1211100f0e0d0c0b] := by
    simp only [writes, w2, hw]
    rfl
  rw [e1, e2]
  decide +kernel

/-- C100, what holds: no panic, and slices with the same bytes one by one have the same effect, wherever they are in
memory. Missing: that the cutting does not matter, which is false. -/
theorem C100_writes_partial (h : BitVec 64) (ps qs : List Slice) (h8 : ∀ p ∈ ps, p.len % 8 = 0)
    (hb : ps.map Slice.bytes = qs.map Slice.bytes) : ∃ h', writes h ps = (h', .ok ()) ∧ writes h qs = (h', .ok ()) := by
  induction ps generalizing h qs with
  | nil =>
    cases qs with
    | nil => exact ⟨h, rfl, rfl⟩
    | cons _ _ => simp at hb
  | cons p ps ih =>
    cases qs with
    | nil => simp at hb
    | cons q qs =>
      simp only [List.map_cons, List.cons.injEq] at hb
      obtain ⟨h', e1, e2⟩ := write_determined_partial h p q (h8 p (by simp)) hb.1
      obtain ⟨h'', e3, e4⟩ := ih h' qs (fun p hp => h8 p (by simp [hp])) hb.2
      exact ⟨h'', by simp [writes, e1, e3], by simp [writes, e2, e4]⟩

/-! Which cuts change the sum -/

theorem writes_aligned (h : BitVec 64) (ps : List Slice) (h8 : ∀ p ∈ ps, p.len % 8 = 0) :
    ∃ ws, ∀ h, writes h ps = (writeAll h ws, .ok ()) := by
  induction ps generalizing h with
  | nil => exact ⟨[], fun _ => rfl⟩
  | cons p ps ih =>
    obtain ⟨ws, e⟩ := ih h fun p hp => h8 p (by simp [hp])
    obtain ⟨w, h1, -⟩ := write_aligned_partial h p (h8 p (by simp))
    refine ⟨(BitVec.ofNat 64 p.len :: w) ++ ws, fun h => ?_⟩
    obtain ⟨w', h1', e'⟩ := write_aligned_partial h p (h8 p (by simp))
    have : w' = w := flatMap_bytesOf_inj (by rw [h1, h1'])
    subst this
    simp only [writes, e', e]
    simp [writeAll]

theorem writes_append (h : BitVec 64) (ps qs : List Slice) (h8 : ∀ p ∈ ps, p.len % 8 = 0) :
    writes h (ps ++ qs) = writes (writes h ps).1 qs := by
  induction ps generalizing h with
  | nil => rfl
  | cons p ps ih =>
    obtain ⟨w, -, e⟩ := write_aligned_partial h p (h8 p (by simp))
    simp only [List.cons_append, writes, e]
    exact ih _ fun p hp => h8 p (by simp [hp])

/-- C100: whether two ways to write something lead to the same sum depends only on the state they start from, not on what is
written afterwards: no later write can make up for a difference, and none makes one. -/
theorem C100_later (h : BitVec 64) (ps qs later : List Slice) (hp : ∀ p ∈ ps, p.len % 8 = 0) (hq : ∀ p ∈ qs, p.len % 8 = 0)
    (hl : ∀ p ∈ later, p.len % 8 = 0) :
    sum64 (writes h (ps ++ later)).1 = sum64 (writes h (qs ++ later)).1 ↔ (writes h ps).1 = (writes h qs).1 := by
  obtain ⟨ws, e⟩ := writes_aligned h later hl
  rw [writes_append h ps later hp, writes_append h qs later hq, e, e]
  constructor
  · exact fun h => writeAll_state ws _ _ (uint64_bijective.1 _ _ h)
  · intro h; rw [h]

/-- C100: an empty `Write` changes the sum, whatever follows, exactly unless the state is a fixed point of mixing in 0. -/
theorem C100_empty_iff (h : BitVec 64) (later : List Slice) (hl : ∀ p ∈ later, p.len % 8 = 0) (p : Slice) (hp : p.len = 0) :
    sum64 (writes h (p :: later)).1 = sum64 (writes h later).1 ↔ uint64Seed 0 h = h := by
  have := C100_later h [p] [] later (by simp [hp]) (by simp) hl
  simp only [List.singleton_append, List.nil_append] at this
  rw [this]
  obtain ⟨w, h1, e⟩ := write_aligned_partial h p (by omega)
  have hw : w = [] := flatMap_bytesOf_inj (by rw [h1]; simp [Slice.bytes, hp])
  simp only [writes, e, hw, hp]
  rfl

/-- C100: cutting one `Write` in two, whatever follows. Whether the sum changes depends on the state, the bytes before the
cut and how many come after it, not on which. -/
theorem C100_cut (h : BitVec 64) (p a b : Slice) (ha : a.len % 8 = 0) (hb : b.len % 8 = 0)
    (hpab : p.bytes = a.bytes ++ b.bytes) (later : List Slice) (hl : ∀ p ∈ later, p.len % 8 = 0)
    (xs : List (BitVec 64)) (hx : xs.flatMap bytesOf = a.bytes) :
    sum64 (writes h (p :: later)).1 = sum64 (writes h (a :: b :: later)).1 ↔
      writeAll h (BitVec.ofNat 64 (a.len + b.len) :: xs) =
        writeAll h (BitVec.ofNat 64 a.len :: xs ++ [BitVec.ofNat 64 b.len]) := by
  have hlen : p.len = a.len + b.len := by
    have := congrArg List.length hpab
    have h1 := p.ok
    have h2 := a.ok
    have h3 := b.ok
    simp only [Slice.bytes, List.length_take, List.length_append] at this
    omega
  have := C100_later h [p] [a, b] later (by simp; omega) (by simp [ha, hb]) hl
  simp only [List.cons_append, List.nil_append] at this
  rw [this]
  obtain ⟨w, h1, e1⟩ := write_aligned_partial h p (by omega)
  obtain ⟨x, h2, e2⟩ := write_aligned_partial h a ha
  have hx' : x = xs := flatMap_bytesOf_inj (by rw [h2, hx])
  subst hx'
  obtain ⟨y, h3, e3⟩ := write_aligned_partial (writeAll h (BitVec.ofNat 64 a.len :: x)) b hb
  have hw : w = x ++ y := flatMap_bytesOf_inj (by rw [h1, hpab, List.flatMap_append, h2, h3])
  subst hw
  simp only [writes, e1, e2, e3, hlen]
  have s1 : writeAll h (BitVec.ofNat 64 (a.len + b.len) :: (x ++ y)) =
      writeAll (writeAll h (BitVec.ofNat 64 (a.len + b.len) :: x)) y := by simp [writeAll]
  have s2 : writeAll (writeAll h (BitVec.ofNat 64 a.len :: x)) (BitVec.ofNat 64 b.len :: y) =
      writeAll (writeAll h (BitVec.ofNat 64 a.len :: x ++ [BitVec.ofNat 64 b.len])) y := by simp [writeAll]
  rw [s1, s2]
  exact ⟨fun h => writeAll_state y _ _ h, fun h => by rw [h]⟩

/-- A cut after `eight` changes every sum of a new `Incremental64`, with whatever eight bytes after the cut and whatever is
written later. -/
example (b p : Slice) (hb : b.len = 8) (hp : p.bytes = eight.bytes ++ b.bytes) (later : List Slice)
    (hl : ∀ p ∈ later, p.len % 8 = 0) :
    sum64 (writes newFast64 (p :: later)).1 ≠ sum64 (writes newFast64 (eight :: b :: later)).1 := by
  intro e
  have := (C100_cut newFast64 p eight b rfl (by omega) hp later hl [0x0807060504030201] (by decide +kernel)).1 e
  rw [hb] at this
  revert this
  decide +kernel

example : uint64Seed 0 newFast64 ≠ newFast64 := by decide +kernel

/-- C100: the sizes. `Sum` appends `Size` bytes. `Write` takes every slice whose length is a multiple of `n`, whatever
its capacity, and counts right, just if `n` is a multiple of `BlockSize`. -/
theorem C100_sizes (h : BitVec 64) :
    (∀ b, ∃ r, sum h b = (h, .ok r) ∧ r.length = b.length + size h) ∧
    ∀ n, (∀ p : Slice, n ∣ p.len → (write h p).2 = .ok p.len) ↔ blockSize h ∣ n := by
  refine ⟨fun b => ?_, fun n => ⟨fun hn => ?_, fun hn p hp => ?_⟩⟩
  · obtain ⟨a, e, l, -⟩ := sum_spec h b
    exact ⟨_, e, by simp [l]⟩
  · refine Nat.dvd_of_mod_eq_zero (Decidable.byContradiction fun hd => ?_)
    simp only [blockSize] at hd
    have := hn ⟨List.replicate n 0, n, by simp⟩ (Nat.dvd_refl _)
    obtain ⟨msg, e⟩ := (write_panics_iff h ⟨List.replicate n 0, n, by simp⟩).2 (by simp [roundUp]; omega)
    rw [this] at e
    cases e
  · have h8 : 8 ∣ p.len := Nat.dvd_trans hn hp
    obtain ⟨ws, -, e⟩ := write_aligned_partial h p (Nat.mod_eq_zero_of_dvd h8)
    rw [e]

example : ∃ h', writes newFast64 [eight, sixteen] = (h', .ok ()) ∧
    writes newFast64 [⟨[1, 2, 3, 4, 5, 6, 7, 8, 9], 8, by decide⟩, sixteen] = (h', .ok ()) :=
  C100_writes_partial newFast64 [eight, sixteen] _ (by simp [eight, sixteen]) (by decide)
example : ∃ msg, (write newFast64 short).2 = .error msg := write_short_panics _

end Verif.Xhash
