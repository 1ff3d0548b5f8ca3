import Verif.Ring.Props

/-!
# C26 for buffers that share memory with the ring, exactly

`ToSlice(s)` (ds/xring/ring.go:152-168) copies the elements in one or two parts. For which windows it returns the
contents, and for which it leaves the ring as it was, whatever the cells hold.
-/

namespace Verif.Ring

variable {T : Type}

/-! ## Specification -/

/-- The number of elements up to the end of `buf`. -/
def MemRing.part (r : MemRing) : Nat := min r.len (r.n - r.st)

/-- The cell holds an element of the ring. -/
def MemRing.Live (r : MemRing) (a : Nat) : Prop := ∃ i, i < r.len ∧ a = r.off + wrapIdx r.n (r.st + i)

/-- Copying `k` cells from `src` to `dst` does not change an element of the ring: the copy is in place, or goes to cells
that hold none. -/
def Harmless (r : MemRing) (dst src k : Nat) : Prop := dst = src ∨ ∀ i, i < k → ¬ r.Live (dst + i)

/-- What `ToSlice` returns is right whatever the cells hold. -/
def ReturnsContents (T : Type) (r : MemRing) (s : Win) : Prop :=
  ∀ m : Nat → T, ((toSliceMem m r s).2.map (Built.val (toSliceMem m r s).1)).getD [] = contents (r.denote m)

/-- The contents of the ring stay the same whatever the cells hold. -/
def KeepsContents (T : Type) (r : MemRing) (s : Win) : Prop :=
  ∀ m : Nat → T, contents (r.denote (toSliceMem m r s).1) = contents (r.denote m)

/-! ## The memory after the call -/

theorem write_read (m m' : Nat → T) (dst src k a : Nat) :
    writeMem m dst (readMem m' src k) a = if dst ≤ a ∧ a < dst + k then m' (src + (a - dst)) else m a := by
  split
  · rename_i h
    have := writeMem_in m dst (readMem m' src k) (a - dst) (by rw [readMem_length]; omega)
    rw [readMem_getElem?, if_pos (by omega), show dst + (a - dst) = a by omega] at this
    exact Option.some.inj this
  · exact writeMem_out _ _ _ _ (by rw [readMem_length]; omega)

/-- The memory after the first part. -/
def mem₁ (m : Nat → T) (r : MemRing) (s : Win) (a : Nat) : T :=
  if r.part ≤ s.cap ∧ s.off ≤ a ∧ a < s.off + r.part then m (r.off + r.st + (a - s.off)) else m a

/-- The memory after both parts. -/
def mem₂ (m : Nat → T) (r : MemRing) (s : Win) (a : Nat) : T :=
  if r.len ≤ s.cap ∧ s.off + r.part ≤ a ∧ a < s.off + r.len then mem₁ m r s (r.off + (a - (s.off + r.part)))
  else mem₁ m r s a

theorem append_first (m : Nat → T) (r : MemRing) (s : Win) (k : Nat) (hk : k = r.part) :
    (appendMem m (.inMem { s with len := 0 }) (readMem m (r.off + r.st) k)).1 = mem₁ m r s := by
  subst hk
  funext a
  simp only [appendMem, readMem_length, Nat.zero_add, Nat.add_zero, mem₁]
  by_cases h : r.part ≤ s.cap
  · simp only [h, if_true, true_and]
    exact write_read ..
  · simp [h]

theorem toSliceMem_mem (m : Nat → T) (r : MemRing) (s : Win) (hl : r.len ≤ r.n) (hs : r.st < r.n ∨ r.st = 0) :
    (toSliceMem m r s).1 = mem₂ m r s := by
  unfold toSliceMem
  by_cases h0 : r.len = 0
  · rw [if_pos h0]
    funext a
    have hp : r.part = 0 := by unfold MemRing.part; omega
    simp only [mem₂, mem₁, hp, h0]
    rw [if_neg (by omega), if_neg (by omega)]
  · rw [if_neg h0]
    by_cases h1 : r.st + r.len ≤ r.n
    · have hp : r.part = r.len := by unfold MemRing.part; omega
      simp only [h1, if_true]
      rw [append_first m r s r.len hp.symm]
      funext a
      unfold mem₂
      rw [if_neg (by omega)]
    · have hp : r.part = r.n - r.st := by unfold MemRing.part; omega
      simp only [h1, if_false]
      rw [append_first m r s _ hp.symm]
      funext a
      simp only [appendMem, readMem_length, Nat.zero_add, Nat.add_zero]
      by_cases h2 : r.n - r.st ≤ s.cap
      · simp only [h2, if_true]
        by_cases h3 : r.n - r.st + (r.st + r.len - r.n) ≤ s.cap
        · simp only [h3, if_true]
          rw [write_read]
          unfold mem₂
          rw [hp]
          by_cases h4 : s.off + (r.n - r.st) ≤ a ∧ a < s.off + (r.n - r.st) + (r.st + r.len - r.n)
          · rw [if_pos h4, if_pos (by omega)]
          · rw [if_neg h4, if_neg (by omega)]
        · simp only [h3, if_false]
          unfold mem₂
          rw [if_neg (by omega)]
      · simp only [h2, if_false]
        unfold mem₂
        rw [if_neg (by omega)]

/-- The ring has the same contents in two memories if the live cells are the same. -/
theorem contents_iff (m m' : Nat → T) (r : MemRing) (hl : r.len ≤ r.n) (hs : r.st < r.n ∨ r.st = 0) :
    contents (r.denote m') = contents (r.denote m) ↔ ∀ a, r.Live a → m' a = m a := by
  have hlen : ∀ m : Nat → T, ∀ i, i < r.len → (contents (r.denote m))[i]? = some (m (r.off + wrapIdx r.n (r.st + i))) := by
    intro m i hi
    rw [read_split m r hl hs]
    by_cases h1 : r.st + r.len ≤ r.n
    · simp only [h1, if_true, readMem_getElem?, hi]
      rw [show wrapIdx r.n (r.st + i) = r.st + i by unfold wrapIdx; split <;> omega]
      congr 2; omega
    · simp only [h1, if_false, List.getElem?_append, readMem_length, readMem_getElem?]
      by_cases h2 : i < r.n - r.st
      · simp only [h2, if_true]
        rw [show wrapIdx r.n (r.st + i) = r.st + i by unfold wrapIdx; split <;> omega]
        congr 2; omega
      · simp only [h2, if_false]
        rw [show wrapIdx r.n (r.st + i) = r.st + i - r.n by unfold wrapIdx; split <;> omega, if_pos (by omega)]
        congr 2; omega
  have hcl : ∀ m : Nat → T, (contents (r.denote m)).length = r.len := by
    intro m
    rw [read_split m r hl hs]
    split <;> simp [readMem_length]; omega
  constructor
  · rintro h a ⟨i, hi, rfl⟩
    have h1 := hlen m' i hi
    rw [h, hlen m i hi] at h1
    exact (Option.some.inj h1).symm
  · intro h
    apply List.ext_getElem?
    intro i
    by_cases hi : i < r.len
    · rw [hlen m i hi, hlen m' i hi, h _ ⟨i, hi, rfl⟩]
    · rw [List.getElem?_eq_none (by rw [hcl]; omega), List.getElem?_eq_none (by rw [hcl]; omega)]

theorem live_iff (r : MemRing) (hl : r.len ≤ r.n) (hs : r.st < r.n ∨ r.st = 0) (a : Nat) :
    r.Live a ↔ (r.off + r.st ≤ a ∧ a < r.off + r.st + r.part) ∨ (r.off ≤ a ∧ a < r.off + (r.len - r.part)) := by
  unfold MemRing.Live MemRing.part wrapIdx
  constructor
  · rintro ⟨i, hi, rfl⟩
    split <;> omega
  · intro h
    by_cases h1 : r.off + r.st ≤ a ∧ a < r.off + r.st + min r.len (r.n - r.st)
    · exact ⟨a - (r.off + r.st), by omega, by rw [if_neg (by omega)]; omega⟩
    · exact ⟨a - r.off + (r.n - r.st), by omega, by rw [if_pos (by omega)]; omega⟩

/-- A memory with one special cell. -/
def spot (x y : T) (c : Nat) (a : Nat) : T := if a = c then y else x

/-! ## The theorems -/

/-- The ring keeps its contents, whatever they are, exactly if each part that is copied into `s` is copied in place
or to cells without elements. -/
theorem C26_keeps_iff {x y : T} (hxy : x ≠ y) (r : MemRing) (s : Win) (hl : r.len ≤ r.n)
    (hs : r.st < r.n ∨ r.st = 0) : KeepsContents T r s ↔
      (s.cap < r.part ∨ Harmless r s.off (r.off + r.st) r.part) ∧
      (s.cap < r.len ∨ Harmless r (s.off + r.part) r.off (r.len - r.part)) := by
  have hple : r.part ≤ r.len := by unfold MemRing.part; omega
  have hpn : r.part + r.st ≤ r.n ∨ r.part = 0 := by unfold MemRing.part; omega
  have hq : r.len - r.part ≤ r.st := by unfold MemRing.part; omega
  unfold KeepsContents
  simp only [toSliceMem_mem _ r s hl hs, contents_iff _ _ r hl hs]
  constructor
  · intro h
    have h1 : s.cap < r.part ∨ Harmless r s.off (r.off + r.st) r.part := by
      rcases Nat.lt_or_ge s.cap r.part with hc | hc
      · exact .inl hc
      · refine .inr ?_
        rcases Nat.decEq s.off (r.off + r.st) with hne | he
        · refine .inr fun i hi hlive => ?_
          have := h (spot x y (s.off + i)) _ hlive
          unfold mem₂ at this
          rw [if_neg (by omega)] at this
          unfold mem₁ at this
          rw [if_pos (by omega)] at this
          unfold spot at this
          rw [if_neg (by omega), if_pos rfl] at this
          exact hxy this
        · exact .inl he
    refine ⟨h1, ?_⟩
    rcases Nat.lt_or_ge s.cap r.len with hc | hc
    · exact .inl hc
    · refine .inr ?_
      rcases Nat.decEq (s.off + r.part) r.off with hne | he
      · refine .inr fun i hi hlive => ?_
        have hsrc : r.Live (r.off + i) := (live_iff r hl hs _).2 (.inr ⟨by omega, by omega⟩)
        have hkeep : ∀ m : Nat → T, mem₁ m r s (r.off + i) = m (r.off + i) := by
          intro m
          unfold mem₁
          split
          · rename_i hin
            rcases h1 with h1 | h1 | h1
            · omega
            · omega
            · exact (h1 (r.off + i - s.off) (by omega) (by rwa [show s.off + (r.off + i - s.off) = r.off + i by omega])).elim
          · rfl
        have := h (spot x y (s.off + r.part + i)) _ hlive
        unfold mem₂ at this
        rw [if_pos (by omega), show r.off + (s.off + r.part + i - (s.off + r.part)) = r.off + i by omega, hkeep] at this
        unfold spot at this
        rw [if_neg (by omega), if_pos rfl] at this
        exact hxy this
      · exact .inl he
  · rintro ⟨h1, h2⟩ m a hlive
    have k1 : ∀ a, r.Live a → mem₁ m r s a = m a := by
      intro a hlive
      unfold mem₁
      split
      · rename_i hin
        rcases h1 with h1 | h1 | h1
        · omega
        · rw [h1, show r.off + r.st + (a - (r.off + r.st)) = a by omega]
        · exact (h1 (a - s.off) (by omega) (by rwa [show s.off + (a - s.off) = a by omega])).elim
      · rfl
    unfold mem₂
    split
    · rename_i hin
      rcases h2 with h2 | h2 | h2
      · omega
      · rw [h2, show r.off + (a - r.off) = a by omega]
        exact k1 a hlive
      · exact (h2 (a - (s.off + r.part)) (by omega)
          (by rwa [show s.off + r.part + (a - (s.off + r.part)) = a by omega])).elim
    · exact k1 a hlive

/-- What is returned in any memory. -/
theorem toSliceMem_val (m : Nat → T) (r : MemRing) (s : Win) (hl : r.len ≤ r.n) (hs : r.st < r.n ∨ r.st = 0) :
    ((toSliceMem m r s).2.map (Built.val (toSliceMem m r s).1)).getD [] =
      readMem m (r.off + r.st) r.part ++ readMem (mem₁ m r s) r.off (r.len - r.part) := by
  by_cases h0 : r.len = 0
  · have hp : r.part = 0 := by unfold MemRing.part; omega
    simp [toSliceMem, h0, hp, readMem]
  have hwin : ∀ w, (Built.inMem { s with len := 0 } : Built T) = .inMem w →
      s.off = w.off ∧ s.off + s.cap = w.off + w.cap := by
    intro w hw; cases hw; exact ⟨rfl, rfl⟩
  have hv0 : Built.val m (.inMem { s with len := 0 }) = [] := by simp [Built.val, readMem]
  by_cases h1 : r.st + r.len ≤ r.n
  · have hp : r.part = r.len := by unfold MemRing.part; omega
    simp only [toSliceMem, h0, if_false, h1, if_true, hp, Nat.sub_self]
    obtain ⟨a1, -, -⟩ := appendMem_spec m (.inMem { s with len := 0 })
      (readMem m (r.off + r.st) r.len) s.off (s.off + s.cap) hwin
    simp only [Option.map_some, Option.getD_some]
    rw [a1, hv0]
    simp [readMem]
  · have hp : r.part = r.n - r.st := by unfold MemRing.part; omega
    have hk : r.len - r.part = r.st + r.len - r.n := by rw [hp]; omega
    simp only [toSliceMem, h0, if_false, h1]
    obtain ⟨a1, -, a3⟩ := appendMem_spec m (.inMem { s with len := 0 })
      (readMem m (r.off + r.st) (r.n - r.st)) s.off (s.off + s.cap) hwin
    rw [hk, hp, ← append_first m r s (r.n - r.st) hp.symm]
    generalize appendMem m (.inMem { s with len := 0 })
      (readMem m (r.off + r.st) (r.n - r.st)) = p1 at *
    obtain ⟨b1, -, -⟩ := appendMem_spec p1.1 p1.2
      (readMem p1.1 r.off (r.st + r.len - r.n)) s.off (s.off + s.cap) a3
    simp only [Option.map_some, Option.getD_some]
    rw [b1, a1, hv0, List.nil_append]

/-- The contents are returned, whatever they are, exactly if the first part was not copied over the second one. -/
theorem C26_returns_iff {x y : T} (hxy : x ≠ y) (r : MemRing) (s : Win) (hl : r.len ≤ r.n)
    (hs : r.st < r.n ∨ r.st = 0) : ReturnsContents T r s ↔
      s.cap < r.part ∨ ∀ i j, i < r.part → j < r.len - r.part → s.off + i ≠ r.off + j := by
  have hq : r.len - r.part ≤ r.st := by unfold MemRing.part; omega
  have hsplit : ∀ m : Nat → T, contents (r.denote m) =
      readMem m (r.off + r.st) r.part ++ readMem m r.off (r.len - r.part) := by
    intro m
    rw [read_split m r hl hs]
    split
    · have hp : r.part = r.len := by unfold MemRing.part; omega
      rw [hp, Nat.sub_self]
      simp [readMem]
    · have hp : r.part = r.n - r.st := by unfold MemRing.part; omega
      rw [hp, show r.len - (r.n - r.st) = r.st + r.len - r.n by omega]
  unfold ReturnsContents
  simp only [toSliceMem_val _ r s hl hs, hsplit]
  constructor
  · intro h
    rcases Nat.lt_or_ge s.cap r.part with hc | hc
    · exact .inl hc
    · refine .inr fun i j hi hj he => ?_
      have := List.append_cancel_left (h (spot x y (r.off + j)))
      have := congrArg (fun l => l[j]?) this
      simp only [readMem_getElem?, if_pos hj, Option.some.injEq] at this
      unfold mem₁ at this
      rw [if_pos (by omega)] at this
      unfold spot at this
      rw [if_neg (by omega), if_pos rfl] at this
      exact hxy this
  · intro h m
    congr 1
    refine readMem_congr fun a h1 h2 => ?_
    unfold mem₁
    split
    · rename_i hin
      rcases h with h | h
      · omega
      · exact (h (a - s.off) (a - r.off) (by omega) (by omega) (by omega)).elim
    · rfl

/-- **C26**, exactly: with the window `s`, `ToSlice` returns the contents and leaves the ring as it was, whatever it
holds, if and only if each part that is copied into `s` is copied in place or to cells without elements. -/
theorem C26_exact {x y : T} (hxy : x ≠ y) (r : MemRing) (s : Win) (hl : r.len ≤ r.n)
    (hs : r.st < r.n ∨ r.st = 0) : (ReturnsContents T r s ∧ KeepsContents T r s) ↔
      (s.cap < r.part ∨ Harmless r s.off (r.off + r.st) r.part) ∧
      (s.cap < r.len ∨ Harmless r (s.off + r.part) r.off (r.len - r.part)) := by
  have hq : r.len - r.part ≤ r.st := by unfold MemRing.part; omega
  rw [C26_keeps_iff hxy r s hl hs, C26_returns_iff hxy r s hl hs]
  refine ⟨fun h => h.2, fun h => ⟨?_, h⟩⟩
  rcases h.1 with h1 | h1 | h1
  · exact .inl h1
  · exact .inr fun i j hi hj he => by omega
  · refine .inr fun i j hi hj he => h1 i hi ?_
    rw [he]
    exact (live_iff r hl hs _).2 (.inr ⟨by omega, by omega⟩)

/-! ## Examples -/

/-- A ring of six cells that wraps around, and a buffer that ends where the ring begins after the first part: fine. -/
example : (4 ≤ 6 ∧ Harmless ⟨10, 6, 4, 4⟩ 8 14 2) ∧ Harmless ⟨10, 6, 4, 4⟩ 10 10 2 :=
  ⟨⟨by decide, .inr fun i hi h => by
    have := (live_iff ⟨10, 6, 4, 4⟩ (by decide) (by decide) _).1 h
    simp [MemRing.part] at this
    omega⟩, .inl rfl⟩
/-- The array the ring was built from, when the ring has wrapped: not. -/
example : ¬ Harmless ⟨0, 3, 1, 3⟩ 0 1 2 := by
  rintro (h | h)
  · cases h
  · exact h 0 (by decide) ⟨2, by decide, by decide⟩

end Verif.Ring
