import Verif.Stream.SourceProps

/-!
# C82, C83: what sources yield, and what `SkipNext` reports

stream/stream.go:22-24: "SkipNext skips next `n` items. Returns number of skipped items, or returns -1 if the
underlying stream evaluates lazily."
-/

namespace Verif.Stream

variable {T E : Type} {S : Source T E}

/-- `SkipNext(n)` reports the number of elements that `n` calls of `Next` would have given. -/
def SkipCounts (S : Source T E) (n : Nat) (q : S.σ) : Prop :=
  ∃ q' vs, reads S n q = some (.ok vs) ∧ S.skip n q = .ok ((vs.length : Int), q')

theorem seqOf_take (k : Nat) : ∀ xs : List T, (seqOf xs).take k = xs.take k := by
  induction k with
  | zero => intro xs; rfl
  | succ k ih =>
    intro xs
    cases xs with
    | nil => rfl
    | cons x xs =>
      show x :: ((seqOf (x :: xs)).drop 1).take k = _
      rw [seqOf_drop, ih]
      rfl

/-! ## C83: the elements of a source -/

/-- C83 for `Of` and `OfSlice`: at index `i`, the elements of the slice from `i` on, in order. -/
theorem C83_slice (E : Type) (a : List T) (ha : a.length < 9223372036854775808) {i : Nat}
    (hi : i ≤ a.length) (k : Nat) :
    reads (sliceSource E a) k (i : Int) = some (.ok ((a.drop i).take k)) := by
  rw [reads_behaves k (slice_behaves E a i 0 hi (by omega)), seqOf_take]

/-- The first `k` values of a generator: one call after the other. -/
def genList {γ : Type} (g : γ → T × γ) : Nat → γ → List T
  | 0, _ => []
  | k + 1, s => (g s).1 :: genList g k (g s).2

/-- C83 for `Generate`: the results of successive calls. -/
theorem C83_generator (E : Type) {γ : Type} (g : γ → T × γ) (k : Nat) (s : γ) :
    reads (generator E g) k s = some (.ok (genList g k s)) := by
  induction k generalizing s with
  | zero => rfl
  | succ k ih =>
    refine (reads_succ (generator E g) k s).trans ?_
    have hn : (generator E g).next s = some (.ok ⟨some (g s).1, (g s).2, []⟩) := rfl
    rw [hn]
    simp only [ih]
    rfl

/-- The results of at most `k` calls of a bounded generator, up to the first `ok = false`. -/
def boundedList {γ : Type} (g : γ → Option T × γ) : Nat → γ → List T
  | 0, _ => []
  | k + 1, s =>
    match (g s).1 with
    | none => []
    | some x => x :: boundedList g k (g s).2

/-- C83 for `BoundedGenerate`, whatever the generator does after its end: the results of successive calls up
to the first `ok = false`. -/
theorem C83_bounded (E : Type) {γ : Type} (g : γ → Option T × γ) (k : Nat) (s : γ) :
    reads (boundedGenerator E g) k s = some (.ok (boundedList g k s)) := by
  induction k generalizing s with
  | zero => rfl
  | succ k ih =>
    have hn : (boundedGenerator E g).next s = some (.ok ⟨(g s).1, (g s).2, []⟩) := rfl
    refine (reads_succ (boundedGenerator E g) k s).trans ?_
    rw [hn]
    unfold boundedList
    cases h : (g s).1 with
    | none => rfl
    | some x => simp only [ih]

/-- C83 for ranges of random-access iterators: the elements between the two positions, in order. -/
theorem C83_rand (E : Type) {M It : Type} [Iter.RandIter M T It] (v : Iter.View M T It) {m : M}
    (hm : v.ok m) {i e : Nat} (hie : i ≤ e) (he : e ≤ v.n) (k : Nat) :
    reads (randSource E m (v.pt e)) k (v.pt i) = some (.ok ((((v.elems m).take e).drop i).take k)) := by
  rw [reads_behaves k (rand_behaves E v hm hie he 0), seqOf_take]

/-- C83 for ranges of other iterators. -/
theorem C83_fwd (E : Type) {M It : Type} [Iter.Iter M T It] {m : M} {xs : List T} {pt : Nat → It}
    (hf : Forward m xs pt) {i : Nat} (hi : i ≤ xs.length) (k : Nat) :
    reads (fwdSource E m (pt xs.length)) k (pt i) = some (.ok ((xs.drop i).take k)) := by
  rw [reads_behaves k (fwd_behaves E hf hi 0), seqOf_take]

/-- A bounded generator of `0 … 4`, read seven times. -/
example : reads (boundedGenerator Unit fun n : Nat => if n < 5 then (some n, n + 1) else (none, n)) 7
    (0 : Nat) = some (.ok [0, 1, 2, 3, 4]) := by
  rw [C83_bounded]; rfl

/-! ## C82: the number reported by `SkipNext` -/

/-- C82 for slices, exactly when it holds: as long as `i + n` does not overflow an `int` (as for C48). -/
theorem C82_slice_partial (E : Type) (a : List T) (ha : a.length < 9223372036854775808) (i n : Nat)
    (hi : i ≤ a.length) (hn : n < 9223372036854775808) :
    SkipCounts (sliceSource E a) n (i : Int) ↔ i + n < 9223372036854775808 := by
  have hr := C83_slice E a ha hi n
  constructor
  · rintro ⟨q', vs, h1, h2⟩
    refine Classical.byContradiction fun hge => ?_
    rw [h1] at hr
    cases hr
    have hw : wrap64 ((i : Int) + n) = i + n - 18446744073709551616 := by unfold wrap64; omega
    simp only [sliceSource] at h2
    rw [if_neg (by omega), hw, if_neg (by omega)] at h2
    injection h2 with h2
    have h3 := (Prod.mk.injEq _ _ _ _ ▸ h2).1
    simp only [List.length_take, List.length_drop] at h3
    omega
  · intro hlt
    have hl : (((a.drop i).take n).length : Int) = min (n : Int) (a.length - i) := by
      simp only [List.length_take, List.length_drop]; omega
    refine ⟨(if (i : Int) + n ≥ a.length then (a.length : Int) else (i : Int) + n : Int), _, hr, ?_⟩
    rw [hl]
    · simp only [sliceSource]
      rw [if_neg (by omega), wrap64_id (x := (i : Int) + n) (by unfold isInt64; omega)]
      by_cases hge : (i : Int) + n ≥ a.length
      · rw [if_pos hge, wrap64_id (by unfold isInt64; omega), Int.min_eq_right (by omega)]
        rw [if_pos hge]
      · rw [if_neg hge, Int.min_eq_left (by omega)]
        rw [if_neg hge]

/-- C82 fails for slices: `SkipNext(MaxInt64)` on a slice of two elements of which one is left. -/
theorem C82_slice_false :
    ¬ SkipCounts (sliceSource Unit [10, 20]) 9223372036854775807 ((1 : Nat) : Int) := by
  rw [C82_slice_partial Unit [10, 20] (by decide) 1 9223372036854775807 (by decide) (by decide)]
  omega

example : SkipCounts (sliceSource Unit [10, 20, 30]) 5 ((1 : Nat) : Int) :=
  (C82_slice_partial Unit [10, 20, 30] (by decide) 1 5 (by decide) (by decide)).2 (by decide)

theorem length_genList {γ : Type} (g : γ → T × γ) (k : Nat) (s : γ) : (genList g k s).length = k := by
  induction k generalizing s with
  | zero => rfl
  | succ k ih => simp [genList, ih]

/-- C82 for generators. -/
theorem C82_generator (E : Type) {γ : Type} (g : γ → T × γ) (q : γ) (n : Nat) :
    SkipCounts (generator E g) n q :=
  ⟨callN g n q, _, C83_generator E g n q, by rw [length_genList]; rfl⟩

theorem callUntil_count {γ : Type} (g : γ → Option T × γ) (n : Nat) : ∀ (i : Int) (s : γ),
    (callUntil g n i s).1 = i + (boundedList g n s).length := by
  induction n with
  | zero => intro i s; simp [callUntil, boundedList]
  | succ n ih =>
    intro i s
    unfold callUntil boundedList
    cases h : g s with
    | mk v s' =>
      cases v with
      | none => simp
      | some v =>
        dsimp only
        rw [ih]
        simp only [List.length_cons]
        omega

/-- C82 for bounded generators, whatever they do after their end. -/
theorem C82_bounded (E : Type) {γ : Type} (g : γ → Option T × γ) (q : γ) (n : Nat) :
    SkipCounts (boundedGenerator E g) n q := by
  refine ⟨(callUntil g n 0 q).2, _, C83_bounded E g n q, ?_⟩
  simp only [boundedGenerator]
  by_cases h0 : (n : Int) ≤ 0
  · have : n = 0 := by omega
    subst this
    rfl
  · rw [if_neg h0]
    have := callUntil_count g n 0 q
    rw [Int.toNat_natCast]
    exact congrArg Except.ok (Prod.ext (by rw [this]; omega) rfl)

/-- C82 for ranges of random-access iterators. -/
theorem C82_rand (E : Type) {M It : Type} [Iter.RandIter M T It] (v : Iter.View M T It) {m : M}
    (hm : v.ok m) {i e : Nat} (hie : i ≤ e) (he : e ≤ v.n) (n : Nat) :
    SkipCounts (randSource E m (v.pt e)) n (v.pt i) := by
  have hlen := v.len m hm
  have hN := v.hn
  refine ⟨v.pt (i + min n (e - i)), _, C83_rand E v hm hie he n, ?_⟩
  simp only [randSource]
  rw [v.pos_pt i e (by omega) he, wrap64_id (by unfold isInt64; omega),
    show min (n : Int) ((e : Int) - i) = ((i + min n (e - i) : Nat) : Int) - i by omega,
    v.add_pt i (i + min n (e - i)) (by omega) (by omega)]
  simp only [List.length_take, List.length_drop]
  exact congrArg Except.ok (Prod.ext (by dsimp only; omega) rfl)

theorem fwdSkip_count {M It : Type} [Iter.Iter M T It] {m : M} {xs : List T} {pt : Nat → It}
    (hf : Forward m xs pt) (n : Nat) : ∀ (c : Int) (i : Nat), i ≤ xs.length →
    ∃ q', fwdSkip m (pt xs.length) n c (pt i) = .ok (c + (min n (xs.length - i) : Nat), q') := by
  induction n with
  | zero => intro c i hi; exact ⟨pt i, by simp [fwdSkip]⟩
  | succ n ih =>
    intro c i hi
    unfold fwdSkip
    rcases Nat.lt_or_ge i xs.length with h | h
    · rw [fwdNext_some hf (List.getElem?_eq_getElem h)]
      obtain ⟨q', hq⟩ := ih (c + 1) (i + 1) h
      exact ⟨q', by dsimp only; rw [hq]; exact congrArg Except.ok (Prod.ext (by dsimp only; omega) rfl)⟩
    · have : i = xs.length := by omega
      subst this
      rw [fwdNext_none hf]
      exact ⟨pt xs.length, by simp⟩

/-- C82 for ranges of other iterators. -/
theorem C82_fwd (E : Type) {M It : Type} [Iter.Iter M T It] {m : M} {xs : List T} {pt : Nat → It}
    (hf : Forward m xs pt) {i : Nat} (hi : i ≤ xs.length) (n : Nat) :
    SkipCounts (fwdSource E m (pt xs.length)) n (pt i) := by
  obtain ⟨q', hq⟩ := fwdSkip_count hf n 0 i hi
  refine ⟨q', _, C83_fwd E hf hi n, ?_⟩
  simp only [fwdSource, Int.toNat_natCast, hq, List.length_take, List.length_drop]
  exact congrArg Except.ok (Prod.ext (by dsimp only; omega) rfl)

/-- C82 for integer ranges and sequences: always `-1`, and never a panic. -/
theorem C82_range (E : Type) {w : Nat} (signed : Bool) (last step : BitVec w) (inf : Bool) (n : Int)
    (q : BitVec w) : ∃ q', (intSource E signed last step inf).skip n q = .ok (-1, q') := ⟨_, rfl⟩

/-- C82 for type-mapped streams: if `SkipNext` returns at all, it returns `-1`. -/
theorem C82_mapped {R : Type} (f : T → R) (s s' : Stream S) (n r : Int)
    (h : (tts S f).skip n s = .ok (r, s')) : r = -1 := by
  simp only [tts] at h
  split at h
  · cases h
  · cases h; rfl

example : (tts (sliceSource Unit [1, 2, 3]) (fun n : Nat => n * n)).skip 2 (ofSlice Unit [1, 2, 3]) =
    .ok (-1, { ofSlice Unit [1, 2, 3] with src := some (2 : Int) }) := by rfl

end Verif.Stream
