import Verif.Stream.SkipCount

/-!
# C42 for slices, exactly

`Skip` before any `Filter` or `Limit` moves the index of `sliceSource` (stream/stream.go:123-137, stream/source.go:25-37), and the
sum `s.i + n` is computed in `int`. What `OfSlice(xs)` followed by any chain gives is said here for every chain,
also when sums overflow: the index may become negative, then the first read panics, and further `Skip`s may bring
it back, then elements that were skipped come again.
-/

namespace Verif.Stream

variable {T E : Type}

/-! ## Specification -/

/-- The calls of `Skip` that are made before any `Filter` or `Limit`. -/
def early : List (Call T E) → List Int
  | [] => []
  | .map _ :: cs => early cs
  | .peek _ :: cs => early cs
  | .skip n :: cs => n :: early cs
  | .filter _ :: _ => []
  | .limit _ :: _ => []

/-- The other calls, in their order. -/
def others : List (Call T E) → List (Call T E)
  | [] => []
  | .map f :: cs => .map f :: others cs
  | .peek c :: cs => .peek c :: others cs
  | .skip _ :: cs => others cs
  | .filter p :: cs => .filter p :: cs
  | .limit n :: cs => .limit n :: cs

/-- Where skipping `n` elements of a slice of length `len` from the place `i` leads, in 64-bit arithmetic. -/
def moved (len : Nat) (i n : Int) : Int :=
  if (len : Int) ≤ wrap64 (i + n) then len else wrap64 (i + n)

/-- Where all the calls in `early` lead. -/
def place (len : Nat) (i : Int) (ns : List Int) : Int := ns.foldl (moved len) i

example : early (E := Unit) [.map (· + 1), .skip 2, .peek (fun _ => []), .skip 3, .limit 7, .skip 4]
    = [2, 3] := rfl

/-- Dropping the early `Skip`s first and doing the other calls then is the same on lists. -/
theorem listChain_others (cs : List (Call T E)) (xs : List T) :
    listChain cs xs = listChain (others cs) (xs.drop ((early cs).map Int.toNat).sum) := by
  induction cs generalizing xs with
  | nil => simp [early, others]
  | cons c cs ih =>
    cases c with
    | map f =>
      simp only [listChain, others, early, Call.onList]
      rw [ih, List.map_drop]
    | peek f => simp only [listChain, others, early, Call.onList]; rw [ih]
    | skip n =>
      simp only [listChain, others, early, Call.onList, List.map_cons, List.sum_cons]
      rw [ih, List.drop_drop]
    | filter p => simp [others, early]
    | limit p => simp [others, early]

/-! ## The chain -/

/-- The operations that a call stores. -/
def storeOps : List (Call T E) → List (Op T E)
  | [] => []
  | .map f :: cs => .map f :: storeOps cs
  | .peek c :: cs => .peek c :: storeOps cs
  | .filter p :: cs => .filter p :: storeOps cs
  | .limit n :: cs => .limit n.toNat :: storeOps cs
  | .skip n :: cs => if n = 0 then storeOps cs else .skip n.toNat :: storeOps cs

theorem sem_storeOps (cs : List (Call T E)) (xs : List T) : sem (storeOps cs) xs = listChain cs xs := by
  induction cs generalizing xs with
  | nil => rfl
  | cons c cs ih =>
    cases c with
    | skip n =>
      simp only [storeOps, listChain, Call.onList]
      split
      · rename_i h; subst h; simpa using ih xs
      · simp only [sem, Op.onList]; exact ih _
    | _ => simp only [storeOps, listChain, Call.onList, sem, Op.onList]; exact ih _

/-- After a `Filter` or `Limit` every call is only stored. -/
theorem chain_stored {S : Source T E} (cs : List (Call T E)) (hl : ∀ c ∈ cs, c.legal) :
    ∀ (q : Option S.σ) (ops : List (Op T E)),
      Stream.chain (S := S) ⟨q, ops, true⟩ cs = .ok ⟨q, ops ++ storeOps cs, true⟩ := by
  induction cs with
  | nil => intro q ops; simp [Stream.chain, storeOps]
  | cons c cs ih =>
    intro q ops
    have ih := ih (fun c hc => hl c (by simp [hc]))
    have hc := hl c (by simp)
    cases c with
    | map f => simp [Stream.chain, Stream.call, Stream.map, storeOps, ih]
    | peek f => simp [Stream.chain, Stream.call, Stream.peek, storeOps, ih]
    | filter f => simp [Stream.chain, Stream.call, Stream.filter, storeOps, ih]
    | limit n =>
      have hc : 0 ≤ n := hc
      have : ¬ n < 0 := by omega
      simp [Stream.chain, Stream.call, Stream.limit, storeOps, ih, this]
    | skip n =>
      have hc : 0 ≤ n := hc
      have : ¬ n < 0 := by omega
      by_cases h0 : n = 0
      · subst h0; simp [Stream.chain, Stream.call, Stream.skip, storeOps, ih]
      · simp [Stream.chain, Stream.call, Stream.skip, storeOps, ih, this, h0]

/-- The index of a slice source stays an `int` not beyond the end. -/
theorem moved_range {len : Nat} (i n : Int) :
    -9223372036854775808 ≤ moved len i n ∧ moved len i n ≤ len := by
  unfold moved
  have := wrap64_isInt64 (i + n)
  unfold isInt64 at this
  split <;> omega

theorem moved_zero {len : Nat} {i : Int} (h1 : -9223372036854775808 ≤ i) (h2 : i ≤ len)
    (hlen : len < 9223372036854775808) : moved len i 0 = i := by
  unfold moved
  rw [wrap64_id (by unfold isInt64; omega)]
  split <;> omega

theorem place_range {len : Nat} (ns : List Int) : ∀ {i : Int}, -9223372036854775808 ≤ i → i ≤ len →
    -9223372036854775808 ≤ place len i ns ∧ place len i ns ≤ len := by
  induction ns with
  | nil => intro i h1 h2; exact ⟨h1, h2⟩
  | cons n ns ih =>
    intro i _ _
    obtain ⟨h1, h2⟩ := moved_range (len := len) i n
    exact ih h1 h2

theorem chain_slice (xs : List T) (hlen : xs.length < 9223372036854775808) (cs : List (Call T E))
    (hl : ∀ c ∈ cs, c.legal) : ∀ (i : Int) (ops : List (Op T E)),
      -9223372036854775808 ≤ i → i ≤ xs.length → ∃ b, (b = false → plain (storeOps (others cs))) ∧
      Stream.chain (S := sliceSource E xs) ⟨some i, ops, false⟩ cs =
        .ok ⟨some (place xs.length i (early cs)), ops ++ storeOps (others cs), b⟩ := by
  induction cs with
  | nil => intro i ops _ _; exact ⟨false, fun _ => trivial, by simp [Stream.chain, storeOps, others, early, place]⟩
  | cons c cs ih =>
    intro i ops h1 h2
    have ih := ih (fun c hc => hl c (by simp [hc]))
    have hc := hl c (by simp)
    cases c with
    | map f =>
      obtain ⟨b, hpl, hb⟩ := ih i (ops ++ [.map f]) h1 h2
      exact ⟨b, hpl, by simp [Stream.chain, Stream.call, Stream.map, storeOps, early, others, hb]⟩
    | peek f =>
      obtain ⟨b, hpl, hb⟩ := ih i (ops ++ [.peek f]) h1 h2
      exact ⟨b, hpl, by simp [Stream.chain, Stream.call, Stream.peek, storeOps, early, others, hb]⟩
    | filter p =>
      have := chain_stored (S := sliceSource E xs) cs (fun c hc => hl c (by simp [hc])) (some i)
        (ops ++ [.filter p])
      exact ⟨true, (by cases ·), by simp [Stream.chain, Stream.call, Stream.filter, storeOps, early, others, this, place]⟩
    | limit n =>
      have hc : 0 ≤ n := hc
      have hn : ¬ n < 0 := by omega
      have := chain_stored (S := sliceSource E xs) cs (fun c hc => hl c (by simp [hc])) (some i)
        (ops ++ [.limit n.toNat])
      exact ⟨true, (by cases ·), by simp [Stream.chain, Stream.call, Stream.limit, storeOps, early, others, this, place, hn]⟩
    | skip n =>
      have hc : 0 ≤ n := hc
      have hn : ¬ n < 0 := by omega
      by_cases h0 : n = 0
      · subst h0
        obtain ⟨b, hpl, hb⟩ := ih i ops h1 h2
        refine ⟨b, hpl, ?_⟩
        simp only [Stream.chain, Stream.call, Stream.skip, early, others, place, List.foldl_cons]
        rw [moved_zero h1 h2 hlen]
        simpa [place] using hb
      · obtain ⟨h3, h4⟩ := moved_range (len := xs.length) i n
        obtain ⟨b, hpl, hb⟩ := ih (moved xs.length i n) ops h3 h4
        refine ⟨b, hpl, ?_⟩
        have hs : ∃ r, (sliceSource E xs).skip n i = .ok (r, moved xs.length i n) := by
          simp only [sliceSource, moved]
          rw [if_neg hn]
          by_cases hge : wrap64 (i + n) ≥ xs.length
          · exact ⟨_, by rw [if_pos hge, if_pos hge]⟩
          · exact ⟨_, by rw [if_neg hge, if_neg hge]⟩
        obtain ⟨r, hs⟩ := hs
        have hcall : Stream.skip (S := sliceSource E xs) ⟨some i, ops, false⟩ n
            = .ok ⟨some (moved xs.length i n), ops, false⟩ := by
          unfold Stream.skip
          rw [if_neg hn, if_neg h0]
          simp [hs]
        simp only [Stream.chain, Stream.call, hcall, early, others, place, List.foldl_cons]
        exact hb

/-! ## The theorems -/

/-- C42 for slices, for every chain with legal arguments: the chain itself never panics; if the early `Skip`s
lead to the place `p ≥ 0`, `Slice` returns what the other calls make of the elements from `p` on, and if they
lead below 0, it panics. -/
theorem C42_slice_exact (xs : List T) (hlen : xs.length < 9223372036854775808) (cs : List (Call T E))
    (hl : ∀ c ∈ cs, c.legal) :
    ∃ s', (ofSlice E xs).chain cs = .ok s' ∧
      if 0 ≤ place xs.length 0 (early cs) then
        ∃ s'' l, s'.slice = some (.ok ⟨listChain (others cs)
          (xs.drop (place xs.length 0 (early cs)).toNat), s'', l⟩)
      else s'.slice = some (.error "index out of range") := by
  obtain ⟨b, hpl, hb⟩ := chain_slice xs hlen cs hl 0 [] (by decide) (by omega)
  obtain ⟨h1, h2⟩ := place_range (len := xs.length) (early cs) (i := 0) (by decide) (by omega)
  refine ⟨_, hb, ?_⟩
  split
  · rename_i hp
    obtain ⟨k, hk⟩ := Int.eq_ofNat_of_zero_le hp
    rw [hk] at h2 ⊢
    have hbh := slice_behaves E xs k 0 (by omega) (by omega)
    refine slice_lists (Yields.lists (b := 0) ⟨⟨(k : Int), xs.drop k, rfl, hbh, ?_⟩, fun h => ?_⟩)
    · simpa using sem_storeOps (others cs) (xs.drop k)
    · simpa using hpl h
  · rename_i hp
    have hn : (sliceSource E xs).next (place xs.length 0 (early cs)) = some (.error "index out of range") := by
      simp only [sliceSource]
      rw [if_neg (by omega)]
      simp [goGet, hp]
    unfold Stream.slice
    rw [Stream.reduce]
    simp [Stream.next, loop_error hn]

/-- `Of(10, 20, 30).Skip(1).Map(+1).Skip(1).Limit(5)`. -/
example : place 3 0 (early (E := Unit) [.skip 1, .map (· + 1), .skip 1, .limit 5]) = 2 := by decide

/-- So the list pipeline comes out exactly if the place is not negative and the other calls make the same of the
elements from there on. -/
theorem C42_slice_iff (xs : List T) (hlen : xs.length < 9223372036854775808) (cs : List (Call T E))
    (hl : ∀ c ∈ cs, c.legal) :
    (∃ s' s'' l, (ofSlice E xs).chain cs = .ok s' ∧ s'.slice = some (.ok ⟨listChain cs xs, s'', l⟩)) ↔
      0 ≤ place xs.length 0 (early cs) ∧
        listChain (others cs) (xs.drop (place xs.length 0 (early cs)).toNat) = listChain cs xs := by
  obtain ⟨s', h1, h2⟩ := C42_slice_exact xs hlen cs hl
  constructor
  · rintro ⟨t, t', l, h3, h4⟩
    rw [h1] at h3
    cases h3
    split at h2
    · rename_i hp
      obtain ⟨s'', l', h2⟩ := h2
      rw [h4] at h2
      simp only [Option.some.injEq, Except.ok.injEq, Fin.mk.injEq] at h2
      exact ⟨hp, h2.1.symm⟩
    · rw [h4] at h2; cases h2
  · rintro ⟨hp, he⟩
    rw [if_pos hp, he] at h2
    obtain ⟨s'', l', h2⟩ := h2
    exact ⟨s', s'', l', h1, h2⟩

theorem others_map_length (cs : List (Call T E)) (hm : ∀ c ∈ cs, c.isPred = false) (xs : List T) :
    (listChain (others cs) xs).length = xs.length := by
  induction cs generalizing xs with
  | nil => rfl
  | cons c cs ih =>
    have ih := ih (fun c hc => hm c (by simp [hc]))
    have hc := hm c (by simp)
    cases c with
    | map f => simp [others, listChain, Call.onList, ih]
    | peek f => simp [others, listChain, Call.onList, ih]
    | skip f => simp [others, ih]
    | filter f => cases hc
    | limit f => cases hc

/-- Chains without `Filter` and `Limit` work exactly if the place is where the sum of all `Skip`s leads. -/
theorem C42_slice_skips (xs : List T) (hlen : xs.length < 9223372036854775808) (cs : List (Call T E))
    (hl : ∀ c ∈ cs, c.legal) (hm : ∀ c ∈ cs, c.isPred = false) :
    (∃ s' s'' l, (ofSlice E xs).chain cs = .ok s' ∧ s'.slice = some (.ok ⟨listChain cs xs, s'', l⟩)) ↔
      place xs.length 0 (early cs) = min xs.length ((early cs).map Int.toNat).sum := by
  rw [C42_slice_iff xs hlen cs hl, listChain_others cs xs]
  obtain ⟨h1, h2⟩ := place_range (len := xs.length) (early cs) (i := 0) (by decide) (by omega)
  constructor
  · rintro ⟨hp, he⟩
    have := congrArg List.length he
    rw [others_map_length cs hm, others_map_length cs hm, List.length_drop, List.length_drop] at this
    omega
  · intro h
    refine ⟨by omega, ?_⟩
    by_cases hle : ((early cs).map Int.toNat).sum ≤ xs.length
    · rw [h]; congr 2; omega
    · rw [List.drop_of_length_le (by omega), List.drop_of_length_le (by omega)]

/-- Without overflow the place is where the sum leads. -/
theorem place_sum {len : Nat} (ns : List Int) (hns : ∀ n ∈ ns, 0 ≤ n ∧ (len : Int) + n < 9223372036854775808) :
    ∀ (i : Nat), i ≤ len → place len i ns = min len (i + (ns.map Int.toNat).sum) := by
  induction ns with
  | nil => intro i hi; simp [place]; omega
  | cons n ns ih =>
    intro i hi
    obtain ⟨h0, h1⟩ := hns n (by simp)
    have ih := ih (fun n hn => hns n (by simp [hn]))
    simp only [place, List.foldl_cons, List.map_cons, List.sum_cons] at ih ⊢
    have hw : wrap64 ((i : Int) + n) = i + n := wrap64_id (by unfold isInt64; omega)
    by_cases hge : (len : Int) ≤ i + n
    · have : moved len i n = ((len : Nat) : Int) := by unfold moved; rw [hw, if_pos hge]
      rw [this, ih _ (Nat.le_refl _)]
      omega
    · have : moved len i n = ((i + n.toNat : Nat) : Int) := by unfold moved; rw [hw, if_neg hge]; omega
      rw [this, ih _ (by omega)]
      omega

/-- It is enough that no single early `Skip` but the first is so large that it overflows from the end of the
slice; their sum and the `Skip`s after a `Filter` or `Limit` may be anything. -/
theorem C42_slice_partial (xs : List T) (hlen : xs.length < 9223372036854775808) (cs : List (Call T E))
    (hl : ∀ c ∈ cs, c.legal) (hi : ∀ n ∈ early cs, n < 9223372036854775808)
    (hn : ∀ n ∈ (early cs).tail, (xs.length : Int) + n < 9223372036854775808) :
    ∃ s' s'' l, (ofSlice E xs).chain cs = .ok s' ∧ s'.slice = some (.ok ⟨listChain cs xs, s'', l⟩) := by
  have hpos : ∀ n ∈ early cs, 0 ≤ n := by
    clear hi hn
    induction cs with
    | nil => simp [early]
    | cons c cs ih =>
      have ih := ih (fun c hc => hl c (by simp [hc]))
      have hc := hl c (by simp)
      cases c <;> simp only [early, List.not_mem_nil, List.mem_cons, forall_eq_or_imp, false_implies,
        implies_true] <;> first | exact ih | exact ⟨hc, ih⟩
  have hp : place xs.length 0 (early cs) = min xs.length ((early cs).map Int.toNat).sum := by
    cases he : early cs with
    | nil => simp [place]
    | cons n ns =>
      rw [he] at hi hn hpos
      have h0 := hpos n (by simp)
      have h1 := hi n (by simp)
      have hns : ∀ m ∈ ns, 0 ≤ m ∧ (xs.length : Int) + m < 9223372036854775808 :=
        fun m hm => ⟨hpos m (by simp [hm]), hn m (by simpa using hm)⟩
      have hw : wrap64 ((0 : Int) + n) = n := by rw [wrap64_id (by unfold isInt64; omega)]; omega
      have hs := place_sum (len := xs.length) ns hns
      simp only [place, List.foldl_cons, List.map_cons, List.sum_cons] at hs ⊢
      by_cases hge : (xs.length : Int) ≤ n
      · have : moved xs.length 0 n = ((xs.length : Nat) : Int) := by unfold moved; rw [hw, if_pos hge]
        rw [this, hs _ (Nat.le_refl _)]
        omega
      · have : moved xs.length 0 n = ((n.toNat : Nat) : Int) := by unfold moved; rw [hw, if_neg hge]; omega
        rw [this, hs _ (by omega)]
  rw [C42_slice_iff xs hlen cs hl]
  refine ⟨by omega, ?_⟩
  rw [listChain_others cs xs]
  by_cases hle : ((early cs).map Int.toNat).sum ≤ xs.length
  · rw [hp]; congr 2; omega
  · rw [List.drop_of_length_le (by omega), List.drop_of_length_le (by omega)]

/-- `Of(10, 20).Skip(MaxInt64).Skip(4).Filter(true).Skip(MaxInt64).Skip(MaxInt64)`. -/
example : ∃ s' s'' l, (ofSlice Unit [10, 20]).chain [.skip 9223372036854775807, .skip 4, .filter (fun _ => true),
      .skip 9223372036854775807, .skip 9223372036854775807] = .ok s' ∧ s'.slice = some (.ok ⟨[], s'', l⟩) :=
  C42_slice_partial [10, 20] (by decide) [.skip 9223372036854775807, .skip 4, .filter (fun _ => true),
      .skip 9223372036854775807, .skip 9223372036854775807]
    (by intro c hc; simp at hc; rcases hc with rfl | rfl | rfl | rfl <;> simp [Call.legal]) (by decide) (by decide)

/-- Skipped elements come again: after `Skip(MaxInt64)` three times on a slice with two elements or more, the last
two elements are there, where the list pipeline has none. -/
theorem C42_comes_back (xs : List T) (hx : 2 ≤ xs.length) (hlen : xs.length < 9223372036854775808) :
    (∃ s' s'' l, (ofSlice E xs).chain [.skip 9223372036854775807, .skip 9223372036854775807,
        .skip 9223372036854775807] = .ok s' ∧ s'.slice = some (.ok ⟨xs.drop (xs.length - 2), s'', l⟩)) ∧
    listChain (E := E) [.skip 9223372036854775807, .skip 9223372036854775807, .skip 9223372036854775807] xs = [] := by
  refine ⟨?_, ?_⟩
  · obtain ⟨s', h1, h2⟩ := C42_slice_exact (E := E) xs hlen
      [.skip 9223372036854775807, .skip 9223372036854775807, .skip 9223372036854775807]
      (by intro c hc; simp at hc; subst hc; simp [Call.legal])
    have hp : place xs.length 0 (early (E := E) (T := T) [.skip 9223372036854775807, .skip 9223372036854775807,
        .skip 9223372036854775807]) = ((xs.length - 2 : Nat) : Int) := by
      have e1 : moved xs.length 0 9223372036854775807 = xs.length := by
        unfold moved wrap64; split <;> omega
      have e2 : moved xs.length xs.length 9223372036854775807 = xs.length - 9223372036854775809 := by
        unfold moved wrap64; split <;> omega
      have e3 : moved xs.length (xs.length - 9223372036854775809) 9223372036854775807
          = ((xs.length - 2 : Nat) : Int) := by
        unfold moved wrap64; split <;> omega
      simp only [place, early, List.foldl_cons, List.foldl_nil, e1, e2, e3]
    rw [hp, if_pos (by omega)] at h2
    obtain ⟨s'', l, h2⟩ := h2
    exact ⟨s', s'', l, h1, h2⟩
  · simp only [listChain, Call.onList]
    rw [List.drop_drop, List.drop_drop, List.drop_of_length_le (by omega)]

end Verif.Stream
