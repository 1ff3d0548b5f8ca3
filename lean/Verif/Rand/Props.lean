import Verif.Rand.Sources

/-!
# C129: what the package-level random functions return
-/

namespace Verif.Rand

variable {S : Source}

/-! ## The specification -/

open Classical in
/-- How many of the numbers below `m` have the property. -/
noncomputable def howMany (m : Nat) (p : Nat → Prop) : Nat := count m fun i => decide (p i)

/-- A method is uniform on `0 … n - 1`: it draws until it has a number of a certain set, which is more than half of
all 63-bit numbers, and returns a function of it, which takes each of the `n` values equally often on the set and no
other value. `val` is the value of a result. -/
def Uniform {α : Type} (S : Source) (d : Draw S α) (val : α → Int) (n : Nat) : Prop :=
  ∃ (A : Nat → Prop) (f : Nat → α),
    (∀ q r q', d q = some (.ok (r, q')) ↔ ∃ w, First S A q w q' ∧ r = f w) ∧
    (∀ w, w < 2 ^ 63 → 0 ≤ val (f w) ∧ val (f w) < n) ∧
    ∃ c, 2 ^ 63 < 2 * (n * c) ∧ ∀ k : Nat, k < n → howMany (2 ^ 63) (fun w => A w ∧ val (f w) = k) = c

theorem howMany_eq {m : Nat} {p : Nat → Prop} {p' : Nat → Bool} (h : ∀ i, i < m → (p i ↔ p' i = true)) : howMany m p = count m p' := by
  refine count_congr fun i hi => ?_
  have := h i hi
  by_cases c : p i
  · simp [c, this.1 c]
  · have : p' i = false := by
      cases e : p' i
      · rfl
      · exact (c (this.2 e)).elim
    simp [c, this]

/-- More than half is left of `m` when the remainder is taken away. -/
theorem half {m n : Nat} (h0 : 0 < n) (h : n ≤ m) : m < 2 * (n * (m / n)) := by
  have h1 := Nat.div_add_mod m n
  have h2 := Nat.mod_lt m h0
  have h3 : 1 ≤ m / n := (Nat.one_le_div_iff h0).2 h
  have h4 : n * 1 ≤ n * (m / n) := Nat.mul_le_mul_left n h3
  generalize n * (m / n) = x at *
  omega

theorem ofNat_toInt {k w : Nat} (h : w < 2 ^ k) : (BitVec.ofNat (k + 1) w).toInt = w := by
  have h2 : (2 : Nat) ^ (k + 1) = 2 * 2 ^ k := by rw [Nat.pow_succ]; omega
  have e : (BitVec.ofNat (k + 1) w).toNat = w := by rw [BitVec.toNat_ofNat]; exact Nat.mod_eq_of_lt (by omega)
  rw [toInt_small (by rw [e]; exact h), e]

/-- Uniform, from the counts. -/
theorem uniform_of {α : Type} {d : Draw S α} {val : α → Int} {n : Nat} {A : Nat → Prop} {f : Nat → α} {g : Nat → Nat}
    (hp : Picks d A f) (hv : ∀ w, w < 2 ^ 63 → val (f w) = g w) (hg : ∀ w, w < 2 ^ 63 → g w < n) (c : Nat) (hc : 2 ^ 63 < 2 * (n * c))
    (hk : ∀ k : Nat, k < n → ∃ p : Nat → Bool, (∀ w, w < 2 ^ 63 → (p w = true ↔ A w ∧ g w = k)) ∧ count (2 ^ 63) p = c) :
    Uniform S d val n := by
  refine ⟨A, f, hp, fun w hw => ?_, c, hc, fun k hkn => ?_⟩
  · rw [hv w hw]
    have := hg w hw
    omega
  · obtain ⟨p, h1, h2⟩ := hk k hkn
    rw [← h2]
    refine howMany_eq fun w hw => ?_
    rw [h1 w hw, hv w hw]
    exact and_congr_right fun _ => by omega

/-! ## The numbers -/

/-- **C129**, `Uint32`, `Int31`, `Int`: uniform on all their values. `Uint64` and `Int63` are those of the source. -/
theorem C129_words (hS : NonNeg S) :
    Uniform S (uint32 S) (fun v => v.toNat) (2 ^ 32) ∧ Uniform S (int31 S) BitVec.toInt (2 ^ 31) ∧
    Uniform S (int S) BitVec.toInt (2 ^ 63) := by
  refine ⟨?_, ?_, ?_⟩
  · refine uniform_of (g := fun w => w / 2 ^ 31) (picks_uint32 hS) (fun w hw => ?_) (fun w hw => by omega) (2 ^ 31) (by omega) fun k hk => ?_
    · rw [BitVec.toNat_ofNat, Nat.mod_eq_of_lt (by omega)]
    · refine ⟨fun w => decide (w / 2 ^ 31 = k), fun w _ => by simp, ?_⟩
      have := count_div (2 ^ 31) (by decide) (fun i => decide (i = k)) (2 ^ 32)
      rw [show (2 ^ 63 : Nat) = 2 ^ 32 * 2 ^ 31 by decide, this]
      have e : count (2 ^ 32) (fun i => decide (i = k)) = 1 := by
        have := count_interval (m := 2 ^ 32) (a := k) (c := 1) (by omega)
        rw [← this]
        exact count_congr fun i _ => decide_eq_decide.2 (by omega)
      rw [e, Nat.one_mul]
  · refine uniform_of (g := fun w => w / 2 ^ 32) (picks_int31 hS) (fun w hw => ofNat_toInt (by omega)) (fun w hw => by omega) (2 ^ 32) (by omega)
      fun k hk => ?_
    · refine ⟨fun w => decide (w / 2 ^ 32 = k), fun w _ => by simp, ?_⟩
      have := count_div (2 ^ 32) (by decide) (fun i => decide (i = k)) (2 ^ 31)
      rw [show (2 ^ 63 : Nat) = 2 ^ 31 * 2 ^ 32 by decide, this]
      have e : count (2 ^ 31) (fun i => decide (i = k)) = 1 := by
        have := count_interval (m := 2 ^ 31) (a := k) (c := 1) (by omega)
        rw [← this]
        exact count_congr fun i _ => decide_eq_decide.2 (by omega)
      rw [e, Nat.one_mul]
  · refine uniform_of (g := fun w => w) (picks_int hS) (fun w hw => ofNat_toInt (by omega)) (fun w hw => hw) 1 (by omega) fun k hk => ?_
    refine ⟨fun w => decide (k ≤ w ∧ w < k + 1), fun w _ => by simp; omega, count_interval (by omega)⟩

/-- `Int63n`'s numbers. -/
theorem count63 {n k : Nat} (hk : k < n) : count (2 ^ 63) (fun w => decide (w < 2 ^ 63 / n * n ∧ w % n = k)) = 2 ^ 63 / n :=
  count_mod_below hk

/-- `Int31n`'s numbers. -/
theorem count31 {n k : Nat} (hk : k < n) :
    count (2 ^ 63) (fun w => decide (w / 2 ^ 32 < 2 ^ 31 / n * n ∧ w / 2 ^ 32 % n = k)) = 2 ^ 31 / n * 2 ^ 32 := by
  rw [show (2 ^ 63 : Nat) = 2 ^ 31 * 2 ^ 32 by decide,
    count_div (2 ^ 32) (by decide) (fun i => decide (i < 2 ^ 31 / n * n ∧ i % n = k)) (2 ^ 31), count_mod_below hk]

instance (n w : Nat) : Decidable (FastAccepts n w) := by unfold FastAccepts; infer_instance

/-- The numbers of the faster method. -/
theorem countFast {n k : Nat} (h0 : 0 < n) (hk : k < n) :
    count (2 ^ 63) (fun w => decide (FastAccepts n w ∧ fastReduce n w = k)) = 2 ^ 32 / n * 2 ^ 31 := by
  rw [show (2 ^ 63 : Nat) = 2 ^ 32 * 2 ^ 31 by decide]
  have := count_div (2 ^ 31) (by decide) (fun u => decide (2 ^ 32 % n ≤ u * n % 2 ^ 32 ∧ u * n / 2 ^ 32 = k)) (2 ^ 32)
  rw [count_mul h0 hk] at this
  refine Eq.trans (count_congr fun w _ => ?_) this
  exact decide_eq_decide.2 Iff.rfl



/-- **C129**, `Int63n`, `Int31n` and `Intn`: uniform below `n` for a positive `n`, otherwise they panic. -/
theorem C129_bounded (hS : NonNeg S) :
    (∀ n : BitVec 64, (0 < n.toInt → Uniform S (int63n S n) BitVec.toInt n.toNat) ∧
      (n.toInt ≤ 0 → ∀ q, int63n S n q = some (.error "invalid argument to Int63n"))) ∧
    (∀ n : BitVec 32, (0 < n.toInt → Uniform S (int31n S n) BitVec.toInt n.toNat) ∧
      (n.toInt ≤ 0 → ∀ q, int31n S n q = some (.error "invalid argument to Int31n"))) ∧
    (∀ n : BitVec 64, (0 < n.toInt → Uniform S (intn S n) BitVec.toInt n.toNat) ∧
      (n.toInt ≤ 0 → ∀ q, intn S n q = some (.error "invalid argument to Intn"))) := by
  have pos : ∀ {k : Nat} {n : BitVec (k + 1)}, 0 < n.toInt → n.sle 0 = false := by
    intro k n h
    have h0 : (0 : BitVec (k + 1)).toInt = 0 := BitVec.toInt_zero
    rw [BitVec.sle, h0]
    exact decide_eq_false (by omega)
  have neg : ∀ {k : Nat} {n : BitVec (k + 1)}, n.toInt ≤ 0 → n.sle 0 = true := by
    intro k n h
    have h0 : (0 : BitVec (k + 1)).toInt = 0 := BitVec.toInt_zero
    rw [BitVec.sle, h0]
    exact decide_eq_true h
  refine ⟨fun n => ⟨fun h => ?_, fun h q => ?_⟩, fun n => ⟨fun h => ?_, fun h q => ?_⟩, fun n => ⟨fun h => ?_, fun h q => ?_⟩⟩
  · obtain ⟨h0, h1⟩ := sle_zero (k := 63) |>.1 (pos h)
    refine uniform_of (g := fun w => w % n.toNat) (picks_int63n hS (pos h)) (fun w hw => ofNat_toInt (k := 63) ?_)
      (fun w _ => Nat.mod_lt _ h0) (2 ^ 63 / n.toNat) (half h0 (by omega)) fun k hk => ⟨_, fun w _ => decide_eq_true_iff, count63 hk⟩
    exact Nat.lt_of_lt_of_le (Nat.mod_lt _ h0) (by omega)
  · unfold int63n; rw [if_pos (neg h)]; rfl
  · obtain ⟨h0, h1⟩ := sle_zero (k := 31) |>.1 (pos h)
    refine uniform_of (g := fun w => w / 2 ^ 32 % n.toNat) (picks_int31n hS (pos h)) (fun w hw => ofNat_toInt (k := 31) ?_)
      (fun w _ => Nat.mod_lt _ h0) (2 ^ 31 / n.toNat * 2 ^ 32) ?_ fun k hk => ⟨_, fun w _ => decide_eq_true_iff, count31 hk⟩
    · exact Nat.lt_of_lt_of_le (Nat.mod_lt _ h0) (by omega)
    · have := half h0 (m := 2 ^ 31) (by omega)
      rw [← Nat.mul_assoc n.toNat]
      generalize n.toNat * (2 ^ 31 / n.toNat) = x at *
      omega
  · unfold int31n; rw [if_pos (neg h)]; rfl
  · obtain ⟨h0, h1⟩ := sle_zero (k := 63) |>.1 (pos h)
    have hval : ∀ w, w < 2 ^ 63 → (BitVec.ofNat 64 (reduce n.toNat w)).toInt = reduce n.toNat w := fun w _ =>
      ofNat_toInt (k := 63) (Nat.lt_of_lt_of_le (reduce_lt h0 w) (by omega))
    by_cases c : n.toNat < 2 ^ 31
    · refine uniform_of (g := reduce n.toNat) (picks_intn hS (pos h)) hval (fun w _ => reduce_lt h0 w) (2 ^ 31 / n.toNat * 2 ^ 32) ?_
        fun k hk => ⟨_, fun w _ => ?_, count31 hk⟩
      · have := half h0 (m := 2 ^ 31) (by omega)
        rw [← Nat.mul_assoc n.toNat]
        generalize n.toNat * (2 ^ 31 / n.toNat) = x at *
        omega
      · rw [decide_eq_true_iff]
        simp only [Accepts, reduce, if_pos c]
    · refine uniform_of (g := reduce n.toNat) (picks_intn hS (pos h)) hval (fun w _ => reduce_lt h0 w) (2 ^ 63 / n.toNat)
        (half h0 (by omega)) fun k hk => ⟨_, fun w _ => ?_, count63 hk⟩
      rw [decide_eq_true_iff]
      simp only [Accepts, reduce, if_neg c]
  · unfold intn; rw [if_pos (neg h)]; rfl

/-- **C129**, the index `Shuffle` takes for `i`: uniform on `0 … i`. -/
theorem C129_index (hS : NonNeg S) {i : Nat} (hi : i + 1 < 2 ^ 63) : Uniform S (shuffleIndex S i) id (i + 1) := by
  by_cases c : 2 ^ 31 - 1 - 1 < i
  · refine uniform_of (g := shReduce i) (picks_index hS hi) (fun w _ => rfl) (fun w hw => Nat.lt_succ_of_le (shReduce_le hw))
      (2 ^ 63 / (i + 1)) (half (by omega) (by omega)) fun k hk => ⟨_, fun w _ => ?_, count63 hk⟩
    rw [decide_eq_true_iff]
    simp only [ShAccepts, shReduce, if_pos c]
  · refine uniform_of (g := shReduce i) (picks_index hS hi) (fun w _ => rfl) (fun w hw => Nat.lt_succ_of_le (shReduce_le hw))
      (2 ^ 32 / (i + 1) * 2 ^ 31) ?_ fun k hk => ⟨_, fun w _ => ?_, countFast (by omega) hk⟩
    · have := half (n := i + 1) (by omega) (m := 2 ^ 32) (by omega)
      rw [← Nat.mul_assoc (i + 1)]
      generalize (i + 1) * (2 ^ 32 / (i + 1)) = x at *
      omega
    · rw [decide_eq_true_iff]
      simp only [ShAccepts, shReduce, if_neg c]

/-! ## `Perm` -/

/-- The results of `Intn(i + 1)`, `Intn(i + 2)`, … one after the other. -/
inductive Intns (S : Source) : Nat → List Nat → S.σ → S.σ → Prop where
  | nil (i : Nat) (q : S.σ) : Intns S i [] q q
  | cons (i j : Nat) (js : List Nat) (v : BitVec 64) (q q1 q2 : S.σ) :
      intn S (BitVec.ofNat 64 (i + 1)) q = some (.ok (v, q1)) → v.toInt = j → Intns S (i + 1) js q1 q2 → Intns S i (j :: js) q q2

theorem intns_iff (hS : NonNeg S) : ∀ (js : List Nat) (i : Nat), i + js.length < 2 ^ 63 → ∀ q q', Intns S i js q q' ↔ Chosen S i js q q' := by
  intro js
  induction js with
  | nil =>
    intro i _ q q'
    exact ⟨fun h => (by cases h; exact .nil _ _), fun h => (by cases h; exact .nil _ _)⟩
  | cons j js ih =>
    intro i hi q q'
    rw [List.length_cons] at hi
    have en : (BitVec.ofNat 64 (i + 1)).toNat = i + 1 := by rw [BitVec.toNat_ofNat]; exact Nat.mod_eq_of_lt (by omega)
    have hn : (BitVec.ofNat 64 (i + 1)).sle 0 = false := (sle_zero (k := 63)).2 (by rw [en]; omega)
    have hv : ∀ w, (BitVec.ofNat 64 (reduce (i + 1) w)).toInt = reduce (i + 1) w := fun w =>
      ofNat_toInt (k := 63) (Nat.lt_of_lt_of_le (reduce_lt (by omega) w) (by omega))
    constructor
    · intro h
      cases h with
      | cons _ _ _ v _ q1 _ h1 h2 h3 =>
        obtain ⟨w, hw, rfl⟩ := (picks_intn hS hn _ _ _).1 h1
        rw [en] at hw h2
        rw [hv] at h2
        have h2 : reduce (i + 1) w = j := by omega
        subst h2
        exact .cons _ _ _ _ _ _ hw ((ih (i + 1) (by omega) _ _).1 h3)
    · intro h
      cases h with
      | cons _ w _ _ q1 _ hw h3 =>
        refine .cons _ _ _ (BitVec.ofNat 64 (reduce (i + 1) w)) _ q1 _ ?_ (hv w) ((ih (i + 1) (by omega) _ _).2 h3)
        refine (picks_intn hS hn _ _ _).2 ⟨w, ?_, ?_⟩
        · rw [en]; exact hw
        · rw [en]

/-- **C129**, `Perm`: it draws `Intn(1)`, …, `Intn(n)`, and what it returns depends on these results only; each
possible list of results gives a permutation of `0 … n - 1` and each permutation comes from exactly one. So, if the
results are independent, the permutations are equally likely. A negative `n` panics. -/
theorem C129_perm (hS : NonNeg S) :
    (∀ n : Int, n < 0 → ∀ q, perm S n q = some (.error "makeslice: len out of range")) ∧
    ∀ n : Nat, n < 2 ^ 63 → ∃ of : List Nat → List Nat,
      (∀ q r q', perm S n q = some (.ok (r, q')) ↔ ∃ js, js.length = n ∧ Intns S 0 js q q' ∧ r = (of js).map Int.ofNat) ∧
      (∀ js q q', Intns S 0 js q q' → js.length = n → ∀ i j : Nat, js[i]? = some j → j ≤ i) ∧
      (∀ js, js.length = n → (∀ i j : Nat, js[i]? = some j → j ≤ i) → (of js).Perm (List.range n)) ∧
      ∀ p : List Nat, p.Perm (List.range n) → ∃ js, (js.length = n ∧ (∀ i j : Nat, js[i]? = some j → j ≤ i) ∧ of js = p) ∧
        ∀ js', js'.length = n → (∀ i j : Nat, js'[i]? = some j → j ≤ i) → of js' = p → js' = js := by
  refine ⟨fun n h q => by unfold perm; rw [if_pos h]; rfl, fun n hn => ⟨build, ?_, ?_, ?_, ?_⟩⟩
  · intro q r q'
    unfold perm
    rw [if_neg (by omega), Int.toNat_natCast]
    have h := permLoop_ok hS n 0 [] rfl (by omega) q r q'
    rw [show asInts [] ++ List.replicate n 0 = List.replicate n (0 : Int) from rfl] at h
    rw [h]
    constructor
    · rintro ⟨js, hl, hc, rfl⟩
      exact ⟨js, hl, (intns_iff hS js 0 (by omega) q q').2 hc, rfl⟩
    · rintro ⟨js, hl, hc, rfl⟩
      exact ⟨js, hl, (intns_iff hS js 0 (by omega) q q').1 hc, rfl⟩
  · intro js q q' h hl i j hij
    have := ((intns_iff hS js 0 (by omega) q q').1 h).choices i j hij
    omega
  · intro js hl h
    have := build_perm (js := js) h
    rwa [hl] at this
  · intro p hp
    obtain ⟨js, hl, h, e⟩ := build_surj n p hp
    exact ⟨js, ⟨hl, h, e⟩, fun js' hl' h' e' => build_inj js' js (hl'.trans hl.symm) h' h (e'.trans e.symm)⟩

/-! ## `Shuffle` -/

/-- The indices for `i`, `i - 1`, …, 1, one after the other. -/
inductive Indices (S : Source) : Nat → List Nat → S.σ → S.σ → Prop where
  | zero (q : S.σ) : Indices S 0 [] q q
  | succ (i j : Nat) (js : List Nat) (q q1 q2 : S.σ) :
      shuffleIndex S (i + 1) q = some (.ok ((j : Int), q1)) → Indices S i js q1 q2 → Indices S (i + 1) (j :: js) q q2

theorem indices_iff (hS : NonNeg S) : ∀ (i : Nat), i + 1 < 2 ^ 63 → ∀ js q q', Indices S i js q q' ↔ ShChosen S i js q q' := by
  intro i
  induction i with
  | zero =>
    intro _ js q q'
    exact ⟨fun h => (by cases h; exact .zero _), fun h => (by cases h; exact .zero _)⟩
  | succ i ih =>
    intro hi js q q'
    constructor
    · intro h
      cases h with
      | succ _ j js _ q1 _ h1 h2 =>
        obtain ⟨w, hw, e⟩ := (picks_index hS (by omega) _ _ _).1 h1
        have e : (j : Int) = (shReduce (i + 1) w : Nat) := e
        have e : j = shReduce (i + 1) w := by omega
        subst e
        exact .succ _ _ _ _ _ _ hw ((ih (by omega) _ _ _).1 h2)
    · intro h
      cases h with
      | succ _ w js _ q1 _ hw h2 =>
        exact .succ _ _ _ _ _ _ ((picks_index hS (by omega) _ _ _).2 ⟨w, hw, rfl⟩) ((ih (by omega) _ _ _).2 h2)

/-- **C129**, `Shuffle`: it calls `swap(i, j)` for `i` from `n - 1` down to 1, each time with an index drawn for `i`,
which is at most `i`; nothing else. A negative `n` panics. -/
theorem C129_shuffle (hS : NonNeg S) {τ : Type} (swap : τ → Nat → Int → Go τ) :
    (∀ n : Int, n < 0 → ∀ s q, shuffle S n swap s q = some (.error "invalid argument to Shuffle")) ∧
    ∀ n : Nat, n < 2 ^ 63 →
      (∀ s q s' q', shuffle S n swap s q = some (.ok (s', q')) ↔ ∃ js, Indices S (n - 1) js q q' ∧ swaps swap (n - 1) js s = .ok s') ∧
      ∀ js q q', Indices S (n - 1) js q q' → ShChoices (n - 1) js := by
  refine ⟨fun n h s q => by unfold shuffle; rw [if_pos h]; rfl, fun n hn => ⟨fun s q s' q' => ?_, fun js q q' h => ?_⟩⟩
  · unfold shuffle
    rw [if_neg (by omega), Int.toNat_natCast]
    by_cases c : n = 2 ^ 63 - 1 + 1
    · omega
    · rw [shuffleLoop_ok hS swap (n - 1) (by omega)]
      constructor
      · rintro ⟨js, h1, h2⟩; exact ⟨js, (indices_iff hS _ (by omega) _ _ _).2 h1, h2⟩
      · rintro ⟨js, h1, h2⟩; exact ⟨js, (indices_iff hS _ (by omega) _ _ _).1 h1, h2⟩
  · exact ((indices_iff hS _ (by omega) _ _ _).1 h).choices hS

/-- `l[i], l[j] = l[j], l[i]` -/
def swapSlice {α : Type} (l : List α) (i : Nat) (j : Int) : Go (List α) := do
  let x ← goGet l i
  let y ← goGet l j
  let l ← goSet l i y
  goSet l j x

theorem swapSlice_ok {α : Type} {l : List α} {i j : Nat} (hi : i < l.length) (hj : j < l.length) :
    swapSlice l i j = .ok (swapAt l i j) := by
  have g : ∀ {k : Nat} (h : k < l.length), goGet l (k : Int) = .ok l[k] := fun {k} h => by
    unfold goGet
    rw [if_pos (by omega), Int.toNat_natCast, List.getElem?_eq_getElem h]
  have st : ∀ (l' : List α) (k : Nat) (x : α), k < l'.length → goSet l' (k : Int) x = .ok (l'.set k x) := fun l' k x h => by
    unfold goSet
    rw [Int.toNat_natCast, if_pos ⟨by omega, h⟩]
  unfold swapSlice swapAt
  rw [g hi, g hj, List.getElem?_eq_getElem hi, List.getElem?_eq_getElem hj]
  show (goSet l (i : Int) l[j] >>= fun l' => goSet l' (j : Int) l[i]) = _
  rw [st l i _ hi]
  exact st _ _ _ (by simpa using hj)

theorem swaps_slice {α : Type} : ∀ (i : Nat) (js : List Nat) (l : List α), ShChoices i js → i < l.length →
    swaps swapSlice i js l = .ok (shuffled i js l) := by
  intro i
  induction i with
  | zero => intro js l _ _; rfl
  | succ i ih =>
    intro js l h hi
    match js, h with
    | j :: js, ⟨hj, h⟩ =>
      rw [swaps, swapSlice_ok hi (by omega), shuffled]
      exact ih js _ h (by rw [swapAt_length]; omega)

/-- **C129**, `Shuffle` of a slice, with the `swap` one passes for it: the slice ends up as a permutation of what it
was; and if its elements differ then every arrangement comes from exactly one list of indices. -/
theorem C129_slice (hS : NonNeg S) {α : Type} (l : List α) (hl : l.length < 2 ^ 63) :
    (∀ q l' q', shuffle S l.length swapSlice l q = some (.ok (l', q')) → l'.Perm l) ∧
    (l ≠ [] → ∃ of : List Nat → List α,
      (∀ q l' q', shuffle S l.length swapSlice l q = some (.ok (l', q')) ↔ ∃ js, Indices S (l.length - 1) js q q' ∧ l' = of js) ∧
      (l.Nodup → ∀ l' : List α, l'.Perm l → ∃ js, (ShChoices (l.length - 1) js ∧ of js = l') ∧
        ∀ js', ShChoices (l.length - 1) js' → of js' = l' → js' = js)) := by
  have main : l ≠ [] → ∀ q l' q', shuffle S l.length swapSlice l q = some (.ok (l', q')) ↔
      ∃ js, Indices S (l.length - 1) js q q' ∧ l' = shuffled (l.length - 1) js l := by
    intro hne q l' q'
    have hpos : 0 < l.length := List.length_pos_iff.2 hne
    obtain ⟨h1, h2⟩ := (C129_shuffle hS (τ := List α) swapSlice).2 l.length hl
    rw [h1]
    constructor
    · rintro ⟨js, k1, k2⟩
      rw [swaps_slice _ _ _ (h2 _ _ _ k1) (by omega)] at k2
      injection k2 with k2
      exact ⟨js, k1, k2.symm⟩
    · rintro ⟨js, k1, rfl⟩
      exact ⟨js, k1, swaps_slice _ _ _ (h2 _ _ _ k1) (by omega)⟩
  refine ⟨fun q l' q' h => ?_, fun hne => ⟨fun js => shuffled (l.length - 1) js l, main hne, fun hn l' hp => ?_⟩⟩
  · by_cases hne : l = []
    · subst hne
      have h : shuffleLoop S swapSlice 0 ([] : List α) q = some (.ok (l', q')) := h
      rw [(pure_ok.1 h).1]
    · obtain ⟨js, k1, rfl⟩ := (main hne q l' q').1 h
      have hpos : 0 < l.length := List.length_pos_iff.2 hne
      obtain ⟨-, h2⟩ := (C129_shuffle hS (τ := List α) swapSlice).2 l.length hl
      exact shuffled_perm _ _ _ (h2 _ _ _ k1) (by omega)
  · have hpos : 0 < l.length := List.length_pos_iff.2 hne
    obtain ⟨js, k1, k2, k3⟩ := shuffled_unique (l.length - 1) l hn (by omega) l' hp
    exact ⟨js, ⟨k1, k2⟩, k3⟩

/-! ## No other panics -/

/-- **C129**: if the source does not panic in the states `I`, then no method does, apart from those for arguments that
are not allowed (and the `swap` passed to `Shuffle`). -/
theorem C129_panics (hS : NonNeg S) {I : S.σ → Prop} (h : Safe S I) :
    Never I (uint32 S) ∧ Never I (int31 S) ∧ Never I (int S) ∧
    (∀ n : BitVec 64, 0 < n.toInt → Never I (int63n S n) ∧ Never I (intn S n)) ∧
    (∀ n : BitVec 32, 0 < n.toInt → Never I (int31n S n)) ∧
    (∀ n : Nat, n < 2 ^ 63 → Never I (perm S n)) ∧
    ∀ {α : Type} (l : List α), l.length < 2 ^ 63 → Never I (shuffle S l.length swapSlice l) := by
  have pos : ∀ {k : Nat} {n : BitVec (k + 1)}, 0 < n.toInt → n.sle 0 = false := by
    intro k n h
    have h0 : (0 : BitVec (k + 1)).toInt = 0 := BitVec.toInt_zero
    rw [BitVec.sle, h0]
    exact decide_eq_false (by omega)
  refine ⟨never_uint32 h, never_int31 h, never_int h, fun n hn => ⟨never_int63n h (pos hn), never_intn h (pos hn)⟩,
    fun n hn => never_int31n h (pos hn), fun n hn => ?_, fun {α} l hl => ?_⟩
  · unfold perm
    rw [if_neg (by omega), Int.toNat_natCast]
    exact never_permLoop hS h n 0 _ (by simp) (by omega)
  · unfold shuffle
    rw [if_neg (by omega), Int.toNat_natCast]
    by_cases c : l.length = 0
    · rw [c]; exact Never.pure _
    · refine never_shuffleLoop hS h (J := fun s : List α => s.length = l.length) (n := l.length) ?_ _ (by omega) (by omega) _ rfl
      intro s i j hs hi hj
      exact ⟨_, swapSlice_ok (by omega) (by omega), by rw [swapAt_length]; exact hs⟩

/-! ## `Read` -/

/-- **C129**, `Read`: the bytes are those left of the last number, then seven of each number drawn, lowest first; the
top byte of no number is used. What is left over is kept for the next `Read`. Only as many numbers are drawn as are
needed, and `Read` panics only if the source does. Reading in pieces gives the same bytes. -/
theorem C129_read (r : State S) (hr : r.pos ≤ 7) (k : Nat) :
    (match drawn S ((k - r.pos + 6) / 7) r.src with
     | .error e => read S k r = .error e
     | .ok (ws, q) => ∃ r', read S k r = .ok ((low r.val r.pos ++ ws.flatMap (low · 7)).take k, r') ∧ r'.src = q ∧ r'.pos ≤ 7 ∧
        low r'.val r'.pos = (low r.val r.pos ++ ws.flatMap (low · 7)).drop k) ∧
    ∀ a b, k = a + b → read S k r = (do
      let (x, r) ← read S a r
      let (y, r) ← read S b r
      .ok (x ++ y, r)) := by
  refine ⟨?_, fun a b h => by rw [h]; exact read_add a b r⟩
  have h := read_ok k r.src r.val r.pos hr
  unfold needed at h
  cases e : drawn S ((k - r.pos + 6) / 7) r.src with
  | error m => rw [e] at h; exact h
  | ok x =>
    obtain ⟨ws, q⟩ := x
    rw [e] at h
    obtain ⟨v', h1, h2⟩ := h
    exact ⟨_, h1, rfl, by simp only; omega, h2⟩

/-- **C129**, `secrand.Read`: byte `p` read from a new generator is byte `p/7*8 + p%7` of the generator's output
(C105): of every eight bytes the last is left out. In particular `Read` returns. -/
theorem C129_secrand {C : Secrand.Cipher} {seed nonce : List Byte} (hs : seed.length = 32) (hn : nonce.length = 8) {g : Secrand.RNG}
    (h : Secrand.newRNGFromSeed C nonce seed = .ok g) (k : Nat) :
    ∃ r', read (rngSource C) k (new (rngSource C) g) =
      .ok ((List.range k).map fun p => Secrand.outByte C seed nonce 12 1024 (p / 7 * 8 + p % 7), r') := by
  have hf := Secrand.follows_new (size := 1024) hs hn h
  obtain ⟨ws, q, e, -, hws⟩ := follows_drawn (by omega) (by omega) ((k - 0 + 6) / 7) 0 rfl g hf
  have hr := (C129_read (new (rngSource C) g) (Nat.zero_le _) k).1
  have e : drawn (rngSource C) ((k - (new (rngSource C) g).pos + 6) / 7) (new (rngSource C) g).src = .ok (ws, q) := e
  rw [e] at hr
  obtain ⟨r', h1, -⟩ := hr
  refine ⟨r', ?_⟩
  rw [h1, show low (new (rngSource C) g).val (new (rngSource C) g).pos = [] from rfl, List.nil_append, hws, ← List.map_take,
    List.take_range, Nat.min_eq_left (by omega)]
  simp only [Nat.zero_add]

/-- **C129**, the sources: the numbers of a `secrand.RNG` and of `Crypto()` are not negative, and a generator that was
made properly does not panic; so all of the above holds for them. -/
theorem C129_sources (C : Secrand.Cipher) (R : Xrand.Entropy) :
    NonNeg (rngSource C) ∧ Safe (rngSource C) Secrand.Good ∧ NonNeg (cryptoSource R) :=
  ⟨rng_nonNeg C, rng_safe C, crypto_nonNeg R⟩

/-! ## The hypotheses are met -/

/-- A source that counts in steps of `2 ^ k`. -/
def steps (k : Nat) : Source where
  σ := Nat
  int63 q := .ok (BitVec.ofNat 64 (q * 2 ^ k % 2 ^ 63), q + 1)
  uint64 q := .ok (BitVec.ofNat 64 (q * 2 ^ k), q + 1)

theorem steps_int63 (k q : Nat) : (steps k).int63 q = .ok (BitVec.ofNat 64 (q * 2 ^ k % 2 ^ 63), q + 1) := rfl

theorem steps_toNat (k q : Nat) : (BitVec.ofNat 64 (q * 2 ^ k % 2 ^ 63)).toNat = q * 2 ^ k % 2 ^ 63 := by
  have := Nat.mod_lt (q * 2 ^ k) (show 0 < 2 ^ 63 by decide)
  rw [BitVec.toNat_ofNat]; exact Nat.mod_eq_of_lt (by omega)

theorem steps_nonNeg (k : Nat) : NonNeg (steps k) := by
  intro q v q' h
  cases h
  have := steps_toNat k q
  exact Nat.lt_of_le_of_lt (Nat.le_of_eq this) (Nat.mod_lt _ (by decide))

example (k : Nat) : Safe (steps k) fun _ => True := fun q _ => ⟨_, _, steps_int63 k q, trivial⟩

theorem steps_here {k : Nat} {A : Nat → Prop} (q w : Nat) (hw : q * 2 ^ k % 2 ^ 63 = w) (h : A w) :
    First (steps k) A q w (show Nat from q + 1) := by
  have e := steps_toNat k q
  rw [hw] at e
  subst hw
  have := First.here (S := steps k) (P := A) q (show Nat from q + 1) _ (steps_int63 k q) (by rw [e]; exact h)
  rwa [e] at this

theorem steps_later {k : Nat} {A : Nat → Prop} (q w q' : Nat) (h : ¬ A (q * 2 ^ k % 2 ^ 63))
    (hf : First (steps k) A (show Nat from q + 1) w q') : First (steps k) A q w q' :=
  .later (S := steps k) q (show Nat from q + 1) q' _ w (steps_int63 k q) (by rw [steps_toNat]; exact h) hf

instance (n w : Nat) : Decidable (Accepts n w) := by unfold Accepts; infer_instance

instance (i w : Nat) : Decidable (ShAccepts i w) := by unfold ShAccepts; infer_instance

/-- A number that is refused: of `7 * 2 ^ 60` and 0, `Int63n(3 * 2 ^ 61)` takes the second. -/
example : int63n (steps 60) (BitVec.ofNat 64 (3 * 2 ^ 61)) (show Nat from 7) = some (.ok (0, (show Nat from 9))) :=
  (picks_int63n (steps_nonNeg 60) (n := BitVec.ofNat 64 (3 * 2 ^ 61)) (by decide) _ _ _).2
    ⟨0, steps_later 7 0 9 (by decide) (steps_here 8 0 (by decide) (by decide)), by decide⟩

/-- `Intn(3)` with the number `4 * 2 ^ 32` is 1. -/
example : intn (steps 32) 3 (show Nat from 4) = some (.ok (1, (show Nat from 5))) :=
  (picks_intn (steps_nonNeg 32) (n := 3) (by decide) _ _ _).2 ⟨4 * 2 ^ 32, steps_here 4 _ (by decide) (by decide), by decide⟩

/-- `Perm(3)` that is not the identity: the results of `Intn` are 0, 1, 1. -/
example : perm (steps 32) (3 : Nat) (show Nat from 2) = some (.ok ([0, 2, 1], (show Nat from 5))) := by
  unfold perm
  rw [if_neg (by decide)]
  refine (permLoop_ok (S := steps 32) (steps_nonNeg 32) 3 0 [] rfl (by decide) _ _ _).2 ⟨[0, 1, 1], rfl, ?_, rfl⟩
  refine Chosen.cons (S := steps 32) 0 (2 * 2 ^ 32) [1, 1] _ _ _ (steps_here 2 _ (by decide) (by decide)) ?_
  refine Chosen.cons (S := steps 32) 1 (3 * 2 ^ 32) [1] _ _ _ (steps_here 3 _ (by decide) (by decide)) ?_
  exact Chosen.cons (S := steps 32) 2 (4 * 2 ^ 32) [] _ _ _ (steps_here 4 _ (by decide) (by decide)) (.nil _ _)

/-- `Shuffle` of three elements that changes something. -/
example : shuffle (steps 31) ((['a', 'b', 'c'].length : Nat) : Int) swapSlice ['a', 'b', 'c'] (show Nat from 2 ^ 31) =
    some (.ok (['a', 'c', 'b'], (show Nat from 2 ^ 31 + 2))) := by
  refine (((C129_shuffle (steps_nonNeg 31) swapSlice).2 3 (by decide)).1 _ _ _ _).2 ⟨[1, 1], ?_, by decide⟩
  refine (indices_iff (steps_nonNeg 31) 2 (by decide) _ _ _).2 ?_
  refine ShChosen.succ (S := steps 31) 1 (2 ^ 62) [1] _ _ _ (steps_here (2 ^ 31) _ (by decide) (by decide)) ?_
  exact ShChosen.succ (S := steps 31) 0 (2 ^ 62 + 2 ^ 31) [] _ _ _ (steps_here (2 ^ 31 + 1) _ (by decide) (by decide)) (.zero _)

/-- `Read` of nine bytes takes seven of the first number and two of the second; five are left. -/
example : (show Option (List Byte × Nat × Nat) from
      (read (steps 32) 9 (new (steps 32) (show Nat from 1))).toOption.map fun x => (x.1, x.2.src, x.2.pos)) =
    some ([0, 0, 0, 0, 1, 0, 0, 0, 0], 3, 5) := rfl

/-- A generator. -/
example (C : Secrand.Cipher) : ∃ g, Secrand.newRNGFromSeed C (List.replicate 8 1) (List.replicate 32 7) = .ok g ∧ Secrand.Good g := by
  obtain ⟨g, h⟩ := Secrand.newRNGFromSeed_ok (C := C) (seed := List.replicate 32 7) (nonce := List.replicate 8 1) rfl rfl
  exact ⟨g, h, Secrand.new_good rfl rfl h⟩

end Verif.Rand
