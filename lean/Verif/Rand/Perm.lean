import Verif.Rand.Fast

/-!
# `Perm` and `Shuffle`

Which list comes from which choices; each arrangement comes from exactly one list of choices.
-/

namespace Verif.Rand

variable {S : Source}

theorem snocInd {α : Type} {P : List α → Prop} (nil : P []) (append_singleton : ∀ l x, P l → P (l ++ [x])) (l : List α) : P l := by
  have : ∀ k : List α, P k.reverse := fun k => by
    induction k with
    | nil => exact nil
    | cons x k ih => rw [List.reverse_cons]; exact append_singleton _ _ ih
  have h := this l.reverse
  rwa [List.reverse_reverse] at h

/-! ## `Perm` -/

/-- One round of `Perm`, on the part that is done: `m[i] = m[j]; m[j] = i`. -/
def extend (m : List Nat) (j : Nat) : List Nat := (m ++ [m.getD j 0]).set j m.length

/-- The rounds for all choices. -/
def build (js : List Nat) : List Nat := js.foldl extend []

/-- Possible choices: the one in round `i` is at most `i`. -/
def Choices (js : List Nat) : Prop := ∀ i j : Nat, js[i]? = some j → j ≤ i

theorem extend_length (m : List Nat) (j : Nat) : (extend m j).length = m.length + 1 := by simp [extend]

theorem build_snoc (js : List Nat) (j : Nat) : build (js ++ [j]) = extend (build js) j := by simp [build]

theorem build_length (js : List Nat) : (build js).length = js.length := by
  have : ∀ m : List Nat, (js.foldl extend m).length = m.length + js.length := by
    induction js with
    | nil => simp
    | cons j js ih => intro m; rw [List.foldl_cons, ih, extend_length]; simp; omega
  simpa [build] using this []

theorem extend_perm (m : List Nat) {j : Nat} (hj : j ≤ m.length) : (extend m j).Perm (m ++ [m.length]) := by
  by_cases c : j = m.length
  · subst c
    simp [extend]
  · have hlt : j < m.length := by omega
    have hget : m.getD j 0 = m[j] := by simp [List.getD, hlt]
    rw [extend, hget, List.set_append_left _ _ hlt]
    have h1 : m.set j m.length = m.take j ++ m.length :: m.drop (j + 1) := List.set_eq_take_append_cons_drop ▸ by simp [hlt]
    have h2 : m = m.take j ++ m[j] :: m.drop (j + 1) := by simp
    rw [h1]
    have h3 : (m ++ [m.length]).Perm ((m.take j ++ m[j] :: m.drop (j + 1)) ++ [m.length]) := by rw [← h2]
    refine List.Perm.trans ?_ h3.symm
    generalize m.take j = a
    generalize m.drop (j + 1) = b
    simp only [List.append_assoc, List.cons_append]
    refine List.Perm.append_left a ?_
    have e1 : (m.length :: (b ++ [m[j]])).Perm (m.length :: m[j] :: b) := (List.perm_append_singleton m[j] b).cons _
    have e2 : (m[j] :: (b ++ [m.length])).Perm (m[j] :: m.length :: b) := (List.perm_append_singleton m.length b).cons _
    exact e1.trans ((List.Perm.swap _ _ _).trans e2.symm)

/-- The result is a permutation of the numbers below `n`. -/
theorem build_perm {js : List Nat} (h : Choices js) : (build js).Perm (List.range js.length) := by
  induction js using snocInd with
  | nil => exact List.Perm.refl _
  | append_singleton js j ih =>
    rw [build_snoc, List.length_append, List.length_singleton, List.range_succ]
    have hj : j ≤ js.length := h js.length j (by simp)
    have h' : Choices js := fun i j hi => h i j (by
      rw [List.getElem?_append_left (List.getElem?_eq_some_iff.1 hi).1]; exact hi)
    refine (extend_perm _ (by rw [build_length]; exact hj)).trans ?_
    rw [build_length]
    exact (ih h').append_right _

/-- The element that came last is at the chosen place, and what was there is at the end. -/
theorem extend_get (m : List Nat) {j : Nat} (hj : j ≤ m.length) :
    (extend m j)[j]? = some m.length ∧ (∀ i, i < m.length → i ≠ j → (extend m j)[i]? = m[i]?) ∧
    (j < m.length → (extend m j)[m.length]? = m[j]?) := by
  refine ⟨?_, fun i hi hne => ?_, fun hlt => ?_⟩
  · simp [extend, List.getElem?_set]
    omega
  · rw [extend, List.getElem?_set_ne (Ne.symm hne), List.getElem?_append_left hi]
  · rw [extend, List.getElem?_set_ne (by omega)]
    simp [hlt]

theorem extend_inj {m m' : List Nat} {j j' : Nat} (hl : m.length = m'.length) (hj : j ≤ m.length) (hj' : j' ≤ m'.length)
    (hm : m.length ∉ m) (h : extend m j = extend m' j') : m = m' ∧ j = j' := by
  obtain ⟨a1, a2, a3⟩ := extend_get m hj
  obtain ⟨b1, b2, b3⟩ := extend_get m' hj'
  have e : j = j' := by
    by_cases c : j' = j
    · exact c.symm
    · exfalso
      rw [← h] at b1
      by_cases c2 : j' < m.length
      · rw [a2 j' c2 c] at b1
        exact hm (hl ▸ List.mem_of_getElem? b1)
      · have : j' = m.length := by omega
        subst this
        rw [a3 (by omega)] at b1
        exact hm (hl ▸ List.mem_of_getElem? b1)
  subst e
  refine ⟨List.ext_getElem? fun i => ?_, rfl⟩
  by_cases c : i < m.length
  · by_cases c2 : i = j
    · subst c2
      rw [← a3 c, ← b3 (by omega), h, hl]
    · rw [← a2 i c c2, ← b2 i (by omega) c2, h]
  · rw [List.getElem?_eq_none (by omega), List.getElem?_eq_none (by omega)]

theorem build_nodup {js : List Nat} (h : Choices js) : js.length ∉ build js := by
  intro hm
  have := (build_perm h).mem_iff.1 hm
  simp at this

theorem build_inj : ∀ (js js' : List Nat), js.length = js'.length → Choices js → Choices js' → build js = build js' → js = js' := by
  intro js
  induction js using snocInd with
  | nil => intro js' hl _ _ _; exact (List.length_eq_zero_iff.1 hl.symm).symm
  | append_singleton js j ih =>
    intro js' hl h h' e
    rcases List.eq_nil_or_concat js' with rfl | ⟨ks, k, rfl⟩
    · simp at hl
    · rw [List.concat_eq_append] at *
      rw [build_snoc, build_snoc] at e
      have hl' : js.length = ks.length := by simpa using hl
      have hc : ∀ (xs : List Nat) (x : Nat), Choices (xs ++ [x]) → Choices xs ∧ x ≤ xs.length := fun xs x hx =>
        ⟨fun i j hi => hx i j (by rw [List.getElem?_append_left (List.getElem?_eq_some_iff.1 hi).1]; exact hi), hx xs.length x (by simp)⟩
      obtain ⟨c1, c2⟩ := hc _ _ h
      obtain ⟨d1, d2⟩ := hc _ _ h'
      have hn := build_nodup c1
      obtain ⟨e1, e2⟩ := extend_inj (by rw [build_length, build_length, hl']) (by rw [build_length]; exact c2)
        (by rw [build_length]; exact d2) (by rw [build_length]; exact hn) e
      rw [ih ks hl' c1 d1 e1, e2]

/-- Every permutation comes from some choices. -/
theorem build_surj : ∀ (n : Nat) (m : List Nat), m.Perm (List.range n) → ∃ js, js.length = n ∧ Choices js ∧ build js = m := by
  intro n
  induction n with
  | zero =>
    intro m h
    have : m = [] := List.length_eq_zero_iff.1 (by simpa using h.length_eq)
    exact ⟨[], rfl, (fun i j h => (by simp at h)), this.symm⟩
  | succ n ih =>
    intro m h
    have hlen : m.length = n + 1 := by simpa using h.length_eq
    have hn : n ∈ m := h.mem_iff.2 (by simp)
    obtain ⟨j, hj, hjn⟩ := List.getElem_of_mem hn
    -- what was there before the last round
    obtain ⟨m0, h0l, h0⟩ : ∃ m0 : List Nat, m0.length = n ∧ extend m0 j = m := by
      by_cases c : j = n
      · refine ⟨m.take n, by simp [hlen], ?_⟩
        subst c
        have : (m.take j).length = j := by simp [hlen]
        apply List.ext_getElem?
        intro i
        rw [extend, this]
        by_cases ci : i = j
        · subst ci
          rw [List.getElem?_set_self (by simp [this]), List.getElem?_eq_getElem hj, hjn]
        · rw [List.getElem?_set_ne (Ne.symm ci)]
          by_cases c2 : i < j
          · rw [List.getElem?_append_left (by rw [this]; exact c2), List.getElem?_take, if_pos c2]
          · rw [List.getElem?_eq_none (by simp [hlen]; omega), List.getElem?_eq_none (by omega)]
      · have hjn' : j < n := by omega
        have hx : n < m.length := by omega
        refine ⟨(m.set j m[n]).take n, by simp [hlen], ?_⟩
        have hl : ((m.set j m[n]).take n).length = n := by simp [hlen]
        apply List.ext_getElem?
        intro i
        have hg : ((m.set j m[n]).take n).getD j 0 = m[n] := by
          simp [List.getD, hjn', hj]
        rw [extend, hl, hg]
        by_cases ci : i = j
        · subst ci
          rw [List.getElem?_set_self (by simp [hlen]; omega), List.getElem?_eq_getElem hj, hjn]
        · rw [List.getElem?_set_ne (Ne.symm ci)]
          by_cases c2 : i < n
          · rw [List.getElem?_append_left (by rw [hl]; exact c2), List.getElem?_take, if_pos c2, List.getElem?_set_ne (Ne.symm ci)]
          · by_cases c3 : i = n
            · subst c3
              rw [List.getElem?_append_right (by omega), hl]
              simp [hx]
            · rw [List.getElem?_eq_none (by simp [hlen]; omega), List.getElem?_eq_none (by omega)]
    have hp : m0.Perm (List.range n) := by
      have h1 := extend_perm m0 (j := j) (by omega)
      rw [h0, h0l] at h1
      rw [List.range_succ] at h
      exact (List.perm_append_right_iff [n]).1 (h1.symm.trans h)
    obtain ⟨js, e1, e2, e3⟩ := ih m0 hp
    refine ⟨js ++ [j], by simp [e1], fun i k hi => ?_, by rw [build_snoc, e3, h0]⟩
    by_cases c : i < js.length
    · exact e2 i k (by rw [List.getElem?_append_left c] at hi; exact hi)
    · have hi' := (List.getElem?_eq_some_iff.1 hi).1
      simp only [List.length_append, List.length_singleton] at hi'
      have : i = js.length := by omega
      subst this
      simp at hi
      omega

/-- The choices the source makes for the rounds from `i` on. -/
inductive Chosen (S : Source) : Nat → List Nat → S.σ → S.σ → Prop where
  | nil (i : Nat) (q : S.σ) : Chosen S i [] q q
  | cons (i w : Nat) (js : List Nat) (q q1 q2 : S.σ) :
      First S (Accepts (i + 1)) q w q1 → Chosen S (i + 1) js q1 q2 → Chosen S i (reduce (i + 1) w :: js) q q2

theorem Chosen.choices {i : Nat} {js : List Nat} {q q' : S.σ} (h : Chosen S i js q q') (k j : Nat) (hk : js[k]? = some j) : j ≤ i + k := by
  induction h generalizing k with
  | nil i q => cases hk
  | cons i w js q q1 q2 h1 h2 ih =>
    cases k with
    | zero =>
      simp only [List.getElem?_cons_zero, Option.some.injEq] at hk
      have := reduce_lt (n := i + 1) (by omega) w
      omega
    | succ k =>
      have := ih k (by simpa using hk)
      omega

/-- The part that is done, as numbers of type `int`. -/
def asInts (m : List Nat) : List Int := m.map Int.ofNat

theorem permLoop_ok (hS : NonNeg S) : ∀ (k i : Nat) (m : List Nat), m.length = i → i + k < 2 ^ 63 → ∀ (q : S.σ) (r : List Int) (q' : S.σ),
    permLoop S k i (asInts m ++ List.replicate k 0) q = some (.ok (r, q')) ↔
      ∃ js, js.length = k ∧ Chosen S i js q q' ∧ r = asInts (js.foldl extend m) := by
  intro k
  induction k with
  | zero =>
    intro i m hm hb q r q'
    rw [permLoop, pure_ok]
    constructor
    · rintro ⟨rfl, rfl⟩
      exact ⟨[], rfl, .nil _ _, by simp⟩
    · rintro ⟨js, h1, h2, rfl⟩
      obtain rfl := List.length_eq_zero_iff.1 h1
      cases h2
      exact ⟨by simp, rfl⟩
  | succ k ih =>
    intro i m hm hb q r q'
    have hn : (BitVec.ofNat 64 (i + 1)).toNat = i + 1 := by rw [BitVec.toNat_ofNat]; exact Nat.mod_eq_of_lt (by omega)
    have hpk := picks_intn hS (n := BitVec.ofNat 64 (i + 1)) ((sle_zero (k := 63)).2 (by rw [hn]; omega))
    rw [hn] at hpk
    -- what a round does to the slice
    have hround : ∀ j, j ≤ i → goGet (asInts m ++ List.replicate (k + 1) 0) (j : Int) = .ok (m.getD j 0 : Int) ∧
        goSet (asInts m ++ List.replicate (k + 1) 0) (i : Int) (m.getD j 0 : Int) = .ok (asInts (m ++ [m.getD j 0]) ++ List.replicate k 0) ∧
        goSet (asInts (m ++ [m.getD j 0]) ++ List.replicate k 0) (j : Int) (i : Int) = .ok (asInts (extend m j) ++ List.replicate k 0) := by
      intro j hj
      refine ⟨goGet_nat ?_, ?_, ?_⟩
      · by_cases c : j < i
        · rw [List.getElem?_append_left (by simp [asInts, hm, c])]
          simp [asInts, hm, c]
        · have : j = i := by omega
          subst this
          rw [List.getElem?_append_right (by simp [asInts, hm])]
          simp [asInts, hm, List.getD]
      · rw [goSet_nat (by simp [asInts, hm])]
        rw [List.set_append_right _ _ (by simp [asInts, hm])]
        simp [asInts, hm, List.replicate_succ]
      · rw [goSet_nat (by simp [asInts, hm]; omega)]
        rw [List.set_append_left _ _ (by simp [asInts, hm]; omega)]
        rw [extend, hm, asInts, asInts, List.map_set]
        rfl
    have hred : ∀ w, (BitVec.ofNat 64 (reduce (i + 1) w)).toInt = (reduce (i + 1) w : Int) := fun w => by
      have := reduce_lt (n := i + 1) (by omega) w
      have e : (BitVec.ofNat 64 (reduce (i + 1) w)).toNat = reduce (i + 1) w := by
        rw [BitVec.toNat_ofNat]; exact Nat.mod_eq_of_lt (by omega)
      rw [toInt_small (k := 63) (by rw [e]; omega), e]
    have hle : ∀ w, reduce (i + 1) w ≤ i := fun w => by have := reduce_lt (n := i + 1) (by omega) w; omega
    rw [permLoop, bind_ok]
    constructor
    · rintro ⟨j, q1, h1, h2⟩
      obtain ⟨w, hw, rfl⟩ := (hpk _ _ _).1 h1
      obtain ⟨r1, r2, r3⟩ := hround _ (hle w)
      obtain ⟨x, q2, h3, h4⟩ := bind_ok.1 h2
      rw [hred, r1] at h3
      cases h3
      obtain ⟨m1, q3, h5, h6⟩ := bind_ok.1 h4
      rw [r2] at h5
      cases h5
      obtain ⟨m2, q4, h7, h8⟩ := bind_ok.1 h6
      rw [hred, r3] at h7
      cases h7
      obtain ⟨js, e1, e2, e3⟩ := (ih (i + 1) (extend m (reduce (i + 1) w)) (by rw [extend_length, hm]) (by omega) _ _ _).1 h8
      exact ⟨reduce (i + 1) w :: js, by simp [e1], .cons _ _ _ _ _ _ hw e2, by rw [e3]; rfl⟩
    · rintro ⟨js, e1, e2, e3⟩
      cases e2 with
      | nil => simp at e1
      | cons _ w js _ q1 _ hw h2 =>
        obtain ⟨r1, r2, r3⟩ := hround _ (hle w)
        refine ⟨_, q1, (hpk _ _ _).2 ⟨w, hw, rfl⟩, ?_⟩
        refine bind_ok.2 ⟨(m.getD (reduce (i + 1) w) 0 : Int), q1, ?_,
          bind_ok.2 ⟨asInts (m ++ [m.getD (reduce (i + 1) w) 0]) ++ List.replicate k 0, q1, ?_,
          bind_ok.2 ⟨asInts (extend m (reduce (i + 1) w)) ++ List.replicate k 0, q1, ?_, ?_⟩⟩⟩
        · rw [hred, r1]; rfl
        · rw [r2]; rfl
        · rw [hred, r3]; rfl
        · exact (ih (i + 1) _ (by rw [extend_length, hm]) (by omega) _ _ _).2 ⟨js, by simpa using e1, h2, by rw [e3]; rfl⟩

end Verif.Rand
