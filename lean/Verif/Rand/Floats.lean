import Verif.Rand.Props

/-!
# C134: `Float64` and `Float32`

xrand/xrand.go:71-75, 79-83 and secrand/secrand.go:71-75, 79-83 call the methods of `math/rand` of Go 1.18 (trusted, as
in `Verif.Rand.Model`):

    again: f := float64(r.Int63()) / (1 << 63); if f == 1 { goto again }; return f
    again: f := float32(r.Float64()); if f == 1 { goto again }; return f

A floating-point number `f` from 0 to 1 of this kind is a multiple of 2⁻⁶³ and stands here as the number `f * 2⁶³`.
Dividing by a power of two is exact, and as nothing here but zero is below 2⁻⁶³ no exponent is too small; so the two
conversions only round to 53 and to 24 bits.
-/

namespace Verif.Rand

variable {S : Source}

/-! ## Specification of rounding -/

/-- Numbers of at most `p` bits times a power of two. -/
def Fits (p y : Nat) : Prop := ∃ m e, m < 2 ^ p ∧ y = m * 2 ^ e

/-- The distance of two numbers. -/
def dist (x y : Nat) : Nat := (x - y) + (y - x)

/-- IEEE 754, round to nearest, ties to even: of the numbers that fit, none is closer to `x` than `r`, and if another
one is as close, the last of the `p` bits of `r` is zero. -/
def Nearest (p x r : Nat) : Prop :=
  Fits p r ∧ ∀ y, Fits p y → dist x r ≤ dist x y ∧
    (y ≠ r → dist x r = dist x y → ∃ m e, m < 2 ^ p ∧ 2 ^ (p - 1) ≤ m ∧ m % 2 = 0 ∧ r = m * 2 ^ e)

/-! ## The model -/

/-- Conversion to a format with `p` bits. -/
def roundTo (p x : Nat) : Nat :=
  let e := Nat.log2 x + 1 - p
  let q := x / 2 ^ e
  let r := x % 2 ^ e
  if 2 * r > 2 ^ e ∨ 2 * r = 2 ^ e ∧ q % 2 = 1 then (q + 1) * 2 ^ e else q * 2 ^ e

/-- `Rand.Float64`: xrand/xrand.go:71-75, secrand/secrand.go:71-75. -/
def float64 : Draw S Nat := again S (do return roundTo 53 (← int63 S).toNat : Draw S Nat) fun f => f == 2 ^ 63

/-- `Rand.Float32`: xrand/xrand.go:79-83, secrand/secrand.go:79-83. -/
def float32 : Draw S Nat := again S (do return roundTo 24 (← float64) : Draw S Nat) fun f => f == 2 ^ 63

/-! ## Rounding -/

theorem roundTo_nearest {p : Nat} (hp : 1 < p) (x : Nat) : Nearest p x (roundTo p x) := by
  unfold roundTo
  simp only
  generalize he : Nat.log2 x + 1 - p = e
  have hpe : 0 < 2 ^ e := Nat.two_pow_pos e
  have hx := Nat.div_add_mod x (2 ^ e)
  have hr := Nat.mod_lt x hpe
  generalize hq : x / 2 ^ e = q at *
  generalize x % 2 ^ e = r at *
  have hx2 : x < 2 ^ (Nat.log2 x + 1) := Nat.lt_log2_self
  -- the quotient has at most `p` bits
  have hqp : q < 2 ^ p := by
    rw [← hq, Nat.div_lt_iff_lt_mul hpe, ← Nat.pow_add]
    exact Nat.lt_of_lt_of_le hx2 (Nat.pow_le_pow_right (by omega) (by omega))
  by_cases h0 : e = 0
  · subst h0
    have : r = 0 := by simpa using hr
    subst this
    simp only [Nat.pow_zero] at *
    rw [if_neg (by omega)]
    have hxq : x = q := by omega
    refine ⟨⟨q, 0, hqp, by simp⟩, fun y _ => ⟨by simp [dist, hxq], fun hy hd => ?_⟩⟩
    exact absurd hd (by simp only [dist]; omega)
  · have hlog : Nat.log2 x = p - 1 + e := by omega
    have hx0 : x ≠ 0 := by
      rintro rfl
      rw [show Nat.log2 0 = 0 by decide] at hlog
      omega
    have hlow : 2 ^ (p - 1) * 2 ^ e ≤ x := by
      rw [← Nat.pow_add, ← hlog]
      exact Nat.log2_self_le hx0
    have hq1 : 2 ^ (p - 1) ≤ q := by
      rw [← hq]
      exact (Nat.le_div_iff_mul_le hpe).2 hlow
    have hp2 : 2 ^ p = 2 * 2 ^ (p - 1) := by
      rw [← Nat.pow_succ']; congr 1; omega
    -- what fits is a multiple of `2 ^ e` or below
    have hfit : ∀ y, Fits p y → (∃ k, y = k * 2 ^ e) ∨ y < 2 ^ (p - 1) * 2 ^ e := by
      rintro y ⟨m, e', hm, rfl⟩
      by_cases c : e ≤ e'
      · exact Or.inl ⟨m * 2 ^ (e' - e), by rw [Nat.mul_assoc, ← Nat.pow_add]; congr 2; omega⟩
      · right
        have h1 : m * 2 ^ e' < 2 ^ p * 2 ^ e' := Nat.mul_lt_mul_of_pos_right hm (Nat.two_pow_pos _)
        refine Nat.lt_of_lt_of_le h1 ?_
        rw [← Nat.pow_add, ← Nat.pow_add]
        exact Nat.pow_le_pow_right (by omega) (by omega)
    have hmul : 2 ^ (p - 1) * 2 ^ e ≤ q * 2 ^ e := Nat.mul_le_mul_right _ hq1
    have hx' : x = q * 2 ^ e + r := by rw [Nat.mul_comm]; exact hx.symm
    have hs : (q + 1) * 2 ^ e = q * 2 ^ e + 2 ^ e := by rw [Nat.add_mul, Nat.one_mul]
    have hnext : Fits p ((q + 1) * 2 ^ e) := by
      by_cases c : q + 1 < 2 ^ p
      · exact ⟨_, _, c, rfl⟩
      · refine ⟨2 ^ (p - 1), e + 1, by have := Nat.two_pow_pos (p - 1); omega, ?_⟩
        rw [show q + 1 = 2 * 2 ^ (p - 1) by omega, Nat.pow_succ, Nat.mul_comm 2, Nat.mul_assoc, Nat.mul_comm 2]
    have hcase : ∀ y, Fits p y → y ≤ q * 2 ^ e ∨ (q + 1) * 2 ^ e ≤ y := by
      intro y hy
      rcases hfit y hy with ⟨k, rfl⟩ | h
      · rcases Nat.lt_or_ge q k with c | c
        · exact Or.inr (Nat.mul_le_mul_right _ c)
        · exact Or.inl (Nat.mul_le_mul_right _ c)
      · exact Or.inl (by omega)
    have heven : q % 2 = 1 → ∃ m e', m < 2 ^ p ∧ 2 ^ (p - 1) ≤ m ∧ m % 2 = 0 ∧ (q + 1) * 2 ^ e = m * 2 ^ e' := by
      intro hq2
      by_cases c : q + 1 < 2 ^ p
      · exact ⟨_, _, c, by omega, by omega, rfl⟩
      · refine ⟨2 ^ (p - 1), e + 1, by have := Nat.two_pow_pos (p - 1); omega, Nat.le_refl _, ?_, ?_⟩
        · rw [show p - 1 = p - 2 + 1 by omega, Nat.pow_succ]; omega
        · rw [show q + 1 = 2 * 2 ^ (p - 1) by omega, Nat.pow_succ, Nat.mul_comm 2, Nat.mul_assoc, Nat.mul_comm 2]
    by_cases c : 2 * r > 2 ^ e ∨ 2 * r = 2 ^ e ∧ q % 2 = 1
    · rw [if_pos c]
      refine ⟨hnext, fun y hy => ?_⟩
      have := hcase y hy
      refine ⟨by simp only [dist]; omega, fun hne hd => ?_⟩
      rcases c with c | c
      · simp only [dist] at hd; omega
      · exact heven c.2
    · rw [if_neg c]
      refine ⟨⟨q, e, hqp, rfl⟩, fun y hy => ?_⟩
      have := hcase y hy
      refine ⟨by simp only [dist]; omega, fun hne hd => ?_⟩
      refine ⟨q, e, hqp, hq1, ?_, rfl⟩
      simp only [dist] at hd; omega

/-- The numbers with exactly `p` bits are written in one way. -/
theorem normal_unique {p m m' e e' : Nat} (h : m < 2 ^ p) (h1 : 2 ^ (p - 1) ≤ m) (h' : m' < 2 ^ p) (h1' : 2 ^ (p - 1) ≤ m')
    (he : m * 2 ^ e = m' * 2 ^ e') : m = m' := by
  have key : ∀ {m m' e e' : Nat}, m < 2 ^ p → 2 ^ (p - 1) ≤ m' → e ≤ e' → m * 2 ^ e = m' * 2 ^ e' → m = m' := by
    intro m m' e e' h h1' hle he
    have e1 : m = m' * 2 ^ (e' - e) := by
      apply Nat.eq_of_mul_eq_mul_right (Nat.two_pow_pos e)
      rw [he, Nat.mul_assoc, ← Nat.pow_add]
      congr 2; omega
    by_cases c : e' - e = 0
    · rw [c] at e1; simpa using e1
    · have h2 : 2 ≤ 2 ^ (e' - e) := by
        rw [show e' - e = e' - e - 1 + 1 by omega, Nat.pow_succ]
        have := Nat.two_pow_pos (e' - e - 1)
        omega
      have h3 : m' * 2 ≤ m := by rw [e1]; exact Nat.mul_le_mul_left _ h2
      have h4 : 2 ^ p ≤ 2 * 2 ^ (p - 1) := by
        rw [← Nat.pow_succ']; exact Nat.pow_le_pow_right (by omega) (by omega)
      omega
  rcases Nat.le_total e e' with c | c
  · exact key h h1' c he
  · exact (key h' h1 c he.symm).symm

/-- There is one nearest number only. -/
theorem nearest_unique {p x r r' : Nat} (hp : 0 < p) (h : Nearest p x r) (h' : Nearest p x r') : r = r' := by
  have key : ∀ {r r' : Nat}, Nearest p x r → Nearest p x r' → ¬ r < r' := by
    intro r r' h h' hlt
    have d1 := (h.2 r' h'.1).1
    have d2 := (h'.2 r h.1).1
    have hd : dist x r = dist x r' := Nat.le_antisymm d1 d2
    obtain ⟨m, e, a1, a2, a3, a4⟩ := (h.2 r' h'.1).2 (by omega) hd
    obtain ⟨m', e', b1, b2, b3, b4⟩ := (h'.2 r h.1).2 (by omega) hd.symm
    have hp2 : 2 ^ p = 2 * 2 ^ (p - 1) := by
      rw [← Nat.pow_succ']; congr 1; omega
    have hm : m + 1 < 2 ^ p := by omega
    have hf := (h.2 ((m + 1) * 2 ^ e) ⟨_, _, hm, rfl⟩).1
    have hs : (m + 1) * 2 ^ e = r + 2 ^ e := by rw [Nat.add_mul, Nat.one_mul, a4]
    have hpos := Nat.two_pow_pos e
    -- the number after `r` is `r'`
    have hle : r + 2 ^ e ≤ r' := by
      by_cases c : e ≤ e'
      · have hmul : m' * 2 ^ e' = m' * 2 ^ (e' - e) * 2 ^ e := by
          rw [Nat.mul_assoc, ← Nat.pow_add]; congr 2; omega
        rw [b4, hmul, ← hs]
        refine Nat.mul_le_mul_right _ (Nat.lt_of_mul_lt_mul_right (a := 2 ^ e) ?_)
        rw [← a4, ← hmul, ← b4]
        exact hlt
      · exfalso
        have h1 : m' * 2 ^ e' < 2 ^ p * 2 ^ e' := Nat.mul_lt_mul_of_pos_right b1 (Nat.two_pow_pos _)
        have h2 : 2 ^ p * 2 ^ e' ≤ 2 ^ (p - 1) * 2 ^ e := by
          rw [← Nat.pow_add, ← Nat.pow_add]
          exact Nat.pow_le_pow_right (by omega) (by omega)
        have h3 : 2 ^ (p - 1) * 2 ^ e ≤ m * 2 ^ e := Nat.mul_le_mul_right _ a2
        omega
    have heq : (m + 1) * 2 ^ e = r' := by
      rw [hs] at hf ⊢
      simp only [dist] at hd hf
      omega
    rw [b4] at heq
    have := normal_unique hm (by omega) b1 b2 heq
    omega
  exact Nat.le_antisymm (Nat.le_of_not_lt (key h' h)) (Nat.le_of_not_lt (key h h'))

theorem nearest_iff {p : Nat} (hp : 1 < p) {x r : Nat} : Nearest p x r ↔ r = roundTo p x :=
  ⟨fun h => nearest_unique (by omega) h (roundTo_nearest hp x), fun h => h ▸ roundTo_nearest hp x⟩

/-- Rounding does not cross a number that fits. -/
theorem roundTo_le {p : Nat} (hp : 1 < p) {x c : Nat} (hc : Fits p c) (h : x ≤ c) : roundTo p x ≤ c := by
  have := ((roundTo_nearest hp x).2 c hc).1
  simp only [dist] at this
  omega

theorem le_roundTo {p : Nat} (hp : 1 < p) {x c : Nat} (hc : Fits p c) (h : c ≤ x) : c ≤ roundTo p x := by
  have := ((roundTo_nearest hp x).2 c hc).1
  simp only [dist] at this
  omega

/-- A number below `2 ^ (p + k)` moves by at most half of `2 ^ k`. -/
theorem roundTo_error {p : Nat} (hp : 1 < p) {x k : Nat} (h : x < 2 ^ (p + k + 1)) : dist x (roundTo p x) ≤ 2 ^ k := by
  have hn := (roundTo_nearest hp x).2
  have hk : 2 ^ (k + 1) = 2 * 2 ^ k := Nat.pow_succ'
  have hd := Nat.div_add_mod x (2 ^ (k + 1))
  have hm := Nat.mod_lt x (Nat.two_pow_pos (k + 1))
  have hq : x / 2 ^ (k + 1) < 2 ^ p := by
    rw [Nat.div_lt_iff_lt_mul (Nat.two_pow_pos _), ← Nat.pow_add]
    exact h
  have f1 : Fits p (x / 2 ^ (k + 1) * 2 ^ (k + 1)) := ⟨_, _, hq, rfl⟩
  have f2 : Fits p ((x / 2 ^ (k + 1) + 1) * 2 ^ (k + 1)) := by
    by_cases c : x / 2 ^ (k + 1) + 1 < 2 ^ p
    · exact ⟨_, _, c, rfl⟩
    · have hp2 : 2 ^ p = 2 * 2 ^ (p - 1) := by
        rw [← Nat.pow_succ']; congr 1; omega
      refine ⟨2 ^ (p - 1), k + 2, by have := Nat.two_pow_pos (p - 1); omega, ?_⟩
      rw [show x / 2 ^ (k + 1) + 1 = 2 * 2 ^ (p - 1) by omega, Nat.pow_succ 2 (k + 1), Nat.mul_comm 2, Nat.mul_assoc, Nat.mul_comm 2]
  have h1 := (hn _ f1).1
  have h2 := (hn _ f2).1
  have hs : (x / 2 ^ (k + 1) + 1) * 2 ^ (k + 1) = x / 2 ^ (k + 1) * 2 ^ (k + 1) + 2 ^ (k + 1) := by
    rw [Nat.add_mul, Nat.one_mul]
  rw [hs] at h2
  rw [Nat.mul_comm] at hd
  generalize x / 2 ^ (k + 1) * 2 ^ (k + 1) = a at *
  simp only [dist] at *
  omega

/-- What fits is not changed. -/
theorem roundTo_self {p : Nat} (hp : 1 < p) {x : Nat} (h : Fits p x) : roundTo p x = x :=
  Nat.le_antisymm (roundTo_le hp h (Nat.le_refl _)) (le_roundTo hp h (Nat.le_refl _))

/-- From half way on up to a multiple of `2 ^ (k + 1)` whose last bit is zero. -/
theorem roundTo_up {p k x m : Nat} (h1 : 2 ^ (p + k) ≤ x) (h2 : x < 2 ^ (p + k + 1)) (hm : m % 2 = 0)
    (h3 : m * 2 ^ (k + 1) ≤ x + 2 ^ k) (h4 : x < m * 2 ^ (k + 1)) : roundTo p x = m * 2 ^ (k + 1) := by
  have hx0 : x ≠ 0 := by have := Nat.two_pow_pos (p + k); omega
  have hl : Nat.log2 x = p + k := (Nat.log2_eq_iff hx0).2 ⟨h1, h2⟩
  unfold roundTo
  rw [hl, show p + k + 1 - p = k + 1 by omega]
  have hk : 2 ^ (k + 1) = 2 * 2 ^ k := Nat.pow_succ'
  have hd := Nat.div_add_mod x (2 ^ (k + 1))
  have hlt := Nat.mod_lt x (Nat.two_pow_pos (k + 1))
  have hq : x / 2 ^ (k + 1) + 1 = m := by
    have a1 : x / 2 ^ (k + 1) < m := by
      rw [Nat.div_lt_iff_lt_mul (Nat.two_pow_pos _)]; exact h4
    have a2 : m - 1 ≤ x / 2 ^ (k + 1) := by
      rw [Nat.le_div_iff_mul_le (Nat.two_pow_pos _), Nat.sub_mul, Nat.one_mul]
      have := Nat.two_pow_pos k
      omega
    omega
  simp only
  rw [if_pos, hq]
  have e : 2 ^ (k + 1) * (x / 2 ^ (k + 1)) = m * 2 ^ (k + 1) - 2 ^ (k + 1) := by
    rw [← hq, Nat.add_mul, Nat.one_mul, Nat.mul_comm]; omega
  rw [e] at hd
  have hm0 : 0 < m := hq ▸ Nat.succ_pos _
  have : 2 ^ (k + 1) ≤ m * 2 ^ (k + 1) := Nat.le_mul_of_pos_left _ hm0
  generalize m * 2 ^ (k + 1) = c at *
  omega

theorem fits_pow {p k : Nat} (hp : 0 < p) : Fits p (2 ^ k) := ⟨1, k, Nat.one_lt_two_pow (by omega), by simp⟩

/-- Which words give 1. -/
theorem round53_one {w : Nat} (hw : w < 2 ^ 63) : (roundTo 53 w == 2 ^ 63) = false ↔ w < 2 ^ 63 - 512 := by
  constructor
  · intro h
    refine Nat.lt_of_not_le fun c => ?_
    have := roundTo_up (p := 53) (k := 9) (x := w) (m := 2 ^ 53) (by omega) (by omega) (by decide)
      (by omega) (by omega)
    rw [this] at h
    exact absurd h (by decide)
  · intro h
    have := roundTo_error (p := 53) (k := 9) (x := w) (by decide) (by omega)
    simp only [dist] at this
    simp only [beq_eq_false_iff_ne]
    omega

theorem round53_ge {w : Nat} (hw : w < 2 ^ 63) : 2 ^ 63 - 2 ^ 38 ≤ roundTo 53 w ↔ 2 ^ 63 - 2 ^ 38 - 512 ≤ w := by
  constructor
  · intro h
    refine Nat.le_of_not_lt fun c => ?_
    have := roundTo_error (p := 53) (k := 9) (x := w) (by decide) (by omega)
    simp only [dist] at this
    omega
  · intro h
    by_cases c : 2 ^ 63 - 2 ^ 38 ≤ w
    · exact le_roundTo (by decide) ⟨2 ^ 25 - 1, 38, by decide, by decide⟩ c
    · have := roundTo_up (p := 53) (k := 9) (x := w) (m := 2 ^ 53 - 2 ^ 28) (by omega) (by omega) (by decide)
        (by omega) (by omega)
      rw [this]
      decide

theorem round24_one {y : Nat} (hy : y ≤ 2 ^ 63) : (roundTo 24 y == 2 ^ 63) = false ↔ y < 2 ^ 63 - 2 ^ 38 := by
  constructor
  · intro h
    refine Nat.lt_of_not_le fun c => ?_
    by_cases e : y = 2 ^ 63
    · rw [e, roundTo_self (by decide) (fits_pow (by decide))] at h
      exact absurd h (by decide)
    · have := roundTo_up (p := 24) (k := 38) (x := y) (m := 2 ^ 24) (by omega) (by omega) (by decide)
        (by omega) (by omega)
      rw [this] at h
      exact absurd h (by decide)
  · intro h
    have := roundTo_error (p := 24) (k := 38) (x := y) (by decide) (by omega)
    simp only [dist] at this
    simp only [beq_eq_false_iff_ne]
    omega

/-! ## Drawing again -/

theorem First.skip {P G : Nat → Prop} {q q1 q2 : S.σ} {w w' : Nat} (h : First S P q w q1) (hw : ¬ G w)
    (h' : First S (fun w => P w ∧ G w) q1 w' q2) : First S (fun w => P w ∧ G w) q w' q2 := by
  induction h with
  | here q q' v h1 h2 => exact .later _ _ _ _ _ h1 (fun h => hw h.2) h'
  | later q q' q'' v w h1 h2 h3 ih => exact .later _ _ _ _ _ h1 (fun h => h2 h.1) (ih hw h')

theorem First.good {P G : Nat → Prop} {q q1 : S.σ} {w : Nat} (h : First S P q w q1) (hw : G w) :
    First S (fun w => P w ∧ G w) q w q1 := by
  induction h with
  | here q q' v h1 h2 => exact .here _ _ _ h1 ⟨h2, hw⟩
  | later q q' q'' v w h1 h2 h3 ih => exact .later _ _ _ _ _ h1 (fun h => h2 h.1) (ih hw)

/-- A loop around a method that may draw several numbers. -/
theorem Picks.again {α : Type} {draw : Draw S α} {P : Nat → Prop} {f : Nat → α} (hd : Picks draw P f) (bad : α → Bool) :
    Picks (Rand.again S draw bad) (fun w => P w ∧ bad (f w) = false) f := by
  intro q r q'
  constructor
  · intro h
    refine again.partial_correctness S draw bad (fun q x => ∀ r q', x = .ok (r, q') →
      ∃ w, First S (fun w => P w ∧ bad (f w) = false) q w q' ∧ r = f w) ?_ q _ h r q' rfl
    intro again' ih q x hx r q' hr
    subst hr
    cases e : (draw q : Option (Except String (α × S.σ))) with
    | none => rw [e] at hx; cases hx
    | some y =>
      rw [e] at hx
      cases y with
      | error m => cases hx
      | ok z =>
        obtain ⟨v, q1⟩ := z
        obtain ⟨w1, h1, rfl⟩ := (hd q v q1).1 e
        simp only at hx
        by_cases c : bad (f w1) = true
        · rw [if_pos c] at hx
          obtain ⟨w, h2, er⟩ := ih q1 _ hx r q' rfl
          exact ⟨w, h1.skip (by simp [c]) h2, er⟩
        · rw [if_neg c] at hx
          cases hx
          exact ⟨w1, h1.good (by simpa using c), rfl⟩
  · rintro ⟨w, h, rfl⟩
    induction h with
    | here q q' v h1 h2 =>
      rw [Rand.again, (hd q _ _).2 ⟨_, .here _ _ _ h1 h2.1, rfl⟩]
      simp only
      rw [if_neg (by simp [h2.2])]
    | later q q' q'' v w h1 h2 h3 ih =>
      by_cases hP : P v.toNat
      · rw [Rand.again, (hd q _ _).2 ⟨_, .here _ _ _ h1 hP, rfl⟩]
        simp only
        rw [if_pos (by simpa [hP] using h2), ih]
      · -- `draw` at `q` is `draw` at `q'`
        rw [← ih]
        rw [Rand.again] at ih
        cases e : (draw q' : Option (Except String (α × S.σ))) with
        | none => rw [e] at ih; cases ih
        | some y =>
          cases y with
          | error m => rw [e] at ih; cases ih
          | ok z =>
            obtain ⟨x, q1⟩ := z
            obtain ⟨w1, hw1, rfl⟩ := (hd _ _ _).1 e
            have e' := (hd q _ _).2 ⟨w1, .later _ _ _ _ _ h1 hP hw1, rfl⟩
            rw [Rand.again, Rand.again, e, e']

theorem picks_float64 (hS : NonNeg S) : Picks (float64 (S := S)) (fun w => w < 2 ^ 63 - 512) (roundTo 53) := by
  have h := (((takes_int63 (S := S)).map fun v => roundTo 53 v.toNat).picks).again fun f => f == 2 ^ 63
  have e : ∀ w, w < 2 ^ 63 → (BitVec.ofNat 64 w).toNat = w := fun w h => by
    rw [BitVec.toNat_ofNat]; exact Nat.mod_eq_of_lt (by omega)
  refine h.congr hS (fun w hw => ?_) fun w hw _ => by rw [e w hw]
  rw [e w hw, round53_one hw]
  simp

theorem picks_float32 (hS : NonNeg S) :
    Picks (float32 (S := S)) (fun w => w < 2 ^ 63 - 2 ^ 38 - 512) fun w => roundTo 24 (roundTo 53 w) := by
  have h := ((picks_float64 hS).map (roundTo 24)).again fun f => f == 2 ^ 63
  refine h.congr hS (fun w hw => ?_) fun w hw _ => rfl
  have h1 : roundTo 53 w ≤ 2 ^ 63 := roundTo_le (by decide) (fits_pow (by decide)) (by omega)
  rw [round24_one h1]
  have := round53_ge hw
  omega

/-! ## C134 -/

theorem howMany_between {m a b : Nat} {P : Nat → Prop} (hb : b ≤ m) (h1 : ∀ w, w < a → P w) (h2 : ∀ w, w < m → P w → w < b)
    (hab : a ≤ b) : a ≤ howMany m P ∧ howMany m P ≤ b := by
  have e1 := count_interval (m := m) (a := 0) (c := a) (by omega)
  have e2 := count_interval (m := m) (a := 0) (c := b) (by omega)
  unfold howMany
  refine ⟨?_, ?_⟩
  · rw [← e1]
    refine List.countP_mono_left fun w hw h => ?_
    simp only [decide_eq_true_eq] at h ⊢
    exact h1 w (by omega)
  · rw [← e2]
    refine List.countP_mono_left fun w hw h => ?_
    simp only [decide_eq_true_eq] at h ⊢
    have := h2 w (List.mem_range.1 hw) h
    omega

/-- **C134**, `Float64`. It takes the first word `w` of the source that is below 2⁶³ - 512 (all but 512 of the words) and
returns `w / 2⁶³`, rounded to 53 bits; so the result is in [0, 1) and off by at most 2⁻⁵⁴. It is uniform in this sense:
for every floating-point number `x` in [0, 1], the share of words that lead to a result below `x` is `x`, or smaller by
at most 2⁻⁵⁴. Every floating-point number in [0, 1) that is a multiple of 2⁻⁶³ is the result for some word. -/
theorem C134_float64 (hS : NonNeg S) :
    (∀ q r q', float64 (S := S) q = some (.ok (r, q')) ↔ ∃ w, First S (fun w => w < 2 ^ 63 - 512) q w q' ∧ Nearest 53 w r) ∧
    (∀ w r, w < 2 ^ 63 - 512 → Nearest 53 w r → r < 2 ^ 63 ∧ dist w r ≤ 512) ∧
    (∀ c, c ≤ 2 ^ 63 → Fits 53 c →
      c - 512 ≤ howMany (2 ^ 63) (fun w => w < 2 ^ 63 - 512 ∧ ∃ r, Nearest 53 w r ∧ r < c) ∧
      howMany (2 ^ 63) (fun w => w < 2 ^ 63 - 512 ∧ ∃ r, Nearest 53 w r ∧ r < c) ≤ c) ∧
    (∀ c, c < 2 ^ 63 → Fits 53 c → c < 2 ^ 63 - 512 ∧ Nearest 53 c c) := by
  refine ⟨?_, fun w r hw hr => ?_, fun c hc hf => ?_, fun c hc hf => ?_⟩
  · intro q r q'
    rw [picks_float64 hS]
    simp only [nearest_iff (p := 53) (by decide)]
  · have := roundTo_error (p := 53) (k := 9) (x := w) (by decide) (by omega)
    rw [← (nearest_iff (by decide)).1 hr] at this
    refine ⟨?_, this⟩
    simp only [dist] at this
    omega
  · refine howMany_between (a := c - 512) hc (fun w hw => ?_) (fun w hw h => ?_) (by omega)
    · have hw' : w < 2 ^ 63 - 512 := Nat.lt_of_lt_of_le hw (Nat.sub_le_sub_right hc _)
      refine ⟨hw', roundTo 53 w, roundTo_nearest (by decide) w, ?_⟩
      have := roundTo_error (p := 53) (k := 9) (x := w) (by decide) (by omega)
      simp only [dist] at this
      omega
    · obtain ⟨-, r, hr, hlt⟩ := h
      rw [nearest_iff (by decide)] at hr
      refine Nat.lt_of_not_le fun hle => ?_
      have := le_roundTo (p := 53) (by decide) hf hle
      omega
  · have e := roundTo_self (p := 53) (by decide) hf
    refine ⟨(round53_one hc).1 ?_, (nearest_iff (by decide)).2 e.symm⟩
    rw [e]
    simp only [beq_eq_false_iff_ne]
    omega

/-- **C134**, `Float32`. It takes the first word `w` below 2⁶³ - 2³⁸ - 512 and returns `w / 2⁶³`, rounded to 53 and then
to 24 bits; so the result is in [0, 1) and off by at most 2⁻²⁵ + 2⁻⁵⁴. For every `float32` number `x` in [0, 1], the
share of words that lead to a result below `x` is `x`, or smaller by at most 2⁻²⁵ + 2⁻⁵⁴. Every `float32` number in
[0, 1) that is a multiple of 2⁻⁶³ is the result for some word. -/
theorem C134_float32 (hS : NonNeg S) :
    (∀ q r q', float32 (S := S) q = some (.ok (r, q')) ↔
      ∃ w y, First S (fun w => w < 2 ^ 63 - 2 ^ 38 - 512) q w q' ∧ Nearest 53 w y ∧ Nearest 24 y r) ∧
    (∀ w y r, w < 2 ^ 63 - 2 ^ 38 - 512 → Nearest 53 w y → Nearest 24 y r → r < 2 ^ 63 ∧ dist w r ≤ 2 ^ 38 + 512) ∧
    (∀ c, c ≤ 2 ^ 63 → Fits 24 c →
      c - (2 ^ 38 + 512) ≤
        howMany (2 ^ 63) (fun w => w < 2 ^ 63 - 2 ^ 38 - 512 ∧ ∃ y r, Nearest 53 w y ∧ Nearest 24 y r ∧ r < c) ∧
      howMany (2 ^ 63) (fun w => w < 2 ^ 63 - 2 ^ 38 - 512 ∧ ∃ y r, Nearest 53 w y ∧ Nearest 24 y r ∧ r < c) ≤ c) ∧
    (∀ c, c < 2 ^ 63 → Fits 24 c → c < 2 ^ 63 - 2 ^ 38 - 512 ∧ Nearest 53 c c ∧ Nearest 24 c c) := by
  have fit : ∀ c, Fits 24 c → Fits 53 c := fun c ⟨m, e, hm, he⟩ => ⟨m, e, by omega, he⟩
  have err : ∀ w, w < 2 ^ 63 → dist w (roundTo 24 (roundTo 53 w)) ≤ 2 ^ 38 + 512 := by
    intro w hw
    have h0 : roundTo 53 w ≤ 2 ^ 63 := roundTo_le (by decide) (fits_pow (by decide)) (by omega)
    have h1 := roundTo_error (p := 53) (k := 9) (x := w) (by decide) (by omega)
    by_cases e : roundTo 53 w = 2 ^ 63
    · rw [e] at h1
      rw [e, roundTo_self (by decide) (fits_pow (by decide))]
      omega
    · have h2 := roundTo_error (p := 24) (k := 38) (x := roundTo 53 w) (by decide) (by omega)
      simp only [dist] at *
      omega
  have both : ∀ {w y r}, Nearest 53 w y → Nearest 24 y r → r = roundTo 24 (roundTo 53 w) := by
    intro w y r h1 h2
    rw [nearest_iff (by decide)] at h1 h2
    rw [h2, h1]
  refine ⟨?_, fun w y r hw hy hr => ?_, fun c hc hf => ?_, fun c hc hf => ?_⟩
  · intro q r q'
    rw [picks_float32 hS]
    constructor
    · rintro ⟨w, h, rfl⟩
      exact ⟨w, _, h, roundTo_nearest (by decide) _, roundTo_nearest (by decide) _⟩
    · rintro ⟨w, y, h, h1, h2⟩
      exact ⟨w, h, both h1 h2⟩
  · have := err w (by omega)
    rw [← both hy hr] at this
    refine ⟨?_, this⟩
    simp only [dist] at this
    omega
  · refine howMany_between (a := c - (2 ^ 38 + 512)) hc (fun w hw => ?_) (fun w hw h => ?_) (by omega)
    · have hw' : w < 2 ^ 63 - 2 ^ 38 - 512 := by
        rw [Nat.sub_sub]
        exact Nat.lt_of_lt_of_le hw (Nat.sub_le_sub_right hc _)
      refine ⟨hw', roundTo 53 w, _, roundTo_nearest (by decide) _, roundTo_nearest (by decide) _, ?_⟩
      have := err w (by omega)
      simp only [dist] at this
      omega
    · obtain ⟨-, y, r, hy, hr, hlt⟩ := h
      have hr := both hy hr
      refine Nat.lt_of_not_le fun hle => ?_
      have := le_roundTo (p := 24) (by decide) hf (le_roundTo (p := 53) (by decide) (fit c hf) hle)
      omega
  · have e := roundTo_self (p := 53) (by decide) (fit c hf)
    have e2 := roundTo_self (p := 24) (by decide) hf
    refine ⟨?_, (nearest_iff (by decide)).2 e.symm, (nearest_iff (by decide)).2 e2.symm⟩
    have h1 := (round24_one (y := c) (by omega)).1 (by rw [e2]; simp only [beq_eq_false_iff_ne]; omega)
    have h2 := round53_ge hc
    rw [e] at h2
    omega

/-- A source, to have one. -/
private def zeros : Source := ⟨Unit, fun q => .ok (0, q), fun q => .ok (0, q)⟩

private theorem zeros_nonNeg : NonNeg zeros := by
  intro q v q' h
  injection h with h
  injection h with h1 h2
  subst h1
  decide

/-- **C134**, the shares: of the words that are accepted (all but 512) the share that leads to a result below `c / 2⁶³`
differs from `c / 2⁶³` by at most `512 / 2⁶³ = 2⁻⁵⁴`; for `Float32` (all but `2³⁸ + 512`) by at most
`(2³⁸ + 512) / 2⁶³ = 2⁻²⁵ + 2⁻⁵⁴`. -/
theorem C134_share :
    howMany (2 ^ 63) (fun w => w < 2 ^ 63 - 512) = 2 ^ 63 - 512 ∧
    (∀ c, c ≤ 2 ^ 63 → Fits 53 c →
      dist (howMany (2 ^ 63) (fun w => w < 2 ^ 63 - 512 ∧ ∃ r, Nearest 53 w r ∧ r < c) * 2 ^ 63) (c * (2 ^ 63 - 512)) ≤
        512 * (2 ^ 63 - 512)) ∧
    howMany (2 ^ 63) (fun w => w < 2 ^ 63 - 2 ^ 38 - 512) = 2 ^ 63 - 2 ^ 38 - 512 ∧
    (∀ c, c ≤ 2 ^ 63 → Fits 24 c →
      dist (howMany (2 ^ 63) (fun w => w < 2 ^ 63 - 2 ^ 38 - 512 ∧ ∃ y r, Nearest 53 w y ∧ Nearest 24 y r ∧ r < c) * 2 ^ 63)
        (c * (2 ^ 63 - 2 ^ 38 - 512)) ≤ (2 ^ 38 + 512) * (2 ^ 63 - 2 ^ 38 - 512)) := by
  have all : ∀ b, b ≤ 2 ^ 63 → howMany (2 ^ 63) (fun w => w < b) = b := by
    intro b hb
    have := howMany_between (a := b) (b := b) (P := fun w => w < b) hb (fun _ h => h) (fun _ _ h => h) (Nat.le_refl _)
    omega
  refine ⟨all _ (by omega), fun c hc hf => ?_, all _ (by omega), fun c hc hf => ?_⟩
  · obtain ⟨h1, h2⟩ := (C134_float64 zeros_nonNeg).2.2.1 c hc hf
    have h3 := (howMany_between (m := 2 ^ 63) (a := 0) (b := 2 ^ 63 - 512)
      (P := fun w => w < 2 ^ 63 - 512 ∧ ∃ r, Nearest 53 w r ∧ r < c) (Nat.sub_le _ _) (fun w h => (Nat.not_lt_zero w h).elim)
      (fun _ _ h => h.1) (Nat.zero_le _)).2
    generalize howMany (2 ^ 63) (fun w => w < 2 ^ 63 - 512 ∧ ∃ r, Nearest 53 w r ∧ r < c) = n at *
    simp only [dist]
    omega
  · obtain ⟨h1, h2⟩ := (C134_float32 zeros_nonNeg).2.2.1 c hc hf
    have h3 := (howMany_between (m := 2 ^ 63) (a := 0) (b := 2 ^ 63 - 2 ^ 38 - 512)
      (P := fun w => w < 2 ^ 63 - 2 ^ 38 - 512 ∧ ∃ y r, Nearest 53 w y ∧ Nearest 24 y r ∧ r < c)
      (Nat.le_trans (Nat.sub_le _ _) (Nat.sub_le _ _))
      (fun w h => (Nat.not_lt_zero w h).elim) (fun _ _ h => h.1) (Nat.zero_le _)).2
    generalize howMany (2 ^ 63) (fun w => w < 2 ^ 63 - 2 ^ 38 - 512 ∧ ∃ y r, Nearest 53 w y ∧ Nearest 24 y r ∧ r < c) = n at *
    simp only [dist]
    omega

/-- **C134**: neither panics unless the source does. -/
theorem C134_panics {I : S.σ → Prop} (h : Safe S I) : Never I (float64 (S := S)) ∧ Never I (float32 (S := S)) := by
  have h64 : Never I (float64 (S := S)) := ((never_int63 h).bind fun _ => .pure _).again _
  exact ⟨h64, (h64.bind fun _ => .pure _).again _⟩

/-! ## Concrete cases -/

/-- The last word that is accepted, and the first that is not. -/
example : roundTo 53 (2 ^ 63 - 513) = 2 ^ 63 - 1024 ∧ roundTo 53 (2 ^ 63 - 512) = 2 ^ 63 := by decide

/-- Ties go to even. -/
example : roundTo 53 (2 ^ 53 + 1) = 2 ^ 53 ∧ roundTo 53 (2 ^ 53 + 3) = 2 ^ 53 + 4 := by decide

/-- A source that gives a number too close to 2⁶³ first: `Float64` draws again and returns 1/4. -/
def near : Source where
  σ := Nat
  int63 q := .ok (if q = 0 then BitVec.ofNat 64 (2 ^ 63 - 1) else BitVec.ofNat 64 (2 ^ 61), q + 1)
  uint64 q := .ok (0, q)

example : float64 (S := near) (0 : Nat) = some (.ok (2 ^ 61, (2 : Nat))) := by
  have hS : NonNeg near := by
    intro q v q' h
    simp only [near] at h
    injection h with h
    injection h with h1 h2
    subst h1
    split <;> decide
  refine ((C134_float64 hS).1 _ _ _).2 ⟨2 ^ 61, ?_, (nearest_iff (by decide)).2 (by decide)⟩
  exact .later _ (1 : Nat) _ (BitVec.ofNat 64 (2 ^ 63 - 1)) _ rfl (by decide) (.here _ _ (BitVec.ofNat 64 (2 ^ 61)) rfl (by decide))

end Verif.Rand
