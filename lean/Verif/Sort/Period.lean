import Mathlib.Dynamics.PeriodicPts.Defs
import Mathlib.Data.Nat.Prime.Basic
import Mathlib.Tactic.NormNum.Prime
import Verif.Sort.Xorshift

/-!
# C118: how soon the random words of `breakPatterns` repeat

The shifts 13, 17, 5 are those of a 32-bit generator. On 64-bit words the step is a linear map whose minimal polynomial
is a product of four irreducible ones, of degrees 12, 14, 17 and 21, so the words fall into many cycles.

Polynomials over the two-element field are lists of coefficients, the constant one first. `act p` is the polynomial of
the step as a linear map.
-/

namespace Verif.Sort

/-! ## Polynomials of the step -/

def act : List Bool → BitVec 64 → BitVec 64
  | [], _ => 0#64
  | b :: p, v => (if b then v else 0#64) ^^^ xorshiftNext (act p v)

theorem next_zero : xorshiftNext 0#64 = 0#64 := (C93_zero _).2 rfl

theorem act_xor (p : List Bool) (v w : BitVec 64) : act p (v ^^^ w) = act p v ^^^ act p w := by
  induction p with
  | nil => simp [act]
  | cons b p ih =>
    simp only [act]
    rw [ih, C93_linear, xor_four]
    cases b <;> simp

theorem act_zero (p : List Bool) : act p 0#64 = 0#64 := by
  induction p with
  | nil => rfl
  | cons b p ih => simp only [act, ih, next_zero]; cases b <;> simp

theorem act_next (p : List Bool) (v : BitVec 64) : act p (xorshiftNext v) = xorshiftNext (act p v) := by
  induction p with
  | nil => simp [act, next_zero]
  | cons b p ih =>
    simp only [act]
    rw [ih, C93_linear]
    cases b <;> simp [next_zero]

theorem after_xor (n : Nat) (v w : BitVec 64) : xorshiftAfter n (v ^^^ w) = xorshiftAfter n v ^^^ xorshiftAfter n w := by
  induction n generalizing v w with
  | zero => rfl
  | succ n ih => simp only [xorshiftAfter]; rw [C93_linear, ih]

theorem after_zero (n : Nat) : xorshiftAfter n 0#64 = 0#64 := by
  induction n with
  | zero => rfl
  | succ n ih => rw [xorshiftAfter, next_zero, ih]

theorem act_after (p : List Bool) (n : Nat) (v : BitVec 64) : act p (xorshiftAfter n v) = xorshiftAfter n (act p v) := by
  induction n generalizing v with
  | zero => rfl
  | succ n ih => simp only [xorshiftAfter]; rw [ih, act_next]

/-- The sum of two polynomials. -/
def add : List Bool → List Bool → List Bool
  | [], q => q
  | p, [] => p
  | a :: p, b :: q => (a ^^ b) :: add p q

theorem act_add : ∀ (p q : List Bool) (v : BitVec 64), act (add p q) v = act p v ^^^ act q v
  | [], q, v => by simp [add, act]
  | a :: p, [], v => by simp [add, act]
  | a :: p, b :: q, v => by
    simp only [add, act]
    rw [act_add p q, C93_linear, xor_four]
    cases a <;> cases b <;> simp

/-- The product of two polynomials. -/
def mul : List Bool → List Bool → List Bool
  | [], _ => []
  | b :: p, q => add (if b then q else []) (false :: mul p q)

theorem act_mul (p q : List Bool) (v : BitVec 64) : act (mul p q) v = act p (act q v) := by
  induction p with
  | nil => rfl
  | cons b p ih =>
    simp only [mul, act_add, act]
    rw [ih]
    cases b <;> simp [act]

theorem act_comm (p q : List Bool) (v : BitVec 64) : act p (act q v) = act q (act p v) := by
  induction p with
  | nil => simp [act, act_zero]
  | cons b p ih =>
    simp only [act]
    rw [ih, act_xor, act_next]
    cases b <;> simp [act_zero]

/-- Whether two polynomials are the same. -/
def same (p q : List Bool) : Bool := (add p q).all (! ·)

theorem act_false : ∀ (p : List Bool) (v : BitVec 64), p.all (! ·) = true → act p v = 0#64
  | [], _, _ => rfl
  | b :: p, v, h => by
    simp only [List.all_cons, Bool.and_eq_true] at h
    rw [act, act_false p v h.2, next_zero]
    cases b <;> simp at h ⊢

theorem act_same {p q : List Bool} (h : same p q = true) (v : BitVec 64) : act p v = act q v := by
  have := act_false _ v h
  rw [act_add] at this
  exact BitVec.xor_eq_zero_iff.1 this

theorem act_one (v : BitVec 64) : act [true] v = v := by simp [act, next_zero]

/-! ## Powers modulo a polynomial -/

/-- `w` is annihilated by the polynomial of degree `d` whose lower coefficients are `f`. -/
def Ann (d : Nat) (f : List Bool) (w : BitVec 64) : Prop := xorshiftAfter d w = act f w

theorem Ann.next {d : Nat} {f : List Bool} {w : BitVec 64} (h : Ann d f w) : Ann d f (xorshiftNext w) := by
  unfold Ann at *
  rw [act_next, ← h]
  exact after_succ d w

theorem Ann.after {d : Nat} {f : List Bool} {w : BitVec 64} (h : Ann d f w) (n : Nat) : Ann d f (xorshiftAfter n w) := by
  induction n with
  | zero => exact h
  | succ n ih => rw [after_succ]; exact ih.next

/-- Replacing the powers from `d` on. -/
def red (d : Nat) (f p : List Bool) : List Bool := add (p.take d) (mul (p.drop d) f)

theorem act_split : ∀ (d : Nat) (p : List Bool) (v : BitVec 64),
    act p v = act (p.take d) v ^^^ xorshiftAfter d (act (p.drop d) v)
  | 0, p, v => by simp [act, xorshiftAfter]
  | d + 1, [], v => by simp [act, after_zero]
  | d + 1, b :: p, v => by
    simp only [List.take_succ_cons, List.drop_succ_cons, act]
    rw [act_split d p v, C93_linear, after_succ, BitVec.xor_assoc]

theorem act_red {d : Nat} {f : List Bool} {w : BitVec 64} (h : Ann d f w) (p : List Bool) :
    act (red d f p) w = act p w := by
  rw [red, act_add, act_mul, act_split d p w]
  unfold Ann at h
  rw [← h, act_after]

def mulMod (d : Nat) (f : List Bool) : List Bool → List Bool → List Bool
  | [], _ => []
  | b :: p, q => add (if b then q else []) (red d f (false :: mulMod d f p q))

theorem act_mulMod {d : Nat} {f : List Bool} {w : BitVec 64} (h : Ann d f w) (p q : List Bool) :
    act (mulMod d f p q) w = act p (act q w) := by
  induction p with
  | nil => rfl
  | cons b p ih =>
    simp only [mulMod, act_add, act_red h, act]
    rw [ih]
    cases b <;> simp [act]

/-- The power of the step whose exponent is given in binary, the lowest digit first. -/
def powMod (d : Nat) (f : List Bool) : List Bool → List Bool
  | [] => [true]
  | b :: n => if b then red d f (false :: mulMod d f (powMod d f n) (powMod d f n))
      else mulMod d f (powMod d f n) (powMod d f n)

def number : List Bool → Nat
  | [] => 0
  | b :: n => (if b then 1 else 0) + 2 * number n

theorem act_powMod {d : Nat} {f : List Bool} (n : List Bool) : ∀ {w : BitVec 64}, Ann d f w →
    act (powMod d f n) w = xorshiftAfter (number n) w := by
  induction n with
  | nil => intro w _; exact act_one w
  | cons b n ih =>
    intro w h
    have hs : act (mulMod d f (powMod d f n) (powMod d f n)) w = xorshiftAfter (2 * number n) w := by
      rw [act_mulMod h, ih h, ih (h.after _), ← after_add, Nat.two_mul]
    cases b
    · simp only [powMod, number]
      rw [if_neg (by simp), hs]
      simp
    · simp only [powMod, number]
      rw [if_pos trivial, if_pos trivial, act_red h]
      simp only [act]
      rw [hs, Nat.add_comm]
      simp [after_succ]

/-! ## The cycles of words that one polynomial annihilates -/

/-- The digits of a number. -/
def bits : Nat → Nat → List Bool
  | 0, _ => []
  | k + 1, n => (n % 2 == 1) :: bits k (n / 2)

theorem after_iterate (n : Nat) (w : BitVec 64) : xorshiftAfter n w = xorshiftNext^[n] w := by
  induction n generalizing w with
  | zero => rfl
  | succ n ih => exact ih _

/-- What is to be checked for a polynomial of degree `d` with lower coefficients `f`: that `o` steps are the identity,
and that for each prime factor `q` of `o` one less than `o / q` steps has an inverse. -/
def Checks (d : Nat) (f : List Bool) (o : Nat) (inv : List (Nat × List Bool)) : Prop :=
  number (bits d o) = o ∧ same (powMod d f (bits d o)) [true] = true ∧
  ∀ x ∈ inv, number (bits d (o / x.1)) = o / x.1 ∧
    same (mulMod d f x.2 (add (powMod d f (bits d (o / x.1))) [true])) [true] = true

theorem period_of_checks {d : Nat} {f : List Bool} {o : Nat} {inv : List (Nat × List Bool)} (hc : Checks d f o inv)
    (hp : ∀ q, q.Prime → q ∣ o → ∃ u, (q, u) ∈ inv) {w : BitVec 64} (hw : Ann d f w) (h0 : w ≠ 0#64) (k : Nat) :
    xorshiftAfter k w = w ↔ o ∣ k := by
  obtain ⟨ho1, ho2, hinv⟩ := hc
  have hcyc : xorshiftAfter o w = w := by
    have := act_powMod (d := d) (f := f) (bits d o) hw
    rw [ho1, act_same ho2, act_one] at this
    exact this.symm
  constructor
  · intro hk
    have hg : xorshiftAfter (k.gcd o) w = w := by
      rw [after_iterate] at hk hcyc ⊢
      exact Function.IsPeriodicPt.gcd hk hcyc
    by_cases e : k.gcd o = o
    · exact e ▸ Nat.gcd_dvd_left k o
    · exfalso
      obtain ⟨m, hm⟩ := Nat.gcd_dvd_right k o
      have hm1 : m ≠ 1 := by rintro rfl; omega
      obtain ⟨q, hq, hqm⟩ := Nat.exists_prime_and_dvd hm1
      obtain ⟨t, ht⟩ := hqm
      have hot : o = q * (k.gcd o * t) := by rw [Nat.mul_left_comm, ← ht]; exact hm
      have hdiv : o / q = k.gcd o * t := by
        conv => lhs; rw [hot]
        exact Nat.mul_div_cancel_left _ hq.pos
      obtain ⟨u, hu⟩ := hp q hq ⟨_, hot⟩
      obtain ⟨hn, hs⟩ := hinv _ hu
      have hper : xorshiftAfter (o / q) w = w := by
        rw [hdiv]
        rw [after_iterate] at hg ⊢
        exact Function.IsPeriodicPt.mul_const hg t
      have := act_same hs w
      rw [act_one, act_mulMod hw, act_add, act_one, act_powMod _ hw, hn, hper, BitVec.xor_self, act_zero] at this
      exact h0 this.symm
  · rintro ⟨m, rfl⟩
    rw [after_iterate] at hcyc ⊢
    exact Function.IsPeriodicPt.mul_const hcyc m

/-! ## The four polynomials -/

def f12 : List Bool := bits 12 0xa1b
def f14 : List Bool := bits 14 0x731
def f17 : List Bool := bits 17 0x133e5
def f21 : List Bool := bits 21 0xcc7d9

theorem checks12 : Checks 12 f12 4095 [(3, bits 12 610), (5, bits 12 2363), (7, bits 12 1039), (13, bits 12 3694)] := by
  unfold Checks; decide +kernel

theorem checks14 : Checks 14 f14 16383 [(3, bits 14 1287), (43, bits 14 16302), (127, bits 14 13729)] := by
  unfold Checks; decide +kernel

theorem checks17 : Checks 17 f17 131071 [(131071, bits 17 69980)] := by
  unfold Checks; decide +kernel

theorem checks21 : Checks 21 f21 2097151 [(7, bits 21 350070), (127, bits 21 913746), (337, bits 21 1177530)] := by
  unfold Checks; decide +kernel

theorem period12 {w : BitVec 64} (hw : Ann 12 f12 w) (h0 : w ≠ 0#64) (k : Nat) : xorshiftAfter k w = w ↔ 4095 ∣ k := by
  refine period_of_checks checks12 (fun q hq h => ?_) hw h0 k
  rw [show 4095 = 3 * (3 * (5 * (7 * 13))) from rfl] at h
  simp only [hq.dvd_mul, Nat.prime_dvd_prime_iff_eq hq (show Nat.Prime 3 by norm_num),
    Nat.prime_dvd_prime_iff_eq hq (show Nat.Prime 5 by norm_num), Nat.prime_dvd_prime_iff_eq hq (show Nat.Prime 7 by norm_num),
    Nat.prime_dvd_prime_iff_eq hq (show Nat.Prime 13 by norm_num)] at h
  rcases h with rfl | rfl | rfl | rfl | rfl <;> simp

theorem period14 {w : BitVec 64} (hw : Ann 14 f14 w) (h0 : w ≠ 0#64) (k : Nat) : xorshiftAfter k w = w ↔ 16383 ∣ k := by
  refine period_of_checks checks14 (fun q hq h => ?_) hw h0 k
  rw [show 16383 = 3 * (43 * 127) from rfl] at h
  simp only [hq.dvd_mul, Nat.prime_dvd_prime_iff_eq hq (show Nat.Prime 3 by norm_num),
    Nat.prime_dvd_prime_iff_eq hq (show Nat.Prime 43 by norm_num),
    Nat.prime_dvd_prime_iff_eq hq (show Nat.Prime 127 by norm_num)] at h
  rcases h with rfl | rfl | rfl <;> simp

theorem period17 {w : BitVec 64} (hw : Ann 17 f17 w) (h0 : w ≠ 0#64) (k : Nat) : xorshiftAfter k w = w ↔ 131071 ∣ k := by
  refine period_of_checks checks17 (fun q hq h => ?_) hw h0 k
  rw [Nat.prime_dvd_prime_iff_eq hq (show Nat.Prime 131071 by norm_num)] at h
  subst h; simp

theorem period21 {w : BitVec 64} (hw : Ann 21 f21 w) (h0 : w ≠ 0#64) (k : Nat) : xorshiftAfter k w = w ↔ 2097151 ∣ k := by
  refine period_of_checks checks21 (fun q hq h => ?_) hw h0 k
  rw [show 2097151 = 7 * (7 * (127 * 337)) from rfl] at h
  simp only [hq.dvd_mul, Nat.prime_dvd_prime_iff_eq hq (show Nat.Prime 7 by norm_num),
    Nat.prime_dvd_prime_iff_eq hq (show Nat.Prime 127 by norm_num),
    Nat.prime_dvd_prime_iff_eq hq (show Nat.Prime 337 by norm_num)] at h
  rcases h with rfl | rfl | rfl | rfl <;> simp

/-! ## Taking a word apart -/

/-- The polynomial that annihilates every word: the product of the four. -/
def whole : List Bool := bits 65 0x1087277e777ac08cf

/-- A linear map that is 0 on the words with one bit is 0. -/
theorem linear_zero (g : BitVec 64 → BitVec 64) (hg : ∀ v w, g (v ^^^ w) = g v ^^^ g w)
    (h : ∀ i, i < 64 → g (BitVec.twoPow 64 i) = 0#64) (v : BitVec 64) : g v = 0#64 := by
  have g0 : g 0#64 = 0#64 := by
    have := hg 0#64 0#64
    rwa [BitVec.xor_self, BitVec.xor_self] at this
  have : ∀ n, n ≤ 64 → ∀ v : BitVec 64, (∀ i, n ≤ i → v.getLsbD i = false) → g v = 0#64 := by
    intro n
    induction n with
    | zero =>
      intro _ v hv
      rw [show v = 0#64 from BitVec.eq_of_getLsbD_eq fun i _ => by rw [hv i (by omega), BitVec.getLsbD_zero], g0]
    | succ n ih =>
      intro hn v hv
      by_cases hb : v.getLsbD n = true
      · have e : g (v ^^^ BitVec.twoPow 64 n) = 0#64 := by
          refine ih (by omega) _ fun i hi => ?_
          rw [BitVec.getLsbD_xor, BitVec.getLsbD_twoPow]
          by_cases hin : n = i
          · subst hin; rw [hb]; simp; omega
          · rw [hv i (by omega)]; simp [hin]
        rw [hg, h n (by omega), BitVec.xor_zero] at e
        exact e
      · exact ih (by omega) v fun i hi => by
          by_cases hin : i = n
          · subst hin; simpa using hb
          · exact hv i (by omega)
  exact this 64 (by omega) v fun i hi => BitVec.getLsbD_of_ge _ _ hi

theorem whole_zero (v : BitVec 64) : act whole v = 0#64 := by
  refine linear_zero (act whole) (act_xor whole) (fun i hi => ?_) v
  have : ∀ i : Fin 64, act whole (BitVec.twoPow 64 i) = 0#64 := by decide +kernel
  exact this ⟨i, hi⟩

/-- The four parts of a word. -/
def part12 (v : BitVec 64) : BitVec 64 := act (mul (bits 12 2354) (bits 53 8385093556657965)) v
def part14 (v : BitVec 64) : BitVec 64 := act (mul (bits 14 4486) (bits 51 1218608561361887)) v
def part17 (v : BitVec 64) : BitVec 64 := act (mul (bits 17 106290) (bits 48 272225508429155)) v
def part21 (v : BitVec 64) : BitVec 64 := act (mul (bits 21 510473) (bits 44 13175623040455)) v

theorem parts_xor (v : BitVec 64) : v = part12 v ^^^ part14 v ^^^ part17 v ^^^ part21 v := by
  unfold part12 part14 part17 part21
  rw [← act_add, ← act_add, ← act_add, act_same (q := [true]) (by decide +kernel), act_one]

theorem ann_part {d : Nat} {f a b : List Bool} (hd : f.length = d) (h : same (mul (f ++ [true]) b) whole = true)
    (v : BitVec 64) : Ann d f (act (mul a b) v) := by
  unfold Ann
  have e := whole_zero v
  rw [← act_same h, act_mul] at e
  have e2 : act (f ++ [true]) (act (mul a b) v) = 0#64 := by
    rw [act_mul, act_comm, e, act_zero]
  rw [act_split d, List.take_append_of_le_length (by omega), List.drop_append_of_le_length (by omega),
    List.take_of_length_le (by omega), List.drop_of_length_le (by omega), List.nil_append, act_one] at e2
  exact (BitVec.xor_eq_zero_iff.1 e2).symm

theorem ann12 (v : BitVec 64) : Ann 12 f12 (part12 v) := ann_part (by decide +kernel) (by decide +kernel) v
theorem ann14 (v : BitVec 64) : Ann 14 f14 (part14 v) := ann_part (by decide +kernel) (by decide +kernel) v
theorem ann17 (v : BitVec 64) : Ann 17 f17 (part17 v) := ann_part (by decide +kernel) (by decide +kernel) v
theorem ann21 (v : BitVec 64) : Ann 21 f21 (part21 v) := ann_part (by decide +kernel) (by decide +kernel) v

/-! ## C118 -/

/-- C118: from any word but 0 the generator goes through all words but 0 before it repeats. -/
def FullPeriod : Prop := ∀ r : BitVec 64, r ≠ 0#64 → ∀ k, xorshiftAfter k r = r ↔ 2 ^ 64 - 1 ∣ k

theorem cycles (r : BitVec 64) : r = part12 r ^^^ part14 r ^^^ part17 r ^^^ part21 r ∧
    ∀ k, xorshiftAfter k r = r ↔ (part12 r ≠ 0#64 → 4095 ∣ k) ∧ (part14 r ≠ 0#64 → 16383 ∣ k) ∧
      (part17 r ≠ 0#64 → 131071 ∣ k) ∧ (part21 r ≠ 0#64 → 2097151 ∣ k) := by
  refine ⟨parts_xor r, fun k => ?_⟩
  have one : ∀ {d f o} {w : BitVec 64}, Ann d f w → (w ≠ 0#64 → ∀ k, xorshiftAfter k w = w ↔ o ∣ k) →
      (xorshiftAfter k w = w ↔ (w ≠ 0#64 → o ∣ k)) := by
    intro d f o w _ h
    by_cases h0 : w = 0#64
    · subst h0; simp [after_zero]
    · rw [h h0]; simp [h0]
  rw [← one (ann12 r) (period12 (ann12 r)), ← one (ann14 r) (period14 (ann14 r)), ← one (ann17 r) (period17 (ann17 r)),
    ← one (ann21 r) (period21 (ann21 r))]
  constructor
  · intro h
    simp only [part12, part14, part17, part21]
    rw [← act_after, ← act_after, ← act_after, ← act_after, h]
    exact ⟨rfl, rfl, rfl, rfl⟩
  · rintro ⟨h1, h2, h3, h4⟩
    conv => lhs; rw [parts_xor r]
    rw [after_xor, after_xor, after_xor, h1, h2, h3, h4]
    exact (parts_xor r).symm

/-- **C118.** When the words repeat, exactly: every word is the sum of four, of which each is 0 or comes round after
multiples of 4095, 16383, 131071 or 2097151 steps and not otherwise; and the word comes round just when all of them do. -/
theorem C118_cycles (r : BitVec 64) : ∃ a b c d : BitVec 64, r = a ^^^ b ^^^ c ^^^ d ∧
    (∀ k, a ≠ 0#64 → (xorshiftAfter k a = a ↔ 4095 ∣ k)) ∧ (∀ k, b ≠ 0#64 → (xorshiftAfter k b = b ↔ 16383 ∣ k)) ∧
    (∀ k, c ≠ 0#64 → (xorshiftAfter k c = c ↔ 131071 ∣ k)) ∧ (∀ k, d ≠ 0#64 → (xorshiftAfter k d = d ↔ 2097151 ∣ k)) ∧
    ∀ k, xorshiftAfter k r = r ↔ xorshiftAfter k a = a ∧ xorshiftAfter k b = b ∧ xorshiftAfter k c = c ∧
      xorshiftAfter k d = d := by
  refine ⟨part12 r, part14 r, part17 r, part21 r, parts_xor r, fun k h => period12 (ann12 r) h k,
    fun k h => period14 (ann14 r) h k, fun k h => period17 (ann17 r) h k, fun k h => period21 (ann21 r) h k, fun k => ?_⟩
  constructor
  · intro h
    simp only [part12, part14, part17, part21]
    rw [← act_after, ← act_after, ← act_after, ← act_after, h]
    exact ⟨rfl, rfl, rfl, rfl⟩
  · rintro ⟨h1, h2, h3, h4⟩
    conv => lhs; rw [parts_xor r]
    rw [after_xor, after_xor, after_xor, h1, h2, h3, h4]
    exact (parts_xor r).symm

/-- **C118.** All words come round after 6914497698226755 steps (some 2668 times fewer than there are words), and the
seed 1 not sooner. -/
theorem C118_period : (∀ r : BitVec 64, xorshiftAfter 6914497698226755 r = r) ∧
    ∀ k, xorshiftAfter k 1#64 = 1#64 ↔ 6914497698226755 ∣ k := by
  refine ⟨fun r => ((cycles r).2 _).2 ⟨fun _ => by decide, fun _ => by decide, fun _ => by decide, fun _ => by decide⟩,
    fun k => ?_⟩
  rw [(cycles _).2]
  have h1 : part12 1#64 ≠ 0#64 := by decide +kernel
  have h2 : part14 1#64 ≠ 0#64 := by decide +kernel
  have h3 : part17 1#64 ≠ 0#64 := by decide +kernel
  have h4 : part21 1#64 ≠ 0#64 := by decide +kernel
  simp only [ne_eq, h1, h2, h3, h4, not_false_iff, true_implies]
  rw [← Nat.lcm_dvd_iff, ← Nat.lcm_dvd_iff, ← Nat.lcm_dvd_iff]
  have : Nat.lcm 4095 (Nat.lcm 16383 (Nat.lcm 131071 2097151)) = 6914497698226755 := by decide +kernel
  rw [this]

/-- **C118**, what holds: from any word but 0 the next 4095 words are different. `breakPatterns` takes three. Missing: that
all words but 0 come before one comes again, which is false. -/
theorem C118_distinct_partial (r : BitVec 64) (hr : r ≠ 0#64) (i j : Nat) (hij : i < j) (hj : j < i + 4095) :
    xorshiftAfter i r ≠ xorshiftAfter j r := by
  intro e
  have e' : xorshiftAfter (j - i) r = r := by
    refine (after_injective i (?_ : xorshiftAfter i r = xorshiftAfter i (xorshiftAfter (j - i) r))).symm
    rw [← after_add, e]; congr 1; omega
  obtain ⟨h1, h2, h3, h4⟩ := ((cycles r).2 _).1 e'
  have small : ∀ o, 4095 ≤ o → ¬ o ∣ j - i := fun o ho hd => by have := Nat.le_of_dvd (by omega) hd; omega
  have z1 : part12 r = 0#64 := by_contra fun h => small _ (by omega) (h1 h)
  have z2 : part14 r = 0#64 := by_contra fun h => small _ (by omega) (h2 h)
  have z3 : part17 r = 0#64 := by_contra fun h => small _ (by omega) (h3 h)
  have z4 : part21 r = 0#64 := by_contra fun h => small _ (by omega) (h4 h)
  apply hr
  rw [parts_xor r, z1, z2, z3, z4]
  decide

/-- A seed of `breakPatterns`, as an example, and words of two of the kinds. -/
example : (BitVec.ofInt 64 8 : BitVec 64) ≠ 0#64 := by decide
example : xorshiftAfter 3 8#64 ≠ xorshiftAfter 5 8#64 := C118_distinct_partial _ (by decide) 3 5 (by omega) (by omega)

/-- There are seeds from which the words repeat after just 4095. -/
theorem C118_short (k : Nat) : xorshiftAfter k 0x1c9a2b5a811cf0#64 = 0x1c9a2b5a811cf0#64 ↔ 4095 ∣ k := by
  rw [(cycles _).2]
  have h1 : part12 0x1c9a2b5a811cf0#64 ≠ 0#64 := by decide +kernel
  have h2 : part14 0x1c9a2b5a811cf0#64 = 0#64 := by decide +kernel
  have h3 : part17 0x1c9a2b5a811cf0#64 = 0#64 := by decide +kernel
  have h4 : part21 0x1c9a2b5a811cf0#64 = 0#64 := by decide +kernel
  simp [h1, h2, h3, h4]

/-- C118 is false, also for the seed 1. -/
theorem C118_false : ¬ FullPeriod := fun h =>
  absurd ((h 1#64 (by decide) _).1 (C118_period.1 _)) (by decide)

end Verif.Sort
