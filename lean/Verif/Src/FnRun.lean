import Verif.Src.FnProg

/-!
# xmath and parts of xfn, from the text

The functions on elements with any comparison operators, on integers of the kinds of Src/Sem.lean, and `LessFloat` on the floats of
Xfn/Props.lean.
-/

namespace Verif.Src.Fns

section elems
variable {T : Type} (o : Xfn.Ops T)

/-- **C157.** On elements, whatever their operators do. -/
theorem C157_elems (n : Nat) (a b : T) (m : Mem T) :
    calls (ctx o) (n + 1) "Min" [.elem a, .elem b] m = pure ([.elem (if o.le a b then a else b)], m) ∧
    calls (ctx o) (n + 1) "Max" [.elem a, .elem b] m = pure ([.elem (if o.ge a b then a else b)], m) ∧
    calls (ctx o) (n + 1) "FullComparatorOf" [.elem a, .elem b] m =
      pure ([.num .int (if o.lt a b then -1 else if o.gt a b then 1 else 0)], m) ∧
    calls (ctx o) (n + 1) "Equal" [.elem a, .elem b] m = pure ([.bool (o.eq a b)], m) ∧
    calls (ctx o) (n + 1) "NotEqual" [.elem a, .elem b] m = pure ([.bool (!o.eq a b)], m) ∧
    calls (ctx o) (n + 1) "Greater" [.elem a, .elem b] m = pure ([.bool (o.gt a b)], m) ∧
    calls (ctx o) (n + 1) "GreaterEq" [.elem a, .elem b] m = pure ([.bool (o.ge a b)], m) ∧
    calls (ctx o) (n + 1) "Less" [.elem a, .elem b] m = pure ([.bool (o.lt a b)], m) ∧
    calls (ctx o) (n + 1) "LessEq" [.elem a, .elem b] m = pure ([.bool (o.le a b)], m) ∧
    calls (ctx o) (n + 1) "LessFloat" [.elem a, .elem b] m = pure ([.bool (Xfn.lessFloat o a b)], m) := by
  refine ⟨?_, ?_, ?_, ?_, ?_, ?_, ?_, ?_, ?_, ?_⟩
  · rw [calls]
    cases h : o.le a b <;> go_run [Min_fn, h]
  · rw [calls]
    cases h : o.ge a b <;> go_run [Max_fn, h]
  · rw [calls]
    cases h : o.lt a b <;> cases h' : o.gt a b <;> (go_run [FullComparatorOf_fn, h, h'] <;> rfl)
  · rw [calls]; go_run [Equal_fn]
  · rw [calls]; go_run [NotEqual_fn]
  · rw [calls]; go_run [Greater_fn]
  · rw [calls]; go_run [GreaterEq_fn]
  · rw [calls]; go_run [Less_fn]
  · rw [calls]; go_run [LessEq_fn]
  · rw [calls, Xfn.lessFloat]
    cases h : o.eq a a <;> cases h' : o.eq b b <;> (go_run [LessFloat_fn, h, h'] <;> rfl)

end elems

/-- **C157.** The text of `LessFloat` on the bit patterns of any IEEE format is a strict weak order: NaNs come first and are alike, and
the others are ordered by `<`. -/
theorem C157_lessFloat (e k : Nat) : ∃ f : Xfn.Float e k → Xfn.Float e k → Bool,
    (∀ n x y m, calls (ctx (Xfn.floatOps e k)) (n + 1) "LessFloat" [.elem x, .elem y] m = pure ([.bool (f x y)], m)) ∧
    Sort.StrictWeak f ∧ (∀ x y, x.isNaN = true → f x y = !y.isNaN ∧ f y x = false) ∧
    ∀ x y, x.isNaN = false → y.isNaN = false → f x y = (Xfn.floatOps e k).lt x y :=
  ⟨Xfn.lessFloat (Xfn.floatOps e k), fun n x y m => (C157_elems _ n x y m).2.2.2.2.2.2.2.2.2, Xfn.lessFloat_strictWeak e k,
    fun x y hx => Xfn.lessFloat_nan x y hx, fun x y hx hy => Xfn.lessFloat_num x y hx hy⟩

section ints
variable {T : Type} (o : Xfn.Ops T)

/-- The kinds of variables: all but that of constants without a type. -/
def Typed (k : Kind) : Prop := k ≠ .lit

/-- The values of a kind. -/
def InRange : Kind → Int → Prop
  | .lit, _ => True
  | .int, n => -2 ^ 63 ≤ n ∧ n < 2 ^ 63
  | .u32, n => 0 ≤ n ∧ n < 2 ^ 32
  | .u8, n => 0 ≤ n ∧ n < 2 ^ 8
  | _, n => 0 ≤ n ∧ n < 2 ^ 64

/-- The number of values of a kind. -/
def size : Kind → Int
  | .u32 => 2 ^ 32
  | .u8 => 2 ^ 8
  | _ => 2 ^ 64

/-- `r` is what an integer `n` is in the kind `k`. -/
def Is (k : Kind) (n r : Int) : Prop := InRange k r ∧ size k ∣ r - n

theorem wrap_is {k : Kind} (hk : Typed k) (n : Int) : Is k n (wrap k n) := by
  cases k with
  | lit => exact absurd rfl hk
  | _ => simp only [Is, InRange, size, wrap]; omega

/-- What is in range stays. -/
theorem Is.eq {k : Kind} (hk : Typed k) {n r : Int} (h : Is k n r) (hn : InRange k n) : r = n := by
  cases k with
  | lit => exact absurd rfl hk
  | _ => simp only [Is, InRange, size] at h hn; omega

/-- **C157.** On integers: the comparisons are those of integers, `Min` and `Max` the least and the greatest. -/
theorem C157_ints {k : Kind} (hk : Typed k) (n : Nat) (a b : Int) (m : Mem T) :
    calls (ctx o) (n + 1) "Min" [.num k a, .num k b] m = pure ([.num k (if a ≤ b then a else b)], m) ∧
    calls (ctx o) (n + 1) "Max" [.num k a, .num k b] m = pure ([.num k (if b ≤ a then a else b)], m) ∧
    calls (ctx o) (n + 1) "FullComparatorOf" [.num k a, .num k b] m = pure ([.num .int (Int.sign (a - b))], m) ∧
    calls (ctx o) (n + 1) "Equal" [.num k a, .num k b] m = pure ([.bool (decide (a = b))], m) ∧
    calls (ctx o) (n + 1) "NotEqual" [.num k a, .num k b] m = pure ([.bool (decide (a ≠ b))], m) ∧
    calls (ctx o) (n + 1) "Greater" [.num k a, .num k b] m = pure ([.bool (decide (a > b))], m) ∧
    calls (ctx o) (n + 1) "GreaterEq" [.num k a, .num k b] m = pure ([.bool (decide (a ≥ b))], m) ∧
    calls (ctx o) (n + 1) "Less" [.num k a, .num k b] m = pure ([.bool (decide (a < b))], m) ∧
    calls (ctx o) (n + 1) "LessEq" [.num k a, .num k b] m = pure ([.bool (decide (a ≤ b))], m) := by
  have hj : join k k = some k := by cases k <;> first | rfl | simp [join]
  refine ⟨?_, ?_, ?_, ?_, ?_, ?_, ?_, ?_, ?_⟩
  · rw [calls]
    by_cases h : a ≤ b <;> cases k <;> first | exact absurd rfl hk | go_run [Min_fn, h]
  · rw [calls]
    by_cases h : b ≤ a <;> cases k <;> first | exact absurd rfl hk | go_run [Max_fn, h]
  · have e : Int.sign (a - b) = if a < b then -1 else if b < a then 1 else 0 := by
      split
      · exact Int.sign_eq_neg_one_of_neg (by omega)
      · split
        · exact Int.sign_eq_one_of_pos (by omega)
        · rw [show a - b = 0 by omega]; rfl
    rw [calls, e]
    by_cases h : a < b <;> by_cases h' : b < a <;> cases k <;> first | exact absurd rfl hk | (exfalso; omega) | (go_run [FullComparatorOf_fn, h, h'] <;> rfl)
  · rw [calls]; cases k <;> first | exact absurd rfl hk | go_run [Equal_fn]
  · rw [calls]; cases k <;> first | exact absurd rfl hk | go_run [NotEqual_fn]
  · rw [calls]; cases k <;> first | exact absurd rfl hk | go_run [Greater_fn]
  · rw [calls]; cases k <;> first | exact absurd rfl hk | go_run [GreaterEq_fn]
  · rw [calls]; cases k <;> first | exact absurd rfl hk | go_run [Less_fn]
  · rw [calls]; cases k <;> first | exact absurd rfl hk | go_run [LessEq_fn]

/-- **C157.** Arithmetic on integers: the sum, the product, and the quotient and the remainder of division towards zero, each taken into
the range of the kind; only division by zero panics. -/
theorem C157_arith {k : Kind} (hk : Typed k) (n : Nat) (a b : Int) (m : Mem T) :
    (∃ r, calls (ctx o) (n + 1) "PlusOp" [.num k a, .num k b] m = pure ([.num k r], m) ∧ Is k (a + b) r) ∧
    (∃ r, calls (ctx o) (n + 1) "MultOp" [.num k a, .num k b] m = pure ([.num k r], m) ∧ Is k (a * b) r) ∧
    (b ≠ 0 → ∃ r, calls (ctx o) (n + 1) "DivOp" [.num k a, .num k b] m = pure ([.num k r], m) ∧ Is k (a.tdiv b) r) ∧
    (b ≠ 0 → ∃ r, calls (ctx o) (n + 1) "ModOp" [.num k a, .num k b] m = pure ([.num k r], m) ∧ Is k (a.tmod b) r) ∧
    (b = 0 → calls (ctx o) (n + 1) "DivOp" [.num k a, .num k b] m = panic "integer divide by zero" ∧
      calls (ctx o) (n + 1) "ModOp" [.num k a, .num k b] m = panic "integer divide by zero") := by
  refine ⟨⟨wrap k (a + b), ?_, wrap_is hk _⟩, ⟨wrap k (a * b), ?_, wrap_is hk _⟩, fun hb => ⟨wrap k (a.tdiv b), ?_, wrap_is hk _⟩,
    fun hb => ⟨wrap k (a.tmod b), ?_, wrap_is hk _⟩, ?_⟩
  · rw [calls]; cases k <;> first | exact absurd rfl hk | go_run [PlusOp_fn]
  · rw [calls]; cases k <;> first | exact absurd rfl hk | go_run [MultOp_fn]
  · rw [calls]; cases k <;> first | exact absurd rfl hk | go_run [DivOp_fn, hb]
  · rw [calls]; cases k <;> first | exact absurd rfl hk | go_run [ModOp_fn, hb]
  · rintro rfl
    constructor
    · rw [calls]; cases k <;> first | exact absurd rfl hk | go_run [DivOp_fn]
    · rw [calls]; cases k <;> first | exact absurd rfl hk | go_run [ModOp_fn]

end ints

/-- A case: the hypotheses are met, and a sum of `byte`s wraps around. -/
example : Typed .u8 ∧ Is .u8 (200 + 100) 44 ∧ ¬ Is .u8 (200 + 100) 300 :=
  ⟨nofun, by simp [Is, InRange, size], by simp [Is, InRange]⟩

/-- The least `int` divided by -1 is itself. -/
example : Is .int ((-2 ^ 63 : Int).tdiv (-1)) (-2 ^ 63) := by
  simp [Is, InRange, size]

/-- `Min` and `Max` with a NaN return the second argument. -/
example (n : Nat) (m : Mem (Xfn.Float 11 52)) :
    calls (ctx (Xfn.floatOps 11 52)) (n + 1) "Min" [.elem Xfn.nan, .elem Xfn.one] m = pure ([.elem Xfn.one], m) ∧
    calls (ctx (Xfn.floatOps 11 52)) (n + 1) "Max" [.elem Xfn.one, .elem Xfn.nan] m = pure ([.elem Xfn.nan], m) :=
  ⟨(C157_elems _ n Xfn.nan Xfn.one m).1.trans (by rw [if_neg (by decide)]),
    (C157_elems _ n Xfn.one Xfn.nan m).2.1.trans (by rw [if_neg (by decide)])⟩

end Verif.Src.Fns
