import Verif.Sort.Props
import Verif.Xfn.Model
import Verif.Sort.Spec

/-!
# Properties of predicates and comparators (C50–C53)
-/

namespace Verif.Xfn

variable {T : Type}

/-! ## C50: combinators -/

/-- The predicates return `bs` for `v`. -/
def Answers (fns : List (Predicate T)) (v : T) (bs : List Bool) : Prop := fns.map (fun f => f v) = bs.map Except.ok

/-- C50 for `Or`: true exactly when some predicate is. -/
theorem or_spec {fns : List (Predicate T)} {v : T} {bs : List Bool} (h : Answers fns v bs) :
    Or fns v = .ok (decide (true ∈ bs)) := by
  induction fns generalizing bs with
  | nil => cases bs with
    | nil => rfl
    | cons b bs => simp [Answers] at h
  | cons f fns ih =>
    cases bs with
    | nil => simp [Answers] at h
    | cons b bs =>
      simp only [Answers, List.map_cons, List.cons.injEq] at h
      have ih := ih h.2
      simp only [Or, h.1]
      cases b
      · show Or fns v = _
        rw [ih]; simp
      · show (Except.ok true : Go Bool) = _
        simp

/-- C50 for `Not`: true exactly when no predicate is. -/
theorem not_spec {fns : List (Predicate T)} {v : T} {bs : List Bool} (h : Answers fns v bs) :
    Not fns v = .ok (decide (true ∉ bs)) := by
  induction fns generalizing bs with
  | nil => cases bs with
    | nil => rfl
    | cons b bs => simp [Answers] at h
  | cons f fns ih =>
    cases bs with
    | nil => simp [Answers] at h
    | cons b bs =>
      simp only [Answers, List.map_cons, List.cons.injEq] at h
      have ih := ih h.2
      simp only [Not, h.1]
      cases b
      · show Not fns v = _
        rw [ih]; simp
      · show (Except.ok false : Go Bool) = _
        simp

/-- C50 for `Neg`. -/
theorem neg_spec {p : Predicate T} {v : T} {b : Bool} (h : p v = .ok b) : p.neg v = .ok (!b) := by
  simp only [Predicate.neg, h]; rfl

/-- C50 for the method `Or`: it includes `p`. -/
theorem method_or_spec {p : Predicate T} {fns : List (Predicate T)} {v : T} {b : Bool} {bs : List Bool}
    (hp : p v = .ok b) (h : Answers fns v bs) : p.or fns v = .ok (b || decide (true ∈ bs)) := by
  have : Answers (p :: fns) v (b :: bs) := by
    simp only [Answers, List.map_cons, List.cons.injEq]; exact ⟨hp, h⟩
  rw [Predicate.or, or_spec this]
  cases b <;> simp

/-- A panic in a predicate ends the call, unless a predicate before it was true: the predicates are called in order, and
only until the first that is true. -/
theorem or_shortCircuit {fns gns : List (Predicate T)} {p : Predicate T} {v : T} (h : ∀ f ∈ fns, f v = .ok false) :
    (p v = .ok true → Or (fns ++ p :: gns) v = .ok true) ∧
      (∀ msg, p v = .error msg → Or (fns ++ p :: gns) v = .error msg) := by
  induction fns with
  | nil =>
    refine ⟨fun hp => ?_, fun msg hp => ?_⟩
    · show Or (p :: gns) v = _
      simp only [Or, hp]; rfl
    · show Or (p :: gns) v = _
      simp only [Or, hp]; rfl
  | cons f fns ih =>
    have hf := h f (by simp)
    obtain ⟨h1, h2⟩ := ih fun f hf => h f (List.mem_cons_of_mem _ hf)
    refine ⟨fun hp => ?_, fun msg hp => ?_⟩
    · show Or (f :: (fns ++ p :: gns)) v = _
      simp only [Or, hf]; exact h1 hp
    · show Or (f :: (fns ++ p :: gns)) v = _
      simp only [Or, hf]; exact h2 msg hp

/-- C50 for `And` as stated: true exactly when every predicate is. -/
def AndIsAll (T : Type) : Prop := ∀ (fns : List (Predicate T)) (v : T) (bs : List Bool), Answers fns v bs →
  And fns v = .ok (decide (false ∉ bs))

/-- What `And` computes: whether some predicate is true. -/
theorem and_is_or (fns : List (Predicate T)) (v : T) : And fns v = Or fns v := by
  induction fns with
  | nil => rfl
  | cons f fns ih => simp only [And, Or, ih]

/-- C50 is false for `And`, for every type that has a value: `And(True, False)` is true, and `And()` is false. -/
theorem not_andIsAll (v : T) : ¬ AndIsAll T := by
  intro h
  have := h [True', False'] v [true, false] rfl
  have e : And [True', False'] v = .ok true := rfl
  rw [e] at this
  simp at this

/-- C50 for `And`, where it holds: at least one predicate, and all of them agree on `v`. Missing: everything else, see
`and_correct_iff`. -/
theorem and_spec_partial {fns : List (Predicate T)} {v : T} {b : Bool} (hne : fns ≠ []) (h : ∀ f ∈ fns, f v = .ok b) :
    And fns v = .ok b := by
  rw [and_is_or, or_spec (bs := List.replicate fns.length b)]
  · cases fns with
    | nil => exact absurd rfl hne
    | cons f fns => cases b <;> simp [List.replicate_succ]
  · simp only [Answers, List.map_replicate]
    exact List.eq_replicate_iff.2 ⟨by simp, fun x hx => by
      obtain ⟨f, hf, rfl⟩ := List.mem_map.1 hx; exact h f hf⟩

/-- It holds in no other case. -/
theorem and_correct_iff {fns : List (Predicate T)} {v : T} {bs : List Bool} (h : Answers fns v bs) :
    And fns v = .ok (decide (false ∉ bs)) ↔ (true ∈ bs ↔ false ∉ bs) := by
  rw [and_is_or, or_spec h]
  simp only [Except.ok.injEq, decide_eq_decide]

example : Answers [True', False', fun n : Nat => .ok (n == 3)] 3 [true, false, true] := rfl
example : Or [False', fun n : Nat => .ok (n == 3), fun _ => .error "nil"] 3 = .ok true := rfl
example : Not [False', fun n : Nat => .ok (n == 3)] 4 = .ok true := rfl
example : (True' : Predicate Nat).and [False'] 3 = .ok true := rfl

/-! ## C51: comparisons -/

/-- A totally ordered type: `==` is equality, `<` is a strict total order, and the others are what they should be. -/
structure Total (o : Ops T) : Prop where
  eq : ∀ a b, o.eq a b = true ↔ a = b
  irrefl : ∀ a, o.lt a a = false
  trans : ∀ a b c, o.lt a b = true → o.lt b c = true → o.lt a c = true
  total : ∀ a b, o.lt a b = true ∨ a = b ∨ o.lt b a = true
  le : ∀ a b, o.le a b = true ↔ o.lt a b = true ∨ a = b
  gt : ∀ a b, o.gt a b = o.lt b a
  ge : ∀ a b, o.ge a b = true ↔ o.lt b a = true ∨ a = b

theorem Total.not_lt {o : Ops T} (h : Total o) (a b : T) : o.lt a b = false ↔ o.lt b a = true ∨ a = b := by
  constructor
  · intro hf
    rcases h.total a b with g | g | g
    · rw [hf] at g; cases g
    · exact Or.inr g
    · exact Or.inl g
  · rintro (g | rfl)
    · cases c : o.lt a b with
      | false => rfl
      | true => have := h.trans a b a c g; rw [h.irrefl] at this; cases this
    · exact h.irrefl a

theorem total_of_key (key : T → Int) (inj : ∀ a b, key a = key b → a = b) : Total (opsOf key) where
  eq a b := by simp only [opsOf, decide_eq_true_eq]; exact ⟨inj a b, fun e => by rw [e]⟩
  irrefl a := by simp [opsOf]
  trans a b c := by simp only [opsOf, decide_eq_true_eq]; omega
  total a b := by
    simp only [opsOf, decide_eq_true_eq]
    by_cases c : key a = key b
    · exact Or.inr (Or.inl (inj a b c))
    · omega
  le a b := by
    simp only [opsOf, decide_eq_true_eq]
    constructor
    · intro h
      by_cases c : key a = key b
      · exact Or.inr (inj a b c)
      · exact Or.inl (by omega)
    · rintro (h | rfl) <;> omega
  gt a b := rfl
  ge a b := by
    simp only [opsOf, decide_eq_true_eq]
    constructor
    · intro h
      by_cases c : key a = key b
      · exact Or.inr (inj a b c)
      · exact Or.inl (by omega)
    · rintro (h | rfl) <;> omega

/-- Signed integers are totally ordered. -/
theorem signed_total (n : Nat) : Total (signedOps n) := total_of_key _ fun _ _ h => BitVec.toInt_inj.1 h

/-- Unsigned integers are totally ordered. -/
theorem unsigned_total (n : Nat) : Total (unsignedOps n) :=
  total_of_key _ fun a b h => BitVec.eq_of_toNat_eq (by omega)

theorem strLt_irrefl : ∀ a : Bytes, strLt a a = false
  | [] => rfl
  | a :: s => by simp [strLt, UInt8.lt_irrefl, strLt_irrefl s]

theorem strLt_total : ∀ a b : Bytes, strLt a b = true ∨ a = b ∨ strLt b a = true
  | [], [] => Or.inr (Or.inl rfl)
  | [], _ :: _ => Or.inl rfl
  | _ :: _, [] => Or.inr (Or.inr rfl)
  | a :: s, b :: t => by
    simp only [strLt]
    by_cases h1 : a < b
    · simp [h1]
    · by_cases h2 : b < a
      · simp [h1, h2]
      · have e : a = b := UInt8.le_antisymm (UInt8.not_lt.1 h2) (UInt8.not_lt.1 h1)
        subst e
        simp only [UInt8.lt_irrefl, if_false]
        rcases strLt_total s t with h | h | h
        · exact Or.inl h
        · exact Or.inr (Or.inl (by rw [h]))
        · exact Or.inr (Or.inr h)

theorem strLt_trans : ∀ a b c : Bytes, strLt a b = true → strLt b c = true → strLt a c = true
  | [], [], _, h, _ => by simp [strLt] at h
  | [], _ :: _, [], _, h => by simp [strLt] at h
  | [], _ :: _, _ :: _, _, _ => rfl
  | _ :: _, [], _, h, _ => by simp [strLt] at h
  | _ :: _, _ :: _, [], _, h => by simp [strLt] at h
  | a :: s, b :: t, c :: u, h1, h2 => by
    simp only [strLt] at h1 h2 ⊢
    by_cases ab : a < b
    · by_cases bc : b < c
      · rw [if_pos (UInt8.lt_trans ab bc)]
      · rw [if_neg bc] at h2
        by_cases cb : c < b
        · rw [if_pos cb] at h2; cases h2
        · have e : b = c := UInt8.le_antisymm (UInt8.not_lt.1 cb) (UInt8.not_lt.1 bc)
          subst e
          rw [if_pos ab]
    · rw [if_neg ab] at h1
      by_cases ba : b < a
      · rw [if_pos ba] at h1; cases h1
      · rw [if_neg ba] at h1
        have e : a = b := UInt8.le_antisymm (UInt8.not_lt.1 ba) (UInt8.not_lt.1 ab)
        subst e
        by_cases bc : a < c
        · rw [if_pos bc]
        · rw [if_neg bc] at h2 ⊢
          by_cases cb : c < a
          · rw [if_pos cb] at h2; cases h2
          · rw [if_neg cb] at h2 ⊢
            exact strLt_trans s t u h1 h2

/-- Strings are totally ordered. -/
theorem string_total : Total stringOps where
  eq a b := by simp [stringOps]
  irrefl a := strLt_irrefl a
  trans a b c := strLt_trans a b c
  total a b := strLt_total a b
  le a b := by
    have := strLt_total a b
    simp only [stringOps, Bool.not_eq_true']
    constructor
    · intro h
      rcases this with g | g | g
      · exact Or.inl g
      · exact Or.inr g
      · rw [h] at g; cases g
    · rintro (h | rfl)
      · cases c : strLt b a with
        | false => rfl
        | true => have := strLt_trans a b a h c; rw [strLt_irrefl] at this; cases this
      · exact strLt_irrefl a
  gt a b := rfl
  ge a b := by
    have := strLt_total a b
    simp only [stringOps, Bool.not_eq_true']
    constructor
    · intro h
      rcases this with g | g | g
      · rw [h] at g; cases g
      · exact Or.inr g
      · exact Or.inl g
    · rintro (h | rfl)
      · cases c : strLt a b with
        | false => rfl
        | true => have := strLt_trans b a b h c; rw [strLt_irrefl] at this; cases this
      · exact strLt_irrefl a

/-- C51: `IsEqAny` is membership, for every type (`==` need not be equality: NaN is not among anything). -/
theorem isEqAny_spec (o : Ops T) (xs : List T) (v : T) : isEqAny o xs v = .ok (decide (∃ x ∈ xs, o.eq v x = true)) := by
  induction xs with
  | nil => simp [isEqAny]
  | cons x xs ih =>
    simp only [isEqAny]
    split
    · rename_i h; simp [h]
    · rename_i h; rw [ih]; simp [h]

/-- C51: on types where `==` is equality it is membership in the list. -/
theorem isEqAny_mem {o : Ops T} (ho : Total o) (xs : List T) (v : T) [Decidable (v ∈ xs)] :
    isEqAny o xs v = .ok (decide (v ∈ xs)) := by
  rw [isEqAny_spec]
  congr 1
  rw [decide_eq_decide]
  constructor
  · rintro ⟨x, hx, h⟩; rw [(ho.eq v x).1 h]; exact hx
  · intro h; exact ⟨v, h, (ho.eq v v).2 rfl⟩

/-- C51: `IsNeqAny` is the negation of `IsEqAny`. -/
theorem isNeqAny_spec (o : Ops T) (xs : List T) (v : T) : isNeqAny o xs v = (isEqAny o xs : Predicate T).neg v := by
  induction xs with
  | nil => rfl
  | cons x xs ih =>
    simp only [isNeqAny]
    split
    · rename_i h; simp only [Predicate.neg, isEqAny, h]; rfl
    · rename_i h
      rw [ih]
      simp only [Predicate.neg, isEqAny]
      rw [if_neg h]

/-- C51: `IsEq` and `IsNeq` are complementary on every type, and on totally ordered types so are `IsLess` and
`IsGreaterEq`, `IsGreater` and `IsLessEq`, and the functions of two arguments. -/
theorem complementary {o : Ops T} (ho : Total o) (r : T) (v : T) :
    isNeq o r v = (isEq o r : Predicate T).neg v ∧ isGreaterEq o r v = (isLess o r : Predicate T).neg v ∧
      isLessEq o r v = (isGreater o r : Predicate T).neg v ∧ notEqual o v r = !equal o v r ∧
      greaterEq o v r = !less o v r ∧ lessEq o v r = !greater o v r := by
  have ge : o.ge v r = !o.lt v r := by
    have h1 := ho.ge v r
    have h2 := ho.not_lt v r
    cases c : o.lt v r with
    | true => cases d : o.ge v r with
      | false => rfl
      | true => have := h2.2 (h1.1 d); rw [c] at this; cases this
    | false => exact h1.2 (h2.1 c)
  have le : o.le v r = !o.gt v r := by
    rw [ho.gt]
    have h1 := ho.le v r
    have h2 := ho.not_lt r v
    cases c : o.lt r v with
    | true => cases d : o.le v r with
      | false => rfl
      | true => have := h2.2 ((h1.1 d).imp id Eq.symm); rw [c] at this; cases this
    | false => exact h1.2 ((h2.1 c).imp id Eq.symm)
  refine ⟨rfl, ?_, ?_, rfl, ge, le⟩
  · simp only [isGreaterEq, ge]; rfl
  · simp only [isLessEq, le]; rfl

/-- C51: `HasPrefix` (and `HasPrefixBytes`) holds exactly when `v = prefix + rest`, and never panics. -/
theorem hasPrefix_spec (pre v : Bytes) : ∃ b, hasPrefix pre v = .ok b ∧ (b = true ↔ ∃ rest, v = pre ++ rest) := by
  unfold hasPrefix sub
  dsimp only
  by_cases c : (v.length : Int) ≥ pre.length
  · rw [if_pos c, if_pos ⟨by omega, by omega, c⟩]
    refine ⟨_, rfl, ?_⟩
    simp only [Int.toNat_natCast, Int.toNat_zero, List.drop_zero, decide_eq_true_eq]
    constructor
    · intro h; exact ⟨v.drop pre.length, by
        have := List.take_append_drop pre.length v
        rw [h] at this; exact this.symm⟩
    · rintro ⟨rest, rfl⟩; simp
  · rw [if_neg c]
    refine ⟨_, rfl, ?_⟩
    constructor
    · intro h; cases h
    · rintro ⟨rest, rfl⟩; simp at c; omega

/-- C51: `HasSuffix` (and `HasSuffixBytes`) holds exactly when `v = rest + suffix`, and never panics. -/
theorem hasSuffix_spec (suf v : Bytes) : ∃ b, hasSuffix suf v = .ok b ∧ (b = true ↔ ∃ rest, v = rest ++ suf) := by
  unfold hasSuffix sub
  dsimp only
  by_cases c : (v.length : Int) ≥ suf.length
  · rw [if_pos c, if_pos ⟨by omega, by omega, by omega⟩]
    refine ⟨_, rfl, ?_⟩
    have e : ((v.length : Int) - suf.length).toNat = v.length - suf.length := by omega
    simp only [Int.toNat_natCast, List.take_length, decide_eq_true_eq, e]
    constructor
    · intro h; exact ⟨v.take (v.length - suf.length), by
        have := List.take_append_drop (v.length - suf.length) v
        rw [h] at this; exact this.symm⟩
    · rintro ⟨rest, rfl⟩; simp
  · rw [if_neg c]
    refine ⟨_, rfl, ?_⟩
    constructor
    · intro h; cases h
    · rintro ⟨rest, rfl⟩; simp at c; omega

example : hasPrefix [1, 2] [1, 2, 3] = .ok true := rfl
example : hasSuffix [2, 3] [1, 2, 3] = .ok true := rfl
example : hasSuffix [2, 3] [3] = .ok false := rfl
example : isEqAny stringOps [[1], [2, 3]] [2, 3] = .ok true := rfl

/-! ## C52: `LessFloat` -/

variable {e m : Nat}

theorem eq_self_iff (x : Float e m) : (floatOps e m).eq x x = !x.isNaN := by
  simp [floatOps]

/-- C52: every NaN comes before everything else, and nothing before a NaN. -/
theorem lessFloat_nan (x y : Float e m) (hx : x.isNaN = true) : lessFloat (floatOps e m) x y = !y.isNaN ∧
    lessFloat (floatOps e m) y x = false := by
  simp [lessFloat, eq_self_iff, hx]

/-- C52: on other values it is `<`. -/
theorem lessFloat_num (x y : Float e m) (hx : x.isNaN = false) (hy : y.isNaN = false) :
    lessFloat (floatOps e m) x y = (floatOps e m).lt x y := by
  simp [lessFloat, eq_self_iff, hx, hy]

/-- C52: `LessFloat` is a strict weak order on all bit patterns of every IEEE format. -/
theorem lessFloat_strictWeak (e m : Nat) : Sort.StrictWeak (lessFloat (floatOps e m)) := by
  have key : ∀ x y : Float e m, lessFloat (floatOps e m) x y = true ↔
      (x.isNaN = true ∧ y.isNaN = false) ∨ (x.isNaN = false ∧ y.isNaN = false ∧ x.value < y.value) := by
    intro x y
    cases hx : x.isNaN
    · cases hy : y.isNaN
      · rw [lessFloat_num x y hx hy]; simp [floatOps, hx, hy]
      · rw [(lessFloat_nan y x hy).2]; simp
    · rw [(lessFloat_nan x y hx).1]; simp
  have keyf : ∀ x y : Float e m, lessFloat (floatOps e m) x y = false ↔
      ¬ ((x.isNaN = true ∧ y.isNaN = false) ∨ (x.isNaN = false ∧ y.isNaN = false ∧ x.value < y.value)) := by
    intro x y; rw [← key, Bool.not_eq_true]
  refine ⟨fun x => ?_, fun x y z => ?_, fun x y z => ?_⟩
  · rw [keyf]; cases x.isNaN <;> simp
  · rw [key, key, key]
    cases x.isNaN <;> cases y.isNaN <;> cases z.isNaN <;> simp
    omega
  · simp only [keyf]
    cases x.isNaN <;> cases y.isNaN <;> cases z.isNaN <;> simp
    omega

/-- float64 numbers for the examples. -/
abbrev F64 := Float 11 52
/-- 1.0 -/
def one : F64 := ⟨false, 1023, 0⟩
/-- -0 -/
def negZero : F64 := ⟨true, 0, 0⟩
/-- 0 -/
def posZero : F64 := ⟨false, 0, 0⟩
/-- a NaN -/
def nan : F64 := ⟨false, 2047, 1⟩
/-- infinity -/
def inf : F64 := ⟨false, 2047, 0⟩

/-- The operators at the ends of the range: infinity is above every finite number. -/
theorem finite_lt_inf {e m : Nat} (x : Float e m) (hx : x.exp ≠ BitVec.allOnes e) :
    (floatOps e m).lt x ⟨false, BitVec.allOnes e, 0⟩ = true := by
  have hnan : x.isNaN = false := by simp [Float.isNaN, hx]
  have hinf : (⟨false, BitVec.allOnes e, 0⟩ : Float e m).isNaN = false := by simp [Float.isNaN]
  simp only [floatOps, hnan, hinf, Bool.not_false, Bool.true_and, decide_eq_true_eq]
  have he : 0 < e := by
    rcases Nat.eq_zero_or_pos e with rfl | h
    · exact absurd (BitVec.eq_of_toNat_eq (by simp [BitVec.eq_nil x.exp])) hx
    · exact h
  have htop : (BitVec.allOnes e).toNat = 2 ^ e - 1 := BitVec.toNat_allOnes
  have h2e : 2 ≤ 2 ^ e := Nat.le_self_pow (by omega) 2
  have hexp : x.exp.toNat < 2 ^ e - 1 := by
    have h1 := x.exp.isLt
    have : x.exp.toNat ≠ 2 ^ e - 1 := fun h => hx (BitVec.eq_of_toNat_eq (by rw [h, htop]))
    omega
  have hne : BitVec.allOnes e ≠ 0 := fun h => by
    have := congrArg BitVec.toNat h
    rw [htop] at this
    simp at this
    omega
  have hu : x.units < (⟨false, BitVec.allOnes e, 0⟩ : Float e m).units := by
    have hf := x.frac.isLt
    unfold Float.units
    rw [if_neg hne]
    dsimp only
    rw [htop]
    have p1 : 0 < 2 ^ (2 ^ e - 1 - 1) := Nat.two_pow_pos _
    split
    · calc x.frac.toNat < 2 ^ m := hf
        _ = (2 ^ m + 0) * 1 := by simp
        _ ≤ (2 ^ m + 0) * 2 ^ (2 ^ e - 1 - 1) := Nat.mul_le_mul_left _ p1
    · rename_i hz
      have hz' : x.exp.toNat ≠ 0 := fun h => hz (BitVec.eq_of_toNat_eq (by simpa using h))
      have : 2 ^ (2 ^ e - 1 - 1) = 2 * 2 ^ (2 ^ e - 1 - 1 - 1) := by
        rw [← Nat.pow_succ']
        congr 1
        omega
      calc (2 ^ m + x.frac.toNat) * 2 ^ (x.exp.toNat - 1)
          < (2 ^ m + 2 ^ m) * 2 ^ (x.exp.toNat - 1) := Nat.mul_lt_mul_of_pos_right (by omega) (Nat.two_pow_pos _)
        _ ≤ (2 ^ m + 2 ^ m) * 2 ^ (2 ^ e - 1 - 1 - 1) :=
          Nat.mul_le_mul_left _ (Nat.pow_le_pow_right (by omega) (by omega))
        _ = 2 ^ m * 2 ^ (2 ^ e - 1 - 1) := by
          rw [this, ← Nat.two_mul, Nat.mul_comm 2 (2 ^ m), Nat.mul_assoc]
        _ = (2 ^ m + (0 : BitVec m).toNat) * 2 ^ (2 ^ e - 1 - 1) := by simp
  have : (⟨false, BitVec.allOnes e, 0⟩ : Float e m).value = (⟨false, BitVec.allOnes e, 0⟩ : Float e m).units := rfl
  rw [this]
  unfold Float.value
  split <;> omega

example : lessFloat (floatOps 11 52) nan one = true := by decide +kernel
example : lessFloat (floatOps 11 52) negZero one = true := by decide +kernel
example : lessFloat (floatOps 11 52) one inf = true := by decide +kernel
example : lessFloat (floatOps 11 52) posZero negZero = false := by decide +kernel

/-! ## C53: `FullComparatorOf`, `Min`, `Max` -/

/-- What `<`, `>` do on every ordered type of Go, floats included. -/
structure Ordered (o : Ops T) : Prop where
  gt : ∀ a b, o.gt a b = o.lt b a
  asymm : ∀ a b, o.lt a b = true → o.lt b a = false

theorem Total.ordered {o : Ops T} (h : Total o) : Ordered o :=
  ⟨h.gt, fun a b hab => (h.not_lt b a).2 (Or.inl hab)⟩

theorem float_ordered (e m : Nat) : Ordered (floatOps e m) where
  gt a b := by simp only [floatOps]; cases a.isNaN <;> cases b.isNaN <;> rfl
  asymm a b := by
    simp only [floatOps]
    cases a.isNaN <;> cases b.isNaN <;> simp
    omega

/-- C53: the sign of `FullComparatorOf` tells `a < b`, `a > b` or neither; swapping the arguments swaps the sign. This
holds for floats too: a NaN compares as equal to everything. -/
theorem fullComparatorOf_spec {o : Ops T} (ho : Ordered o) (a b : T) :
    (fullComparatorOf o a b < 0 ↔ o.lt a b = true) ∧ (fullComparatorOf o a b > 0 ↔ o.gt a b = true) ∧
      (fullComparatorOf o a b = 0 ↔ o.lt a b = false ∧ o.gt a b = false) ∧
      fullComparatorOf o b a = -fullComparatorOf o a b := by
  have h1 := ho.asymm a b
  have h2 := ho.asymm b a
  simp only [fullComparatorOf, ho.gt]
  cases hab : o.lt a b <;> cases hba : o.lt b a <;> simp [hab, hba] at *

/-- C53: on totally ordered types zero means equal. -/
theorem fullComparatorOf_zero {o : Ops T} (ho : Total o) (a b : T) : fullComparatorOf o a b = 0 ↔ a = b := by
  rw [(fullComparatorOf_spec ho.ordered a b).2.2.1, ho.gt]
  constructor
  · rintro ⟨h1, h2⟩
    rcases ho.total a b with g | g | g
    · rw [h1] at g; cases g
    · exact g
    · rw [h2] at g; cases g
  · rintro rfl; exact ⟨ho.irrefl a, ho.irrefl a⟩

/-- C53: on totally ordered types `Min` and `Max` return an argument, a bound of both, and do not depend on the order
of the arguments. -/
theorem min_max_spec {o : Ops T} (ho : Total o) (a b : T) :
    (min o a b = a ∨ min o a b = b) ∧ o.le (min o a b) a = true ∧ o.le (min o a b) b = true ∧ min o a b = min o b a ∧
      (max o a b = a ∨ max o a b = b) ∧ o.ge (max o a b) a = true ∧ o.ge (max o a b) b = true ∧
      max o a b = max o b a := by
  have lrefl : ∀ x, o.le x x = true := fun x => (ho.le x x).2 (Or.inr rfl)
  have grefl : ∀ x, o.ge x x = true := fun x => (ho.ge x x).2 (Or.inr rfl)
  have lflip : ∀ x y, o.le x y = false → o.le y x = true := by
    intro x y h
    have := ho.le x y
    rcases ho.total x y with g | g | g
    · have := this.2 (Or.inl g); rw [h] at this; cases this
    · have := this.2 (Or.inr g); rw [h] at this; cases this
    · exact (ho.le y x).2 (Or.inl g)
  have gflip : ∀ x y, o.ge x y = false → o.ge y x = true := by
    intro x y h
    have := ho.ge x y
    rcases ho.total y x with g | g | g
    · have := this.2 (Or.inl g); rw [h] at this; cases this
    · have := this.2 (Or.inr g.symm); rw [h] at this; cases this
    · exact (ho.ge y x).2 (Or.inl g)
  have lanti : ∀ x y, o.le x y = true → o.le y x = true → x = y := by
    intro x y h1 h2
    rcases (ho.le x y).1 h1 with g | g
    · rcases (ho.le y x).1 h2 with g' | g'
      · have := ho.trans x y x g g'; rw [ho.irrefl] at this; cases this
      · exact g'.symm
    · exact g
  have ganti : ∀ x y, o.ge x y = true → o.ge y x = true → x = y := by
    intro x y h1 h2
    rcases (ho.ge x y).1 h1 with g | g
    · rcases (ho.ge y x).1 h2 with g' | g'
      · have := ho.trans x y x g' g; rw [ho.irrefl] at this; cases this
      · exact g'.symm
    · exact g
  unfold min max
  refine ⟨by split <;> simp, ?_, ?_, ?_, by split <;> simp, ?_, ?_, ?_⟩
  · cases h : o.le a b
    · exact lflip a b h
    · exact lrefl a
  · cases h : o.le a b
    · exact lrefl b
    · exact h
  · cases h : o.le a b <;> cases h' : o.le b a <;> simp
    · have := lflip a b h; rw [h'] at this; cases this
    · exact lanti a b h h'
  · cases h : o.ge a b
    · exact gflip a b h
    · exact grefl a
  · cases h : o.ge a b
    · exact grefl b
    · exact h
  · cases h : o.ge a b <;> cases h' : o.ge b a <;> simp
    · have := gflip a b h; rw [h'] at this; cases this
    · exact ganti a b h h'

/-- C53 for floats as stated. -/
def MinCommFloat (e m : Nat) : Prop := ∀ a b : Float e m, min (floatOps e m) a b = min (floatOps e m) b a

/-- C53 is false for floats: with a NaN, `Min` and `Max` return their second argument; `Min(1, NaN)` is NaN and
`Min(NaN, 1)` is 1. -/
theorem not_minCommFloat : ¬ MinCommFloat 11 52 := by
  intro h
  have := h one nan
  revert this
  decide +kernel

/-- With a NaN, `Min` and `Max` return their second argument. -/
theorem min_max_nan (a b : Float e m) (h : a.isNaN = true ∨ b.isNaN = true) :
    min (floatOps e m) a b = b ∧ max (floatOps e m) a b = b := by
  have : (floatOps e m).le a b = false ∧ (floatOps e m).ge a b = false := by
    simp only [floatOps]
    rcases h with h | h <;> simp [h]
  simp [min, max, this.1, this.2]

/-- C53 for floats, where it holds: without NaN, `Min` and `Max` return an argument, a bound of both, and the same value
(not necessarily the same sign of zero) if the arguments are swapped. Missing: NaN, see `min_max_nan`. -/
theorem min_max_float_partial (a b : Float e m) (ha : a.isNaN = false) (hb : b.isNaN = false) :
    let lo := min (floatOps e m) a b
    let hi := max (floatOps e m) a b
    (lo = a ∨ lo = b) ∧ (floatOps e m).le lo a = true ∧ (floatOps e m).le lo b = true ∧
      (floatOps e m).eq lo (min (floatOps e m) b a) = true ∧ (hi = a ∨ hi = b) ∧ (floatOps e m).ge hi a = true ∧
      (floatOps e m).ge hi b = true ∧ (floatOps e m).eq hi (max (floatOps e m) b a) = true := by
  simp only [min, max, floatOps, ha, hb, Bool.not_false, Bool.true_and, decide_eq_true_eq]
  refine ⟨by split <;> simp, ?_, ?_, ?_, by split <;> simp, ?_, ?_, ?_⟩ <;>
    · repeat' split
      all_goals simp [ha, hb]
      all_goals omega

/-- **C53, exactly, for floats.** Swapping the arguments of `Min` or `Max` does not matter if and only if they
are the same or one is less than the other; it does for zeros of different signs and for NaN with anything
else. -/
theorem C53_float_exact (a b : Float e m) :
    (min (floatOps e m) a b = min (floatOps e m) b a ↔
      a = b ∨ (floatOps e m).lt a b = true ∨ (floatOps e m).lt b a = true) ∧
    (max (floatOps e m) a b = max (floatOps e m) b a ↔
      a = b ∨ (floatOps e m).lt a b = true ∨ (floatOps e m).lt b a = true) := by
  by_cases hn : a.isNaN = true ∨ b.isNaN = true
  · have h1 := min_max_nan a b hn
    have h2 := min_max_nan b a hn.symm
    have l1 : (floatOps e m).lt a b = false ∧ (floatOps e m).lt b a = false := by
      simp only [floatOps]
      rcases hn with h | h <;> simp [h]
    rw [h1.1, h1.2, h2.1, h2.2, l1.1, l1.2]
    simp only [Bool.false_eq_true, or_false]
    exact ⟨eq_comm, eq_comm⟩
  · have ha : a.isNaN = false := by cases h : a.isNaN <;> simp_all
    have hb : b.isNaN = false := by cases h : b.isNaN <;> simp_all
    simp only [min, max, floatOps, ha, hb, Bool.not_false, Bool.true_and, decide_eq_true_eq]
    rcases Int.lt_trichotomy a.value b.value with h | h | h
    · have h1 : a.value ≤ b.value := by omega
      have h2 : ¬ b.value ≤ a.value := by omega
      simp [h, h1, h2]
    · have h1 : a.value ≤ b.value := by omega
      have h2 : b.value ≤ a.value := by omega
      have h3 : ¬ a.value < b.value := by omega
      have h4 : ¬ b.value < a.value := by omega
      simp [h1, h2, h3, h4]
    · have h1 : ¬ a.value ≤ b.value := by omega
      have h2 : b.value ≤ a.value := by omega
      simp [h, h1, h2]

/-- The zeros: the sign depends on the order of the arguments. -/
theorem min_zeros : min (floatOps 11 52) posZero negZero = posZero ∧ min (floatOps 11 52) negZero posZero = negZero := by
  decide +kernel

example : min (signedOps 8) (-3 : BitVec 8) 5 = -3 := rfl
example : fullComparatorOf (floatOps 11 52) one nan = 0 := by decide +kernel
example : one.isNaN = false ∧ negZero.isNaN = false := by decide +kernel

/-! ## Sorting IEEE floats (C07) -/

/-- The comparison operators of a float format have the properties C07 assumes. -/
def ieee (e m : Nat) : Sort.FloatOps (Float e m) where
  lt := (floatOps e m).lt
  ge := (floatOps e m).ge
  isNaN := Float.isNaN
  lt_nan x y h := by rcases h with h | h <;> simp [floatOps, h]
  ge_nan x y h := by rcases h with h | h <;> simp [floatOps, h]
  ge_num x y hx hy := by
    simp only [floatOps, hx, hy, Bool.not_false, Bool.true_and, ← decide_not, decide_eq_decide]
    omega
  irrefl x := by simp [floatOps]
  trans x y z := by
    simp only [floatOps, Bool.and_eq_true, Bool.not_eq_true', decide_eq_true_eq]
    rintro ⟨⟨h1, h2⟩, h3⟩ ⟨⟨h4, h5⟩, h6⟩
    exact ⟨⟨h1, h5⟩, by omega⟩
  incomp x y z hy := by
    intro h1 h2 h3 h4 hx hz
    simp only [floatOps, hx, hy, hz, Bool.not_false, Bool.true_and, decide_eq_false_iff_not] at *
    omega

/-- `LessFloat` as used by the sort properties is `LessFloat` here. -/
theorem lessFloat_eq_sort (e m : Nat) : Sort.lessFloat (ieee e m) = lessFloat (floatOps e m) := by
  funext x y
  simp only [Sort.lessFloat, lessFloat, ieee, eq_self_iff, Bool.not_not]
  rfl

instance {e m : Nat} : Inhabited (Float e m) := ⟨⟨false, 0, 0⟩⟩

/-- C07 for every IEEE format: `Sort(data, LessFloat)` leaves all NaN first, then the numbers ascending. -/
theorem sort_lessFloat {e m : Nat} (data : List (Float e m)) :
    ∃ nans nums, Sort.sort (lessFloat (floatOps e m)) data = .ok (nans ++ nums) ∧ (nans ++ nums).Perm data ∧
      (∀ x ∈ nans, x.isNaN = true) ∧ (∀ x ∈ nums, x.isNaN = false) ∧
      nums.Pairwise (fun x y => (floatOps e m).lt y x = false) := by
  rw [← lessFloat_eq_sort]
  exact Sort.C07_lessFloat_partial (ieee e m) data

/-- C07's first sentence fails for float64: `SortOrdered([inf, NaN, 1])` leaves the slice as it is. -/
theorem sortOrdered_float64_false : ¬ Sort.C07Statement (ieee 11 52) := by
  intro h
  obtain ⟨out, h1, h2⟩ := h [inf, nan, one]
  have e : Sort.sortOrdered (ieee 11 52).lt (ieee 11 52).ge [inf, nan, one] = .ok [inf, nan, one] := by decide +kernel
  rw [e] at h1
  injection h1 with h1
  subst h1
  revert h2
  decide +kernel

end Verif.Xfn
