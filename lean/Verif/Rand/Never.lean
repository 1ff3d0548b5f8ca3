import Verif.Rand.Shuffle

/-!
# When the methods panic
-/

namespace Verif.Rand

variable {S : Source}

/-- In the states `I` the source does not panic, and it stays in them. -/
def Safe (S : Source) (I : S.σ → Prop) : Prop := ∀ q, I q → ∃ v q', S.int63 q = .ok (v, q') ∧ I q'

/-- A method does not panic in the states `I`, and stays in them. -/
def Never {α : Type} (I : S.σ → Prop) (d : Draw S α) : Prop :=
  ∀ q, I q → (∀ e, d q ≠ some (.error e)) ∧ ∀ r q', d q = some (.ok (r, q')) → I q'

theorem Takes.never {α : Type} {I : S.σ → Prop} (h : Safe S I) {d : Draw S α} {f : Nat → α} (ht : Takes d f) : Never I d := by
  intro q hq
  obtain ⟨v, q1, e, hq1⟩ := h q hq
  have hd := ht q
  rw [e] at hd
  refine ⟨fun m hm => ?_, fun r q' hr => ?_⟩
  · rw [hd] at hm; injection hm with hm; cases hm
  · rw [hd] at hr; injection hr with hr; cases hr; exact hq1

theorem Never.pure {α : Type} {I : S.σ → Prop} (x : α) : Never I (pure x : Draw S α) := by
  intro q hq
  refine ⟨fun m hm => ?_, fun r q' hr => ?_⟩
  · injection hm with hm; cases hm
  · rw [(pure_ok.1 hr).2]; exact hq

theorem bind_error {α β : Type} {d : Draw S α} {k : α → Draw S β} {q : S.σ} {e : String}
    (h : (d >>= k) q = some (.error e)) : d q = some (.error e) ∨ ∃ x q1, d q = some (.ok (x, q1)) ∧ k x q1 = some (.error e) := by
  have h : Option.bind (α := Except String (α × S.σ)) (d q) (ExceptT.bindCont (m := Option) fun x => k x.1 x.2) = some (.error e) := h
  cases h' : (d q : Option (Except String (α × S.σ))) with
  | none => rw [h'] at h; cases h
  | some y =>
    rw [h'] at h
    cases y with
    | error m => injection h with h; cases h; exact .inl rfl
    | ok z => exact .inr ⟨z.1, z.2, rfl, h⟩

/-- What `d` returns may matter. -/
theorem Never.bind' {α β : Type} {I : S.σ → Prop} {d : Draw S α} {k : α → Draw S β} (Q : α → Prop) (h : Never I d)
    (hQ : ∀ q x q', d q = some (.ok (x, q')) → Q x) (hk : ∀ x, Q x → Never I (k x)) : Never I (d >>= k) := by
  intro q hq
  refine ⟨fun m hm => ?_, fun r q' hr => ?_⟩
  · rcases bind_error hm with h1 | ⟨x, q1, h1, h2⟩
    · exact (h q hq).1 m h1
    · exact (hk x (hQ _ _ _ h1) q1 ((h q hq).2 x q1 h1)).1 m h2
  · obtain ⟨x, q1, h1, h2⟩ := bind_ok.1 hr
    exact (hk x (hQ _ _ _ h1) q1 ((h q hq).2 x q1 h1)).2 r q' h2

theorem Never.bind {α β : Type} {I : S.σ → Prop} {d : Draw S α} {k : α → Draw S β} (h : Never I d)
    (hk : ∀ x, Never I (k x)) : Never I (d >>= k) :=
  h.bind' (fun _ => True) (fun _ _ _ _ => trivial) fun x _ => hk x

theorem Never.again {α : Type} {I : S.σ → Prop} {d : Draw S α} (h : Never I d) (bad : α → Bool) :
    Never I (Rand.again S d bad : Draw S α) := by
  have key := again.partial_correctness S d bad
    (fun q x => I q → (∀ e, x ≠ .error e) ∧ ∀ r q', x = .ok (r, q') → I q') (by
      intro again' ih q x hx hq
      have hd := h q hq
      cases e : (d q : Option (Except String (α × S.σ))) with
      | none => rw [e] at hx; cases hx
      | some y =>
        rw [e] at hx hd
        cases y with
        | error m => exact (hd.1 m rfl).elim
        | ok z =>
          obtain ⟨v, q1⟩ := z
          simp only at hx
          by_cases c : bad v = true
          · rw [if_pos c] at hx
            exact ih q1 x hx (hd.2 v q1 rfl)
          · rw [if_neg c] at hx
            cases hx
            refine ⟨fun m hm => (by cases hm), fun r q' hr => ?_⟩
            cases hr
            exact hd.2 _ _ rfl)
  intro q hq
  refine ⟨fun m hm => ?_, fun r q' hr => ?_⟩
  · exact (key q _ hm hq).1 m rfl
  · exact (key q _ hr hq).2 r q' rfl

variable {I : S.σ → Prop}

theorem never_int63 (h : Safe S I) : Never I (int63 S) := takes_int63.never h

theorem never_uint32 (h : Safe S I) : Never I (uint32 S) := (never_int63 h).bind fun _ => .pure _

theorem never_int31 (h : Safe S I) : Never I (int31 S) := (never_int63 h).bind fun _ => .pure _

theorem never_int (h : Safe S I) : Never I (int S) := (never_int63 h).bind fun _ => .pure _

theorem never_int63n (h : Safe S I) {n : BitVec 64} (hn : n.sle 0 = false) : Never I (int63n S n) := by
  unfold int63n
  rw [if_neg (by rw [hn]; exact Bool.false_ne_true)]
  split
  · exact (never_int63 h).bind fun _ => .pure _
  · exact ((never_int63 h).again _).bind fun _ => .pure _

theorem never_int31n (h : Safe S I) {n : BitVec 32} (hn : n.sle 0 = false) : Never I (int31n S n) := by
  unfold int31n
  rw [if_neg (by rw [hn]; exact Bool.false_ne_true)]
  split
  · exact (never_int31 h).bind fun _ => .pure _
  · exact ((never_int31 h).again _).bind fun _ => .pure _

theorem never_intn (h : Safe S I) {n : BitVec 64} (hn : n.sle 0 = false) : Never I (intn S n) := by
  obtain ⟨h0, h1⟩ := sle_zero (k := 63) |>.1 hn
  unfold intn
  rw [if_neg (by rw [hn]; exact Bool.false_ne_true)]
  split
  · rename_i c
    have c : n.toNat < 2 ^ 31 := by
      rw [BitVec.sle, toInt_small (k := 63) h1, decide_eq_true_eq] at c
      have : (BitVec.ofNat 64 (2 ^ 31 - 1)).toInt = 2 ^ 31 - 1 := by decide
      rw [this] at c
      omega
    have e : (n.setWidth 32).toNat = n.toNat := by rw [BitVec.toNat_setWidth]; exact Nat.mod_eq_of_lt (by omega)
    exact (never_int31n h ((sle_zero (k := 31)).2 (by rw [e]; omega))).bind fun _ => .pure _
  · exact never_int63n h hn

theorem never_fast (h : Safe S I) (n : BitVec 32) : Never I (int31nFast S n) := by
  have hp : Never I (prodOf S n) := (never_uint32 h).bind fun _ => .pure _
  unfold int31nFast
  refine hp.bind fun prod => ?_
  split
  · simp only
    split
    · exact (hp.again _).bind fun _ => .pure _
    · exact .pure _
  · exact .pure _

/-- Something that does not draw and does not panic. -/
theorem Never.lift {α : Type} {g : Go α} {x : α} (h : g = .ok x) : Never I (fun q => some (g.map (·, q)) : Draw S α) := by
  subst h
  exact Never.pure (S := S) x

theorem never_permLoop (hS : NonNeg S) (h : Safe S I) : ∀ (k i : Nat) (m : List Int), i + k ≤ m.length → i + k < 2 ^ 63 → Never I (permLoop S k i m) := by
  intro k
  induction k with
  | zero => intro i m _ _; exact .pure _
  | succ k ih =>
    intro i m hm hi
    have en : (BitVec.ofNat 64 (i + 1)).toNat = i + 1 := by rw [BitVec.toNat_ofNat]; exact Nat.mod_eq_of_lt (by omega)
    have hn : (BitVec.ofNat 64 (i + 1)).sle 0 = false := (sle_zero (k := 63)).2 (by rw [en]; omega)
    rw [permLoop]
    refine (never_intn h hn).bind' (fun j => 0 ≤ j.toInt ∧ j.toInt ≤ i) (fun q j q' hj => ?_) fun j hj => ?_
    · obtain ⟨w, hw, rfl⟩ := (picks_intn hS hn _ _ _).1 hj
      rw [en]
      have := reduce_lt (n := i + 1) (by omega) w
      have e : (BitVec.ofNat 64 (reduce (i + 1) w)).toNat = reduce (i + 1) w := by
        rw [BitVec.toNat_ofNat]; exact Nat.mod_eq_of_lt (by omega)
      rw [toInt_small (k := 63) (by rw [e]; omega), e]
      omega
    · obtain ⟨x, ex⟩ : ∃ x, goGet m j.toInt = .ok x := by
        refine ⟨m[j.toInt.toNat]'(by omega), ?_⟩
        unfold goGet
        rw [if_pos (by omega), List.getElem?_eq_getElem (by omega)]
      have eset : ∀ (m' : List Int) (a : Int) (b : Int), 0 ≤ a → a < m'.length → ∃ m'', goSet m' a b = .ok m'' ∧ m''.length = m'.length := by
        intro m' a b h1 h2
        exact ⟨m'.set a.toNat b, by unfold goSet; rw [if_pos (by omega)], by simp⟩
      obtain ⟨m1, e1, l1⟩ := eset m i x (by omega) (by omega)
      refine (Never.lift ex).bind' (· = x) (fun q y q' hy => ?_) fun y hy => ?_
      · rw [ex] at hy; cases hy; rfl
      subst hy
      refine (Never.lift e1).bind' (· = m1) (fun q y q' hy => ?_) fun y hy => ?_
      · rw [e1] at hy; cases hy; rfl
      subst hy
      obtain ⟨m2, e2, l2⟩ := eset y j.toInt i hj.1 (by omega)
      refine (Never.lift e2).bind' (· = m2) (fun q y q' hy => ?_) fun y hy => ?_
      · rw [e2] at hy; cases hy; rfl
      subst hy
      exact ih (i + 1) y (by omega) (by omega)

theorem never_shuffleLoop (hS : NonNeg S) (h : Safe S I) {τ : Type} {swap : τ → Nat → Int → Go τ} {J : τ → Prop} {n : Nat}
    (hswap : ∀ s i (j : Nat), J s → i < n → j ≤ i → ∃ s', swap s i j = .ok s' ∧ J s') :
    ∀ (i : Nat), i < n → i + 1 < 2 ^ 63 → ∀ s, J s → Never I (shuffleLoop S swap i s) := by
  intro i
  induction i with
  | zero => intro _ _ s _; exact .pure _
  | succ i ih =>
    intro hn hi s hs
    rw [shuffleLoop]
    have hidx : Never I (shuffleIndex S (i + 1)) := by
      unfold shuffleIndex
      have en : (BitVec.ofNat 64 (i + 1 + 1)).toNat = i + 1 + 1 := by rw [BitVec.toNat_ofNat]; exact Nat.mod_eq_of_lt (by omega)
      split
      · exact (never_int63n h ((sle_zero (k := 63)).2 (by rw [en]; omega))).bind fun _ => .pure _
      · exact (never_fast h _).bind fun _ => .pure _
    refine hidx.bind' (fun j => ∃ j' : Nat, j = j' ∧ j' ≤ i + 1) (fun q j q' hj => ?_) fun j hj => ?_
    · obtain ⟨w, hw, rfl⟩ := (picks_index hS (by omega) _ _ _).1 hj
      exact ⟨_, rfl, shReduce_le (hw.lt hS)⟩
    · obtain ⟨j', rfl, hj'⟩ := hj
      obtain ⟨s', e, hs'⟩ := hswap s (i + 1) j' hs hn hj'
      refine (Never.lift e).bind' (· = s') (fun q y q' hy => ?_) fun y hy => ?_
      · rw [e] at hy; cases hy; rfl
      subst hy
      exact ih (by omega) (by omega) _ hs'

end Verif.Rand
