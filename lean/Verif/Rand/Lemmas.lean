import Verif.Rand.Model

/-!
# The first acceptable number
-/

namespace Verif.Rand

variable {S : Source}

/-- The source gives non-negative numbers, as `rand.Source` demands. -/
def NonNeg (S : Source) : Prop := ∀ q v q', S.int63 q = .ok (v, q') → v.toNat < 2 ^ 63

/-- Of the numbers `Int63` of the source gives from state `q` on, `w` is the first with `P`; then the state is `q'`. -/
inductive First (S : Source) (P : Nat → Prop) : S.σ → Nat → S.σ → Prop where
  | here (q q' : S.σ) (v : BitVec 64) : S.int63 q = .ok (v, q') → P v.toNat → First S P q v.toNat q'
  | later (q q' q'' : S.σ) (v : BitVec 64) (w : Nat) : S.int63 q = .ok (v, q') → ¬ P v.toNat → First S P q' w q'' → First S P q w q''

theorem First.prop {P : Nat → Prop} {q q' : S.σ} {w : Nat} (h : First S P q w q') : P w := by
  induction h with
  | here q q' v h1 h2 => exact h2
  | later q q' q'' v w h1 h2 h3 ih => exact ih

theorem First.lt (hS : NonNeg S) {P : Nat → Prop} {q q' : S.σ} {w : Nat} (h : First S P q w q') : w < 2 ^ 63 := by
  induction h with
  | here q q' v h1 h2 => exact hS q v q' h1
  | later q q' q'' v w h1 h2 h3 ih => exact ih

theorem First.imp {P P' : Nat → Prop} (hP : ∀ q v q', S.int63 q = .ok (v, q') → (P v.toNat ↔ P' v.toNat)) {q q' : S.σ} {w : Nat}
    (h : First S P q w q') : First S P' q w q' := by
  induction h with
  | here q q' v h1 h2 => exact .here _ _ _ h1 ((hP _ _ _ h1).1 h2)
  | later q q' q'' v w h1 h2 h3 ih => exact .later _ _ _ _ _ h1 (fun h => h2 ((hP _ _ _ h1).2 h)) ih

/-- There is one first number only. -/
theorem First.unique {P : Nat → Prop} {q q₁ q₂ : S.σ} {w₁ w₂ : Nat} (h₁ : First S P q w₁ q₁) (h₂ : First S P q w₂ q₂) :
    w₁ = w₂ ∧ q₁ = q₂ := by
  induction h₁ generalizing w₂ q₂ with
  | here q q' v h1 h2 =>
    cases h₂ with
    | here _ _ v' h1' h2' => rw [h1] at h1'; cases h1'; exact ⟨rfl, rfl⟩
    | later _ q'' _ v' _ h1' h2' h3' => rw [h1] at h1'; cases h1'; exact (h2' h2).elim
  | later q q' q'' v w h1 h2 h3 ih =>
    cases h₂ with
    | here _ _ v' h1' h2' => rw [h1] at h1'; cases h1'; exact (h2 h2').elim
    | later _ p _ v' _ h1' h2' h3' => rw [h1] at h1'; cases h1'; exact ih h3'

/-- `draw` takes one number and returns `f` of it. -/
def Takes {α : Type} (draw : Draw S α) (f : Nat → α) : Prop :=
  ∀ q, draw q = match S.int63 q with
    | .error e => some (.error e)
    | .ok (v, q') => some (.ok (f v.toNat, q'))

theorem again_ok {α : Type} {draw : Draw S α} {f : Nat → α} (hd : Takes draw f) (bad : α → Bool) (q : S.σ) (r : α) (q' : S.σ) :
    again S draw bad q = some (.ok (r, q')) ↔ ∃ w, First S (fun w => bad (f w) = false) q w q' ∧ r = f w := by
  constructor
  · intro h
    refine again.partial_correctness S draw bad
      (fun q x => ∀ r q', x = .ok (r, q') → ∃ w, First S (fun w => bad (f w) = false) q w q' ∧ r = f w) ?_ q _ h r q' rfl
    intro again' ih q x hx r q' hr
    subst hr
    rw [hd q] at hx
    cases e : S.int63 q with
    | error m => rw [e] at hx; cases hx
    | ok vq =>
      obtain ⟨v, q1⟩ := vq
      rw [e] at hx
      simp only at hx
      by_cases c : bad (f v.toNat) = true
      · rw [if_pos c] at hx
        obtain ⟨w, hw, er⟩ := ih q1 _ hx r q' rfl
        exact ⟨w, .later _ _ _ _ _ e (by simp [c]) hw, er⟩
      · rw [if_neg c] at hx
        cases hx
        exact ⟨_, .here _ _ _ e (by simpa using c), rfl⟩
  · rintro ⟨w, h, rfl⟩
    induction h with
    | here q q' v h1 h2 => rw [again, hd q, h1]; simp only; rw [if_neg (by simp [h2])]
    | later q q' q'' v w h1 h2 h3 ih => rw [again, hd q, h1]; simp only; rw [if_pos (by simpa using h2), ih]

/-- A method takes the first number with `P` and returns `f` of it. -/
def Picks {α : Type} (draw : Draw S α) (P : Nat → Prop) (f : Nat → α) : Prop :=
  ∀ q r q', draw q = some (.ok (r, q')) ↔ ∃ w, First S P q w q' ∧ r = f w

theorem Takes.picks {α : Type} {draw : Draw S α} {f : Nat → α} (hd : Takes draw f) : Picks draw (fun _ => True) f := by
  intro q r q'
  rw [hd q]
  constructor
  · intro h
    cases e : S.int63 q with
    | error m => rw [e] at h; cases h
    | ok vq =>
      obtain ⟨v, q1⟩ := vq
      rw [e] at h
      cases h
      exact ⟨_, .here _ _ _ e trivial, rfl⟩
  · rintro ⟨w, h, rfl⟩
    cases h with
    | here _ _ v h1 h2 => rw [h1]
    | later _ _ _ v _ h1 h2 h3 => exact (h2 trivial).elim

theorem bind_ok {α β : Type} {d : Draw S α} {k : α → Draw S β} {q : S.σ} {r : β} {q' : S.σ} :
    (d >>= k) q = some (.ok (r, q')) ↔ ∃ x q1, d q = some (.ok (x, q1)) ∧ k x q1 = some (.ok (r, q')) := by
  show (StateT.bind d k) q = _ ↔ _
  simp only [StateT.bind]
  show Option.bind (α := Except String (α × S.σ)) (d q) (ExceptT.bindCont (m := Option) fun x => k x.1 x.2) = _ ↔ _
  cases h : (d q : Option (Except String (α × S.σ))) with
  | none =>
    simp only [Option.bind]
    constructor
    · intro h; cases h
    · rintro ⟨x, q1, h1, -⟩
      cases h1
  | some y =>
    simp only [Option.bind]
    cases y with
    | error e =>
      simp only [ExceptT.bindCont]
      constructor
      · intro h; cases h
      · rintro ⟨x, q1, h1, -⟩
        injection h1 with h1; cases h1
    | ok z =>
      obtain ⟨x, q1⟩ := z
      simp only [ExceptT.bindCont]
      constructor
      · intro h; exact ⟨x, q1, rfl, h⟩
      · rintro ⟨x', q1', h1, h2⟩
        cases h1
        exact h2

theorem pure_ok {α : Type} {x r : α} {q q' : S.σ} : (pure x : Draw S α) q = some (.ok (r, q')) ↔ r = x ∧ q' = q := by
  show (some (.ok (x, q)) : Option (Except String (α × S.σ))) = _ ↔ _
  constructor
  · intro h; cases h; exact ⟨rfl, rfl⟩
  · rintro ⟨rfl, rfl⟩; rfl

theorem Picks.map {α β : Type} {draw : Draw S α} {P : Nat → Prop} {f : Nat → α} (h : Picks draw P f) (g : α → β) :
    Picks (do return g (← draw)) P (fun w => g (f w)) := by
  intro q r q'
  rw [bind_ok]
  constructor
  · rintro ⟨x, q1, h1, h2⟩
    obtain ⟨rfl, rfl⟩ := pure_ok.1 h2
    obtain ⟨w, hw, rfl⟩ := (h _ _ _).1 h1
    exact ⟨w, hw, rfl⟩
  · rintro ⟨w, hw, rfl⟩
    exact ⟨f w, q', (h _ _ _).2 ⟨w, hw, rfl⟩, pure_ok.2 ⟨rfl, rfl⟩⟩

theorem takes_int63 : Takes (int63 S) (BitVec.ofNat 64) := by
  intro q
  show some (S.int63 q) = _
  cases S.int63 q with
  | error e => rfl
  | ok vq => obtain ⟨v, q'⟩ := vq; simp

theorem Takes.map {α β : Type} {draw : Draw S α} {f : Nat → α} (h : Takes draw f) (g : α → β) :
    Takes (do return g (← draw)) (fun w => g (f w)) := by
  intro q
  show (do return g (← draw) : Draw S β) q = _
  have : (do return g (← draw) : Draw S β) q = Option.bind (α := Except String (α × S.σ)) (draw q)
      (ExceptT.bindCont (m := Option) fun x : α × S.σ => (some (.ok (g x.1, x.2)) : Option (Except String (β × S.σ)))) := rfl
  rw [this, h q]
  cases S.int63 q with
  | error e => rfl
  | ok vq => rfl

/-- What the numbers are matters only as far as the source gives them. -/
theorem Picks.congr {α : Type} (hS : NonNeg S) {draw : Draw S α} {P P' : Nat → Prop} {f f' : Nat → α} (h : Picks draw P f)
    (hP : ∀ w, w < 2 ^ 63 → (P w ↔ P' w)) (hf : ∀ w, w < 2 ^ 63 → P w → f w = f' w) : Picks draw P' f' := by
  intro q r q'
  rw [h]
  constructor
  · rintro ⟨w, hw, rfl⟩
    exact ⟨w, hw.imp fun q v q' e => hP _ (hS _ _ _ e), hf w (hw.lt hS) hw.prop⟩
  · rintro ⟨w, hw, rfl⟩
    have hw' := hw.imp (P' := P) fun q v q' e => (hP _ (hS _ _ _ e)).symm
    exact ⟨w, hw', (hf w (hw.lt hS) hw'.prop).symm⟩

end Verif.Rand
