import Verif.Algo.Effect

/-!
# C140: the algorithms while the range is being changed

The comparator may assign to elements of the range, and other goroutines may do so at any time, that is, before every
access. The models are those of Algo/Effect.lean and Algo/Model.lean, over iterators whose `Get` and `Set` let the others
go first.
-/

namespace Verif.Algo.Raced

open Verif.Iter Verif.Slice

variable {S T It : Type}

/-- An iterator of a range that others write to. Memory is that of the range and anything else; `tick` is what the others do
before the next access. -/
structure Shared {S σ : Type} (It : Type) (tick : S × σ → S × σ) where
  it : It

instance {σ : Type} (tick : S × σ → S × σ) [RandIter S T It] : RandIter (S × σ) T (Shared It tick) where
  next c := match next c.it with | .ok i => .ok ⟨i⟩ | .error e => .error e
  prev c := match prev c.it with | .ok i => .ok ⟨i⟩ | .error e => .error e
  add c n := match add c.it n with | .ok i => .ok ⟨i⟩ | .error e => .error e
  pos c := pos c.it
  get c := fun w => ((get c.it (tick w).1).1, ((get c.it (tick w).1).2, (tick w).2))
  set c x := fun w => ((set c.it x (tick w).1).1, ((set c.it x (tick w).1).2, (tick w).2))
  equal c d := equal c.it d.it

/-- A range whose elements may change all the time but stay among those that satisfy `may`. -/
structure Moving (S T It : Type) [RandIter S T It] (calls : S → Nat) where
  n : Nat
  pt : Nat → It
  ok : S → Prop
  may : T → Prop
  hn : (n : Int) < 9223372036854775808
  next_pt : ∀ i, i < n → next (pt i) = .ok (pt (i + 1))
  prev_pt : ∀ i, i < n → prev (pt (i + 1)) = .ok (pt i)
  equal_pt : ∀ i j, i ≤ n → j ≤ n → equal (pt i) (pt j) = .ok (decide (i = j))
  add_pt : ∀ i j : Nat, i ≤ n → j ≤ n → add (pt i) ((j : Int) - i) = .ok (pt j)
  pos_pt : ∀ i j, i ≤ n → j ≤ n → pos (pt j) - pos (pt i) = (j : Int) - i
  pos_int : ∀ i, i ≤ n → isInt64 (pos (pt i)) ∧ -9223372036854775808 < pos (pt i)
  get_pt : ∀ i s, i < n → ok s → ∃ x s', get (pt i) s = (.ok x, s') ∧ ok s' ∧ may x ∧ calls s' = calls s
  set_pt : ∀ i s x, i < n → ok s → may x → ∃ s', set (pt i) x s = (.ok (), s') ∧ ok s' ∧ calls s' = calls s

variable [RandIter S T It] {calls : S → Nat}

theorem Moving.distance_pt (m : Moving S T It calls) {i j : Nat} (hi : i ≤ m.n) (hj : j ≤ m.n) :
    distance (m.pt i) (m.pt j) = .ok ((j : Int) - i) := by
  unfold distance
  rw [m.equal_pt i j hi hj]
  have := m.hn
  show Except.ok (wrap64 (pos (m.pt j) - pos (m.pt i))) = _
  rw [m.pos_pt i j hi hj, wrap64_id]
  unfold isInt64; omega

/-- The same range from the other end. -/
def Moving.rev (m : Moving S T It calls) : Moving S T (Rev It) calls where
  n := m.n
  pt i := ⟨m.pt (m.n - i)⟩
  ok := m.ok
  may := m.may
  hn := m.hn
  next_pt i hi := by
    show (match prev (m.pt (m.n - i)) with | .ok i => Except.ok (Rev.mk i) | .error e => .error e) = _
    rw [show m.n - i = m.n - (i + 1) + 1 by omega, m.prev_pt _ (by omega)]
  prev_pt i hi := by
    show (match next (m.pt (m.n - (i + 1))) with | .ok i => Except.ok (Rev.mk i) | .error e => .error e) = _
    rw [m.next_pt _ (by omega), show m.n - (i + 1) + 1 = m.n - i by omega]
  equal_pt i j hi hj := by
    show equal (m.pt (m.n - i)) (m.pt (m.n - j)) = _
    rw [m.equal_pt _ _ (by omega) (by omega)]
    congr 1
    exact decide_eq_decide.2 (by omega)
  add_pt i j hi hj := by
    have := m.hn
    show (match add (m.pt (m.n - i)) (wrap64 (-((j : Int) - i))) with | .ok i => Except.ok (Rev.mk i) | .error e => .error e) = _
    rw [wrap64_id (by unfold isInt64; omega),
      show (-((j : Int) - i)) = ((m.n - j : Nat) : Int) - (m.n - i : Nat) by omega, m.add_pt _ _ (by omega) (by omega)]
  pos_pt i j hi hj := by
    show wrap64 (- pos (m.pt (m.n - j))) - wrap64 (- pos (m.pt (m.n - i))) = _
    have h1 := m.pos_int (m.n - j) (by omega)
    have h2 := m.pos_int (m.n - i) (by omega)
    have h3 := m.pos_pt (m.n - i) (m.n - j) (by omega) (by omega)
    unfold isInt64 at h1 h2
    rw [wrap64_id (by unfold isInt64; omega), wrap64_id (by unfold isInt64; omega)]
    omega
  pos_int i hi := by
    show isInt64 (wrap64 (- pos (m.pt (m.n - i)))) ∧ _ < wrap64 (- pos (m.pt (m.n - i)))
    have h1 := m.pos_int (m.n - i) (by omega)
    unfold isInt64 at h1
    rw [wrap64_id (by unfold isInt64; omega)]
    unfold isInt64
    omega
  get_pt i s hi hs := by
    obtain ⟨x, s', e, r⟩ := m.get_pt (m.n - (i + 1)) s (by omega) hs
    refine ⟨x, s', ?_, r⟩
    show (St.lift (prev (m.pt (m.n - i))) >>= fun i => get i) s = _
    have hp := m.prev_pt (m.n - (i + 1)) (by omega)
    rw [show m.n - (i + 1) + 1 = m.n - i by omega] at hp
    rw [St.bind_lift hp]
    exact e
  set_pt i s x hi hs hx := by
    obtain ⟨s', e, r⟩ := m.set_pt (m.n - (i + 1)) s x (by omega) hs hx
    refine ⟨s', ?_, r⟩
    show (St.lift (prev (m.pt (m.n - i))) >>= fun i => set i x) s = _
    have hp := m.prev_pt (m.n - (i + 1)) (by omega)
    rw [show m.n - (i + 1) + 1 = m.n - i by omega] at hp
    rw [St.bind_lift hp]
    exact e

/-- The comparator may change memory and the range, but writes only elements that satisfy `may`; `calls` counts its calls.
It is only asked about such elements. -/
structure Fair (ok : S → Prop) (may : T → Prop) (comp : Cmp S T) (calls : S → Nat) : Prop where
  kept : ∀ s a b, ok s → may a → may b → ok (comp a b s).2
  count : ∀ s a b, ok s → may a → may b → calls (comp a b s).2 = calls s + 1

/-- A run that called the comparator at most `n` times, only on elements that satisfy `may`, left only such elements, and
returned something that satisfies `Q` or ended with a panic of the comparator. -/
structure Runs (ok : S → Prop) (may : T → Prop) (comp : Cmp S T) (calls : S → Nat) {α : Type} (n : Nat) (Q : α → Prop) (s : S)
    (out : Go α × S) : Prop where
  kept : ok out.2
  count : calls out.2 ≤ calls s + n
  res : (∃ a, out.1 = .ok a ∧ Q a) ∨
    (∃ e a b s', out.1 = .error e ∧ may a ∧ may b ∧ comp a b s' = (.error e, out.2))

variable {ok : S → Prop} {may : T → Prop} {comp : Cmp S T} {α β : Type} {n : Nat} {Q : α → Prop}

theorem Runs.ret {s : S} (hs : ok s) {a : α} (h : Q a) : Runs ok may comp calls n Q s (.ok a, s) :=
  ⟨hs, by simp, .inl ⟨a, rfl, h⟩⟩

theorem Runs.ask (t : Fair ok may comp calls) {s : S} (hs : ok s) {a b : T} (ha : may a) (hb : may b) (f : Bool → St S α)
    (h : ∀ c s', ok s' → calls s' = calls s + 1 → Runs ok may comp calls n Q s' (f c s')) :
    Runs ok may comp calls (n + 1) Q s ((comp a b >>= f) s) := by
  have h1 := t.kept s a b hs ha hb
  have h2 := t.count s a b hs ha hb
  rw [St.bind_apply]
  rcases e : comp a b s with ⟨r, s'⟩
  rw [e] at h1 h2
  simp only at h1 h2
  cases r with
  | error m => exact ⟨h1, by simp only; omega, .inr ⟨m, a, b, s, rfl, ha, hb, e⟩⟩
  | ok c =>
    obtain ⟨g1, g2, g3⟩ := h c s' h1 h2
    exact ⟨g1, by show calls (f c s').2 ≤ _; omega, g3⟩

/-- After an access that is not a call. -/
theorem Runs.step {s s' : S} {out : Go α × S} (h : Runs ok may comp calls n Q s' out) (e : calls s' = calls s) :
    Runs ok may comp calls n Q s out := ⟨h.kept, by have := h.count; omega, h.res⟩

theorem Runs.mono {m : Nat} {R : α → Prop} {s : S} {out : Go α × S} (h : Runs ok may comp calls n Q s out) (hnm : n ≤ m)
    (hQ : ∀ a, Q a → R a) : Runs ok may comp calls m R s out :=
  ⟨h.kept, by have := h.count; omega, h.res.imp (fun ⟨a, e, q⟩ => ⟨a, e, hQ a q⟩) id⟩

theorem Runs.bind {m : Nat} {R : β → Prop} {s : S} {p : St S α} (h : Runs ok may comp calls n Q s (p s)) (f : α → St S β)
    (hf : ∀ a s', ok s' → Q a → Runs ok may comp calls m R s' (f a s')) :
    Runs ok may comp calls (n + m) R s ((p >>= f) s) := by
  obtain ⟨h1, h2, h3⟩ := h
  rw [St.bind_apply]
  rcases e : p s with ⟨r, s'⟩
  rw [e] at h1 h2 h3
  rcases h3 with ⟨a, rfl, q⟩ | ⟨m', a, b, s'', rfl, ha, hb, hc⟩
  · obtain ⟨g1, g2, g3⟩ := hf a s' h1 q
    exact ⟨g1, by simp only at h2 ⊢; omega, g3⟩
  · exact ⟨h1, by simp only at h2 ⊢; omega, .inr ⟨m', a, b, s'', rfl, ha, hb, hc⟩⟩

/-! ## The searches -/

theorem lowerLoop (m : Moving S T It calls) (t : Fair m.ok m.may comp calls) {value : T} (hv : m.may value) :
    ∀ (b count i : Nat) (s : S), m.ok s → i + count ≤ m.n → count < 2 ^ b →
    Runs m.ok m.may comp calls b (fun it => ∃ k, i ≤ k ∧ k ≤ i + count ∧ it = m.pt k) s
      (lowerBoundLoopM comp value (m.pt i) count s) := by
  intro b
  induction b with
  | zero =>
    intro count i s hs hi hb
    have : count = 0 := by simpa using hb
    subst this
    unfold lowerBoundLoopM
    rw [if_neg (by omega)]
    exact .ret hs ⟨i, by omega, by omega, rfl⟩
  | succ b ih =>
    intro count i s hs hi hb
    unfold lowerBoundLoopM
    by_cases h0 : 0 < count
    · rw [if_pos h0]
      have ha := m.add_pt i (i + count / 2) (by omega) (by omega)
      rw [show (((i + count / 2 : Nat) : Int) - (i : Int)) = ((count / 2 : Nat) : Int) by omega] at ha
      obtain ⟨x, s1, e1, hs1, hx, hc1⟩ := m.get_pt (i + count / 2) s (by omega) hs
      rw [St.bind_lift ha, St.bind_ok e1]
      refine Runs.step (Runs.ask t hs1 hx hv _ ?_) hc1
      intro c s' hs' _
      rw [Nat.pow_succ] at hb
      cases c with
      | false =>
        rw [if_neg (by simp)]
        exact (ih (count / 2) i s' hs' (by omega) (by omega)).mono (Nat.le_refl _)
          (fun it ⟨k, k1, k2, e⟩ => ⟨k, k1, by omega, e⟩)
      | true =>
        rw [if_pos rfl, St.bind_lift (m.next_pt (i + count / 2) (by omega))]
        exact (ih (count - (count / 2 + 1)) (i + count / 2 + 1) s' hs' (by omega) (by omega)).mono (Nat.le_refl _)
          (fun it ⟨k, k1, k2, e⟩ => ⟨k, by omega, by omega, e⟩)
    · rw [if_neg h0]
      exact .ret hs ⟨i, by omega, by omega, rfl⟩

theorem upperLoop (m : Moving S T It calls) (t : Fair m.ok m.may comp calls) {value : T} (hv : m.may value) :
    ∀ (b count i : Nat) (s : S), m.ok s → i + count ≤ m.n → count < 2 ^ b →
    Runs m.ok m.may comp calls b (fun it => ∃ k, i ≤ k ∧ k ≤ i + count ∧ it = m.pt k) s
      (upperBoundLoopM comp value (m.pt i) count s) := by
  intro b
  induction b with
  | zero =>
    intro count i s hs hi hb
    have : count = 0 := by simpa using hb
    subst this
    unfold upperBoundLoopM
    rw [if_neg (by omega)]
    exact .ret hs ⟨i, by omega, by omega, rfl⟩
  | succ b ih =>
    intro count i s hs hi hb
    unfold upperBoundLoopM
    by_cases h0 : 0 < count
    · rw [if_pos h0]
      have ha := m.add_pt i (i + count / 2) (by omega) (by omega)
      rw [show (((i + count / 2 : Nat) : Int) - (i : Int)) = ((count / 2 : Nat) : Int) by omega] at ha
      obtain ⟨x, s1, e1, hs1, hx, hc1⟩ := m.get_pt (i + count / 2) s (by omega) hs
      rw [St.bind_lift ha, St.bind_ok e1]
      refine Runs.step (Runs.ask t hs1 hv hx _ ?_) hc1
      intro c s' hs' _
      rw [Nat.pow_succ] at hb
      cases c with
      | true =>
        rw [if_neg (by simp)]
        exact (ih (count / 2) i s' hs' (by omega) (by omega)).mono (Nat.le_refl _)
          (fun it ⟨k, k1, k2, e⟩ => ⟨k, k1, by omega, e⟩)
      | false =>
        rw [if_pos (by simp), St.bind_lift (m.next_pt (i + count / 2) (by omega))]
        exact (ih (count - (count / 2 + 1)) (i + count / 2 + 1) s' hs' (by omega) (by omega)).mono (Nat.le_refl _)
          (fun it ⟨k, k1, k2, e⟩ => ⟨k, by omega, by omega, e⟩)
    · rw [if_neg h0]
      exact .ret hs ⟨i, by omega, by omega, rfl⟩

theorem lower (m : Moving S T It calls) (t : Fair m.ok m.may comp calls) {value : T} (hv : m.may value) {i j b : Nat} {s : S}
    (hs : m.ok s) (hij : i ≤ j) (hj : j ≤ m.n) (hb : j - i < 2 ^ b) :
    Runs m.ok m.may comp calls b (fun it => ∃ k, i ≤ k ∧ k ≤ j ∧ it = m.pt k) s
      (lowerBoundM comp (m.pt i) (m.pt j) value s) := by
  unfold lowerBoundM
  rw [St.bind_lift (m.distance_pt (by omega) hj), if_neg (by omega), show ((j : Int) - i).toNat = j - i by omega]
  exact (lowerLoop m t hv b (j - i) i s hs (by omega) hb).mono (Nat.le_refl _) (fun it ⟨k, k1, k2, e⟩ => ⟨k, k1, by omega, e⟩)

theorem upper (m : Moving S T It calls) (t : Fair m.ok m.may comp calls) {value : T} (hv : m.may value) {i j b : Nat} {s : S}
    (hs : m.ok s) (hij : i ≤ j) (hj : j ≤ m.n) (hb : j - i < 2 ^ b) :
    Runs m.ok m.may comp calls b (fun it => ∃ k, i ≤ k ∧ k ≤ j ∧ it = m.pt k) s
      (upperBoundM comp (m.pt i) (m.pt j) value s) := by
  unfold upperBoundM
  rw [St.bind_lift (m.distance_pt (by omega) hj), if_neg (by omega), show ((j : Int) - i).toNat = j - i by omega]
  exact (upperLoop m t hv b (j - i) i s hs (by omega) hb).mono (Nat.le_refl _) (fun it ⟨k, k1, k2, e⟩ => ⟨k, k1, by omega, e⟩)

/-! ## IsSorted -/

theorem sortedLoop (m : Moving S T It calls) (t : Fair m.ok m.may comp calls) {j : Nat} (hj : j ≤ m.n) :
    ∀ (fuel p : Nat) (s : S), m.ok s → p + 1 ≤ j → j - p ≤ fuel →
    Runs m.ok m.may comp calls (j - (p + 1)) (fun it => ∃ k, p < k ∧ k ≤ j ∧ it = m.pt k) s
      (isSortedLoopM comp (m.pt j) fuel (m.pt p) (m.pt (p + 1)) s) := by
  intro fuel
  induction fuel with
  | zero => intro p s hs h1 h2; omega
  | succ fuel ih =>
    intro p s hs h1 h2
    unfold isSortedLoopM
    rw [St.bind_lift (m.equal_pt (p + 1) j (by omega) hj)]
    by_cases h0 : p + 1 = j
    · rw [if_pos (by simpa using h0)]
      exact .ret hs ⟨j, by omega, by omega, rfl⟩
    · rw [if_neg (by simpa using h0)]
      obtain ⟨x, s1, e1, hs1, hx, hc1⟩ := m.get_pt (p + 1) s (by omega) hs
      obtain ⟨y, s2, e2, hs2, hy, hc2⟩ := m.get_pt p s1 (by omega) hs1
      rw [St.bind_ok e1, St.bind_ok e2, show j - (p + 1) = j - (p + 1 + 1) + 1 by omega]
      refine Runs.step (Runs.ask t hs2 hx hy _ ?_) (hc2.trans hc1)
      intro c s' hs' _
      cases c with
      | true => exact .ret hs' ⟨p + 1, by omega, by omega, rfl⟩
      | false =>
        rw [if_neg (by simp), St.bind_lift (m.next_pt (p + 1) (by omega))]
        exact (ih (p + 1) s' hs' (by omega) (by omega)).mono (Nat.le_refl _) (fun it ⟨k, k1, k2, e⟩ => ⟨k, by omega, k2, e⟩)

theorem sortedUntil (m : Moving S T It calls) (t : Fair m.ok m.may comp calls) {i j : Nat} (hij : i ≤ j) (hj : j ≤ m.n)
    {fuel : Nat} (hf : j - i ≤ fuel) {s : S} (hs : m.ok s) :
    Runs m.ok m.may comp calls (j - i - 1) (fun it => ∃ k, i ≤ k ∧ k ≤ j ∧ (k < j → i < k) ∧ it = m.pt k) s
      (isSortedUntilM fuel comp (m.pt i) (m.pt j) s) := by
  unfold isSortedUntilM
  rw [St.bind_lift (m.equal_pt i j (by omega) hj)]
  by_cases h0 : i = j
  · rw [if_pos (by simpa using h0)]
    exact .ret hs ⟨j, by omega, by omega, fun h => by omega, rfl⟩
  · rw [if_neg (by simpa using h0), St.bind_lift (m.next_pt i (by omega))]
    exact (sortedLoop m t hj fuel i s hs (by omega) hf).mono (by omega) (fun it ⟨k, k1, k2, e⟩ => ⟨k, by omega, k2,
      fun _ => k1, e⟩)

/-! ## Swap and Reverse -/

theorem swapped (m : Moving S T It calls) {i j : Nat} (hi : i < m.n) (hj : j < m.n) {s : S} (hs : m.ok s) :
    ∃ s', swap (m.pt i) (m.pt j) s = (.ok (), s') ∧ m.ok s' ∧ calls s' = calls s := by
  unfold swap
  rw [St.bind_lift (m.equal_pt i j (by omega) (by omega))]
  by_cases h0 : i = j
  · rw [if_pos (by simpa using h0)]
    exact ⟨s, rfl, hs, rfl⟩
  · rw [if_neg (by simpa using h0)]
    obtain ⟨x, s1, e1, hs1, hx, hc1⟩ := m.get_pt i s hi hs
    obtain ⟨y, s2, e2, hs2, hy, hc2⟩ := m.get_pt j s1 hj hs1
    obtain ⟨s3, e3, hs3, hc3⟩ := m.set_pt i s2 y hi hs2 hy
    obtain ⟨s4, e4, hs4, hc4⟩ := m.set_pt j s3 x hj hs3 hx
    rw [St.bind_ok e1, St.bind_ok e2, St.bind_ok e3]
    exact ⟨s4, e4, hs4, by omega⟩

theorem reversed (m : Moving S T It calls) : ∀ (fuel i j : Nat) (s : S), i ≤ j → j ≤ m.n → j - i < fuel → m.ok s →
    ∃ s', reverse fuel (m.pt i) (m.pt j) s = (.ok (), s') ∧ m.ok s' ∧ calls s' = calls s := by
  intro fuel
  induction fuel with
  | zero => intro i j s h1 h2 h3; omega
  | succ fuel ih =>
    intro i j s hij hj hf hs
    unfold reverse
    rw [St.bind_lift (m.equal_pt i j (by omega) hj)]
    by_cases h0 : i = j
    · rw [if_pos (by simpa using h0)]
      exact ⟨s, rfl, hs, rfl⟩
    · rw [if_neg (by simpa using h0)]
      have hp := m.prev_pt (j - 1) (by omega)
      rw [show j - 1 + 1 = j by omega] at hp
      rw [St.bind_lift hp, St.bind_lift (m.equal_pt i (j - 1) (by omega) (by omega))]
      by_cases h1 : i = j - 1
      · rw [if_pos (by simpa using h1)]
        exact ⟨s, rfl, hs, rfl⟩
      · rw [if_neg (by simpa using h1)]
        obtain ⟨s1, e1, hs1, hc1⟩ := swapped m (i := i) (j := j - 1) (by omega) (by omega) hs
        rw [St.bind_ok e1, St.bind_lift (m.next_pt i (by omega))]
        obtain ⟨s2, e2, hs2, hc2⟩ := ih (i + 1) (j - 1) s1 (by omega) (by omega) (by omega) hs1
        exact ⟨s2, e2, hs2, by omega⟩

/-! ## NextPermutation -/

theorem Fair.rev {m : Moving S T It calls} (t : Fair m.ok m.may comp calls) : Fair m.rev.ok m.rev.may comp calls := t

theorem nextPerm (m : Moving S T It calls) (t : Fair m.ok m.may comp calls) {i j b : Nat} (hij : i ≤ j) (hj : j ≤ m.n)
    (hb : j - i < 2 ^ b) {fuel : Nat} (hf : j - i < fuel) {s : S} (hs : m.ok s) :
    Runs m.ok m.may comp calls (j - i - 1 + b) (fun _ => True) s (nextPermutationM fuel comp (m.pt i) (m.pt j) s) := by
  have ptF : (⟨m.pt j⟩ : Rev It) = m.rev.pt (m.n - j) := by
    show _ = (⟨m.pt (m.n - _)⟩ : Rev It); congr 2; omega
  have ptL : (⟨m.pt i⟩ : Rev It) = m.rev.pt (m.n - i) := by
    show _ = (⟨m.pt (m.n - _)⟩ : Rev It); congr 2; omega
  have rn : m.rev.n = m.n := rfl
  unfold nextPermutationM
  rw [ptF, ptL]
  have r1 := sortedUntil m.rev (i := m.n - j) (j := m.n - i) t.rev (by omega) (by omega) (fuel := fuel) (by omega) hs
  have hsub : m.n - i - (m.n - j) = j - i := by omega
  rw [hsub] at r1
  refine Runs.bind r1 _ ?_
  rintro left s1 hs1 ⟨k, k1, k2, k3, rfl⟩
  have r2 : Runs m.ok m.may comp calls b (fun _ : Unit => True) s1
      (permSwapM comp (m.rev.pt (m.n - j)) (m.rev.pt (m.n - i)) (m.rev.pt k) s1) := by
    unfold permSwapM
    rw [St.bind_lift (m.rev.equal_pt k (m.n - i) (by omega) (by omega))]
    by_cases h0 : k = m.n - i
    · rw [if_pos (by simpa using h0)]
      exact .ret hs1 trivial
    · rw [if_neg (by simpa using h0)]
      obtain ⟨x, s2, e2, hs2, hx, hc2⟩ := m.rev.get_pt k s1 (by omega) hs1
      rw [St.bind_ok e2]
      refine Runs.step (Runs.mono (m := b) (n := b + 0) (Runs.bind (upper m.rev (i := m.n - j) (j := k) (b := b) t.rev hx hs2
        (by omega) (by omega) (by omega)) _ ?_) (Nat.le_refl _) (fun _ h => h)) hc2
      rintro right s3 hs3 ⟨q, q1, q2, rfl⟩
      obtain ⟨s4, e4, hs4, hc4⟩ := swapped m.rev (i := k) (j := q) (by omega) (by omega) hs3
      rw [e4]
      exact ⟨hs4, by show calls s4 ≤ _; omega, .inl ⟨(), rfl, trivial⟩⟩
  refine (Runs.bind (m := 0) (R := fun _ : Bool => True) r2 _ ?_)
  intro _ s3 hs3 _
  have base : (m.rev.pt k).base = m.pt (m.n - k) := rfl
  rw [base]
  obtain ⟨s4, e4, hs4, hc4⟩ := reversed m fuel (m.n - k) j s3 (by omega) hj (by omega) hs3
  rw [St.bind_ok e4, St.bind_lift (m.rev.equal_pt k (m.n - i) (by omega) (by omega))]
  exact ⟨hs4, by show calls s4 ≤ _; omega, .inl ⟨_, rfl, trivial⟩⟩

/-! ## FillN -/

theorem filled (m : Moving S T It calls) {x : T} (hx : m.may x) : ∀ (c i : Nat) (s : S), i + c ≤ m.n → m.ok s →
    ∃ s', fillLoop x c (m.pt i) s = (.ok (m.pt (i + c)), s') ∧ m.ok s' ∧ calls s' = calls s := by
  intro c
  induction c with
  | zero => exact fun i s _ hs => ⟨s, rfl, hs, rfl⟩
  | succ c ih =>
    intro i s hi hs
    obtain ⟨s1, e1, hs1, hc1⟩ := m.set_pt i s x (by omega) hs hx
    obtain ⟨s2, e2, hs2, hc2⟩ := ih (i + 1) s1 (by omega) hs1
    unfold fillLoop
    rw [St.bind_ok e1, St.bind_lift (m.next_pt i (by omega))]
    exact ⟨s2, by rw [e2, show i + 1 + c = i + (c + 1) by omega], hs2, by omega⟩

/-! ## Any range that others write to -/

section shared
variable {σ : Type}

/-- The range exists, and holds only elements that satisfy `may`. -/
def Holds (v : View S T It) (may : T → Prop) (w : S × σ) : Prop := v.ok w.1 ∧ ∀ x ∈ v.elems w.1, may x

/-- The others write only elements that satisfy `may`, and do not call the comparator. -/
structure Others (v : View S T It) (may : T → Prop) (calls : σ → Nat) (tick : S × σ → S × σ) : Prop where
  holds : ∀ w, Holds v may w → Holds v may (tick w)
  count : ∀ w, Holds v may w → calls (tick w).2 = calls w.2

/-- The position `i` of a range, as an iterator of the shared range. -/
def at_ (v : View S T It) (tick : S × σ → S × σ) (i : Nat) : Shared It tick := ⟨v.pt i⟩

/-- A range that others write to. -/
def moving (v : View S T It) (may : T → Prop) (calls : σ → Nat) (tick : S × σ → S × σ) (o : Others v may calls tick) :
    Moving (S × σ) T (Shared It tick) (fun w => calls w.2) where
  n := v.n
  pt := at_ v tick
  ok := Holds v may
  may := may
  hn := v.hn
  next_pt i hi := by
    show (match next (v.pt i) with | .ok i => Except.ok (Shared.mk (tick := tick) i) | .error e => .error e) = _
    rw [v.next_pt i hi]; rfl
  prev_pt i hi := by
    show (match prev (v.pt (i + 1)) with | .ok i => Except.ok (Shared.mk (tick := tick) i) | .error e => .error e) = _
    rw [v.prev_pt i hi]; rfl
  equal_pt i j hi hj := v.equal_pt i j hi hj
  add_pt i j hi hj := by
    show (match add (v.pt i) ((j : Int) - i) with | .ok i => Except.ok (Shared.mk (tick := tick) i) | .error e => .error e) = _
    rw [v.add_pt i j hi hj]; rfl
  pos_pt := v.pos_pt
  pos_int := v.pos_int
  get_pt i w hi hw := by
    obtain ⟨h1, h2⟩ := o.holds w hw
    have hL := v.len _ h1
    have hx : (v.elems (tick w).1)[i]? = some (v.elems (tick w).1)[i] := List.getElem?_eq_getElem (by omega)
    have e := v.get_pt _ i _ h1 hx
    have hi : i < (v.elems (tick w).1).length := by omega
    refine ⟨(v.elems (tick w).1)[i], tick w, ?_, ⟨h1, h2⟩, h2 _ (List.getElem_mem hi), o.count w hw⟩
    show ((get (v.pt i) (tick w).1).1, ((get (v.pt i) (tick w).1).2, (tick w).2)) = _
    rw [e]
  set_pt i w x hi hw hx := by
    obtain ⟨h1, h2⟩ := o.holds w hw
    have hL := v.len _ h1
    have e := v.set_pt _ i x h1 hi
    have hl : ((v.elems (tick w).1).set i x).length = v.n := by rw [List.length_set]; exact hL
    refine ⟨(v.put (tick w).1 ((v.elems (tick w).1).set i x), (tick w).2), ?_, ⟨v.ok_put _ _ h1 hl, ?_⟩, o.count w hw⟩
    · show ((set (v.pt i) x (tick w).1).1, ((set (v.pt i) x (tick w).1).2, (tick w).2)) = _
      rw [e]
    · rw [v.elems_put _ _ h1 hl]
      intro y hy
      rcases List.mem_or_eq_of_mem_set hy with h | h
      · exact h2 y h
      · rw [h]; exact hx

/-- **C140.** While the comparator and others write to a range: `LowerBound`, `UpperBound`, `IsSortedUntil` and
`NextPermutation` call the comparator no more often than otherwise and only on elements that were in the range or were
written, return a position in the range, or end with a panic of the comparator; nothing else panics. -/
theorem C140_searches (v : View S T It) (may : T → Prop) (calls : σ → Nat) (tick : S × σ → S × σ)
    (o : Others v may calls tick) (comp : Cmp (S × σ) T) (t : Fair (Holds v may) may comp fun w => calls w.2)
    (value : T) (hv : may value) (w : S × σ) (hw : Holds v may w) (i j b : Nat) (hij : i ≤ j) (hj : j ≤ v.n)
    (hb : j - i < 2 ^ b) (fuel : Nat) (hf : j - i < fuel) :
    Runs (Holds v may) may comp (fun w => calls w.2) b (fun it => ∃ k, i ≤ k ∧ k ≤ j ∧ it = at_ v tick k) w
      (lowerBoundM comp (at_ v tick i) (at_ v tick j) value w) ∧
    Runs (Holds v may) may comp (fun w => calls w.2) b (fun it => ∃ k, i ≤ k ∧ k ≤ j ∧ it = at_ v tick k) w
      (upperBoundM comp (at_ v tick i) (at_ v tick j) value w) ∧
    Runs (Holds v may) may comp (fun w => calls w.2) (j - i - 1)
      (fun it => ∃ k, i ≤ k ∧ k ≤ j ∧ (k < j → i < k) ∧ it = at_ v tick k) w
      (isSortedUntilM fuel comp (at_ v tick i) (at_ v tick j) w) ∧
    Runs (Holds v may) may comp (fun w => calls w.2) (j - i - 1 + b) (fun _ => True) w
      (nextPermutationM fuel comp (at_ v tick i) (at_ v tick j) w) :=
  let m := moving v may calls tick o
  ⟨lower m t hv hw hij hj hb, upper m t hv hw hij hj hb, sortedUntil m t hij hj (by omega) hw, nextPerm m t hij hj hb hf hw⟩

/-- **C140.** While others write to a range, `Swap`, `Reverse` and `FillN` return, and leave only elements that were in the
range or were written. -/
theorem C140_writers (v : View S T It) (may : T → Prop) (calls : σ → Nat) (tick : S × σ → S × σ)
    (o : Others v may calls tick) (w : S × σ) (hw : Holds v may w) (i j : Nat) (hij : i ≤ j) (hj : j ≤ v.n) (x : T)
    (hx : may x) (fuel : Nat) (hf : j - i < fuel) :
    (∃ w', reverse fuel (at_ v tick i) (at_ v tick j) w = (.ok (), w') ∧ Holds v may w') ∧
    (∃ w', fillN (at_ v tick i) ((j : Int) - i) x w = (.ok (at_ v tick j), w') ∧ Holds v may w') ∧
    (j < v.n → ∃ w', swap (at_ v tick i) (at_ v tick j) w = (.ok (), w') ∧ Holds v may w') := by
  let m := moving v may calls tick o
  refine ⟨?_, ?_, ?_⟩
  · obtain ⟨w', e, h, -⟩ := reversed m fuel i j w hij hj hf hw
    exact ⟨w', e, h⟩
  · obtain ⟨w', e, h, -⟩ := filled m hx (j - i) i w (by show _ ≤ v.n; omega) hw
    refine ⟨w', ?_, h⟩
    unfold fillN
    rw [show ((j : Int) - i).toNat = j - i by omega]
    rw [show i + (j - i) = j by omega] at e
    exact e
  · intro hj'
    obtain ⟨w', e, h, -⟩ := swapped m (i := i) (j := j) (by show _ < v.n; omega) hj' hw
    exact ⟨w', e, h⟩

end shared

/-! ## Examples -/

/-- A comparator that counts its calls and overwrites the first element by its second argument. -/
def meddling : Cmp (Heap Nat × Nat) Nat := fun a b w => (.ok (decide (a < b)), (poke w.1 (.arr 0 0) 0 [b], w.2 + 1))

/-- The others overwrite the third element. -/
def intruder : Heap Nat × Nat → Heap Nat × Nat := fun w => (poke w.1 (.arr 0 0) 2 [4], w.2)

/-- The slice of the examples. -/
def exView : View (Heap Nat) Nat (SIter Nat) :=
  viewOf (h := [[1, 2, 3, 4]]) (s := ⟨.arr 0 0, 4, 4⟩) ⟨by decide, by decide, _, rfl, by decide⟩

theorem exPoke {h : Heap Nat} {n i x : Nat} (hw : Holds exView (· < 5) (h, n)) (hi : i < 4) (hx : x < 5) (k : Nat) :
    Holds exView (· < 5) (poke h (.arr 0 0) i [x], k) := by
  obtain ⟨h1, h2⟩ := hw
  have h1 : Valid h ⟨.arr 0 0, 4, 4⟩ := h1
  have hs : i + [x].length ≤ (⟨.arr 0 0, 4, 4⟩ : Slice).len := by show i + 1 ≤ 4; omega
  refine ⟨(poke_upd h1 hs).valid h1, ?_⟩
  intro y hy
  have hy : y ∈ contents (poke h (⟨.arr 0 0, 4, 4⟩ : Slice).ptr i [x]) ⟨.arr 0 0, 4, 4⟩ := hy
  rw [poke_contents h1 hs, splice_singleton _ (by rw [length_contents h1]; exact hi)] at hy
  rcases List.mem_or_eq_of_mem_set hy with h | h
  · exact h2 y h
  · rw [h]; exact hx

theorem exOthers : Others exView (· < 5) (fun n : Nat => n) intruder :=
  ⟨fun _ h => exPoke h (by decide) (by decide) _, fun _ _ => rfl⟩

theorem exFair : Fair (Holds exView (· < 5)) (· < 5) meddling (fun w => w.2) :=
  ⟨fun _ _ _ h _ hb => exPoke h (by decide) hb _, fun _ _ _ _ _ _ => rfl⟩

example : Holds exView (· < 5) ([[1, 2, 3, 4]], 0) := by
  refine ⟨⟨by decide, by decide, _, rfl, by decide⟩, ?_⟩
  decide

-- After `NextPermutation` the range is not a permutation of what it was, but holds only elements that were there.
example : nextPermutationM 8 meddling (at_ exView intruder 0) (at_ exView intruder 4) ([[1, 2, 3, 4]], 0) =
    (.ok true, ([[4, 4, 4, 4]], 4)) := by decide +kernel

end Verif.Algo.Raced
