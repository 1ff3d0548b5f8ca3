import Verif.Conc.Prog

/-!
# Endless executions and fairness

An execution may go on for ever, with new calls all the time. `Weak` and `Strong` are the usual notions of fairness for
a goroutine. A call that can always go on returns if its goroutine is treated weakly fairly; calls that take locks one at
a time and wait for nothing else inside return if all goroutines are treated strongly fairly (`Locking.returns`).
-/

namespace Verif.Conc

variable {M : Machine} {Op R : Type}

/-- Who takes the step. -/
def Label.who : Label M Op R → Tid
  | .call t _ => t
  | .act t _ _ => t
  | .ret t _ _ => t

/-- It begins a call. -/
def Label.isCall : Label M Op R → Bool
  | .call _ _ => true
  | _ => false

/-- An execution that goes on for ever; at some moments nothing happens (if it stops, nothing happens from then on). -/
structure Run (body : Op → Prog M.A M.Ans R) (c0 : Config M Op R) where
  /-- the states -/
  st : Nat → Config M Op R
  /-- what happens -/
  lab : Nat → Option (Label M Op R)
  start : st 0 = c0
  next : ∀ n, match lab n with
    | none => st (n + 1) = st n
    | some l => Step body (st n) l (st (n + 1))

variable {body : Op → Prog M.A M.Ans R} {c0 : Config M Op R}

/-- The goroutine is in a call and can take a step. -/
def CanGo (body : Op → Prog M.A M.Ans R) (c : Config M Op R) (t : Tid) : Prop :=
  ∃ l c', Step body c l c' ∧ l.who = t ∧ l.isCall = false

/-- It takes one. -/
def Run.Goes (ρ : Run body c0) (n : Nat) (t : Tid) : Prop := ∃ l, ρ.lab n = some l ∧ l.who = t ∧ l.isCall = false

/-- Weak fairness: who can always go on does go on. -/
def Run.Weak (ρ : Run body c0) (t : Tid) : Prop :=
  ∀ n, (∀ m, n ≤ m → CanGo body (ρ.st m) t) → ∃ m, n ≤ m ∧ ρ.Goes m t

/-- Strong fairness: who can go on again and again does go on. -/
def Run.Strong (ρ : Run body c0) (t : Tid) : Prop :=
  ∀ n, (∀ m, n ≤ m → ∃ k, m ≤ k ∧ CanGo body (ρ.st k) t) → ∃ m, n ≤ m ∧ ρ.Goes m t

theorem Run.Strong.weak {ρ : Run body c0} {t : Tid} (h : ρ.Strong t) : ρ.Weak t :=
  fun n hn => h n fun m hm => ⟨m, Nat.le_refl m, hn m hm⟩

/-- Every moment ends an execution. -/
theorem Run.exec (ρ : Run body c0) : ∀ n, ∃ tr, Exec body c0 tr (ρ.st n)
  | 0 => ⟨[], by rw [ρ.start]; exact .nil⟩
  | n + 1 => by
    obtain ⟨tr, h⟩ := ρ.exec n
    have hn := ρ.next n
    cases hl : ρ.lab n with
    | none => rw [hl] at hn; simp only at hn; exact ⟨tr, by rw [hn]; exact h⟩
    | some l => rw [hl] at hn; exact ⟨_, h.snoc hn⟩

/-- What happens in the first moments. -/
def Run.trace (ρ : Run body c0) : Nat → List (Label M Op R)
  | 0 => []
  | n + 1 => ρ.trace n ++ (ρ.lab n).toList

theorem Run.exec_trace (ρ : Run body c0) : ∀ n, Exec body c0 (ρ.trace n) (ρ.st n)
  | 0 => by rw [ρ.start]; exact .nil
  | n + 1 => by
    have h := ρ.exec_trace n
    have hn := ρ.next n
    rw [Run.trace]
    cases hl : ρ.lab n with
    | none => rw [hl] at hn; simp only at hn; rw [hn]; simpa using h
    | some l => rw [hl] at hn; exact h.snoc hn

theorem Run.mem_trace (ρ : Run body c0) {l : Label M Op R} : ∀ {n : Nat}, l ∈ ρ.trace n → ∃ m, m < n ∧ ρ.lab m = some l
  | 0, h => by cases h
  | n + 1, h => by
    rw [Run.trace, List.mem_append] at h
    rcases h with h | h
    · obtain ⟨m, hm, e⟩ := ρ.mem_trace h
      exact ⟨m, by omega, e⟩
    · exact ⟨n, by omega, by simpa using h⟩

/-- Only one goes at a time. -/
theorem Run.Goes.unique {ρ : Run body c0} {n : Nat} {t u : Tid} (h : ρ.Goes n t) (h' : ρ.Goes n u) : t = u := by
  obtain ⟨l, e, ht, -⟩ := h
  obtain ⟨l', e', hu, -⟩ := h'
  rw [e] at e'
  injection e' with e'
  rw [← ht, ← hu, e']

/-- In a call, nothing changes for the goroutine until it goes on. -/
theorem Run.stays (ρ : Run body c0) {n : Nat} {t : Tid} {op : Op} {p : Prog M.A M.Ans R}
    (h : (ρ.st n).th t = .run op p) (hg : ¬ ρ.Goes n t) : (ρ.st (n + 1)).th t = .run op p := by
  have hn := ρ.next n
  cases hl : ρ.lab n with
  | none => rw [hl] at hn; simp only at hn; rw [hn]; exact h
  | some l =>
    rw [hl] at hn
    simp only at hn
    have hne : l.isCall = false → l.who ≠ t := fun h1 h2 => hg ⟨l, hl, h2, h1⟩
    revert hn hne
    generalize ρ.st (n + 1) = s'
    intro hn hne
    cases hn with
    | call u op' hi =>
      by_cases c : t = u
      · subst c; rw [h] at hi; cases hi
      · show upd _ u _ t = _
        rw [upd_other _ _ c]; exact h
    | act u op' a k ans sh' h1 h2 =>
      show upd _ u _ t = _
      rw [upd_other _ _ (show t ≠ u from fun e => hne rfl e.symm)]; exact h
    | ret u op' r h1 =>
      show upd _ u _ t = _
      rw [upd_other _ _ (show t ≠ u from fun e => hne rfl e.symm)]; exact h

theorem Run.stays_to (ρ : Run body c0) {n : Nat} {t : Tid} {op : Op} {p : Prog M.A M.Ans R}
    (h : (ρ.st n).th t = .run op p) {m : Nat} (hm : n ≤ m) (hg : ∀ j, n ≤ j → j < m → ¬ ρ.Goes j t) :
    (ρ.st m).th t = .run op p := by
  induction hm with
  | refl => exact h
  | @step m hm ih => exact ρ.stays (ih fun j h1 h2 => hg j h1 (Nat.lt_succ_of_lt h2)) (hg m hm (Nat.lt_succ_self m))

/-- After a call begins. -/
theorem Run.begins (ρ : Run body c0) {n : Nat} {t : Tid} {op : Op} (h : ρ.lab n = some (.call t op)) :
    (ρ.st (n + 1)).th t = .run op (body op) := by
  have hn := ρ.next n
  rw [h] at hn
  simp only at hn
  revert hn
  generalize ρ.st (n + 1) = s'
  intro hn
  cases hn with
  | call u op' hi => exact upd_same _ _ _

/-- The first moment. -/
theorem first {Q : Nat → Prop} {n : Nat} (h : ∃ m, n ≤ m ∧ Q m) : ∃ m, n ≤ m ∧ Q m ∧ ∀ j, n ≤ j → j < m → ¬ Q j := by
  obtain ⟨m, hm, hq⟩ := h
  induction m using Nat.strongRecOn with
  | ind m ih =>
    by_cases c : ∃ j, n ≤ j ∧ j < m ∧ Q j
    · obtain ⟨j, h1, h2, h3⟩ := c
      exact ih j h2 h1 h3
    · exact ⟨m, hm, hq, fun j h1 h2 h3 => c ⟨j, h1, h2, h3⟩⟩

/-- Going on with an action. -/
theorem Run.Goes.act {ρ : Run body c0} {n : Nat} {t : Tid} (hg : ρ.Goes n t) {op : Op} {a : M.A}
    {k : M.Ans a → Prog M.A M.Ans R} (h : (ρ.st n).th t = .run op (.act a k)) :
    ∃ ans, ρ.lab n = some (.act t a ans) ∧ M.step t a (ρ.st n).sh ans (ρ.st (n + 1)).sh ∧
      (ρ.st (n + 1)).th = upd (ρ.st n).th t (.run op (k ans)) := by
  obtain ⟨l, hl, hw, hc⟩ := hg
  have hn := ρ.next n
  rw [hl] at hn
  simp only at hn
  rw [hl]
  revert hn
  generalize ρ.st (n + 1) = s'
  intro hn
  cases hn with
  | call u op' hi => cases hc
  | act u op' b k' ans sh' h1 h2 =>
    have : u = t := hw
    subst this
    rw [h] at h1
    injection h1 with e1 e2
    injection e2 with e2 e3
    subst e1 e2
    cases e3
    exact ⟨ans, rfl, h2, rfl⟩
  | ret u op' r h1 =>
    have : u = t := hw
    subst this
    rw [h] at h1
    injection h1 with e1 e2
    cases e2

/-- Returning. -/
theorem Run.Goes.ret {ρ : Run body c0} {n : Nat} {t : Tid} (hg : ρ.Goes n t) {op : Op} {r : R}
    (h : (ρ.st n).th t = .run op (.ret r)) : ρ.lab n = some (.ret t op r) := by
  obtain ⟨l, hl, hw, hc⟩ := hg
  have hn := ρ.next n
  rw [hl] at hn
  simp only at hn
  rw [hl]
  revert hn
  generalize ρ.st (n + 1) = s'
  intro hn
  cases hn with
  | call u op' hi => cases hc
  | act u op' b k' ans sh' h1 h2 =>
    have : u = t := hw
    subst this
    rw [h] at h1
    injection h1 with e1 e2
    cases e2
  | ret u op' r' h1 =>
    have : u = t := hw
    subst this
    rw [h] at h1
    injection h1 with e1 e2
    injection e2 with e2
    rw [e1, e2]

theorem canGo_ret {c : Config M Op R} {t : Tid} {op : Op} {r : R} (h : c.th t = .run op (.ret r)) : CanGo body c t :=
  ⟨_, _, .ret t op r h, rfl, rfl⟩

theorem canGo_act {c : Config M Op R} {t : Tid} {op : Op} {a : M.A} {k : M.Ans a → Prog M.A M.Ans R}
    (h : c.th t = .run op (.act a k)) (hs : ∃ ans σ', M.step t a c.sh ans σ') : CanGo body c t := by
  obtain ⟨ans, σ', hs⟩ := hs
  exact ⟨_, _, .act t op a k ans σ' h hs, rfl, rfl⟩

/-- If the goroutine always goes on, its call returns: a call is finite. -/
theorem Run.returns_of (ρ : Run body c0) (t : Tid)
    (hgo : ∀ n op p, (ρ.st n).th t = .run op p → ∃ m, n ≤ m ∧ ρ.Goes m t) :
    ∀ (p : Prog M.A M.Ans R) (n : Nat) (op : Op), (ρ.st n).th t = .run op p → ∃ m r, n ≤ m ∧ ρ.lab m = some (.ret t op r) := by
  intro p
  induction p with
  | ret r =>
    intro n op h
    obtain ⟨m, hm, hg, hf⟩ := first (hgo n op _ h)
    exact ⟨m, r, hm, hg.ret (ρ.stays_to h hm hf)⟩
  | act a k ih =>
    intro n op h
    obtain ⟨m, hm, hg, hf⟩ := first (hgo n op _ h)
    obtain ⟨ans, -, -, hth⟩ := hg.act (ρ.stays_to h hm hf)
    obtain ⟨m', r, hm', e⟩ := ih ans (m + 1) op (by rw [hth, upd_same])
    exact ⟨m', r, by omega, e⟩

/-- Calls that can always go on return, if the goroutine is treated weakly fairly. -/
theorem Run.returns_weak (ρ : Run body c0) (t : Tid) (hf : ρ.Weak t)
    (hcan : ∀ n op p, (ρ.st n).th t = .run op p → CanGo body (ρ.st n) t) (n : Nat) (op : Op) (p : Prog M.A M.Ans R)
    (h : (ρ.st n).th t = .run op p) : ∃ m r, n ≤ m ∧ ρ.lab m = some (.ret t op r) := by
  refine ρ.returns_of t (fun n op p h => ?_) p n op h
  by_cases c : ∃ m, n ≤ m ∧ ρ.Goes m t
  · exact c
  · exact hf n fun m hm => hcan m op p (ρ.stays_to h hm fun j h1 _ h3 => c ⟨j, h1, h3⟩)

/-! ## Locks -/

/-- What a goroutine holds: nothing, lock `i` for reading, announced for writing, for writing. -/
inductive Hold where
  | no
  | R (i : Nat)
  | P (i : Nat)
  | W (i : Nat)
  deriving DecidableEq

/-- The goroutine has announced to write, or writes. -/
def Hold.Owns (i : Nat) (h : Hold) : Prop := h = .P i ∨ h = .W i

/-- How holding may change when the goroutine takes a step; a lock is only taken, also for reading, if nobody has
announced to write. -/
inductive Hold.Next (all : Tid → Hold) : Hold → Hold → Prop where
  | stay (h : Hold) : Next all h h
  | rlock (i : Nat) : (∀ u, ¬ (all u).Owns i) → Next all .no (.R i)
  | announce (i : Nat) : (∀ u, ¬ (all u).Owns i) → Next all .no (.P i)
  | lock (i : Nat) : (∀ u, ¬ (all u).Owns i) → Next all .no (.W i)
  | enter (i : Nat) : Next all (.P i) (.W i)
  | unlock (i : Nat) : Next all (.W i) .no
  | runlock (i : Nat) : Next all (.R i) .no

/-- The calls in an endless execution take locks one at a time, hold none when they return, and wait for nothing else. -/
structure Locking (ρ : Run body c0) where
  /-- what everybody holds -/
  held : Nat → Tid → Hold
  /-- the lock an action asks for -/
  asks : M.A → Option Nat
  /-- the lock whose readers an action waits for -/
  waits : M.A → Option Nat
  inCall : ∀ n t, held n t ≠ .no → ∃ op a k, (ρ.st n).th t = .run op (.act a k)
  other : ∀ n t, ¬ ρ.Goes n t → held (n + 1) t = held n t
  goes : ∀ n t, ρ.Goes n t → (held n t).Next (held n) (held (n + 1) t)
  ask : ∀ n t op a k i, (ρ.st n).th t = .run op (.act a k) → asks a = some i → held n t = .no
  wait : ∀ n t op a k i, (ρ.st n).th t = .run op (.act a k) → waits a = some i → held n t = .P i
  can : ∀ n t op a k, (ρ.st n).th t = .run op (.act a k) → (∀ i, asks a = some i → ∀ u, ¬ (held n u).Owns i) →
    (∀ i, waits a = some i → ∀ u, held n u ≠ .R i) → CanGo body (ρ.st n) t
  unique : ∀ n t u i, (held n t).Owns i → (held n u).Owns i → t = u
  readers : ∀ n i, ∃ l : List Tid, ∀ u, held n u = .R i → u ∈ l

variable {ρ : Run body c0}

theorem Locking.held_to (L : Locking ρ) {n : Nat} {t : Tid} {m : Nat} (hm : n ≤ m)
    (hg : ∀ j, n ≤ j → j < m → ¬ ρ.Goes j t) : L.held m t = L.held n t := by
  induction hm with
  | refl => rfl
  | @step m hm ih => rw [L.other m t (hg m hm (Nat.lt_succ_self m))]; exact ih fun j h1 h2 => hg j h1 (Nat.lt_succ_of_lt h2)

/-- Who is inside comes out. -/
theorem Locking.leaves (L : Locking ρ) {t : Tid} (hf : ρ.Weak t) {h : Hold} {i : Nat} (hh : h = .W i ∨ h = .R i) :
    ∀ (p : Prog M.A M.Ans R) (n : Nat) (op : Op), (ρ.st n).th t = .run op p → L.held n t = h →
    ∃ m, n ≤ m ∧ L.held m t = h ∧ L.held (m + 1) t = .no ∧ ρ.Goes m t := by
  have hno : h ≠ .no := by rcases hh with rfl | rfl <;> simp
  have hP : ∀ j, h ≠ .P j := by rcases hh with rfl | rfl <;> simp
  intro p
  induction p with
  | ret r =>
    intro n op e hd
    obtain ⟨op', a, k, e'⟩ := L.inCall n t (by rw [hd]; exact hno)
    rw [e] at e'
    injection e' with _ e'
    cases e'
  | act a k ih =>
    intro n op e hd
    have hgo : ∃ m, n ≤ m ∧ ρ.Goes m t := by
      by_cases c : ∃ m, n ≤ m ∧ ρ.Goes m t
      · exact c
      · refine hf n fun m hm => ?_
        have hg : ∀ j, n ≤ j → j < m → ¬ ρ.Goes j t := fun j h1 _ h3 => c ⟨j, h1, h3⟩
        have em := ρ.stays_to e hm hg
        have hdm := (L.held_to hm hg).trans hd
        refine L.can m t op a k em (fun j hj => ?_) (fun j hj => ?_)
        · exact absurd ((L.ask m t op a k j em hj).symm.trans hdm).symm hno
        · exact absurd (hdm.symm.trans (L.wait m t op a k j em hj)) (hP j)
    obtain ⟨m, hm, hg, hfst⟩ := first hgo
    have em := ρ.stays_to e hm hfst
    have hdm := (L.held_to hm hfst).trans hd
    obtain ⟨ans, -, -, hth⟩ := hg.act em
    have hnx := L.goes m t hg
    rw [hdm] at hnx
    have key : L.held (m + 1) t = .no ∨ L.held (m + 1) t = h := by
      revert hnx
      generalize L.held (m + 1) t = h'
      intro hnx
      cases hnx with
      | stay => exact Or.inr rfl
      | rlock => exact absurd rfl hno
      | announce => exact absurd rfl hno
      | lock => exact absurd rfl hno
      | enter j => exact absurd rfl (hP j)
      | unlock => exact Or.inl rfl
      | runlock => exact Or.inl rfl
    rcases key with key | key
    · exact ⟨m, hm, hdm, key, hg⟩
    · obtain ⟨m', h1, h2, h3⟩ := ih ans (m + 1) op (by rw [hth, upd_same]) key
      exact ⟨m', by omega, h2, h3⟩

theorem Locking.leaves' (L : Locking ρ) {t : Tid} (hf : ρ.Weak t) {h : Hold} {i : Nat} (hh : h = .W i ∨ h = .R i)
    {n : Nat} (hd : L.held n t = h) : ∃ m, n ≤ m ∧ L.held m t = h ∧ L.held (m + 1) t = .no ∧ ρ.Goes m t := by
  obtain ⟨op, a, k, e⟩ := L.inCall n t (by rw [hd]; rcases hh with rfl | rfl <;> simp)
  exact L.leaves hf hh _ n op e hd

/-- While somebody has announced to write, readers only leave. -/
theorem Locking.no_new (L : Locking ρ) {t : Tid} {i n : Nat} (h : ∀ m, n ≤ m → L.held m t = .P i) {u : Tid} {m m' : Nat}
    (hn : n ≤ m) (hm : m ≤ m') (hu : L.held m' u = .R i) : L.held m u = .R i := by
  induction hm with
  | refl => exact hu
  | @step m' hm ih =>
    refine ih ?_
    by_cases c : ρ.Goes m' u
    · have hnx := L.goes m' u c
      rw [hu] at hnx
      revert hnx
      generalize L.held m' u = g
      intro hnx
      cases hnx with
      | stay => rfl
      | rlock _ hf => exact absurd (Or.inl (h m' (Nat.le_trans hn hm))) (hf t)
    · rw [← L.other m' u c]; exact hu

/-- Readers leave a lock on which somebody waits. -/
theorem Locking.drains (L : Locking ρ) (hf : ∀ t, ρ.Weak t) {t : Tid} {i n : Nat} (h : ∀ m, n ≤ m → L.held m t = .P i) :
    ∀ (l : List Tid) (m : Nat), n ≤ m → (∀ u, L.held m u = .R i → u ∈ l) → ∃ k, m ≤ k ∧ ∀ u, L.held k u ≠ .R i
  | [], m, _, hl => ⟨m, Nat.le_refl m, fun u hu => by cases hl u hu⟩
  | v :: l, m, hm, hl => by
    by_cases c : L.held m v = .R i
    · obtain ⟨m', h1, h2, h3, -⟩ := L.leaves' (hf v) (Or.inr rfl) c
      obtain ⟨k, hk, e⟩ := L.drains hf h l (m' + 1) (by omega) fun u hu => by
        rcases List.mem_cons.1 (hl u (L.no_new h hm (by omega) hu)) with rfl | hu'
        · rw [h3] at hu; cases hu
        · exact hu'
      exact ⟨k, by omega, e⟩
    · refine L.drains hf h l m hm fun u hu => ?_
      rcases List.mem_cons.1 (hl u hu) with rfl | hu'
      · exact absurd hu c
      · exact hu'

/-- Who has announced to write gets in. -/
theorem Locking.enters (L : Locking ρ) (hf : ∀ t, ρ.Strong t) {t : Tid} {i : Nat} :
    ∀ (p : Prog M.A M.Ans R) (n : Nat) (op : Op), (ρ.st n).th t = .run op p → L.held n t = .P i →
    ∃ m, n ≤ m ∧ L.held m t = .P i ∧ L.held (m + 1) t = .W i ∧ ρ.Goes m t := by
  intro p
  induction p with
  | ret r =>
    intro n op e hd
    obtain ⟨op', a, k, e'⟩ := L.inCall n t (by rw [hd]; simp)
    rw [e] at e'
    injection e' with _ e'
    cases e'
  | act a k ih =>
    intro n op e hd
    have hgo : ∃ m, n ≤ m ∧ ρ.Goes m t := by
      by_cases c : ∃ m, n ≤ m ∧ ρ.Goes m t
      · exact c
      · have hP : ∀ m, n ≤ m → L.held m t = .P i := fun m hm =>
          (L.held_to hm fun j h1 _ h3 => c ⟨j, h1, h3⟩).trans hd
        refine hf t n fun m hm => ?_
        obtain ⟨l, hl⟩ := L.readers m i
        obtain ⟨m', hm', hr⟩ := L.drains (fun t => (hf t).weak) hP l m hm hl
        have em := ρ.stays_to e (Nat.le_trans hm hm') fun j h1 _ h3 => c ⟨j, h1, h3⟩
        refine ⟨m', hm', L.can m' t op a k em (fun j hj => ?_) (fun j hj => ?_)⟩
        · have := L.ask m' t op a k j em hj
          rw [hP m' (by omega)] at this
          cases this
        · have := L.wait m' t op a k j em hj
          rw [hP m' (by omega)] at this
          injection this with this
          subst this
          exact hr
    obtain ⟨m, hm, hg, hfst⟩ := first hgo
    have hdm := (L.held_to hm hfst).trans hd
    obtain ⟨ans, -, -, hth⟩ := hg.act (ρ.stays_to e hm hfst)
    have hnx := L.goes m t hg
    rw [hdm] at hnx
    have key : L.held (m + 1) t = .W i ∨ L.held (m + 1) t = .P i := by
      revert hnx
      generalize L.held (m + 1) t = g
      intro hnx
      cases hnx with
      | stay => exact Or.inr rfl
      | enter => exact Or.inl rfl
    rcases key with key | key
    · exact ⟨m, hm, hdm, key, hg⟩
    · obtain ⟨m', h1, h2, h3⟩ := ih ans (m + 1) op (by rw [hth, upd_same]) key
      exact ⟨m', by omega, h2, h3⟩

theorem Locking.enters' (L : Locking ρ) (hf : ∀ t, ρ.Strong t) {t : Tid} {i n : Nat} (h : L.held n t = .P i) :
    ∃ m, n ≤ m ∧ L.held m t = .P i ∧ L.held (m + 1) t = .W i ∧ ρ.Goes m t := by
  obtain ⟨op, a, k, e⟩ := L.inCall n t (by rw [h]; simp)
  exact L.enters hf _ n op e h

/-- A lock is given back. -/
theorem Locking.released (L : Locking ρ) (hf : ∀ t, ρ.Strong t) (n i : Nat) :
    ∃ m, n ≤ m ∧ ∀ u, ¬ (L.held m u).Owns i := by
  by_cases c : ∃ u, (L.held n u).Owns i
  · obtain ⟨u, hu⟩ := c
    have hw : ∃ m, n ≤ m ∧ L.held m u = .W i := by
      rcases hu with hu | hu
      · obtain ⟨m, hm, -, h, -⟩ := L.enters' hf hu
        exact ⟨m + 1, by omega, h⟩
      · exact ⟨n, Nat.le_refl n, hu⟩
    obtain ⟨m, hm, hw⟩ := hw
    obtain ⟨m', h1, h2, h3, hg⟩ := L.leaves' (hf u).weak (Or.inl rfl) hw
    refine ⟨m' + 1, by omega, fun v hv => ?_⟩
    by_cases e : v = u
    · subst e
      rw [h3] at hv
      rcases hv with hv | hv <;> cases hv
    · rw [L.other m' v fun hgv => e (hgv.unique hg)] at hv
      exact e (L.unique m' v u i hv (Or.inr h2))
  · exact ⟨n, Nat.le_refl n, fun u hu => c ⟨u, hu⟩⟩

/-- Every call returns. -/
theorem Locking.returns (L : Locking ρ) (hf : ∀ t, ρ.Strong t) (n : Nat) (t : Tid) (op : Op) (p : Prog M.A M.Ans R)
    (h : (ρ.st n).th t = .run op p) : ∃ m r, n ≤ m ∧ ρ.lab m = some (.ret t op r) := by
  refine ρ.returns_of t (fun n op p h => ?_) p n op h
  by_cases c : ∃ m, n ≤ m ∧ ρ.Goes m t
  · exact c
  · have hst : ∀ m, n ≤ m → (ρ.st m).th t = .run op p := fun m hm => ρ.stays_to h hm fun j h1 _ h3 => c ⟨j, h1, h3⟩
    cases p with
    | ret r => exact (hf t).weak n fun m hm => canGo_ret (hst m hm)
    | act a k =>
      cases hw : L.waits a with
      | some i =>
        obtain ⟨m, hm, -, h2, -⟩ := L.enters' hf (L.wait n t op a k i h hw)
        have := L.wait (m + 1) t op a k i (hst (m + 1) (by omega)) hw
        rw [h2] at this
        cases this
      | none =>
        refine hf t n fun m hm => ?_
        cases ha : L.asks a with
        | none =>
          refine ⟨m, Nat.le_refl m, L.can m t op a k (hst m hm) (fun j hj => ?_) (fun j hj => ?_)⟩
          · rw [ha] at hj; cases hj
          · rw [hw] at hj; cases hj
        | some i =>
          obtain ⟨m', hm', hfree⟩ := L.released hf m i
          refine ⟨m', hm', L.can m' t op a k (hst m' (by omega)) (fun j hj => ?_) (fun j hj => ?_)⟩
          · rw [ha] at hj; injection hj with hj; subst hj; exact hfree
          · rw [hw] at hj; cases hj

/-! ## Making endless executions -/

/-- One step, then the rest. -/
def Run.cons {c c' : Config M Op R} {l : Label M Op R} (h : Step body c l c') (ρ : Run body c') : Run body c where
  st
    | 0 => c
    | n + 1 => ρ.st n
  lab
    | 0 => some l
    | n + 1 => ρ.lab n
  start := rfl
  next
    | 0 => by show Step body c l (ρ.st 0); rw [ρ.start]; exact h
    | n + 1 => ρ.next n

/-- The same steps for ever. -/
def Run.loop (p : Nat) (st : Nat → Config M Op R) (lab : Nat → Label M Op R)
    (h : ∀ i, i < p + 1 → Step body (st i) (lab i) (st (i + 1))) (hp : st (p + 1) = st 0) : Run body (st 0) where
  st n := st (n % (p + 1))
  lab n := some (lab (n % (p + 1)))
  start := rfl
  next n := by
    show Step body (st (n % (p + 1))) (lab (n % (p + 1))) (st ((n + 1) % (p + 1)))
    have hlt : n % (p + 1) < p + 1 := Nat.mod_lt _ (by omega)
    have h1 := h _ hlt
    have e : (n + 1) % (p + 1) = (n % (p + 1) + 1) % (p + 1) := by
      have h2 : n + 1 = n % (p + 1) + 1 + (p + 1) * (n / (p + 1)) := by
        have := Nat.mod_add_div n (p + 1)
        omega
      rw [h2, Nat.add_mul_mod_self_left]
    by_cases c : n % (p + 1) + 1 = p + 1
    · rw [c, hp] at h1
      rw [e, c, Nat.mod_self]
      exact h1
    · have e' : (n + 1) % (p + 1) = n % (p + 1) + 1 := e.trans (Nat.mod_eq_of_lt (by omega))
      rw [e']
      exact h1

/-- Who is not in a call cannot go on. -/
theorem not_canGo_idle {c : Config M Op R} {t : Tid} (h : c.th t = .idle) : ¬ CanGo body c t := by
  rintro ⟨l, c', hs, hw, hc⟩
  cases hs with
  | call u op hi => cases hc
  | act u op a k ans sh' h1 h2 => have : u = t := hw; subst this; rw [h] at h1; cases h1
  | ret u op r h1 => have : u = t := hw; subst this; rw [h] at h1; cases h1

/-- Two goroutines. -/
def pairTh (x y : Thread M Op R) : Tid → Thread M Op R := fun u => if u = 0 then x else if u = 1 then y else .idle

theorem upd_pair0 (x y x' : Thread M Op R) : upd (pairTh x y) 0 x' = pairTh x' y := by
  funext u
  by_cases h : u = 0 <;> simp [pairTh, upd, h]

theorem upd_pair1 (x y y' : Thread M Op R) : upd (pairTh x y) 1 y' = pairTh x y' := by
  funext u
  by_cases h : u = 0 <;> by_cases h' : u = 1 <;> simp [pairTh, upd, h, h']

theorem pair_idle : pairTh (M := M) (Op := Op) (R := R) .idle .idle = fun _ => .idle := by
  funext u
  simp [pairTh]

/-- The same step, its result written otherwise. -/
theorem Step.to {c c' : Config M Op R} {l : Label M Op R} (h : Step body c l c') {sh : M.Sh} {th : Tid → Thread M Op R}
    (h1 : c'.sh = sh) (h2 : c'.th = th) : Step body c l ⟨sh, th⟩ := by
  subst h1 h2
  exact h

end Verif.Conc
