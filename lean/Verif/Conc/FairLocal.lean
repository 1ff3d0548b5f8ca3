import Verif.Conc.Fair
import Verif.Conc.Local

/-!
# Fairness and several objects

An endless execution of several objects side by side, seen from one of them, is an endless execution of that object, and
as fair: who can go on again and again in a call on the object does go on with that call.
-/

namespace Verif.Conc

namespace Family

variable {I : Type} [DecidableEq I] {F : Family I}

/-- A step of one object as a step of all. -/
def lift (i : I) : Label (F.M i) (F.Op i) (F.R i) → Label F.mach (Sigma F.Op) (Sigma F.R)
  | .call t op => .call t ⟨i, op⟩
  | .act t a ans => .act t ⟨i, a⟩ ans
  | .ret t op r => .ret t ⟨i, op⟩ ⟨i, r⟩

omit [DecidableEq I] in
theorem lift_inj {i : I} {l l' : Label (F.M i) (F.Op i) (F.R i)} (h : lift i l = lift i l') : l = l' := by
  cases l <;> cases l' <;> simp only [lift] at h <;> cases h <;> rfl

omit [DecidableEq I] in
theorem lift_who (i : I) (l : Label (F.M i) (F.Op i) (F.R i)) : (lift i l).who = l.who := by cases l <;> rfl

omit [DecidableEq I] in
theorem lift_isCall (i : I) (l : Label (F.M i) (F.Op i) (F.R i)) : (lift i l).isCall = l.isCall := by cases l <;> rfl

omit [DecidableEq I] in
theorem embed_inj {i : I} {p q : Prog (F.M i).A (F.M i).Ans (F.R i)} (h : F.embed i p = F.embed i q) : p = q := by
  induction p generalizing q with
  | ret r =>
    cases q with
    | ret r' => simp only [embed] at h; cases h; rfl
    | act a k => simp only [embed] at h; cases h
  | act a k ih =>
    cases q with
    | ret r' => simp only [embed] at h; cases h
    | act a' k' =>
      simp only [embed] at h
      injection h with e1 e2
      cases e1
      have e2 := eq_of_heq e2
      have : k = k' := funext fun ans => ih ans (congrFun e2 ans)
      rw [this]

omit [DecidableEq I] in
theorem At.all_inj {g g' : At F} (h : g.all = g'.all) : g = g' := by
  cases g with
  | idle => exact (At.all_idle h.symm).symm
  | run i op p =>
    cases g' with
    | idle => cases h
    | run j op' p' =>
      simp only [At.all] at h
      injection h with e1 e2
      cases e1
      rw [embed_inj e2]

/-- The state of one object: its memory, and the goroutines that are in a call on it. -/
def see (c : Config F.mach (Sigma F.Op) (Sigma F.R)) (g : Tid → At F) (i : I) : Config (F.M i) (F.Op i) (F.R i) :=
  ⟨c.sh i, fun t => (g t).one i⟩

theorem At.one_eq {g : At F} {i : I} {op : F.Op i} {p : Prog (F.M i).A (F.M i).Ans (F.R i)} :
    g.one i = .run op p ↔ g = .run i op p := by
  constructor
  · intro h
    cases g with
    | idle => cases h
    | run j op' p' =>
      by_cases e : j = i
      · subst e
        rw [At.one_same] at h
        injection h with e1 e2
        rw [e1, e2]
      · rw [At.one_other _ _ e] at h; cases h
  · rintro rfl; exact At.one_same i op p

/-- A step of all is a step of one object, and the others do not change. -/
theorem step_see {c c' : Config F.mach (Sigma F.Op) (Sigma F.R)} {l : Label F.mach (Sigma F.Op) (Sigma F.R)}
    (hs : Step F.bodies c l c') {g : Tid → At F} (h1 : ∀ t, c.th t = (g t).all) {g' : Tid → At F}
    (h1' : ∀ t, c'.th t = (g' t).all) (i : I) :
    (∃ li, l = lift i li ∧ Step (F.body i) (see c g i) li (see c' g' i)) ∨
    ((∀ li, l ≠ lift i li) ∧ see c' g' i = see c g i) := by
  have put : ∀ {t : Tid} {x : At F}, c'.th = upd c.th t x.all → g' = upd g t x := by
    intro t x h
    funext u
    apply At.all_inj
    rw [← h1' u, h]
    by_cases e : u = t
    · subst e; rw [upd_same, upd_same]
    · rw [upd_other _ _ e, upd_other _ _ e]; exact h1 u
  have same : ∀ (t : Tid) (x : At F), (fun u => (upd g t x u).one i) = upd (fun u => (g u).one i) t (x.one i) := by
    intro t x; exact upd_map (At.one i) ..
  have other : ∀ t (x : At F), (g t).one i = .idle → x.one i = .idle →
      (fun u => (upd g t x u).one i) = fun u => (g u).one i := by
    intro t x e1 e2
    rw [same]
    exact upd_self _ t _ (by rw [e1, e2])
  cases hs with
  | call t op ht =>
    obtain ⟨j, op⟩ := op
    have hg : g t = .idle := At.all_idle (by rw [← h1]; exact ht)
    have hp := put (x := .run j op (F.body j op)) rfl
    subst hp
    by_cases e : j = i
    · subst e
      refine Or.inl ⟨.call t op, rfl, ?_⟩
      have : see ⟨c.sh, upd c.th t (.run ⟨j, op⟩ (F.bodies ⟨j, op⟩))⟩ (upd g t (.run j op (F.body j op))) j =
          ⟨c.sh j, upd (fun u => (g u).one j) t (.run op (F.body j op))⟩ := by
        rw [see, same, At.one_same]
      rw [this]
      exact .call t op (by show (g t).one j = _; rw [hg]; rfl)
    · refine Or.inr ⟨fun li h => ?_, ?_⟩
      · cases li <;> simp only [lift] at h <;> cases h; exact e rfl
      · rw [see, other t _ (by rw [hg]; rfl) (At.one_other op _ e)]; rfl
  | act t op a k ans sh' ht hst =>
    have hg := (h1 t).symm.trans ht
    cases hgt : g t with
    | idle => rw [hgt] at hg; cases hg
    | run j o p =>
      rw [hgt] at hg
      cases p with
      | ret r => injection hg with _ hg; cases hg
      | act b k' =>
        injection hg with e1 e2
        injection e2 with e2 e3
        subst e1 e2
        have e3 := eq_of_heq e3
        subst e3
        obtain ⟨s1, s2⟩ := hst
        have hp := put (x := .run j o (k' ans)) rfl
        subst hp
        by_cases e : j = i
        · subst e
          refine Or.inl ⟨.act t b ans, rfl, ?_⟩
          have : see ⟨sh', upd c.th t (.run ⟨j, o⟩ (F.embed j (k' ans)))⟩ (upd g t (.run j o (k' ans))) j =
              ⟨sh' j, upd (fun u => (g u).one j) t (.run o (k' ans))⟩ := by
            rw [see, same, At.one_same]
          rw [this]
          exact .act t o b k' ans (sh' j) (by show (g t).one j = _; rw [hgt]; exact At.one_same j o _) s1
        · refine Or.inr ⟨fun li h => ?_, ?_⟩
          · cases li <;> simp only [lift] at h <;> cases h; exact e rfl
          · rw [see, other t _ (by rw [hgt]; exact At.one_other o _ e) (At.one_other o _ e)]
            show (⟨sh' i, _⟩ : Config _ _ _) = _
            rw [s2 i (Ne.symm e)]; rfl
  | ret t op r ht =>
    have hg := (h1 t).symm.trans ht
    cases hgt : g t with
    | idle => rw [hgt] at hg; cases hg
    | run j o p =>
      rw [hgt] at hg
      cases p with
      | act b k' => injection hg with _ hg; cases hg
      | ret r' =>
        injection hg with e1 e2
        injection e2 with e2
        subst e1 e2
        have hp := put (x := .idle) rfl
        subst hp
        by_cases e : j = i
        · subst e
          refine Or.inl ⟨.ret t o r', rfl, ?_⟩
          have : see ⟨c.sh, upd c.th t .idle⟩ (upd g t .idle) j = ⟨c.sh j, upd (fun u => (g u).one j) t .idle⟩ := by
            rw [see, same]; rfl
          rw [this]
          exact .ret t o r' (by show (g t).one j = _; rw [hgt]; exact At.one_same j o _)
        · refine Or.inr ⟨fun li h => ?_, ?_⟩
          · cases li <;> simp only [lift] at h <;> cases h; exact e rfl
          · rw [see, other t _ (by rw [hgt]; exact At.one_other o _ e) rfl]; rfl

/-- An endless execution of all objects, seen from one of them. -/
theorem run_see (ρ : Run (M := F.mach) F.bodies (Config.init (M := F.mach) F.sh)) (i : I) :
    ∃ ρi : Run (M := F.M i) (F.body i) (Config.init (F.sh i)),
      (∀ n, (ρi.st n).sh = (ρ.st n).sh i) ∧
      (∀ n l, ρi.lab n = some l ↔ ρ.lab n = some (lift i l)) ∧
      ∀ n t op p, (ρi.st n).th t = .run op p ↔ (ρ.st n).th t = .run ⟨i, op⟩ (F.embed i p) := by
  have hg : ∀ n, ∃ g : Tid → At F, ∀ t, (ρ.st n).th t = (g t).all := by
    intro n
    obtain ⟨tr, he⟩ := ρ.exec n
    obtain ⟨⟨g, h, -⟩, -⟩ := split he
    exact ⟨g, h⟩
  obtain ⟨g, hg⟩ := Classical.skolem.1 hg
  have hl : ∀ n, ∃ x : Option (Label (F.M i) (F.Op i) (F.R i)), ∀ l, x = some l ↔ ρ.lab n = some (lift i l) := by
    intro n
    by_cases h : ∃ l, ρ.lab n = some (lift i l)
    · obtain ⟨l, h⟩ := h
      refine ⟨some l, fun l' => ⟨fun e => ?_, fun e => ?_⟩⟩
      · injection e with e; rw [← e]; exact h
      · rw [h] at e; injection e with e; rw [lift_inj e]
    · exact ⟨none, fun l' => ⟨fun e => (by cases e), fun e => (h ⟨l', e⟩).elim⟩⟩
  obtain ⟨lab, hl⟩ := Classical.skolem.1 hl
  refine ⟨⟨fun n => see (ρ.st n) (g n) i, lab, ?_, fun n => ?_⟩, fun n => rfl, hl, fun n t op p => ?_⟩
  · have h0 := hg 0
    rw [ρ.start] at h0
    have : g 0 = fun _ => .idle := funext fun t => At.all_idle (h0 t).symm
    rw [ρ.start, this]; rfl
  · have hn := ρ.next n
    cases e : ρ.lab n with
    | none =>
      rw [e] at hn
      simp only at hn
      have : lab n = none := by
        cases hx : lab n with
        | none => rfl
        | some l => rw [(hl n l).1 hx] at e; cases e
      rw [this]
      show see _ _ i = see _ _ i
      have hgg : g (n + 1) = g n := funext fun t => At.all_inj (by rw [← hg, ← hg, hn])
      rw [hgg, hn]
    | some l =>
      rw [e] at hn
      simp only at hn
      rcases step_see hn (hg n) (hg (n + 1)) i with ⟨li, h1, h2⟩ | ⟨h1, h2⟩
      · rw [(hl n li).2 (by rw [e, h1])]; exact h2
      · have : lab n = none := by
          cases hx : lab n with
          | none => rfl
          | some l' =>
            have := (hl n l').1 hx
            rw [e] at this
            injection this with this
            exact (h1 l' this).elim
        rw [this]
        exact h2
  · show (g n t).one i = _ ↔ _
    rw [At.one_eq, hg n t]
    constructor
    · intro h; rw [h]; rfl
    · intro h; exact At.all_inj h

/-- Who can go on in a call on one object can go on. -/
theorem canGo_see {ci : Config (F.M i) (F.Op i) (F.R i)} {c : Config F.mach (Sigma F.Op) (Sigma F.R)} {t : Tid}
    (hsh : ci.sh = c.sh i) (hth : ∀ op p, ci.th t = .run op p → c.th t = .run ⟨i, op⟩ (F.embed i p))
    (h : CanGo (F.body i) ci t) : CanGo F.bodies c t := by
  obtain ⟨l, c', hs, hw, hc⟩ := h
  cases hs with
  | call u op hi => cases hc
  | act u op a k ans sh' h1 h2 =>
    have : u = t := hw
    subst this
    have ht := hth _ _ h1
    refine canGo_act (a := ⟨i, a⟩) ht ⟨ans, fun j => if h : j = i then h ▸ sh' else c.sh j, ?_, fun j hj => ?_⟩
    · show (F.M i).step u a (c.sh i) ans _
      rw [← hsh]; simpa using h2
    · simp only at hj; simp [hj]
  | ret u op r h1 =>
    have : u = t := hw
    subst this
    exact canGo_ret (hth _ _ h1)

/-- Fair to all, fair to one: the next step of a goroutine in a call is a step of that call. -/
theorem strong_see {ρ : Run (M := F.mach) F.bodies (Config.init (M := F.mach) F.sh)} {i : I}
    {ρi : Run (M := F.M i) (F.body i) (Config.init (F.sh i))} (hsh : ∀ n, (ρi.st n).sh = (ρ.st n).sh i)
    (hl : ∀ n l, ρi.lab n = some l ↔ ρ.lab n = some (lift i l))
    (hth : ∀ n t op p, (ρi.st n).th t = .run op p ↔ (ρ.st n).th t = .run ⟨i, op⟩ (F.embed i p)) {t : Tid}
    (hf : ρ.Strong t) : ρi.Strong t := by
  intro n h
  obtain ⟨k, hk, hcan⟩ := h n (Nat.le_refl n)
  -- the goroutine is in a call on the object
  obtain ⟨op, p, hrun⟩ : ∃ op p, (ρi.st k).th t = .run op p := by
    cases e : (ρi.st k).th t with
    | idle => exact (not_canGo_idle e hcan).elim
    | run op p => exact ⟨op, p, rfl⟩
  obtain ⟨m, hm, hgo, hfirst⟩ := first (hf k fun m hm => by
    obtain ⟨k', hk', hc'⟩ := h m (Nat.le_trans hk hm)
    exact ⟨k', hk', canGo_see (hsh k') (fun op p => (hth k' t op p).1) hc'⟩)
  have hrun' := ρ.stays_to ((hth k t op p).1 hrun) hm hfirst
  refine ⟨m, Nat.le_trans hk hm, ?_⟩
  cases p with
  | ret r =>
    have := hgo.ret hrun'
    exact ⟨.ret t op r, (hl m _).2 this, rfl, rfl⟩
  | act a kk =>
    obtain ⟨ans, hlab, -, -⟩ := hgo.act hrun'
    exact ⟨.act t a ans, (hl m (.act t a ans)).2 hlab, rfl, rfl⟩

/-- If calls on each object return when goroutines are treated strongly fairly, so do calls on several objects used
together. -/
theorem returns {Ok : ∀ i, (F.Op i → Prop) → Prop}
    (h : ∀ i (ρ : Run (M := F.M i) (F.body i) (Config.init (F.sh i))), (Ok i fun op => ∃ n t, ρ.lab n = some (.call t op)) →
      (∀ t, ρ.Strong t) → ∀ n t op,
      ρ.lab n = some (.call t op) → ∃ m r, n < m ∧ ρ.lab m = some (.ret t op r))
    (ρ : Run (M := F.mach) F.bodies (Config.init (M := F.mach) F.sh))
    (hok : ∀ i, Ok i fun op => ∃ n t, ρ.lab n = some (.call t ⟨i, op⟩)) (hf : ∀ t, ρ.Strong t) (n : Nat) (t : Tid)
    (op : Sigma F.Op) (hc : ρ.lab n = some (.call t op)) : ∃ m r, n < m ∧ ρ.lab m = some (.ret t op r) := by
  obtain ⟨i, op⟩ := op
  obtain ⟨ρi, h1, h2, h3⟩ := run_see ρ i
  obtain ⟨m, r, hm, e⟩ := h i ρi (Eq.mp (congrArg (Ok i) (funext fun op => propext ⟨fun ⟨n, t, h⟩ => ⟨n, t, (h2 n _).2 h⟩,
    fun ⟨n, t, h⟩ => ⟨n, t, (h2 n _).1 h⟩⟩)) (hok i)) (fun t => strong_see h1 h2 h3 (hf t)) n t op ((h2 n _).2 hc)
  exact ⟨m, ⟨i, r⟩, hm, (h2 m _).1 e⟩

end Family

end Verif.Conc
