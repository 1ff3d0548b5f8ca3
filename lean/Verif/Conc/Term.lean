import Verif.Conc.Prog

/-!
# Executions without new calls end

A method body is a well-founded tree, so a goroutine cannot take infinitely many steps in one call, and
finitely many goroutines cannot either.
-/

namespace Verif.Conc

variable {M : Machine} {Op R : Type}

/-- A step that is not a call. -/
def InnerStep (body : Op → Prog M.A M.Ans R) (c c' : Config M Op R) : Prop :=
  ∃ l, Step body c l c' ∧ ∀ t op, l ≠ .call t op

/-- A goroutine after a step inside a call. -/
inductive Thread.After : Thread M Op R → Thread M Op R → Prop where
  | act (op : Op) (a : M.A) (k : M.Ans a → Prog M.A M.Ans R) (ans : M.Ans a) :
      After (.run op (k ans)) (.run op (.act a k))
  | ret (op : Op) (r : R) : After .idle (.run op (.ret r))

theorem acc_idle : Acc (Thread.After (M := M) (Op := Op) (R := R)) .idle :=
  ⟨_, fun y hy => by cases hy⟩

theorem acc_run (op : Op) (p : Prog M.A M.Ans R) : Acc Thread.After (Thread.run (M := M) op p) := by
  induction p with
  | ret r =>
    refine ⟨_, fun y hy => ?_⟩
    cases hy
    exact acc_idle
  | act a k ih =>
    refine ⟨_, fun y hy => ?_⟩
    cases hy with
    | act op a k ans => exact ih ans

theorem acc_thread (x : Thread M Op R) : Acc Thread.After x := by
  cases x with
  | idle => exact acc_idle
  | run op p => exact acc_run op p

/-- One goroutine of many after a step inside a call. -/
def ManyAfter (f' f : Tid → Thread M Op R) : Prop := ∃ t x, Thread.After x (f t) ∧ f' = upd f t x

theorem upd_comm {α : Type} (f : Tid → α) {s t : Tid} (x y : α) (h : s ≠ t) :
    upd (upd f s x) t y = upd (upd f t y) s x := by
  funext u
  unfold upd
  by_cases h1 : u = t
  · rw [if_pos h1, if_neg (by rw [h1]; exact Ne.symm h), if_pos h1]
  · rw [if_neg h1]
    split
    · rfl
    · rfl

theorem upd_upd {α : Type} (f : Tid → α) (t : Tid) (x y : α) : upd (upd f t x) t y = upd f t y := by
  funext u
  unfold upd
  split <;> rfl

theorem upd_eta {α : Type} (f : Tid → α) (t : Tid) : upd f t (f t) = f := by
  funext u
  unfold upd
  split
  · rename_i h; rw [h]
  · rfl

theorem acc_many_cons (t : Tid) {f : Tid → Thread M Op R} (hf : Acc ManyAfter f) (hi : f t = .idle)
    {x : Thread M Op R} (hx : Acc Thread.After x) : Acc ManyAfter (upd f t x) := by
  induction hx generalizing f with
  | intro x hx ihx =>
    induction hf with
    | intro f hf ihf =>
      refine ⟨_, ?_⟩
      rintro g ⟨u, y, hy, rfl⟩
      by_cases hu : u = t
      · subst hu
        rw [upd_same] at hy
        rw [upd_upd]
        exact ihx y hy ⟨f, hf⟩ hi
      · rw [upd_other _ _ hu] at hy
        rw [upd_comm _ _ _ (Ne.symm hu)]
        exact ihf (upd f u y) ⟨u, y, hy, rfl⟩ (by rw [upd_other _ _ (Ne.symm hu)]; exact hi)

theorem acc_many : ∀ (ts : List Tid) (f : Tid → Thread M Op R), (∀ t, t ∉ ts → f t = .idle) → Acc ManyAfter f := by
  intro ts
  induction ts with
  | nil =>
    intro f hf
    refine ⟨_, ?_⟩
    rintro g ⟨u, y, hy, -⟩
    rw [hf u (by simp)] at hy
    cases hy
  | cons t ts ih =>
    intro f hf
    have h1 : Acc ManyAfter (upd f t .idle) := by
      refine ih _ (fun u hu => ?_)
      by_cases e : u = t
      · subst e; rw [upd_same]
      · rw [upd_other _ _ e]; exact hf u (by simp [e, hu])
    have h2 := acc_many_cons t h1 (upd_same _ _ _) (acc_thread (f t))
    rw [upd_upd, upd_eta] at h2
    exact h2

theorem Exec.finite {body : Op → Prog M.A M.Ans R} {sh : M.Sh} {tr : List (Label M Op R)} {c : Config M Op R}
    (he : Exec body (Config.init sh) tr c) : ∃ ts : List Tid, ∀ t, t ∉ ts → c.th t = .idle := by
  induction he with
  | nil => exact ⟨[], fun _ _ => rfl⟩
  | snoc _ hs ih =>
    obtain ⟨ts, h⟩ := ih
    have key : ∀ (c : Config M Op R) (sh' : M.Sh) (t : Tid) (x : Thread M Op R),
        (∀ t, t ∉ ts → c.th t = .idle) →
        ∃ ts' : List Tid, ∀ u, u ∉ ts' → (Config.mk sh' (upd c.th t x)).th u = .idle := by
      intro c sh' t x h
      refine ⟨t :: ts, fun u hu => ?_⟩
      simp only [List.mem_cons, not_or] at hu
      simp only [upd_other _ _ hu.1]
      exact h u hu.2
    cases hs with
    | call t op _ => exact key _ _ t _ h
    | act t op a k ans sh' _ _ => exact key _ _ t _ h
    | ret t op r _ => exact key _ _ t _ h

/-- From every reachable state the steps without new calls end. -/
theorem Exec.ends {body : Op → Prog M.A M.Ans R} {sh : M.Sh} {tr : List (Label M Op R)} {c : Config M Op R}
    (he : Exec body (Config.init sh) tr c) : Acc (fun c' c => InnerStep body c c') c := by
  obtain ⟨ts, h⟩ := he.finite
  have hacc := acc_many ts c.th h
  clear he h
  generalize hf : c.th = f at hacc
  induction hacc generalizing c with
  | intro f hf' ih =>
    refine ⟨_, ?_⟩
    rintro c' ⟨l, hs, hl⟩
    subst hf
    have main : ManyAfter c'.th c.th := by
      cases hs with
      | call t op _ => exact absurd rfl (hl t op)
      | act t op a k ans sh' hr _ => exact ⟨t, _, hr ▸ .act op a k ans, rfl⟩
      | ret t op r hr => exact ⟨t, _, hr ▸ .ret op r, rfl⟩
    exact ih c'.th main rfl

/-- There is no infinite sequence of steps without calls from a reachable state. -/
theorem Exec.no_infinite {body : Op → Prog M.A M.Ans R} {sh : M.Sh} {tr : List (Label M Op R)} {c : Config M Op R}
    (he : Exec body (Config.init sh) tr c) (f : Nat → Config M Op R) (h0 : f 0 = c) :
    ¬ ∀ n, InnerStep body (f n) (f (n + 1)) := by
  have hacc := he.ends
  clear he
  induction hacc generalizing f with
  | intro c _ ih =>
    intro h
    exact ih (f 1) (h0 ▸ h 0) (fun n => f (n + 1)) rfl (fun n => h (n + 1))

end Verif.Conc
