import Verif.Conc.Lin
import Verif.Conc.Moment

/-!
# Executions whose steps satisfy a condition
-/

namespace Verif.Conc

variable {M : Machine} {Op R : Type}

/-- Executions all of whose steps, taken in state `c` with label `l`, satisfy `Q c l`. -/
inductive ExecIf (Q : Config M Op R → Label M Op R → Prop) (body : Op → Prog M.A M.Ans R) (c0 : Config M Op R) :
    List (Label M Op R) → Config M Op R → Prop where
  | nil : ExecIf Q body c0 [] c0
  | snoc {tr : List (Label M Op R)} {c c' : Config M Op R} {l : Label M Op R} :
      ExecIf Q body c0 tr c → Q c l → Step body c l c' → ExecIf Q body c0 (tr ++ [l]) c'

theorem ExecIf.exec {Q : Config M Op R → Label M Op R → Prop} {body : Op → Prog M.A M.Ans R} {c0 c : Config M Op R}
    {tr : List (Label M Op R)} (h : ExecIf Q body c0 tr c) : Exec body c0 tr c := by
  induction h with
  | nil => exact .nil
  | snoc _ _ hs ih => exact .snoc ih hs

theorem ExecIf.of_exec {Q : Config M Op R → Label M Op R → Prop} {body : Op → Prog M.A M.Ans R} {c0 c : Config M Op R}
    {tr : List (Label M Op R)} (hQ : ∀ c l, Q c l) (h : Exec body c0 tr c) : ExecIf Q body c0 tr c := by
  induction h with
  | nil => exact .nil
  | snoc _ hs ih => exact .snoc ih (hQ _ _) hs

theorem ExecIf.trans {Q : Config M Op R → Label M Op R → Prop} {body : Op → Prog M.A M.Ans R}
    {c0 c1 c2 : Config M Op R} {a b : List (Label M Op R)}
    (h1 : ExecIf Q body c0 a c1) (h2 : ExecIf Q body c1 b c2) : ExecIf Q body c0 (a ++ b) c2 := by
  induction h2 with
  | nil => rw [List.append_nil]; exact h1
  | snoc _ hq hs ih => rw [← List.append_assoc]; exact .snoc ih hq hs

/-- A simulation by the atomic object for such executions. -/
structure SimIf (Q : Config M Op R → Label M Op R → Prop) (S : SeqSpec Op R) (body : Op → Prog M.A M.Ans R)
    (c0 : Config M Op R) (rel : Config M Op R → Canon S → Prop) : Prop where
  start : rel c0 ⟨S.init, fun _ => .idle⟩
  call : ∀ c a t op, rel c a → c.th t = .idle →
    a.th t = .idle ∧ rel ⟨c.sh, upd c.th t (.run op (body op))⟩ ⟨a.st, upd a.th t (.pending op)⟩
  act : ∀ c a t op x k ans sh', rel c a → c.th t = .run op (.act x k) → Q c (.act t x ans) →
    M.step t x c.sh ans sh' → ∃ a', Lin S a a' ∧ rel ⟨sh', upd c.th t (.run op (k ans))⟩ a'
  ret : ∀ c a t op r, rel c a → c.th t = .run op (.ret r) →
    ∃ a', Lin S a a' ∧ a'.th t = .done op r ∧ rel ⟨c.sh, upd c.th t .idle⟩ ⟨a'.st, upd a'.th t .idle⟩

theorem SimIf.book {Q : Config M Op R → Label M Op R → Prop} {S : SeqSpec Op R} {body : Op → Prog M.A M.Ans R}
    {c0 : Config M Op R} {rel : Config M Op R → Canon S → Prop} (h : SimIf Q S body c0 rel)
    {tr : List (Label M Op R)} {c : Config M Op R} (he : ExecIf Q body c0 tr c) :
    ∃ a L, rel c a ∧ Book S (history tr) L a := by
  induction he with
  | nil => exact ⟨_, _, h.start, Book.start S⟩
  | @snoc tr c c' l _ hq hs ih =>
    obtain ⟨a, L, hr, hb⟩ := ih
    rw [history_append]
    cases hs with
    | call t op ht =>
      obtain ⟨hi, hr'⟩ := h.call c a t op hr ht
      exact ⟨_, L, hr', hb.invoke t op hi⟩
    | act t op x k ans sh' ht hst =>
      obtain ⟨a', hl, hr'⟩ := h.act c a t op x k ans sh' hr ht hq hst
      obtain ⟨L', hb'⟩ := hb.lin hl
      refine ⟨a', L', hr', ?_⟩
      simpa [history] using hb'
    | ret t op r ht =>
      obtain ⟨a', hl, hd, hr'⟩ := h.ret c a t op r hr ht
      obtain ⟨L', hb'⟩ := hb.lin hl
      exact ⟨_, L', hr', hb'.respond t op r hd⟩

theorem SimIf.linearizable {Q : Config M Op R → Label M Op R → Prop} {S : SeqSpec Op R}
    {body : Op → Prog M.A M.Ans R} {c0 : Config M Op R} {rel : Config M Op R → Canon S → Prop}
    (h : SimIf Q S body c0 rel) {tr : List (Label M Op R)} {c : Config M Op R} (he : ExecIf Q body c0 tr c) :
    Linearizable S (history tr) := by
  obtain ⟨a, L, -, hb⟩ := h.book he
  exact hb.linearizable

/-- Following a schedule, with the condition checked at every step. -/
theorem followAll_if {Q : Config M Op R → Label M Op R → Prop} {body : Op → Prog M.A M.Ans R}
    {try_ : Tid → (a : M.A) → M.Sh → Option (M.Ans a × M.Sh)}
    (ht : ∀ t a σ ans σ', try_ t a σ = some (ans, σ') → M.step t a σ ans σ') :
    ∀ {gs : List (Go Op)} {c c' : Config M Op R} {ls : List (Label M Op R)} {cs : List (Config M Op R)},
    followAll body try_ gs c = some (ls, cs, c') → (∀ x ∈ cs.zip ls, Q x.1 x.2) → ExecIf Q body c ls c'
  | [], c, c', ls, cs, h, _ => by
    simp only [followAll, Option.some.injEq, Prod.mk.injEq] at h
    obtain ⟨rfl, -, rfl⟩ := h
    exact .nil
  | g :: gs, c, c', ls, cs, h, hq => by
    simp only [followAll] at h
    cases hf : follow body try_ c g with
    | none => rw [hf] at h; cases h
    | some w =>
      obtain ⟨l, c1⟩ := w
      rw [hf] at h
      simp only at h
      cases hg : followAll body try_ gs c1 with
      | none => rw [hg] at h; cases h
      | some z =>
        obtain ⟨ls', cs', c2⟩ := z
        rw [hg] at h
        simp only [Option.some.injEq, Prod.mk.injEq] at h
        obtain ⟨rfl, rfl, rfl⟩ := h
        have h1 : ExecIf Q body c [l] c1 := .snoc (tr := []) .nil (hq (c, l) (by simp)) (follow_step ht hf)
        exact h1.trans (followAll_if ht hg (fun x hx => hq x (by simp [hx])))

end Verif.Conc
