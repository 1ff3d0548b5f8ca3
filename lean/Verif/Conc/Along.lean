import Verif.Conc.If
import Verif.Conc.Client

/-!
# Invariants of the atomic object along executions

If an object is simulated by the atomic object (`SimIf`), what holds at the atomic object step by step holds at every
moment of every execution; also from the middle of an execution on, and also if goroutines run programs (`Client`).
-/

namespace Verif.Conc

variable {M : Machine} {Op R Q : Type}

/-- What the steps of the atomic object preserve holds along every execution. -/
theorem SimIf.along {C : Config M Op R → Label M Op R → Prop} {S : SeqSpec Op R} {body : Op → Prog M.A M.Ans R}
    {c0 : Config M Op R} {rel : Config M Op R → Canon S → Prop} (h : SimIf C S body c0 rel) {c : Config M Op R}
    {a : Canon S} (hr : rel c a) (P : List (Label M Op R) → Canon S → Prop) (h0 : P [] a)
    (hcall : ∀ tr a t op, P tr a → a.th t = .idle → P (tr ++ [.call t op]) ⟨a.st, upd a.th t (.pending op)⟩)
    (hlin : ∀ tr a t op r s', P tr a → a.th t = .pending op → S.legal a.st op r s' → P tr ⟨s', upd a.th t (.done op r)⟩)
    (hact : ∀ tr a t x ans, P tr a → P (tr ++ [.act t x ans]) a)
    (hret : ∀ tr a t op r, P tr a → a.th t = .done op r → P (tr ++ [.ret t op r]) ⟨a.st, upd a.th t .idle⟩)
    {tr : List (Label M Op R)} {c' : Config M Op R} (he : ExecIf C body c tr c') : ∃ a', rel c' a' ∧ P tr a' := by
  have lin : ∀ tr a b, Lin S a b → P tr a → P tr b := by
    intro tr a b hl
    induction hl with
    | refl a => exact id
    | step t op r s' h1 h2 _ ih => exact fun hp => ih (hlin tr _ t op r s' hp h1 h2)
  induction he with
  | nil => exact ⟨a, hr, h0⟩
  | @snoc tr c c' l _ hq hs ih =>
    obtain ⟨b, hb, hp⟩ := ih
    cases hs with
    | call t op ht =>
      obtain ⟨hi, hr'⟩ := h.call c b t op hb ht
      exact ⟨_, hr', hcall tr b t op hp hi⟩
    | act t op x k ans sh' ht hst =>
      obtain ⟨b', hl, hr'⟩ := h.act c b t op x k ans sh' hb ht hq hst
      exact ⟨b', hr', hact tr b' t x ans (lin tr b b' hl hp)⟩
    | ret t op r ht =>
      obtain ⟨b', hl, hd, hr'⟩ := h.ret c b t op r hb ht
      exact ⟨_, hr', hret tr b' t op r (lin tr b b' hl hp) hd⟩

theorem Client.after_snoc (P : Client Op R Q) : ∀ (H : List (Event Op R)) (q : Tid → Q) (e : Event Op R),
    P.after q (H ++ [e]) = match e with
      | .inv _ _ => P.after q H
      | .ret t r => upd (P.after q H) t (P.go (P.after q H t) r)
  | [], _, .inv _ _ => rfl
  | [], _, .ret _ _ => rfl
  | .inv _ _ :: H, q, e => Client.after_snoc P H q e
  | .ret _ _ :: H, _, e => Client.after_snoc P H _ e

theorem Client.Follows.of_snoc {P : Client Op R Q} {q : Tid → Q} {H : List (Event Op R)} {e : Event Op R}
    (h : P.Follows q (H ++ [e])) : P.Follows q H ∧ ∀ t op, e = .inv t op → P.ask (P.after q H t) = some op := by
  refine ⟨fun i t op hi => ?_, fun t op he => ?_⟩
  · have hlt := (List.getElem?_eq_some_iff.1 hi).1
    have := h i t op (by rw [List.getElem?_append_left hlt]; exact hi)
    rwa [List.take_append_of_le_length (by omega)] at this
  · subst he
    have := h H.length t op (by simp)
    rwa [List.take_append_of_le_length (Nat.le_refl _), List.take_length] at this

/-- The call a goroutine is in. -/
def CStatus.op : CStatus Op R → Option Op
  | .idle => none
  | .pending op => some op
  | .done op _ => some op

/-- The same for goroutines that run programs: `J` relates the states of the programs and that of the atomic object. -/
theorem SimIf.client {C : Config M Op R → Label M Op R → Prop} {S : SeqSpec Op R} {body : Op → Prog M.A M.Ans R}
    {c0 : Config M Op R} {rel : Config M Op R → Canon S → Prop} (h : SimIf C S body c0 rel) {c : Config M Op R}
    {a : Canon S} (hr : rel c a) (P : Client Op R Q) (q0 : Tid → Q) (J : (Tid → Q) → Canon S → Prop)
    (hi : ∀ t op, (a.th t).op = some op → P.ask (q0 t) = some op) (h0 : J q0 a)
    (hcall : ∀ q a t op, J q a → a.th t = .idle → P.ask (q t) = some op → J q ⟨a.st, upd a.th t (.pending op)⟩)
    (hlin : ∀ q a t op r s', J q a → a.th t = .pending op → P.ask (q t) = some op → S.legal a.st op r s' →
      J q ⟨s', upd a.th t (.done op r)⟩)
    (hret : ∀ q a t op r, J q a → a.th t = .done op r → P.ask (q t) = some op →
      J (upd q t (P.go (q t) r)) ⟨a.st, upd a.th t .idle⟩)
    {tr : List (Label M Op R)} {c' : Config M Op R} (he : ExecIf C body c tr c') (hf : P.Follows q0 (history tr)) :
    ∃ a', rel c' a' ∧ J (P.after q0 (history tr)) a' ∧
      ∀ t op, (a'.th t).op = some op → P.ask (P.after q0 (history tr) t) = some op := by
  obtain ⟨a', h1, h2⟩ := h.along hr (fun tr a => P.Follows q0 (history tr) → J (P.after q0 (history tr)) a ∧
    ∀ t op, (a.th t).op = some op → P.ask (P.after q0 (history tr) t) = some op) (fun _ => ⟨h0, hi⟩)
    (fun tr a t op ih ht hf => by
      rw [history_append] at hf ⊢
      obtain ⟨f1, f2⟩ := Client.Follows.of_snoc (e := .inv t op) hf
      obtain ⟨g1, g2⟩ := ih f1
      have e : P.after q0 (history tr ++ history [(.call t op : Label M Op R)]) = P.after q0 (history tr) :=
        P.after_snoc (history tr) q0 (.inv t op)
      rw [e]
      refine ⟨hcall _ a t op g1 ht (f2 t op rfl), fun u o hu => ?_⟩
      by_cases c : u = t
      · subst c
        simp only [upd_same, CStatus.op] at hu
        injection hu with hu; subst hu
        exact f2 u op rfl
      · simp only [upd_other _ _ c] at hu
        exact g2 u o hu)
    (fun tr a t op r s' ih ht hl hf => by
      obtain ⟨g1, g2⟩ := ih hf
      have ha := g2 t op (by rw [ht]; rfl)
      refine ⟨hlin _ a t op r s' g1 ht ha hl, fun u o hu => ?_⟩
      by_cases c : u = t
      · subst c
        simp only [upd_same, CStatus.op] at hu
        injection hu with hu; subst hu
        exact ha
      · simp only [upd_other _ _ c] at hu
        exact g2 u o hu)
    (fun tr a t x ans ih hf => by
      rw [history_append] at hf ⊢
      simp only [history, List.append_nil] at hf ⊢
      exact ih hf)
    (fun tr a t op r ih ht hf => by
      rw [history_append] at hf ⊢
      obtain ⟨f1, -⟩ := Client.Follows.of_snoc (e := .ret t r) hf
      obtain ⟨g1, g2⟩ := ih f1
      have e : P.after q0 (history tr ++ history [(.ret t op r : Label M Op R)]) =
          upd (P.after q0 (history tr)) t (P.go (P.after q0 (history tr) t) r) :=
        P.after_snoc (history tr) q0 (.ret t r)
      rw [e]
      refine ⟨hret _ a t op r g1 ht (g2 t op (by rw [ht]; rfl)), fun u o hu => ?_⟩
      by_cases c : u = t
      · subst c
        simp only [upd_same, CStatus.op] at hu
        cases hu
      · simp only [upd_other _ _ c] at hu ⊢
        exact g2 u o hu)
    he
  exact ⟨a', h1, h2 hf⟩

end Verif.Conc
