import Verif.Conc.Moment

/-!
# Counting the steps of a call
-/

namespace Verif.Conc

variable {M : Machine} {Op R : Type}

/-- The program does at most `n` actions. -/
def Within : Nat → Prog M.A M.Ans R → Prop
  | _, .ret _ => True
  | 0, .act _ _ => False
  | n + 1, .act _ k => ∀ ans, Within n (k ans)

/-- The label is an action of goroutine `t`. -/
def Label.actBy (t : Tid) : Label M Op R → Bool
  | .act u _ _ => u = t
  | _ => false

/-- A goroutine does at most that many actions before it returns. -/
theorem Exec.within {body : Op → Prog M.A M.Ans R} {s1 s2 : Config M Op R} {tr : List (Label M Op R)}
    (he : Exec body s1 tr s2) {t : Tid} {op : Op} {p : Prog M.A M.Ans R} {n : Nat} (h1 : s1.th t = .run op p)
    (hw : Within n p) (hn : ∀ op r, .ret t op r ∉ tr) :
    ∃ p' m, s2.th t = .run op p' ∧ Within m p' ∧ m + tr.countP (Label.actBy t) = n := by
  induction he with
  | nil => exact ⟨p, n, h1, hw, by simp⟩
  | @snoc tr c c' l _ hs ih =>
    obtain ⟨p', m, g1, g2, g3⟩ := ih (fun op r h => hn op r (List.mem_append.2 (Or.inl h)))
    rw [List.countP_append]
    cases hs with
    | call u op' hu =>
      refine ⟨p', m, ?_, g2, by simp [Label.actBy]; exact g3⟩
      have : t ≠ u := by rintro rfl; rw [g1] at hu; cases hu
      exact (upd_other _ _ this).trans g1
    | act u op' a k ans sh' hu hst =>
      by_cases c1 : t = u
      · subst c1
        rw [g1] at hu
        injection hu with e1 e2
        subst e1 e2
        cases m with
        | zero => exact absurd g2 id
        | succ m => exact ⟨k ans, m, upd_same _ _ _, g2 ans, by simp [Label.actBy]; omega⟩
      · refine ⟨p', m, (upd_other _ _ c1).trans g1, g2, ?_⟩
        have : ¬ u = t := fun e => c1 e.symm
        simp [Label.actBy, this]; exact g3
    | ret u op' r hu =>
      have c1 : t ≠ u := by
        rintro rfl
        exact hn op' r (by simp)
      exact ⟨p', m, (upd_other _ _ c1).trans g1, g2, by simp [Label.actBy]; exact g3⟩

/-- A label is of goroutine `t` and not a new call. -/
def Label.innerBy (t : Tid) : Label M Op R → Prop
  | .call _ _ => False
  | .act u _ _ => u = t
  | .ret u _ _ => u = t

end Verif.Conc
