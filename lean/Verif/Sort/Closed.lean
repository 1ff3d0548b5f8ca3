import Verif.Sort.Win
import Verif.Sort.Built

/-! # The sorts only compare elements of the slice, and only rearrange it

At every comparator call the slice is a rearrangement of the original one, and the two values compared
are among its elements. Hence two comparators that agree on the elements of the slice give the same
result, and a comparator that panics leaves the elements intact. -/

namespace Verif.Sort

variable {E : Type} [Inhabited E] {α β : Type}
set_option linter.unusedSectionVars false

/-- Every comparison is between elements of `P`, made while the slice is a rearrangement of `P`, and the
slice left at the end is one too. -/
def Prog.closed (P : List E) : Prog E (α × List E) → Prop
  | .ret p => p.2.Perm P
  | .fail _ => True
  | .note _ p => p.closed P
  | .ask _ x y d next => x ∈ P ∧ y ∈ P ∧ d.Perm P ∧ ∀ b, (next b).closed P

/-- Started on a rearrangement of `P`, the program stays so. -/
structure Closed (P : List E) (m : M E α) : Prop where
  run : ∀ d, d.Perm P → (m d).closed P

variable {P : List E}

theorem Prog.closed_bind {p : Prog E (α × List E)} {f : α → M E β} (h : p.closed P)
    (hf : ∀ a, Closed P (f a)) : (p.bind fun q => f q.1 q.2).closed P := by
  induction p with
  | ret q => exact (hf q.1).run q.2 h
  | fail msg => trivial
  | note e p ih => exact ih h
  | ask k x y d next ih => exact ⟨h.1, h.2.1, h.2.2.1, fun b => ih b (h.2.2.2 b)⟩

theorem Closed.bind {m : M E α} {f : α → M E β} (h : Closed P m) (hf : ∀ a, Closed P (f a)) :
    Closed P (m >>= f) := ⟨fun d hd => Prog.closed_bind (h.run d hd) hf⟩

theorem Closed.recurse {m : M E Unit} (h : Closed P m) : Closed P (Sort.recurse m) :=
  ⟨fun d hd => Prog.closed_bind (f := fun _ => (M.note .leave : M E Unit)) (h.run d hd) fun _ => ⟨fun _ hd => hd⟩⟩

theorem Closed.pure (a : α) : Closed P (Pure.pure a : M E α) := ⟨fun _ hd => hd⟩

theorem Closed.fail (msg : String) : Closed P (M.fail msg : M E α) := ⟨fun _ _ => trivial⟩

theorem el_mem {d : List E} {i : Int} (h : inRange d i) : el d i ∈ d := by
  rw [el_eq_getElem h]; exact List.getElem_mem _

theorem Closed.lessAt (i j : Int) : Closed P (lessAt i j : M E Bool) := by
  refine ⟨fun d hd => ?_⟩
  by_cases hi : inRange d i
  · by_cases hj : inRange d j
    · have e : (Sort.lessAt i j : M E Bool) d = .ask .lt (el d i) (el d j) d fun b => .ret (b, d) := by
        simp [Sort.lessAt, Bind.bind, Sort.get, hi, hj, Prog.bind, ask]
      rw [e]
      exact ⟨hd.mem_iff.1 (el_mem hi), hd.mem_iff.1 (el_mem hj), hd, fun _ => hd⟩
    · simp [Sort.lessAt, Bind.bind, Sort.get, hi, hj, Prog.bind, Prog.closed]
  · simp [Sort.lessAt, Bind.bind, Sort.get, hi, Prog.bind, Prog.closed]

theorem Closed.nlessAt (i j : Int) : Closed P (nlessAt i j : M E Bool) := by
  refine ⟨fun d hd => ?_⟩
  by_cases hi : inRange d i
  · by_cases hj : inRange d j
    · have e : (Sort.nlessAt i j : M E Bool) d = .ask .nlt (el d i) (el d j) d fun b => .ret (b, d) := by
        simp [Sort.nlessAt, Bind.bind, Sort.get, hi, hj, Prog.bind, ask]
      rw [e]
      exact ⟨hd.mem_iff.1 (el_mem hi), hd.mem_iff.1 (el_mem hj), hd, fun _ => hd⟩
    · simp [Sort.nlessAt, Bind.bind, Sort.get, hi, hj, Prog.bind, Prog.closed]
  · simp [Sort.nlessAt, Bind.bind, Sort.get, hi, Prog.bind, Prog.closed]

theorem Closed.swap (i j : Int) : Closed P (swap i j : M E Unit) := by
  refine ⟨fun d hd => ?_⟩
  unfold Sort.swap
  split
  · rename_i h
    exact (swapL_perm h.1 h.2).trans hd
  · trivial

/-- So do all programs made of comparisons and exchanges. -/
theorem Built.closed {r : Bool} {m : M E α} (h : Built r m) : Closed P m := by
  induction h with
  | pure a => exact Closed.pure a
  | fail msg => exact Closed.fail msg
  | lessAt i j => exact Closed.lessAt i j
  | nlessAt i j => exact Closed.nlessAt i j
  | swap i j => exact Closed.swap i j
  | bind _ _ h1 h2 => exact Closed.bind h1 h2
  | recurse _ _ h => exact Closed.recurse h
  | length _ h => exact ⟨fun d hd => (h _).run d hd⟩

theorem sortProg_closed : Closed P (sortProg : M E Unit) := sortProg_built.closed

theorem stableProg_closed : Closed P (stableProg : M E Unit) := stableProg_built.closed

/-- Comparators that agree on `P` give the same run. -/
theorem Prog.exec_congr {σ : Type} {cmp cmp' : σ → Kind → E → E → Bool × σ}
    (h : ∀ s k x y, x ∈ P → y ∈ P → cmp s k x y = cmp' s k x y) (p : Prog E (α × List E)) (hp : p.closed P)
    (s : σ) : p.exec cmp s = p.exec cmp' s := by
  induction p generalizing s with
  | ret _ => rfl
  | fail _ => rfl
  | note e p ih => exact ih hp s
  | ask k x y d next ih =>
    unfold Prog.exec
    rw [h s k x y hp.1 hp.2.1, ih _ (hp.2.2.2 _)]

theorem runProg_congr {σ : Type} {cmp cmp' : σ → Kind → E → E → Bool × σ} {m : M E Unit} {d : List E}
    (hm : Closed d m) (h : ∀ s k x y, x ∈ d → y ∈ d → cmp s k x y = cmp' s k x y) (s : σ) :
    runProg m cmp s d = runProg m cmp' s d := by
  unfold runProg
  rw [Prog.exec_congr h (m d) (hm.run d (List.Perm.refl _)) s]

/-- When the comparator panics, the slice is a rearrangement of the original one. -/
theorem Prog.runP_perm {σ : Type} {cmp : σ → Kind → E → E → Go Bool × σ} (p : Prog E (α × List E))
    (hp : p.closed P) (s : σ) {msg : String} {slice : List E} (h : p.runP cmp s = .panicked msg slice) :
    slice.Perm P := by
  induction p generalizing s with
  | ret _ => cases h
  | fail _ => cases h
  | note e p ih => exact ih hp s h
  | ask k x y d next ih =>
    unfold Prog.runP at h
    rcases hc : (cmp s k x y).1 with e | b
    · rw [hc] at h
      injection h with h1 h2
      rw [← h2]; exact hp.2.2.1
    · rw [hc] at h
      exact ih _ (hp.2.2.2 _) _ h

end Verif.Sort
