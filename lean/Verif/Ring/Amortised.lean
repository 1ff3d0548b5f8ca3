import Verif.Ring.Props

/-!
# C77: the total cost of resizing is linear in the number of calls

`append`, `push` and `prepend` may call `checkGrowth`, and the deletes may call `checkShrink`
(ds/xring/ring.go:48-76). Each resize allocates a new array and copies every element to it. A single
call can therefore cost as much as the ring is long. Over any sequence of calls the total is linear.
-/

namespace Verif.Ring

variable {T : Type} [Inhabited T]

/-- What one call spent on resizing, seen from outside: if the capacity changed, the new array was
allocated (`Cap after` cells) and the elements present before were copied to it (`Len before`). Both
resizes always change the capacity. -/
def resizeCost (r r' : Ring T) : Nat := if Cap r' = Cap r then 0 else Cap r' + Len r

/-- Total resizing cost of a sequence of calls. -/
def totalResize (r : Ring T) : List (Op T) → Nat
  | [] => 0
  | o :: os => resizeCost r (step r o).1 + totalResize (step r o).1 os

/-- The credit held by a ring: it rises as the ring nears a resize in either direction. -/
def credit (r : Ring T) : Nat := 3 * (5 * Len r - 4 * Cap r) + (Cap r - 2 * Len r)

theorem step_credit {r : Ring T} (h : WF r) (o : Op T) :
    resizeCost r (step r o).1 + credit (step r o).1 ≤ 24 + credit r := by
  have hr := step_cap h o
  have hle := h.1
  generalize (step r o).1 = r' at *
  change Len r ≤ Cap r at hle
  unfold resizeCost credit
  rcases hr with ⟨h1, h2⟩ | ⟨h1, h2⟩ | ⟨h1, h2⟩
  · split at h2
    · unfold grown at h2
      split at h2
      · split <;> omega
      · split at h2 <;> split <;> omega
    · split <;> omega
  · split at h2 <;> split <;> omega
  · split <;> omega

theorem run_credit {r : Ring T} (h : WF r) (os : List (Op T)) :
    totalResize r os + credit (run r os).1 ≤ 24 * os.length + credit r := by
  induction os generalizing r with
  | nil => simp [totalResize, run]
  | cons o os ih =>
    have h1 := step_credit h o
    have h2 := ih (step_refines h o).1
    simp only [totalResize, run, List.length_cons]
    omega

theorem made_credit {r : Ring T} {l : List T} (m : Made r l) : credit r ≤ 3 * l.length := by
  have hl : Cap r = Len r ∧ Len r = l.length := by
    have := contents_length (made_wf m).1
    rw [(made_wf m).2] at this
    refine ⟨?_, this.symm⟩
    cases m with
    | new => rfl
    | newLen n => simp [newLen, Cap, Len]
    | newLenCap n c r h =>
      unfold newLenCap at h
      split at h <;> cases h
      simp [Cap, Len]
    | ofSlice => rfl
    | copy =>
      unfold copy
      split
      · rfl
      · rfl
  unfold credit; omega

/-- However a ring was obtained and whatever calls follow, the cells allocated plus the elements copied
by all its resizes are at most 24 per call plus 3 per initial element. -/
theorem C77_amortised_resize {r : Ring T} {l : List T} (m : Made r l) (os : List (Op T)) :
    totalResize r os ≤ 24 * os.length + 3 * l.length := by
  have h1 := run_credit (made_wf m).1 os
  have h2 := made_credit m
  omega

/-- The same bound counts from any point of a ring's life, with the elements present then as the
starting credit: a run of `k` calls made later costs at most `24 * k` plus what was saved up, which is
never more than 24 per earlier call plus 3 per initial element. -/
theorem C77_amortised_suffix {r : Ring T} {l : List T} (m : Made r l) (os os' : List (Op T)) :
    totalResize r os + totalResize (run r os).1 os' ≤
      24 * (os.length + os'.length) + 3 * l.length := by
  have h1 := run_credit (made_wf m).1 os
  have h2 := made_credit m
  have h3 := run_credit (run_refines (made_wf m).1 os).1 os'
  omega

/-- Calls on a ring that only read never resize it. -/
theorem C77_reads_free {r : Ring T} {l : List T} (m : Made r l) (os : List (Op T)) (o : Op T) :
    let r₁ := (run r os).1
    Len (step r₁ o).1 = Len r₁ → resizeCost r₁ (step r₁ o).1 = 0 := by
  intro r₁
  have hr := step_cap (run_refines (made_wf m).1 os).1 o
  change CapRule r₁ _ at hr
  intro hl
  generalize (step r₁ o).1 = r₂ at hr hl ⊢
  generalize r₁ = r₃ at hr hl ⊢
  unfold resizeCost
  clear m
  rcases hr with ⟨h1, -⟩ | ⟨h1, -⟩ | ⟨-, h2⟩
  · omega
  · omega
  · rw [if_pos h2]

-- five appends to a fresh ring: 0 → 4 cells, then 4 → 8 cells with four copies
example : totalResize (new : Ring Nat)
    [.append 1, .append 2, .append 3, .append 4, .append 5] = 4 + (8 + 4) := by decide

-- a ring taken over from a full slice pays for its first growth
example : totalResize (ofSlice [1, 2, 3, 4, 5, 6]) [.prepend 0, .pop, .pop] = 12 + 6 := by decide

end Verif.Ring
