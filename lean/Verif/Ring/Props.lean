import Verif.Ring.Alias

/-! # Properties C22–C26: the ring buffer -/

namespace Verif.Ring

variable {T : Type} [Inhabited T]
set_option linter.unusedSectionVars false

/-! ## C22: the ring is a double-ended queue -/

/-- Whatever way the ring was obtained, every sequence of calls returns (and panics) exactly as on a
plain list. -/
theorem C22_ring_is_deque {r : Ring T} {l : List T} (m : Made r l) (os : List (Op T)) :
    (run r os).2 = (specRun l os).2 := by
  obtain ⟨w, c⟩ := made_wf m
  have := (run_refines w os).2
  rw [c] at this
  rw [this]

-- The hypothesis is met by a ring that wraps around and grows, with a panicking call at the end.
example : (run (ofSlice [1, 2, 3] : Ring Nat)
    [.pop, .append 4, .append 5, .prepend 0, .toSlice, .at 9]).2 =
    [.val 1, .unit, .unit, .unit, .slice (some [0, 2, 3, 4, 5]), .panic] := by decide

/-! ## C23: first in, first out -/

/-- The values put in by `Push`, in order. -/
def pushed : List (Op T) → List T
  | [] => []
  | .push v :: os => v :: pushed os
  | _ :: os => pushed os

/-- The values handed out, in order. -/
def received : List (Out T) → List T
  | [] => []
  | .val v :: os => v :: received os
  | _ :: os => received os

omit [Inhabited T] in
theorem spec_fifo (os : List (Op T)) (h : ∀ o ∈ os, o = .pop ∨ ∃ v, o = .push v) (l : List T) :
    received (specRun l os).2 ++ (specRun l os).1 = l ++ pushed os := by
  induction os generalizing l with
  | nil => simp [specRun, received, pushed]
  | cons o os ih =>
    have ih := ih (fun o ho => h o (List.mem_cons_of_mem _ ho))
    rcases h o List.mem_cons_self with rfl | ⟨v, rfl⟩
    · cases l with
      | nil => simpa [specRun, specStep, received, pushed] using ih []
      | cons v t => simpa [specRun, specStep, received, pushed] using ih t
    · simpa [specRun, specStep, received, pushed] using ih (l ++ [v])

/-- In every interleaving of `Push` and `Pop` on a new ring, the values popped so far, followed by
the values still inside, are the values pushed so far, in order. -/
theorem C23_fifo (os : List (Op T)) (h : ∀ o ∈ os, o = .pop ∨ ∃ v, o = .push v) :
    ∃ rest : List T, received (run new os).2 ++ rest = pushed os ∧
      (step (run new os).1 .toSlice).2 = .slice (if rest = [] then none else some rest) := by
  obtain ⟨w, c⟩ := made_wf (T := T) Made.new
  obtain ⟨w2, e⟩ := run_refines w os
  rw [c] at e
  refine ⟨contents (run new os).1, ?_, ?_⟩
  · have := spec_fifo os h []
    rw [e] at this
    simpa using this
  · have := (step_refines w2 .toSlice).2
    simp only [specStep, Prod.mk.injEq] at this
    exact this.2.symm

example : ∀ o ∈ ([.push 1, .pop, .pop, .push 2, .push 3, .pop] : List (Op Nat)),
    o = .pop ∨ ∃ v, o = .push v := by simp

example : received (run (new : Ring Nat) [.push 1, .pop, .pop, .push 2, .push 3, .pop]).2 = [1, 2] := by
  decide

/-! ## C24: capacity -/

/-- Capacity facts kept by every operation. -/
def CapOk (r : Ring T) : Prop := Cap r ≤ 1024 ∨ Cap r / 8 ≤ Len r + 1

theorem append_cap {r r' : Ring T} (h : WF r) {v : T} (e : append r v = .ok r') :
    Cap r' = (if Len r = Cap r then grown (Cap r) else Cap r) ∧ Len r' = Len r + 1 := by
  obtain ⟨g, hg, w, c, hl, hlt, hb, -⟩ := checkGrowth_eq h
  unfold append at e
  simp only [hg, bind, Except.bind] at e
  split at e
  · cases e
  · rename_i b hb'
    cases e
    obtain ⟨hr0, hr1, rfl⟩ := goSet_inv hb'
    refine ⟨?_, by simp [Len, hl]⟩
    simp only [Cap, List.length_set]; exact hb

theorem prepend_cap {r r' : Ring T} (h : WF r) {v : T} (e : prepend r v = .ok r') :
    Cap r' = (if Len r = Cap r then grown (Cap r) else Cap r) ∧ Len r' = Len r + 1 := by
  obtain ⟨g, hg, w, c, hl, hlt, hb, -⟩ := checkGrowth_eq h
  unfold prepend at e
  simp only [hg, bind, Except.bind] at e
  split at e
  · cases e
  · rename_i b hb'
    cases e
    obtain ⟨hr0, hr1, rfl⟩ := goSet_inv hb'
    refine ⟨?_, by simp [Len, hl]⟩
    simp only [Cap, List.length_set]; exact hb

theorem deleteFirst_cap {r r' : Ring T} (h : WF r) (e : deleteFirst r = .ok r') :
    Cap r' = (if Cap r > 1024 ∧ Cap r / 8 > Len r then Cap r / 8 else Cap r) ∧
      Len r = Len r' + 1 := by
  obtain ⟨g, hg, w, c, hl, hb, -⟩ := checkShrink_eq h
  unfold deleteFirst at e
  simp only [hg, bind, Except.bind] at e
  split at e
  · cases e
  · split at e
    · cases e
    · rename_i b hb'
      cases e
      obtain ⟨hr0, hr1, rfl⟩ := goSet_inv hb'
      refine ⟨by simp [Cap, Len, hb], ?_⟩
      simp only [Len, hl]; omega

theorem deleteLast_cap {r r' : Ring T} (h : WF r) (e : deleteLast r = .ok r') :
    Cap r' = (if Cap r > 1024 ∧ Cap r / 8 > Len r then Cap r / 8 else Cap r) ∧
      Len r = Len r' + 1 := by
  obtain ⟨g, hg, w, c, hl, hb, -⟩ := checkShrink_eq h
  unfold deleteLast at e
  simp only [hg, bind, Except.bind] at e
  split at e
  · cases e
  · split at e
    · cases e
    · rename_i b hb'
      cases e
      obtain ⟨hr0, hr1, rfl⟩ := goSet_inv hb'
      refine ⟨by simp [Cap, Len, hb], ?_⟩
      simp only [Len, hl]; omega

theorem set_cap {r r' : Ring T} {i : Int} {v : T} (e : set_ r i v = .ok r') :
    Cap r' = Cap r ∧ Len r' = Len r := by
  unfold set_ at e
  simp only [bind, Except.bind] at e
  split at e
  · cases e
  · split at e
    · cases e
    · rename_i b hb'
      cases e
      obtain ⟨hr0, hr1, rfl⟩ := goSet_inv hb'
      simp [Cap, Len]

theorem pop_split {r r' : Ring T} {v : T} (e : pop r = .ok (r', v)) : deleteFirst r = .ok r' := by
  unfold pop at e
  simp only [bind, Except.bind] at e
  split at e
  · cases e
  · split at e
    · cases e
    · split at e
      · cases e
      · rename_i h; cases e; exact h

/-- The rule for what one successful call may do to the capacity. -/
def CapRule (r r' : Ring T) : Prop :=
  (Len r' = Len r + 1 ∧ Cap r' = (if Len r = Cap r then grown (Cap r) else Cap r)) ∨
  (Len r = Len r' + 1 ∧ Cap r' = (if Cap r > 1024 ∧ Cap r / 8 > Len r then Cap r / 8 else Cap r)) ∨
  (Len r' = Len r ∧ Cap r' = Cap r)

theorem step_cap {r : Ring T} (h : WF r) (o : Op T) : CapRule r (step r o).1 := by
  have triv : CapRule r r := Or.inr (Or.inr ⟨rfl, rfl⟩)
  cases o with
  | append v =>
    simp only [step]; split
    · rename_i e; have := append_cap h e; exact Or.inl ⟨this.2, this.1⟩
    · exact triv
  | push v =>
    simp only [step]; split
    · rename_i e; have := append_cap h e; exact Or.inl ⟨this.2, this.1⟩
    · exact triv
  | prepend v =>
    simp only [step]; split
    · rename_i e; have := prepend_cap h e; exact Or.inl ⟨this.2, this.1⟩
    · exact triv
  | pop =>
    simp only [step]; split
    · rename_i e; have := deleteFirst_cap h (pop_split e); exact Or.inr (Or.inl ⟨this.2, this.1⟩)
    · exact triv
  | deleteFirst =>
    simp only [step]; split
    · rename_i e; have := deleteFirst_cap h e; exact Or.inr (Or.inl ⟨this.2, this.1⟩)
    · exact triv
  | deleteLast =>
    simp only [step]; split
    · rename_i e; have := deleteLast_cap h e; exact Or.inr (Or.inl ⟨this.2, this.1⟩)
    · exact triv
  | set i v =>
    simp only [step]; split
    · rename_i e; have := set_cap e; exact Or.inr (Or.inr ⟨this.2, this.1⟩)
    · exact triv
  | «at» i => simp only [step]; split <;> exact triv
  | first => simp only [step]; split <;> exact triv
  | last => simp only [step]; split <;> exact triv
  | len => exact triv
  | isEmpty => exact triv
  | toSlice => simp only [step]; split <;> exact triv

theorem step_capOk {r : Ring T} (h : WF r) (hc : CapOk r) (o : Op T) : CapOk (step r o).1 := by
  have hr := step_cap h o
  have hle := h.1
  unfold CapOk at *
  generalize (step r o).1 = r' at *
  change Len r ≤ Cap r at hle
  rcases hr with ⟨h1, h2⟩ | ⟨h1, h2⟩ | ⟨h1, h2⟩
  · split at h2
    · unfold grown at h2
      split at h2
      · omega
      · split at h2 <;> omega
    · omega
  · split at h2 <;> omega
  · omega

theorem run_capOk {r : Ring T} (h : WF r) (hc : CapOk r) (os : List (Op T)) :
    WF (run r os).1 ∧ CapOk (run r os).1 := by
  induction os generalizing r with
  | nil => exact ⟨h, hc⟩
  | cons o os ih => exact ih (step_refines h o).1 (step_capOk h hc o)

theorem made_capOk {r : Ring T} {l : List T} (m : Made r l) : CapOk r := by
  have key : ∀ r : Ring T, Cap r = Len r → CapOk r := by intro r h; unfold CapOk; omega
  apply key
  cases m with
  | new => rfl
  | newLen n => simp [newLen, Cap, Len]
  | newLenCap n c r h =>
    unfold newLenCap at h
    split at h <;> cases h
    simp [Cap, Len]
  | ofSlice => rfl
  | copy =>
    unfold copy
    split
    · rfl
    · rfl

/-- After any sequence of calls: `Len ≤ Cap`, and either `Cap ≤ 1024` or `Cap/8 ≤ Len+1`; so an empty
ring has `Cap ≤ 1024`. -/
theorem C24_capacity_bounds {r : Ring T} {l : List T} (m : Made r l) (os : List (Op T)) :
    let r' := (run r os).1
    Len r' ≤ Cap r' ∧ (Cap r' ≤ 1024 ∨ Cap r' / 8 ≤ Len r' + 1) ∧ (Len r' = 0 → Cap r' ≤ 1024) := by
  obtain ⟨w, c⟩ := made_wf m
  obtain ⟨w2, hc⟩ := run_capOk w (made_capOk m) os
  refine ⟨w2.1, hc, ?_⟩
  intro h0
  rcases hc with hc | hc
  · exact hc
  · omega

/-- The growth rule: a call that adds an element changes the capacity only when the ring is full, and
then to 4 (from 0), to twice (below 1024) or to five quarters of the old capacity. -/
theorem C24_growth_rule {r : Ring T} {l : List T} (m : Made r l) (os : List (Op T)) (o : Op T) :
    let r₁ := (run r os).1
    let r₂ := (step r₁ o).1
    Len r₁ < Len r₂ →
      (Len r₁ < Cap r₁ → Cap r₂ = Cap r₁) ∧
      (Len r₁ = Cap r₁ → Cap r₁ = 0 → Cap r₂ = 4) ∧
      (Len r₁ = Cap r₁ → 0 < Cap r₁ → Cap r₁ < 1024 → Cap r₂ = 2 * Cap r₁) ∧
      (Len r₁ = Cap r₁ → 1024 ≤ Cap r₁ → Cap r₂ = Cap r₁ + Cap r₁ / 4) := by
  obtain ⟨w, c⟩ := made_wf m
  have w2 := (run_refines w os).1
  have := step_cap w2 o
  intro r₁ r₂ hlt
  change CapRule r₁ r₂ at this
  rcases this with ⟨h1, h2⟩ | ⟨h1, h2⟩ | ⟨h1, h2⟩
  · unfold grown at h2
    refine ⟨?_, ?_, ?_, ?_⟩ <;> intro a
    · rw [if_neg (by omega)] at h2; exact h2
    · intro b; rw [if_pos a, if_pos b] at h2; exact h2
    · intro b c; rw [if_pos a, if_neg (by omega), if_pos c] at h2; omega
    · intro b; rw [if_pos a, if_neg (by omega), if_neg (by omega)] at h2; omega
  · omega
  · omega

example : Cap (run (new : Ring Nat) [.append 1, .append 2, .append 3, .append 4, .append 5]).1 = 8 := by
  decide

/-! ## C25: removed elements are not retained -/

/-- Every slot that does not hold a current element is zero. -/
def DeadZero (r : Ring T) : Prop :=
  ∀ j, j < r.buf.length → (∀ i, i < r.len → wrapIdx r.buf.length (r.st + i) ≠ j) →
    r.buf[j]? = some default

theorem moved_deadZero {r : Ring T} (h : WF r) (c : Nat) (hc : r.len ≤ c) :
    DeadZero (⟨contents r ++ (List.replicate c default).drop r.len, 0, r.len⟩ : Ring T) := by
  have h5 := contents_length h
  intro j hj hd
  simp only [List.length_append, h5, List.length_drop, List.length_replicate] at hj
  have hjl : ¬ j < r.len := by
    intro hlt
    refine hd j hlt ?_
    simp only [wrapIdx, List.length_append, h5, List.length_drop, List.length_replicate]
    rw [if_neg (by omega)]; omega
  simp only []
  rw [List.getElem?_append_right (by omega), List.getElem?_drop, List.getElem?_replicate, if_pos (by omega)]

theorem append_dead {r r' : Ring T} (h : WF r) (hz : DeadZero r) {v : T}
    (e : append r v = .ok r') : DeadZero r' := by
  obtain ⟨g, hg, w, c, hl, hlt, hb, hg1, hg2⟩ := checkGrowth_eq h
  have hgz : DeadZero g := by
    by_cases hcase : r.len = r.buf.length
    · rw [hg1 hcase]; exact moved_deadZero h _ (by have := grown_gt r.buf.length; omega)
    · rw [hg2 hcase]; exact hz
  unfold append at e
  simp only [hg, bind, Except.bind] at e
  split at e
  · cases e
  · rename_i b hb'
    cases e
    obtain ⟨hr0, hr1, rfl⟩ := goSet_inv hb'
    intro j hj hd
    simp only [List.length_set] at hj hd
    have hne := hd g.len (by omega)
    rw [List.getElem?_set_ne]
    · exact hgz j hj (fun i hi => hd i (by omega))
    · simpa [wrapIdx] using hne

theorem prepend_dead {r r' : Ring T} (h : WF r) (hz : DeadZero r) {v : T}
    (e : prepend r v = .ok r') : DeadZero r' := by
  obtain ⟨g, hg, w, c, hl, hlt, hb, hg1, hg2⟩ := checkGrowth_eq h
  have hgz : DeadZero g := by
    by_cases hcase : r.len = r.buf.length
    · rw [hg1 hcase]; exact moved_deadZero h _ (by have := grown_gt r.buf.length; omega)
    · rw [hg2 hcase]; exact hz
  have w2 := w.2
  unfold prepend at e
  simp only [hg, bind, Except.bind] at e
  split at e
  · cases e
  · rename_i b hb'
    cases e
    obtain ⟨hr0, hr1, rfl⟩ := goSet_inv hb'
    intro j hj hd
    simp only [List.length_set] at hj hd
    have hne := hd 0 (by omega)
    rw [List.getElem?_set_ne]
    · refine hgz j hj (fun i hi => ?_)
      have := hd (i + 1) (by omega)
      intro heq
      apply this
      subst heq
      unfold wrapIdx
      split <;> split <;> split <;> omega
    · intro heq; apply hne; subst heq; unfold wrapIdx; simp only [Nat.add_zero]
      rw [if_neg (by omega)]

theorem deleteFirst_dead {r r' : Ring T} (h : WF r) (hz : DeadZero r)
    (e : deleteFirst r = .ok r') : DeadZero r' := by
  obtain ⟨g, hg, w, c, hl, hb, hcase⟩ := checkShrink_eq h
  have hgz : DeadZero g := by
    rcases hcase with hcase | hcase
    · rw [hcase]; exact hz
    · rw [hcase.2]; exact moved_deadZero h _ hcase.1
  have w1 := w.1
  have w2 := w.2
  unfold deleteFirst at e
  simp only [hg, bind, Except.bind] at e
  split at e
  · cases e
  · rename_i hn0
    split at e
    · cases e
    · rename_i b hb'
      cases e
      obtain ⟨hr0, hr1, rfl⟩ := goSet_inv hb'
      intro j hj hd
      simp only [List.length_set, Int.toNat_natCast] at hj hd ⊢
      by_cases hj2 : g.st = j
      · subst hj2; simp [hj]
      · rw [List.getElem?_set_ne hj2]
        refine hgz j hj (fun i hi => ?_)
        cases i with
        | zero => unfold wrapIdx; rw [if_neg (by omega)]; exact hj2
        | succ i =>
          have := hd i (by omega)
          intro heq
          apply this
          subst heq
          unfold wrapIdx
          split <;> split <;> split <;> omega

theorem deleteLast_dead {r r' : Ring T} (h : WF r) (hz : DeadZero r)
    (e : deleteLast r = .ok r') : DeadZero r' := by
  obtain ⟨g, hg, w, c, hl, hb, hcase⟩ := checkShrink_eq h
  have hgz : DeadZero g := by
    rcases hcase with hcase | hcase
    · rw [hcase]; exact hz
    · rw [hcase.2]; exact moved_deadZero h _ hcase.1
  have w1 := w.1
  have w2 := w.2
  unfold deleteLast at e
  simp only [hg, bind, Except.bind] at e
  split at e
  · cases e
  · rename_i hn0
    split at e
    · cases e
    · rename_i b hb'
      cases e
      obtain ⟨hr0, hr1, rfl⟩ := goSet_inv hb'
      intro j hj hd
      simp only [List.length_set] at hj hd ⊢
      generalize hx : (if (g.st : Int) + g.len - 1 ≥ g.buf.length then (g.st : Int) + g.len - 1 - g.buf.length else (g.st : Int) + g.len - 1).toNat = x at *
      by_cases hj2 : x = j
      · subst hj2; simp [hj]
      · rw [List.getElem?_set_ne hj2]
        refine hgz j hj (fun i hi => ?_)
        by_cases hi2 : i = g.len - 1
        · subst hi2; intro heq; apply hj2; subst heq; subst hx; unfold wrapIdx; split <;> split <;> omega
        · exact hd i (by omega)

theorem set_dead {r r' : Ring T} (h : WF r) (hz : DeadZero r) {i : Int} {v : T}
    (e : set_ r i v = .ok r') : DeadZero r' := by
  by_cases hi : 0 ≤ i ∧ i < r.len
  · obtain ⟨j, hj, hlt, hjv⟩ := atRef_eq h hi.1 hi.2
    simp only [set_, hj, bind, Except.bind, goSet_nat hlt, pure, Except.pure] at e
    cases e
    intro k hk hd
    simp only [List.length_set] at hk hd
    have := hd i.toNat (by omega)
    rw [← hjv] at this
    simp only []
    rw [List.getElem?_set_ne this]
    exact hz k hk hd
  · have : set_ r i v = .error "index out of bound" := by
      simp only [set_, atRef]; rw [if_pos (by omega)]; rfl
    rw [this] at e; cases e

theorem step_dead {r : Ring T} (h : WF r) (hz : DeadZero r) (o : Op T) : DeadZero (step r o).1 := by
  cases o with
  | append v => simp only [step]; split <;> first | exact append_dead h hz ‹_› | exact hz
  | push v => simp only [step]; split <;> first | exact append_dead h hz ‹_› | exact hz
  | prepend v => simp only [step]; split <;> first | exact prepend_dead h hz ‹_› | exact hz
  | pop => simp only [step]; split <;> first | exact deleteFirst_dead h hz (pop_split ‹_›) | exact hz
  | deleteFirst => simp only [step]; split <;> first | exact deleteFirst_dead h hz ‹_› | exact hz
  | deleteLast => simp only [step]; split <;> first | exact deleteLast_dead h hz ‹_› | exact hz
  | set i v => simp only [step]; split <;> first | exact set_dead h hz ‹_› | exact hz
  | «at» i => simp only [step]; split <;> exact hz
  | first => simp only [step]; split <;> exact hz
  | last => simp only [step]; split <;> exact hz
  | len => exact hz
  | isEmpty => exact hz
  | toSlice => simp only [step]; split <;> exact hz

theorem made_dead {r : Ring T} {l : List T} (m : Made r l) : DeadZero r := by
  have key : ∀ l : List T, DeadZero (⟨l, 0, l.length⟩ : Ring T) := by
    intro l j hj hd
    refine absurd ?_ (hd j hj)
    simp only [wrapIdx]; rw [if_neg (by simp at hj ⊢; omega)]; omega
  cases m with
  | new => exact key []
  | newLen n => have := key (List.replicate n default); simpa [newLen] using this
  | newLenCap n c r h =>
    unfold newLenCap at h
    split at h <;> cases h
    have := key (List.replicate n default); simpa using this
  | ofSlice => exact key _
  | copy =>
    unfold copy
    split
    · exact key []
    · exact key _

/-- After any sequence of calls every storage slot is either the slot of a current element
(`buf[(st+i) mod cap]` for some `i < Len`) or holds the zero value. -/
theorem C25_dead_slots_zero {r : Ring T} {l : List T} (m : Made r l) (os : List (Op T)) (j : Nat) :
    let r' := (run r os).1
    j < r'.buf.length →
      (∃ i, i < r'.len ∧ j = (r'.st + i) % r'.buf.length) ∨ r'.buf[j]? = some default := by
  intro r' hj
  have h : WF r' ∧ DeadZero r' := by
    have w := (made_wf m).1
    have z := made_dead m
    clear hj m
    simp only [r']
    clear r'
    induction os generalizing r with
    | nil => exact ⟨w, z⟩
    | cons o os ih => exact ih (step_refines w o).1 (step_dead w z o)
  by_cases hd : ∃ i, i < r'.len ∧ j = (r'.st + i) % r'.buf.length
  · exact Or.inl hd
  · right
    refine h.2 j hj ?_
    intro i hi heq
    refine hd ⟨i, hi, ?_⟩
    have w1 := h.1.1
    have w2 := h.1.2
    rw [← heq]
    unfold wrapIdx
    split
    · rename_i hge
      rw [Nat.mod_eq_sub_mod hge, Nat.mod_eq_of_lt]
      omega
    · rw [Nat.mod_eq_of_lt]; omega

example : (run (ofSlice [7, 8, 9] : Ring Nat) [.pop, .deleteLast]).1.buf = [0, 8, 0] := by decide

/-! ## C26: `ToSlice` -/

/-- The full C26: for every ring state and every buffer, `ToSlice` returns the contents and does not
change the ring. It does not hold (`C26_full_false`). -/
def C26_full (T : Type) [Inhabited T] : Prop :=
  ∀ (m : Nat → T) (r : MemRing) (s : Win), r.len ≤ r.n → (r.st < r.n ∨ r.st = 0) →
    let p := toSliceMem m r s
    (p.2.map (Built.val p.1)).getD [] = contents (r.denote m) ∧
    contents (r.denote p.1) = contents (r.denote m)

/-- `ToSlice(nil)` and `ToSlice(s)` for a buffer of any capacity that does not share memory with the
ring's storage return the contents in order (nil when empty) and leave every cell outside the
buffer — in particular the ring — as it was.

Missing from the full C26: buffers overlapping the ring's storage, for which the claim is false
(`C26_fails_when_aliased`), except in the case of `C26_aliased_unrotated`. -/
theorem C26_toSlice_disjoint_partial (m : Nat → T) (r : MemRing) (s : Win)
    (hl : r.len ≤ r.n) (hs : r.st < r.n ∨ r.st = 0)
    (hdisj : s.off + s.cap ≤ r.off ∨ r.off + r.n ≤ s.off) :
    let p := toSliceMem m r s
    (p.2.map (Built.val p.1)).getD [] = contents (r.denote m) ∧
    (p.2 = none ↔ r.len = 0) ∧
    r.denote p.1 = r.denote m ∧
    (∀ a, (a < s.off ∨ s.off + s.cap ≤ a) → p.1 a = m a) := by
  by_cases h0 : r.len = 0
  · simp only [toSliceMem, h0, if_true, Option.map_none, Option.getD_none, true_and]
    refine ⟨?_, fun _ _ => trivial⟩
    simp [contents, MemRing.denote, h0]
  · have hsplit := read_split m r hl hs
    have hwin : ∀ w, (Built.inMem { s with len := 0 } : Built T) = .inMem w →
        s.off = w.off ∧ s.off + s.cap = w.off + w.cap := by
      intro w hw; cases hw; exact ⟨rfl, rfl⟩
    have hden : ∀ m' : Nat → T, (∀ a, (a < s.off ∨ s.off + s.cap ≤ a) → m' a = m a) →
        r.denote m' = r.denote m := by
      intro m' hm
      unfold MemRing.denote
      congr 1
      exact readMem_congr (fun a h1 h2 => hm a (by omega))
    have hv0 : Built.val m (.inMem { s with len := 0 }) = [] := by
      simp [Built.val, readMem]
    simp only [toSliceMem, h0, if_false]
    by_cases h1 : r.st + r.len ≤ r.n
    · simp only [h1, if_true] at hsplit ⊢
      obtain ⟨a1, a2, -⟩ := appendMem_spec m (.inMem { s with len := 0 })
        (readMem m (r.off + r.st) r.len) s.off (s.off + s.cap) hwin
      refine ⟨?_, by simp, hden _ a2, a2⟩
      simp only [Option.map_some, Option.getD_some]
      rw [a1, hv0, hsplit]; rfl
    · simp only [h1, if_false] at hsplit ⊢
      obtain ⟨a1, a2, a3⟩ := appendMem_spec m (.inMem { s with len := 0 })
        (readMem m (r.off + r.st) (r.n - r.st)) s.off (s.off + s.cap) hwin
      generalize appendMem m (.inMem { s with len := 0 })
        (readMem m (r.off + r.st) (r.n - r.st)) = p1 at *
      obtain ⟨b1, b2, -⟩ := appendMem_spec p1.1 p1.2
        (readMem p1.1 r.off (r.st + r.len - r.n)) s.off (s.off + s.cap) a3
      have a2' : ∀ a, (a < s.off ∨ s.off + s.cap ≤ a) →
          (appendMem p1.1 p1.2 (readMem p1.1 r.off (r.st + r.len - r.n))).1 a = m a :=
        fun a ha => (b2 a ha).trans (a2 a ha)
      refine ⟨?_, by simp, hden _ a2', a2'⟩
      simp only [Option.map_some, Option.getD_some]
      rw [b1, a1, hv0, hsplit, List.nil_append]
      congr 1
      exact readMem_congr (fun a h1 h2 => a2 a (by omega))

/-- A wrapped ring and a separate buffer of capacity 5. -/
example : ∃ (r : MemRing) (s : Win), r.len ≤ r.n ∧ (r.st < r.n ∨ r.st = 0) ∧
    (s.off + s.cap ≤ r.off ∨ r.off + r.n ≤ s.off) ∧ r.n < r.st + r.len ∧ 0 < s.cap :=
  ⟨⟨0, 3, 2, 3⟩, ⟨3, 0, 5⟩, by decide⟩

omit [Inhabited T] in
theorem Dst.append_out (d : Dst T) (xs : List T) : (d.append xs).out = d.out ++ xs := by
  unfold Dst.append; split <;> rfl

theorem copyOut_out {r : Ring T} (h : WF r) (d : Dst T) (hd : d.out = []) :
    ∃ d', copyOut r d = .ok d' ∧ d'.out = contents r := by
  -- the values appended do not depend on the destination
  have h1 := copyOut_eq h (List.replicate r.len default) (by simp)
  unfold copyOut at h1 ⊢
  split
  · rename_i hle
    rw [if_pos hle] at h1
    rcases hg : goSlice r.buf r.st (r.st + r.len) with e | a
    · rw [hg] at h1; cases h1
    · rw [hg] at h1
      injection h1 with h1
      refine ⟨_, rfl, ?_⟩
      have := congrArg Dst.out h1
      rw [Dst.append_out] at this ⊢
      rw [hd]; exact this
  · rename_i hle
    rw [if_neg hle] at h1
    rcases hg : goSlice r.buf r.st r.buf.length with e | a
    · rw [hg] at h1; cases h1
    · rw [hg] at h1
      rcases hg2 : goSlice r.buf 0 ((r.st : Int) + r.len - r.buf.length) with e | b
      · simp only [hg2] at h1; cases h1
      · simp only [hg2] at h1 ⊢
        injection h1 with h1
        refine ⟨_, rfl, ?_⟩
        have := congrArg Dst.out h1
        rw [Dst.append_out, Dst.append_out] at this ⊢
        rw [hd]; exact this

/-- The same for the ring as a value: after any history, `ToSlice(nil)` and `ToSlice(s)` with a buffer `s`
of any length and capacity (not sharing memory) return what the plain list holds, nil when it is empty. -/
theorem C26_toSlice_history_partial {r : Ring T} {l : List T} (m : Made r l) (os : List (Op T))
    (s : Option (List T)) :
    ∃ arr, toSlice (run r os).1 s =
      .ok (if (specRun l os).1 = [] then none else some (specRun l os).1, arr) := by
  obtain ⟨w, c⟩ := made_wf m
  obtain ⟨w, e⟩ := run_refines w os
  rw [c] at e
  rw [e]
  dsimp only
  cases s with
  | none => exact ⟨_, toSlice_none_eq w⟩
  | some arr =>
    have h5 := contents_length w
    unfold toSlice
    by_cases h0 : (run r os).1.len = 0
    · have : contents (run r os).1 = [] := List.eq_nil_of_length_eq_zero (by omega)
      rw [if_pos h0, if_pos this]
      exact ⟨_, rfl⟩
    · have : contents (run r os).1 ≠ [] := by intro h; rw [h] at h5; simp at h5; omega
      rw [if_neg h0, if_neg this]
      obtain ⟨d', h1, h2⟩ := copyOut_out w ⟨arr, [], true⟩ rfl
      refine ⟨d'.arr, ?_⟩
      simp only [h1, bind, Except.bind, pure, Except.pure, h2]

/-- Non-vacuity: a ring that wraps around, copied into a buffer that is too short. -/
example : toSlice (run (ofSlice [1, 2, 3] : Ring Nat) [.pop, .append 4]).1 (some [9, 9]) =
    .ok (some [2, 3, 4], [2, 3]) := by decide

/-- With a buffer starting exactly at the ring's storage, an unrotated ring (`st = 0`, as right after
`OfSlice`) is still copied out correctly and left unchanged. -/
theorem C26_aliased_unrotated (m : Nat → T) (r : MemRing) (s : Win)
    (hl : r.len ≤ r.n) (hs : r.st = 0) (hoff : s.off = r.off) :
    let p := toSliceMem m r s
    (p.2.map (Built.val p.1)).getD [] = contents (r.denote m) ∧ p.1 = m := by
  by_cases h0 : r.len = 0
  · simp [toSliceMem, h0, contents, MemRing.denote]
  · have hsplit := read_split m r hl (Or.inr hs)
    have hwin : ∀ w, (Built.inMem { s with len := 0 } : Built T) = .inMem w →
        s.off = w.off ∧ s.off + s.cap = w.off + w.cap := by
      intro w hw; cases hw; exact ⟨rfl, rfl⟩
    simp only [toSliceMem, h0, if_false, hs, Nat.zero_add, hl, if_true, Nat.add_zero] at hsplit ⊢
    obtain ⟨a1, a2, -⟩ := appendMem_spec m (.inMem { s with len := 0 })
      (readMem m r.off r.len) s.off (s.off + s.cap) hwin
    refine ⟨?_, ?_⟩
    · simp only [Option.map_some, Option.getD_some]
      rw [a1, hsplit]; simp [Built.val, readMem]
    · simp only [appendMem]
      split
      · funext a
        simp only [hoff, Nat.add_zero]
        by_cases ha : r.off ≤ a ∧ a < r.off + r.len
        · have := writeMem_in m r.off (readMem m r.off r.len) (a - r.off)
            (by rw [readMem_length]; omega)
          rw [readMem_getElem?, if_pos (by omega)] at this
          have e : r.off + (a - r.off) = a := by omega
          rw [e] at this
          exact Option.some.inj this
        · exact writeMem_out _ _ _ _ (by rw [readMem_length]; omega)
      · rfl

example : ∃ (r : MemRing) (s : Win), r.len ≤ r.n ∧ r.st = 0 ∧ s.off = r.off ∧ r.len = 3 :=
  ⟨⟨5, 4, 0, 3⟩, ⟨5, 0, 4⟩, by decide⟩

/-- The claim fails when the buffer is the array the ring was built from and the ring has wrapped:
`arr := [1,2,3]; r := OfSlice(arr); r.Pop(); r.Append(4); r.ToSlice(arr)` gives `[2,3,2]` instead of
`[2,3,4]` and changes the ring's contents. -/
theorem C26_fails_when_aliased :
    ∃ (m : Nat → Nat) (r : MemRing) (s : Win),
      r.len ≤ r.n ∧ r.st < r.n ∧ s.off = r.off ∧ s.cap = r.n ∧
      r.denote m = (run (ofSlice [1, 2, 3]) [.pop, .append 4]).1 ∧
      contents (r.denote m) = [2, 3, 4] ∧
      ((toSliceMem m r s).2.map (Built.val (toSliceMem m r s).1)) = some [2, 3, 2] ∧
      contents (r.denote (toSliceMem m r s).1) = [3, 2, 2] := by
  refine ⟨fun i => ([4, 2, 3] : List Nat)[i]?.getD 0, ⟨0, 3, 1, 3⟩, ⟨0, 3, 3⟩, ?_⟩
  decide

/-- Hence the full C26 is false for the code as it is. -/
theorem C26_full_false : ¬ C26_full Nat := by
  obtain ⟨m, r, s, h1, h2, -, -, -, h3, h4, -⟩ := C26_fails_when_aliased
  intro h
  have := (h m r s h1 (Or.inl h2)).1
  rw [h3, h4] at this
  exact absurd this (by decide)

end Verif.Ring
