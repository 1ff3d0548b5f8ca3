import Verif.Conc.Lin

/-!
# Showing that a history is not linearizable
-/

namespace Verif.Conc

variable {Op R : Type}

theorem SeqSpec.Run.split {S : SeqSpec Op R} {s s' : S.St} (a b : List (Op × R)) (h : S.Run s (a ++ b) s') :
    ∃ m, S.Run s a m ∧ S.Run m b s' := by
  generalize hl : a ++ b = l at h
  induction h generalizing b with
  | nil =>
    rw [List.append_eq_nil_iff] at hl
    obtain ⟨rfl, rfl⟩ := hl
    exact ⟨_, .nil _, .nil _⟩
  | @snoc s1 s2 l op r h hs ih =>
    rcases List.eq_nil_or_concat b with e | ⟨b', y, e⟩
    · subst e
      rw [List.append_nil] at hl
      subst hl
      exact ⟨_, .snoc h hs, .nil _⟩
    · rw [List.concat_eq_append] at e
      subst e
      rw [← List.append_assoc] at hl
      have h3 := List.append_inj_right' hl rfl
      have h4 := List.append_inj_left' hl rfl
      injection h3 with h3
      subst h3
      obtain ⟨m, g1, g2⟩ := ih b' h4
      exact ⟨m, g1, .snoc g2 hs⟩

theorem SeqSpec.Run.one {S : SeqSpec Op R} {s s' : S.St} {op : Op} {r : R} (h : S.Run s [(op, r)] s') :
    S.legal s op r s' := by
  have key : ∀ l (s' : S.St), S.Run s l s' → (l = [] → s' = s) ∧ (l = [(op, r)] → S.legal s op r s') := by
    intro l s' h
    induction h with
    | nil => exact ⟨fun _ => rfl, fun e => by cases e⟩
    | snoc h hs ih =>
      refine ⟨fun e => by simp at e, fun e => ?_⟩
      have h3 := List.append_inj_right' (s₂ := []) e rfl
      have h4 := List.append_inj_left' (s₂ := []) e rfl
      injection h3 with h3
      injection h3 with h3 h5
      subst h3 h5
      rw [ih.1 h4] at hs
      exact hs
  exact (key _ _ h).2 rfl

/-- What a linearization says about a call that returned: the calls put before it lead to a state in which its
result is right; a call that returned earlier is among them; none of them is the call itself; and they have the
results they returned. -/
theorem Linearizable.before {S : SeqSpec Op R} {H : List (Event Op R)} (h : Linearizable S H) {i j : Nat} {op : Op}
    {r : R} (hr : Returns H i j op r) : ∃ (l : List (Nat × Op × R)) (s s' : S.St),
      S.Run S.init (l.map Prod.snd) s ∧ S.legal s op r s' ∧
      (∀ i0 j0 op0 r0, Returns H i0 j0 op0 r0 → j0 ≤ i → (i0, op0, r0) ∈ l) ∧
      (∀ e ∈ l, e.1 ≠ i ∧ (∃ t, H[e.1]? = some (.inv t e.2.1)) ∧ ∀ j op r, Returns H e.1 j op r → e.2 = (op, r)) := by
  obtain ⟨L, s, h1, h2, h3, h4, h5⟩ := h
  have hm := h4 i j op r hr
  obtain ⟨l1, l2, rfl⟩ := List.append_of_mem hm
  rw [List.map_append, List.map_cons] at h1
  obtain ⟨m, g1, g2⟩ := h1.split
  obtain ⟨m', g2, -⟩ := SeqSpec.Run.split [(op, r)] _ g2
  rw [List.map_append, List.map_cons, List.nodup_append] at h2
  obtain ⟨n1, n2, n3⟩ := h2
  have hnot : ∀ e ∈ l1, ∀ e' ∈ ((i, op, r) :: l2), e.1 ≠ e'.1 := fun e he e' he' =>
    n3 e.1 (List.mem_map.2 ⟨e, he, rfl⟩) e'.1 (List.mem_map.2 ⟨e', he', rfl⟩)
  refine ⟨l1, m, m', g1, g2.one, ?_, ?_⟩
  · intro i0 j0 op0 r0 h0 hlt
    rcases List.mem_append.1 (h4 i0 j0 op0 r0 h0) with hm' | hm'
    · exact hm'
    · exfalso
      obtain ⟨t, k1, k2, k3, k4⟩ := h0
      rcases List.mem_cons.1 hm' with e | hm'
      · injection e with e
        omega
      · rw [List.pairwise_append] at h5
        have := (List.pairwise_cons.1 h5.2.1).1 _ hm' j0 op0 r0 ⟨t, k1, k2, k3, k4⟩
        simp only at this
        omega
  · intro e he
    refine ⟨hnot e he (i, op, r) (by simp), h3 e.1 e.2.1 e.2.2 (List.mem_append.2 (Or.inl he)), ?_⟩
    intro j' op' r' h'
    rcases List.mem_append.1 (h4 _ _ _ _ h') with hm' | hm'
    · have hp := List.pairwise_map.1 n1
      obtain ⟨a, ha, rfl⟩ := List.mem_iff_getElem.1 he
      obtain ⟨b, hb, e2⟩ := List.mem_iff_getElem.1 hm'
      rw [List.pairwise_iff_getElem] at hp
      rcases Nat.lt_trichotomy a b with c | c | c
      · exact absurd (by rw [e2]) (hp a b ha hb c)
      · subst c; rw [e2]
      · exact absurd (by rw [e2]) (hp b a hb ha c)
    · exact absurd rfl (hnot e he (e.1, op', r') hm')

end Verif.Conc
