import Verif.Stream.Props

/-! # C46, exactly: what a finished stream does under every later sequence of calls -/

namespace Verif.Stream

variable {T E : Type} {S : Source T E}

/-- A `Filter` or a `Limit`. -/
def Use.pred : Use T E → Bool
  | .call c => c.isPred
  | .next => false

/-- Among the uses there is a `Skip(n)`, `n > 0`, before any `Filter` or `Limit`. -/
def BareSkip (us : List (Use T E)) : Prop :=
  ∃ a n b, us = a ++ .call (.skip n) :: b ∧ 0 < n ∧ ∀ u ∈ a, u.pred = false

theorem bareSkip_cons (u : Use T E) (us : List (Use T E)) :
    BareSkip (u :: us) ↔ (∃ n, u = .call (.skip n) ∧ 0 < n) ∨ u.pred = false ∧ BareSkip us := by
  constructor
  · rintro ⟨a, n, b, h1, h2, h3⟩
    cases a with
    | nil => injection h1 with h1 _; exact .inl ⟨n, h1, h2⟩
    | cons x a =>
      injection h1 with h1 h4
      subst h1
      exact .inr ⟨h3 _ (by simp), a, n, b, h4, h2, fun u hu => h3 u (by simp [hu])⟩
  · rintro (⟨n, rfl, h⟩ | ⟨h, a, n, b, rfl, h2, h3⟩)
    · exact ⟨[], n, us, rfl, h, by simp⟩
    · refine ⟨u :: a, n, b, rfl, h2, ?_⟩
      intro v hv
      rcases List.mem_cons.1 hv with rfl | hv
      · exact h
      · exact h3 v hv

/-- **C46**, exactly: after `Next` has reported the end, a sequence of later uses with legal arguments panics if the
stream has no `Filter` or `Limit` and something is skipped before one is added; otherwise every `Next` in it reports
the end. -/
theorem C46_exact {s s' : Stream S} {l : List E} (h : s.next = some (.ok ⟨none, s', l⟩)) (us : List (Use T E))
    (hl : ∀ c, .call c ∈ us → c.legal) :
    (s'.hasPred = false ∧ BareSkip us → s'.uses us = some (.error "nil pointer dereference")) ∧
    (¬ (s'.hasPred = false ∧ BareSkip us) →
      ∃ s'', s'.uses us = some (.ok (us.map (fun _ => none), s'')) ∧ Finished s'') := by
  have hf := next_none_finished h
  clear h
  generalize s' = t at *
  clear s'
  induction us generalizing t with
  | nil =>
    refine ⟨?_, fun _ => ⟨t, rfl, hf⟩⟩
    rintro ⟨_, a, n, b, e, _⟩
    cases a <;> cases e
  | cons u us ih =>
    -- a use that does not panic
    have go : ∀ t' : Stream S, t.use u = some (.ok (none, t')) → Finished t' → t'.hasPred = (t.hasPred || u.pred) →
        (∀ n, u = .call (.skip n) → ¬ (t.hasPred = false ∧ 0 < n)) →
        (t.hasPred = false ∧ BareSkip (u :: us) → t.uses (u :: us) = some (.error "nil pointer dereference")) ∧
        (¬ (t.hasPred = false ∧ BareSkip (u :: us)) →
          ∃ s'', t.uses (u :: us) = some (.ok ((u :: us).map (fun _ => none), s'')) ∧ Finished s'') := by
      intro t' h1 h2 h3 h4
      have ih := ih (fun c hc => hl c (by simp [hc])) t' h2
      rw [bareSkip_cons]
      refine ⟨?_, ?_⟩
      · rintro ⟨hp, ⟨n, rfl, hn⟩ | ⟨hu, hb⟩⟩
        · exact (h4 n rfl ⟨hp, hn⟩).elim
        · have := ih.1 ⟨by rw [h3, hp, hu]; rfl, hb⟩
          simp [Stream.uses, h1, this]
      · intro hno
        have : ¬ (t'.hasPred = false ∧ BareSkip us) := by
          rintro ⟨hp, hb⟩
          rw [h3] at hp
          simp only [Bool.or_eq_false_iff] at hp
          exact hno ⟨hp.1, .inr ⟨hp.2, hb⟩⟩
        obtain ⟨s'', h5, h6⟩ := ih.2 this
        exact ⟨s'', by simp [Stream.uses, h1, h5], h6⟩
    cases u with
    | next =>
      exact go t.clear (by simp [Stream.use, finished_next hf]) rfl (by simp [Stream.clear, Use.pred]) (fun _ e => by cases e)
    | call c =>
      have hlc := hl c (by simp)
      cases c with
      | map f => exact go _ rfl hf (by simp [Stream.map, Use.pred, Call.isPred]) (fun _ e => by cases e)
      | filter f => exact go _ rfl hf (by simp [Stream.filter, Use.pred, Call.isPred]) (fun _ e => by cases e)
      | peek f => exact go _ rfl hf (by simp [Stream.peek, Use.pred, Call.isPred]) (fun _ e => by cases e)
      | limit n =>
        have hn : ¬ n < 0 := by have : 0 ≤ n := hlc; omega
        exact go { t with hasPred := true, ops := t.ops ++ [.limit n.toNat] }
          (by simp [Stream.use, Stream.call, Stream.limit, hn]) hf (by simp [Use.pred, Call.isPred]) (fun _ e => by cases e)
      | skip n =>
        have hn : ¬ n < 0 := by have : 0 ≤ n := hlc; omega
        by_cases h0 : n = 0
        · exact go t (by simp [Stream.use, Stream.call, Stream.skip, h0]) hf (by simp [Use.pred, Call.isPred])
            (fun k e => by cases e; omega)
        · cases hp : t.hasPred with
          | true =>
            rw [← hp]
            exact go { t with hasPred := true, ops := t.ops ++ [.skip n.toNat] }
              (by simp [Stream.use, Stream.call, Stream.skip, hn, h0, hp]) hf (by simp [hp])
              (fun k e => by rw [hp]; rintro ⟨h, _⟩; cases h)
          | false =>
            refine ⟨fun _ => ?_, fun hno => (hno ⟨rfl, (bareSkip_cons _ _).2 (.inl ⟨n, rfl, by omega⟩)⟩).elim⟩
            have hs : t.src = none := hf
            simp [Stream.uses, Stream.use, Stream.call, Stream.skip, hn, h0, hp, hs]

/-- `s.Next(); s.Filter(p).Skip(2)` is no bare skip, `s.Map(f).Skip(2)` is one. -/
example : ¬ BareSkip (T := Nat) (E := Unit) [.next, .call (.filter (· == 1)), .call (.skip 2)] ∧
    BareSkip (T := Nat) (E := Unit) [.call (.map (· + 1)), .call (.skip 2)] := by
  refine ⟨?_, [.call (.map (· + 1))], 2, [], rfl, by decide, by simp [Use.pred, Call.isPred]⟩
  rw [bareSkip_cons, bareSkip_cons]
  simp [Use.pred, Call.isPred]

end Verif.Stream
