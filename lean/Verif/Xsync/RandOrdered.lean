import Verif.Conc.Before
import Verif.Xsync.RandProps

/-!
# C122: uses of a pooled generator, and of the master generator, are ordered
-/

namespace Verif.Xsync.Rand

open Verif.Conc

/-! ## Specification -/

/-- What orders steps of different goroutines: `Unlock` of the master comes before every later `Lock`, and `Put` of a
generator before every later `Get` that returns it (documentation of `sync.Pool`). -/
def Sync (tr : List Lab) (m n : Nat) : Prop :=
  m < n ∧ ∃ t u, Does tr m t .unlock ∧ Does tr n u .lock ∨
    ∃ g, Does tr m t (.put g) ∧ Answers tr n u .take (some g)

/-- The step makes or uses generator `g`. -/
def Touches (tr : List Lab) (n : Nat) (t : Tid) (g : Nat) : Prop :=
  Does tr n t (.use g) ∨ ∃ s, Answers tr n t (.make s) g

/-! ## Proof -/

/-- Generator `g` as something guarded: it is with one goroutine at a time. -/
def guard (g : Nat) : Guard mach Op Bool where
  enterW _ _ a ans := match a, ans with
    | .take, ans => ans = some g
    | .make _, ans => ans = g
    | _, _ => False
  enterR _ _ _ _ := False
  leaveW _ _ a _ := a = .put g
  leaveR _ _ _ _ := False
  reads _ _ _ _ := False
  writes _ _ a ans := match a, ans with
    | .use g', _ => g' = g
    | .make _, ans => ans = g
    | _, _ => False

/-- The master. -/
def master : Guard mach Op Bool where
  enterW _ _ a _ := a = .lock
  enterR _ _ _ _ := False
  leaveW _ _ a _ := a = .unlock
  leaveR _ _ _ _ := False
  reads _ _ _ _ := False
  writes _ _ a _ := a = .seed

/-- Only generators made are used and put. -/
def Known (tr : List Lab) (made : Nat) : Prop :=
  ∀ n t g, Touches tr n t g ∨ Does tr n t (.put g) → g < made

/-- Nothing is put before it is made. -/
def Young (tr : List Lab) : Prop := ∀ m n t u g s, Does tr m t (.put g) → Answers tr n u (.make s) g → n < m

theorem quiet_known {tr : List Lab} {made : Nat} (h : Known tr made) {l : Lab} (hl : ∀ t a ans, l ≠ .act t a ans) :
    Known (tr ++ [l]) made := by
  intro n t g hn
  refine h n t g ?_
  rcases hn with (hn | ⟨s, hn⟩) | hn
  · exact .inl (.inl (hn.of_quiet hl))
  · rcases hn.of_snoc with hn | ⟨-, e⟩
    · exact .inl (.inr ⟨s, hn⟩)
    · exact absurd e (hl _ _ _)
  · exact .inr (hn.of_quiet hl)

theorem quiet_young {tr : List Lab} (h : Young tr) {l : Lab} (hl : ∀ t a ans, l ≠ .act t a ans) : Young (tr ++ [l]) := by
  intro m n t u g s hm hn
  rcases hn.of_snoc with hn | ⟨-, e⟩
  · exact h m n t u g s (hm.of_quiet hl) hn
  · exact absurd e (hl _ _ _)

theorem trail {tr : List Lab} {c : Config mach Op Bool} (he : Exec body (Config.init fresh) tr c) :
    ∃ has : Tid → Has, (∀ t, Fits (c.th t) (has t)) ∧ Inv c.sh has ∧ Known tr c.sh.seeds.length ∧ Young tr ∧
      (∀ g, Trail (guard g) tr (fun u => g ∈ (has u).gens) (fun _ => False)) ∧
      Trail master tr (fun u => c.sh.lock = some u) (fun _ => False) := by
  induction he with
  | nil =>
    refine ⟨fun _ => ⟨[], false, none⟩, fun _ => rfl, ?_, ?_, ?_, fun g => by simpa using Trail.nil,
      by simpa [Config.init, fresh] using Trail.nil⟩
    · constructor <;> simp [Config.init, fresh]
    · rintro n t g ((h | ⟨s, h⟩) | h) <;> have := h.bound <;> simp at this
    · intro m n t u g s h
      have := h.bound
      simp at this
  | @snoc tr c c' l _ hs ih =>
    obtain ⟨has, k1, k2, k3, k4, k5, k6⟩ := ih
    cases hs with
    | call t op hi =>
      have ht : has t = ⟨[], false, none⟩ := by have := k1 t; rw [hi] at this; exact this
      refine ⟨has, fun u => ?_, k2, quiet_known k3 (by intros; nofun), quiet_young k4 (by intros; nofun),
        fun g => (k5 g).quiet (by intros; nofun), k6.quiet (by intros; nofun)⟩
      show Fits (upd c.th t _ u) _
      by_cases c : u = t
      · subst c; rw [upd_same, ht]; exact body_keeps op
      · rw [upd_other _ _ c]; exact k1 u
    | ret t op r ht =>
      have hk : has t = ⟨[], false, none⟩ := by have := k1 t; rw [ht] at this; exact this
      refine ⟨has, fun u => ?_, k2, quiet_known k3 (by intros; nofun), quiet_young k4 (by intros; nofun),
        fun g => (k5 g).quiet (by intros; nofun), k6.quiet (by intros; nofun)⟩
      show Fits (upd c.th t _ u) _
      by_cases c : u = t
      · subst c; rw [upd_same]; exact hk
      · rw [upd_other _ _ c]; exact k1 u
    | act t op a k ans sh' ht hst =>
      have hk : Keeps (.act a k) (has t) := by have := k1 t; rw [ht] at this; exact this
      obtain ⟨h', e1, e2, e3⟩ := inv_step k2 hk hst
      have grow : c.sh.seeds.length ≤ sh'.seeds.length := by
        cases hst <;> simp
      have lt : ∀ g, g ∈ (has t).gens → g < c.sh.seeds.length := k2.gensLt t
      refine ⟨upd has t h', fun u => ?_, e2, ?_, ?_, fun g => ?_, ?_⟩
      · show Fits (upd c.th t _ u) _
        by_cases c : u = t
        · subst c; rw [upd_same, upd_same]; exact e1
        · rw [upd_other _ _ c, upd_other _ _ c]; exact k1 u
      · intro n u g hn
        show g < sh'.seeds.length
        rcases hn with (hn | ⟨s, hn⟩) | hn
        · rcases hn.of_snoc with hn | ⟨-, ans', e⟩
          · exact Nat.lt_of_lt_of_le (k3 n u g (.inl (.inl hn))) grow
          · cases e
            exact Nat.lt_of_lt_of_le (lt g hk.1) grow
        · rcases hn.of_snoc with hn | ⟨-, e⟩
          · exact Nat.lt_of_lt_of_le (k3 n u g (.inl (.inr ⟨s, hn⟩))) grow
          · cases e
            cases hst with
            | make => simp
        · rcases hn.of_snoc with hn | ⟨-, ans', e⟩
          · exact Nat.lt_of_lt_of_le (k3 n u g (.inr hn)) grow
          · cases e
            exact Nat.lt_of_lt_of_le (lt g hk.1) grow
      · intro m n v w g s hm hn
        rcases hn.of_snoc with hn | ⟨rfl, e⟩
        · rcases hm.of_snoc with hm | ⟨rfl, -⟩
          · exact k4 m n v w g s hm hn
          · exact hn.bound
        · cases e
          rcases hm.of_snoc with hm | ⟨-, ans', e⟩
          · have := k3 m v g (.inr hm)
            cases hst with
            | make => exact absurd this (Nat.lt_irrefl _)
          · cases e
      · refine (k5 g).step ?_
        have nd := k2.gens t
        refine ⟨fun u v hu hv => k2.apart u v g hu hv, fun _ _ _ h => h, fun u hu => by rw [upd_other _ _ hu],
          fun _ _ => Iff.rfl, ?_, fun h => h.elim, ?_, fun h => h.elim, ?_, fun h => h.elim, fun h => h.elim, ?_⟩
        · rw [upd_same, e3]
          intro h
          constructor
          · rintro (d | d)
            · cases d
              exact absurd h nd.not_mem_erase
            · exact d
          · cases a with
            | take =>
              cases ans with
              | none => exact .inl h
              | some g' =>
                rcases List.mem_cons.1 h with e | h
                · exact .inr (by rw [e]; rfl)
                · exact .inl h
            | make s =>
              rcases List.mem_cons.1 h with e | h
              · exact .inr e.symm
              · exact .inl h
            | put g' => exact .inl (List.mem_of_mem_erase h)
            | _ => exact .inl h
        · rw [upd_same, e3]
          intro h
          cases a with
          | take =>
            cases ans with
            | none => exact .inl h
            | some g' => exact .inl (List.mem_cons_of_mem _ h)
          | make s => exact .inl (List.mem_cons_of_mem _ h)
          | put g' =>
            by_cases e : g' = g
            · subst e; exact .inr rfl
            · exact .inl ((List.mem_erase_of_ne (Ne.symm e)).2 h)
          | _ => exact .inl h
        · intro d
          cases d
          exact hk.1
        · intro d
          rw [upd_same, e3]
          cases a with
          | use g' => cases d; exact ⟨hk.1, .inl hk.1⟩
          | make s =>
            cases d
            refine ⟨List.mem_cons_self, .inr ?_⟩
            rintro p u ⟨a, ans', d | d, h⟩
            · exact d
            · refine absurd (k3 p u g (.inl ?_)) ?_
              · cases a with
                | use g' => cases d; exact .inl h.does
                | make s' => cases d; exact .inr ⟨s', h⟩
                | _ => exact d.elim
              · cases hst with
                | make => exact Nat.lt_irrefl _
          | _ => exact d.elim
      · show Trail master _ (fun u => sh'.lock = some u) _
        refine k6.step ?_
        refine ⟨fun u v hu hv => Option.some.inj (hu.symm.trans hv), fun _ _ _ h => h, ?_,
          fun _ _ => Iff.rfl, ?_, fun h => h.elim, ?_, fun h => h.elim, ?_, fun h => h.elim, fun h => h.elim, ?_⟩
        · intro u hu
          cases hst with
          | lock _ h => simp [h, Ne.symm hu]
          | unlock _ h => simp [h, Ne.symm hu]
          | _ => exact Iff.rfl
        · intro h
          constructor
          · rintro (d | d)
            · cases d
              cases hst with
              | unlock => cases h
            · exact d
          · cases hst with
            | lock => exact .inr rfl
            | unlock => cases h
            | _ => exact .inl h
        · intro h
          cases hst with
          | lock _ e => rw [e] at h; cases h
          | unlock => exact .inr rfl
          | _ => exact .inl h
        · intro d
          cases d
          cases hst with
          | unlock _ e => exact e
        · intro d
          cases d
          have hl := (k2.lock t).2 hk.1
          cases hst with
          | seed => exact ⟨hl, .inl hl⟩

/-- Of two steps that make or use the same generator the earlier happens before the later. -/
theorem C122_generator (tr : List Lab) (c : Config mach Op Bool) (he : Exec body (Config.init fresh) tr c)
    (g p q : Nat) (t u : Tid) (hpq : p < q) (hp : Touches tr p t g) (hq : Touches tr q u g) :
    Before (Sync tr) tr p q := by
  obtain ⟨has, -, -, -, k4, k5, -⟩ := trail he
  have mark : ∀ {n v}, Touches tr n v g → Doing tr (guard g).writes n v := by
    rintro n v (⟨ans, h⟩ | ⟨s, h⟩)
    · exact ⟨.use g, ans, rfl, h⟩
    · exact ⟨.make s, g, rfl, h⟩
  refine (k5 g).ordered ?_ ?_ hpq ((mark hp).mono fun _ _ _ _ => .inr) ((mark hq).mono fun _ _ _ _ => .inr)
    (.inl (mark hp))
  · rintro m n v w hmn ⟨_, _, d, h1⟩ ⟨a, ans, e | e, h2⟩
    · cases d
      cases a with
      | take => cases e; exact ⟨hmn, v, w, .inr ⟨g, h1.does, h2⟩⟩
      | make s =>
        cases e
        have := k4 m n v w g s h1.does h2
        omega
      | _ => exact e.elim
    · exact e.elim
  · rintro m n v w hmn ⟨_, _, d, h1⟩ -
    exact d.elim

/-- Of two draws from the master the earlier happens before the later. -/
theorem C122_master (tr : List Lab) (c : Config mach Op Bool) (he : Exec body (Config.init fresh) tr c)
    (p q : Nat) (t u : Tid) (hpq : p < q) (hp : Does tr p t .seed) (hq : Does tr q u .seed) :
    Before (Sync tr) tr p q := by
  obtain ⟨has, -, -, -, -, -, k6⟩ := trail he
  have mark : ∀ {n v}, Does tr n v .seed → Doing tr master.writes n v := by
    rintro n v ⟨ans, h⟩
    exact ⟨_, ans, rfl, h⟩
  refine k6.ordered ?_ ?_ hpq ((mark hp).mono fun _ _ _ _ => .inr) ((mark hq).mono fun _ _ _ _ => .inr) (.inl (mark hp))
  · rintro m n v w hmn ⟨_, _, d, h1⟩ ⟨a, ans, e | e, h2⟩
    · cases d
      cases e
      exact ⟨hmn, v, w, .inl ⟨h1.does, h2.does⟩⟩
    · exact e.elim
  · rintro m n v w hmn ⟨_, _, d, h1⟩ -
    exact d.elim

/-- Goroutine 0 makes generator 0, uses it and puts it back; goroutine 1 gets it from the pool and uses it. -/
example : ∃ tr c, Exec body (Config.init fresh) tr c ∧ Touches tr 4 0 0 ∧ Touches tr 6 0 0 ∧ Touches tr 11 1 0 := by
  have hp : ∃ ls cs c, followAll (M := mach) (R := Bool) body outcome
      ([.call 0 (.fn (.draw fun _ => .done))] ++ List.replicate 7 (.act 0) ++ [.ret 0] ++
        [.call 1 (.fn (.draw fun _ => .done))] ++ List.replicate 3 (.act 1) ++ [.ret 1]) (Config.init fresh) =
      some (ls, cs, c) := ⟨_, _, _, rfl⟩
  obtain ⟨ls, cs, c, h⟩ := hp
  refine ⟨ls, c, followAll_exec outcome_step h, ?_⟩
  cases h
  exact ⟨.inr ⟨0, rfl⟩, .inl ⟨7, rfl⟩, .inl ⟨7, rfl⟩⟩

/-- Two goroutines draw from the master. -/
example : ∃ (tr : List Lab) (c : _), Exec body (Config.init fresh) tr c ∧ Does tr 3 0 .seed ∧ Does tr 15 1 .seed := by
  have hp : ∃ ls cs c, played 30 = some (ls, cs, c) := ⟨_, _, _, rfl⟩
  obtain ⟨ls, cs, c, h⟩ := hp
  refine ⟨ls, c, followAll_exec outcome_step h, ?_⟩
  cases h
  exact ⟨⟨_, rfl⟩, ⟨_, rfl⟩⟩

end Verif.Xsync.Rand
