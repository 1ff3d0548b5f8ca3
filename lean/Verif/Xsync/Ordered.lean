import Verif.Conc.Before
import Verif.Xsync.SyncProps

/-!
# C122: accesses to the value of a `Synchronized` are ordered by its lock
-/

set_option linter.unusedSectionVars false

namespace Verif.Xsync

open Verif.Conc

variable {T R : Type}

/-! ## Specification -/

/-- What `sync.Mutex` and `sync.RWMutex` order (Go memory model, "Locks"): an `Unlock` comes before every later return
from `Lock` or `RLock`, an `RUnlock` before every later return from `Lock`. -/
def Sync (tr : List (Lab T R)) (m n : Nat) : Prop :=
  m < n ∧ ∃ t u,
    Does tr m t .unlock ∧ (Does tr n u .lock ∨ Does tr n u .lockWait ∨ Does tr n u .rlock) ∨
    Does tr m t .runlock ∧ (Does tr n u .lock ∨ Does tr n u .lockWait)

/-- The step writes the value. -/
def Wrote (tr : List (Lab T R)) (n : Nat) (t : Tid) : Prop := ∃ v, Does tr n t (.write v)

/-- The step reads or writes the value. -/
def Touches (tr : List (Lab T R)) (n : Nat) (t : Tid) : Prop := Does tr n t .read ∨ Wrote tr n t

/-! ## Proof -/

/-- The lock. -/
def guard : Guard (mach T) (Op T R) R where
  enterW _ _ a _ := a = .lock ∨ a = .lockWait
  enterR _ _ a _ := a = .rlock
  leaveW _ _ a _ := a = .unlock
  leaveR _ _ a _ := a = .runlock
  reads _ _ a _ := a = .read
  writes _ _ a _ := ∃ v, a = .write v

theorem trail {x : T} {tr : List (Lab T R)} {s : Config (mach T) (Op T R) R}
    (he : Exec body (Config.init (fresh x)) tr s) (hop : Calls (fun _ op => Allowed op) tr) :
    ∃ stg : Tid → Stage T R, (∀ t, s.th t = (stg t).thread) ∧ Inv s.sh stg ∧
      Trail guard tr (fun u => (stg u).writes = true) (fun u => (stg u).reads = true) := by
  induction he with
  | nil =>
    refine ⟨fun _ => .idle, fun _ => rfl, ⟨?_, ?_, ?_, ?_, ?_⟩, by simpa [Stage.writes, Stage.reads] using Trail.nil⟩
    · intro t; constructor <;> intro e <;> cases e
    · intro t e; cases e
    · intro t e; cases e
    · intro t; rfl
    · intro t; trivial
  | snoc _ hs ih =>
    obtain ⟨h1, h2⟩ := hop.of_snoc
    obtain ⟨stg, k1, k2, L⟩ := ih h1
    have keep : ∀ (t : Tid) (s : Stage T R), s.writes = (stg t).writes → s.reads = (stg t).reads →
        (fun u => (upd stg t s u).writes = true) = (fun u => (stg u).writes = true) ∧
        (fun u => (upd stg t s u).reads = true) = (fun u => (stg u).reads = true) := by
      intro t s e1 e2
      constructor <;> funext u <;> by_cases c : u = t
      · subst c; rw [upd_same, e1]
      · rw [upd_other _ _ c]
      · subst c; rw [upd_same, e2]
      · rw [upd_other _ _ c]
    cases hs with
    | call t op hi =>
      have hst : stg t = .idle := thread_idle (by rw [← k1]; exact hi)
      obtain ⟨e1, e2⟩ := keep t (.before op) (by rw [hst]; rfl) (by rw [hst]; rfl)
      refine ⟨upd stg t (.before op), th_upd k1 t rfl, ?_, by rw [e1, e2]; exact L.quiet (by intros; nofun)⟩
      refine k2.stay t _ rfl (by rw [hst]; rfl) (by rw [hst]; rfl) (by rw [hst]; rfl) ?_
      have := h2 t op rfl
      cases op <;> first | trivial | exact this
    | act t op a k ans sh' hr hst =>
      obtain ⟨s, e1, e2⟩ := stage_step k2 (by rw [← k1]; exact hr) hst
      refine ⟨upd stg t s, th_upd k1 t e1, e2.inv, L.step ?_⟩
      obtain ⟨w1, w2, w3⟩ := e2.hold
      refine ⟨fun u v hu hv => k2.unique (writes_owns hu) (writes_owns hv), fun u v hu hv => k2.no_reader hu hv,
        fun u hu => by rw [upd_other _ _ hu], fun u hu => by rw [upd_other _ _ hu], ?_, ?_, ?_, ?_, ?_, ?_, ?_, ?_⟩
      · rw [upd_same, w1]
        intro h
        constructor
        · rintro (d | d) <;> cases d
          · cases h
          · refine k2.no_reader (t := t) (u := t) h ?_
            cases hst with
            | runlock _ hm =>
              have := k2.cnt t
              cases hb : (stg t).reads with
              | true => rfl
              | false =>
                rw [hb] at this
                simp at this
                exact absurd hm (List.count_eq_zero.1 this)
        · cases a <;> simp_all [afterW, guard]
      · rw [upd_same, w2]
        intro h
        constructor
        · intro d
          cases d
          cases hst with
          | unlock _ hw ha =>
            exact k2.no_reader (t := t) (u := t) ((k2.act t hw).1 ha) h
        · cases a <;> simp_all [afterR, guard]
      · rw [upd_same, w1]
        intro h
        cases a <;> simp_all [afterW, guard]
      · rw [upd_same, w2]
        intro h
        cases a <;> simp_all [afterR, guard]
      · intro d
        cases d
        cases hst with
        | unlock _ hw ha => exact (k2.act t hw).1 ha
      · intro d
        cases d
        cases hst with
        | runlock _ hm =>
          have := k2.cnt t
          cases hb : (stg t).reads with
          | true => rfl
          | false =>
            rw [hb] at this
            simp at this
            exact absurd hm (List.count_eq_zero.1 this)
      · intro d
        cases d
        rw [upd_same, w1, w2]
        rcases w3 with h | h
        · exact .inl ⟨h, h⟩
        · exact .inr ⟨h, h⟩
      · rintro ⟨v, d⟩
        cases d
        rw [upd_same, w1]
        exact ⟨w3, .inl w3⟩
    | ret t op r hr =>
      have hst : stg t = .fin op r := thread_ret (by rw [← k1]; exact hr)
      obtain ⟨e1, e2⟩ := keep t .idle (by rw [hst]; rfl) (by rw [hst]; rfl)
      exact ⟨upd stg t .idle, th_upd k1 t rfl,
        k2.stay t _ rfl (by rw [hst]; rfl) (by rw [hst]; rfl) (by rw [hst]; rfl) trivial,
        by rw [e1, e2]; exact L.quiet (by intros; nofun)⟩

/-- If the value is only read under `RLock`, then of two accesses to it, one of them writing, the earlier happens before
the later. -/
theorem C122_synchronized (x : T) (tr : List (Lab T R)) (s : Config (mach T) (Op T R) R)
    (he : Exec body (Config.init (fresh x)) tr s) (hop : Calls (fun _ op => Allowed op) tr) (p q : Nat) (t u : Tid)
    (hpq : p < q) (hp : Touches tr p t) (hq : Touches tr q u) (hw : Wrote tr p t ∨ Wrote tr q u) :
    Before (Sync tr) tr p q := by
  obtain ⟨stg, -, -, T⟩ := trail he hop
  have look : ∀ {n v}, Touches tr n v → Doing tr guard.touches n v := by
    rintro n v (h | ⟨f, h⟩)
    · exact ⟨_, h.imp fun _ h => ⟨.inl rfl, h⟩⟩
    · exact ⟨_, h.imp fun _ h => ⟨.inr ⟨f, rfl⟩, h⟩⟩
  have mark : ∀ {n v}, Wrote tr n v → Doing tr guard.writes n v := fun ⟨f, h⟩ => ⟨_, h.imp fun _ h => ⟨⟨f, rfl⟩, h⟩⟩
  refine T.ordered ?_ ?_ hpq (look hp) (look hq) (hw.imp mark mark)
  · rintro m n v w hmn ⟨_, _, d, h1⟩ ⟨_, _, (e | e) | e, h2⟩ <;> cases d <;> cases e
    · exact ⟨hmn, v, w, .inl ⟨h1.does, .inl h2.does⟩⟩
    · exact ⟨hmn, v, w, .inl ⟨h1.does, .inr (.inl h2.does)⟩⟩
    · exact ⟨hmn, v, w, .inl ⟨h1.does, .inr (.inr h2.does)⟩⟩
  · rintro m n v w hmn ⟨_, _, d, h1⟩ ⟨_, _, e | e, h2⟩ <;> cases d <;> cases e
    · exact ⟨hmn, v, w, .inr ⟨h1.does, .inl h2.does⟩⟩
    · exact ⟨hmn, v, w, .inr ⟨h1.does, .inr h2.does⟩⟩

/-- Two writes by different goroutines. -/
example : ∃ (tr : List (Lab Nat Unit)) (c : _) (p q : Nat) (t u : Tid), Exec body (Config.init (fresh 5)) tr c ∧
    Calls (fun _ op => Allowed op) tr ∧ p < q ∧ t ≠ u ∧ Wrote tr p t ∧ Wrote tr q u := by
  have hp : ∃ ls cs c, played 19 = some (ls, cs, c) := ⟨_, _, _, rfl⟩
  obtain ⟨ls, cs, c, h⟩ := hp
  refine ⟨ls, c, 10, 16, 0, 2, followAll_exec outcome_step h, ?_, by decide, by decide, ?_⟩
  · cases h
    intro t op hm
    simp at hm
    rcases hm with ⟨-, rfl⟩ | ⟨-, rfl⟩ | ⟨-, rfl⟩
    · trivial
    · exact fun _ => trivial
    · trivial
  · cases h
    exact ⟨⟨_, _, rfl⟩, ⟨_, _, rfl⟩⟩

end Verif.Xsync
