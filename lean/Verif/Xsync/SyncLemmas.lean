import Verif.Xsync.SyncModel

/-!
# The invariant of the lock, and sections are atomic
-/

set_option linter.unusedSectionVars false

namespace Verif.Xsync

open Verif.Conc

variable {T R : Type}

/-- A goroutine: idle, before the lock, announced, inside (with the rest of its code), after. -/
inductive Stage (T R : Type) where
  | idle
  | before (op : Op T R)
  | announced (u : User T R)
  | inW (op : Op T R) (u : User T R)
  | inR (op : Op T R) (u : User T R)
  | fin (op : Op T R) (r : R)

/-- The goroutine at that stage. -/
def Stage.thread : Stage T R → Thread (mach T) (Op T R) R
  | .idle => .idle
  | .before op => .run op (body op)
  | .announced u => .run (.locked u) (.act .lockWait fun _ => u.prog .unlock)
  | .inW op u => .run op (u.prog .unlock)
  | .inR op u => .run op (u.prog .runlock)
  | .fin op r => .run op (.ret r)

/-- It holds the value for writing. -/
def Stage.writes : Stage T R → Bool
  | .inW _ _ => true
  | _ => false

/-- It has announced to write, or writes. -/
def Stage.owns : Stage T R → Bool
  | .announced _ => true
  | .inW _ _ => true
  | _ => false

/-- It holds the value for reading. -/
def Stage.reads : Stage T R → Bool
  | .inR _ _ => true
  | _ => false

/-- Facts about a stage. -/
def Stage.local : Stage T R → Prop
  | .before (.rlocked u) => u.ReadOnly
  | .inR _ u => u.ReadOnly
  | _ => True

/-- The lock is as the goroutines think. -/
structure Inv (σ : Sh T) (stg : Tid → Stage T R) : Prop where
  wr : ∀ t, σ.lock.wr = some t ↔ (stg t).owns = true
  act : ∀ t, σ.lock.wr = some t → (σ.lock.active = true ↔ (stg t).writes = true)
  rd : ∀ t, (stg t).writes = true → σ.lock.rd = []
  cnt : ∀ t, σ.lock.rd.count t = if (stg t).reads = true then 1 else 0
  loc : ∀ t, (stg t).local

theorem writes_owns {s : Stage T R} (h : s.writes = true) : s.owns = true := by
  cases s <;> first | rfl | cases h

theorem Inv.unique {σ : Sh T} {stg : Tid → Stage T R} (h : Inv σ stg) {t u : Tid} (ht : (stg t).owns = true)
    (hu : (stg u).owns = true) : t = u := by
  have h1 := (h.wr t).2 ht
  rw [(h.wr u).2 hu] at h1
  injection h1 with h1
  exact h1.symm

theorem Inv.no_reader {σ : Sh T} {stg : Tid → Stage T R} (h : Inv σ stg) {t u : Tid} (ht : (stg t).writes = true)
    (hu : (stg u).reads = true) : False := by
  have h1 := h.cnt u
  rw [h.rd t ht, hu] at h1
  simp at h1

/-- A step that leaves the lock alone. -/
theorem Inv.stay {σ σ' : Sh T} {stg : Tid → Stage T R} (h : Inv σ stg) (t : Tid) (s : Stage T R)
    (hl : σ'.lock = σ.lock) (h1 : s.writes = (stg t).writes) (h2 : s.owns = (stg t).owns) (h3 : s.reads = (stg t).reads)
    (h4 : s.local) : Inv σ' (upd stg t s) := by
  have e1 : ∀ u, (upd stg t s u).writes = (stg u).writes := by
    intro u
    by_cases c : u = t
    · subst c; rw [upd_same, h1]
    · rw [upd_other _ _ c]
  have e2 : ∀ u, (upd stg t s u).owns = (stg u).owns := by
    intro u
    by_cases c : u = t
    · subst c; rw [upd_same, h2]
    · rw [upd_other _ _ c]
  have e3 : ∀ u, (upd stg t s u).reads = (stg u).reads := by
    intro u
    by_cases c : u = t
    · subst c; rw [upd_same, h3]
    · rw [upd_other _ _ c]
  refine ⟨fun u => ?_, fun u hu => ?_, fun u hu => ?_, fun u => ?_, fun u => ?_⟩
  · rw [hl, e2]; exact h.wr u
  · rw [hl] at hu ⊢; rw [e1]; exact h.act u hu
  · rw [hl]; exact h.rd u (by rw [← e1]; exact hu)
  · rw [hl, e3]; exact h.cnt u
  · by_cases c : u = t
    · subst c; rw [upd_same]; exact h4
    · rw [upd_other _ _ c]; exact h.loc u

/-- Taking the (writers') mutex. -/
theorem Inv.take {σ : Sh T} {stg : Tid → Stage T R} (h : Inv σ stg) (t : Tid) (s : Stage T R) (b : Bool)
    (hw : σ.lock.wr = none) (hrd : b = true → σ.lock.rd = []) (ho : s.owns = true) (hb : b = s.writes)
    (h3 : s.reads = (stg t).reads) (h4 : s.local) :
    Inv { σ with lock := { σ.lock with wr := some t, active := b } } (upd stg t s) := by
  have nobody : ∀ u, (stg u).owns = false := by
    intro u
    cases ho : (stg u).owns with
    | false => rfl
    | true => have := (h.wr u).2 ho; rw [hw] at this; cases this
  have nobodyW : ∀ u, (stg u).writes = false := by
    intro u
    cases ho : (stg u).writes with
    | false => rfl
    | true => have := nobody u; rw [writes_owns ho] at this; cases this
  refine ⟨fun u => ?_, fun u hu => ?_, fun u hu => ?_, fun u => ?_, fun u => ?_⟩
  · by_cases c : u = t
    · subst c; rw [upd_same, ho]; simp
    · rw [upd_other _ _ c, nobody u]
      constructor
      · intro e; injection e with e; exact absurd e.symm c
      · intro e; cases e
  · simp only [Option.some.injEq] at hu
    subst hu
    rw [upd_same, ← hb]
  · by_cases c : u = t
    · subst c; rw [upd_same] at hu; exact hrd (hb.trans hu)
    · rw [upd_other _ _ c, nobodyW u] at hu; cases hu
  · by_cases c : u = t
    · subst c; rw [upd_same, h3]; exact h.cnt u
    · rw [upd_other _ _ c]; exact h.cnt u
  · by_cases c : u = t
    · subst c; rw [upd_same]; exact h4
    · rw [upd_other _ _ c]; exact h.loc u

/-- Going in after the readers have left. -/
theorem Inv.enter {σ : Sh T} {stg : Tid → Stage T R} (h : Inv σ stg) (t : Tid) (s : Stage T R)
    (hw : σ.lock.wr = some t) (hrd : σ.lock.rd = []) (hb : s.writes = true)
    (h3 : s.reads = (stg t).reads) (h4 : s.local) :
    Inv { σ with lock := { σ.lock with active := true } } (upd stg t s) := by
  refine ⟨fun u => ?_, fun u hu => ?_, fun u hu => hrd, fun u => ?_, fun u => ?_⟩
  · by_cases c : u = t
    · subst c; rw [upd_same, writes_owns hb]; simp [hw]
    · rw [upd_other _ _ c]; exact h.wr u
  · have : t = u := Option.some.inj (hw.symm.trans hu)
    subst this
    rw [upd_same, hb]
  · by_cases c : u = t
    · subst c; rw [upd_same, h3]; exact h.cnt u
    · rw [upd_other _ _ c]; exact h.cnt u
  · by_cases c : u = t
    · subst c; rw [upd_same]; exact h4
    · rw [upd_other _ _ c]; exact h.loc u

/-- Unlocking. -/
theorem Inv.leave {σ : Sh T} {stg : Tid → Stage T R} (h : Inv σ stg) (t : Tid) (s : Stage T R)
    (hw : σ.lock.wr = some t) (ho : s.owns = false) (h3 : s.reads = (stg t).reads) (h4 : s.local) :
    Inv { σ with lock := { σ.lock with wr := none, active := false } } (upd stg t s) := by
  have hno : ∀ u, (upd stg t s u).owns = false := by
    intro u
    by_cases c : u = t
    · subst c; rw [upd_same, ho]
    · rw [upd_other _ _ c]
      cases hu : (stg u).owns with
      | false => rfl
      | true => exact absurd (h.unique hu ((h.wr t).1 hw)) c
  refine ⟨fun u => ?_, fun u hu => ?_, fun u hu => ?_, fun u => ?_, fun u => ?_⟩
  · rw [hno u]
    constructor <;> intro e <;> cases e
  · cases hu
  · have := hno u; rw [writes_owns hu] at this; cases this
  · by_cases c : u = t
    · subst c; rw [upd_same, h3]; exact h.cnt u
    · rw [upd_other _ _ c]; exact h.cnt u
  · by_cases c : u = t
    · subst c; rw [upd_same]; exact h4
    · rw [upd_other _ _ c]; exact h.loc u

/-- A reader goes in. -/
theorem Inv.renter {σ : Sh T} {stg : Tid → Stage T R} (h : Inv σ stg) (t : Tid) (s : Stage T R)
    (hw : σ.lock.wr = none) (ho : s.owns = (stg t).owns) (hr0 : (stg t).reads = false) (hr : s.reads = true)
    (h4 : s.local) : Inv { σ with lock := { σ.lock with rd := t :: σ.lock.rd } } (upd stg t s) := by
  have hno : ∀ u, (upd stg t s u).owns = false := by
    have key : ∀ u, (stg u).owns = false := by
      intro u
      cases hu : (stg u).owns with
      | false => rfl
      | true => have := (h.wr u).2 hu; rw [hw] at this; cases this
    intro u
    by_cases c : u = t
    · subst c; rw [upd_same, ho]; exact key u
    · rw [upd_other _ _ c]; exact key u
  refine ⟨fun u => ?_, fun u hu => ?_, fun u hu => ?_, fun u => ?_, fun u => ?_⟩
  · rw [hno u]
    show σ.lock.wr = some u ↔ _
    rw [hw]
    constructor <;> intro e <;> cases e
  · have : σ.lock.wr = some u := hu
    rw [hw] at this; cases this
  · have := hno u; rw [writes_owns hu] at this; cases this
  · have := h.cnt u
    by_cases c : u = t
    · subst c
      rw [upd_same, hr, List.count_cons_self, this, hr0]; rfl
    · rw [upd_other _ _ c, List.count_cons_of_ne (fun e => c e.symm)]
      exact this
  · by_cases c : u = t
    · subst c; rw [upd_same]; exact h4
    · rw [upd_other _ _ c]; exact h.loc u

/-- A reader leaves. -/
theorem Inv.rleave {σ : Sh T} {stg : Tid → Stage T R} (h : Inv σ stg) (t : Tid) (s : Stage T R)
    (ho : s.owns = (stg t).owns) (hw' : s.writes = (stg t).writes) (hr0 : (stg t).reads = true) (hr : s.reads = false)
    (h4 : s.local) : Inv { σ with lock := { σ.lock with rd := σ.lock.rd.erase t } } (upd stg t s) := by
  have e1 : ∀ u, (upd stg t s u).writes = (stg u).writes := by
    intro u
    by_cases c : u = t
    · subst c; rw [upd_same, hw']
    · rw [upd_other _ _ c]
  refine ⟨fun u => ?_, fun u hu => ?_, fun u hu => ?_, fun u => ?_, fun u => ?_⟩
  · by_cases c : u = t
    · subst c; rw [upd_same, ho]; exact h.wr u
    · rw [upd_other _ _ c]; exact h.wr u
  · rw [e1]; exact h.act u hu
  · rw [e1] at hu
    exact absurd hr0 (fun e => h.no_reader hu e)
  · have := h.cnt u
    by_cases c : u = t
    · subst c
      rw [upd_same, hr, List.count_erase_self, this, hr0]; rfl
    · rw [upd_other _ _ c, List.count_erase_of_ne c]
      exact this
  · by_cases c : u = t
    · subst c; rw [upd_same]; exact h4
    · rw [upd_other _ _ c]; exact h.loc u

/-! ## Sections are atomic -/

/-- A use of the value takes effect at once. -/
def atomicUse (x : T) : SeqSpec (Op T R) R where
  St := T
  init := x
  legal s op r s' := match op with
    | .mutex u => (r, s') = u.run s
    | .locked u => (r, s') = u.run s
    | .rlocked u => (r, s') = u.run s

/-- The atomic object: a section takes effect when it gets the lock. -/
def Stage.status (σ : Sh T) : Stage T R → CStatus (Op T R) R
  | .idle => .idle
  | .before op => .pending op
  | .announced u => .pending (.locked u)
  | .inW op u => .done op (u.run σ.val).1
  | .inR op u => .done op (u.run σ.val).1
  | .fin op r => .done op r

theorem readOnly_run {u : User T R} (h : u.ReadOnly) (x : T) : (u.run x).2 = x := by
  induction u with
  | ret r => rfl
  | read k ih => exact ih x (h x)
  | write v k ih => exact absurd h id

/-- The states that belong together. -/
def Rel {x : T} (c : Config (mach T) (Op T R) R) (a : Canon (atomicUse (R := R) x)) : Prop :=
  ∃ stg : Tid → Stage T R, (∀ t, c.th t = (stg t).thread) ∧ Inv c.sh stg ∧ (∀ t, a.th t = (stg t).status c.sh) ∧
    (∀ t op u, stg t = .inW op u → a.st = (u.run c.sh.val).2) ∧
    ((∀ t, (stg t).writes = false) → a.st = c.sh.val)

theorem thread_idle {s : Stage T R} (h : s.thread = .idle) : s = .idle := by
  cases s <;> first | rfl | cases h

theorem thread_ret {s : Stage T R} {op : Op T R} {r : R} (h : s.thread = .run op (.ret r)) : s = .fin op r := by
  cases s with
  | idle => cases h
  | before op' => injection h with h1 h2; cases op' <;> cases h2
  | announced u => injection h with h1 h2; cases h2
  | inW op' u => injection h with h1 h2; cases u <;> cases h2
  | inR op' u => injection h with h1 h2; cases u <;> cases h2
  | fin op' r' => injection h with h1 h2; injection h2 with h2; subst h1 h2; rfl

theorem th_upd {th : Tid → Thread (mach T) (Op T R) R} {stg : Tid → Stage T R} (h : ∀ t, th t = (stg t).thread)
    (t : Tid) {x : Thread (mach T) (Op T R) R} {s : Stage T R} (hs : s.thread = x) :
    ∀ u, upd th t x u = (upd stg t s u).thread := by
  intro u
  by_cases c : u = t
  · subst c; rw [upd_same, upd_same, hs]
  · rw [upd_other _ _ c, upd_other _ _ c, h u]

/-- Calls allowed: code run under `RLock` only reads. -/
def Allowed : Op T R → Prop
  | .rlocked u => u.ReadOnly
  | _ => True

/-- Whether a goroutine holds the value for writing after a step. -/
def afterW : Act T → Bool → Bool
  | .lock, _ => true
  | .lockWait, _ => true
  | .unlock, _ => false
  | _, b => b

/-- Whether a goroutine holds the value for reading after a step. -/
def afterR : Act T → Bool → Bool
  | .rlock, _ => true
  | .runlock, _ => false
  | _, b => b

/-- What a goroutine must hold for a step. -/
def needs : Act T → Bool → Bool → Prop
  | .read, w, r => w = true ∨ r = true
  | .write _, w, _ => w = true
  | _, _, _ => True

/-- The effect of step `x` of goroutine `t` that becomes stage `s`. -/
structure Effect (x : Act T) (σ σ' : Sh T) (stg : Tid → Stage T R) (t : Tid) (s : Stage T R) : Prop where
  inv : Inv σ' (upd stg t s)
  hold : s.writes = afterW x (stg t).writes ∧ s.reads = afterR x (stg t).reads ∧ needs x (stg t).writes (stg t).reads
  /-- either the value is unchanged or only this goroutine holds it -/
  val : σ'.val = σ.val ∨ (stg t).writes = true
  own : ((s.status σ' = (stg t).status σ) ∧ (∀ op u, stg t = .inW op u → (∃ op' u', s = .inW op' u' ∧
      (u'.run σ'.val).2 = (u.run σ.val).2) ∨ s.writes = false ∧ σ'.val = (u.run σ.val).2) ∧
      ((stg t).writes = false → s.writes = false)) ∨
    ∃ op u, (stg t).status σ = .pending op ∧ s.status σ' = .done op (u.run σ.val).1 ∧ σ'.val = σ.val ∧
      (op = .mutex u ∨ op = .locked u ∨ op = .rlocked u) ∧ (∀ v, (stg v).writes = false) ∧
      (s = .inW op u ∨ s.writes = false ∧ u.ReadOnly)

/-- Every step has such an effect. -/
theorem stage_step {c : Config (mach T) (Op T R) R} {stg : Tid → Stage T R} (h : Inv c.sh stg) {t : Tid} {op : Op T R}
    {x : Act T} {k : Ans x → Prog (Act T) Ans R} {ans : Ans x} {σ' : Sh T} (ht : (stg t).thread = .run op (.act x k))
    (hs : AStep t x c.sh ans σ') : ∃ s, s.thread = .run op (k ans) ∧ Effect x c.sh σ' stg t s := by
  have nobody : c.sh.lock.wr = none → ∀ v, (stg v).writes = false := by
    intro e v
    cases hv : (stg v).writes with
    | false => rfl
    | true => have := (h.wr v).2 (writes_owns hv); rw [e] at this; cases this
  cases hst : stg t with
  | idle => rw [hst] at ht; cases ht
  | fin o r => rw [hst] at ht; injection ht with _ ht; cases ht
  | before o =>
    rw [hst] at ht
    injection ht with h1 h2
    subst h1
    cases o with
    | mutex u =>
      injection h2 with h2 h3
      subst h2
      have h3 := eq_of_heq h3
      subst h3
      cases hs with
      | lock _ hw hr =>
        refine ⟨.inW (.mutex u) u, rfl, h.take t _ true hw (fun _ => hr) rfl rfl (by rw [hst]; rfl) trivial, by rw [hst]; simp [Stage.writes, Stage.reads, afterW, afterR, needs], Or.inl rfl,
          Or.inr ⟨.mutex u, u, by rw [hst]; rfl, rfl, rfl, Or.inl rfl, nobody hw, Or.inl rfl⟩⟩
    | locked u =>
      injection h2 with h2 h3
      subst h2
      have h3 := eq_of_heq h3
      subst h3
      cases hs with
      | lockBegin _ hw =>
        refine ⟨.announced u, rfl, h.take t _ false hw (fun e => by cases e) rfl rfl (by rw [hst]; rfl) trivial, by rw [hst]; simp [Stage.writes, Stage.reads, afterW, afterR, needs], Or.inl rfl,
          Or.inl ⟨by rw [hst]; rfl, ?_, fun _ => rfl⟩⟩
        intro op' u' e
        rw [hst] at e; cases e
    | rlocked u =>
      injection h2 with h2 h3
      subst h2
      have h3 := eq_of_heq h3
      subst h3
      have hl := h.loc t
      rw [hst] at hl
      cases hs with
      | rlock _ hw =>
        refine ⟨.inR (.rlocked u) u, rfl, h.renter t _ hw (by rw [hst]; rfl) (by rw [hst]; rfl) rfl hl, by rw [hst]; simp [Stage.writes, Stage.reads, afterW, afterR, needs], Or.inl rfl,
          Or.inr ⟨.rlocked u, u, by rw [hst]; rfl, rfl, rfl, Or.inr (Or.inr rfl), nobody hw, Or.inr ⟨rfl, hl⟩⟩⟩
  | announced u =>
    rw [hst] at ht
    injection ht with h1 h2
    subst h1
    injection h2 with h2 h3
    subst h2
    have h3 := eq_of_heq h3
    subst h3
    cases hs with
    | lockWait _ hw ha hr =>
      refine ⟨.inW (.locked u) u, rfl, h.enter t _ hw hr rfl (by rw [hst]; rfl) trivial, by rw [hst]; simp [Stage.writes, Stage.reads, afterW, afterR, needs], Or.inl rfl,
        Or.inr ⟨.locked u, u, by rw [hst]; rfl, rfl, rfl, Or.inr (Or.inl rfl), ?_, Or.inl rfl⟩⟩
      intro v
      cases hv : (stg v).writes with
      | false => rfl
      | true =>
        have := h.unique (writes_owns hv) (t := v) (u := t) (by rw [hst]; rfl)
        subst this
        rw [hst] at hv; cases hv
  | inW o u =>
    rw [hst] at ht
    injection ht with h1 h2
    subst h1
    cases u with
    | ret r =>
      injection h2 with h2 h3
      subst h2
      have h3 := eq_of_heq h3
      subst h3
      cases hs with
      | unlock _ hw ha =>
        refine ⟨.fin o r, rfl, h.leave t _ hw rfl (by rw [hst]; rfl) trivial, by rw [hst]; simp [Stage.writes, Stage.reads, afterW, afterR, needs], Or.inl rfl,
          Or.inl ⟨by rw [hst]; rfl, ?_, fun _ => rfl⟩⟩
        intro op' u' e
        rw [hst] at e
        injection e with e1 e2
        subst e2
        exact Or.inr ⟨rfl, rfl⟩
    | read k =>
      injection h2 with h2 h3
      subst h2
      have h3 := eq_of_heq h3
      subst h3
      cases hs with
      | read =>
        refine ⟨.inW o (k c.sh.val), rfl, h.stay t _ rfl (by rw [hst]; rfl) (by rw [hst]; rfl) (by rw [hst]; rfl) trivial,
          by rw [hst]; simp [Stage.writes, Stage.reads, afterW, afterR, needs], Or.inl rfl, Or.inl ⟨by rw [hst]; rfl, ?_, fun e => ?_⟩⟩
        · intro op' u' e
          rw [hst] at e
          injection e with e1 e2
          subst e2
          exact Or.inl ⟨o, _, rfl, rfl⟩
        · rw [hst] at e; cases e
    | write v k =>
      injection h2 with h2 h3
      subst h2
      have h3 := eq_of_heq h3
      subst h3
      cases hs with
      | write =>
        refine ⟨.inW o k, rfl, h.stay t _ rfl (by rw [hst]; rfl) (by rw [hst]; rfl) (by rw [hst]; rfl) trivial,
          by rw [hst]; simp [Stage.writes, Stage.reads, afterW, afterR, needs], Or.inr (by rw [hst]; rfl), Or.inl ⟨by rw [hst]; rfl, ?_, fun e => ?_⟩⟩
        · intro op' u' e
          rw [hst] at e
          injection e with e1 e2
          subst e2
          exact Or.inl ⟨o, _, rfl, rfl⟩
        · rw [hst] at e; cases e
  | inR o u =>
    rw [hst] at ht
    injection ht with h1 h2
    subst h1
    have hl := h.loc t
    rw [hst] at hl
    cases u with
    | ret r =>
      injection h2 with h2 h3
      subst h2
      have h3 := eq_of_heq h3
      subst h3
      cases hs with
      | runlock _ hm =>
        refine ⟨.fin o r, rfl, h.rleave t _ (by rw [hst]; rfl) (by rw [hst]; rfl) (by rw [hst]; rfl) rfl trivial, by rw [hst]; simp [Stage.writes, Stage.reads, afterW, afterR, needs], Or.inl rfl,
          Or.inl ⟨by rw [hst]; rfl, ?_, fun _ => rfl⟩⟩
        intro op' u' e
        rw [hst] at e; cases e
    | read k =>
      injection h2 with h2 h3
      subst h2
      have h3 := eq_of_heq h3
      subst h3
      cases hs with
      | read =>
        refine ⟨.inR o (k c.sh.val), rfl, h.stay t _ rfl (by rw [hst]; rfl) (by rw [hst]; rfl) (by rw [hst]; rfl) (hl _),
          by rw [hst]; simp [Stage.writes, Stage.reads, afterW, afterR, needs], Or.inl rfl, Or.inl ⟨by rw [hst]; rfl, ?_, fun e => rfl⟩⟩
        intro op' u' e
        rw [hst] at e; cases e
    | write v k => exact absurd hl id

/-- Sections are atomic. -/
theorem sim (x : T) : Sim (atomicUse (R := R) x) body (Config.init (fresh x)) (fun _ op => Allowed op) (Rel (x := x)) where
  start := by
    refine ⟨fun _ => .idle, fun _ => rfl, ⟨?_, ?_, ?_, ?_, ?_⟩, fun _ => rfl, ?_, fun _ => rfl⟩
    · intro t; constructor <;> intro e <;> cases e
    · intro t e; cases e
    · intro t e; cases e
    · intro t; rfl
    · intro t; trivial
    · intro t op u e; cases e
  call c a t op hr hop hi := by
    obtain ⟨stg, k1, k2, k3, k4, k5⟩ := hr
    have hst : stg t = .idle := thread_idle (by rw [← k1]; exact hi)
    have w : ∀ u, (upd stg t (.before op) u).writes = (stg u).writes := by
      intro u
      by_cases c : u = t
      · subst c; rw [upd_same, hst]; rfl
      · rw [upd_other _ _ c]
    refine ⟨by rw [k3, hst]; rfl, upd stg t (.before op), th_upd k1 t rfl, ?_, ?_, ?_, ?_⟩
    · refine k2.stay t _ rfl (by rw [hst]; rfl) (by rw [hst]; rfl) (by rw [hst]; rfl) ?_
      cases op <;> first | trivial | exact hop
    · intro u
      by_cases c : u = t
      · subst c; exact (upd_same _ _ _).trans (by rw [upd_same]; rfl)
      · rw [upd_other _ _ c]; exact (upd_other _ _ c).trans (k3 u)
    · intro u op' v e
      by_cases c : u = t
      · subst c; rw [upd_same] at e; cases e
      · rw [upd_other _ _ c] at e; exact k4 u op' v e
    · intro e
      exact k5 fun u => by rw [← w u]; exact e u
  act c a t op y k ans sh' hr ht hs := by
    obtain ⟨stg, k1, k2, k3, k4, k5⟩ := hr
    obtain ⟨s, e1, e2⟩ := stage_step k2 (by rw [← k1]; exact ht) hs
    have others : ∀ u, u ≠ t → (stg u).status sh' = (stg u).status c.sh := by
      intro u hu
      rcases e2.val with e | e
      · cases hst : stg u <;> simp only [Stage.status, e]
      · cases hst : stg u with
        | inW op' v =>
          exact absurd (k2.unique (t := u) (u := t) (by rw [hst]; rfl) (writes_owns e)) hu
        | inR op' v => exact absurd (k2.no_reader e (u := u) (by rw [hst]; rfl)) id
        | _ => rfl
    rcases e2.own with ⟨f1, f2, f3⟩ | ⟨op', u, f1, f2, f3, f4, f5, f6⟩
    · refine ⟨a, .refl a, upd stg t s, th_upd k1 t e1, e2.inv, ?_, ?_, ?_⟩
      · intro u
        by_cases c1 : u = t
        · subst c1; rw [upd_same, f1]; exact k3 u
        · rw [upd_other _ _ c1]; exact (k3 u).trans (others u c1).symm
      · intro u op' v hu
        by_cases c1 : u = t
        · subst c1
          rw [upd_same] at hu
          subst hu
          cases hst : stg u with
          | inW op0 u0 =>
            rcases f2 op0 u0 hst with ⟨op1, u1, g1, g2⟩ | ⟨g1, -⟩
            · injection g1 with g1 g3
              subst g3
              rw [k4 u op0 u0 hst, ← g2]
            · cases g1
          | _ => have := f3 (by rw [hst]; rfl); cases this
        · rw [upd_other _ _ c1] at hu
          rw [k4 u op' v hu]
          rcases e2.val with e | e
          · rw [e]
          · exact absurd (k2.unique (t := u) (u := t) (by rw [hu]; rfl) (writes_owns e)) c1
      · intro hall
        show a.st = sh'.val
        cases hst : stg t with
        | inW op0 u0 =>
          rcases f2 op0 u0 hst with ⟨op1, u1, g1, g2⟩ | ⟨-, g2⟩
          · have := hall t
            rw [upd_same, g1] at this; cases this
          · rw [g2]; exact k4 t op0 u0 hst
        | _ =>
          rcases e2.val with e | e
          · rw [e]
            refine k5 fun u => ?_
            by_cases c1 : u = t
            · subst c1; rw [hst]; rfl
            · have := hall u; rw [upd_other _ _ c1] at this; exact this
          · rw [hst] at e; cases e
    · have hast := k5 f5
      refine ⟨⟨(u.run c.sh.val).2, upd a.th t (.done op' (u.run c.sh.val).1)⟩, ?_, upd stg t s, th_upd k1 t e1, e2.inv, ?_, ?_, ?_⟩
      · refine .step t op' (u.run c.sh.val).1 _ ((k3 t).trans f1) ?_ (.refl _)
        rw [hast]
        rcases f4 with rfl | rfl | rfl <;> rfl
      · intro v
        by_cases c1 : v = t
        · subst c1; exact (upd_same _ _ _).trans (by rw [upd_same, f2])
        · rw [upd_other _ _ c1]; exact (upd_other _ _ c1).trans ((k3 v).trans (others v c1).symm)
      · intro v op'' w hv
        by_cases c1 : v = t
        · subst c1
          rw [upd_same] at hv
          rcases f6 with g | ⟨g, -⟩
          · rw [hv] at g
            injection g with _ g
            subst g
            show (w.run c.sh.val).2 = (w.run sh'.val).2
            rw [f3]
          · rw [hv] at g; cases g
        · rw [upd_other _ _ c1] at hv
          have := f5 v
          rw [hv] at this; cases this
      · intro hall
        show (u.run c.sh.val).2 = sh'.val
        rcases f6 with g | ⟨-, g⟩
        · have := hall t
          rw [upd_same, g] at this; cases this
        · rw [readOnly_run g, f3]
  ret c a t op r hr ht := by
    obtain ⟨stg, k1, k2, k3, k4, k5⟩ := hr
    have hst : stg t = .fin op r := thread_ret (by rw [← k1]; exact ht)
    refine ⟨a, .refl a, by rw [k3, hst]; rfl, upd stg t .idle, th_upd k1 t rfl,
      k2.stay t _ rfl (by rw [hst]; rfl) (by rw [hst]; rfl) (by rw [hst]; rfl) trivial, ?_, ?_, ?_⟩
    · intro u
      by_cases c : u = t
      · subst c; exact (upd_same _ _ _).trans (by rw [upd_same]; rfl)
      · rw [upd_other _ _ c]; exact (upd_other _ _ c).trans (k3 u)
    · intro u op' v e
      by_cases c : u = t
      · subst c; rw [upd_same] at e; cases e
      · rw [upd_other _ _ c] at e; exact k4 u op' v e
    · intro e
      refine k5 fun u => ?_
      by_cases c : u = t
      · subst c; rw [hst]; rfl
      · have := e u; rw [upd_other _ _ c] at this; exact this

end Verif.Xsync
