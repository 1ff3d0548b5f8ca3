import Verif.AtomicValue.Spec
import Verif.Conc.If

/-!
# The stages of a call, the invariant, and the simulation
-/

set_option linter.unusedSectionVars false

namespace Verif.AtomicValue

open Verif.Conc

variable {T : Type} [Inhabited T]

/-- What a pointer points to. -/
def look (σ : Sh T) : Option Nat → T
  | none => default
  | some p => (σ.heap p).getD default

/-- The value held. -/
def value (σ : Sh T) : T := look σ σ.cur

/-- Where a goroutine is. `q` is the cell it allocated, `p` the pointer it loaded, `w` what that points to. -/
inductive Stage (T : Type) where
  | idle
  | fin (op : Op T) (r : Res T)
  | load0
  | load1 (p : Nat) (w : T)
  | store0 (v : T)
  | store1 (v : T) (q : Nat)
  | swap0 (v : T)
  | swap1 (v : T) (q : Nat)
  | swap2 (v : T) (p : Nat) (w : T)
  | cas0 (o n : T)
  | cas1 (o n : T) (q : Nat)
  | cas2 (o n : T) (q : Nat) (p : Nat) (w : T)
  | cas3 (o n : T) (q : Nat) (p : Option Nat) (w : T)

/-- The goroutine at that stage. -/
def Stage.thread (E : GoEq T) : Stage T → Thread (mach T) (Op T) (Res T)
  | .idle => .idle
  | .fin op r => .run op (.ret r)
  | .load0 => .run .load load
  | .load1 p _ => .run .load (.act (.deref p) fun v => .ret (.val v))
  | .store0 v => .run (.store v) (store v)
  | .store1 v q => .run (.store v) (.act (.store q) fun _ => .ret .unit)
  | .swap0 v => .run (.swap v) (swap v)
  | .swap1 v q => .run (.swap v) (.act (.swap q) fun p => valueAt p)
  | .swap2 v p _ => .run (.swap v) (.act (.deref p) fun v => .ret (.val v))
  | .cas0 o n => .run (.cas o n) (cas E o n)
  | .cas1 o n q => .run (.cas o n) (.act .load fun p => match p with
      | none => casRest E o n q none default
      | some p => .act (.deref p) fun w => casRest E o n q (some p) w)
  | .cas2 o n q p _ => .run (.cas o n) (.act (.deref p) fun w => casRest E o n q (some p) w)
  | .cas3 o n q p _ => .run (.cas o n) (.act (.cas p q) fun b => .ret (.bool b))

/-- The cell allocated and not yet published. -/
def Stage.priv : Stage T → Option (Nat × T)
  | .store1 v q => some (q, v)
  | .swap1 v q => some (q, v)
  | .cas1 _ n q => some (q, n)
  | .cas2 _ n q _ _ => some (q, n)
  | .cas3 _ n q _ _ => some (q, n)
  | _ => none

/-- The pointer loaded, with what it points to. -/
def Stage.loaded : Stage T → Option (Option Nat × T)
  | .load1 p w => some (some p, w)
  | .swap2 _ p w => some (some p, w)
  | .cas2 _ _ _ p w => some (some p, w)
  | .cas3 _ _ _ p w => some (p, w)
  | _ => none

/-- Comparisons made. -/
def Stage.local (E : GoEq T) : Stage T → Prop
  | .cas3 o n _ _ w => E.eq w o = true ∧ E.eq n o = false
  | _ => True

/-- A `CompareAndSwap` that read `w` through `p`: failed, succeeded, waiting, or failed because the pointer changed. -/
def casStatus (E : GoEq T) (σ : Sh T) (o n : T) (p : Option Nat) (w : T) : CStatus (Op T) (Res T) :=
  if E.eq w o = false then .done (.cas o n) (.bool false)
  else if E.eq n o = true then .done (.cas o n) (.bool true)
  else if σ.cur = p then .pending (.cas o n)
  else .done (.cas o n) (.bool false)

/-- What the atomic object knows about the call. -/
def Stage.status (E : GoEq T) (σ : Sh T) : Stage T → CStatus (Op T) (Res T)
  | .idle => .idle
  | .fin op r => .done op r
  | .load0 => .pending .load
  | .load1 _ w => .done .load (.val w)
  | .store0 v => .pending (.store v)
  | .store1 v _ => .pending (.store v)
  | .swap0 v => .pending (.swap v)
  | .swap1 v _ => .pending (.swap v)
  | .swap2 v _ w => .done (.swap v) (.val w)
  | .cas0 o n => .pending (.cas o n)
  | .cas1 o n _ => .pending (.cas o n)
  | .cas2 o n _ p w => casStatus E σ o n (some p) w
  | .cas3 o n _ p w => casStatus E σ o n p w

/-- `p` points to `w`. -/
def At (σ : Sh T) (p : Option Nat) (w : T) : Prop :=
  match p with
  | none => w = default
  | some p => σ.heap p = some w

theorem At.look {σ : Sh T} {p : Option Nat} {w : T} (h : At σ p w) : look σ p = w := by
  cases p with
  | none => exact h.symm
  | some p => simp only [At] at h; simp [AtomicValue.look, h]

theorem At.put {σ : Sh T} {p : Option Nat} {w v : T} {q : Nat} (h : At σ p w) (hq : σ.heap q = none) :
    At (σ.put q v) p w := by
  cases p with
  | none => exact h
  | some p =>
    have : p ≠ q := by rintro rfl; simp only [At] at h; rw [hq] at h; cases h
    simp only [At, Sh.put] at h ⊢
    rw [if_neg this]; exact h

/-- The invariant. -/
structure Inv (E : GoEq T) (σ : Sh T) (stg : Tid → Stage T) : Prop where
  cur : At σ σ.cur (value σ)
  lo : ∀ t p w, (stg t).loaded = some (p, w) → At σ p w
  pr : ∀ t q v, (stg t).priv = some (q, v) → σ.heap q = some v ∧ σ.cur ≠ some q ∧
    (∀ u w, (stg u).loaded ≠ some (some q, w)) ∧ ∀ u, u ≠ t → ∀ v', (stg u).priv ≠ some (q, v')
  loc : ∀ t, (stg t).local E

/-- A step that leaves memory alone. -/
theorem Inv.stay {E : GoEq T} {σ : Sh T} {stg : Tid → Stage T} (h : Inv E σ stg) (t : Tid) (s : Stage T)
    (hp : s.priv = none ∨ s.priv = (stg t).priv)
    (hl : s.loaded = none ∨ s.loaded = (stg t).loaded ∨ s.loaded = some (σ.cur, value σ)) (hloc : s.local E) :
    Inv E σ (upd stg t s) := by
  have hlo : ∀ u p w, (upd stg t s u).loaded = some (p, w) → (∃ u', (stg u').loaded = some (p, w)) ∨
      (p = σ.cur ∧ w = value σ) := by
    intro u p w hu
    by_cases c : u = t
    · subst c
      rw [upd_same] at hu
      rcases hl with e | e | e
      · rw [e] at hu; cases hu
      · exact Or.inl ⟨u, by rw [← e]; exact hu⟩
      · rw [e] at hu
        simp only [Option.some.injEq, Prod.mk.injEq] at hu
        exact Or.inr ⟨hu.1.symm, hu.2.symm⟩
    · rw [upd_other _ _ c] at hu
      exact Or.inl ⟨u, hu⟩
  have hpr : ∀ u q v, (upd stg t s u).priv = some (q, v) → (stg u).priv = some (q, v) := by
    intro u q v hu
    by_cases c : u = t
    · subst c
      rw [upd_same] at hu
      rcases hp with e | e
      · rw [e] at hu; cases hu
      · rw [← e]; exact hu
    · rwa [upd_other _ _ c] at hu
  refine ⟨h.cur, ?_, ?_, ?_⟩
  · intro u p w hu
    rcases hlo u p w hu with ⟨u', hu'⟩ | ⟨rfl, rfl⟩
    · exact h.lo u' p w hu'
    · exact h.cur
  · intro u q v hu
    obtain ⟨h1, h2, h3, h4⟩ := h.pr u q v (hpr u q v hu)
    refine ⟨h1, h2, ?_, fun u' hu' v' hv' => h4 u' hu' v' (hpr _ _ _ hv')⟩
    intro u' w hw
    rcases hlo u' _ w hw with ⟨u'', hu''⟩ | ⟨e, -⟩
    · exact h3 u'' w hu''
    · exact h2 e.symm
  · intro u
    by_cases c : u = t
    · subst c; rw [upd_same]; exact hloc
    · rw [upd_other _ _ c]; exact h.loc u

theorem value_put {σ : Sh T} {q : Nat} {v : T} (h : At σ σ.cur (value σ)) (hq : σ.heap q = none) :
    value (σ.put q v) = value σ := by
  have := (h.put (v := v) hq).look
  exact this

/-- Allocation. -/
theorem Inv.alloc {E : GoEq T} {σ : Sh T} {stg : Tid → Stage T} (h : Inv E σ stg) (t : Tid) (s : Stage T) (q : Nat)
    (v : T) (hq : σ.heap q = none) (hp : s.priv = some (q, v)) (hl : s.loaded = none) (hloc : s.local E) :
    Inv E (σ.put q v) (upd stg t s) := by
  have hlo : ∀ u p w, (upd stg t s u).loaded = some (p, w) → (stg u).loaded = some (p, w) := by
    intro u p w hu
    by_cases c : u = t
    · subst c; rw [upd_same, hl] at hu; cases hu
    · rwa [upd_other _ _ c] at hu
  have hne : ∀ u q' v', (stg u).priv = some (q', v') → q' ≠ q := by
    rintro u q' v' hu rfl
    have := (h.pr u q' v' hu).1
    rw [hq] at this; cases this
  have hnl : ∀ u w, (stg u).loaded ≠ some (some q, w) := by
    intro u w hu
    have := h.lo u _ w hu
    simp only [At, hq] at this; cases this
  refine ⟨?_, fun u p w hu => (h.lo u p w (hlo u p w hu)).put hq, ?_, ?_⟩
  · rw [value_put h.cur hq]; exact h.cur.put hq
  · intro u q' v' hu
    by_cases c : u = t
    · subst c
      rw [upd_same, hp] at hu
      simp only [Option.some.injEq, Prod.mk.injEq] at hu
      obtain ⟨rfl, rfl⟩ := hu
      refine ⟨by simp [Sh.put], ?_, fun u' w hw => hnl u' w (hlo _ _ _ hw), ?_⟩
      · intro e
        have hc := h.cur
        rw [show σ.cur = some q from e] at hc
        simp only [At, hq] at hc; cases hc
      · intro u' hu' v' hv'
        rw [upd_other _ _ hu'] at hv'
        exact hne _ _ _ hv' rfl
    · rw [upd_other _ _ c] at hu
      obtain ⟨h1, h2, h3, h4⟩ := h.pr u q' v' hu
      have hqq := hne _ _ _ hu
      refine ⟨by simp only [Sh.put]; rw [if_neg hqq]; exact h1, h2, fun u' w hw => h3 u' w (hlo _ _ _ hw), ?_⟩
      intro u' hu' v'' hv'
      by_cases c' : u' = t
      · subst c'
        rw [upd_same, hp] at hv'
        simp only [Option.some.injEq, Prod.mk.injEq] at hv'
        exact hqq hv'.1.symm
      · rw [upd_other _ _ c'] at hv'
        exact h4 u' hu' v'' hv'
  · intro u
    by_cases c : u = t
    · subst c; rw [upd_same]; exact hloc
    · rw [upd_other _ _ c]; exact h.loc u

/-- Publication. -/
theorem Inv.publish {E : GoEq T} {σ : Sh T} {stg : Tid → Stage T} (h : Inv E σ stg) (t : Tid) (s : Stage T) (q : Nat)
    (v : T) (hq : (stg t).priv = some (q, v)) (hp : s.priv = none)
    (hl : s.loaded = none ∨ s.loaded = some (σ.cur, value σ)) (hloc : s.local E) :
    Inv E { σ with cur := some q } (upd stg t s) ∧ value { σ with cur := some q } = v := by
  obtain ⟨h1, h2, h3, h4⟩ := h.pr t q v hq
  have hv : value { σ with cur := some q } = v := by simp [value, look, h1]
  have hpr : ∀ u q v, (upd stg t s u).priv = some (q, v) → u ≠ t ∧ (stg u).priv = some (q, v) := by
    intro u q v hu
    by_cases c : u = t
    · subst c; rw [upd_same, hp] at hu; cases hu
    · rw [upd_other _ _ c] at hu; exact ⟨c, hu⟩
  refine ⟨⟨?_, ?_, ?_, ?_⟩, hv⟩
  · rw [hv]; exact h1
  · intro u p w hu
    show At σ p w
    by_cases c : u = t
    · subst c
      rw [upd_same] at hu
      rcases hl with e | e
      · rw [e] at hu; cases hu
      · rw [e] at hu
        simp only [Option.some.injEq, Prod.mk.injEq] at hu
        obtain ⟨rfl, rfl⟩ := hu
        exact h.cur
    · rw [upd_other _ _ c] at hu
      exact h.lo u p w hu
  · intro u q' v' hu
    obtain ⟨hut, hu⟩ := hpr u q' v' hu
    obtain ⟨g1, g2, g3, g4⟩ := h.pr u q' v' hu
    refine ⟨g1, ?_, ?_, fun u' hu' v'' hv' => g4 u' hu' v'' (hpr _ _ _ hv').2⟩
    · intro e
      injection e with e
      subst e
      exact h4 u hut _ hu
    · intro u' w hw
      by_cases c : u' = t
      · subst c
        rw [upd_same] at hw
        rcases hl with e | e
        · rw [e] at hw; cases hw
        · rw [e] at hw
          simp only [Option.some.injEq, Prod.mk.injEq] at hw
          exact g2 hw.1
      · rw [upd_other _ _ c] at hw
        exact g3 u' w hw
  · intro u
    by_cases c : u = t
    · subst c; rw [upd_same]; exact hloc
    · rw [upd_other _ _ c]; exact h.loc u

/-- States, as calls see them. -/
abbrev Cfg (T : Type) := Config (mach T) (Op T) (Res T)
/-- Labels. -/
abbrev Lab (T : Type) := Label (mach T) (Op T) (Res T)

/-- A `Store` or `Swap` writes a value different from the one held. -/
def Changing (E : GoEq T) (c : Cfg T) : Lab T → Prop
  | .act _ (.store q) _ => E.eq (look c.sh (some q)) (value c.sh) = false
  | .act _ (.swap q) _ => E.eq (look c.sh (some q)) (value c.sh) = false
  | _ => True

/-- What a step of goroutine `t`, from stage `s` to stage `s'`, means for the atomic object. -/
structure Effect (E : GoEq T) (strict : Bool) (σ σ' : Sh T) (stg : Tid → Stage T) (t : Tid) (s' : Stage T) : Prop where
  inv : Inv E σ' (upd stg t s')
  own : (value σ' = value σ ∧ s'.status E σ' = (stg t).status E σ) ∨
    ∃ op r, (stg t).status E σ = .pending op ∧ s'.status E σ' = .done op r ∧ Legal E strict (value σ) op r (value σ')
  others : ∀ u, u ≠ t → (stg u).status E σ' = (stg u).status E σ ∨
    ∃ o n, (stg u).status E σ = .pending (.cas o n) ∧ (stg u).status E σ' = .done (.cas o n) (.bool false) ∧
      (strict = true → E.eq (value σ') o = false)

theorem status_cur {E : GoEq T} {σ σ' : Sh T} (h : σ'.cur = σ.cur) (s : Stage T) : s.status E σ' = s.status E σ := by
  cases s <;> simp only [Stage.status, casStatus, h]

/-- Others, when the pointer changes. -/
theorem others_publish {E : GoEq T} {strict : Bool} {σ : Sh T} {stg : Tid → Stage T} (h : Inv E σ stg) {t : Tid}
    {q : Nat} {v : T} (hq : (stg t).priv = some (q, v)) (hv : value { σ with cur := some q } = v)
    (hc : strict = true → E.eq v (value σ) = false) (u : Tid) :
    (stg u).status E { σ with cur := some q } = (stg u).status E σ ∨
    ∃ o n, (stg u).status E σ = .pending (.cas o n) ∧
      (stg u).status E { σ with cur := some q } = .done (.cas o n) (.bool false) ∧
      (strict = true → E.eq (value { σ with cur := some q }) o = false) := by
  have key : ∀ o n p w, (stg u).loaded = some (p, w) →
      casStatus E { σ with cur := some q } o n p w = casStatus E σ o n p w ∨
      (casStatus E σ o n p w = .pending (.cas o n) ∧
        casStatus E { σ with cur := some q } o n p w = .done (.cas o n) (.bool false) ∧
      (strict = true → E.eq (value { σ with cur := some q }) o = false)) := by
    intro o n p w hl
    have hp : some q ≠ p := by
      rintro rfl
      exact (h.pr t q v hq).2.2.1 u w hl
    unfold casStatus
    by_cases c1 : E.eq w o = false
    · left; rw [if_pos c1, if_pos c1]
    · by_cases c2 : E.eq n o = true
      · left; rw [if_neg c1, if_pos c2, if_neg c1, if_pos c2]
      · by_cases c3 : σ.cur = p
        · right
          rw [if_neg c1, if_neg c2, if_pos c3, if_neg c1, if_neg c2, if_neg hp]
          refine ⟨rfl, rfl, fun hs => ?_⟩
          rw [hv]
          have hw : value σ = w := by
            have := h.lo u p w hl
            rw [← c3] at this
            exact this.look
          have := hc hs
          rw [hw] at this
          cases hvo : E.eq v o with
          | false => rfl
          | true =>
            have hwo : E.eq w o = true := by simpa using c1
            rw [E.trans v o w hvo (E.symm _ _ hwo)] at this
            cases this
        · left
          rw [if_neg c1, if_neg c2, if_neg c3, if_neg c1, if_neg c2, if_neg hp]
  cases hs : stg u with
  | cas2 o n q' p w =>
    rcases key o n (some p) w (by rw [hs]; rfl) with e | ⟨e1, e2, e3⟩
    · exact Or.inl e
    · exact Or.inr ⟨o, n, e1, e2, e3⟩
  | cas3 o n q' p w =>
    rcases key o n p w (by rw [hs]; rfl) with e | ⟨e1, e2, e3⟩
    · exact Or.inl e
    · exact Or.inr ⟨o, n, e1, e2, e3⟩
  | _ => left; rfl

/-- A step that leaves memory alone. -/
theorem Effect.stay {E : GoEq T} {strict : Bool} {σ : Sh T} {stg : Tid → Stage T} (h : Inv E σ stg) {t : Tid}
    {s' : Stage T} (hp : s'.priv = none ∨ s'.priv = (stg t).priv)
    (hl : s'.loaded = none ∨ s'.loaded = (stg t).loaded ∨ s'.loaded = some (σ.cur, value σ)) (hloc : s'.local E)
    (own : s'.status E σ = (stg t).status E σ ∨
      ∃ op r, (stg t).status E σ = .pending op ∧ s'.status E σ = .done op r ∧ Legal E strict (value σ) op r (value σ)) :
    Effect E strict σ σ stg t s' :=
  ⟨h.stay t s' hp hl hloc, own.imp (fun e => ⟨rfl, e⟩) id, fun _ _ => Or.inl rfl⟩

/-- Allocation. -/
theorem Effect.alloc {E : GoEq T} {strict : Bool} {σ : Sh T} {stg : Tid → Stage T} (h : Inv E σ stg) {t : Tid}
    {s' : Stage T} {q : Nat} {v : T} (hq : σ.heap q = none) (hp : s'.priv = some (q, v)) (hl : s'.loaded = none)
    (hloc : s'.local E) (own : s'.status E σ = (stg t).status E σ) :
    Effect E strict σ (σ.put q v) stg t s' :=
  ⟨h.alloc t s' q v hq hp hl hloc, Or.inl ⟨value_put h.cur hq, by rw [← own]; exact status_cur rfl s'⟩,
    fun u _ => Or.inl (status_cur rfl (stg u))⟩

/-- Publication. -/
theorem Effect.publish {E : GoEq T} {strict : Bool} {σ : Sh T} {stg : Tid → Stage T} (h : Inv E σ stg) {t : Tid}
    {s' : Stage T} {q : Nat} {v : T} (hq : (stg t).priv = some (q, v)) (hp : s'.priv = none)
    (hl : s'.loaded = none ∨ s'.loaded = some (σ.cur, value σ)) (hloc : s'.local E)
    (hc : strict = true → E.eq v (value σ) = false) (op : Op T) (r : Res T)
    (h1 : (stg t).status E σ = .pending op) (h2 : s'.status E { σ with cur := some q } = .done op r)
    (h3 : Legal E strict (value σ) op r v) :
    Effect E strict σ { σ with cur := some q } stg t s' := by
  obtain ⟨hi, hv⟩ := h.publish t s' q v hq hp hl hloc
  exact ⟨hi, Or.inr ⟨op, r, h1, h2, by rw [hv]; exact h3⟩, fun u _ => others_publish h hq hv hc u⟩

/-- The stage after the comparisons of `CompareAndSwap`. -/
def afterRead (E : GoEq T) (o n : T) (q : Nat) (p : Option Nat) (w : T) : Stage T :=
  if E.eq w o = false then .fin (.cas o n) (.bool false)
  else if E.eq n o = true then .fin (.cas o n) (.bool true)
  else .cas3 o n q p w

theorem afterRead_thread (E : GoEq T) (o n : T) (q : Nat) (p : Option Nat) (w : T) :
    (afterRead E o n q p w).thread E = .run (.cas o n) (casRest E o n q p w) := by
  unfold afterRead casRest
  split
  · rfl
  · split <;> rfl

theorem afterRead_status (E : GoEq T) (σ : Sh T) (o n : T) (q : Nat) (p : Option Nat) (w : T) :
    (afterRead E o n q p w).status E σ = casStatus E σ o n p w := by
  unfold afterRead
  by_cases c1 : E.eq w o = false
  · rw [if_pos c1]; simp [casStatus, c1, Stage.status]
  · rw [if_neg c1]
    by_cases c2 : E.eq n o = true
    · rw [if_pos c2]; simp only [casStatus, Stage.status]; rw [if_neg c1, if_pos c2]
    · rw [if_neg c2]; rfl

theorem afterRead_priv (E : GoEq T) (o n : T) (q : Nat) (p : Option Nat) (w : T) :
    (afterRead E o n q p w).priv = none ∨ (afterRead E o n q p w).priv = some (q, n) := by
  unfold afterRead
  split
  · exact Or.inl rfl
  · split
    · exact Or.inl rfl
    · exact Or.inr rfl

theorem afterRead_loaded (E : GoEq T) (o n : T) (q : Nat) (p : Option Nat) (w : T) :
    (afterRead E o n q p w).loaded = none ∨ (afterRead E o n q p w).loaded = some (p, w) := by
  unfold afterRead
  split
  · exact Or.inl rfl
  · split
    · exact Or.inl rfl
    · exact Or.inr rfl

theorem afterRead_local (E : GoEq T) (o n : T) (q : Nat) (p : Option Nat) (w : T) : (afterRead E o n q p w).local E := by
  unfold afterRead
  split
  · trivial
  · split
    · trivial
    · rename_i h1 h2
      exact ⟨by simpa using h1, by simpa using h2⟩

/-- What `CompareAndSwap` knows right after reading the value held. -/
theorem casStatus_read (E : GoEq T) (strict : Bool) (σ : Sh T) (o n : T) :
    casStatus E σ o n σ.cur (value σ) = .pending (.cas o n) ∨
    ∃ op r, CStatus.pending (R := Res T) (.cas o n) = .pending op ∧ casStatus E σ o n σ.cur (value σ) = .done op r ∧
      Legal E strict (value σ) op r (value σ) := by
  unfold casStatus
  by_cases c1 : E.eq (value σ) o = false
  · right
    rw [if_pos c1]
    exact ⟨_, _, rfl, rfl, Or.inr ⟨rfl, rfl, fun _ => c1⟩⟩
  · rw [if_neg c1]
    by_cases c2 : E.eq n o = true
    · right
      rw [if_pos c2]
      exact ⟨_, _, rfl, rfl, Or.inl ⟨rfl, by simpa using c1, Or.inr ⟨c2, rfl⟩⟩⟩
    · left
      rw [if_neg c2, if_pos rfl]

/-- Every step of a call has such an effect. -/
theorem stage_step (E : GoEq T) (strict : Bool) {c : Cfg T} {stg : Tid → Stage T} (h : Inv E c.sh stg) {t : Tid}
    {op : Op T} {x : Act T} {k : Ans x → P T} {ans : Ans x} {σ' : Sh T}
    (ht : (stg t).thread E = .run op (.act x k)) (hQ : strict = true → Changing E c (.act t x ans))
    (hs : AStep t x c.sh ans σ') :
    ∃ s', s'.thread E = .run op (k ans) ∧ Effect E strict c.sh σ' stg t s' := by
  cases hst : stg t with
  | idle => rw [hst] at ht; cases ht
  | fin o r => rw [hst] at ht; injection ht with _ ht; cases ht
  | load0 =>
    rw [hst] at ht
    injection ht with h1 h2
    subst h1
    injection h2 with h2 h3
    subst h2
    have h3 := eq_of_heq h3
    subst h3
    cases hs with
    | load =>
      cases hc : c.sh.cur with
      | none =>
        refine ⟨.fin .load (.val (value c.sh)), ?_, .stay h (Or.inl rfl) (Or.inl rfl) trivial (Or.inr ⟨.load, _, by rw [hst]; rfl, rfl, ⟨rfl, rfl⟩⟩)⟩
        simp [Stage.thread, valueAt, value, look, hc]
      | some p =>
        exact ⟨.load1 p (value c.sh), rfl, .stay h (Or.inl rfl) (Or.inr (Or.inr (by rw [hc]; rfl))) trivial
          (Or.inr ⟨.load, _, by rw [hst]; rfl, rfl, ⟨rfl, rfl⟩⟩)⟩
  | load1 p w =>
    rw [hst] at ht
    injection ht with h1 h2
    subst h1
    injection h2 with h2 h3
    subst h2
    have h3 := eq_of_heq h3
    subst h3
    cases hs with
    | deref _ _ _ hp =>
      have : c.sh.heap p = some w := h.lo t (some p) w (by rw [hst]; rfl)
      rw [this] at hp
      injection hp with hp
      subst hp
      exact ⟨.fin .load (.val w), rfl, .stay h (Or.inl rfl) (Or.inl rfl) trivial (Or.inl (by rw [hst]; rfl))⟩
  | store0 v =>
    rw [hst] at ht
    injection ht with h1 h2
    subst h1
    injection h2 with h2 h3
    subst h2
    have h3 := eq_of_heq h3
    subst h3
    cases hs with
    | alloc _ _ _ hq => exact ⟨.store1 v ans, rfl, .alloc h hq rfl rfl trivial (by rw [hst]; rfl)⟩
  | store1 v q =>
    rw [hst] at ht
    injection ht with h1 h2
    subst h1
    injection h2 with h2 h3
    subst h2
    have h3 := eq_of_heq h3
    subst h3
    have hpr : (stg t).priv = some (q, v) := by rw [hst]; rfl
    cases hs with
    | store =>
      refine ⟨.fin (.store v) .unit, rfl, .publish h hpr rfl (Or.inl rfl) trivial ?_ _ _ (by rw [hst]; rfl) rfl ⟨rfl, rfl⟩⟩
      intro hstr
      have := hQ hstr
      simpa only [Changing, look, (h.pr t q v hpr).1, Option.getD_some] using this
  | swap0 v =>
    rw [hst] at ht
    injection ht with h1 h2
    subst h1
    injection h2 with h2 h3
    subst h2
    have h3 := eq_of_heq h3
    subst h3
    cases hs with
    | alloc _ _ _ hq => exact ⟨.swap1 v ans, rfl, .alloc h hq rfl rfl trivial (by rw [hst]; rfl)⟩
  | swap1 v q =>
    rw [hst] at ht
    injection ht with h1 h2
    subst h1
    injection h2 with h2 h3
    subst h2
    have h3 := eq_of_heq h3
    subst h3
    have hpr : (stg t).priv = some (q, v) := by rw [hst]; rfl
    cases hs with
    | swap =>
      have hch : strict = true → E.eq v (value c.sh) = false := by
        intro hstr
        have := hQ hstr
        simpa only [Changing, look, (h.pr t q v hpr).1, Option.getD_some] using this
      cases hc : c.sh.cur with
      | none =>
        refine ⟨.fin (.swap v) (.val (value c.sh)), ?_, .publish h hpr rfl (Or.inl rfl) trivial hch _ _ (by rw [hst]; rfl) rfl ⟨rfl, rfl⟩⟩
        simp [Stage.thread, valueAt, value, look, hc]
      | some p =>
        exact ⟨.swap2 v p (value c.sh), rfl, .publish h hpr rfl (Or.inr (by rw [hc]; rfl)) trivial hch _ _ (by rw [hst]; rfl) rfl ⟨rfl, rfl⟩⟩
  | swap2 v p w =>
    rw [hst] at ht
    injection ht with h1 h2
    subst h1
    injection h2 with h2 h3
    subst h2
    have h3 := eq_of_heq h3
    subst h3
    cases hs with
    | deref _ _ _ hp =>
      have : c.sh.heap p = some w := h.lo t (some p) w (by rw [hst]; rfl)
      rw [this] at hp
      injection hp with hp
      subst hp
      exact ⟨.fin (.swap v) (.val w), rfl, .stay h (Or.inl rfl) (Or.inl rfl) trivial (Or.inl (by rw [hst]; rfl))⟩
  | cas0 o n =>
    rw [hst] at ht
    injection ht with h1 h2
    subst h1
    injection h2 with h2 h3
    subst h2
    have h3 := eq_of_heq h3
    subst h3
    cases hs with
    | alloc _ _ _ hq => exact ⟨.cas1 o n ans, rfl, .alloc h hq rfl rfl trivial (by rw [hst]; rfl)⟩
  | cas1 o n q =>
    rw [hst] at ht
    injection ht with h1 h2
    subst h1
    injection h2 with h2 h3
    subst h2
    have h3 := eq_of_heq h3
    subst h3
    cases hs with
    | load =>
      have hread := casStatus_read E strict c.sh o n
      cases hc : c.sh.cur with
      | none =>
        have hv : value c.sh = default := by simp [value, look, hc]
        rw [hc, hv] at hread
        refine ⟨afterRead E o n q none default, afterRead_thread .., .stay h ?_ ?_ (afterRead_local ..) ?_⟩
        · rw [hst]; exact afterRead_priv ..
        · rcases afterRead_loaded E o n q none default with e | e
          · exact Or.inl e
          · refine Or.inr (Or.inr ?_); rw [hc, hv]; exact e
        · rw [hst, afterRead_status, hv]; exact hread
      | some p =>
        rw [hc] at hread
        refine ⟨.cas2 o n q p (value c.sh), rfl, .stay h ?_ (Or.inr (Or.inr (by rw [hc]; rfl))) trivial ?_⟩
        · rw [hst]; exact Or.inr rfl
        · rw [hst]; exact hread
  | cas2 o n q p w =>
    rw [hst] at ht
    injection ht with h1 h2
    subst h1
    injection h2 with h2 h3
    subst h2
    have h3 := eq_of_heq h3
    subst h3
    cases hs with
    | deref _ _ _ hp =>
      have : c.sh.heap p = some w := h.lo t (some p) w (by rw [hst]; rfl)
      rw [this] at hp
      injection hp with hp
      subst hp
      refine ⟨afterRead E o n q (some p) w, afterRead_thread .., .stay h ?_ ?_ (afterRead_local ..) ?_⟩
      · rw [hst]; exact afterRead_priv ..
      · rw [hst]
        rcases afterRead_loaded E o n q (some p) w with e | e
        · exact Or.inl e
        · exact Or.inr (Or.inl e)
      · left; rw [hst, afterRead_status]; rfl
  | cas3 o n q p w =>
    rw [hst] at ht
    injection ht with h1 h2
    subst h1
    injection h2 with h2 h3
    subst h2
    have h3 := eq_of_heq h3
    subst h3
    have hpr : (stg t).priv = some (q, n) := by rw [hst]; rfl
    have hloc := h.loc t
    rw [hst] at hloc
    obtain ⟨g1, g2⟩ := hloc
    have hat : At c.sh p w := h.lo t p w (by rw [hst]; rfl)
    have c1 : ¬ E.eq w o = false := by simp [g1]
    have c2 : ¬ E.eq n o = true := by simp [g2]
    cases hs with
    | casHit _ _ _ hc =>
      have hv : value c.sh = w := by rw [← hat.look, ← hc]; rfl
      have hst' : (stg t).status E c.sh = .pending (.cas o n) := by
        rw [hst]; simp only [Stage.status, casStatus]; rw [if_neg c1, if_neg c2, if_pos hc]
      refine ⟨.fin (.cas o n) (.bool true), rfl, .publish h hpr rfl (Or.inl rfl) trivial ?_ _ _ hst' rfl
        (Or.inl ⟨rfl, by rw [hv]; exact g1, Or.inl rfl⟩)⟩
      intro _
      rw [hv]
      cases hnw : E.eq n w with
      | false => rfl
      | true => rw [E.trans _ _ _ hnw g1] at g2; cases g2
    | casMiss _ _ _ hc =>
      refine ⟨.fin (.cas o n) (.bool false), rfl, .stay h (Or.inl rfl) (Or.inl rfl) trivial (Or.inl ?_)⟩
      rw [hst]; simp only [Stage.status, casStatus]; rw [if_neg c1, if_neg c2, if_neg hc]

/-! ## Simulation -/

/-- Several waiting calls of `CompareAndSwap` fail. -/
theorem fail_all (E : GoEq T) (strict : Bool) (x : T) : ∀ (N : Nat) (f g : Tid → CStatus (Op T) (Res T)),
    (∀ t, N ≤ t → g t = f t) →
    (∀ t, g t = f t ∨ ∃ o n, f t = .pending (.cas o n) ∧ g t = .done (.cas o n) (.bool false) ∧
      (strict = true → E.eq x o = false)) →
    Lin (var E strict) ⟨x, f⟩ ⟨x, g⟩
  | 0, f, g, h, _ => by
    have : g = f := funext fun t => h t (Nat.zero_le t)
    subst this
    exact .refl _
  | N + 1, f, g, h, hs => by
    rcases hs N with e | ⟨o, n, h1, h2, h3⟩
    · refine fail_all E strict x N f g (fun t ht => ?_) hs
      by_cases c : t = N
      · subst c; exact e
      · exact h t (by omega)
    · refine .step N (.cas o n) (.bool false) x h1 (Or.inr ⟨rfl, rfl, h3⟩)
        (fail_all E strict x N _ g (fun t ht => ?_) (fun t => ?_))
      · by_cases c : t = N
        · subst c; rw [h2, upd_same]
        · rw [upd_other _ _ c]; exact h t (by omega)
      · by_cases c : t = N
        · subst c; left; rw [h2, upd_same]
        · rw [upd_other _ _ c]; exact hs t

/-- The stage at which a call begins. -/
def Stage.begin : Op T → Stage T
  | .load => .load0
  | .store v => .store0 v
  | .swap v => .swap0 v
  | .cas o n => .cas0 o n

/-- States and the variable. -/
def Rel (E : GoEq T) (strict : Bool) (c : Cfg T) (a : Canon (var E strict)) : Prop :=
  ∃ (stg : Tid → Stage T) (N : Nat), (∀ t, c.th t = (stg t).thread E) ∧ (∀ t, N ≤ t → stg t = .idle) ∧
    Inv E c.sh stg ∧ a = ⟨value (T := T) c.sh, fun t => (stg t).status E c.sh⟩

theorem thread_idle {E : GoEq T} {s : Stage T} (h : s.thread E = .idle) : s = .idle := by
  cases s <;> first | rfl | cases h

theorem thread_ret {E : GoEq T} {s : Stage T} {op : Op T} {r : Res T} (h : s.thread E = .run op (.ret r)) :
    s = .fin op r := by
  cases s <;> (try (injection h with _ h; cases h; done)) <;> first | cases h | skip
  all_goals rfl

theorem upd_fun {α β : Type} (f : Tid → α) (t : Tid) (x : α) (g : α → β) :
    (fun u => g (upd f t x u)) = upd (fun u => g (f u)) t (g x) := by
  funext u
  by_cases c : u = t
  · subst c; rw [upd_same, upd_same]
  · rw [upd_other _ _ c, upd_other _ _ c]

/-- The idle goroutine changes stage: begins or ends a call. -/
theorem Inv.edge {E : GoEq T} {σ : Sh T} {stg : Tid → Stage T} (h : Inv E σ stg) (t : Tid) (s : Stage T)
    (hp : s.priv = none) (hl : s.loaded = none) (hloc : s.local E) : Inv E σ (upd stg t s) :=
  h.stay t s (Or.inl hp) (Or.inl hl) hloc

theorem zero_inv (E : GoEq T) : Inv E (zero : Sh T) (fun _ => .idle) :=
  ⟨rfl, fun t p w h => by simp [Stage.loaded] at h, fun t q v h => by simp [Stage.priv] at h, fun _ => trivial⟩

theorem begin_ok (E : GoEq T) (σ : Sh T) (op : Op T) : (Stage.begin op).thread E = .run op (body E op) ∧
    (Stage.begin op).status E σ = .pending op ∧ (Stage.begin op).priv = none ∧ (Stage.begin op).loaded = none ∧
    (Stage.begin op).local E := by
  cases op <;> exact ⟨rfl, rfl, rfl, rfl, trivial⟩

theorem th_upd {E : GoEq T} {th : Tid → Thread (mach T) (Op T) (Res T)} {stg : Tid → Stage T}
    (h : ∀ t, th t = (stg t).thread E) (t : Tid) {x : Thread (mach T) (Op T) (Res T)} {s : Stage T}
    (hs : s.thread E = x) : ∀ u, upd th t x u = (upd stg t s u).thread E := by
  intro u
  by_cases c : u = t
  · subst c; rw [upd_same, upd_same, hs]
  · rw [upd_other _ _ c, upd_other _ _ c, h u]

theorem bound_upd {stg : Tid → Stage T} {N : Nat} (h : ∀ t, N ≤ t → stg t = .idle) (t : Tid) (s : Stage T) :
    ∀ u, N + t + 1 ≤ u → upd stg t s u = .idle := by
  intro u hu
  have c : u ≠ t := by omega
  rw [upd_other _ _ c]
  exact h u (by omega)

/-- The simulation. -/
theorem sim (E : GoEq T) (strict : Bool) : SimIf (fun c l => strict = true → Changing E c l) (var E strict) (body E)
    (Config.init zero) (Rel E strict) where
  start := ⟨fun _ => .idle, 0, fun _ => rfl, fun _ _ => rfl, zero_inv E, rfl⟩
  call c a t op hr hi := by
    obtain ⟨stg, N, h1, h2, h3, rfl⟩ := hr
    have hst : stg t = .idle := thread_idle (by rw [← h1]; exact hi)
    obtain ⟨b1, b2, b3, b4, b5⟩ := begin_ok E c.sh op
    refine ⟨show (stg t).status E c.sh = _ by rw [hst]; rfl, upd stg t (.begin op), N + t + 1, th_upd h1 t b1, bound_upd h2 t _, h3.edge t _ b3 b4 b5, ?_⟩
    rw [upd_fun, b2]
  act c a t op x k ans sh' hr ht hQ hs := by
    obtain ⟨stg, N, h1, h2, h3, rfl⟩ := hr
    obtain ⟨s', e1, e2⟩ := stage_step E strict h3 (by rw [← h1]; exact ht) hQ hs
    refine ⟨⟨value (T := T) sh', fun u => (upd stg t s' u).status E sh'⟩, ?_, upd stg t s', N + t + 1, th_upd h1 t e1,
      bound_upd h2 t _, e2.inv, rfl⟩
    have key : ∀ f : Tid → CStatus (Op T) (Res T), f t = s'.status E sh' →
        (∀ u, u ≠ t → f u = (stg u).status E c.sh) →
        Lin (var E strict) ⟨value (T := T) sh', f⟩ ⟨value (T := T) sh', fun u => (upd stg t s' u).status E sh'⟩ := by
      intro f f1 f2
      refine fail_all E strict (value sh') (N + t + 1) _ _ (fun u hu => ?_) (fun u => ?_)
      · have c1 : u ≠ t := by omega
        rw [upd_other _ _ c1, f2 u c1, h2 u (by omega)]
        rfl
      · by_cases c1 : u = t
        · subst c1; left; rw [upd_same, f1]
        · rw [upd_other _ _ c1, f2 u c1]
          exact e2.others u c1
    rcases e2.own with ⟨g1, g2⟩ | ⟨op', r, g1, g2, g3⟩
    · rw [← g1]
      exact key _ g2.symm (fun _ _ => rfl)
    · refine .step t op' r (value (T := T) sh') g1 g3 (key _ (by rw [upd_same, g2]) (fun u hu => by rw [upd_other _ _ hu]))
  ret c a t op r hr ht := by
    obtain ⟨stg, N, h1, h2, h3, rfl⟩ := hr
    have hst : stg t = .fin op r := thread_ret (by rw [← h1]; exact ht)
    refine ⟨_, .refl _, show (stg t).status E c.sh = _ by rw [hst]; rfl, upd stg t .idle, N + t + 1, th_upd h1 t rfl, bound_upd h2 t _,
      h3.edge t _ rfl rfl trivial, ?_⟩
    rw [upd_fun]
    rfl

end Verif.AtomicValue
