import Verif.Conc.Fair
import Verif.Xsync.SyncProps

/-!
# C128: nobody waits for ever for a synchronised value
-/

set_option linter.unusedSectionVars false

namespace Verif.Xsync

open Verif.Conc

variable {T R : Type}

/-- What a goroutine at that stage holds. -/
def Stage.hold (s : Stage T R) : Hold :=
  if s.writes then .W 0 else if s.owns then .P 0 else if s.reads then .R 0 else .no

/-- The same by the lock. -/
def Lock.hold (l : Lock) (t : Tid) : Hold :=
  if l.wr = some t then if l.active then .W 0 else .P 0 else if t ∈ l.rd then .R 0 else .no

theorem Inv.hold {σ : Sh T} {stg : Tid → Stage T R} (h : Inv σ stg) (t : Tid) : σ.lock.hold t = (stg t).hold := by
  unfold Lock.hold Stage.hold
  by_cases hw : σ.lock.wr = some t
  · rw [if_pos hw]
    have ho := (h.wr t).1 hw
    have ha := h.act t hw
    by_cases hb : (stg t).writes = true
    · rw [if_pos (ha.2 hb), if_pos hb]
    · rw [if_neg fun e => hb (ha.1 e), if_neg hb, if_pos ho]
  · rw [if_neg hw]
    have ho : ¬ (stg t).owns = true := fun e => hw ((h.wr t).2 e)
    rw [if_neg fun e => ho (writes_owns e), if_neg ho]
    have hc := h.cnt t
    by_cases hr : (stg t).reads = true
    · rw [if_pos hr] at hc
      rw [if_pos (List.count_pos_iff.1 (by omega)), if_pos hr]
    · rw [if_neg hr] at hc
      rw [if_neg fun e => by have := List.count_pos_iff.2 e; omega, if_neg hr]

theorem hold_owns {σ : Sh T} {t : Tid} {i : Nat} (h : (σ.lock.hold t).Owns i) : i = 0 ∧ σ.lock.wr = some t := by
  unfold Lock.hold at h
  split at h
  · rename_i hw
    refine ⟨?_, hw⟩
    split at h <;> rcases h with h | h <;> cases h <;> rfl
  · split at h <;> rcases h with h | h <;> cases h

theorem owns_hold {σ : Sh T} {t : Tid} (h : σ.lock.wr = some t) : (σ.lock.hold t).Owns 0 := by
  unfold Lock.hold
  rw [if_pos h]
  split
  · exact Or.inr rfl
  · exact Or.inl rfl

/-- The lock an action asks for. -/
def asks : Act T → Option Nat
  | .lock => some 0
  | .lockBegin => some 0
  | .rlock => some 0
  | _ => none

/-- The lock whose readers it waits for. -/
def waits : Act T → Option Nat
  | .lockWait => some 0
  | _ => none

/-- A use of a `Synchronized`, not of a `RWSynchronized`. -/
def Op.isMutex : Op T R → Bool
  | .mutex _ => true
  | _ => false

/-- Only a `Synchronized`: no readers. -/
theorem no_readers {x : T} {tr : List (Lab T R)} {c : Config (mach T) (Op T R) R}
    (he : Exec body (Config.init (fresh x)) tr c) (hP : Calls (fun _ op => op.isMutex = true) tr) : c.sh.lock.rd = [] := by
  have := he.invariant (P := fun _ op => op.isMutex = true)
    (fun c : Config (mach T) (Op T R) R => c.sh.lock.rd = [] ∧ ∀ t op p, c.th t = .run op p →
      (∃ u, p = .act .lock fun _ => User.prog .unlock u) ∨ (∃ u, p = User.prog .unlock u) ∨ ∃ r, p = .ret r)
    ⟨rfl, fun t op p h => by cases h⟩ ?_ ?_ ?_ hP
  · exact this.1
  · rintro c t op ⟨h1, h2⟩ hop hi
    refine ⟨h1, fun u op' p h => ?_⟩
    simp only at h
    by_cases e : u = t
    · subst e
      rw [upd_same] at h
      injection h with e1 e2
      subst e1 e2
      cases op with
      | mutex v => exact Or.inl ⟨v, rfl⟩
      | _ => cases hop
    · rw [upd_other _ _ e] at h; exact h2 u op' p h
  · rintro c t op a k ans sh' ⟨h1, h2⟩ ht hs
    have key : sh'.lock.rd = [] ∧ ((∃ u, k ans = User.prog .unlock u) ∨ ∃ r, k ans = .ret r) := by
      rcases h2 t op _ ht with ⟨u, e⟩ | ⟨u, e⟩ | ⟨r, e⟩
      · injection e with e1 e2
        subst e1
        cases e2
        cases hs with
        | lock => exact ⟨h1, Or.inl ⟨u, rfl⟩⟩
      · cases u with
        | ret r =>
          injection e with e1 e2
          subst e1
          cases e2
          cases hs with
          | unlock => exact ⟨h1, Or.inr ⟨r, rfl⟩⟩
        | read k' =>
          injection e with e1 e2
          subst e1
          cases e2
          cases hs with
          | read => exact ⟨h1, Or.inl ⟨_, rfl⟩⟩
        | write v k' =>
          injection e with e1 e2
          subst e1
          cases e2
          cases hs with
          | write => exact ⟨h1, Or.inl ⟨_, rfl⟩⟩
      · cases e
    refine ⟨key.1, fun u op' p h => ?_⟩
    simp only at h
    by_cases e : u = t
    · subst e
      rw [upd_same] at h
      injection h with e1 e2
      subst e2
      exact Or.inr key.2
    · rw [upd_other _ _ e] at h; exact h2 u op' p h
  · rintro c t op r ⟨h1, h2⟩ ht
    refine ⟨h1, fun u op' p h => ?_⟩
    simp only at h
    by_cases e : u = t
    · subst e; rw [upd_same] at h; cases h
    · rw [upd_other _ _ e] at h; exact h2 u op' p h

/-- Whoever is in a call has called it. -/
theorem called {M : Machine} {Op R : Type} {body : Op → Prog M.A M.Ans R} {sh : M.Sh} {tr : List (Label M Op R)}
    {c : Config M Op R} {P : Op → Prop} (he : Exec body (Config.init sh) tr c) (hP : Calls (fun _ op => P op) tr) {t : Tid}
    {op : Op} {p : Prog M.A M.Ans R} (h : c.th t = .run op p) : P op := by
  have := he.invariant (P := fun _ op => P op) (fun c => ∀ t op p, c.th t = .run op p → P op)
    (fun t op p h => by cases h) ?_ ?_ ?_ hP
  · exact this t op p h
  · intro c t op h1 hop hi u op' p h
    simp only at h
    by_cases e : u = t
    · subst e; rw [upd_same] at h; injection h with e1 e2; subst e1; exact hop
    · rw [upd_other _ _ e] at h; exact h1 u op' p h
  · intro c t op a k ans sh' h1 ht _ u op' p h
    simp only at h
    by_cases e : u = t
    · subst e; rw [upd_same] at h; injection h with e1 e2; subst e1; exact h1 u op _ ht
    · rw [upd_other _ _ e] at h; exact h1 u op' p h
  · intro c t op r h1 ht u op' p h
    simp only at h
    by_cases e : u = t
    · subst e; rw [upd_same] at h; cases h
    · rw [upd_other _ _ e] at h; exact h1 u op' p h

/-- How holding changes. -/
theorem hold_next {c : Config (mach T) (Op T R) R} {stg : Tid → Stage T R} (h : Inv c.sh stg) {t : Tid} {op : Op T R}
    {x : Act T} {k : Ans x → Prog (Act T) Ans R} {ans : Ans x} {σ' : Sh T} (ht : (stg t).thread = .run op (.act x k))
    (hs : AStep t x c.sh ans σ') {s : Stage T R} (e : Effect x c.sh σ' stg t s) :
    (stg t).hold.Next (fun u => c.sh.lock.hold u) s.hold := by
  have free : c.sh.lock.wr = none → ∀ u, ¬ (c.sh.lock.hold u).Owns 0 := by
    intro hw u hu
    rw [(hold_owns hu).2] at hw; cases hw
  have hW : s.writes = true → s.hold = .W 0 := fun h => if_pos h
  have ho : s.owns = true ↔ σ'.lock.wr = some t := by
    have := e.inv.wr t
    rw [upd_same] at this
    exact this.symm
  obtain ⟨w, r, n⟩ := e.hold
  cases hst : stg t with
  | idle => rw [hst] at ht; cases ht
  | fin o r => rw [hst] at ht; injection ht with _ ht; cases ht
  | before o =>
    rw [hst] at ht w r
    injection ht with h1 h2
    show Hold.no.Next _ _
    cases o with
    | mutex u =>
      injection h2 with h2 h3
      subst h2
      cases hs with
      | lock _ hw hr => rw [hW w]; exact .lock 0 (free hw)
    | locked u =>
      injection h2 with h2 h3
      subst h2
      cases hs with
      | lockBegin _ hw =>
        have : s.hold = .P 0 := by
          have w' : ¬ s.writes = true := by rw [w]; simp [afterW, Stage.writes]
          unfold Stage.hold
          rw [if_neg w', if_pos (ho.2 rfl)]
        rw [this]; exact .announce 0 (free hw)
    | rlocked u =>
      injection h2 with h2 h3
      subst h2
      cases hs with
      | rlock _ hw =>
        have : s.hold = .R 0 := by
          have w' : ¬ s.writes = true := by rw [w]; simp [afterW, Stage.writes]
          have o' : ¬ s.owns = true := fun c => by have := ho.1 c; simp [hw] at this
          unfold Stage.hold
          rw [if_neg w', if_neg o', if_pos (show s.reads = true from r)]
        rw [this]; exact .rlock 0 (free hw)
  | announced u =>
    rw [hst] at ht w r
    injection ht with h1 h2
    injection h2 with h2 h3
    subst h2
    show (Hold.P 0).Next _ _
    rw [hW w]; exact .enter 0
  | inW o u =>
    rw [hst] at ht w r
    injection ht with h1 h2
    show (Hold.W 0).Next _ _
    cases u with
    | ret r' =>
      injection h2 with h2 h3
      subst h2
      cases hs with
      | unlock _ hw ha =>
        have : s.hold = .no := by
          have w' : ¬ s.writes = true := by rw [w]; simp [afterW]
          have o' : ¬ s.owns = true := fun c => by have := ho.1 c; simp at this
          have r' : ¬ s.reads = true := by rw [r]; simp [afterR, Stage.reads]
          unfold Stage.hold
          rw [if_neg w', if_neg o', if_neg r']
        rw [this]; exact .unlock 0
    | read k' =>
      injection h2 with h2 h3
      subst h2
      rw [hW w]; exact .stay _
    | write v k' =>
      injection h2 with h2 h3
      subst h2
      rw [hW w]; exact .stay _
  | inR o u =>
    have hloc := h.loc t
    rw [hst] at ht w r hloc
    injection ht with h1 h2
    show (Hold.R 0).Next _ _
    have w' : ¬ s.writes = true := by
      cases u with
      | ret r' => injection h2 with h2 h3; subst h2; rw [w]; simp [afterW, Stage.writes]
      | read k' => injection h2 with h2 h3; subst h2; rw [w]; simp [afterW, Stage.writes]
      | write v k' => exact absurd hloc id
    have hwr : c.sh.lock.wr ≠ some t := fun c' => by
      have := (h.wr t).1 c'; rw [hst] at this; cases this
    cases u with
    | ret r' =>
      injection h2 with h2 h3
      subst h2
      cases hs with
      | runlock _ hm =>
        have : s.hold = .no := by
          have o' : ¬ s.owns = true := fun c => hwr (ho.1 c)
          have r' : ¬ s.reads = true := by rw [r]; simp [afterR]
          unfold Stage.hold
          rw [if_neg w', if_neg o', if_neg r']
        rw [this]; exact .runlock 0
    | read k' =>
      injection h2 with h2 h3
      subst h2
      cases hs with
      | read =>
        have : s.hold = .R 0 := by
          have o' : ¬ s.owns = true := fun c => hwr (ho.1 c)
          unfold Stage.hold
          rw [if_neg w', if_neg o', if_pos (show s.reads = true from r)]
        rw [this]; exact .stay _
    | write v k' => exact absurd hloc id

theorem hold_no {stg : Tid → Stage T R} {t : Tid} (hn : (stg t).hold ≠ .no) :
    ∃ op a k, (stg t).thread = .run op (.act a k) := by
  cases hst : stg t with
  | idle => rw [hst] at hn; exact absurd rfl hn
  | before o => rw [hst] at hn; exact absurd rfl hn
  | fin o r => rw [hst] at hn; exact absurd rfl hn
  | announced u => exact ⟨_, _, _, rfl⟩
  | inW o u => cases u <;> exact ⟨_, _, _, rfl⟩
  | inR o u => cases u <;> exact ⟨_, _, _, rfl⟩

/-- The uses of a synchronised value lock as they should. -/
theorem locking {x : T} (ρ : Run (M := mach T) (R := R) body (Config.init (fresh x)))
    (hP : ∀ n t op, ρ.lab n = some (.call t op) → Allowed op)
    (hk : (∀ n t op, ρ.lab n = some (.call t op) → op.isMutex = true) ∨
      ∀ n t op, ρ.lab n = some (.call t op) → op.isMutex = false) : Nonempty (Locking ρ) := by
  have inv : ∀ n, ∃ stg : Tid → Stage T R, (∀ t, (ρ.st n).th t = (stg t).thread) ∧ Inv (ρ.st n).sh stg := by
    intro n
    obtain ⟨stg, h1, h2, -⟩ := stages (ρ.exec_trace n) (fun t op h => by
      obtain ⟨m, -, e⟩ := ρ.mem_trace h
      exact hP m t op e)
    exact ⟨stg, h1, h2⟩
  refine ⟨⟨fun n t => (ρ.st n).sh.lock.hold t, asks, waits, ?_, ?_, ?_, ?_, ?_, ?_, ?_, ?_⟩⟩
  · intro n t h
    obtain ⟨stg, h1, h2⟩ := inv n
    rw [h2.hold] at h
    obtain ⟨op, a, k, e⟩ := hold_no h
    exact ⟨op, a, k, by rw [h1]; exact e⟩
  · intro n t hg
    obtain ⟨stg, h1, h2⟩ := inv n
    have hn := ρ.next n
    cases hl : ρ.lab n with
    | none => rw [hl] at hn; simp only at hn; rw [hn]
    | some l =>
      rw [hl] at hn
      simp only at hn
      have hne : l.isCall = false → l.who ≠ t := fun h1 h2 => hg ⟨l, hl, h2, h1⟩
      revert hn hne
      generalize ρ.st (n + 1) = s'
      intro hn hne
      cases hn with
      | call u op hi => rfl
      | ret u op r hi => rfl
      | act u op a k ans sh' ht hs =>
        obtain ⟨s, e1, e2⟩ := stage_step h2 (by rw [← h1]; exact ht) hs
        rw [e2.inv.hold, h2.hold, upd_other _ _ (show t ≠ u from fun e => hne rfl e.symm)]
  · intro n t hg
    obtain ⟨stg, h1, h2⟩ := inv n
    obtain ⟨l, hl, hw, hc⟩ := hg
    have hn := ρ.next n
    rw [hl] at hn
    simp only at hn
    revert hn
    generalize ρ.st (n + 1) = s'
    intro hn
    cases hn with
    | call u op hi => cases hc
    | ret u op r hi => exact .stay _
    | act u op a k ans sh' ht hs =>
      have : u = t := hw
      subst this
      have ht' : (stg u).thread = .run op (.act a k) := by rw [← h1]; exact ht
      obtain ⟨s, e1, e2⟩ := stage_step h2 ht' hs
      have := hold_next h2 ht' hs e2
      show ((ρ.st n).sh.lock.hold u).Next _ (sh'.lock.hold u)
      rw [e2.inv.hold, h2.hold, upd_same]
      exact this
  · intro n t op a k i e hi
    obtain ⟨stg, h1, h2⟩ := inv n
    rw [h1] at e
    show (ρ.st n).sh.lock.hold t = .no
    rw [h2.hold]
    cases hst : stg t with
    | idle => rfl
    | before o => rfl
    | fin o r => rfl
    | announced u => rw [hst] at e; injection e with _ e; injection e with e _; subst e; cases hi
    | inW o u =>
      rw [hst] at e
      cases u <;> (injection e with _ e; injection e with e _; subst e; cases hi)
    | inR o u =>
      rw [hst] at e
      cases u <;> (injection e with _ e; injection e with e _; subst e; cases hi)
  · intro n t op a k i e hi
    obtain ⟨stg, h1, h2⟩ := inv n
    rw [h1] at e
    show (ρ.st n).sh.lock.hold t = .P i
    rw [h2.hold]
    cases hst : stg t with
    | idle => rw [hst] at e; cases e
    | before o =>
      rw [hst] at e
      cases o <;> (injection e with _ e; injection e with e _; subst e; cases hi)
    | fin o r => rw [hst] at e; injection e with _ e; cases e
    | announced u => rw [hst] at e; injection e with _ e; injection e with e _; subst e; cases hi; rfl
    | inW o u =>
      rw [hst] at e
      cases u <;> (injection e with _ e; injection e with e _; subst e; cases hi)
    | inR o u =>
      rw [hst] at e
      cases u <;> (injection e with _ e; injection e with e _; subst e; cases hi)
  · intro n t op a k e h3 h4
    obtain ⟨stg, h1, h2⟩ := inv n
    have e' := e
    rw [h1] at e'
    have free : asks a = some 0 → (ρ.st n).sh.lock.wr = none := by
      intro ha
      cases hw : (ρ.st n).sh.lock.wr with
      | none => rfl
      | some u => exact absurd (owns_hold hw) (h3 0 ha u)
    refine canGo_act e ?_
    cases hst : stg t with
    | idle => rw [hst] at e'; cases e'
    | fin o r => rw [hst] at e'; injection e' with _ e'; cases e'
    | before o =>
      rw [hst] at e'
      cases o with
      | mutex u =>
        injection e' with e1 e'; injection e' with e' _; subst e' e1
        refine ⟨(), _, .lock _ (free rfl) ?_⟩
        have hcalls : ∀ b, (∀ n t op, ρ.lab n = some (.call t op) → op.isMutex = b) →
            Calls (fun _ op => op.isMutex = b) (ρ.trace n) := fun b hb t op h => by
          obtain ⟨m, -, e⟩ := ρ.mem_trace h
          exact hb m t op e
        rcases hk with hk | hk
        · exact no_readers (ρ.exec_trace n) (hcalls _ hk)
        · have := called (P := fun op => op.isMutex = false) (ρ.exec_trace n) (hcalls _ hk) e
          cases this
      | locked u =>
        injection e' with _ e'; injection e' with e' _; subst e'
        exact ⟨(), _, .lockBegin _ (free rfl)⟩
      | rlocked u =>
        injection e' with _ e'; injection e' with e' _; subst e'
        exact ⟨(), _, .rlock _ (free rfl)⟩
    | announced u =>
      rw [hst] at e'
      injection e' with _ e'; injection e' with e' _; subst e'
      have hw := (h2.wr t).2 (by rw [hst]; rfl)
      refine ⟨(), _, .lockWait _ hw ?_ ?_⟩
      · have := h2.act t hw
        rw [hst] at this
        cases h : (ρ.st n).sh.lock.active with
        | false => rfl
        | true => have := this.1 h; cases this
      · cases hr : (ρ.st n).sh.lock.rd with
        | nil => rfl
        | cons u l =>
          refine absurd ?_ (h4 0 rfl u)
          have hc := h2.cnt u
          rw [hr, List.count_cons_self] at hc
          have hu : (stg u).reads = true := by
            by_cases c : (stg u).reads = true
            · exact c
            · rw [if_neg c] at hc; omega
          show (ρ.st n).sh.lock.hold u = .R 0
          rw [h2.hold]
          cases hsu : stg u with
          | inR o v => rfl
          | _ => rw [hsu] at hu; cases hu
    | inW o u =>
      rw [hst] at e'
      have hw := (h2.wr t).2 (by rw [hst]; rfl)
      have ha := (h2.act t hw).2 (by rw [hst]; rfl)
      cases u with
      | ret r => injection e' with _ e'; injection e' with e' _; subst e'; exact ⟨(), _, .unlock _ hw ha⟩
      | read k' => injection e' with _ e'; injection e' with e' _; subst e'; exact ⟨_, _, .read _⟩
      | write v k' => injection e' with _ e'; injection e' with e' _; subst e'; exact ⟨(), _, .write _ v⟩
    | inR o u =>
      rw [hst] at e'
      have hloc := h2.loc t
      rw [hst] at hloc
      cases u with
      | ret r =>
        injection e' with _ e'; injection e' with e' _; subst e'
        have hc := h2.cnt t
        rw [hst] at hc
        exact ⟨(), _, .runlock _ (List.count_pos_iff.1 (by simp [Stage.reads] at hc; omega))⟩
      | read k' => injection e' with _ e'; injection e' with e' _; subst e'; exact ⟨_, _, .read _⟩
      | write v k' => exact absurd hloc id
  · intro n t u i ht hu
    have h1 := (hold_owns ht).2
    rw [(hold_owns hu).2] at h1
    injection h1 with h1
    exact h1.symm
  · intro n i
    refine ⟨(ρ.st n).sh.lock.rd, fun u hu => ?_⟩
    have hu : (ρ.st n).sh.lock.hold u = .R i := hu
    unfold Lock.hold at hu
    split at hu
    · split at hu <;> cases hu
    · split at hu
      · assumption
      · cases hu

/-- **C128.** Every use of a `Synchronized` or `RWSynchronized` is done in the end, however many others there are, if
every goroutine that can go on again and again does go on. -/
theorem C128_sync {x : T} (ρ : Run (M := mach T) (R := R) body (Config.init (fresh x)))
    (hP : ∀ n t op, ρ.lab n = some (.call t op) → Allowed op)
    (hk : (∀ n t op, ρ.lab n = some (.call t op) → op.isMutex = true) ∨
      ∀ n t op, ρ.lab n = some (.call t op) → op.isMutex = false) (hf : ∀ t, ρ.Strong t) (n : Nat) (t : Tid) (op : Op T R)
    (hc : ρ.lab n = some (.call t op)) : ∃ m r, n < m ∧ ρ.lab m = some (.ret t op r) := by
  obtain ⟨L⟩ := locking ρ hP hk
  obtain ⟨m, r, hm, e⟩ := L.returns hf (n + 1) t op (body op) (ρ.begins hc)
  exact ⟨m, r, hm, e⟩

/-! ## An execution -/

/-- Both use the value and do nothing with it. -/
abbrev rop : Op Nat Unit := .rlocked (.ret ())
@[inherit_doc rop] abbrev wop : Op Nat Unit := .locked (.ret ())

/-- Goroutine 0 reads, goroutine 1 writes, again and again; the writer has to wait for the reader. -/
def turns : Nat → Config (mach Nat) (Op Nat Unit) Unit
  | 0 => ⟨⟨5, none, false, []⟩, pairTh .idle .idle⟩
  | 1 => ⟨⟨5, none, false, []⟩, pairTh (.run rop (body rop)) .idle⟩
  | 2 => ⟨⟨5, none, false, [0]⟩, pairTh (.run rop (.act .runlock fun _ => .ret ())) .idle⟩
  | 3 => ⟨⟨5, none, false, [0]⟩, pairTh (.run rop (.act .runlock fun _ => .ret ())) (.run wop (body wop))⟩
  | 4 => ⟨⟨5, some 1, false, [0]⟩, pairTh (.run rop (.act .runlock fun _ => .ret ()))
      (.run wop (.act .lockWait fun _ => .act .unlock fun _ => .ret ()))⟩
  | 5 => ⟨⟨5, some 1, false, []⟩, pairTh (.run rop (.ret ()))
      (.run wop (.act .lockWait fun _ => .act .unlock fun _ => .ret ()))⟩
  | 6 => ⟨⟨5, some 1, false, []⟩, pairTh .idle (.run wop (.act .lockWait fun _ => .act .unlock fun _ => .ret ()))⟩
  | 7 => ⟨⟨5, some 1, true, []⟩, pairTh .idle (.run wop (.act .unlock fun _ => .ret ()))⟩
  | 8 => ⟨⟨5, none, false, []⟩, pairTh .idle (.run wop (.ret ()))⟩
  | _ => ⟨⟨5, none, false, []⟩, pairTh .idle .idle⟩

/-- What they do. -/
def taking : Nat → Lab Nat Unit
  | 0 => .call 0 rop
  | 1 => .act 0 .rlock ()
  | 2 => .call 1 wop
  | 3 => .act 1 .lockBegin ()
  | 4 => .act 0 .runlock ()
  | 5 => .ret 0 rop ()
  | 6 => .act 1 .lockWait ()
  | 7 => .act 1 .unlock ()
  | _ => .ret 1 wop ()

theorem turns_step : ∀ i, i < 8 + 1 → Step (M := mach Nat) body (turns i) (taking i) (turns (i + 1))
  | 0, _ => (Step.call (M := mach Nat) (body := body) (c := turns 0) 0 rop rfl).to rfl (upd_pair0 _ _ _)
  | 1, _ => (Step.act (M := mach Nat) (body := body) (c := turns 1) 0 rop (Act.rlock) _ () _ rfl (.rlock _ rfl)).to rfl (upd_pair0 _ _ _)
  | 2, _ => (Step.call (M := mach Nat) (body := body) (c := turns 2) 1 wop rfl).to rfl (upd_pair1 _ _ _)
  | 3, _ => (Step.act (M := mach Nat) (body := body) (c := turns 3) 1 wop (Act.lockBegin) _ () _ rfl (.lockBegin _ rfl)).to rfl (upd_pair1 _ _ _)
  | 4, _ => (Step.act (M := mach Nat) (body := body) (c := turns 4) 0 rop (Act.runlock) _ () _ rfl (.runlock _ (List.mem_singleton.2 rfl))).to rfl (upd_pair0 _ _ _)
  | 5, _ => (Step.ret (M := mach Nat) (body := body) (c := turns 5) 0 rop () rfl).to rfl (upd_pair0 _ _ _)
  | 6, _ => (Step.act (M := mach Nat) (body := body) (c := turns 6) 1 wop (Act.lockWait) _ () _ rfl (.lockWait _ rfl rfl rfl)).to rfl (upd_pair1 _ _ _)
  | 7, _ => (Step.act (M := mach Nat) (body := body) (c := turns 7) 1 wop (Act.unlock) _ () _ rfl (.unlock _ rfl rfl)).to rfl (upd_pair1 _ _ _)
  | 8, _ => (Step.ret (M := mach Nat) (body := body) (c := turns 8) 1 wop () rfl).to rfl (upd_pair1 _ _ _)
  | n + 9, h => by omega

/-- An endless execution as in `C128_sync`, with waiting and infinitely many calls. -/
example : ∃ ρ : Run (M := mach Nat) (R := Unit) body (Config.init (fresh 5)), (∀ t, ρ.Strong t) ∧
    (∀ n t op, ρ.lab n = some (.call t op) → Allowed op) ∧ (∀ n t op, ρ.lab n = some (.call t op) → op.isMutex = false) ∧
    ∀ n, ∃ m, n ≤ m ∧ ρ.lab m = some (.call 1 wop) := by
  have e0 : turns 0 = Config.init (M := mach Nat) (fresh 5) := by
    show (⟨_, pairTh .idle .idle⟩ : Config (mach Nat) (Op Nat Unit) Unit) = _
    rw [pair_idle]; rfl
  rw [← e0]
  have hcall : ∀ i t op, taking i = .call t op → op = rop ∨ op = wop := by
    intro i t op h
    rcases i with _ | _ | _ | _ | _ | _ | _ | _ | i <;> first | (cases h; done) | (injection h with _ h; simp [← h])
  refine ⟨.loop 8 turns taking turns_step rfl, fun t n h => ?_, fun n t op h => ?_, fun n t op h => ?_,
    fun n => ⟨9 * n + 2, by omega, ?_⟩⟩
  · by_cases h0 : t = 0
    · subst h0
      refine ⟨9 * n + 1, by omega, .act 0 .rlock (), ?_, rfl, rfl⟩
      show some (taking ((9 * n + 1) % 9)) = _
      rw [show (9 * n + 1) % 9 = 1 by omega]
      rfl
    · by_cases h1 : t = 1
      · subst h1
        refine ⟨9 * n + 3, by omega, .act 1 .lockBegin (), ?_, rfl, rfl⟩
        show some (taking ((9 * n + 3) % 9)) = _
        rw [show (9 * n + 3) % 9 = 3 by omega]
        rfl
      · obtain ⟨k, -, hc⟩ := h n (Nat.le_refl n)
        refine absurd hc (not_canGo_idle ?_)
        show (turns (k % 9)).th t = .idle
        generalize k % 9 = i
        rcases i with _ | _ | _ | _ | _ | _ | _ | _ | _ | i <;> simp [turns, pairTh, h0, h1]
  · injection h with h
    rcases hcall _ t op h with rfl | rfl <;> trivial
  · injection h with h
    rcases hcall _ t op h with rfl | rfl <;> rfl
  · show some (taking ((9 * n + 2) % 9)) = _
    rw [show (9 * n + 2) % 9 = 2 by omega]
    rfl

end Verif.Xsync
