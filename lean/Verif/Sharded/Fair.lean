import Verif.Conc.Fair
import Verif.Sharded.Props

/-!
# C128: no call on a sharded map starves
-/

set_option linter.unusedSectionVars false

namespace Verif.Sharded

open Verif.Conc Verif.GoMap

variable {K V : Type} [DecidableEq K] [Inhabited V]

/-- The locks determine who holds what. -/
theorem LockInv.determined {lock : Nat → RW} {h h' : Tid → Held} (L : LockInv lock h) (L' : LockInv lock h') : h = h' := by
  funext t
  have key : ∀ {h h' : Tid → Held}, LockInv lock h → LockInv lock h' → ∀ x, h t = x → x ≠ .no → h' t = x := by
    intro h h' L L' x hx hn
    cases x with
    | no => exact absurd rfl hn
    | R i =>
      have h1 := L.rd i t
      have h2 := L'.rd i t
      rw [hx, if_pos rfl] at h1
      rw [h1] at h2
      by_cases c : h' t = .R i
      · exact c
      · rw [if_neg c] at h2; omega
    | P i =>
      rcases (L'.wr i t).1 ((L.wr i t).2 (Or.inl hx)) with c | c
      · exact c
      · have h1 := L.actP i t hx
        rw [(L'.actW i t c).1] at h1
        cases h1
    | W i =>
      rcases (L'.wr i t).1 ((L.wr i t).2 (Or.inr hx)) with c | c
      · have h1 := (L.actW i t hx).1
        rw [L'.actP i t c] at h1
        cases h1
      · exact c
  by_cases c : h t = .no
  · by_cases c' : h' t = .no
    · rw [c, c']
    · exact (key L' L (h' t) rfl c')
  · exact (key L L' (h t) rfl c).symm

/-- In the terms of Conc/Fair.lean. -/
def Held.hold : Held → Hold
  | .no => .no
  | .R i => .R i
  | .P i => .P i
  | .W i => .W i

theorem hold_owns {h : Held} {i : Nat} : h.hold.Owns i ↔ h = .P i ∨ h = .W i := by
  cases h <;> simp [Held.hold, Hold.Owns]

theorem hold_R {h : Held} {i : Nat} : h.hold = .R i ↔ h = .R i := by cases h <;> simp [Held.hold]
theorem hold_no {h : Held} : h.hold = .no ↔ h = .no := by cases h <;> simp [Held.hold]

/-- The lock an action asks for. -/
def asks : Act K V → Option Nat
  | .lockBegin i => some i
  | .rlock i => some i
  | _ => none

/-- The lock whose readers it waits for. -/
def waits : Act K V → Option Nat
  | .lockWait i => some i
  | _ => none

/-- Taking an action in order. -/
theorem hold_next {σ σ' : Sh K V} {held : Tid → Held} (L : LockInv σ.lock held) {t : Tid} {a : Act K V} {ans : Ans a} {h' : Held}
    (hs : AStep t a σ ans σ') (hh : heldAfter (held t) a = some h') :
    (held t).hold.Next (fun u => (held u).hold) h'.hold := by
  have free : ∀ i, (σ.lock i).wr = none → ∀ u, ¬ (held u).hold.Owns i := by
    intro i hi u hu
    rw [hold_owns] at hu
    have := (L.wr i u).2 hu
    rw [hi] at this; cases this
  have keep : heldAfter (held t) a = some (held t) → (held t).hold.Next (fun u => (held u).hold) h'.hold := by
    intro e
    rw [e] at hh
    injection hh with hh
    rw [← hh]; exact .stay _
  cases hs with
  | lockBegin _ i hn =>
    obtain ⟨h0, rfl⟩ := heldAfter_lockBegin hh
    rw [h0]; exact .announce i (free i hn)
  | lockWait _ i _ _ _ =>
    obtain ⟨h0, rfl⟩ := heldAfter_lockWait hh
    rw [h0]; exact .enter i
  | unlock _ i _ _ =>
    obtain ⟨h0, rfl⟩ := heldAfter_unlock hh
    rw [h0]; exact .unlock i
  | rlock _ i hn =>
    obtain ⟨h0, rfl⟩ := heldAfter_rlock hh
    rw [h0]; exact .rlock i (free i hn)
  | runlock _ i _ =>
    obtain ⟨h0, rfl⟩ := heldAfter_runlock hh
    rw [h0]; exact .runlock i
  | read => exact keep (by cases held t <;> rfl)
  | write => exact keep (by cases held t <;> rfl)
  | factory => exact keep (by cases held t <;> rfl)
  | callback => exact keep (by cases held t <;> rfl)
  | edit => exact keep (by cases held t <;> rfl)
  | order => exact keep (by cases held t <;> rfl)

/-- The state of the locks at every moment. -/
theorem held_run {c : Conf K} (ρ : Run (M := mach K V) (body c) (Config.init fresh)) :
    ∃ H : Nat → Tid → Held, ∀ n, LockInv (ρ.st n).sh.lock (H n) ∧
      (∀ t, match (ρ.st n).th t with | .idle => H n t = .no | .run _ p => Disc .any (H n t) p) :=
  Classical.skolem.1 fun n => by
    obtain ⟨tr, he⟩ := ρ.exec n
    exact discInv (acc := .any) (by decide) he (fun _ _ _ e => by cases e)

/-- The calls on a sharded map lock as they should. -/
theorem locking {c : Conf K} (ρ : Run (M := mach K V) (body c) (Config.init fresh)) : Nonempty (Locking ρ) := by
  obtain ⟨H, hH⟩ := held_run ρ
  have step : ∀ n, (∀ t a ans, ρ.lab n = some (.act t a ans) → ∃ h', heldAfter (H n t) a = some h' ∧ H (n + 1) = upd (H n) t h' ∧
      AStep t a (ρ.st n).sh ans (ρ.st (n + 1)).sh) ∧ ((∀ t a ans, ρ.lab n ≠ some (.act t a ans)) → H (n + 1) = H n) := by
    intro n
    have hn := ρ.next n
    obtain ⟨L, D⟩ := hH n
    obtain ⟨L', -⟩ := hH (n + 1)
    cases hl : ρ.lab n with
    | none =>
      rw [hl] at hn
      simp only at hn
      rw [hn] at L'
      exact ⟨fun t a ans e => (by cases e), fun _ => L'.determined L⟩
    | some l =>
      rw [hl] at hn
      simp only at hn
      revert hn L'
      generalize ρ.st (n + 1) = s'
      intro L' hn
      cases hn with
      | call t op hi => exact ⟨fun t a ans e => (by cases e), fun _ => L'.determined L⟩
      | ret t op r h1 => exact ⟨fun t a ans e => (by cases e), fun _ => L'.determined L⟩
      | act t op a k ans sh' h1 h2 =>
        refine ⟨fun t' a' ans' e => ?_, fun h => absurd rfl (h t a ans)⟩
        injection e with e
        injection e with e1 e2 e3
        subst e1 e2
        cases e3
        have hd := D t
        rw [h1] at hd
        obtain ⟨h', hh, -, -⟩ := hd
        exact ⟨h', hh, L'.determined (L.step h2 hh), h2⟩
  refine ⟨⟨fun n t => (H n t).hold, asks, waits, ?_, ?_, ?_, ?_, ?_, ?_, ?_, ?_⟩⟩
  · intro n t h
    obtain ⟨a, h', ⟨op, k, e⟩, -⟩ := next_of_held (hH n).2 (t := t) fun e => h (hold_no.2 e)
    exact ⟨op, a, k, e⟩
  · intro n t hg
    show (H (n + 1) t).hold = (H n t).hold
    by_cases c : ∃ t a ans, ρ.lab n = some (.act t a ans)
    · obtain ⟨u, a, ans, e⟩ := c
      obtain ⟨h', -, e2, -⟩ := (step n).1 u a ans e
      rw [e2, upd_other]
      rintro rfl
      exact hg ⟨_, e, rfl, rfl⟩
    · rw [(step n).2 fun t a ans e => c ⟨t, a, ans, e⟩]
  · rintro n t ⟨l, hl, hw, hc⟩
    show (H n t).hold.Next _ (H (n + 1) t).hold
    cases l with
    | call u op => cases hc
    | ret u op r =>
      rw [(step n).2 fun t a ans e => by rw [hl] at e; cases e]
      exact .stay _
    | act u a ans =>
      have : u = t := hw
      subst this
      obtain ⟨h', e1, e2, e3⟩ := (step n).1 u a ans hl
      rw [e2, upd_same]
      exact hold_next (hH n).1 e3 e1
  · intro n t op a k i e hi
    have hd := (hH n).2 t
    rw [e] at hd
    obtain ⟨h', hh, -, -⟩ := hd
    show (H n t).hold = .no
    cases a <;> simp only [asks, Option.some.injEq, reduceCtorEq] at hi
    · rw [(heldAfter_lockBegin hh).1]; rfl
    · rw [(heldAfter_rlock hh).1]; rfl
  · intro n t op a k i e hi
    have hd := (hH n).2 t
    rw [e] at hd
    obtain ⟨h', hh, -, -⟩ := hd
    show (H n t).hold = .P i
    cases a <;> simp only [waits, Option.some.injEq, reduceCtorEq] at hi
    subst hi
    rw [(heldAfter_lockWait hh).1]; rfl
  · intro n t op a k e h1 h2
    have hd := (hH n).2 t
    rw [e] at hd
    obtain ⟨h', hh, -, -⟩ := hd
    have free : ∀ i, asks a = some i → ((ρ.st n).sh.lock i).wr = none := by
      intro i hi
      cases hw : ((ρ.st n).sh.lock i).wr with
      | none => rfl
      | some u => exact absurd (hold_owns.2 (((hH n).1.wr i u).1 hw)) (h1 i hi u)
    refine canGo_act e (can_step (hH n).1 hh (fun i hi => free i (by rw [hi]; rfl)) ?_ (fun i hi => free i (by rw [hi]; rfl)))
    rintro i rfl
    cases hr : ((ρ.st n).sh.lock i).rd with
    | nil => rfl
    | cons u l =>
      have := (hH n).1.rd i u
      rw [hr, List.count_cons_self] at this
      by_cases c : H n u = .R i
      · exact absurd (hold_R.2 c) (h2 i rfl u)
      · rw [if_neg c] at this; omega
  · intro n t u i ht hu
    exact (hH n).1.unique (hold_owns.1 ht) (hold_owns.1 hu)
  · intro n i
    refine ⟨((ρ.st n).sh.lock i).rd, fun u hu => ?_⟩
    have := (hH n).1.rd i u
    rw [hold_R.1 hu, if_pos rfl] at this
    exact List.count_pos_iff.1 (by omega)

/-- **C128.** However many calls others begin: if every goroutine that can go on again and again does go on, every call
on a sharded map returns. -/
theorem C128_sharded (c : Conf K) (ρ : Run (M := mach K V) (body c) (Config.init fresh)) (hf : ∀ t, ρ.Strong t) (n : Nat) (t : Tid)
    (op : Op K V) (hc : ρ.lab n = some (.call t op)) : ∃ m r, n < m ∧ ρ.lab m = some (.ret t op r) := by
  obtain ⟨L⟩ := locking ρ
  obtain ⟨m, r, hm, e⟩ := L.returns hf (n + 1) t op (body c op) (ρ.begins hc)
  exact ⟨m, r, hm, e⟩

end Verif.Sharded

namespace Verif.Sharded.Props

open Verif.Conc Verif.GoMap Verif.Sharded

/-! ## Executions -/

/-- What is left of a `Delete(4)` on a map with one shard: the last step, the last two, three, four. -/
abbrev left1 : P Nat Nat (Res Nat Nat) := .act (.unlock 0) fun _ => .ret .unit
@[inherit_doc left1] abbrev left2 : P Nat Nat (Res Nat Nat) := .act (.write 0 (·.del 4)) fun _ => left1
@[inherit_doc left1] abbrev left3 : P Nat Nat (Res Nat Nat) := .act (.lockWait 0) fun _ => left2
@[inherit_doc left1] abbrev left4 : P Nat Nat (Res Nat Nat) := .act (.lockBegin 0) fun _ => left3

/-- What is left. -/
def left : Nat → P Nat Nat (Res Nat Nat)
  | 0 => .ret .unit
  | 1 => left1
  | 2 => left2
  | 3 => left3
  | _ => left4

/-- A goroutine in that call, or idle. -/
def at_ : Option Nat → Thread (mach Nat Nat) (Op Nat Nat) (Res Nat Nat)
  | none => .idle
  | some n => .run (.delete 4) (left n)

/-- Two goroutines and the lock. -/
def duo (x : Bool → Option Nat) (l : RW) : Cfg Nat Nat :=
  ⟨⟨fun _ => [], set1 free 0 l⟩, fun u => if u = 0 then at_ (x false) else if u = 1 then at_ (x true) else .idle⟩

/-- The two goroutines. -/
def num : Bool → Tid
  | false => 0
  | true => 1

/-- Change for one of them. -/
def with_ (x : Bool → Option Nat) (b : Bool) (y : Option Nat) : Bool → Option Nat := fun c => if c = b then y else x c

theorem duo_th (x : Bool → Option Nat) (l : RW) (b : Bool) : (duo x l).th (num b) = at_ (x b) := by cases b <;> rfl

theorem duo_upd (x : Bool → Option Nat) (l l' : RW) (b : Bool) (y : Option Nat) :
    upd (duo x l).th (num b) (at_ y) = (duo (with_ x b y) l').th := by
  funext u
  cases b <;> simp only [duo, num, upd, with_]
  · by_cases h : u = 0 <;> simp [h]
  · by_cases h : u = 0 <;> by_cases h' : u = 1 <;> simp [h, h']

theorem duo_set (x : Bool → Option Nat) (l l' : RW) (b : Bool) (y : Option Nat) :
    (⟨⟨fun _ => [], set1 (duo x l).sh.lock 0 l'⟩, upd (duo x l).th (num b) (at_ y)⟩ : Cfg Nat Nat) =
      duo (with_ x b y) l' := by
  rw [duo_upd x l l']
  simp only [duo, set1_set1]

theorem duo_call (x : Bool → Option Nat) (l : RW) (b : Bool) (h : x b = none) :
    Step (body one) (duo x l) (.call (num b) (.delete 4)) (duo (with_ x b (some 4)) l) := by
  have := Step.call (body := body one) (c := duo x l) (num b) (.delete 4) (by rw [duo_th, h]; rfl)
  have e : (Thread.run (.delete 4) (body one (.delete 4)) : Thread (mach Nat Nat) (Op Nat Nat) (Res Nat Nat)) = at_ (some 4) := rfl
  rw [e, duo_upd x l l] at this
  exact this

theorem duo_ret (x : Bool → Option Nat) (l : RW) (b : Bool) (h : x b = some 0) :
    Step (body one) (duo x l) (.ret (num b) (.delete 4) .unit) (duo (with_ x b none) l) := by
  have := Step.ret (body := body one) (c := duo x l) (num b) (.delete 4) .unit (by rw [duo_th, h]; rfl)
  have e : (Thread.idle : Thread (mach Nat Nat) (Op Nat Nat) (Res Nat Nat)) = at_ none := rfl
  rw [e, duo_upd x l l] at this
  exact this

theorem duo_begin (x : Bool → Option Nat) (b : Bool) (h : x b = some 4) :
    Step (body one) (duo x ⟨none, false, []⟩) (.act (num b) (.lockBegin 0) ()) (duo (with_ x b (some 3)) ⟨some (num b), false, []⟩) := by
  rw [← duo_set x ⟨none, false, []⟩]
  exact Step.act (M := mach Nat Nat) (num b) (Op.delete 4) (Act.lockBegin 0) (fun _ => left 3) () _ (by rw [duo_th, h]; rfl) (.lockBegin _ 0 rfl)

theorem duo_wait (x : Bool → Option Nat) (b : Bool) (h : x b = some 3) :
    Step (body one) (duo x ⟨some (num b), false, []⟩) (.act (num b) (.lockWait 0) ()) (duo (with_ x b (some 2)) ⟨some (num b), true, []⟩) := by
  rw [← duo_set x ⟨some (num b), false, []⟩]
  exact Step.act (M := mach Nat Nat) (num b) (Op.delete 4) (Act.lockWait 0) (fun _ => left 2) () _ (by rw [duo_th, h]; rfl) (.lockWait _ 0 rfl rfl rfl)

theorem duo_write (x : Bool → Option Nat) (l : RW) (b : Bool) (h : x b = some 2) :
    Step (body one) (duo x l) (.act (num b) (.write 0 (·.del 4)) ()) (duo (with_ x b (some 1)) l) := by
  have e : ({ duo x l with th := upd (duo x l).th (num b) (at_ (some 1)) } : Cfg Nat Nat) = duo (with_ x b (some 1)) l := by
    rw [duo_upd x l l]; rfl
  have e2 : set1 (fun _ => ([] : Tab Nat Nat)) 0 (Tab.del [] 4) = fun _ => [] := set1_self (fun _ => []) 0
  have := Step.act (body := body one) (c := duo x l) (num b) (.delete 4) (.write 0 (·.del 4)) (fun _ => left 1) () _
    (by rw [duo_th, h]; rfl) (.write _ 0 _)
  rw [← e]
  refine Eq.mp (congrArg (Step (body one) (duo x l) _) ?_) this
  show (⟨⟨set1 (fun _ => ([] : Tab Nat Nat)) 0 (Tab.del [] 4), _⟩, _⟩ : Cfg Nat Nat) = _
  rw [e2]
  rfl

theorem duo_unlock (x : Bool → Option Nat) (b : Bool) (h : x b = some 1) :
    Step (body one) (duo x ⟨some (num b), true, []⟩) (.act (num b) (.unlock 0) ()) (duo (with_ x b (some 0)) ⟨none, false, []⟩) := by
  rw [← duo_set x ⟨some (num b), true, []⟩]
  exact Step.act (M := mach Nat Nat) (num b) (Op.delete 4) (Act.unlock 0) (fun _ => left 0) () _ (by rw [duo_th, h]; rfl) (.unlock _ 0 rfl rfl)

/-- Where the two are. -/
def pair (x y : Option Nat) : Bool → Option Nat
  | false => x
  | true => y

theorem with_false (x x' y : Option Nat) : with_ (pair x y) false x' = pair x' y := by funext b; cases b <;> rfl
theorem with_true (x y y' : Option Nat) : with_ (pair x y) true y' = pair x y' := by funext b; cases b <;> rfl

/-- Goroutine 0 waits; goroutine 1 deletes again and again. -/
def hungry : Nat → Cfg Nat Nat
  | 0 => duo (pair (some 4) none) ⟨none, false, []⟩
  | 1 => duo (pair (some 4) (some 4)) ⟨none, false, []⟩
  | 2 => duo (pair (some 4) (some 3)) ⟨some 1, false, []⟩
  | 3 => duo (pair (some 4) (some 2)) ⟨some 1, true, []⟩
  | 4 => duo (pair (some 4) (some 1)) ⟨some 1, true, []⟩
  | 5 => duo (pair (some 4) (some 0)) ⟨none, false, []⟩
  | _ => duo (pair (some 4) none) ⟨none, false, []⟩

/-- What goroutine 1 does. -/
def feeding : Nat → Label (mach Nat Nat) (Op Nat Nat) (Res Nat Nat)
  | 0 => .call 1 (.delete 4)
  | 1 => .act 1 (.lockBegin 0) ()
  | 2 => .act 1 (.lockWait 0) ()
  | 3 => .act 1 (.write 0 (·.del 4)) ()
  | 4 => .act 1 (.unlock 0) ()
  | _ => .ret 1 (.delete 4) .unit

theorem hungry_step : ∀ i, i < 5 + 1 → Step (body one) (hungry i) (feeding i) (hungry (i + 1))
  | 0, _ => by have := duo_call (pair (some 4) none) ⟨none, false, []⟩ true rfl; rw [with_true] at this; exact this
  | 1, _ => by have := duo_begin (pair (some 4) (some 4)) true rfl; rw [with_true] at this; exact this
  | 2, _ => by have := duo_wait (pair (some 4) (some 3)) true rfl; rw [with_true] at this; exact this
  | 3, _ => by have := duo_write (pair (some 4) (some 2)) ⟨some 1, true, []⟩ true rfl; rw [with_true] at this; exact this
  | 4, _ => by have := duo_unlock (pair (some 4) (some 1)) true rfl; rw [with_true] at this; exact this
  | 5, _ => by have := duo_ret (pair (some 4) (some 0)) ⟨none, false, []⟩ true rfl; rw [with_true] at this; exact this
  | n + 6, h => by omega

/-- All idle. -/
theorem duo_init : duo (pair none none) ⟨none, false, []⟩ = Config.init (M := mach Nat Nat) fresh := by
  have e : set1 free 0 ⟨none, false, []⟩ = free := set1_free 0
  simp only [duo, e, Config.init, pair, at_, ite_self]
  rfl

/-- Goroutine 0 begins, then the loop. -/
def starving : Run (M := mach Nat Nat) (body one) (Config.init fresh) :=
  .cons (l := .call 0 (.delete 4)) (c' := hungry 0) (by
    have := duo_call (pair none none) ⟨none, false, []⟩ false rfl
    rw [with_false, duo_init] at this
    exact this) (.loop 5 hungry feeding hungry_step rfl)

theorem starving_st (n : Nat) : starving.st (n + 1) = hungry (n % 6) := rfl
theorem starving_lab (n : Nat) : starving.lab (n + 1) = some (feeding (n % 6)) := rfl

/-- Who waits for a lock that is taken cannot go on. -/
theorem no_begin {c : Cfg Nat Nat} {t u : Tid} (h : c.th t = .run (.delete 4) left4) (hl : (c.sh.lock 0).wr = some u) :
    ¬ CanGo (body one) c t := by
  rintro ⟨l, c', hs, hw, hcl⟩
  cases hs with
  | call u op hi => cases hcl
  | act u op a k ans sh' h1 h2 =>
    have : u = t := hw
    subst this
    rw [h] at h1
    injection h1 with e1 e2
    injection e2 with e2 e3
    subst e2
    cases h2 with
    | lockBegin _ _ hn => rw [hl] at hn; cases hn
  | ret u op r h1 =>
    have : u = t := hw
    subst this
    rw [h] at h1
    injection h1 with e1 e2
    cases e2

/-- Fairness of the weaker kind is not enough: goroutine 1 can go on deleting for ever while the `Delete` of goroutine 0
waits, although goroutine 0 is never able to go on for ever without doing so. -/
theorem C128_weak_false : ∃ ρ : Run (M := mach Nat Nat) (body one) (Config.init fresh), (∀ t, ρ.Weak t) ∧
    ρ.lab 0 = some (.call 0 (.delete 4)) ∧ ∀ m r, ρ.lab m ≠ some (.ret 0 (.delete 4) r) := by
  refine ⟨starving, fun t n h => ?_, rfl, fun m r e => ?_⟩
  · by_cases h1 : t = 1
    · subst h1
      refine ⟨6 * n + 2, by omega, .act 1 (.lockBegin 0) (), ?_, rfl, rfl⟩
      rw [starving_lab, show (6 * n + 1) % 6 = 1 by omega]
      rfl
    · exfalso
      have hc := h (6 * n + 4) (by omega)
      rw [starving_st, show (6 * n + 3) % 6 = 3 by omega] at hc
      by_cases h0 : t = 0
      · subst h0
        exact no_begin rfl rfl hc
      · refine not_canGo_idle (t := t) ?_ hc
        simp [hungry, duo, h0, h1]
  · cases m with
    | zero => cases e
    | succ m =>
      rw [starving_lab] at e
      injection e with e
      have : (feeding (m % 6)).who = 0 := by rw [e]; rfl
      revert this
      generalize m % 6 = i
      rcases i with _ | _ | _ | _ | _ | i <;> exact fun h => absurd h (show (1 : Nat) ≠ 0 by decide)

/-- Both delete again and again; goroutine 0 has to wait for goroutine 1 every time. -/
def turns : Nat → Cfg Nat Nat
  | 0 => duo (pair none none) ⟨none, false, []⟩
  | 1 => duo (pair none (some 4)) ⟨none, false, []⟩
  | 2 => duo (pair none (some 3)) ⟨some 1, false, []⟩
  | 3 => duo (pair (some 4) (some 3)) ⟨some 1, false, []⟩
  | 4 => duo (pair (some 4) (some 2)) ⟨some 1, true, []⟩
  | 5 => duo (pair (some 4) (some 1)) ⟨some 1, true, []⟩
  | 6 => duo (pair (some 4) (some 0)) ⟨none, false, []⟩
  | 7 => duo (pair (some 4) none) ⟨none, false, []⟩
  | 8 => duo (pair (some 3) none) ⟨some 0, false, []⟩
  | 9 => duo (pair (some 2) none) ⟨some 0, true, []⟩
  | 10 => duo (pair (some 1) none) ⟨some 0, true, []⟩
  | 11 => duo (pair (some 0) none) ⟨none, false, []⟩
  | _ => duo (pair none none) ⟨none, false, []⟩

/-- What they do. -/
def taking : Nat → Label (mach Nat Nat) (Op Nat Nat) (Res Nat Nat)
  | 0 => .call 1 (.delete 4)
  | 1 => .act 1 (.lockBegin 0) ()
  | 2 => .call 0 (.delete 4)
  | 3 => .act 1 (.lockWait 0) ()
  | 4 => .act 1 (.write 0 (·.del 4)) ()
  | 5 => .act 1 (.unlock 0) ()
  | 6 => .ret 1 (.delete 4) .unit
  | 7 => .act 0 (.lockBegin 0) ()
  | 8 => .act 0 (.lockWait 0) ()
  | 9 => .act 0 (.write 0 (·.del 4)) ()
  | 10 => .act 0 (.unlock 0) ()
  | _ => .ret 0 (.delete 4) .unit

theorem turns_step : ∀ i, i < 11 + 1 → Step (body one) (turns i) (taking i) (turns (i + 1))
  | 0, _ => by have := duo_call (pair none none) ⟨none, false, []⟩ true rfl; rw [with_true] at this; exact this
  | 1, _ => by have := duo_begin (pair none (some 4)) true rfl; rw [with_true] at this; exact this
  | 2, _ => by have := duo_call (pair none (some 3)) ⟨some 1, false, []⟩ false rfl; rw [with_false] at this; exact this
  | 3, _ => by have := duo_wait (pair (some 4) (some 3)) true rfl; rw [with_true] at this; exact this
  | 4, _ => by have := duo_write (pair (some 4) (some 2)) ⟨some 1, true, []⟩ true rfl; rw [with_true] at this; exact this
  | 5, _ => by have := duo_unlock (pair (some 4) (some 1)) true rfl; rw [with_true] at this; exact this
  | 6, _ => by have := duo_ret (pair (some 4) (some 0)) ⟨none, false, []⟩ true rfl; rw [with_true] at this; exact this
  | 7, _ => by have := duo_begin (pair (some 4) none) false rfl; rw [with_false] at this; exact this
  | 8, _ => by have := duo_wait (pair (some 3) none) false rfl; rw [with_false] at this; exact this
  | 9, _ => by have := duo_write (pair (some 2) none) ⟨some 0, true, []⟩ false rfl; rw [with_false] at this; exact this
  | 10, _ => by have := duo_unlock (pair (some 1) none) false rfl; rw [with_false] at this; exact this
  | 11, _ => by have := duo_ret (pair (some 0) none) ⟨none, false, []⟩ false rfl; rw [with_false] at this; exact this
  | n + 12, h => by omega

/-- An endless execution as in `C128_sharded`, with waiting and infinitely many calls. -/
example : ∃ ρ : Run (M := mach Nat Nat) (body one) (Config.init fresh), (∀ t, ρ.Strong t) ∧
    ∀ n, ∃ m, n ≤ m ∧ ρ.lab m = some (.call 0 (.delete 4)) ∧ ¬ CanGo (body one) (ρ.st (m + 1)) 0 := by
  rw [← duo_init]
  refine ⟨.loop 11 turns taking turns_step rfl, fun t n h => ?_, fun n => ⟨12 * n + 2, by omega, ?_, ?_⟩⟩
  · by_cases h0 : t = 0
    · subst h0
      refine ⟨12 * n + 7, by omega, .act 0 (.lockBegin 0) (), ?_, rfl, rfl⟩
      show some (taking ((12 * n + 7) % 12)) = _
      rw [show (12 * n + 7) % 12 = 7 by omega]
      rfl
    · by_cases h1 : t = 1
      · subst h1
        refine ⟨12 * n + 1, by omega, .act 1 (.lockBegin 0) (), ?_, rfl, rfl⟩
        show some (taking ((12 * n + 1) % 12)) = _
        rw [show (12 * n + 1) % 12 = 1 by omega]
        rfl
      · obtain ⟨k, -, hc⟩ := h n (Nat.le_refl n)
        refine absurd hc (not_canGo_idle ?_)
        show (turns (k % 12)).th t = .idle
        generalize k % 12 = i
        rcases i with _ | _ | _ | _ | _ | _ | _ | _ | _ | _ | _ | _ | i <;> simp [turns, duo, h0, h1]
  · show some (taking ((12 * n + 2) % 12)) = _
    rw [show (12 * n + 2) % 12 = 2 by omega]
    rfl
  · show ¬ CanGo (body one) (turns ((12 * n + 2 + 1) % 12)) 0
    rw [show (12 * n + 2 + 1) % 12 = 3 by omega]
    exact no_begin rfl rfl

end Verif.Sharded.Props
