import Verif.Xsync.SyncLemmas

/-!
# Properties of `Synchronized` and `RWSynchronized` (C64)
-/

set_option linter.unusedSectionVars false

namespace Verif.Xsync

open Verif.Conc

variable {T R : Type}

/-- What happens. -/
abbrev Lab (T R : Type) := Label (mach T) (Op T R) R

/-- Goroutine `t` is between `Lock` and `Unlock`: its `Lock` (of a `RWMutex`: the end of it) comes after its last
`Unlock`. -/
def Holds (tr : List (Lab T R)) (t : Tid) : Prop :=
  ∃ a b, tr = a ++ b ∧ (∃ a' : List (Lab T R), a = a' ++ [.act t .lock ()] ∨ a = a' ++ [.act t .lockWait ()]) ∧ .act t .unlock () ∉ b

/-- Goroutine `t` is between `RLock` and `RUnlock`. -/
def RHolds (tr : List (Lab T R)) (t : Tid) : Prop :=
  ∃ a b, tr = a ++ b ∧ (∃ a' : List (Lab T R), a = a' ++ [.act t .rlock ()]) ∧ .act t .runlock () ∉ b

theorem holds_snoc (tr : List (Lab T R)) (l : Lab T R) (t : Tid) :
    Holds (tr ++ [l]) t ↔ (l = .act t .lock () ∨ l = .act t .lockWait ()) ∨ (Holds tr t ∧ l ≠ .act t .unlock ()) := by
  constructor
  · rintro ⟨a, b, e, ⟨a', ha⟩, hb⟩
    rcases List.eq_nil_or_concat b with rfl | ⟨b', x, rfl⟩
    · rw [List.append_nil] at e
      subst e
      rcases ha with ha | ha <;>
        · have := (List.append_inj' ha rfl).2
          injection this with this
          subst this
          simp
    · rw [List.concat_eq_append, ← List.append_assoc] at e
      obtain ⟨e1, e2⟩ := List.append_inj' e rfl
      injection e2 with e2
      subst e2 e1
      simp only [List.concat_eq_append, List.mem_append, not_or] at hb
      exact Or.inr ⟨⟨a, b', rfl, ⟨a', ha⟩, hb.1⟩, fun e => hb.2 (by simp [e])⟩
  · rintro (h | ⟨⟨a, b, rfl, ha, hb⟩, hl⟩)
    · exact ⟨tr ++ [l], [], by simp, ⟨tr, by rcases h with rfl | rfl <;> simp⟩, by simp⟩
    · refine ⟨a, b ++ [l], by simp, ha, ?_⟩
      simp only [List.mem_append, List.mem_singleton, not_or]
      exact ⟨hb, fun e => hl e.symm⟩

theorem rholds_snoc (tr : List (Lab T R)) (l : Lab T R) (t : Tid) :
    RHolds (tr ++ [l]) t ↔ l = .act t .rlock () ∨ (RHolds tr t ∧ l ≠ .act t .runlock ()) := by
  constructor
  · rintro ⟨a, b, e, ⟨a', ha⟩, hb⟩
    rcases List.eq_nil_or_concat b with rfl | ⟨b', x, rfl⟩
    · rw [List.append_nil] at e
      subst e
      have := (List.append_inj' ha rfl).2
      injection this with this
      subst this
      simp
    · rw [List.concat_eq_append, ← List.append_assoc] at e
      obtain ⟨e1, e2⟩ := List.append_inj' e rfl
      injection e2 with e2
      subst e2 e1
      simp only [List.concat_eq_append, List.mem_append, not_or] at hb
      exact Or.inr ⟨⟨a, b', rfl, ⟨a', ha⟩, hb.1⟩, fun e => hb.2 (by simp [e])⟩
  · rintro (h | ⟨⟨a, b, rfl, ha, hb⟩, hl⟩)
    · exact ⟨tr ++ [l], [], by simp, ⟨tr, by subst h; simp⟩, by simp⟩
    · refine ⟨a, b ++ [l], by simp, ha, ?_⟩
      simp only [List.mem_append, List.mem_singleton, not_or]
      exact ⟨hb, fun e => hl e.symm⟩

theorem not_holds_nil (t : Tid) : ¬ Holds ([] : List (Lab T R)) t := by
  rintro ⟨a, b, e, ⟨a', ha⟩, -⟩
  have := (List.append_eq_nil_iff.1 e.symm).1
  rw [this] at ha
  simp at ha

theorem not_rholds_nil (t : Tid) : ¬ RHolds ([] : List (Lab T R)) t := by
  rintro ⟨a, b, e, ⟨a', ha⟩, -⟩
  have := (List.append_eq_nil_iff.1 e.symm).1
  rw [this] at ha
  simp at ha

theorem holds_act {tr : List (Lab T R)} {t u : Tid} {x : Act T} {ans : Ans x} {b : Bool} (h : Holds tr u ↔ b = true) :
    Holds (tr ++ [.act t x ans]) u ↔ (if u = t then afterW x b else b) = true := by
  rw [holds_snoc, h]
  by_cases c : u = t
  · subst c
    rw [if_pos rfl]
    cases x <;> simp [afterW]
  · rw [if_neg c]
    have c' : t ≠ u := fun e => c e.symm
    simp [c']

theorem rholds_act {tr : List (Lab T R)} {t u : Tid} {x : Act T} {ans : Ans x} {b : Bool} (h : RHolds tr u ↔ b = true) :
    RHolds (tr ++ [.act t x ans]) u ↔ (if u = t then afterR x b else b) = true := by
  rw [rholds_snoc, h]
  by_cases c : u = t
  · subst c
    rw [if_pos rfl]
    cases x <;> simp [afterR]
  · rw [if_neg c]
    have c' : t ≠ u := fun e => c e.symm
    simp [c']

/-- Every reachable state is described by stages, which say who holds the value. -/
theorem stages {x : T} {tr : List (Lab T R)} {c : Config (mach T) (Op T R) R}
    (he : Exec body (Config.init (fresh x)) tr c) (hP : Calls (fun _ op => Allowed op) tr) :
    ∃ stg : Tid → Stage T R, (∀ t, c.th t = (stg t).thread) ∧ Inv c.sh stg ∧
      (∀ t, Holds tr t ↔ (stg t).writes = true) ∧ (∀ t, RHolds tr t ↔ (stg t).reads = true) := by
  induction he with
  | nil =>
    obtain ⟨stg, k1, k2, -⟩ := (sim (R := R) x).start
    have hst : ∀ t, stg t = .idle := fun t => thread_idle (by rw [← k1]; rfl)
    refine ⟨stg, k1, k2, fun t => ?_, fun t => ?_⟩
    · rw [hst]; exact ⟨fun h => absurd h (not_holds_nil t), fun h => by cases h⟩
    · rw [hst]; exact ⟨fun h => absurd h (not_rholds_nil t), fun h => by cases h⟩
  | @snoc tr c c' l _ hs ih =>
    obtain ⟨p1, p2⟩ := hP.of_snoc
    obtain ⟨stg, k1, k2, k3, k4⟩ := ih p1
    cases hs with
    | call t op hi =>
      have hst : stg t = .idle := thread_idle (by rw [← k1]; exact hi)
      refine ⟨upd stg t (.before op), th_upd k1 t rfl, ?_, fun u => ?_, fun u => ?_⟩
      · refine k2.stay t _ rfl (by rw [hst]; rfl) (by rw [hst]; rfl) (by rw [hst]; rfl) ?_
        have := p2 t op rfl
        cases op <;> first | trivial | exact this
      · rw [holds_snoc, k3]
        by_cases c : u = t
        · subst c; rw [upd_same, hst]; simp [Stage.writes]
        · rw [upd_other _ _ c]; simp
      · rw [rholds_snoc, k4]
        by_cases c : u = t
        · subst c; rw [upd_same, hst]; simp [Stage.reads]
        · rw [upd_other _ _ c]; simp
    | act t op a k ans sh' ht hst =>
      obtain ⟨s, e1, e2⟩ := stage_step k2 (by rw [← k1]; exact ht) hst
      obtain ⟨w, r, -⟩ := e2.hold
      refine ⟨upd stg t s, th_upd k1 t e1, e2.inv, fun u => ?_, fun u => ?_⟩
      · rw [holds_act (k3 u)]
        by_cases c : u = t
        · subst c; rw [upd_same, if_pos rfl, w]
        · rw [upd_other _ _ c, if_neg c]
      · rw [rholds_act (k4 u)]
        by_cases c : u = t
        · subst c; rw [upd_same, if_pos rfl, r]
        · rw [upd_other _ _ c, if_neg c]
    | ret t op r ht =>
      have hst : stg t = .fin op r := thread_ret (by rw [← k1]; exact ht)
      refine ⟨upd stg t .idle, th_upd k1 t rfl,
        k2.stay t _ rfl (by rw [hst]; rfl) (by rw [hst]; rfl) (by rw [hst]; rfl) trivial, fun u => ?_, fun u => ?_⟩
      · rw [holds_snoc, k3]
        by_cases c : u = t
        · subst c; rw [upd_same, hst]; simp [Stage.writes]
        · rw [upd_other _ _ c]; simp
      · rw [rholds_snoc, k4]
        by_cases c : u = t
        · subst c; rw [upd_same, hst]; simp [Stage.reads]
        · rw [upd_other _ _ c]; simp

/-! ## The properties -/

/-- C64: between a goroutine's `Lock` and `Unlock` no other goroutine holds the value, neither for writing nor for
reading (and it itself not for reading). -/
theorem lock_excludes {x : T} {tr : List (Lab T R)} {c : Config (mach T) (Op T R) R}
    (he : Exec body (Config.init (fresh x)) tr c) (hP : Calls (fun _ op => Allowed op) tr) {t : Tid} (ht : Holds tr t) :
    (∀ u, u ≠ t → ¬ Holds tr u) ∧ ∀ u, ¬ RHolds tr u := by
  obtain ⟨stg, -, k2, k3, k4⟩ := stages he hP
  refine ⟨fun u hu h => ?_, fun u h => ?_⟩
  · exact hu (k2.unique (writes_owns ((k3 u).1 h)) (writes_owns ((k3 t).1 ht)))
  · exact k2.no_reader ((k3 t).1 ht) ((k4 u).1 h)

/-- C64: whoever reads the value holds it, whoever writes it holds it for writing. With `lock_excludes`: there is no
data race. -/
theorem accesses_hold {x : T} {tr : List (Lab T R)} {c : Config (mach T) (Op T R) R} {t : Tid} {y : Act T} {ans : Ans y}
    (he : Exec body (Config.init (fresh x)) (tr ++ [.act t y ans]) c)
    (hP : Calls (fun _ op => Allowed op) (tr ++ [.act t y ans])) :
    (y = .read → Holds tr t ∨ RHolds tr t) ∧ ∀ v, y = .write v → Holds tr t := by
  generalize hl : tr ++ [Label.act t y ans] = l at he hP
  cases he with
  | nil => simp at hl
  | @snoc tr' c' c l he hs =>
    obtain ⟨e1, e2⟩ := List.append_inj' hl rfl
    injection e2 with e2
    subst e1 e2
    obtain ⟨stg, k1, k2, k3, k4⟩ := stages he hP.of_snoc.1
    cases hs with
    | act _ op _ k _ sh' ht hst =>
      obtain ⟨s, -, e2⟩ := stage_step k2 (by rw [← k1]; exact ht) hst
      have n := e2.hold.2.2
      refine ⟨fun e => ?_, fun v e => ?_⟩
      · subst e; rw [k3, k4]; exact n
      · subst e; rw [k3]; exact n

/-- C64: whole critical sections are atomic: the histories are linearizable with respect to an object that does each
section at once. -/
theorem sections_linearizable {x : T} {tr : List (Lab T R)} {c : Config (mach T) (Op T R) R}
    (he : Exec body (Config.init (fresh x)) tr c) (hP : Calls (fun _ op => Allowed op) tr) :
    Linearizable (atomicUse x) (history tr) := (sim x).linearizable he hP

/-- C64: there is no deadlock: as long as somebody is in a call, somebody can take a step. -/
theorem no_deadlock {x : T} {tr : List (Lab T R)} {c : Config (mach T) (Op T R) R}
    (he : Exec body (Config.init (fresh x)) tr c) (hP : Calls (fun _ op => Allowed op) tr) {t : Tid}
    (ht : c.th t ≠ .idle) : ∃ l c', Step body c l c' ∧ ∀ u op, l ≠ .call u op := by
  obtain ⟨stg, k1, k2, -, -⟩ := stages he hP
  have act : ∀ u op a k ans sh', c.th u = .run op (.act a k) → AStep u a c.sh ans sh' →
      ∃ l c', Step body c l c' ∧ ∀ u op, l ≠ .call u op :=
    fun u op a k ans sh' h1 h2 => ⟨_, _, .act u op a k ans sh' h1 h2, fun _ _ e => by cases e⟩
  have inW : ∀ u op v, stg u = .inW op v → ∃ l c', Step body c l c' ∧ ∀ u op, l ≠ .call u op := by
    intro u op v hu
    have h1 := k1 u
    rw [hu] at h1
    have hw := (k2.wr u).2 (by rw [hu]; rfl)
    have ha := (k2.act u hw).2 (by rw [hu]; rfl)
    cases v with
    | ret r => exact act u op _ _ _ _ h1 (.unlock _ hw ha)
    | read k => exact act u op _ _ _ _ h1 (.read _)
    | write w k => exact act u op _ _ _ _ h1 (.write _ w)
  have rd : c.sh.lock.rd ≠ [] → ∃ l c', Step body c l c' ∧ ∀ u op, l ≠ .call u op := by
    intro hrd
    obtain ⟨u, hu⟩ := List.exists_mem_of_ne_nil _ hrd
    have hc := k2.cnt u
    have hp : 0 < c.sh.lock.rd.count u := List.count_pos_iff.2 hu
    have h1 := k1 u
    cases hst : stg u with
    | inR op v =>
      rw [hst] at h1
      have hl := k2.loc u
      rw [hst] at hl
      cases v with
      | ret r => exact act u op _ _ _ _ h1 (.runlock _ hu)
      | read k => exact act u op _ _ _ _ h1 (.read _)
      | write w k => exact absurd hl id
    | _ => rw [hst] at hc; simp [Stage.reads] at hc; omega
  by_cases hrd : c.sh.lock.rd = []
  · cases hw : c.sh.lock.wr with
    | some u =>
      have ho := (k2.wr u).1 hw
      have h1 := k1 u
      cases hst : stg u with
      | inW op v => exact inW u op v hst
      | announced v =>
        rw [hst] at h1
        have ha : c.sh.lock.active = false := by
          have := k2.act u hw
          rw [hst] at this
          cases h : c.sh.lock.active with
          | false => rfl
          | true => have := this.1 h; cases this
        exact act u _ _ _ _ _ h1 (.lockWait _ hw ha hrd)
      | _ => rw [hst] at ho; cases ho
    | none =>
      have h1 := k1 t
      cases hst : stg t with
      | idle => rw [hst] at h1; exact absurd h1 ht
      | before op =>
        rw [hst] at h1
        cases op with
        | mutex u => exact act t _ _ _ _ _ h1 (.lock _ hw hrd)
        | locked u => exact act t _ _ _ _ _ h1 (.lockBegin _ hw)
        | rlocked u => exact act t _ _ _ _ _ h1 (.rlock _ hw)
      | announced u =>
        have := (k2.wr t).2 (by rw [hst]; rfl)
        rw [hw] at this; cases this
      | inW op v => exact inW t op v hst
      | inR op v =>
        have hc := k2.cnt t
        rw [hst, hrd] at hc
        simp [Stage.reads] at hc
      | fin op r =>
        rw [hst] at h1
        exact ⟨_, _, .ret t op r h1, fun _ _ e => by cases e⟩
  · exact rd hrd

/-! ## Counters -/

/-- Replace the value by `f` of it, as in `p := s.Lock(); *p = f(*p); s.Unlock()`. -/
def update (f : T → T) : User T Unit := .read fun x => .write (f x) (.ret ())

/-- Updates by `f`, under either lock, and uses under `RLock` that only read. -/
def Counting (f : T → T) : Op T Unit → Prop
  | .mutex u => u = update f
  | .locked u => u = update f
  | .rlocked u => u.ReadOnly

/-- It is an update. -/
def isUpdate : Op T Unit → Bool
  | .rlocked _ => false
  | _ => true

/-- The calls of updates. -/
def updates (tr : List (Lab T Unit)) : Nat :=
  tr.countP fun | .call _ op => isUpdate op | _ => false

theorem mem_history {M : Machine} {Op R : Type} : ∀ {tr : List (Label M Op R)} {i : Nat} {t : Tid} {op : Op},
    (history tr)[i]? = some (.inv t op) → .call t op ∈ tr
  | [], _, _, _, h => by cases h
  | .call t op :: tr, 0, _, _, h => by
    simp only [history, List.getElem?_cons_zero, Option.some.injEq, Event.inv.injEq] at h
    obtain ⟨rfl, rfl⟩ := h
    simp
  | .call t op :: tr, i + 1, _, _, h => by
    simp only [history, List.getElem?_cons_succ] at h
    exact List.mem_cons_of_mem _ (mem_history h)
  | .act _ _ _ :: tr, i, _, _, h => List.mem_cons_of_mem _ (mem_history (tr := tr) h)
  | .ret _ _ _ :: tr, 0, _, _, h => by simp [history] at h
  | .ret _ _ _ :: tr, i + 1, _, _, h => by
    simp only [history, List.getElem?_cons_succ] at h
    exact List.mem_cons_of_mem _ (mem_history h)

/-- Positions of the invocations of updates in a history, counted from `n`. -/
def positions : Nat → List (Event (Op T Unit) Unit) → List Nat
  | _, [] => []
  | n, .inv _ op :: H => if isUpdate op then n :: positions (n + 1) H else positions (n + 1) H
  | n, .ret _ _ :: H => positions (n + 1) H

theorem positions_ge : ∀ {n i : Nat} {H : List (Event (Op T Unit) Unit)}, i ∈ positions n H → n ≤ i
  | _, _, [], h => by cases h
  | n, i, .inv _ op :: H, h => by
    simp only [positions] at h
    split at h
    · rcases List.mem_cons.1 h with rfl | h
      · exact Nat.le_refl _
      · have := positions_ge h; omega
    · have := positions_ge h; omega
  | n, i, .ret _ _ :: H, h => by have := positions_ge (H := H) h; omega

theorem positions_nodup : ∀ (n : Nat) (H : List (Event (Op T Unit) Unit)), (positions n H).Nodup
  | _, [] => List.nodup_nil
  | n, .inv _ op :: H => by
    simp only [positions]
    split
    · exact List.nodup_cons.2 ⟨fun h => by have := positions_ge h; omega, positions_nodup _ H⟩
    · exact positions_nodup _ H
  | n, .ret _ _ :: H => positions_nodup (n + 1) H

theorem mem_positions : ∀ {n i : Nat} {H : List (Event (Op T Unit) Unit)},
    n + i ∈ positions n H ↔ ∃ t op, H[i]? = some (.inv t op) ∧ isUpdate op = true
  | n, i, [] => by simp [positions]
  | n, 0, .inv t op :: H => by
    have hn : n ∉ positions (n + 1) H := fun h => by have := positions_ge h; omega
    simp only [positions, Nat.add_zero, List.getElem?_cons_zero, Option.some.injEq, Event.inv.injEq]
    split
    · rename_i h
      constructor
      · intro _; exact ⟨t, op, ⟨rfl, rfl⟩, h⟩
      · intro _; simp
    · rename_i h
      constructor
      · intro h; exact absurd h hn
      · rintro ⟨t', op', ⟨rfl, rfl⟩, h'⟩; exact absurd h' h
  | n, i + 1, .inv t op :: H => by
    have ih := mem_positions (n := n + 1) (i := i) (H := H)
    rw [Nat.add_right_comm] at ih
    simp only [positions, List.getElem?_cons_succ]
    rw [← ih]
    split
    · simp [Nat.add_assoc]
    · simp [Nat.add_assoc]
  | n, 0, .ret t op :: H => by
    have hn : n ∉ positions (n + 1) H := fun h => by have := positions_ge h; omega
    simp [positions, hn]
  | n, i + 1, .ret t op :: H => by
    have ih := mem_positions (n := n + 1) (i := i) (H := H)
    rw [Nat.add_right_comm] at ih
    simp only [positions, List.getElem?_cons_succ]
    rw [← ih, Nat.add_assoc]

theorem positions_length : ∀ (n : Nat) (tr : List (Lab T Unit)), (positions n (history tr)).length = updates tr
  | _, [] => rfl
  | n, .call t op :: tr => by
    simp only [history, positions, updates, List.countP_cons]
    split
    · rename_i h; rw [List.length_cons, positions_length]; simp [updates]
    · rename_i h; rw [positions_length]; simp [updates]
  | n, .act t op _ :: tr => by
    simp only [history, updates, List.countP_cons]
    rw [positions_length]; simp [updates]
  | n, .ret t op _ :: tr => by
    simp only [history, positions, updates, List.countP_cons]
    rw [positions_length]; simp [updates]

theorem nodup_length_le : ∀ {l l' : List Nat}, l.Nodup → (∀ x ∈ l, x ∈ l') → l.length ≤ l'.length
  | [], _, _, _ => by simp
  | x :: l, l', h, hs => by
    have hx := hs x (by simp)
    have h' := List.nodup_cons.1 h
    have ih := nodup_length_le (l' := l'.erase x) h'.2 (fun y hy =>
      (List.mem_erase_of_ne (a := y) (b := x) (fun e => h'.1 (e ▸ hy))).2 (hs y (List.mem_cons_of_mem _ hy)))
    rw [List.length_erase_of_mem hx] at ih
    have : 0 < l'.length := List.length_pos_of_mem hx
    simp only [List.length_cons]
    omega

theorem counting_allowed {f : T → T} {op : Op T Unit} (h : Counting f op) : Allowed op := by
  cases op <;> first | trivial | exact h

/-- A sequence of updates and reads: the updates count. -/
theorem run_count {f : T → T} {x : T} {y : (atomicUse (R := Unit) x).St} {l : List (Op T Unit × Unit)}
    (h : (atomicUse x).Run (atomicUse x).init l y) (hl : ∀ p ∈ l, Counting f p.1) :
    y = Nat.repeat f (l.countP fun p => isUpdate p.1) x := by
  induction h with
  | nil => rfl
  | @snoc s1 s2 l op r h hleg ih =>
    have ih := ih (fun p hp => hl p (List.mem_append.2 (Or.inl hp)))
    have hop := hl (op, r) (by simp)
    rw [List.countP_append, List.countP_singleton]
    cases op with
    | mutex u =>
      simp only [Counting] at hop
      subst hop
      have : ((r, s2) : Unit × T) = ((), f s1) := hleg
      injection this with _ e
      rw [e, ih]; rfl
    | locked u =>
      simp only [Counting] at hop
      subst hop
      have : ((r, s2) : Unit × T) = ((), f s1) := hleg
      injection this with _ e
      rw [e, ih]; rfl
    | rlocked u =>
      have h1 : ((r, s2) : Unit × T) = u.run s1 := hleg
      have h2 := readOnly_run hop s1
      rw [← h1] at h2
      simp only at h2
      rw [h2, ih]; rfl

/-- C64: no update is lost. If goroutines do nothing but update the value by `f` under `Lock` and read it under
`RLock`, then when all of them are done the value is `f` applied to the initial value once for each update. -/
theorem no_lost_update (f : T → T) {x : T} {tr : List (Lab T Unit)} {c : Config (mach T) (Op T Unit) Unit}
    (he : Exec body (Config.init (fresh x)) tr c) (hP : Calls (fun _ op => Counting f op) tr)
    (hidle : ∀ t, c.th t = .idle) : c.sh.val = Nat.repeat f (updates tr) x := by
  obtain ⟨a, L, ⟨stg, k1, k2, k3, k4, k5⟩, hb⟩ :=
    (sim x).book he (fun t op h => counting_allowed (hP t op h))
  have hst : ∀ t, stg t = .idle := fun t => thread_idle (by rw [← k1]; exact hidle t)
  have hmem : ∀ i op r, (i, op, r) ∈ L → Counting f op := by
    intro i op r h
    obtain ⟨t, h⟩ := hb.inv i op r h
    exact hP t op (mem_history h)
  have hval := run_count hb.run (f := f) (by
    intro p hp
    obtain ⟨⟨i, op, r⟩, hm, rfl⟩ := List.mem_map.1 hp
    exact hmem i op r hm)
  rw [← k5 (fun t => by rw [hst]; rfl), hval]
  congr 1
  -- the updates in `L` are the updates called
  rw [List.countP_map, List.countP_eq_length_filter]
  rw [← positions_length 0]
  rw [← List.length_map (f := Prod.fst)]
  have nd : ((L.filter fun p => isUpdate p.2.1).map Prod.fst).Nodup :=
    hb.nodup.sublist (List.Sublist.map _ List.filter_sublist)
  refine Nat.le_antisymm (nodup_length_le nd ?_) (nodup_length_le (positions_nodup _ _) ?_)
  · intro i hi
    obtain ⟨⟨i, op, r⟩, hm, rfl⟩ := List.mem_map.1 hi
    obtain ⟨h1, h2⟩ := List.mem_filter.1 hm
    obtain ⟨t, ht⟩ := hb.inv i op r h1
    have := (mem_positions (n := 0) (i := i) (H := history tr)).2 ⟨t, op, ht, h2⟩
    rwa [Nat.zero_add] at this
  · intro i hi
    have := mem_positions (n := 0) (i := i) (H := history tr)
    rw [Nat.zero_add] at this
    obtain ⟨t, op, h1, h2⟩ := this.1 hi
    rcases hb.comp i t op h1 with ⟨r, hm⟩ | ⟨hp, -⟩
    · exact List.mem_map.2 ⟨(i, op, r), List.mem_filter.2 ⟨hm, h2⟩, rfl⟩
    · rw [k3, hst] at hp; cases hp

/-! ## The hypotheses can be met -/

/-- Some outcome of an action. -/
def outcome (t : Tid) : (a : Act Nat) → Sh Nat → Option (Ans a × Sh Nat)
  | .lock, σ => if σ.lock.wr = none ∧ σ.lock.rd = [] then some ((), { σ with lock := { σ.lock with wr := some t, active := true } }) else none
  | .lockBegin, σ => if σ.lock.wr = none then some ((), { σ with lock := { σ.lock with wr := some t, active := false } }) else none
  | .lockWait, σ => if σ.lock.wr = some t ∧ σ.lock.active = false ∧ σ.lock.rd = [] then some ((), { σ with lock := { σ.lock with active := true } }) else none
  | .unlock, σ => if σ.lock.wr = some t ∧ σ.lock.active = true then some ((), { σ with lock := { σ.lock with wr := none, active := false } }) else none
  | .rlock, σ => if σ.lock.wr = none then some ((), { σ with lock := { σ.lock with rd := t :: σ.lock.rd } }) else none
  | .runlock, σ => if t ∈ σ.lock.rd then some ((), { σ with lock := { σ.lock with rd := σ.lock.rd.erase t } }) else none
  | .read, σ => some (σ.val, σ)
  | .write v, σ => some ((), { σ with val := v })

theorem outcome_step (t : Tid) (a : Act Nat) (σ : Sh Nat) (ans : Ans a) (σ' : Sh Nat)
    (h : outcome t a σ = some (ans, σ')) : AStep t a σ ans σ' := by
  cases a <;> simp only [outcome, Option.ite_none_right_eq_some] at h
  case lock => obtain ⟨h1, h2⟩ := h; injection h2 with h2; injection h2 with h3 h4; subst h3 h4; exact .lock σ h1.1 h1.2
  case lockBegin => obtain ⟨h1, h2⟩ := h; injection h2 with h2; injection h2 with h3 h4; subst h3 h4; exact .lockBegin σ h1
  case lockWait => obtain ⟨h1, h2⟩ := h; injection h2 with h2; injection h2 with h3 h4; subst h3 h4; exact .lockWait σ h1.1 h1.2.1 h1.2.2
  case unlock => obtain ⟨h1, h2⟩ := h; injection h2 with h2; injection h2 with h3 h4; subst h3 h4; exact .unlock σ h1.1 h1.2
  case rlock => obtain ⟨h1, h2⟩ := h; injection h2 with h2; injection h2 with h3 h4; subst h3 h4; exact .rlock σ h1
  case runlock => obtain ⟨h1, h2⟩ := h; injection h2 with h2; injection h2 with h3 h4; subst h3 h4; exact .runlock σ h1
  case read => injection h with h2; injection h2 with h3 h4; subst h3 h4; exact .read σ
  case write => injection h with h2; injection h2 with h3 h4; subst h3 h4; exact .write σ _

/-- Read the value and forget it. -/
def peek : User Nat Unit := .read fun _ => .ret ()

/-- A schedule of three goroutines, among them a writer that waits for a reader. -/
def sched : List (Conc.Go (Op Nat Unit)) :=
  [.call 0 (.locked (update (· + 1))), .call 1 (.rlocked peek), .call 2 (.locked (update (· + 1))),
   .act 1, .act 0, .act 1, .act 1, .ret 1, .act 0, .act 0, .act 0, .act 0, .ret 0,
   .act 2, .act 2, .act 2, .act 2, .act 2, .ret 2]

/-- Follow it. -/
def played (n : Nat) := followAll (M := mach Nat) (R := Unit) body outcome (sched.take n) (Config.init (fresh 5))

example : ∃ ls cs c, played 19 = some (ls, cs, c) ∧ c.sh.val = 7 := ⟨_, _, _, rfl, rfl⟩

/-- Two updates and a read by three goroutines; the value grows by two. -/
example : ∃ tr c, Exec body (Config.init (fresh 5)) tr c ∧ Calls (fun _ op => Counting (· + 1) op) tr ∧
    (∀ t, c.th t = .idle) ∧ updates tr = 2 ∧ c.sh.val = 7 := by
  have hp : ∃ ls cs c, played 19 = some (ls, cs, c) := ⟨_, _, _, rfl⟩
  obtain ⟨ls, cs, c, h⟩ := hp
  refine ⟨ls, c, followAll_exec outcome_step h, ?_, ?_⟩
  · cases h
    intro t op hm
    simp at hm
    rcases hm with ⟨-, rfl⟩ | ⟨-, rfl⟩ | ⟨-, rfl⟩
    · rfl
    · exact fun _ => trivial
    · rfl
  · cases h
    refine ⟨fun t => ?_, rfl, rfl⟩
    match t with
    | 0 => rfl
    | 1 => rfl
    | 2 => rfl
    | n + 3 => simp [upd, Config.init]

/-- Somebody is between `Lock` and `Unlock`. -/
example : ∃ (tr : List (Lab Nat Unit)) (c : _), Exec body (Config.init (fresh 5)) tr c ∧
    Calls (fun _ op => Allowed op) tr ∧ Holds tr 0 := by
  have hp : ∃ ls cs c, played 9 = some (ls, cs, c) := ⟨_, _, _, rfl⟩
  obtain ⟨ls, cs, c, h⟩ := hp
  refine ⟨ls, c, followAll_exec outcome_step h, ?_, ?_⟩
  · cases h
    intro t op hm
    simp at hm
    rcases hm with ⟨-, rfl⟩ | ⟨-, rfl⟩ | ⟨-, rfl⟩
    · trivial
    · exact fun _ => trivial
    · trivial
  · cases h
    exact ⟨_, [], (List.append_nil _).symm, ⟨[_, _, _, _, _, _, _, _], Or.inr rfl⟩, by simp⟩

end Verif.Xsync
