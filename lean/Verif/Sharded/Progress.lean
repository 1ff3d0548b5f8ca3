import Verif.Conc.Term
import Verif.Sharded.Locks

/-!
# No races, no deadlock
-/

set_option linter.unusedSectionVars false

namespace Verif.Sharded

open Verif.Conc Verif.GoMap

variable {K V : Type} [DecidableEq K] [Inhabited V]

/-- The action that goroutine `t` is about to take. -/
def Next (s : Cfg K V) (t : Tid) (a : Act K V) : Prop := ∃ op k, s.th t = .run op (.act a k)

/-- The action accesses the table of shard `i`. -/
def Accesses (i : Nat) : Act K V → Prop
  | .read j => j = i
  | .write j _ => j = i
  | _ => False

/-- Two goroutines are about to access the same table, one to write it. -/
def Race (s : Cfg K V) : Prop :=
  ∃ t u i f b, t ≠ u ∧ Next s t (.write i f) ∧ Next s u b ∧ Accesses i b

theorem held_of_next {acc : Mode} {s : Cfg K V} {held : Tid → Held}
    (H : ∀ t, match s.th t with | .idle => held t = .no | .run _ p => Disc acc (held t) p) {t : Tid} {a : Act K V}
    (h : Next s t a) : (∃ h', heldAfter (held t) a = some h') ∧ Covered acc (held t) a := by
  obtain ⟨op, k, h⟩ := h
  have := H t
  rw [h] at this
  obtain ⟨h', e1, e2, -⟩ := this
  exact ⟨⟨h', e1⟩, e2⟩

/-- A goroutine about to write a table has its lock, and nobody else is inside; one about to read it has it
at least shared. -/
theorem covered_of_inv {s : Cfg K V} (h : DiscInv .cov s) {t : Tid} {a : Act K V} (hn : Next s t a) :
    (∀ i f, a = .write i f → s.sh.lock i = ⟨some t, true, []⟩) ∧
    (∀ i, a = .read i → s.sh.lock i = ⟨some t, true, []⟩ ∨ t ∈ (s.sh.lock i).rd) := by
  obtain ⟨held, L, H⟩ := h
  obtain ⟨-, hc⟩ := held_of_next H hn
  have hW : ∀ i, held t = .W i → s.sh.lock i = ⟨some t, true, []⟩ := by
    intro i hw
    have h1 := (L.wr i t).2 (Or.inr hw)
    obtain ⟨h2, h3⟩ := L.actW i t hw
    cases hl : s.sh.lock i with
    | mk wr active rd =>
      rw [hl] at h1 h2 h3
      simp only at h1 h2 h3
      rw [h1, h2, h3]
  constructor
  · rintro i f rfl
    exact hW i hc
  · rintro i rfl
    rcases hc with hc | hc
    · right
      have hr := L.rd i t
      rw [hc, if_pos rfl] at hr
      exact List.count_pos_iff.1 (by omega)
    · exact Or.inl (hW i hc)

theorem no_race_of_inv {s : Cfg K V} (h : DiscInv .cov s) : ¬ Race s := by
  rintro ⟨t, u, i, f, b, htu, ht, hu, hb⟩
  have h1 := (covered_of_inv h ht).1 i f rfl
  cases b with
  | read j =>
    have : j = i := hb
    subst this
    rcases (covered_of_inv h hu).2 j rfl with h2 | h2
    · rw [h1] at h2; injection h2 with h2; injection h2 with h2; exact htu h2
    · rw [h1] at h2; simp at h2
  | write j g =>
    have : j = i := hb
    subst this
    have h2 := (covered_of_inv h hu).1 j g rfl
    rw [h1] at h2; injection h2 with h2; injection h2 with h2; exact htu h2
  | _ => exact hb

/-! ## Progress -/

/-- Some goroutine in a call can go on. -/
def Unstuck (c : Conf K) (s : Cfg K V) : Prop := ∃ s', InnerStep (body c) s s'

theorem unstuck_of_step {c : Conf K} {s : Cfg K V} {t : Tid} {a : Act K V} (hn : Next s t a)
    (h : ∃ ans σ', AStep t a s.sh ans σ') : Unstuck c s := by
  obtain ⟨op, k, hn⟩ := hn
  obtain ⟨ans, σ', h⟩ := h
  exact ⟨_, _, .act t op a k ans σ' hn h, fun _ _ e => by cases e⟩

/-- Who holds something is in a call and about to do something. -/
theorem next_of_held {s : Cfg K V} {held : Tid → Held}
    (H : ∀ t, match s.th t with | .idle => held t = .no | .run _ p => Disc .any (held t) p) {t : Tid}
    (h : held t ≠ .no) : ∃ a h', Next s t a ∧ heldAfter (held t) a = some h' := by
  have ht := H t
  cases hs : s.th t with
  | idle => rw [hs] at ht; exact absurd ht h
  | run op p =>
    rw [hs] at ht
    cases p with
    | ret r => exact absurd ht h
    | act a k =>
      obtain ⟨h', e1, -, -⟩ := ht
      exact ⟨a, h', ⟨op, k, hs⟩, e1⟩

theorem holder_unstuck {c : Conf K} {s : Cfg K V} {held : Tid → Held} (L : LockInv s.sh.lock held)
    (H : ∀ t, match s.th t with | .idle => held t = .no | .run _ p => Disc .any (held t) p) {t : Tid} {i : Nat}
    (h : held t = .W i ∨ held t = .R i) : Unstuck c s := by
  obtain ⟨a, h', hn, hh⟩ := next_of_held H (t := t) (by rcases h with h | h <;> rw [h] <;> intro e <;> cases e)
  refine unstuck_of_step hn (can_step L hh ?_ ?_ ?_)
  · rintro j rfl
    rw [(heldAfter_lockBegin hh).1] at h
    rcases h with h | h <;> cases h
  · rintro j rfl
    rw [(heldAfter_lockWait hh).1] at h
    rcases h with h | h <;> cases h
  · rintro j rfl
    rw [(heldAfter_rlock hh).1] at h
    rcases h with h | h <;> cases h

theorem readers_unstuck {c : Conf K} {s : Cfg K V} {held : Tid → Held} (L : LockInv s.sh.lock held)
    (H : ∀ t, match s.th t with | .idle => held t = .no | .run _ p => Disc .any (held t) p) {i : Nat}
    (h : (s.sh.lock i).rd ≠ []) : Unstuck c s := by
  obtain ⟨v, hv⟩ := List.exists_mem_of_ne_nil _ h
  have h1 := L.rd i v
  have h2 := List.count_pos_iff.2 hv
  by_cases e : held v = .R i
  · exact holder_unstuck L H (Or.inr e)
  · rw [if_neg e] at h1; omega

theorem announced_unstuck {c : Conf K} {s : Cfg K V} {held : Tid → Held} (L : LockInv s.sh.lock held)
    (H : ∀ t, match s.th t with | .idle => held t = .no | .run _ p => Disc .any (held t) p) {i : Nat}
    (h : (s.sh.lock i).wr ≠ none) : Unstuck c s := by
  cases hw : (s.sh.lock i).wr with
  | none => exact absurd hw h
  | some t =>
    rcases (L.wr i t).1 hw with e | e
    · obtain ⟨a, h', hn, hh⟩ := next_of_held H (t := t) (by rw [e]; intro e; cases e)
      by_cases hr : (s.sh.lock i).rd = []
      · refine unstuck_of_step hn (can_step L hh ?_ ?_ ?_)
        · rintro j rfl
          rw [(heldAfter_lockBegin hh).1] at e; cases e
        · rintro j rfl
          rw [(heldAfter_lockWait hh).1] at e
          injection e with e; rw [e]; exact hr
        · rintro j rfl
          rw [(heldAfter_rlock hh).1] at e; cases e
      · exact readers_unstuck L H hr
    · exact holder_unstuck L H (Or.inl e)

/-- If some goroutine is in a call then some goroutine in a call can go on. -/
theorem unstuck_of_inv {c : Conf K} {s : Cfg K V} (h : DiscInv .any s) {t : Tid} (ht : s.th t ≠ .idle) :
    Unstuck c s := by
  obtain ⟨held, L, H⟩ := h
  cases hs : s.th t with
  | idle => exact absurd hs ht
  | run op p =>
    cases p with
    | ret r => exact ⟨_, _, .ret t op r hs, fun _ _ e => by cases e⟩
    | act a k =>
      have h1 := H t
      rw [hs] at h1
      obtain ⟨h', hh, -, -⟩ := h1
      have hn : Next s t a := ⟨op, k, hs⟩
      by_cases hb : ∃ i, (s.sh.lock i).wr ≠ none
      · obtain ⟨i, hi⟩ := hb
        exact announced_unstuck L H hi
      · have hb' : ∀ i, (s.sh.lock i).wr = none := by
          intro i
          cases hw : (s.sh.lock i).wr with
          | none => rfl
          | some u => exact absurd ⟨i, by rw [hw]; intro e; cases e⟩ hb
        refine unstuck_of_step hn (can_step L hh (fun i _ => hb' i) ?_ (fun i _ => hb' i))
        rintro i rfl
        have := (L.wr i t).2 (Or.inl (heldAfter_lockWait hh).1)
        rw [hb' i] at this
        cases this

end Verif.Sharded
