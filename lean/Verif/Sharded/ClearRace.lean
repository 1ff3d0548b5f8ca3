import Verif.Sharded.Props

/-!
# C36 with `Clear`: what exactly races
-/

set_option linter.unusedSectionVars false

namespace Verif.Sharded

open Verif.Conc Verif.GoMap

variable {K V : Type} [DecidableEq K] [Inhabited V]

/-- A program that takes and releases locks in order, reads no table, and writes tables only by emptying them
while it holds their lock for reading. -/
def ClearDisc {R : Type} : Held → P K V R → Prop
  | h, .ret _ => h = .no
  | h, .act a k => ∃ h', heldAfter h a = some h' ∧ (∀ i f, a = .write i f → h = .R i ∧ f = fun _ => []) ∧
      (∀ i, a ≠ .read i) ∧ ∀ ans, ClearDisc h' (k ans)

theorem clearDisc_clearLoop : ∀ (rem i : Nat), ClearDisc .no (clearLoop (K := K) (V := V) i rem) := by
  intro rem
  induction rem with
  | zero => intro i; exact rfl
  | succ rem ih =>
    intro i
    refine ⟨.R i, rfl, (fun _ _ h => by cases h), (fun _ h => by cases h), fun _ => ?_⟩
    refine ⟨.R i, rfl, (fun _ _ h => by cases h; exact ⟨rfl, rfl⟩), (fun _ h => by cases h), fun _ => ?_⟩
    exact ⟨.no, if_pos rfl, (fun _ _ h => by cases h), (fun _ h => by cases h), fun _ => ih _⟩

/-- The invariant with `Clear`. -/
def ClearInv (s : Cfg K V) : Prop :=
  ∃ held, LockInv s.sh.lock held ∧ ∀ t, match s.th t with
    | .idle => held t = .no
    | .run op p => (op = .clear → ClearDisc (held t) p) ∧ (op ≠ .clear → Disc .cov (held t) p)

theorem clearInv {c : Conf K} {tr : List (Lab K V)} {s : Cfg K V} (he : Exec (body c) (Config.init fresh) tr s) :
    ClearInv s := by
  refine Exec.invariant (P := fun _ _ => True) ClearInv ?_ ?_ ?_ ?_ he (fun _ _ _ => trivial)
  · exact ⟨fun _ => .no, LockInv.start, fun t => rfl⟩
  · rintro s t op ⟨held, L, H⟩ - hi
    refine ⟨held, L, fun u => ?_⟩
    by_cases hu : u = t
    · subst hu
      have := H u
      rw [hi] at this
      simp only [upd_same]
      rw [this]
      refine ⟨?_, fun h => disc_body .cov c op (by decide) (fun _ => h)⟩
      rintro rfl
      exact clearDisc_clearLoop _ _
    · simp only [upd_other _ _ hu]; exact H u
  · rintro s t op a k ans sh' ⟨held, L, H⟩ hr hs
    have ht := H t
    rw [hr] at ht
    have next : ∃ h', heldAfter (held t) a = some h' ∧ (op = .clear → ClearDisc h' (k ans)) ∧
        (op ≠ .clear → Disc .cov h' (k ans)) := by
      by_cases e : op = .clear
      · obtain ⟨h', e1, -, -, e3⟩ := ht.1 e
        exact ⟨h', e1, fun _ => e3 ans, fun h => absurd e h⟩
      · obtain ⟨h', e1, -, e3⟩ := ht.2 e
        exact ⟨h', e1, fun h => absurd h e, fun _ => e3 ans⟩
    obtain ⟨h', e1, e2⟩ := next
    refine ⟨upd held t h', L.step hs e1, fun u => ?_⟩
    by_cases hu : u = t
    · subst hu
      simp only [upd_same]
      exact e2
    · simp only [upd_other _ _ hu]; exact H u
  · rintro s t op r ⟨held, L, H⟩ hr
    refine ⟨held, L, fun u => ?_⟩
    by_cases hu : u = t
    · subst hu
      have := H u
      rw [hr] at this
      simp only [upd_same]
      by_cases e : op = .clear
      · exact this.1 e
      · exact this.2 e
    · simp only [upd_other _ _ hu]; exact H u

/-- What is known of an access to a table. -/
theorem access_held {s : Cfg K V} {held : Tid → Held} (H : ∀ t, match s.th t with
      | .idle => held t = .no
      | .run op p => (op = .clear → ClearDisc (held t) p) ∧ (op ≠ .clear → Disc .cov (held t) p))
    {t : Tid} {op : Op K V} {a : Act K V} {k : Ans a → P K V (Res K V)} (h : s.th t = .run op (.act a k)) :
    (∀ i f, a = .write i f → (op = .clear ∧ held t = .R i ∧ f = fun _ => []) ∨ (op ≠ .clear ∧ held t = .W i)) ∧
    (∀ i, a = .read i → op ≠ .clear ∧ (held t = .R i ∨ held t = .W i)) := by
  have ht := H t
  rw [h] at ht
  by_cases e : op = .clear
  · obtain ⟨h', -, e2, e3, -⟩ := ht.1 e
    exact ⟨fun i f ha => Or.inl ⟨e, e2 i f ha⟩, fun i ha => absurd ha (e3 i)⟩
  · obtain ⟨h', -, e2, -⟩ := ht.2 e
    refine ⟨?_, ?_⟩
    · rintro i f rfl
      exact Or.inr ⟨e, e2⟩
    · rintro i rfl
      exact ⟨e, e2⟩

namespace Props

/-- Only `Clear` races: if two goroutines are about to access the table of a shard, one to write it, then the
writer is a `Clear` about to empty it, both hold the lock for reading, and the other one is about to read
it or is a `Clear` about to empty it too. -/
theorem C36_only_clear_races (c : Conf K) (tr : List (Lab K V)) (s : Cfg K V)
    (he : Exec (body c) (Config.init fresh) tr s) (t u : Tid) (i : Nat) (f : Tab K V → Tab K V) (b : Act K V)
    (op op' : Op K V) (k : Unit → P K V (Res K V)) (k' : Ans b → P K V (Res K V)) (htu : t ≠ u)
    (ht : s.th t = .run op (.act (.write i f) k)) (hu : s.th u = .run op' (.act b k')) (hb : Accesses i b) :
    op = .clear ∧ (f = fun _ => []) ∧ t ∈ (s.sh.lock i).rd ∧ u ∈ (s.sh.lock i).rd ∧
      (b = .read i ∨ op' = .clear ∧ b = .write i (fun _ => [])) := by
  obtain ⟨held, L, H⟩ := clearInv he
  have reader : ∀ w, held w = .R i → w ∈ (s.sh.lock i).rd := by
    intro w hw
    have := L.rd i w
    rw [hw, if_pos rfl] at this
    exact List.count_pos_iff.1 (by omega)
  have alone : ∀ w w', held w = .W i → w' ≠ w → held w' ≠ .R i ∧ held w' ≠ .W i := by
    intro w w' hw hne
    constructor
    · intro h
      have := reader w' h
      rw [(L.actW i w hw).2] at this
      cases this
    · intro h
      have h1 := (L.wr i w).2 (Or.inr hw)
      have h2 := (L.wr i w').2 (Or.inr h)
      rw [h1] at h2
      injection h2 with h2
      exact hne h2.symm
  have other : (b = .read i ∧ (held u = .R i ∨ held u = .W i)) ∨
      ((op' = .clear ∧ b = .write i (fun _ => [])) ∧ held u = .R i) ∨ held u = .W i := by
    cases b with
    | read j =>
      have : j = i := hb
      subst this
      exact Or.inl ⟨rfl, ((access_held H hu).2 j rfl).2⟩
    | write j g =>
      have : j = i := hb
      subst this
      rcases (access_held H hu).1 j g rfl with ⟨h1, h2, rfl⟩ | ⟨-, h2⟩
      · exact Or.inr (Or.inl ⟨⟨h1, rfl⟩, h2⟩)
      · exact Or.inr (Or.inr h2)
    | _ => exact absurd hb (fun h => h)
  rcases (access_held H ht).1 i f rfl with ⟨h1, h2, h3⟩ | ⟨-, h2⟩
  · have hW : held u ≠ .W i := fun h => (alone u t h htu).1 h2
    rcases other with ⟨e, h4 | h4⟩ | ⟨e, h4⟩ | h4
    · exact ⟨h1, h3, reader t h2, reader u h4, Or.inl e⟩
    · exact absurd h4 hW
    · exact ⟨h1, h3, reader t h2, reader u h4, Or.inr e⟩
    · exact absurd h4 hW
  · obtain ⟨a1, a2⟩ := alone t u h2 (Ne.symm htu)
    rcases other with ⟨-, h4 | h4⟩ | ⟨-, h4⟩ | h4
    · exact absurd h4 a1
    · exact absurd h4 a2
    · exact absurd h4 a1
    · exact absurd h4 a2

/-- Two `Clear`s race with each other (`C36_clear_races` is the case of a reader). -/
example : ∃ (tr : List (Lab Nat Nat)) (s : Cfg Nat Nat), Exec (body two) (Config.init fresh) tr s ∧
    Next s 0 (.write 0 (fun _ => [])) ∧ Next s 1 (.write 0 (fun _ => [])) := by
  have hsome : (play two [.call 0 .clear, .call 1 .clear, .act 0, .act 1] (Config.init fresh)).isSome = true := by
    decide +kernel
  obtain ⟨⟨ls, cs, s⟩, hs⟩ := Option.isSome_iff_exists.1 hsome
  refine ⟨ls, s, play_exec hs, ?_⟩
  have hget : s = ((play two [.call 0 .clear, .call 1 .clear, .act 0, .act 1] (Config.init fresh)).get hsome).2.2 := by
    simp [hs]
  subst hget
  exact ⟨⟨_, _, rfl⟩, ⟨_, _, rfl⟩⟩

end Props

end Verif.Sharded
