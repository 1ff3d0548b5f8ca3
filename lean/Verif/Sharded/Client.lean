import Verif.Sharded.Props
import Verif.Conc.Client

/-!
# C126: programs over a `Sharded` map

Programs of goroutines that call operations on single keys (and read-only ones) may be reasoned about as if each
call took effect at once. Applied to a key used as a lock: who gets true from `TrySet` has it, until `Delete`.
-/

namespace Verif.Sharded

open Verif.Conc Verif.GoMap

variable {K V Q : Type} [DecidableEq K] [Inhabited V]

/-- Goroutines that run programs over the map are, at every moment, where they can be if every call takes effect at
once on one map. -/
theorem C126_sharded (c : Conf K) (P : Client (Op K V) (Res K V) Q) (q0 : Tid → Q)
    (hop : ∀ q op, P.ask q = some op → SingleKey op ∨ ReadsAll op) (tr : List (Lab K V)) (s : Cfg K V)
    (he : Exec (body c) (Config.init fresh) tr s) (hf : P.Follows q0 (history tr)) :
    ∃ l m q, P.Atomic (mapSpec K V) q0 l m q ∧ ∀ t, q t = P.after q0 (history tr) t ∨
      ∃ op r, (s.th t).op = some op ∧ q t = P.go (P.after q0 (history tr) t) r :=
  P.atomic_exec he hf (Props.C34_sharded_linearizable c tr s he (hf.calls fun _ => hop))

/-- Calls that do not change what is stored at `k`. -/
def Leaves (k : K) : Op K V → Prop
  | .set k' _ | .trySet k' _ | .getOrSetFactory k' | .getOrSetDefault k' _ | .delete k' => k' ≠ k
  | .get _ | .tryGet _ | .has _ => True
  | .len | .empty | .iterate | .iterateShardsReadOnly | .keys | .values | .entries | .toMap => True
  | _ => False

theorem leaves_legal {k : K} {op : Op K V} {r : Res K V} {m m' : PMap K V} (h : Leaves k op)
    (hl : (mapSpec K V).legal m op r m') : m' k = m k := by
  have set_ne : ∀ (k' : K) (v : V), k' ≠ k → (m.set k' v) k = m k := fun k' v hk => if_neg (Ne.symm hk)
  cases op with
  | set k' v => obtain ⟨-, rfl⟩ := hl.1 trivial; exact set_ne k' v h
  | trySet k' v =>
    have hl := hl.1 trivial
    simp only [Legal] at hl
    split at hl
    · rw [hl.2]
    · rw [hl.2]; exact set_ne k' v h
  | get k' => rw [(hl.1 trivial).1]
  | tryGet k' => rw [(hl.1 trivial).1]
  | getOrSetFactory k' =>
    have hl := hl.1 trivial
    simp only [Legal] at hl
    split at hl
    · rw [hl.2]
    · rcases hl with hl | ⟨v, -, hl⟩
      · rw [hl.2]
      · rw [hl]; exact set_ne k' v h
  | getOrSetDefault k' d =>
    have hl := hl.1 trivial
    simp only [Legal] at hl
    split at hl
    · rw [hl.2]
    · rw [hl.2]; exact set_ne k' d h
  | has k' => rw [(hl.1 trivial).1]
  | delete k' => obtain ⟨-, rfl⟩ := hl.1 trivial; exact if_neg (Ne.symm h)
  | len | empty | iterate | iterateShardsReadOnly | keys | values | entries | toMap => rw [hl.2 trivial]
  | clear => exact h.elim
  | iterateShards => exact h.elim

/-- A program that uses the key `k` as a lock, which it has in the states `has`: it takes it with `TrySet` and only
if it has not got it, gives it back with `Delete` and only if it has it, and otherwise does what it likes that does
not change `k`. -/
structure Locks (P : Client (Op K V) (Res K V) Q) (k : K) (has : Q → Prop) : Prop where
  ops : ∀ q op, P.ask q = some op → (∃ v, op = .trySet k v) ∨ op = .delete k ∨
    (Leaves k op ∧ (SingleKey op ∨ ReadsAll op))
  take : ∀ q v, P.ask q = some (.trySet k v) → ¬ has q ∧ ∀ r, has (P.go q r) ↔ r = .bool true
  give : ∀ q, P.ask q = some (.delete k) → has q ∧ ∀ r, ¬ has (P.go q r)
  keep : ∀ q op, P.ask q = some op → Leaves k op → ∀ r, has (P.go q r) ↔ has q

/-- With calls that take effect at once: the key is there iff somebody has the lock, and only one has. -/
theorem lock_atomic {P : Client (Op K V) (Res K V) Q} {k : K} {has : Q → Prop} (hP : Locks P k has) {q0 : Tid → Q}
    (h0 : ∀ t, ¬ has (q0 t)) {l : List (Tid × Op K V × Res K V)} {m : (mapSpec K V).St} {q : Tid → Q}
    (h : P.Atomic (mapSpec K V) q0 l m q) :
    ((m k).isSome = true ↔ ∃ t, has (q t)) ∧ ∀ t u, has (q t) → has (q u) → t = u := by
  induction h with
  | nil => exact ⟨⟨fun h => (by cases h), fun ⟨t, h⟩ => absurd h (h0 t)⟩, fun t u h => absurd h (h0 t)⟩
  | @snoc l m m' q t op r _ hask hl ih =>
    obtain ⟨ih1, ih2⟩ := ih
    rcases hP.ops _ _ hask with ⟨v, rfl⟩ | rfl | ⟨hv, -⟩
    · obtain ⟨g1, g2⟩ := hP.take _ v hask
      have hl := hl.1 trivial
      simp only [Legal] at hl
      split at hl
      · rename_i w hw
        obtain ⟨rfl, rfl⟩ := hl
        have no : ¬ has (P.go (q t) (.bool false)) := fun h => by cases (g2 _).1 h
        have eq : ∀ u, has (upd q t (P.go (q t) (.bool false)) u) ↔ has (q u) := by
          intro u
          by_cases c : u = t
          · subst c; rw [upd_same]; exact ⟨fun h => absurd h no, fun h => absurd h g1⟩
          · rw [upd_other _ _ c]
        exact ⟨by rw [ih1]; exact ⟨fun ⟨u, h⟩ => ⟨u, (eq u).2 h⟩, fun ⟨u, h⟩ => ⟨u, (eq u).1 h⟩⟩,
          fun u w h h' => ih2 u w ((eq u).1 h) ((eq w).1 h')⟩
      · rename_i hw
        obtain ⟨rfl, rfl⟩ := hl
        have none : ∀ u, ¬ has (q u) := fun u h => by
          have := ih1.2 ⟨u, h⟩
          rw [hw] at this; cases this
        have eq : ∀ u, has (upd q t (P.go (q t) (.bool true)) u) ↔ u = t := by
          intro u
          by_cases c : u = t
          · subst c; rw [upd_same]; exact ⟨fun _ => rfl, fun _ => (g2 _).2 rfl⟩
          · rw [upd_other _ _ c]; exact ⟨fun h => absurd h (none u), fun h => absurd h c⟩
        refine ⟨⟨fun _ => ⟨t, (eq t).2 rfl⟩, fun _ => ?_⟩, fun u w h h' => ((eq u).1 h).trans ((eq w).1 h').symm⟩
        show ((if k = k then some v else m k) : Option V).isSome = true
        rw [if_pos rfl]; rfl
    · obtain ⟨g1, g2⟩ := hP.give _ hask
      obtain ⟨rfl, rfl⟩ := hl.1 trivial
      have no : ∀ u, ¬ has (upd q t (P.go (q t) .unit) u) := by
        intro u
        by_cases c : u = t
        · subst c; rw [upd_same]; exact g2 _
        · rw [upd_other _ _ c]; exact fun h => c (ih2 u t h g1)
      refine ⟨⟨fun h => ?_, fun ⟨u, h⟩ => absurd h (no u)⟩, fun u w h => absurd h (no u)⟩
      have : ((if k = k then none else m k) : Option V).isSome = true := h
      rw [if_pos rfl] at this; cases this
    · have eq : ∀ u, has (upd q t (P.go (q t) r) u) ↔ has (q u) := by
        intro u
        by_cases c : u = t
        · subst c; rw [upd_same]; exact hP.keep _ _ hask hv r
        · rw [upd_other _ _ c]
      rw [leaves_legal hv hl]
      exact ⟨by rw [ih1]; exact ⟨fun ⟨u, h⟩ => ⟨u, (eq u).2 h⟩, fun ⟨u, h⟩ => ⟨u, (eq u).1 h⟩⟩,
        fun u w h h' => ih2 u w ((eq u).1 h) ((eq w).1 h')⟩

/-- **A key is a lock.** If goroutines use a key as a lock, then of two that have it (and have not begun to give it
back) there are not two. -/
theorem C126_lock (c : Conf K) (P : Client (Op K V) (Res K V) Q) (k : K) (has : Q → Prop) (hP : Locks P k has)
    (q0 : Tid → Q) (h0 : ∀ t, ¬ has (q0 t)) (tr : List (Lab K V)) (s : Cfg K V)
    (he : Exec (body c) (Config.init fresh) tr s) (hf : P.Follows q0 (history tr)) (t u : Tid)
    (ht : has (P.after q0 (history tr) t)) (ht' : (s.th t).op ≠ some (.delete k))
    (hu : has (P.after q0 (history tr) u)) (hu' : (s.th u).op ≠ some (.delete k)) : t = u := by
  obtain ⟨l, m, q, ha, hq⟩ := C126_sharded c P q0 (fun q op h => by
    rcases hP.ops q op h with ⟨v, rfl⟩ | rfl | h
    · exact Or.inl trivial
    · exact Or.inl trivial
    · exact h.2) tr s he hf
  have lift : ∀ t, has (P.after q0 (history tr) t) → (s.th t).op ≠ some (.delete k) → has (q t) := by
    intro t h h'
    rcases hq t with e | ⟨op, r, e1, e2⟩
    · rw [e]; exact h
    · have hask := hf.pending he.turns.orderly e1
      rw [e2]
      rcases hP.ops _ _ hask with ⟨v, rfl⟩ | rfl | ⟨hv, -⟩
      · exact absurd h (hP.take _ v hask).1
      · exact absurd e1 h'
      · exact (hP.keep _ _ hask hv r).2 h
  exact (lock_atomic hP h0 ha).2 t u (lift t ht ht') (lift u hu hu')

/-! ## A lock in use -/

/-- `for { for !m.TrySet(4, 0) {}; …; m.Delete(4) }`. -/
def mutex : Client (Op Nat Nat) (Res Nat Nat) Bool where
  ask b := some (if b then .delete 4 else .trySet 4 0)
  go b r := match b, r with
    | false, .bool x => x
    | _, _ => false

theorem mutex_locks : Locks mutex 4 (fun b => b = true) where
  ops q op h := by
    cases q <;> injection h with h <;> subst h
    · exact Or.inl ⟨0, rfl⟩
    · exact Or.inr (Or.inl rfl)
  take q v h := by
    cases q
    · refine ⟨by simp, fun r => ?_⟩
      cases r <;> simp [mutex]
    · injection h with h; cases h
  give q h := by
    cases q
    · injection h with h; cases h
    · refine ⟨rfl, fun r => ?_⟩
      cases r <;> simp [mutex]
  keep q op h hv r := by
    cases q <;> injection h with h <;> subst h <;> exact absurd rfl hv

deriving instance DecidableEq for Op

/-- Two goroutines want the lock; one gets it, the other fails; the lock is given back, and the other gets it. -/
def contending : List (Conc.Go (Op Nat Nat)) :=
  Props.whole 0 (.trySet 4 0) 5 ++ Props.whole 1 (.trySet 4 0) 4 ++ Props.whole 0 (.delete 4) 4 ++ Props.whole 1 (.trySet 4 0) 5

example : (Props.play Props.two contending (Config.init fresh)).map (fun x => (Props.returned x.1,
    mutex.followsB (fun _ => false) (history x.1), mutex.after (fun _ => false) (history x.1) 0,
    mutex.after (fun _ => false) (history x.1) 1)) =
    some ([(0, .bool true), (1, .bool false), (0, .unit), (1, .bool true)], true, false, true) := by decide +kernel

end Verif.Sharded
