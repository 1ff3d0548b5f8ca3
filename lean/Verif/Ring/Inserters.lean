import Verif.Ring.Lemmas
import Verif.Algo.Model

/-!
# C132: writing to rings through `iter.Append` and `iter.Prepend`

The memory is a family of rings. An `Appender`/`Prepender` is an interface value: nil, a pointer to a ring, or a value of
a type of the caller's.
-/

namespace Verif.Ring.Inserters

open Verif.Ring Verif.Iter Verif.Algo

variable {T : Type} [Inhabited T]

/-- The rings of the program. -/
abbrev Rings (T : Type) := Nat → Ring T

/-- A value of type `Appender[T]` or `Prepender[T]` (ds/iter/inserter.go:14-16, 45-47). -/
inductive Target (T : Type) where
  /-- no container -/
  | nil
  /-- `&ring` -/
  | ring (i : Nat)
  /-- a value `x` of the caller's type number `ty`; its methods leave the rings alone -/
  | user (ty : Nat) (comparable : Bool) (x : Nat)

/-- Two interface values: of different types they differ; pointers are compared as pointers; values of the caller's types
are compared, if that is possible. (A type is comparable or not; two values that say different things are of different
types.) -/
def Target.same : Target T → Target T → Go Bool
  | .user ty c x, .user ty' c' x' =>
    if ty = ty' ∧ c = c' then if c then .ok (x == x') else .error "comparing uncomparable type" else .ok false
  | .nil, .nil => .ok true
  | .ring i, .ring j => .ok (i == j)
  | _, _ => .ok false

instance : IfaceEq (Target T) := ⟨Target.same⟩

/-- A method of a ring, called through a pointer. -/
def onRing (i : Nat) (f : Ring T → Go (Ring T)) : St (Rings T) Unit := fun m =>
  match f (m i) with
  | .ok r => (.ok (), fun j => if j = i then r else m j)
  | .error e => (.error e, m)

/-- ds/xring/ring.go:91-99 `Append` through the interface. -/
instance : Appender (Rings T) T (Target T) where
  append a v := match a with
    | .nil => St.panic "nil pointer dereference"
    | .ring i => onRing i (append · v)
    | .user .. => pure ()

/-- ds/xring/ring.go:101-110 `Prepend` through the interface. -/
instance : Prepender (Rings T) T (Target T) where
  prepend a v := match a with
    | .nil => St.panic "nil pointer dereference"
    | .ring i => onRing i (prepend · v)
    | .user .. => pure ()

/-- A write of the client: `it = it.Next()`, then `it.Set(v)`, with `it` made by `iter.Append` or `iter.Prepend` on
ring `i`. -/
structure Write (T : Type) where
  front : Bool
  i : Nat
  v : T

/-- Performs one write. -/
def Write.exec (w : Write T) : St (Rings T) Unit :=
  if w.front then do
    let it ← St.lift (next (⟨.ring w.i⟩ : PrependIter (Target T)))
    set it w.v
  else do
    let it ← St.lift (next (⟨.ring w.i⟩ : AppendIter (Target T)))
    set it w.v

/-- Performs them one after the other. -/
def execAll : List (Write T) → St (Rings T) Unit
  | [] => pure ()
  | w :: ws => do
    w.exec
    execAll ws

/-! ## What should happen -/

/-- The values written to ring `i` at its front (`true`) or at its end, in the order of writing. -/
def written (front : Bool) (i : Nat) (ws : List (Write T)) : List T :=
  (ws.filter fun w => w.front == front && w.i == i).map (·.v)

theorem exec_spec (w : Write T) (m : Rings T) (hm : ∀ i, WF (m i)) :
    ∃ m', w.exec m = (.ok (), m') ∧ (∀ i, WF (m' i)) ∧
      (∀ i, i ≠ w.i → m' i = m i) ∧
      contents (m' w.i) = if w.front then w.v :: contents (m w.i) else contents (m w.i) ++ [w.v] := by
  obtain ⟨f, i, v⟩ := w
  cases f with
  | true =>
    obtain ⟨r, e, hw, hc⟩ := prepend_eq (hm i) v
    refine ⟨fun j => if j = i then r else m j, ?_, ?_, ?_, ?_⟩
    · show (match prepend (m i) v with | .ok r => _ | .error e => _) = _
      rw [e]
    · intro j
      by_cases h : j = i
      · simp only [if_pos h]; exact hw
      · simp only [if_neg h]; exact hm j
    · intro j h
      simp only [if_neg h]
    · simp only [if_true]
      exact hc
  | false =>
    obtain ⟨r, e, hw, hc⟩ := append_eq (hm i) v
    refine ⟨fun j => if j = i then r else m j, ?_, ?_, ?_, ?_⟩
    · show (match append (m i) v with | .ok r => _ | .error e => _) = _
      rw [e]
    · intro j
      by_cases h : j = i
      · simp only [if_pos h]; exact hw
      · simp only [if_neg h]; exact hm j
    · intro j h
      simp only [if_neg h]
    · simp only [if_true]
      exact hc

/-- **C132, writes.** Any writes through append and prepend iterators on any rings, in any order: none panics, and every
ring then holds what was written to its front, the last first, then what it held, then what was written to its end, in
order. -/
theorem C132_writes (ws : List (Write T)) (m : Rings T) (hm : ∀ i, WF (m i)) :
    ∃ m', execAll ws m = (.ok (), m') ∧ ∀ i, WF (m' i) ∧
      contents (m' i) = (written true i ws).reverse ++ contents (m i) ++ written false i ws := by
  induction ws generalizing m with
  | nil => exact ⟨m, rfl, fun i => ⟨hm i, by simp [written]⟩⟩
  | cons w ws ih =>
    obtain ⟨m1, e1, hw1, ho, hc⟩ := exec_spec w m hm
    obtain ⟨m2, e2, h2⟩ := ih m1 hw1
    refine ⟨m2, ?_, fun i => ⟨(h2 i).1, ?_⟩⟩
    · unfold execAll
      rw [St.bind_ok e1]
      exact e2
    · rw [(h2 i).2]
      by_cases h : i = w.i
      · subst h
        rw [hc]
        cases hf : w.front <;> simp [written, hf]
      · rw [ho i h]
        have h' : ¬ w.i = i := fun e => h e.symm
        cases hf : w.front <;> simp [written, hf, h']

/-- **C132, `FillN`.** Through an append iterator it adds `count` copies at the end of the ring, through a prepend
iterator at its front; it returns the iterator it was given and touches no other ring. -/
theorem C132_fill (i : Nat) (count : Int) (x : T) (m : Rings T) (hm : ∀ i, WF (m i)) :
    (∃ m', fillN (⟨.ring i⟩ : AppendIter (Target T)) count x m = (.ok ⟨.ring i⟩, m') ∧ (∀ j, j ≠ i → m' j = m j) ∧
      WF (m' i) ∧ contents (m' i) = contents (m i) ++ List.replicate count.toNat x) ∧
    (∃ m', fillN (⟨.ring i⟩ : PrependIter (Target T)) count x m = (.ok ⟨.ring i⟩, m') ∧ (∀ j, j ≠ i → m' j = m j) ∧
      WF (m' i) ∧ contents (m' i) = List.replicate count.toNat x ++ contents (m i)) := by
  unfold fillN
  generalize count.toNat = c
  refine ⟨?_, ?_⟩
  · induction c generalizing m with
    | zero => exact ⟨m, rfl, fun _ _ => rfl, hm i, by simp⟩
    | succ c ih =>
      obtain ⟨m1, e1, hw1, ho, hc⟩ := exec_spec ⟨false, i, x⟩ m hm
      obtain ⟨m2, e2, ho2, hw2, hc2⟩ := ih m1 hw1
      refine ⟨m2, ?_, fun j hj => (ho2 j hj).trans (ho j hj), hw2, ?_⟩
      · unfold fillLoop
        have q : set (⟨.ring i⟩ : AppendIter (Target T)) x m = (.ok (), m1) := e1
        rw [St.bind_ok q]
        exact e2
      · rw [hc2, hc, List.replicate_succ]
        simp
  · induction c generalizing m with
    | zero => exact ⟨m, rfl, fun _ _ => rfl, hm i, by simp⟩
    | succ c ih =>
      obtain ⟨m1, e1, hw1, ho, hc⟩ := exec_spec ⟨true, i, x⟩ m hm
      obtain ⟨m2, e2, ho2, hw2, hc2⟩ := ih m1 hw1
      refine ⟨m2, ?_, fun j hj => (ho2 j hj).trans (ho j hj), hw2, ?_⟩
      · unfold fillLoop
        have q : set (⟨.ring i⟩ : PrependIter (Target T)) x m = (.ok (), m1) := e1
        rw [St.bind_ok q]
        exact e2
      · rw [hc2, hc, List.replicate_succ']
        simp

/-- **C132, the other methods.** `Next` returns the iterator and `Get` the zero value, without effects. `Equal` says
whether two iterators write to the same container; it panics exactly for two containers of the same uncomparable type. A
write through an iterator without a container panics and changes nothing. -/
theorem C132_methods (a b : Target T) (m : Rings T) (v : T) :
    next (⟨a⟩ : AppendIter (Target T)) = .ok ⟨a⟩ ∧ next (⟨a⟩ : PrependIter (Target T)) = .ok ⟨a⟩ ∧
    get (⟨a⟩ : AppendIter (Target T)) m = (.ok default, m) ∧ get (⟨a⟩ : PrependIter (Target T)) m = (.ok default, m) ∧
    equal (⟨a⟩ : AppendIter (Target T)) ⟨b⟩ = equal (⟨a⟩ : PrependIter (Target T)) ⟨b⟩ ∧
    ((∃ e, equal (⟨a⟩ : AppendIter (Target T)) ⟨b⟩ = .error e) ↔ ∃ ty x y, a = .user ty false x ∧ b = .user ty false y) ∧
    (∀ r, equal (⟨a⟩ : AppendIter (Target T)) ⟨b⟩ = .ok r → (r = true ↔ a = b)) ∧
    (∃ e, set (⟨.nil⟩ : AppendIter (Target T)) v m = (.error e, m)) ∧
    (∃ e, set (⟨.nil⟩ : PrependIter (Target T)) v m = (.error e, m)) := by
  refine ⟨rfl, rfl, rfl, rfl, rfl, ?_, ?_, ⟨_, rfl⟩, ⟨_, rfl⟩⟩
  · show (∃ e, Target.same a b = .error e) ↔ _
    cases a <;> cases b <;> try simp [Target.same]
    rename_i ty c x ty' c' x'
    by_cases h : ty = ty' ∧ c = c'
    · obtain ⟨rfl, rfl⟩ := h
      cases c <;> simp
    · rw [if_neg h]
      simp only [reduceCtorEq, exists_false, false_iff]
      rintro ⟨_, ⟨rfl, rfl⟩, rfl, rfl⟩
      exact h ⟨rfl, rfl⟩
  · show ∀ r, Target.same a b = .ok r → _
    intro r h
    cases a <;> cases b <;> simp only [Target.same] at h
    case user.user ty c x ty' c' x' =>
      by_cases h' : ty = ty' ∧ c = c'
      · obtain ⟨rfl, rfl⟩ := h'
        rw [if_pos ⟨rfl, rfl⟩] at h
        cases c
        · simp at h
        · simp at h; subst h; simp
      · rw [if_neg h'] at h
        cases h
        simp only [Bool.false_eq_true, Target.user.injEq, false_iff]
        rintro ⟨rfl, rfl, -⟩
        exact h' ⟨rfl, rfl⟩
    all_goals (cases h; simp)

/-! ## Concrete cases -/

/-- Two rings, one of them wrapped around. -/
def exRings : Rings Nat := fun i => if i = 0 then ⟨[3, 4, 1, 2], 2, 4⟩ else new

theorem exRings_wf : ∀ i, WF (exRings i) := by
  intro i
  unfold exRings
  split
  · exact ⟨by decide, by decide⟩
  · exact ⟨by decide, by decide⟩

example : contents ((execAll [⟨true, 0, 0⟩, ⟨false, 1, 7⟩, ⟨false, 0, 5⟩, ⟨true, 0, 9⟩, ⟨true, 1, 6⟩] exRings).2 0) =
      [9, 0, 1, 2, 3, 4, 5] ∧
    contents ((execAll [⟨true, 0, 0⟩, ⟨false, 1, 7⟩, ⟨false, 0, 5⟩, ⟨true, 0, 9⟩, ⟨true, 1, 6⟩] exRings).2 1) = [6, 7] := by
  decide +kernel

example : contents ((fillN (⟨.ring 0⟩ : PrependIter (Target Nat)) 3 (8 : Nat) exRings).2 0) = [8, 8, 8, 1, 2, 3, 4] := by
  decide +kernel

example : equal (⟨.user 3 false 1⟩ : AppendIter (Target Nat)) ⟨.user 3 false 1⟩ =
    (.error "comparing uncomparable type" : Go Bool) := by decide

end Verif.Ring.Inserters
