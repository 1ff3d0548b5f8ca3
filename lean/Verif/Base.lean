/-!
# Conventions shared by all models

A Go call that may panic is a value of `Go α`; `.error msg` stands for `panic(msg)` (or a runtime
panic such as "index out of range").  Calls are modelled so that a panic happens before any state
change; where that is not true of the code the model says so.
-/

namespace Verif

/-- Result of a Go call: a value or a panic. -/
abbrev Go (α : Type) := Except String α

deriving instance DecidableEq for Except

/-- `true` iff the call panics. -/
def Go.panics {α : Type} : Go α → Bool
  | .ok _ => false
  | .error _ => true

/-- Go index expression `l[i]` for an `int` index: run-time panic if out of range. -/
def goGet {α : Type} (l : List α) (i : Int) : Go α :=
  if 0 ≤ i then
    match l[i.toNat]? with
    | some x => .ok x
    | none => .error "index out of range"
  else .error "index out of range"

/-- Go assignment `l[i] = v`: run-time panic if out of range. -/
def goSet {α : Type} (l : List α) (i : Int) (v : α) : Go (List α) :=
  if 0 ≤ i ∧ i.toNat < l.length then .ok (l.set i.toNat v)
  else .error "index out of range"

/-- Go slice expression `l[lo:hi]` where the capacity is the length. -/
def goSlice {α : Type} (l : List α) (lo hi : Int) : Go (List α) :=
  if 0 ≤ lo ∧ lo ≤ hi ∧ hi ≤ l.length then .ok ((l.take hi.toNat).drop lo.toNat)
  else .error "slice bounds out of range"

theorem goGet_ok {α : Type} {l : List α} {i : Int} {x : α} (h0 : 0 ≤ i)
    (h : l[i.toNat]? = some x) : goGet l i = .ok x := by
  simp [goGet, h0, h]

theorem goGet_nat {α : Type} {l : List α} {i : Nat} {x : α}
    (h : l[i]? = some x) : goGet l (i : Int) = .ok x := by
  simp [goGet, h]

theorem goSet_ok {α : Type} {l : List α} {i : Int} {x : α} (h0 : 0 ≤ i)
    (h : i.toNat < l.length) : goSet l i x = .ok (l.set i.toNat x) := by
  simp [goSet, h0, h]

theorem goSet_nat {α : Type} {l : List α} {i : Nat} {x : α}
    (h : i < l.length) : goSet l (i : Int) x = .ok (l.set i x) := by
  simp [goSet, h]

theorem goSet_inv {α : Type} {l b : List α} {i : Int} {x : α} (h : goSet l i x = .ok b) :
    0 ≤ i ∧ i.toNat < l.length ∧ b = l.set i.toNat x := by
  unfold goSet at h
  split at h
  · rename_i hh; cases h; exact ⟨hh.1, hh.2, rfl⟩
  · cases h

end Verif
