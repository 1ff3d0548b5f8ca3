import Verif.GoMap.Model

/-!
# `Custom` (ds/xmap/custom.go)

All methods have value receivers. A method works on a copy of the struct: what it does to the *maps* the
struct refers to is seen by the caller, what it assigns to the struct's *fields* is not (`writeBack`).
-/

namespace Verif.CustomMap

open Verif.GoMap

/-- `Custom` (ds/xmap/custom.go:8-13) without the two functions, which never change. -/
structure Custom (K V : Type) where
  /-- `main map[uint64]Entry[K, V]` -/
  main : Tab UInt64 (K × V)
  /-- `ovf map[uint64][]Entry[K, V]`, nil at first -/
  ovf : MapVar UInt64 (List (K × V))

/-- `NewCustom` (ds/xmap/custom.go:15-22). -/
def new {K V : Type} : Custom K V := ⟨[], none⟩

/-- What the caller's struct is after a method that left its copy as `copy`: the same maps, with their new
contents; but a map made during the call is in the copy only. -/
def writeBack {K V : Type} (caller copy : Custom K V) : Custom K V :=
  ⟨copy.main, if caller.ovf.isNone then none else copy.ovf⟩

section
variable {K V : Type} [Inhabited V] (hash : K → UInt64) (equal : K → K → Bool)

/-- `Get` (ds/xmap/custom.go:24-43). -/
def get (m : Custom K V) (key : K) : V × Bool :=
  let h := hash key
  match m.main.get? h with
  | none => (default, false)
  | some main =>
    if equal main.1 key then (main.2, true)
    else match m.ovf.get? h with
      | none => (main.2, false)
      | some overflow =>
        match overflow.find? (fun entry => equal entry.1 key) with
        | some entry => (entry.2, true)
        | none => (main.2, false)

/-- The body of `Set` (ds/xmap/custom.go:45-68) on the copied receiver. -/
def setBody (m : Custom K V) (key : K) (value : V) : Bool × Custom K V :=
  let h := hash key
  let add : Bool × Custom K V :=
    match m.ovf.get? h with
    | none => (true, { m with ovf := some (Tab.put (m.ovf.getD []) h [(key, value)]) })
    | some overflow =>
      match overflow.findIdx? (fun entry => equal entry.1 key) with
      | some i => (false, { m with ovf := some (Tab.put (m.ovf.getD []) h (overflow.set i (key, value))) })
      | none => (true, { m with ovf := some (Tab.put (m.ovf.getD []) h (overflow ++ [(key, value)])) })
  match m.main.get? h with
  | none => (true, { m with main := m.main.put h (key, value) })
  | some mainEntry =>
    if equal mainEntry.1 key then (false, { m with main := m.main.put h (key, value) }) else add

/-- A call of `Set`. -/
def set (m : Custom K V) (key : K) (value : V) : Bool × Custom K V :=
  ((setBody hash equal m key value).1, writeBack m (setBody hash equal m key value).2)

/-- `xslice.UnorderedDelete` for an index in range (ds/xslice/ops.go:8-17; see the `Slice` area for
its effect on memory; the moved element beyond the end is not seen). -/
def unorderedDelete {α : Type} (s : List α) (i : Nat) : List α :=
  match s.getLast? with
  | some e => (s.set i e).dropLast
  | none => s

/-- The body of `Delete` (ds/xmap/custom.go:70-91) on the copied receiver. -/
def deleteBody (m : Custom K V) (key : K) : Bool × Custom K V :=
  let h := hash key
  match m.main.get? h with
  | none => (false, m)
  | some main =>
    if equal main.1 key then (true, { m with main := m.main.del h })
    else match m.ovf.get? h with
      | none => (false, m)
      | some overflow =>
        match overflow.findIdx? (fun entry => equal entry.1 key) with
        | some i => (true, { m with ovf := some (Tab.put (m.ovf.getD []) h (unorderedDelete overflow i)) })
        | none => (false, m)

/-- A call of `Delete`. -/
def delete (m : Custom K V) (key : K) : Bool × Custom K V :=
  ((deleteBody hash equal m key).1, writeBack m (deleteBody hash equal m key).2)

end

end Verif.CustomMap
