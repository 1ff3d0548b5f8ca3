import Verif.GoMap.Model

/-!
# `ArrayMap` (ds/xmap/arraymap.go)

The entry slice is a list: it is never shared with a caller (`At` and friends return copies).
-/

namespace Verif.ArrayMap

open Verif.GoMap

/-- `ArrayMap` (ds/xmap/arraymap.go:10-14). -/
structure ArrayMap (K V : Type) where
  /-- `pos map[K]int`, possibly nil -/
  pos : MapVar K Int
  /-- `kv []Entry[K, V]` -/
  kv : List (K × V)

variable {K V : Type} [BEq K] [Inhabited V]

/-- `New` (ds/xmap/arraymap.go:16-18). -/
def new : ArrayMap K V := ⟨none, []⟩

/-- `lazeInit` (ds/xmap/arraymap.go:20-24). -/
def lazeInit (p : ArrayMap K V) : ArrayMap K V := if p.pos.isNone then { p with pos := some [] } else p

/-- `Has` (ds/xmap/arraymap.go:26-29). -/
def has (p : ArrayMap K V) (key : K) : Bool := (p.pos.get? key).isSome

/-- `TryGet` (ds/xmap/arraymap.go:39-44). -/
def tryGet (p : ArrayMap K V) (key : K) : Go (V × Bool) :=
  match p.pos.get? key with
  | some i => (goGet p.kv i).map fun e => (e.2, true)
  | none => .ok (default, false)

/-- `Get` (ds/xmap/arraymap.go:31-37); the message is shortened. -/
def get (p : ArrayMap K V) (key : K) : Go V := do
  let (value, found) ← tryGet p key
  if !found then .error "key not found" else .ok value

/-- `Set` (ds/xmap/arraymap.go:46-51). -/
def set (p : ArrayMap K V) (key : K) (value : V) : Go (ArrayMap K V) := do
  let p := lazeInit p
  let i : Int := p.kv.length
  let kv := p.kv ++ [(key, value)]
  let pos ← p.pos.put key i
  return ⟨pos, kv⟩

/-- `Delete` (ds/xmap/arraymap.go:53-66). Every panic happens before the receiver is changed. -/
def delete (p : ArrayMap K V) (key : K) : Go (Bool × ArrayMap K V) :=
  match p.pos.get? key with
  | none => .ok (false, p)
  | some i => do
    let last : Int := (p.kv.length : Int) - 1
    let p ← if i ≠ last then do
        let e ← goGet p.kv last
        let kv ← goSet p.kv i e
        let ei ← goGet kv i
        let pos ← p.pos.put ei.1 last
        pure (⟨pos, kv⟩ : ArrayMap K V)
      else pure p
    let pos := p.pos.del key
    let kv ← goSlice p.kv 0 last
    return (true, ⟨pos, kv⟩)

/-- `Len` (ds/xmap/arraymap.go:68-70). -/
def len (p : ArrayMap K V) : Int := p.kv.length
/-- `Empty` (ds/xmap/arraymap.go:72-74). -/
def empty (p : ArrayMap K V) : Bool := p.kv.length == 0
/-- `At` (ds/xmap/arraymap.go:76-78). -/
def at_ (p : ArrayMap K V) (i : Int) : Go (K × V) := goGet p.kv i
/-- `ValueAt` (ds/xmap/arraymap.go:80-82). -/
def valueAt (p : ArrayMap K V) (i : Int) : Go V := (goGet p.kv i).map (·.2)
/-- `KeyAt` (ds/xmap/arraymap.go:84-86). -/
def keyAt (p : ArrayMap K V) (i : Int) : Go K := (goGet p.kv i).map (·.1)
/-- `Clear` (ds/xmap/arraymap.go:88-91). -/
def clear (o : Order K Int) (p : ArrayMap K V) : ArrayMap K V := ⟨GoMap.clear o p.pos, []⟩

end Verif.ArrayMap
