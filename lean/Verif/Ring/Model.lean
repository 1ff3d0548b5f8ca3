import Verif.Base

/-!
# Model of `ds/xring/ring.go`

`buf` is the Go slice `r.buf` (its length is `len(r.buf)`; the slice is never resliced, so its
capacity plays no role), `st` and `len` are the two counters.  `default` is Go's zero value of `T`.
The Go `int` arithmetic is done in `Int`; sizes are assumed to stay below `2^62`, so that no sum
overflows (a ring that large cannot be allocated).
-/

namespace Verif.Ring

variable {T : Type} [Inhabited T]

/-- ds/xring/ring.go:3-7 `type Ring[T]`. -/
structure Ring (T : Type) where
  buf : List T
  st : Nat
  len : Nat
deriving DecidableEq

/-- ds/xring/ring.go:9-11 `New`. -/
def new : Ring T := ⟨[], 0, 0⟩

/-- ds/xring/ring.go:13-19 `NewLen` (a negative length panics in `make`; lengths are `Nat` here). -/
def newLen (len : Nat) : Ring T := ⟨List.replicate len default, 0, len⟩

/-- ds/xring/ring.go:21-27 `NewLenCap`: `make([]T, len, cap)` panics if `len > cap`; the ring only
ever looks at `len(r.buf)`, so the spare capacity of the Go slice is not represented. -/
def newLenCap (len cap : Nat) : Go (Ring T) :=
  if len ≤ cap then .ok ⟨List.replicate len default, 0, len⟩
  else .error "makeslice: cap out of range"

/-- ds/xring/ring.go:33-39 `OfSlice` (and `Of`, 29-31). The sharing with the caller's slice is
modelled separately in `Verif.Ring.Alias`. -/
def ofSlice (values : List T) : Ring T := ⟨values, 0, values.length⟩

/-- ds/xring/ring.go:41-46 `Copy`. -/
def copy (values : List T) : Ring T :=
  if values.length = 0 then new else ofSlice ([] ++ values)

/-- A destination of Go `append`s that starts as `s[:0]` of a caller-supplied array `arr`
(`cap = arr.length`): `out` is the contents of the current slice value, `inPlace` says whether it
still lives in `arr`. -/
structure Dst (T : Type) where
  arr : List T
  out : List T
  inPlace : Bool

/-- Go `append(s, xs...)`: writes into `arr` while the capacity suffices, otherwise reallocates
and leaves `arr` alone from then on. -/
def Dst.append (d : Dst T) (xs : List T) : Dst T :=
  if d.inPlace ∧ d.out.length + xs.length ≤ d.arr.length then
    { arr := d.arr.take d.out.length ++ xs ++ d.arr.drop (d.out.length + xs.length)
      out := d.out ++ xs, inPlace := true }
  else { d with out := d.out ++ xs, inPlace := false }

/-- ds/xring/ring.go:161-167, the two-part copy of `ToSlice`, onto a destination that does not
share memory with the ring. -/
def copyOut (r : Ring T) (d : Dst T) : Go (Dst T) :=
  if r.st + r.len ≤ r.buf.length then do
    let a ← goSlice r.buf r.st (r.st + r.len)
    pure (d.append a)
  else do
    let a ← goSlice r.buf r.st r.buf.length
    let d := d.append a
    let b ← goSlice r.buf 0 ((r.st : Int) + r.len - r.buf.length)
    pure (d.append b)

/-- ds/xring/ring.go:152-168 `ToSlice(s)`: `s = none` is Go's `nil`; `some arr` is a non-nil slice
whose full capacity is the array `arr`. Returns the returned slice's contents (`none` = nil) and
the final contents of the caller's array (`[]` if `s` was nil). -/
def toSlice (r : Ring T) (s : Option (List T)) : Go (Option (List T) × List T) :=
  if r.len = 0 then .ok (none, s.getD [])
  else match s with
    | none => do
        let d ← copyOut r ⟨List.replicate r.len default, [], true⟩
        pure (some d.out, [])
    | some arr => do
        let d ← copyOut r ⟨arr, [], true⟩
        pure (some d.out, d.arr)

/-- ds/xring/ring.go:48-65 `checkGrowth`. -/
def checkGrowth (r : Ring T) : Go (Ring T) :=
  let oldCap := r.buf.length
  if r.len = oldCap then do
    let newCap := if oldCap = 0 then 4 else if oldCap < 1024 then oldCap * 2 else oldCap * 5 / 4
    let (_, newBuf) ← toSlice r (some (List.replicate newCap default))
    pure ⟨newBuf, 0, r.len⟩
  else pure r

/-- ds/xring/ring.go:67-76 `checkShrink`. -/
def checkShrink (r : Ring T) : Go (Ring T) :=
  let oldCap := r.buf.length
  if oldCap > 1024 ∧ oldCap / 8 > r.len then do
    let newCap := oldCap / 8
    let (_, newBuf) ← toSlice r (some (List.replicate newCap default))
    pure ⟨newBuf, 0, r.len⟩
  else pure r

/-- ds/xring/ring.go:91-99 `Append` (and `Push`, 78-80). -/
def append (r : Ring T) (v : T) : Go (Ring T) := do
  let r ← checkGrowth r
  let i := r.st + r.len
  let i := if i ≥ r.buf.length then i - r.buf.length else i
  let buf ← goSet r.buf i v
  pure ⟨buf, r.st, r.len + 1⟩

/-- ds/xring/ring.go:101-110 `Prepend`. -/
def prepend (r : Ring T) (v : T) : Go (Ring T) := do
  let r ← checkGrowth r
  let i : Int := (r.st : Int) - 1
  let i := if i < 0 then i + r.buf.length else i
  let buf ← goSet r.buf i v
  pure ⟨buf, i.toNat, r.len + 1⟩

/-- ds/xring/ring.go:112-124 `DeleteLast`. -/
def deleteLast (r : Ring T) : Go (Ring T) :=
  if r.len = 0 then .error "delete from empty queue"
  else do
    let r ← checkShrink r
    let i : Int := (r.st : Int) + r.len - 1
    let i := if i ≥ r.buf.length then i - r.buf.length else i
    let buf ← goSet r.buf i default
    pure ⟨buf, r.st, r.len - 1⟩

/-- ds/xring/ring.go:126-138 `DeleteFirst`. -/
def deleteFirst (r : Ring T) : Go (Ring T) :=
  if r.len = 0 then .error "delete from empty queue"
  else do
    let r ← checkShrink r
    let buf ← goSet r.buf r.st default
    let st := r.st + 1
    let len := r.len - 1
    let st := if st = buf.length then 0 else st
    pure ⟨buf, st, len⟩

/-- ds/xring/ring.go:140-142 `Len`. -/
def Len (r : Ring T) : Nat := r.len

/-- ds/xring/ring.go:144-146 `Cap`. -/
def Cap (r : Ring T) : Nat := r.buf.length

/-- ds/xring/ring.go:148-150 `Empty`. -/
def empty (r : Ring T) : Bool := r.len == 0

/-- ds/xring/ring.go:170-179 `AtRef`: the index in `buf` the returned pointer refers to. -/
def atRef (r : Ring T) (i : Int) : Go Int :=
  if i < 0 ∨ (r.len : Int) ≤ i then .error "index out of bound"
  else
    let i := i + r.st
    let i := if i ≥ r.buf.length then i - r.buf.length else i
    if 0 ≤ i ∧ i.toNat < r.buf.length then .ok i else .error "index out of range"

/-- ds/xring/ring.go:181-183 `At`. -/
def at_ (r : Ring T) (i : Int) : Go T := do
  let j ← atRef r i
  goGet r.buf j

/-- ds/xring/ring.go:185-187 `Set`. -/
def set_ (r : Ring T) (i : Int) (v : T) : Go (Ring T) := do
  let j ← atRef r i
  let buf ← goSet r.buf j v
  pure ⟨buf, r.st, r.len⟩

/-- ds/xring/ring.go:189-194 `First`. -/
def first (r : Ring T) : Go T :=
  if r.len = 0 then .error "get from empty queue" else goGet r.buf r.st

/-- ds/xring/ring.go:196-205 `Last`. -/
def last (r : Ring T) : Go T :=
  if r.len = 0 then .error "get from empty queue"
  else
    let i : Int := (r.st : Int) + r.len - 1
    let i := if i ≥ r.buf.length then i - r.buf.length else i
    goGet r.buf i

/-- ds/xring/ring.go:82-89 `Pop`. -/
def pop (r : Ring T) : Go (Ring T × T) :=
  if empty r then .error "pop from empty queu"
  else do
    let v ← first r
    let r ← deleteFirst r
    pure (r, v)

/-! ## The ring as a state machine over its exported methods -/

/-- Calls on a ring. -/
inductive Op (T : Type)
  | append (v : T) | push (v : T) | prepend (v : T)
  | pop | deleteFirst | deleteLast
  | set (i : Int) (v : T) | at (i : Int) | first | last | len | isEmpty | toSlice

/-- What a call returns; `panic` for any panic. -/
inductive Out (T : Type)
  | unit | val (v : T) | num (n : Nat) | bool (b : Bool) | slice (l : Option (List T)) | panic
deriving DecidableEq

/-- One call; after a panic the ring is as before (all panics in `ring.go` precede the writes). -/
def step (r : Ring T) : Op T → Ring T × Out T
  | .append v => match append r v with | .ok r' => (r', .unit) | .error _ => (r, .panic)
  | .push v => match append r v with | .ok r' => (r', .unit) | .error _ => (r, .panic)
  | .prepend v => match prepend r v with | .ok r' => (r', .unit) | .error _ => (r, .panic)
  | .pop => match pop r with | .ok (r', v) => (r', .val v) | .error _ => (r, .panic)
  | .deleteFirst => match deleteFirst r with | .ok r' => (r', .unit) | .error _ => (r, .panic)
  | .deleteLast => match deleteLast r with | .ok r' => (r', .unit) | .error _ => (r, .panic)
  | .set i v => match set_ r i v with | .ok r' => (r', .unit) | .error _ => (r, .panic)
  | .at i => match at_ r i with | .ok v => (r, .val v) | .error _ => (r, .panic)
  | .first => match first r with | .ok v => (r, .val v) | .error _ => (r, .panic)
  | .last => match last r with | .ok v => (r, .val v) | .error _ => (r, .panic)
  | .len => (r, .num (Len r))
  | .isEmpty => (r, .bool (empty r))
  | .toSlice => match toSlice r none with | .ok (l, _) => (r, .slice l) | .error _ => (r, .panic)

/-- A sequence of calls: final ring and the list of results. -/
def run (r : Ring T) : List (Op T) → Ring T × List (Out T)
  | [] => (r, [])
  | o :: os =>
    let (r₁, out) := step r o
    let (r₂, outs) := run r₁ os
    (r₂, out :: outs)

end Verif.Ring
