import Verif.Iter.Model

/-!
# Model of `/repo/ds/xslice`: slices as windows of arrays in a heap

Simplifications: element types of size zero (for which all pointers are equal) are not modelled; the
spare capacity chosen by Go's `append` is an argument (`extra`), so theorems hold for every choice.
Allocation never fails.
-/

namespace Verif.Slice

open Verif.Iter

variable {T : Type} [Inhabited T]

/-- The heap: arrays by address. -/
abbrev Heap (T : Type) := List (List T)

/-- The data pointer of a slice: nil, the address shared by all zero-length allocations, or a place in
an array. -/
inductive Ptr
  | nil
  | zero
  | arr (a off : Nat)
deriving DecidableEq

/-- A Go slice header. -/
structure Slice where
  ptr : Ptr
  len : Nat
  cap : Nat
deriving DecidableEq

/-- The nil slice. -/
def Slice.nil : Slice := ⟨.nil, 0, 0⟩

/-- The header describes memory that exists; Go maintains this for every slice. Lengths are Go `int`s. -/
def Valid (h : Heap T) (s : Slice) : Prop :=
  s.len ≤ s.cap ∧ (s.cap : Int) < 9223372036854775808 ∧
  match s.ptr with
  | .nil => s.cap = 0
  | .zero => s.cap = 0
  | .arr a off => ∃ A, h[a]? = some A ∧ off + s.cap ≤ A.length

/-- The elements of the slice. -/
def contents (h : Heap T) (s : Slice) : List T :=
  match s.ptr with
  | .arr a off => ((h[a]?.getD []).drop off).take s.len
  | _ => []

/-- Overwrite part of an array from `off` on. -/
def splice (A : List T) (off : Nat) (l : List T) : List T := A.take off ++ l ++ A.drop (off + l.length)

/-- Overwrite memory from a pointer on. -/
def poke (h : Heap T) (p : Ptr) (i : Nat) (l : List T) : Heap T :=
  match p with
  | .arr a off => h.modify a fun A => splice A (off + i) l
  | _ => h

/-- `s[i]`. -/
def load (s : Slice) (i : Int) : St (Heap T) T := fun h =>
  if 0 ≤ i then
    match (contents h s)[i.toNat]? with
    | some x => (.ok x, h)
    | none => (.error "index out of range", h)
  else (.error "index out of range", h)

/-- `s[i] = v`. -/
def store (s : Slice) (i : Int) (v : T) : St (Heap T) Unit := fun h =>
  if 0 ≤ i ∧ i < s.len then (.ok (), poke h s.ptr i.toNat [v]) else (.error "index out of range", h)

/-- Go slice expression `s[i:j]`. The pointer does not move when no capacity is left. -/
def reslice (s : Slice) (i j : Int) : Go Slice :=
  if 0 ≤ i ∧ i ≤ j ∧ j ≤ s.cap then
    .ok ⟨match s.ptr with
      | .arr a off => if s.cap - i.toNat = 0 then .arr a off else .arr a (off + i.toNat)
      | p => p, (j - i).toNat, s.cap - i.toNat⟩
  else .error "slice bounds out of range"

/-- Go builtin `append(s, vs...)`; a new array gets `extra` spare zero elements. -/
def appendMany (extra : Nat) (s : Slice) (vs : List T) : St (Heap T) Slice := fun h =>
  if s.len + vs.length ≤ s.cap then
    (.ok ⟨s.ptr, s.len + vs.length, s.cap⟩, poke h s.ptr s.len vs)
  else
    (.ok ⟨.arr h.length 0, s.len + vs.length, s.len + vs.length + extra⟩,
      h ++ [contents h s ++ vs ++ List.replicate extra default])

/-- Go builtin `copy(dst, src)`. -/
def copySlice (dst src : Slice) : St (Heap T) Unit := fun h =>
  (.ok (), poke h dst.ptr 0 ((contents h src).take dst.len))

/-- Go builtin `make([]T, n)`. -/
def makeSlice (n : Int) : St (Heap T) Slice := fun h =>
  if n < 0 then (.error "makeslice: len out of range", h)
  else if n = 0 then (.ok ⟨.zero, 0, 0⟩, h)
  else (.ok ⟨.arr h.length 0, n.toNat, n.toNat⟩, h ++ [List.replicate n.toNat default])

/-! ## ops.go -/

/-- ds/xslice/ops.go:8-17 `UnorderedDelete`. -/
def unorderedDelete (s : Slice) (i : Int) : St (Heap T) Slice :=
  if i < 0 ∨ s.len ≤ i then St.panic "delete out of bound"
  else do
    let last : Int := s.len - 1
    if i < last then
      let x ← load s last
      let y ← load s i
      store s i x
      store s last y
    St.lift (reslice s 0 last)

/-- ds/xslice/ops.go:19-27 `Delete`. -/
def delete (s : Slice) (i : Int) : St (Heap T) Slice :=
  if i < 0 ∨ s.len ≤ i then St.panic "delete out of bound"
  else do
    if i < s.len - 1 then
      let dst ← St.lift (reslice s i s.len)
      let src ← St.lift (reslice s (i + 1) s.len)
      copySlice dst src
    St.lift (reslice s 0 (s.len - 1))

/-- ds/xslice/ops.go:29-34 `DeleteLast`. -/
def deleteLast (s : Slice) : St (Heap T) Slice :=
  if s.len = 0 then St.panic "delete from empty slice"
  else St.lift (reslice s 0 (s.len - 1))

/-- ds/xslice/ops.go:36-48 `Insert`. -/
def insert (extra : Nat) (s : Slice) (i : Int) (value : T) : St (Heap T) Slice :=
  if i < 0 ∨ s.len < i then St.panic "insert out of bound"
  else if i < s.len then do
    let s ← appendMany extra s [value]
    let dst ← St.lift (reslice s (i + 1) s.len)
    let src ← St.lift (reslice s i (s.len - 1))
    copySlice dst src
    store s i value
    pure s
  else appendMany extra s [value]

/-- ds/xslice/ops.go:50-54 `ReferenceEqual`: equality of the data pointers. -/
def referenceEqual (a b : Slice) : Bool := decide (a.ptr = b.ptr)

/-! ## slice.go -/

/-- ds/xslice/slice.go:14-16 `NewLen`. -/
def newLen (len : Int) : St (Heap T) Slice := makeSlice len

/-- ds/xslice/slice.go:18-20 `NewLenCap`: the length given to `make` is `cap`. -/
def newLenCap (_len cap : Int) : St (Heap T) Slice := makeSlice cap

/-- The elements of a slice, as passed by `values...` or visited by `range`. -/
def readAll (s : Slice) : St (Heap T) (List T) := fun h => (.ok (contents h s), h)

/-- ds/xslice/slice.go:30-35 `Copy`. -/
def copy (extra : Nat) (values : Slice) : St (Heap T) Slice :=
  if values.len = 0 then pure Slice.nil
  else do
    let vs ← readAll values
    appendMany extra Slice.nil vs

/-- ds/xslice/slice.go:152-154, loop of `Reversed` over the elements from index `i` on. -/
def reversedLoop (r : Slice) (last : Int) : List T → Int → St (Heap T) Unit
  | [], _ => pure ()
  | v :: vs, i => do
    store r (last - i) v
    reversedLoop r last vs (i + 1)

/-- ds/xslice/slice.go:146-156 `Reversed`. -/
def reversed (s : Slice) : St (Heap T) Slice :=
  if s.len = 0 then pure Slice.nil
  else do
    let r ← makeSlice s.len
    let vs ← readAll s
    reversedLoop r (s.len - 1) vs 0
    pure r

/-! ## iterator.go -/

/-- ds/xslice/iterator.go:13-18 `Iterator`. -/
structure SIter (T : Type) where
  pos : Int
  s : Slice
deriving DecidableEq

/-- ds/xslice/iterator.go:47-52 `Inc`. -/
def SIter.inc (it : SIter T) : Go (SIter T) :=
  if it.pos ≥ it.s.len then .error "increment out of bound" else .ok { it with pos := it.pos + 1 }

/-- ds/xslice/iterator.go:54-59 `Dec`. -/
def SIter.dec (it : SIter T) : Go (SIter T) :=
  if it.pos ≤ 0 then .error "decrement out of bound" else .ok { it with pos := it.pos - 1 }

/-- ds/xslice/iterator.go:61-67 `Advance`; the sum wraps around as Go's `int` does. -/
def SIter.advance (it : SIter T) (offset : Int) : Go (SIter T) :=
  let k := wrap64 (it.pos + offset)
  if k < 0 ∨ it.s.len < k then .error "offset out of bound" else .ok { it with pos := k }

/-- ds/xslice/iterator.go:24-45, 69-78: the iterator methods (`Next`, `Prev`, `Add` work on a copy). -/
instance : RandIter (Heap T) T (SIter T) where
  next it := it.inc
  prev it := it.dec
  add it offset := it.advance offset
  pos it := it.pos
  get it := load it.s it.pos
  set it v := store it.s it.pos v
  equal it other :=
    if !referenceEqual it.s other.s then .error "compare iterator of different slices"
    else .ok (decide (other.pos = it.pos))

/-- ds/xslice/slice.go:103-108 `IteratorAt`. -/
def iteratorAt (s : Slice) (pos : Int) : Go (SIter T) :=
  if pos < 0 ∨ s.len < pos then .error "out of bound" else .ok ⟨pos, s⟩

/-- ds/xslice/slice.go:114-116 `Begin` (it cannot fail). -/
def begin_ (s : Slice) : SIter T := ⟨0, s⟩
/-- ds/xslice/slice.go:118-120 `End`. -/
def end_ (s : Slice) : SIter T := ⟨s.len, s⟩
/-- ds/xslice/slice.go:122-124 `RBegin`. -/
def rbegin (s : Slice) : Rev (SIter T) := ⟨end_ s⟩
/-- ds/xslice/slice.go:126-128 `REnd`. -/
def rend (s : Slice) : Rev (SIter T) := ⟨begin_ s⟩
/-- ds/xslice/slice.go:130-132 `Range`. -/
def range (s : Slice) : Range (SIter T) := ⟨begin_ s, end_ s⟩
/-- ds/xslice/slice.go:134-136 `SubRange`. -/
def subRange (s : Slice) (first last : Int) : Go (Range (SIter T)) := do
  let a ← iteratorAt s first
  let b ← iteratorAt s last
  pure ⟨a, b⟩
/-- ds/xslice/slice.go:138-140 `ReverseRange`. -/
def reverseRange (s : Slice) : Range (Rev (SIter T)) := ⟨rbegin s, rend s⟩
/-- ds/xslice/slice.go:142-144 `ReverseSubRange`. -/
def reverseSubRange (s : Slice) (first last : Int) : Go (Range (Rev (SIter T))) := do
  let a ← (SIter.advance (rbegin s).i (wrap64 (-first)))
  let b ← (SIter.advance (rbegin s).i (wrap64 (-last)))
  pure ⟨⟨a⟩, ⟨b⟩⟩

/-! ## Methods on a slice variable (`*Slice[T]`) -/

/-- Memory together with one variable of type `Slice[T]`. -/
structure Mem (T : Type) where
  heap : Heap T
  var : Slice

/-- Run a heap program that computes the variable's new value. -/
def onVar (f : Slice → St (Heap T) Slice) : St (Mem T) Unit := fun m =>
  match f m.var m.heap with
  | (.ok s, h) => (.ok (), ⟨h, s⟩)
  | (.error e, h) => (.error e, ⟨h, m.var⟩)

/-- The variable as an `Appender`/`Inserter`; `grow` gives the spare capacity chosen by `append` when
the new length is the argument. -/
structure Var (T : Type) where
  grow : Nat → Nat

/-- There is one variable. -/
instance : IfaceEq (Var T) := ⟨fun _ _ => .ok true⟩

/-- ds/xslice/slice.go:37-39 `Append`. -/
def varAppend (w : Var T) (v : T) : St (Mem T) Unit :=
  onVar fun s => appendMany (w.grow (s.len + 1)) s [v]

/-- ds/xslice/slice.go:57-59 `InsertAt`. -/
def varInsertAt (w : Var T) (i : Int) (v : T) : St (Mem T) Unit :=
  onVar fun s => insert (w.grow (s.len + 1)) s i v

/-- ds/xslice/slice.go:45-47 `Delete`. -/
def varDelete (i : Int) : St (Mem T) Unit := onVar fun s => delete s i
/-- ds/xslice/slice.go:49-51 `DeleteLast`. -/
def varDeleteLast : St (Mem T) Unit := onVar fun s => deleteLast s
/-- ds/xslice/slice.go:53-55 `UnorderedDelete`. -/
def varUnorderedDelete (i : Int) : St (Mem T) Unit := onVar fun s => unorderedDelete s i

/-- ds/xslice/slice.go:162-166 `checkIterator` and 61-65 `Insert(it, value)`. -/
def varInsert (w : Var T) (it : SIter T) (v : T) : St (Mem T) (SIter T) := fun m =>
  if !referenceEqual m.var it.s then (.error "iterator does not belongs to this slice", m)
  else
    match varInsertAt w it.pos v m with
    | (.ok (), m') => (.ok ⟨it.pos, m'.var⟩, m')
    | (.error e, m') => (.error e, m')

instance : Appender (Mem T) T (Var T) where
  append w v := varAppend w v

/-- Slice iterators used beside a variable. -/
structure VIter (T : Type) where
  it : SIter T

/-- The iterator methods on `Mem`. -/
instance : Iter (Mem T) T (VIter T) where
  next x := match SIter.inc x.it with | .ok i => .ok ⟨i⟩ | .error e => .error e
  get x := fun m => match load x.it.s x.it.pos m.heap with | (r, h) => (r, { m with heap := h })
  set x v := fun m => match store x.it.s x.it.pos v m.heap with | (r, h) => (r, { m with heap := h })
  equal x y :=
    if !referenceEqual x.it.s y.it.s then .error "compare iterator of different slices"
    else .ok (decide (y.it.pos = x.it.pos))

instance : Inserter (Mem T) T (Var T) (VIter T) where
  insert w p v := fun m =>
    match varInsert w p.it v m with
    | (.ok i, m') => (.ok ⟨i⟩, m')
    | (.error e, m') => (.error e, m')

end Verif.Slice
