import Verif.Iter.State

/-!
# Model of `/repo/ds/iter`: iterator interfaces, reverse iterators, ranges, inserters

The Go interfaces are classes over a memory type `S`; `Next`, `Prev`, `Add`, `Equal`, `Pos` touch no
memory in any iterator of the library, `Get` and `Set` do. Go's `int` is `Int` kept in range by
`wrap64` wherever the code computes with an unchecked operand.
-/

namespace Verif.Iter

/-- ds/iter/iterator.go:4-14 `ConstIterator`, `Iterator`. -/
class Iter (S T : outParam Type) (It : Type) where
  next : It → Go It
  get : It → St S T
  set : It → T → St S Unit
  equal : It → It → Go Bool

/-- ds/iter/iterator.go:17-39 `BidirIterator`, `RandomIterator` (and their read-only versions). -/
class RandIter (S T : outParam Type) (It : Type) extends Iter S T It where
  prev : It → Go It
  add : It → Int → Go It
  pos : It → Int

export Iter (next get set equal)
export RandIter (prev add pos)

variable {S T It : Type}

/-- ds/iter/reverse.go:111-117 `ReverseRandomIterator`, `ReverseRandom`. (`ReverseIterator`,
`ConstReverseIterator` and `ConstReverseRandomIterator`, ds/iter/reverse.go:6-106, have the same methods where
they have them at all; this one model covers the four.) -/
structure Rev (It : Type) where
  i : It

/-- ds/iter/reverse.go:119-121 `Base`. -/
def Rev.base (c : Rev It) : It := c.i

/-- ds/iter/reverse.go:123-149: the methods of `ReverseRandomIterator`. -/
instance [RandIter S T It] : RandIter S T (Rev It) where
  next c := match prev c.i with | .ok i => .ok ⟨i⟩ | .error e => .error e
  prev c := match next c.i with | .ok i => .ok ⟨i⟩ | .error e => .error e
  add c offset := match add c.i (wrap64 (-offset)) with | .ok i => .ok ⟨i⟩ | .error e => .error e
  pos c := wrap64 (- pos c.i)
  get c := do
    let i ← St.lift (prev c.i)
    get i
  set c v := do
    let i ← St.lift (prev c.i)
    set i v
  equal c other := equal c.i other.i

/-- ds/iter/range.go:3-10 `Range`, `MakeRange`. -/
structure Range (It : Type) where
  first : It
  last : It

/-- ds/iter/range.go:12-14 `ReverseRandomRange` — the ends are *not* exchanged. -/
def reverseRandomRange (r : Range It) : Range (Rev It) := ⟨⟨r.first⟩, ⟨r.last⟩⟩

/-- ds/iter/range.go:16-18 `SubRange`. -/
def subRange [RandIter S T It] (r : Range It) (first last : Int) : Go (Range It) := do
  let a ← add r.first first
  let b ← add r.first last
  pure ⟨a, b⟩

/-- ds/iter/range.go:20-22 `RangeDistance`. -/
def rangeDistance [RandIter S T It] (r : Range It) : Int := wrap64 (pos r.last - pos r.first)

/-- ds/iter/funcs.go:3-6 `Distance` (it calls `Equal` for its panic on foreign iterators). -/
def distance [RandIter S T It] (a b : It) : Go Int := do
  let _ ← equal a b
  pure (wrap64 (pos b - pos a))

/-- ds/iter/dummy.go:7-38 `DummyIterator`. -/
structure Dummy (S T : Type) where

instance [Inhabited T] : RandIter S T (Dummy S T) where
  next it := .ok it
  prev it := .ok it
  add it _ := .ok it
  pos _ := 0
  get _ := pure default
  set _ _ := pure ()
  equal _ _ := .ok true

/-- `==` on values of an interface type: it panics if both hold values of the same type and that type is not
comparable. -/
class IfaceEq (A : Type) where
  same : A → A → Go Bool

/-- ds/iter/inserter.go:14-16 `Appender` (the receiver is part of the memory). -/
class Appender (S T : outParam Type) (A : Type) where
  append : A → T → St S Unit

/-- ds/iter/inserter.go:10-20 `AppendIterator`. -/
structure AppendIter (A : Type) where
  a : A

/-- ds/iter/inserter.go:22-36: the methods of `AppendIterator`. -/
instance {A : Type} [Inhabited T] [IfaceEq A] [Appender S T A] : Iter S T (AppendIter A) where
  next it := .ok it
  get _ := pure default
  set it v := Appender.append it.a v
  equal x y := IfaceEq.same x.a y.a

/-- ds/iter/inserter.go:45-47 `Prepender`. -/
class Prepender (S T : outParam Type) (A : Type) where
  prepend : A → T → St S Unit

/-- ds/iter/inserter.go:41-51 `PrependIterator`. -/
structure PrependIter (A : Type) where
  p : A

/-- ds/iter/inserter.go:53-67: the methods of `PrependIterator`. -/
instance {A : Type} [Inhabited T] [IfaceEq A] [Prepender S T A] : Iter S T (PrependIter A) where
  next it := .ok it
  get _ := pure default
  set it v := Prepender.prepend it.p v
  equal x y := IfaceEq.same x.p y.p

/-- ds/iter/inserter.go:77-79 `Inserter`: `Insert(pos, value)` returns an iterator. -/
class Inserter (S T : outParam Type) (I It : Type) where
  insert : I → It → T → St S It

/-- ds/iter/inserter.go:97-99 `InsertIterator.Set`: the iterator's position `p` (a field behind a pointer) moves
behind the inserted element; the new position is returned here. -/
def insertIterSet {I : Type} [Iter S T It] [Inserter S T I It] (ins : I) (p : It) (v : T) : St S It := do
  let q ← Inserter.insert ins p v
  St.lift (next q)

end Verif.Iter
