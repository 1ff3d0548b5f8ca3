import Verif.Conc.Prog

/-!
# `atomic.Ptr` (atomic/ptr.go)

Every method is one call of `sync/atomic`, which is taken to be one atomic step on the pointer. The
conversions between `*T` and `unsafe.Pointer` change nothing.
-/

namespace Verif.AtomicPtr

open Verif.Conc

/-- A pointer: `none` is nil, addresses are numbers. -/
abbrev Addr := Option Nat

/-- `sync/atomic` on the pointer `p.v`. -/
inductive Act where
  /-- `atomic.LoadPointer(&p.v)` -/
  | loadPointer
  /-- `atomic.StorePointer(&p.v, q)` -/
  | storePointer (q : Addr)
  /-- `atomic.SwapPointer(&p.v, q)` -/
  | swapPointer (q : Addr)
  /-- `atomic.CompareAndSwapPointer(&p.v, p, q)` -/
  | casPointer (p q : Addr)

/-- What they answer. -/
abbrev Ans : Act → Type
  | .loadPointer => Addr
  | .storePointer _ => Unit
  | .swapPointer _ => Addr
  | .casPointer _ _ => Bool

/-- What the steps do to `p.v`. -/
inductive AStep (t : Tid) : (a : Act) → Addr → Ans a → Addr → Prop where
  | load (v : Addr) : AStep t .loadPointer v v v
  | store (v q : Addr) : AStep t (.storePointer q) v () q
  | swap (v q : Addr) : AStep t (.swapPointer q) v v q
  | casHit (p q : Addr) : AStep t (.casPointer p q) p true q
  | casMiss (v p q : Addr) : v ≠ p → AStep t (.casPointer p q) v false v

/-- The machine. -/
abbrev mach : Machine := ⟨Act, Ans, Addr, AStep⟩

/-- The methods. -/
inductive Op where
  | load | store (q : Addr) | swap (q : Addr) | cas (old new : Addr)
  deriving DecidableEq

/-- Their results. -/
inductive Res where
  | unit | ptr (p : Addr) | bool (b : Bool)
  deriving DecidableEq

/-- Programs. -/
abbrev P := Prog Act Ans Res

/-- `Load` (atomic/ptr.go:22-24). -/
def load : P := .act .loadPointer fun p => .ret (.ptr p)

/-- `Store` (atomic/ptr.go:27-29). -/
def store (q : Addr) : P := .act (.storePointer q) fun _ => .ret .unit

/-- `Swap` (atomic/ptr.go:32-34). -/
def swap (q : Addr) : P := .act (.swapPointer q) fun p => .ret (.ptr p)

/-- `CompareAndSwap` (atomic/ptr.go:37-39). -/
def cas (old new : Addr) : P := .act (.casPointer old new) fun b => .ret (.bool b)

/-- The methods. -/
def body : Op → P
  | .load => load
  | .store q => store q
  | .swap q => swap q
  | .cas o n => cas o n

/-- `NewPtr` (atomic/ptr.go:17-19); the zero `Ptr` is `newPtr none`. -/
def newPtr (q : Addr) : Addr := q

end Verif.AtomicPtr
