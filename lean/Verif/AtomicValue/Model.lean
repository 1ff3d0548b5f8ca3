import Verif.Conc.Prog

/-!
# `atomic.Value` (atomic/value.go) over an atomic pointer (atomic/ptr.go)

Memory cells, once allocated, are never written again; the pointer `p` is read and written atomically.
Allocation answers any address not allocated before. (The collector may reuse the address of a cell that
nobody can reach; such a cell is not pointed to by `p` nor by a variable of a running method, so nobody can
tell. For types of size zero all addresses are equal, but then all values are equal too, and
`CompareAndSwap` never gets to comparing pointers.) The equality `==` of the type is a parameter: for
floats it is neither reflexive nor does it tell 0 from -0. Not modelled: interface values whose comparison
panics.
-/

namespace Verif.AtomicValue

open Verif.Conc

/-- Go's `==` on a type: symmetric and transitive (not reflexive if there are NaNs). -/
structure GoEq (T : Type) where
  /-- `==` -/
  eq : T → T → Bool
  symm : ∀ a b, eq a b = true → eq b a = true
  trans : ∀ a b c, eq a b = true → eq b c = true → eq a c = true

/-- Memory: the pointer in the `Value` and the allocated cells (atomic/value.go:9-13). -/
structure Sh (T : Type) where
  /-- `v.p`; `none` is nil -/
  cur : Option Nat
  /-- the cells -/
  heap : Nat → Option T

/-- Steps of the methods. -/
inductive Act (T : Type) where
  /-- allocate a cell (for a parameter whose address is taken) -/
  | alloc (v : T)
  /-- `v.p.Load()` (atomic/ptr.go:22-24) -/
  | load
  /-- `v.p.Store(q)` (atomic/ptr.go:27-29) -/
  | store (q : Nat)
  /-- `v.p.Swap(q)` (atomic/ptr.go:32-34) -/
  | swap (q : Nat)
  /-- `v.p.CompareAndSwap(p, q)` (atomic/ptr.go:37-39) -/
  | cas (p : Option Nat) (q : Nat)
  /-- `*p` -/
  | deref (p : Nat)

/-- What they answer. -/
abbrev Ans {T : Type} : Act T → Type
  | .alloc _ => Nat
  | .load => Option Nat
  | .store _ => Unit
  | .swap _ => Option Nat
  | .cas _ _ => Bool
  | .deref _ => T

/-- A new cell. -/
def Sh.put {T : Type} (σ : Sh T) (q : Nat) (v : T) : Sh T :=
  { σ with heap := fun x => if x = q then some v else σ.heap x }

/-- What the steps do. -/
inductive AStep {T : Type} (t : Tid) : (a : Act T) → Sh T → Ans a → Sh T → Prop where
  | alloc (σ : Sh T) (v : T) (q : Nat) : σ.heap q = none → AStep t (.alloc v) σ q (σ.put q v)
  | load (σ : Sh T) : AStep t .load σ σ.cur σ
  | store (σ : Sh T) (q : Nat) : AStep t (.store q) σ () { σ with cur := some q }
  | swap (σ : Sh T) (q : Nat) : AStep t (.swap q) σ σ.cur { σ with cur := some q }
  | casHit (σ : Sh T) (p : Option Nat) (q : Nat) : σ.cur = p → AStep t (.cas p q) σ true { σ with cur := some q }
  | casMiss (σ : Sh T) (p : Option Nat) (q : Nat) : σ.cur ≠ p → AStep t (.cas p q) σ false σ
  | deref (σ : Sh T) (p : Nat) (v : T) : σ.heap p = some v → AStep t (.deref p) σ v σ

/-- The machine. -/
abbrev mach (T : Type) : Machine := ⟨Act T, Ans, Sh T, AStep⟩

/-- The methods. -/
inductive Op (T : Type) where
  | load | store (v : T) | swap (v : T) | cas (old new : T)
  deriving DecidableEq

/-- Their results. -/
inductive Res (T : Type) where
  | unit | val (v : T) | bool (b : Bool)
  deriving DecidableEq

/-- Programs. -/
abbrev P (T : Type) := Prog (Act T) Ans (Res T)

section
variable {T : Type} [Inhabited T]

/-- The end of `Load` and `Swap` (atomic/value.go:25-29, 41-45): the zero value for nil, else `*p`. -/
def valueAt : Option Nat → P T
  | none => .ret (.val default)
  | some p => .act (.deref p) fun v => .ret (.val v)

/-- `Load` (atomic/value.go:23-30). -/
def load : P T := .act .load fun p => valueAt p

/-- `Store` (atomic/value.go:33-36). -/
def store (v : T) : P T := .act (.alloc v) fun q => .act (.store q) fun _ => .ret .unit

/-- `Swap` (atomic/value.go:39-46). -/
def swap (v : T) : P T := .act (.alloc v) fun q => .act (.swap q) fun p => valueAt p

/-- The rest of `CompareAndSwap` after `w` has been read through `p` (atomic/value.go:52-65). -/
def casRest (E : GoEq T) (old new : T) (q : Nat) (p : Option Nat) (w : T) : P T :=
  if E.eq w old = false then .ret (.bool false)
  else if E.eq new old = true then .ret (.bool true)
  else .act (.cas p q) fun b => .ret (.bool b)

/-- `CompareAndSwap` (atomic/value.go:49-66). -/
def cas (E : GoEq T) (old new : T) : P T := .act (.alloc new) fun q => .act .load fun p =>
  match p with
  | none => casRest E old new q none default
  | some p => .act (.deref p) fun w => casRest E old new q (some p) w

/-- The methods. -/
def body (E : GoEq T) : Op T → P T
  | .load => load
  | .store v => store v
  | .swap v => swap v
  | .cas o n => cas E o n

/-- A zero `Value`: the pointer is nil. (`NewValue`, atomic/value.go:16-20, is a zero `Value` on which
`Store` has been called.) -/
def zero : Sh T := ⟨none, fun _ => none⟩

end

end Verif.AtomicValue
