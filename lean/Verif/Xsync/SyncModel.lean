import Verif.Conc.Lin
import Verif.Conc.Moment

/-!
# `Synchronized` and `RWSynchronized` (xsync/synchronized.go)

The lock and the value it guards, used by goroutines that follow the rule the types are made for: they touch
`Value` only through the pointer they got from `Lock` (`RLock`), before they call `Unlock` (`RUnlock`), and only
read it under `RLock`. What they do meanwhile is arbitrary (`User`). `sync.Mutex` and `sync.RWMutex` are modelled:
a mutex is held by at most one goroutine; `RWMutex.Lock` first takes the writers' mutex, which stops new readers,
then waits for the readers inside to leave.
-/

namespace Verif.Xsync

open Verif.Conc

/-- What a user does with the value while holding the lock: reads and writes, and in the end a result. -/
inductive User (T R : Type) where
  | ret (r : R)
  | read (k : T → User T R)
  | write (v : T) (k : User T R)

/-- What the user's code does alone. -/
def User.run {T R : Type} : User T R → T → R × T
  | .ret r, x => (r, x)
  | .read k, x => (k x).run x
  | .write v k, _ => k.run v

/-- It only reads. -/
def User.ReadOnly {T R : Type} : User T R → Prop
  | .ret _ => True
  | .read k => ∀ x, (k x).ReadOnly
  | .write _ _ => False

/-- Lock state: who holds it (or has announced to write), whether it has waited for readers, and the readers. -/
structure Lock where
  /-- who has the (writers') mutex -/
  wr : Option Tid
  /-- and whether it is inside -/
  active : Bool
  /-- the readers inside -/
  rd : List Tid
  deriving DecidableEq

/-- `Synchronized[T]` or `RWSynchronized[T]` (xsync/synchronized.go:8-11, 23-26). -/
structure Sh (T : Type) where
  /-- `Value` -/
  val : T
  /-- `Mutex` or `RWMutex` -/
  lock : Lock

/-- Steps. -/
inductive Act (T : Type) where
  /-- `Mutex.Lock` -/
  | lock
  /-- `RWMutex.Lock`: take the writers' mutex -/
  | lockBegin
  /-- `RWMutex.Lock`: wait for the readers -/
  | lockWait
  /-- `Unlock` -/
  | unlock
  /-- `RLock` -/
  | rlock
  /-- `RUnlock` -/
  | runlock
  /-- read through the pointer -/
  | read
  /-- write through the pointer -/
  | write (v : T)

/-- Answers. -/
abbrev Ans {T : Type} : Act T → Type
  | .read => T
  | _ => Unit

/-- What the steps do. -/
inductive AStep {T : Type} (t : Tid) : (a : Act T) → Sh T → Ans a → Sh T → Prop where
  | lock (σ : Sh T) : σ.lock.wr = none → σ.lock.rd = [] →
      AStep t .lock σ () { σ with lock := { σ.lock with wr := some t, active := true } }
  | lockBegin (σ : Sh T) : σ.lock.wr = none →
      AStep t .lockBegin σ () { σ with lock := { σ.lock with wr := some t, active := false } }
  | lockWait (σ : Sh T) : σ.lock.wr = some t → σ.lock.active = false → σ.lock.rd = [] →
      AStep t .lockWait σ () { σ with lock := { σ.lock with active := true } }
  | unlock (σ : Sh T) : σ.lock.wr = some t → σ.lock.active = true →
      AStep t .unlock σ () { σ with lock := { σ.lock with wr := none, active := false } }
  | rlock (σ : Sh T) : σ.lock.wr = none →
      AStep t .rlock σ () { σ with lock := { σ.lock with rd := t :: σ.lock.rd } }
  | runlock (σ : Sh T) : t ∈ σ.lock.rd →
      AStep t .runlock σ () { σ with lock := { σ.lock with rd := σ.lock.rd.erase t } }
  | read (σ : Sh T) : AStep t .read σ σ.val σ
  | write (σ : Sh T) (v : T) : AStep t (.write v) σ () { σ with val := v }

/-- The machine. -/
abbrev mach (T : Type) : Machine := ⟨Act T, Ans, Sh T, AStep⟩

/-- Ways to use the value. -/
inductive Op (T R : Type) where
  /-- `Lock`, do `u`, `Unlock` on a `Synchronized` (xsync/synchronized.go:13-20) -/
  | mutex (u : User T R)
  /-- `Lock`, do `u`, `Unlock` on a `RWSynchronized` (xsync/synchronized.go:28-35) -/
  | locked (u : User T R)
  /-- `RLock`, do `u`, `RUnlock` on a `RWSynchronized` (xsync/synchronized.go:37-44) -/
  | rlocked (u : User T R)

/-- The user's code, then `last`. -/
def User.prog {T R : Type} (last : Act T) : User T R → Prog (Act T) Ans R
  | .ret r => .act last fun _ => .ret r
  | .read k => .act .read fun x => (k x).prog last
  | .write v k => .act (.write v) fun _ => k.prog last

/-- The uses as programs. -/
def body {T R : Type} : Op T R → Prog (Act T) Ans R
  | .mutex u => .act .lock fun _ => u.prog .unlock
  | .locked u => .act .lockBegin fun _ => .act .lockWait fun _ => u.prog .unlock
  | .rlocked u => .act .rlock fun _ => u.prog .runlock

/-- A fresh value. -/
def fresh {T : Type} (x : T) : Sh T := ⟨x, none, false, []⟩

end Verif.Xsync
