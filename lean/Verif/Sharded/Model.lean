import Verif.GoMap.Model
import Verif.Conc.Prog

/-!
# `Sharded` (ds/xmap/sharded.go) as programs over locks and tables

Each method is the sequence of its lock operations, table accesses and calls of user code. `sync.RWMutex`
is modelled after its implementation: `Lock` first takes the writers' mutex, which stops new readers, then
waits for the readers inside to leave. (The model lets a later writer overtake readers that wait for the
current one; the real one does not. So the model has more executions.) A lock operation that the real one
answers with a fatal error (unlocking what one does not hold) has no step here: the theorems show that it
does not come up.

Not modelled: `NewSharded` (CPU count and the runtime's hash), `MarshalJSON` (encoding/json applied to
`ToMap`). User code that calls back into the map is in Sharded/Reentrant.lean.
-/

namespace Verif.Sharded

open Verif.Conc Verif.GoMap

/-- A `sync.RWMutex`. -/
structure RW where
  /-- who holds the writers' mutex -/
  wr : Option Tid
  /-- and whether it has waited for the readers to leave -/
  active : Bool
  /-- the readers inside -/
  rd : List Tid
  deriving DecidableEq

/-- The shards: their tables and locks (ds/xmap/sharded.go:14-23). -/
structure Sh (K V : Type) where
  /-- `items` of each shard -/
  items : Nat → Tab K V
  /-- the lock of each shard -/
  lock : Nat → RW

/-- Steps of the methods. -/
inductive Act (K V : Type) where
  /-- `Lock`, first half: take the writers' mutex -/
  | lockBegin (i : Nat)
  /-- `Lock`, second half: wait until no reader is inside -/
  | lockWait (i : Nat)
  /-- `Unlock` -/
  | unlock (i : Nat)
  /-- `RLock` -/
  | rlock (i : Nat)
  /-- `RUnlock` -/
  | runlock (i : Nat)
  /-- read the table of a shard -/
  | read (i : Nat)
  /-- change the table of a shard -/
  | write (i : Nat) (f : Tab K V → Tab K V)
  /-- call the factory given to `GetOrSetFactory` for key `k` -/
  | factory (k : K)
  /-- call the user's `fn` -/
  | callback
  /-- the user's `fn` decides how to change a shard -/
  | edit
  /-- the runtime chooses the order of a `range` loop -/
  | order

/-- What they answer: the table; what the factory returns (`none`: it panics); whether `fn` returns
(`false`: it panics); how the user's `fn` changes the table (`none`: it panics); the order. -/
abbrev Ans {K V : Type} [BEq K] : Act K V → Type
  | .read _ => Tab K V
  | .factory _ => Option V
  | .callback => Bool
  | .edit => Option {f : Tab K V → Tab K V // ∀ m, m.WF → (f m).WF}
  | .order => Order K V
  | _ => Unit

/-- Change one value of a function on shard numbers. -/
def set1 {α : Type} (f : Nat → α) (i : Nat) (x : α) : Nat → α := fun j => if j = i then x else f j

/-- What the steps do. -/
inductive AStep {K V : Type} [BEq K] (t : Tid) : (a : Act K V) → Sh K V → Ans a → Sh K V → Prop where
  | lockBegin (σ : Sh K V) (i : Nat) : (σ.lock i).wr = none →
      AStep t (.lockBegin i) σ () { σ with lock := set1 σ.lock i { σ.lock i with wr := some t, active := false } }
  | lockWait (σ : Sh K V) (i : Nat) : (σ.lock i).wr = some t → (σ.lock i).active = false → (σ.lock i).rd = [] →
      AStep t (.lockWait i) σ () { σ with lock := set1 σ.lock i { σ.lock i with active := true } }
  | unlock (σ : Sh K V) (i : Nat) : (σ.lock i).wr = some t → (σ.lock i).active = true →
      AStep t (.unlock i) σ () { σ with lock := set1 σ.lock i { σ.lock i with wr := none, active := false } }
  | rlock (σ : Sh K V) (i : Nat) : (σ.lock i).wr = none →
      AStep t (.rlock i) σ () { σ with lock := set1 σ.lock i { σ.lock i with rd := t :: (σ.lock i).rd } }
  | runlock (σ : Sh K V) (i : Nat) : t ∈ (σ.lock i).rd →
      AStep t (.runlock i) σ () { σ with lock := set1 σ.lock i { σ.lock i with rd := (σ.lock i).rd.erase t } }
  | read (σ : Sh K V) (i : Nat) : AStep t (.read i) σ (σ.items i) σ
  | write (σ : Sh K V) (i : Nat) (f : Tab K V → Tab K V) :
      AStep t (.write i f) σ () { σ with items := set1 σ.items i (f (σ.items i)) }
  | factory (σ : Sh K V) (k : K) (v : Option V) : AStep t (.factory k) σ v σ
  | callback (σ : Sh K V) (b : Bool) : AStep t .callback σ b σ
  | edit (σ : Sh K V) (f : Option {f : Tab K V → Tab K V // ∀ m, m.WF → (f m).WF}) : AStep t .edit σ f σ
  | order (σ : Sh K V) (o : Order K V) : AStep t .order σ o σ

/-- The machine. -/
abbrev mach (K V : Type) [BEq K] : Machine := ⟨Act K V, Ans, Sh K V, AStep⟩

/-- Results of the methods. `pair v found` is for `TryGet` and `GetOrSet…`; `visited` lists the entries
given to the user's `fn` (it is not returned by the Go method; it records the calls). -/
inductive Res (K V : Type) where
  | unit | panic | bool (b : Bool) | val (v : V) | pair (v : V) (found : Bool) | nat (n : Nat)
  | keys (l : List K) | values (l : List V) | entries (l : List (K × V)) | tab (m : Tab K V)
  | visited (l : List (K × V)) (completed : Bool)
  deriving DecidableEq

/-- The methods. -/
inductive Op (K V : Type) where
  | set (k : K) (v : V) | trySet (k : K) (v : V) | get (k : K) | tryGet (k : K) | getOrSetFactory (k : K)
  | getOrSetDefault (k : K) (v : V) | len | empty | has (k : K) | delete (k : K)
  | iterate | iterateShards | iterateShardsReadOnly | keys | values | entries | toMap | clear

/-- What is fixed when the map is made: the shards, the hash and the seed (ds/xmap/sharded.go:31-44).
`len(m.shards)` is a positive `int`: the constructor panics otherwise (C108_newSharded). -/
structure Conf (K : Type) where
  /-- number of shards -/
  n : Nat
  pos : 0 < n
  int : n < 2 ^ 63
  /-- hash with seed -/
  hash : K → UInt64 → UInt64
  /-- the seed -/
  seed : UInt64

/-- The map as made by `NewShardedCustom` (ds/xmap/sharded.go:35-43): empty tables, free locks. -/
def fresh {K V : Type} : Sh K V := ⟨fun _ => [], fun _ => ⟨none, false, []⟩⟩

/-- Which shard `GetShard` picks (ds/xmap/sharded.go:46-52). -/
def shardOf {K : Type} (c : Conf K) (k : K) : Nat :=
  if c.n = 1 then 0 else (c.hash k c.seed % UInt64.ofNat c.n).toNat

section
variable {K V : Type} [BEq K] [Inhabited V]

/-- Programs over shards. -/
abbrev P (K V : Type) [BEq K] (R : Type) := Prog (Act K V) Ans R

/-- A step whose answer is of no interest. -/
def step_ (a : Act K V) : P K V Unit := Prog.act a (fun _ => .ret ())

/-- Read the table of a shard. -/
def read (i : Nat) : P K V (Tab K V) := Prog.act (.read i) (fun m => .ret m)
/-- Call the factory. -/
def callFactory (k : K) : P K V (Option V) := Prog.act (.factory k) (fun v => .ret v)
/-- Call the user's `fn`. -/
def callFn : P K V Bool := Prog.act .callback (fun b => .ret b)
/-- Let the user's `fn` decide how to change a shard. -/
def callEdit : P K V (Option {f : Tab K V → Tab K V // ∀ m, m.WF → (f m).WF}) := Prog.act .edit (fun f => .ret f)
/-- The order of a `range` loop. -/
def rangeOrder : P K V (Order K V) := Prog.act .order (fun o => .ret o)

/-- `Lock`. -/
def lock (i : Nat) : P K V Unit := do
  step_ (.lockBegin i)
  step_ (.lockWait i)

/-- `Set` (ds/xmap/sharded.go:54-59). -/
def set (c : Conf K) (k : K) (v : V) : P K V (Res K V) := do
  let i := shardOf c k
  lock i
  step_ (.write i (·.put k v))
  step_ (.unlock i)
  return .unit

/-- `TrySet` (ds/xmap/sharded.go:61-70). -/
def trySet (c : Conf K) (k : K) (v : V) : P K V (Res K V) := do
  let i := shardOf c k
  lock i
  let items ← read i
  match items.get? k with
  | some _ => do
    step_ (.unlock i)
    return .bool false
  | none => do
    step_ (.write i (·.put k v))
    step_ (.unlock i)
    return .bool true

/-- `TryGet` (ds/xmap/sharded.go:80-86): `none` for `ok == false`. -/
def tryGetCore (c : Conf K) (k : K) : P K V (Option V) := do
  let i := shardOf c k
  step_ (.rlock i)
  let items ← read i
  step_ (.runlock i)
  return items.get? k

/-- `TryGet`. -/
def tryGet (c : Conf K) (k : K) : P K V (Res K V) := do
  match ← tryGetCore c k with
  | some v => return .pair v true
  | none => return .pair default false

/-- `Get` (ds/xmap/sharded.go:72-78). -/
def get (c : Conf K) (k : K) : P K V (Res K V) := do
  match ← tryGetCore c k with
  | some v => return .val v
  | none => return .panic

/-- `GetOrSetFactory` (ds/xmap/sharded.go:88-101). `Unlock` is deferred: it also runs if the factory
panics. -/
def getOrSetFactory (c : Conf K) (k : K) : P K V (Res K V) := do
  match ← tryGetCore c k with
  | some v => return .pair v true
  | none => do
    let i := shardOf c k
    lock i
    let items ← read i
    match items.get? k with
    | some v => do
      step_ (.unlock i)
      return .pair v true
    | none => do
      let w ← callFactory k
      match w with
      | none => do
        step_ (.unlock i)
        return .panic
      | some v => do
        step_ (.write i (·.put k v))
        step_ (.unlock i)
        return .pair v false

/-- `GetOrSetDefault` (ds/xmap/sharded.go:103-115). -/
def getOrSetDefault (c : Conf K) (k : K) (d : V) : P K V (Res K V) := do
  match ← tryGetCore c k with
  | some v => return .pair v true
  | none => do
    let i := shardOf c k
    lock i
    let items ← read i
    match items.get? k with
    | some v => do
      step_ (.unlock i)
      return .pair v true
    | none => do
      step_ (.write i (·.put k d))
      step_ (.unlock i)
      return .pair d false

/-- `Has` (ds/xmap/sharded.go:141-147). -/
def has (c : Conf K) (k : K) : P K V (Res K V) := do
  let i := shardOf c k
  step_ (.rlock i)
  let items ← read i
  step_ (.runlock i)
  return .bool (items.get? k).isSome

/-- `Delete` (ds/xmap/sharded.go:149-154). -/
def delete (c : Conf K) (k : K) : P K V (Res K V) := do
  let i := shardOf c k
  lock i
  step_ (.write i (·.del k))
  step_ (.unlock i)
  return .unit

/-- The loop of `Len` over `rem` shards from `i` on (ds/xmap/sharded.go:117-126). -/
def lenLoop : (i rem count : Nat) → P K V (Res K V)
  | _, 0, count => return .nat count
  | i, rem + 1, count => do
    step_ (.rlock i)
    let items ← read i
    step_ (.runlock i)
    lenLoop (i + 1) rem (count + items.length)

/-- `Len`. -/
def len (c : Conf K) : P K V (Res K V) := lenLoop 0 c.n 0

/-- The loop of `Empty` (ds/xmap/sharded.go:128-139). -/
def emptyLoop : (i rem : Nat) → P K V (Res K V)
  | _, 0 => return .bool true
  | i, rem + 1 => do
    step_ (.rlock i)
    let items ← read i
    step_ (.runlock i)
    if items.length > 0 then return .bool false
    else emptyLoop (i + 1) rem

/-- `Empty`. -/
def empty (c : Conf K) : P K V (Res K V) := emptyLoop 0 c.n

/-- Calls the user's `fn` on each entry; the entries it was called on, and whether it always returned. -/
def visitAll : List (K × V) → List (K × V) → P K V (List (K × V) × Bool)
  | [], done => return (done, true)
  | e :: es, done => do
    let b ← callFn
    if b then visitAll es (done ++ [e]) else return (done ++ [e], false)

/-- The loop of `Iterate` (ds/xmap/sharded.go:159-170). `RUnlock` is deferred. -/
def iterateLoop : (i rem : Nat) → List (K × V) → P K V (Res K V)
  | _, 0, acc => return .visited acc true
  | i, rem + 1, acc => do
    step_ (.rlock i)
    let items ← read i
    let o ← rangeOrder
    let (acc', ok) ← visitAll (o.visit items) acc
    step_ (.runlock i)
    if ok then iterateLoop (i + 1) rem acc' else return .visited acc' false

/-- The loop of `IterateShards` (ds/xmap/sharded.go:172-181): `fn` may change the shard. -/
def iterateShardsLoop : (i rem : Nat) → P K V (Res K V)
  | _, 0 => return .unit
  | i, rem + 1 => do
    lock i
    let f ← callEdit
    match f with
    | none => do
      step_ (.unlock i)
      return .panic
    | some f => do
      step_ (.write i f.1)
      step_ (.unlock i)
      iterateShardsLoop (i + 1) rem

/-- The loop of `IterateShardsReadOnly` (ds/xmap/sharded.go:183-192) with the user's `fn`. -/
def iterateShardsReadOnlyLoop : (i rem : Nat) → P K V (Res K V)
  | _, 0 => return .unit
  | i, rem + 1 => do
    step_ (.rlock i)
    let _ ← read i
    let b ← callFn
    step_ (.runlock i)
    if b then iterateShardsReadOnlyLoop (i + 1) rem else return .panic

/-- The loop of `IterateShardsReadOnly` with the functions of `Keys`, `Values`, `Entries` and `ToMap`
(ds/xmap/sharded.go:194-235), which go through the shard and collect into a variable: `add acc entries`. -/
def collectLoop {α : Type} (add : α → List (K × V) → α) : (i rem : Nat) → α → P K V α
  | _, 0, acc => return acc
  | i, rem + 1, acc => do
    step_ (.rlock i)
    let items ← read i
    let o ← rangeOrder
    step_ (.runlock i)
    collectLoop add (i + 1) rem (add acc (o.visit items))

/-- `Keys` (ds/xmap/sharded.go:194-202). -/
def keys (c : Conf K) : P K V (Res K V) := do
  let l ← collectLoop (fun acc es => es.foldl (fun acc e => acc ++ [e.1]) acc) 0 c.n []
  return .keys l

/-- `Values` (ds/xmap/sharded.go:204-212). -/
def values (c : Conf K) : P K V (Res K V) := do
  let l ← collectLoop (fun acc es => es.foldl (fun acc e => acc ++ [e.2]) acc) 0 c.n []
  return .values l

/-- `Entries` (ds/xmap/sharded.go:214-225). -/
def entries (c : Conf K) : P K V (Res K V) := do
  let l ← collectLoop (fun acc es => es.foldl (fun acc e => acc ++ [(e.1, e.2)]) acc) 0 c.n []
  return .entries l

/-- `ToMap` (ds/xmap/sharded.go:227-235). -/
def toMap (c : Conf K) : P K V (Res K V) := do
  let m ← collectLoop (fun (acc : Tab K V) es => es.foldl (fun acc e => acc.put e.1 e.2) acc) 0 c.n []
  return .tab m

/-- The loop of `Clear` (ds/xmap/sharded.go:241-250). Note `RLock`. -/
def clearLoop : (i rem : Nat) → P K V (Res K V)
  | _, 0 => return .unit
  | i, rem + 1 => do
    step_ (.rlock i)
    step_ (.write i (fun _ => []))
    step_ (.runlock i)
    clearLoop (i + 1) rem

/-- The methods. -/
def body (c : Conf K) : Op K V → P K V (Res K V)
  | .set k v => set c k v
  | .trySet k v => trySet c k v
  | .get k => get c k
  | .tryGet k => tryGet c k
  | .getOrSetFactory k => getOrSetFactory c k
  | .getOrSetDefault k v => getOrSetDefault c k v
  | .len => len c
  | .empty => empty c
  | .has k => has c k
  | .delete k => delete c k
  | .iterate => iterateLoop 0 c.n []
  | .iterateShards => iterateShardsLoop 0 c.n
  | .iterateShardsReadOnly => iterateShardsReadOnlyLoop 0 c.n
  | .keys => keys c
  | .values => values c
  | .entries => entries c
  | .toMap => toMap c
  | .clear => clearLoop 0 c.n

end

end Verif.Sharded
