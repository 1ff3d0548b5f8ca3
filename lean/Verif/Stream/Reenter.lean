import Verif.Stream.Model

/-!
# Streams used by their own callbacks: the model

A mapper, predicate or consumer may call methods of the stream that is running it: read from it, or add operations to
it. Then it matters that `for i, oAny := range s.ops` (stream/stream.go:73) looks at the slice header once, while
`s.ops[i] = op - 1` (:81, :86) goes to whatever `s.ops` is at that moment, and that `append` writes into the same array
or moves to another one.

* `Act` is what a callback does: it uses its own variables (`σ`), calls `s.Next()`, adds operations, and returns.
* The operations are cells of arrays. `s.ops` is the array it points into; its length is the number of cells written, as
  `s.ops` only grows or is dropped. How much `append` allocates is left open (`grow`).
* The source is one that hands out a list (`stream.Of`); it is only used through the stream.
* `taken` is a record, not part of the code: for each arrival at a `Skip` or `Limit`, the place of the operation and
  whether its counter was positive.
* A panic ends the program.
-/

namespace Verif.Stream.Reenter

/-- The three sorts of callbacks. -/
inductive Kind where
  | pred
  | map
  | peek

/-- What a callback returns. -/
def Kind.Res (T : Type) : Kind → Type
  | .pred => Bool
  | .map => T
  | .peek => Unit

mutual
/-- What a callback does, up to its return; also what the program around the stream does (as a `.peek`). -/
inductive Act (σ T : Type) : Kind → Type where
  /-- `return r` -/
  | ret {k : Kind} (r : k.Res T) : Act σ T k
  /-- reads its variables -/
  | get {k : Kind} (f : σ → Act σ T k) : Act σ T k
  /-- changes its variables -/
  | put {k : Kind} (s : σ) (a : Act σ T k) : Act σ T k
  /-- `s.Next()` -/
  | next {k : Kind} (f : Option T → Act σ T k) : Act σ T k
  /-- `s.Map(…)`, `s.Filter(…)`, `s.Limit(…)`, `s.Peek(…)` -/
  | add {k : Kind} (op : Op σ T) (a : Act σ T k) : Act σ T k
  /-- `s.Skip(n)` -/
  | skip {k : Kind} (n : Nat) (a : Act σ T k) : Act σ T k
/-- stream/stream.go:45-47, 112-151: the things stored in `Stream.ops`. -/
inductive Op (σ T : Type) : Type where
  | pred (f : T → Act σ T .pred)
  | skip (n : Nat)
  | limit (n : Nat)
  | map (f : T → Act σ T .map)
  | peek (f : T → Act σ T .peek)
end

/-- An array of operations: the cells written, and how many there is room for. -/
structure Arr (σ T : Type) where
  cells : List (Op σ T)
  cap : Nat

/-- stream/stream.go:49-57 `Stream[T]`, the arrays `ops` has pointed into, and the variables of the callbacks. -/
structure Mem (σ T : Type) where
  /-- `src`; `none` is nil -/
  src : Option (List T)
  /-- `ops`: which array; `none` is nil -/
  ops : Option Nat
  hasPred : Bool
  arrays : List (Arr σ T)
  vars : σ
  /-- the arrivals at counters -/
  taken : List (Nat × Bool)

/-- How a call ends. -/
inductive Res (σ T α : Type) where
  | ok (x : α) (m : Mem σ T)
  | panic (e : String) (m : Mem σ T)
  /-- more nested reads than asked for (`C124_returns`: does not happen) -/
  | out

variable {σ T α β : Type}

/-- Goes on after a call. -/
def Res.bind (r : Res σ T α) (f : α → Mem σ T → Res σ T β) : Res σ T β :=
  match r with
  | .ok x m => f x m
  | .panic e m => .panic e m
  | .out => .out

/-- The operation in a cell. -/
def Mem.cell (m : Mem σ T) (a i : Nat) : Option (Op σ T) := (m.arrays[a]?).bind fun x => x.cells[i]?

/-- The number of cells of an array that have been written: the length of `s.ops` while it points there. -/
def Mem.size (m : Mem σ T) (a : Nat) : Nat := ((m.arrays[a]?).map fun x => x.cells.length).getD 0

/-- stream/stream.go:157-160 `clear`. -/
def Mem.clear (m : Mem σ T) : Mem σ T := { m with src := none, ops := none }

/-- stream/stream.go:81, 86: `s.ops[i] = op`. -/
def Mem.write (m : Mem σ T) (i : Nat) (op : Op σ T) : Res σ T Unit :=
  match m.ops with
  | none => .panic "index out of range" m
  | some a =>
    if i < m.size a then .ok () { m with arrays := m.arrays.modify a fun x => { x with cells := x.cells.set i op } }
    else .panic "index out of range" m

/-- `s.ops = append(s.ops, op)` (stream/stream.go:113, 119, 135, 144, 149): in the same array if there is room, else in a new
one. -/
def Mem.append (grow : Nat → Nat) (m : Mem σ T) (op : Op σ T) : Mem σ T :=
  match m.ops with
  | none => { m with arrays := m.arrays ++ [⟨[op], max 1 (grow 0)⟩], ops := some m.arrays.length }
  | some a =>
    match m.arrays[a]? with
    | none => m -- does not happen
    | some x =>
      if x.cells.length < x.cap then
        { m with arrays := m.arrays.modify a fun x => { x with cells := x.cells ++ [op] } }
      else
        { m with
          arrays := m.arrays ++ [⟨x.cells ++ [op], max (x.cells.length + 1) (grow x.cells.length)⟩],
          ops := some m.arrays.length }

/-- Does the operation make `hasPred` true (stream/stream.go:118, 143)? -/
def Op.isPred : Op σ T → Bool
  | .pred _ => true
  | .limit _ => true
  | .skip _ => true
  | .map _ => false
  | .peek _ => false

/-- stream/stream.go:112-121, 139-151 `Map`, `Filter`, `Limit`, `Peek`. -/
def Mem.add (grow : Nat → Nat) (m : Mem σ T) (op : Op σ T) : Mem σ T :=
  { m with hasPred := m.hasPred || op.isPred }.append grow op

/-- stream/stream.go:123-137 `Skip`, for `n ≥ 0`; `SkipNext` of the source (stream/source.go:25-37) drops elements. -/
def Mem.skip (grow : Nat → Nat) (m : Mem σ T) (n : Nat) : Res σ T Unit :=
  if n = 0 then .ok () m
  else if !m.hasPred then
    match m.src with
    | none => .panic "nil pointer dereference" m
    | some l => .ok () { m with src := some (l.drop n) }
  else .ok () (m.append grow (.skip n))

/-- Runs a callback; `nx` is `s.Next`. -/
def run (grow : Nat → Nat) (nx : Mem σ T → Res σ T (Option T)) : {k : Kind} → Act σ T k → Mem σ T → Res σ T (k.Res T)
  | _, .ret r, m => .ok r m
  | _, .get f, m => run grow nx (f m.vars) m
  | _, .put s a, m => run grow nx a { m with vars := s }
  | _, .next f, m =>
    match nx m with
    | .ok r m' => run grow nx (f r) m'
    | .panic e m' => .panic e m'
    | .out => .out
  | _, .add op a, m => run grow nx a (m.add grow op)
  | _, .skip n a, m =>
    match m.skip grow n with
    | .ok () m' => run grow nx a m'
    | .panic e m' => .panic e m'
    | .out => .out

/-- stream/stream.go:67-70, 100-102: `Next` of a stream whose loop is `lp`. -/
def nextOf (lp : Mem σ T → Res σ T (Option T)) (m : Mem σ T) : Res σ T (Option T) :=
  match m.src with
  | none => .ok none m.clear
  | some _ => lp m

/-- Records an arrival at the counter in cell `i`. -/
def Mem.arrive (m : Mem σ T) (i : Nat) (b : Bool) : Mem σ T := { m with taken := m.taken ++ [(i, b)] }

/-- stream/stream.go:73-98: the loop over the operations, from cell `i` of array `a` on, `k` of them, for the value `v`. `lp` is
`continue loop_src`. -/
def walk (grow : Nat → Nat) (lp : Mem σ T → Res σ T (Option T)) (a : Nat) : Nat → Nat → T → Mem σ T → Res σ T (Option T)
  | 0, _, v, m => .ok (some v) m                                        -- :98
  | k + 1, i, v, m =>
    match m.cell a i with
    | none => .panic "does not happen" m
    | some (.pred f) =>                                                  -- :75-78
      (run grow (nextOf lp) (f v) m).bind fun (b : Bool) m' => if !b then lp m' else walk grow lp a k (i + 1) v m'
    | some (.skip n) =>                                                  -- :79-83
      if n > 0 then ((m.arrive i true).write i (.skip (n - 1))).bind fun _ m' => lp m'
      else walk grow lp a k (i + 1) v (m.arrive i false)
    | some (.limit n) =>                                                 -- :84-89
      if n > 0 then ((m.arrive i true).write i (.limit (n - 1))).bind fun _ m' => walk grow lp a k (i + 1) v m'
      else .ok none (m.arrive i false).clear
    | some (.map f) =>                                                   -- :90-91
      (run grow (nextOf lp) (f v) m).bind fun (w : T) m' => walk grow lp a k (i + 1) w m'
    | some (.peek f) =>                                                  -- :92-93
      (run grow (nextOf lp) (f v) m).bind fun (_ : Unit) m' => walk grow lp a k (i + 1) v m'

/-- stream/stream.go:71-103: the loop over the source, with at most `fuel` reads nested in each other or one after the other.
`s.src.Next()` on a nil `src` is a run-time panic. -/
def loop (grow : Nat → Nat) : Nat → Mem σ T → Res σ T (Option T)
  | 0, _ => .out
  | fuel + 1, m =>
    match m.src with
    | none => .panic "nil pointer dereference" m
    | some [] => .ok none m.clear
    | some (v :: rest) =>
      match m.ops with
      | none => .ok (some v) { m with src := some rest }
      | some a => walk grow (loop grow fuel) a (m.size a) 0 v { m with src := some rest }

/-- What the source still has. -/
def Mem.left (m : Mem σ T) : Nat := ((m.src).map List.length).getD 0

/-- stream/stream.go:67-103 `Next`. There cannot be more reads than the source has elements, and one. -/
def next (grow : Nat → Nat) (m : Mem σ T) : Res σ T (Option T) := nextOf (loop grow (m.left + 1)) m

/-- Runs a program that uses the stream. -/
def prog (grow : Nat → Nat) (p : Act σ T .peek) (m : Mem σ T) : Res σ T Unit :=
  run grow (next grow) p m

/-- stream/stream.go:59-63 `New`, over a source that hands out `l`, followed by operations that all fit into `buf`, or more of
them (then `s.ops` has moved once or several times; only the last array matters). -/
def start (l : List T) (ops : List (Op σ T)) (cap : Nat) (s : σ) : Mem σ T where
  src := some l
  ops := some 0
  hasPred := ops.any Op.isPred
  arrays := [⟨ops, cap⟩]
  vars := s
  taken := []

end Verif.Stream.Reenter
