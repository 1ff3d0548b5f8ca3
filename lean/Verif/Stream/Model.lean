import Verif.Iter.Model

/-!
# Model of `/repo/stream`: sources, streams, intermediate and terminal operations

* A source is a state machine. A call may panic (`Go`) and may run forever: `next` returns `none` in that
  case (a stream with a `Filter` over an infinite source is itself a source whose `Next` need not return).
  Loops are `partial_fixpoint` definitions in `Option`: the least solution of the loop equation, `none`
  where the loop does not end.
* Observable effects of callbacks are events of an arbitrary type `E`: a `Consumer[T]` is a function that
  gives the events it produces, and `Next` returns the events in the order in which they happen. Mappers,
  predicates and generators are otherwise functions of their argument (and of the generator state); they do
  not touch the stream they are called from. (Stream/Reenter.lean models those that do.)
* The zero value that goes with `ok = false` is not represented: `(value, false)` is `none`
  (`Stream.Next` returns `generics.ZeroOf[T]()`, stream/stream.go:102; the value of a failed source read is
  never used).
* The memory seen by an iterator source and the array of a slice source do not change while streaming.
  (Stream/Loop.lean and Stream/InPlace.lean model slices that do change.)
-/

namespace Verif.Stream

/-- What a call of `Next` gives: the value if `ok`, the new state, and the events of the callbacks. -/
structure Step (T σ E : Type) where
  val : Option T
  st : σ
  log : List E

/-- stream/stream.go:17-25 `Source[T]`. `skip n` returns the reported number and the new state. -/
structure Source (T E : Type) where
  σ : Type
  next : σ → Option (Go (Step T σ E))
  skip : Int → σ → Go (Int × σ)

variable {T E : Type}

/-- stream/stream.go:45-47, 112-151: the things stored in `Stream.ops`. -/
inductive Op (T E : Type) where
  | map (f : T → T)
  | filter (p : T → Bool)
  | skip (n : Nat)
  | limit (n : Nat)
  | peek (c : T → List E)

/-- stream/stream.go:49-57 `Stream[T]`. `src = none` is `src == nil`. (`buf`, the small-slice optimisation, is
storage for `ops` and has no effect of its own; `predSkip` and `predLimit` are never negative.) -/
structure Stream (S : Source T E) where
  src : Option S.σ
  ops : List (Op T E)
  hasPred : Bool

/-- stream/stream.go:59-63 `New`. -/
def new (S : Source T E) (s : S.σ) : Stream S := ⟨some s, [], false⟩

/-- The three ways the inner loop of `Next` ends: fell through with a value, `continue loop_src`,
`goto end_of_stream`. -/
inductive Out (T E : Type) where
  | pass (v : T) (ops : List (Op T E)) (log : List E)
  | drop (ops : List (Op T E)) (log : List E)
  | stop (log : List E)

/-- Puts an operation (with its updated counter) and its events back in front. -/
def Out.cons (op : Op T E) (l : List E) : Out T E → Out T E
  | .pass v ops l' => .pass v (op :: ops) (l ++ l')
  | .drop ops l' => .drop (op :: ops) (l ++ l')
  | .stop l' => .stop (l ++ l')

/-- stream/stream.go:73-97: the loop over `s.ops` for one source element. -/
def runOps : List (Op T E) → T → Out T E
  | [], v => .pass v [] []
  | .filter p :: ops, v =>                                  -- :75-78
    if !p v then .drop (.filter p :: ops) [] else (runOps ops v).cons (.filter p) []
  | .skip n :: ops, v =>                                    -- :79-83
    if n > 0 then .drop (.skip (n - 1) :: ops) [] else (runOps ops v).cons (.skip n) []
  | .limit n :: ops, v =>                                   -- :84-89
    if n > 0 then (runOps ops v).cons (.limit (n - 1)) [] else .stop []
  | .map f :: ops, v => (runOps ops (f v)).cons (.map f) []  -- :90-91
  | .peek c :: ops, v => (runOps ops v).cons (.peek c) (c v) -- :92-93

/-- stream/stream.go:71-103: the loop over the source. The second component is the new `(src, ops)`; `none` means
`clear()` (stream/stream.go:157-160: `src` and `ops` become nil). -/
def loop (S : Source T E) (ops : List (Op T E)) (s : S.σ) :
    Option (Go (Option T × Option (S.σ × List (Op T E)) × List E)) := do
  match ← S.next s with
  | .error e => some (.error e)
  | .ok ⟨none, _, l⟩ => some (.ok (none, none, l))
  | .ok ⟨some v, s', l⟩ =>
    match runOps ops v with
    | .pass v ops' l' => some (.ok (some v, some (s', ops'), l ++ l'))
    | .stop l' => some (.ok (none, none, l ++ l'))
    | .drop ops' l' => do
      match ← loop S ops' s' with
      | .error e => some (.error e)
      | .ok (r, st, l'') => some (.ok (r, st, l ++ l' ++ l''))
partial_fixpoint

/-- stream/stream.go:157-160 `clear`. -/
def Stream.clear {S : Source T E} (s : Stream S) : Stream S := ⟨none, [], s.hasPred⟩

/-- stream/stream.go:67-103 `Next`. -/
def Stream.next {S : Source T E} (s : Stream S) : Option (Go (Step T (Stream S) E)) :=
  match s.src with
  | none => some (.ok ⟨none, s.clear, []⟩)
  | some q => do
    match ← loop S s.ops q with
    | .error e => some (.error e)
    | .ok (v, none, l) => some (.ok ⟨v, s.clear, l⟩)
    | .ok (v, some (q', ops'), l) => some (.ok ⟨v, ⟨some q', ops', s.hasPred⟩, l⟩)

variable {S : Source T E}

/-- stream/stream.go:112-115 `Map`. -/
def Stream.map (s : Stream S) (f : T → T) : Stream S := { s with ops := s.ops ++ [.map f] }

/-- stream/stream.go:117-121 `Filter`. -/
def Stream.filter (s : Stream S) (p : T → Bool) : Stream S :=
  { s with hasPred := true, ops := s.ops ++ [.filter p] }

/-- stream/stream.go:123-137 `Skip`; `s.src.SkipNext(n)` on a nil `src` is a run-time panic. -/
def Stream.skip (s : Stream S) (n : Int) : Go (Stream S) :=
  if n < 0 then .error "Stream.Skip: negative value"
  else if n = 0 then .ok s
  else if !s.hasPred then
    match s.src with
    | none => .error "nil pointer dereference"
    | some q =>
      match S.skip n q with
      | .error e => .error e
      | .ok (_, q') => .ok { s with src := some q' }
  else .ok { s with hasPred := true, ops := s.ops ++ [.skip n.toNat] }

/-- stream/stream.go:139-146 `Limit`. -/
def Stream.limit (s : Stream S) (n : Int) : Go (Stream S) :=
  if n < 0 then .error "Stream.Limit: negative value"
  else .ok { s with hasPred := true, ops := s.ops ++ [.limit n.toNat] }

/-- stream/stream.go:148-151 `Peek`. -/
def Stream.peek (s : Stream S) (c : T → List E) : Stream S := { s with ops := s.ops ++ [.peek c] }

/-- A call of an intermediate operation. -/
inductive Call (T E : Type) where
  | map (f : T → T)
  | filter (p : T → Bool)
  | skip (n : Int)
  | limit (n : Int)
  | peek (c : T → List E)

/-- Performs one call. -/
def Stream.call (s : Stream S) : Call T E → Go (Stream S)
  | .map f => .ok (s.map f)
  | .filter p => .ok (s.filter p)
  | .skip n => s.skip n
  | .limit n => s.limit n
  | .peek c => .ok (s.peek c)

/-- Performs a chain of calls, `s.A().B().C()`. -/
def Stream.chain (s : Stream S) : List (Call T E) → Go (Stream S)
  | [] => .ok s
  | c :: cs =>
    match s.call c with
    | .error e => .error e
    | .ok s' => s'.chain cs

/-- stream/stream.go:27-43 `typeTransformerStream`, with `Stream.SkipNext` (stream/stream.go:105-108) inlined. -/
def tts {R : Type} (S : Source T E) (t : T → R) : Source R E where
  σ := Stream S
  next s := do
    match ← s.next with
    | .error e => some (.error e)
    | .ok ⟨none, s', l⟩ => some (.ok ⟨none, s', l⟩)
    | .ok ⟨some v, s', l⟩ => some (.ok ⟨some (t v), s', l⟩)
  skip n s :=
    match s.skip n with
    | .error e => .error e
    | .ok s' => .ok (-1, s')

/-- stream/stream.go:153-155 `stream.Map` (also `MapToInt` … `MapToAny`, stream/stream.go:166-188). -/
def mapTo {R : Type} (s : Stream S) (f : T → R) : Stream (tts S f) := new (tts S f) s

/-! ## Sources -/

/-- stream/conv.go:3-9 `OfSlice`, `Of`; stream/source.go:10-37 `sliceSource`. The state is `i`; the length of a Go slice
is an `int`. -/
def sliceSource (E : Type) (a : List T) : Source T E where
  σ := Int
  next i :=
    if i = a.length then some (.ok ⟨none, i, []⟩)
    else match goGet a i with
      | .error e => some (.error e)
      | .ok x => some (.ok ⟨some x, wrap64 (i + 1), []⟩)
  skip n i :=
    if n < 0 then .error "sliceSource.SkipNext: negative value"
    else if wrap64 (i + n) ≥ a.length then .ok (wrap64 (a.length - i), a.length)
    else .ok (n, wrap64 (i + n))

/-- stream/conv.go:3-5. -/
def ofSlice (E : Type) (a : List T) : Stream (sliceSource E a) := new (sliceSource E a) (0 : Int)

/-- `x < y` in the integer type of width `w`. -/
def ltInt {w : Nat} (signed : Bool) (x y : BitVec w) : Bool := if signed then x.slt y else x.ult y

/-- stream/source.go:40-60 `intSource` for the integer type with `w` bits (`start` is not used by the code). The
state is `cur`; `T(n)` is truncation. -/
def intSource (E : Type) {w : Nat} (signed : Bool) (last step : BitVec w) (inf : Bool) :
    Source (BitVec w) E where
  σ := BitVec w
  next cur :=
    if !inf && ((ltInt signed 0#w step && ltInt signed last cur) ||
        (ltInt signed step 0#w && ltInt signed cur last)) then some (.ok ⟨none, cur, []⟩)
    else some (.ok ⟨some cur, cur + step, []⟩)
  skip n cur := .ok (-1, cur + BitVec.ofInt w n * step)

/-- stream/source.go:62-73 `Range`. -/
def range (E : Type) {w : Nat} (signed : Bool) (start last step : BitVec w) :
    Go (Stream (intSource E signed last step false)) :=
  if step = 0#w then .error "stream.Range: step is 0"
  else .ok (new (intSource E signed last step false) start)

/-- stream/source.go:75-77 `RangeN`. -/
def rangeN (E : Type) {w : Nat} (signed : Bool) (n : BitVec w) :
    Go (Stream (intSource E signed (n - 1#w) 1#w false)) := range E signed 0#w (n - 1#w) 1#w

/-- stream/source.go:79-89 `IntegerSequence` (`end` is the zero value). -/
def integerSequence (E : Type) {w : Nat} (signed : Bool) (start step : BitVec w) :
    Go (Stream (intSource E signed 0#w step true)) :=
  if step = 0#w then .error "stream.IntegerSequence: step is 0"
  else .ok (new (intSource E signed 0#w step true) start)

/-- `k` calls of a generator whose results are ignored. -/
def callN {γ : Type} (g : γ → T × γ) : Nat → γ → γ
  | 0, s => s
  | k + 1, s => callN g k (g s).2

/-- stream/source.go:91-100 `Generator`; `γ` is what the closure captures. -/
def generator (E : Type) {γ : Type} (g : γ → T × γ) : Source T E where
  σ := γ
  next s := some (.ok ⟨some (g s).1, (g s).2, []⟩)
  skip n s := .ok (n, callN g n.toNat s)

/-- stream/source.go:106-114: the loop of `BoundedGenerator.SkipNext`, `i` calls done, `k` to go. -/
def callUntil {γ : Type} (g : γ → Option T × γ) : Nat → Int → γ → Int × γ
  | 0, i, s => (i, s)
  | k + 1, i, s =>
    match g s with
    | (none, s') => (i, s')
    | (some _, s') => callUntil g k (i + 1) s'

/-- stream/source.go:102-114 `BoundedGenerator`. -/
def boundedGenerator (E : Type) {γ : Type} (g : γ → Option T × γ) : Source T E where
  σ := γ
  next s := some (.ok ⟨(g s).1, (g s).2, []⟩)
  skip n s := if n ≤ 0 then .ok (n, s) else .ok (callUntil g n.toNat 0 s)

open Iter in
/-- stream/source.go:124-163 `iteratorSource` for a random-access iterator; the memory `m` does not change. The
state is `cur`. -/
def randSource (E : Type) {M It : Type} [RandIter M T It] (m : M) (last : It) : Source T E where
  σ := It
  next cur :=
    match equal cur last with
    | .error e => some (.error e)
    | .ok true => some (.ok ⟨none, cur, []⟩)
    | .ok false =>
      match get cur m with
      | (.error e, _) => some (.error e)
      | (.ok v, _) =>
        match Iter.next cur with
        | .error e => some (.error e)
        | .ok cur' => some (.ok ⟨some v, cur', []⟩)
  skip n cur :=                                             -- :149-154
    let k := min n (wrap64 (pos last - pos cur))
    match add cur k with
    | .error e => .error e
    | .ok cur' => .ok (k, cur')

open Iter in
/-- stream/source.go:139-146 `iteratorSource.Next` for a forward iterator: `none` at the end. -/
def fwdNext {M It : Type} [Iter M T It] (m : M) (last cur : It) : Go (Option (T × It)) :=
  match equal cur last with
  | .error e => .error e
  | .ok true => .ok none
  | .ok false =>
    match get cur m with
    | (.error e, _) => .error e
    | (.ok v, _) =>
      match Iter.next cur with
      | .error e => .error e
      | .ok cur' => .ok (some (v, cur'))

open Iter in
/-- stream/source.go:156-162: the loop of `SkipNext` for iterators that are not random-access. -/
def fwdSkip {M It : Type} [Iter M T It] (m : M) (last : It) : Nat → Int → It → Go (Int × It)
  | 0, i, cur => .ok (i, cur)
  | k + 1, i, cur =>
    match fwdNext m last cur with
    | .error e => .error e
    | .ok none => .ok (i, cur)
    | .ok (some (_, cur')) => fwdSkip m last k (i + 1) cur'

open Iter in
/-- stream/source.go:124-163 `iteratorSource` for an iterator that is not random-access. -/
def fwdSource (E : Type) {M It : Type} [Iter M T It] (m : M) (last : It) : Source T E where
  σ := It
  next cur :=
    match fwdNext m last cur with
    | .error e => some (.error e)
    | .ok none => some (.ok ⟨none, cur, []⟩)
    | .ok (some (v, cur')) => some (.ok ⟨some v, cur', []⟩)
  skip n cur := fwdSkip m last n.toNat 0 cur

/-! ## Terminal operations

Each returns its result, the stream afterwards and the events. -/

/-- The result of a terminal operation. -/
structure Fin (A : Type) (S : Source T E) where
  res : A
  st : Stream S
  log : List E

/-- stream/stream.go:192-196 `Collect`: the consumer's events follow those of `Next`. -/
def Stream.collect (c : T → List E) (s : Stream S) : Option (Go (Fin Unit S)) := do
  match ← s.next with
  | .error e => some (.error e)
  | .ok ⟨none, s', l⟩ => some (.ok ⟨(), s', l⟩)
  | .ok ⟨some v, s', l⟩ =>
    match ← Stream.collect c s' with
    | .error e => some (.error e)
    | .ok ⟨_, s'', l'⟩ => some (.ok ⟨(), s'', l ++ c v ++ l'⟩)
partial_fixpoint

/-- stream/stream.go:198-205 `All`. -/
def Stream.all (p : T → Bool) (s : Stream S) : Option (Go (Fin Bool S)) := do
  match ← s.next with
  | .error e => some (.error e)
  | .ok ⟨none, s', l⟩ => some (.ok ⟨true, s', l⟩)
  | .ok ⟨some v, s', l⟩ =>
    if !p v then some (.ok ⟨false, s', l⟩)
    else
      match ← Stream.all p s' with
      | .error e => some (.error e)
      | .ok ⟨r, s'', l'⟩ => some (.ok ⟨r, s'', l ++ l'⟩)
partial_fixpoint

/-- stream/stream.go:207-214 `Any`. -/
def Stream.any (p : T → Bool) (s : Stream S) : Option (Go (Fin Bool S)) := do
  match ← s.next with
  | .error e => some (.error e)
  | .ok ⟨none, s', l⟩ => some (.ok ⟨false, s', l⟩)
  | .ok ⟨some v, s', l⟩ =>
    if p v then some (.ok ⟨true, s', l⟩)
    else
      match ← Stream.any p s' with
      | .error e => some (.error e)
      | .ok ⟨r, s'', l'⟩ => some (.ok ⟨r, s'', l ++ l'⟩)
partial_fixpoint

/-- stream/stream.go:216-218 `None`. -/
def Stream.noneOf (p : T → Bool) (s : Stream S) : Option (Go (Fin Bool S)) := do
  match ← s.any p with
  | .error e => some (.error e)
  | .ok ⟨r, s', l⟩ => some (.ok ⟨!r, s', l⟩)

/-- stream/stream.go:244-250, 270-276 `Reduce` (method and function): the loop with accumulator `r`. -/
def Stream.reduce {A : Type} (acc : A → T → A) (r : A) (s : Stream S) : Option (Go (Fin A S)) := do
  match ← s.next with
  | .error e => some (.error e)
  | .ok ⟨none, s', l⟩ => some (.ok ⟨r, s', l⟩)
  | .ok ⟨some v, s', l⟩ =>
    match ← Stream.reduce acc (acc r v) s' with
    | .error e => some (.error e)
    | .ok ⟨r', s'', l'⟩ => some (.ok ⟨r', s'', l ++ l'⟩)
partial_fixpoint

/-- stream/stream.go:220-226 `Count`; `count++` wraps like every `int`. -/
def Stream.count (s : Stream S) : Option (Go (Fin Int S)) :=
  s.reduce (fun n _ => wrap64 (n + 1)) 0

/-- stream/stream.go:236-242 `Slice`: `append` in a loop. -/
def Stream.slice (s : Stream S) : Option (Go (Fin (List T) S)) :=
  s.reduce (fun r v => r ++ [v]) []

/-- stream/stream.go:228-234 `First`. -/
def Stream.first (s : Stream S) : Option (Go (Fin T S)) := do
  match ← s.next with
  | .error e => some (.error e)
  | .ok ⟨none, _, _⟩ => some (.error "Stream.First: stream is empty")
  | .ok ⟨some v, s', l⟩ => some (.ok ⟨v, s', l⟩)

end Verif.Stream
