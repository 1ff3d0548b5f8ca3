import Verif.Stream.Exact
import Verif.Slice.Model

/-!
# C119: a stream is the loop one would write

Here callbacks and sources may read and change memory (`M`), and may panic. `SkipNext` is left out. A callback does not
touch the stream it is called from.
-/

namespace Verif.Stream.Mem

open Verif.Slice (Heap Slice load Valid contents)

variable {M T A : Type}

/-- stream/stream.go:17-25 `Source[T]`: a call of `Next` reads and changes memory, and also one that panics leaves a state
behind. `none` is a call that does not return. -/
structure Source (M T : Type) where
  σ : Type
  next : σ → M → Option (Go (Option T) × σ × M)

/-- stream/stream.go:45-47, 112-151: the things stored in `Stream.ops`. -/
inductive Op (M T : Type) where
  | map (f : T → St M T)
  | filter (p : T → St M Bool)
  | skip (n : Nat)
  | limit (n : Nat)
  | peek (c : T → St M Unit)

/-- The ways the inner loop of `Next` ends: fell through with a value, `continue loop_src`, `goto end_of_stream`, a
callback panicked. -/
inductive Out (M T : Type) where
  | pass (v : T) (ops : List (Op M T))
  | drop (ops : List (Op M T))
  | stop
  | fail (e : String) (ops : List (Op M T))

/-- Puts an operation (with its updated counter) back in front. -/
def Out.cons (op : Op M T) : Out M T → Out M T
  | .pass v ops => .pass v (op :: ops)
  | .drop ops => .drop (op :: ops)
  | .stop => .stop
  | .fail e ops => .fail e (op :: ops)

/-- stream/stream.go:73-97: the loop over `s.ops` for one source element. -/
def runOps : List (Op M T) → T → M → Out M T × M
  | [], v, m => (.pass v [], m)
  | .filter p :: ops, v, m =>                               -- :75-78
    match p v m with
    | (.error e, m') => (.fail e (.filter p :: ops), m')
    | (.ok false, m') => (.drop (.filter p :: ops), m')
    | (.ok true, m') => ((runOps ops v m').1.cons (.filter p), (runOps ops v m').2)
  | .skip n :: ops, v, m =>                                 -- :79-83
    if n > 0 then (.drop (.skip (n - 1) :: ops), m)
    else ((runOps ops v m).1.cons (.skip n), (runOps ops v m).2)
  | .limit n :: ops, v, m =>                                -- :84-89
    if n > 0 then ((runOps ops v m).1.cons (.limit (n - 1)), (runOps ops v m).2) else (.stop, m)
  | .map f :: ops, v, m =>                                  -- :90-91
    match f v m with
    | (.error e, m') => (.fail e (.map f :: ops), m')
    | (.ok w, m') => ((runOps ops w m').1.cons (.map f), (runOps ops w m').2)
  | .peek c :: ops, v, m =>                                 -- :92-93
    match c v m with
    | (.error e, m') => (.fail e (.peek c :: ops), m')
    | (.ok (), m') => ((runOps ops v m').1.cons (.peek c), (runOps ops v m').2)

/-- stream/stream.go:71-103: the loop over the source. The second component is the new `(src, ops)`; `none` means
`clear()`, which a panic skips. -/
def loop (S : Source M T) (ops : List (Op M T)) (q : S.σ) (m : M) :
    Option (Go (Option T) × Option (S.σ × List (Op M T)) × M) := do
  match ← S.next q m with
  | (.error e, q', m') => some (.error e, some (q', ops), m')
  | (.ok none, _, m') => some (.ok none, none, m')
  | (.ok (some v), q', m') =>
    match runOps ops v m' with
    | (.pass w ops', m'') => some (.ok (some w), some (q', ops'), m'')
    | (.stop, m'') => some (.ok none, none, m'')
    | (.fail e ops', m'') => some (.error e, some (q', ops'), m'')
    | (.drop ops', m'') => loop S ops' q' m''
partial_fixpoint

/-- stream/stream.go:49-57 `Stream[T]`: `(src, ops)`, or `none` when `src == nil`. -/
abbrev Stream (S : Source M T) := Option (S.σ × List (Op M T))

/-- stream/stream.go:67-103 `Next`. -/
def Stream.next {S : Source M T} : Stream S → M → Option (Go (Option T) × Stream S × M)
  | none, m => some (.ok none, none, m)
  | some (q, ops), m => loop S ops q m

/-- The terminal operations are loops that call `Next` and then user code; `f` gives the new accumulator and whether the
loop is left. -/
def Stream.fold {S : Source M T} (f : A → T → St M (A × Bool)) (a : A) (s : Stream S) (m : M) :
    Option (Go A × Stream S × M) := do
  match ← s.next m with
  | (.error e, s', m') => some (.error e, s', m')
  | (.ok none, s', m') => some (.ok a, s', m')
  | (.ok (some v), s', m') =>
    match f a v m' with
    | (.error e, m'') => some (.error e, s', m'')
    | (.ok (a', true), m'') => some (.ok a', s', m'')
    | (.ok (a', false), m'') => Stream.fold f a' s' m''
partial_fixpoint

section
variable {S : Source M T}

/-- stream/stream.go:192-196 `Collect`. -/
def Stream.collect (c : T → St M Unit) (s : Stream S) (m : M) :=
  s.fold (fun (_ : Unit) v => do c v; pure ((), false)) () m

/-- stream/stream.go:198-205 `All`. -/
def Stream.all (p : T → St M Bool) (s : Stream S) (m : M) :=
  s.fold (fun (_ : Bool) v => do let b ← p v; pure (if !b then (false, true) else (true, false))) true m

/-- stream/stream.go:207-214 `Any`. -/
def Stream.any (p : T → St M Bool) (s : Stream S) (m : M) :=
  s.fold (fun (_ : Bool) v => do let b ← p v; pure (if b then (true, true) else (false, false))) false m

/-- stream/stream.go:244-250, 270-276 `Reduce`. -/
def Stream.reduce (acc : A → T → St M A) (a : A) (s : Stream S) (m : M) :=
  s.fold (fun a v => do let a' ← acc a v; pure (a', false)) a m

end

/-- stream/source.go:10-23 `sliceSource`: the header is kept, the element is read from memory by `Next`. The state is `i`;
`view` is the part of the memory that has the arrays. -/
def sliceSource [Inhabited T] (view : M → Heap T) (s : Slice) : Source M T where
  σ := Nat
  next i m :=
    if i = s.len then some (.ok none, i, m)
    else match (load s i (view m)).1 with
      | .error e => some (.error e, i + 1, m)
      | .ok x => some (.ok (some x), i + 1, m)

/-- stream/conv.go:3-5 `OfSlice`, with operations added; `i` elements have been read or skipped. -/
def ofSlice [Inhabited T] (view : M → Heap T) (s : Slice) (i : Nat) (ops : List (Op M T)) :
    Stream (sliceSource view s) := some ((i : Nat), ops)

/-! ## Specification -/

/-- Intermediate operations without a counter. -/
inductive Stage (M T : Type) where
  | map (f : T → St M T)
  | filter (p : T → St M Bool)
  | peek (c : T → St M Unit)

/-- As an operation of a stream. -/
def Stage.op : Stage M T → Op M T
  | .map f => .map f
  | .filter p => .filter p
  | .peek c => .peek c

/-- The body of a loop: `v = f(v)` for a mapper, `if !p(v) { continue }` for a predicate, `c(v)` for a consumer, and
then what the terminal operation does with `v`. -/
def body (f : A → T → St M (A × Bool)) (a : A) : List (Stage M T) → T → St M (A × Bool)
  | [], v => f a v
  | .map g :: l, v => do let w ← g v; body f a l w
  | .filter p :: l, v => do let b ← p v; if b then body f a l v else pure (a, false)
  | .peek c :: l, v => do c v; body f a l v

/-- `for v, ok := src.Next(); ok; v, ok = src.Next() { … }`; the body gives the new accumulator and whether to `break`.
`none` as the state of the source: it has ended. -/
def forSource (S : Source M T) (b : A → T → St M (A × Bool)) (a : A) (q : S.σ) (m : M) :
    Option (Go A × Option S.σ × M) := do
  match ← S.next q m with
  | (.error e, q', m') => some (.error e, some q', m')
  | (.ok none, _, m') => some (.ok a, none, m')
  | (.ok (some v), q', m') =>
    match b a v m' with
    | (.error e, m'') => some (.error e, some q', m'')
    | (.ok (a', true), m'') => some (.ok a', some q', m'')
    | (.ok (a', false), m'') => forSource S b a' q' m''
partial_fixpoint

/-- `s[i]`, read from memory. -/
def elem [Inhabited T] (view : M → Heap T) (s : Slice) (i : Nat) : St M T := fun m => ((load s i (view m)).1, m)

/-- `for _, v := range s { … }` for the `k` elements from `i` on: the header is evaluated once, an element is read
when its turn comes. -/
def forRange [Inhabited T] (view : M → Heap T) (s : Slice) (b : A → T → St M (A × Bool)) :
    Nat → Nat → A → St M A
  | 0, _, a => pure a
  | k + 1, i, a => do
    let v ← elem view s i
    let r ← b a v
    if r.2 then pure r.1 else forRange view s b k (i + 1) r.1

/-! ## The loop -/

section
variable {S : Source M T}

/-- One element. -/
theorem run_stages (f : A → T → St M (A × Bool)) (a : A) (l : List (Stage M T)) : ∀ (v : T) (m : M),
    match runOps (l.map Stage.op) v m with
    | (.pass w ops, m') => ops = l.map Stage.op ∧ body f a l v m = f a w m'
    | (.drop ops, m') => ops = l.map Stage.op ∧ body f a l v m = (.ok (a, false), m')
    | (.stop, _) => False
    | (.fail e ops, m') => ops = l.map Stage.op ∧ body f a l v m = (.error e, m') := by
  induction l with
  | nil => intro v m; exact ⟨rfl, rfl⟩
  | cons s l ih =>
    intro v m
    cases s with
    | map g =>
      simp only [List.map_cons, Stage.op, runOps, body, St.bind_apply]
      rcases hg : g v m with ⟨e | w, m'⟩
      · exact ⟨rfl, rfl⟩
      · have := ih w m'
        rcases hr : runOps (l.map Stage.op) w m' with ⟨_ | _ | _ | _, m''⟩ <;>
          simp_all [Out.cons]
    | peek c =>
      simp only [List.map_cons, Stage.op, runOps, body, St.bind_apply]
      rcases hg : c v m with ⟨e | w, m'⟩
      · exact ⟨rfl, rfl⟩
      · have := ih v m'
        rcases hr : runOps (l.map Stage.op) v m' with ⟨_ | _ | _ | _, m''⟩ <;>
          simp_all [Out.cons]
    | filter p =>
      simp only [List.map_cons, Stage.op, runOps, body, St.bind_apply]
      rcases hg : p v m with ⟨e | _ | _, m'⟩
      · exact ⟨rfl, rfl⟩
      · exact ⟨rfl, rfl⟩
      · have := ih v m'
        rcases hr : runOps (l.map Stage.op) v m' with ⟨_ | _ | _ | _, m''⟩ <;>
          simp_all [Out.cons]

theorem fold_step (f : A → T → St M (A × Bool)) (l : List (Stage M T)) (a : A) (q : S.σ) (m : M) :
    Stream.fold f a (some (q, l.map Stage.op) : Stream S) m =
      (S.next q m).bind fun x => match x with
        | (.error e, q', m') => some (.error e, some (q', l.map Stage.op), m')
        | (.ok none, _, m') => some (.ok a, none, m')
        | (.ok (some v), q', m') =>
          match body f a l v m' with
          | (.error e, m'') => some (.error e, some (q', l.map Stage.op), m'')
          | (.ok (a', true), m'') => some (.ok a', some (q', l.map Stage.op), m'')
          | (.ok (a', false), m'') => Stream.fold f a' (some (q', l.map Stage.op) : Stream S) m'' := by
  rw [Stream.fold.eq_1]
  simp only [Stream.next]
  rw [loop.eq_1]
  rcases hn : S.next q m with _ | ⟨_ | _ | v, q', m'⟩
  · rfl
  · rfl
  · rfl
  · dsimp only [Option.bind_eq_bind, Option.bind_some]
    have := run_stages f a l v m'
    rcases hr : runOps (l.map Stage.op) v m' with ⟨_ | _ | _ | _, m''⟩ <;> rw [hr] at this
    · rw [this.1, this.2]
      dsimp only [Option.bind_some]
    · rw [this.1, this.2]
      dsimp only
      rw [Stream.fold.eq_1]
      rfl
    · exact this.elim
    · rw [this.1, this.2]
      rfl

/-- What the loop over the source does, when `Next` has the result `r`. -/
def Follows (f : A → T → St M (A × Bool)) (l : List (Stage M T)) (q : S.σ) (m : M) :
    Go (Option T) × Option (S.σ × List (Op M T)) × M → A → Prop
  | (.ok (some w), s', m'), a => ∃ q', s' = some (q', l.map Stage.op) ∧
      forSource S (fun a v => body f a l v) a q m = match f a w m' with
        | (.error e, m'') => some (.error e, some q', m'')
        | (.ok (a', true), m'') => some (.ok a', some q', m'')
        | (.ok (a', false), m'') => forSource S (fun a v => body f a l v) a' q' m''
  | (.ok none, _, _), a => forSource S (fun a v => body f a l v) a q m ≠ none
  | (.error _, _, _), a => forSource S (fun a v => body f a l v) a q m ≠ none

theorem Follows.congr {f : A → T → St M (A × Bool)} {l : List (Stage M T)} {q q' : S.σ} {m m' : M}
    {r : Go (Option T) × Option (S.σ × List (Op M T)) × M} {a : A} (h : Follows f l q' m' r a)
    (e : forSource S (fun a v => body f a l v) a q m = forSource S (fun a v => body f a l v) a q' m') :
    Follows f l q m r a := by
  match r, h with
  | (.ok (some w), s', m'), h => obtain ⟨q', h1, h2⟩ := h; exact ⟨q', h1, e.trans h2⟩
  | (.ok none, _, _), h => simpa [Follows, e] using h
  | (.error _, _, _), h => simpa [Follows, e] using h

theorem loop_for (f : A → T → St M (A × Bool)) (l : List (Stage M T)) {q : S.σ} {m : M}
    {r : Go (Option T) × Option (S.σ × List (Op M T)) × M}
    (h : loop S (l.map Stage.op) q m = some r) : ∀ a,
    Follows f l q m r a := by
  refine loop.partial_correctness S (fun ops q m r => ops = l.map Stage.op → ∀ a,
    Follows f l q m r a) ?_ _ q m r h rfl
  intro rec ih ops q m r h hops a
  subst hops
  have e := forSource.eq_1 S (fun a v => body f a l v) a q m
  rcases hn : S.next q m with _ | ⟨_ | _ | v, q', m'⟩ <;> rw [hn] at h e
  · cases h
  · cases h; simp [Follows, e]
  · cases h; simp [Follows, e]
  · dsimp only [Option.bind_eq_bind, Option.bind_some] at h e
    have := run_stages f a l v m'
    rcases hr : runOps (l.map Stage.op) v m' with ⟨_ | _ | _ | _, m''⟩ <;> rw [hr] at this h
    · cases h
      rw [this.2] at e
      rw [this.1]
      exact ⟨q', rfl, e⟩
    · rw [this.2] at e
      rw [this.1] at h
      exact (ih _ _ _ _ h rfl a).congr e
    · exact this.elim
    · cases h
      rw [this.2] at e
      simp [Follows, e]

/-- A terminal operation on a stream with a chain of `Map`, `Filter` and `Peek` is the loop over the source, with every
effect in the same order, also when a callback panics, when the loop is left early, and when it never ends. -/
theorem fold_eq_forSource (f : A → T → St M (A × Bool)) (l : List (Stage M T)) (a : A) (q : S.σ) (m : M) :
    Stream.fold f a (some (q, l.map Stage.op) : Stream S) m =
      (forSource S (fun a v => body f a l v) a q m).map
        fun r => (r.1, r.2.1.map fun q => (q, l.map Stage.op), r.2.2) := by
  have h1 : ∀ r, forSource S (fun a v => body f a l v) a q m = some r →
      Stream.fold f a (some (q, l.map Stage.op) : Stream S) m =
        some (r.1, r.2.1.map fun q => (q, l.map Stage.op), r.2.2) := by
    refine forSource.partial_correctness S _ (fun a q m r =>
      Stream.fold f a (some (q, l.map Stage.op) : Stream S) m =
        some (r.1, r.2.1.map fun q => (q, l.map Stage.op), r.2.2)) ?_ a q m
    intro rec ih a q m r h
    rw [fold_step]
    rcases hn : S.next q m with _ | ⟨_ | _ | v, q', m'⟩
    · rw [hn] at h; cases h
    · rw [hn] at h; cases h; rfl
    · rw [hn] at h; cases h; rfl
    · rw [hn] at h
      dsimp only [Option.bind_eq_bind, Option.bind_some] at h ⊢
      rcases hb : body f a l v m' with ⟨_ | ⟨_, _ | _⟩, _⟩ <;> rw [hb] at h
      · cases h; rfl
      · exact ih _ _ _ _ h
      · cases h; rfl
  have h2 : ∀ r, Stream.fold f a (some (q, l.map Stage.op) : Stream S) m = some r →
      forSource S (fun a v => body f a l v) a q m ≠ none := by
    intro r h
    refine Stream.fold.partial_correctness f (fun a (s : Stream S) m _ => ∀ q, s = some (q, l.map Stage.op) →
      forSource S (fun a v => body f a l v) a q m ≠ none) ?_ a _ m r h q rfl
    intro rec ih a s m r h q hs
    subst hs
    simp only [Stream.next] at h
    cases hl : loop S (l.map Stage.op) q m with
    | none => rw [hl] at h; cases h
    | some x =>
      rw [hl] at h
      have := loop_for f l hl a
      rcases x with ⟨_ | _ | w, s', m'⟩
      · exact this
      · exact this
      · obtain ⟨q', hs', he⟩ := this
        rw [he]
        dsimp only [Option.bind_eq_bind, Option.bind_some] at h
        rcases hb : f a w m' with ⟨_ | ⟨_, _ | _⟩, _⟩ <;> rw [hb] at h
        · simp
        · exact ih _ _ _ _ h _ hs'
        · simp
  cases hf : forSource S (fun a v => body f a l v) a q m with
  | none =>
    cases hd : Stream.fold f a (some (q, l.map Stage.op) : Stream S) m with
    | none => rfl
    | some r => exact (h2 r hd hf).elim
  | some r => exact h1 r hf

theorem forSource_end {b : A → T → St M (A × Bool)} {a : A} {q q' : S.σ} {m m' : M}
    (h : S.next q m = some (.ok none, q', m')) : forSource S b a q m = some (.ok a, none, m') := by
  rw [forSource.eq_1, h]; rfl

theorem forSource_error {b : A → T → St M (A × Bool)} {a : A} {q q' : S.σ} {m m' : M} {e : String}
    (h : S.next q m = some (.error e, q', m')) : forSource S b a q m = some (.error e, some q', m') := by
  rw [forSource.eq_1, h]; rfl

theorem forSource_some {b : A → T → St M (A × Bool)} {a : A} {q q' : S.σ} {m m' : M} {v : T}
    (h : S.next q m = some (.ok (some v), q', m')) : forSource S b a q m = match b a v m' with
      | (.error e, m'') => some (.error e, some q', m'')
      | (.ok (a', true), m'') => some (.ok a', some q', m'')
      | (.ok (a', false), m'') => forSource S b a' q' m'' := by
  rw [forSource.eq_1, h]; rfl

end

/-! ## Slices -/

section
variable [Inhabited T] {view : M → Heap T} {s : Slice}

/-- The loop over a slice source is `range`. -/
theorem forSource_slice (b : A → T → St M (A × Bool)) (k : Nat) : ∀ (i : Nat) (a : A) (m : M), i + k = s.len →
    ∃ q, forSource (sliceSource view s) b a i m =
      some ((forRange view s b k i a m).1, q, (forRange view s b k i a m).2) := by
  induction k with
  | zero =>
    intro i a m hi
    have : (sliceSource view s).next i m = some (.ok none, i, m) := if_pos (by omega)
    exact ⟨none, forSource_end this⟩
  | succ k ih =>
    intro i a m hi
    simp only [forRange, St.bind_apply, elem]
    rcases hl : (load s i (view m)).1 with e | x
    · have : (sliceSource view s).next i m = some (.error e, i + 1, m) := by
        simp only [sliceSource, hl]; rw [if_neg (by omega)]
      exact ⟨_, forSource_error this⟩
    · have : (sliceSource view s).next i m = some (.ok (some x), i + 1, m) := by
        simp only [sliceSource, hl]; rw [if_neg (by omega)]
      rw [forSource_some this]
      dsimp only
      rcases hb : b a x m with ⟨e | ⟨a', _ | _⟩, m'⟩
      · exact ⟨_, rfl⟩
      · simpa using ih (i + 1) a' m' (by omega)
      · exact ⟨_, rfl⟩

end

/-! ## C119 -/

/-- A terminal operation on a stream with a chain of `Map`, `Filter` and `Peek` over any source is the loop over that
source: the same result or panic, the same memory, and the stream is left with the state of the source. -/
theorem C119_source {S : Source M T} (f : A → T → St M (A × Bool)) (l : List (Stage M T)) (a : A) (q : S.σ) (m : M) :
    Stream.fold f a (some (q, l.map Stage.op) : Stream S) m =
      (forSource S (fun a v => body f a l v) a q m).map
        fun r => (r.1, r.2.1.map fun q => (q, l.map Stage.op), r.2.2) := fold_eq_forSource f l a q m

/-- Over a slice it is the loop with `range`: it returns, with the same result or panic and the same memory. -/
theorem C119_slice [Inhabited T] (view : M → Heap T) (s : Slice) (f : A → T → St M (A × Bool))
    (l : List (Stage M T)) (a : A) (m : M) :
    ∃ st, (ofSlice view s 0 (l.map Stage.op)).fold f a m =
      some ((forRange view s (fun a v => body f a l v) s.len 0 a m).1, st,
        (forRange view s (fun a v => body f a l v) s.len 0 a m).2) := by
  have e := fold_eq_forSource (S := sliceSource view s) f l a (0 : Nat) m
  obtain ⟨q, h⟩ := forSource_slice (view := view) (s := s) (fun a v => body f a l v) s.len 0 a m (by omega)
  rw [h] at e
  exact ⟨_, e⟩

/-! ## Concrete cases -/

/-- Memory with one array and a counter that closures share. -/
abbrev ExM := Heap Nat × Nat

/-- A mapper that gives running sums; it panics beyond 9. -/
def running (v : Nat) : St ExM Nat := fun m =>
  if m.2 + v > 9 then (.error "too big", m) else (.ok (m.2 + v), (m.1, m.2 + v))

/-- A consumer that overwrites the last element. -/
def scribble (v : Nat) : St ExM Unit := fun m => (.ok (), (Slice.poke m.1 (.arr 0 0) 2 [v]), m.2)

/-- `Reduce` into a list. -/
def gather (a : List Nat) (v : Nat) : St ExM (List Nat × Bool) := pure (a ++ [v], false)

/-- Running sums of `[1, 2, 3]`, where the last element is overwritten by each sum: it is `3` when it is read. -/
example : ∃ st, (ofSlice Prod.fst ⟨.arr 0 0, 3, 3⟩ 0 [.map running, .peek scribble]).fold gather []
    (([[1, 2, 3]], 0) : ExM) = some (.ok [1, 3, 6], st, ([[1, 2, 6]], 6)) :=
  C119_slice Prod.fst ⟨.arr 0 0, 3, 3⟩ gather [.map running, .peek scribble] [] ([[1, 2, 3]], 0)

/-- A panic in the second round: what the first one did stays. -/
example : ∃ st, (ofSlice Prod.fst ⟨.arr 0 0, 3, 3⟩ 0 [.map running, .peek scribble]).fold gather []
    (([[4, 7, 3]], 0) : ExM) = some (.error "too big", st, ([[4, 7, 4]], 4)) :=
  C119_slice Prod.fst ⟨.arr 0 0, 3, 3⟩ gather [.map running, .peek scribble] [] ([[4, 7, 3]], 0)

/-- A source that gives `5` for ever. -/
def fives : Source Unit Nat := ⟨Unit, fun q _ => some (.ok (some 5), q, ())⟩

/-- Leaving the loop early ends it although the source does not end. -/
example (q : fives.σ) :
    Stream.fold (fun (a : Nat) v => pure (a + v, decide (10 ≤ a + v))) 0 (some (q, []) : Stream fives) () =
      some (.ok 10, some (q, []), ()) := by
  have h : fives.next q () = some (.ok (some 5), q, ()) := rfl
  refine (C119_source (S := fives) _ [] 0 q ()).trans ?_
  rw [forSource_some h]
  show Option.map _ (forSource fives _ 5 q ()) = _
  rw [forSource_some h]
  rfl

end Verif.Stream.Mem
