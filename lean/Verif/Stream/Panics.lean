import Verif.Stream.Props

/-!
# C106: callbacks of a stream that panic

Here mappers, predicates and consumers may panic, and the caller may recover and go on using the stream: a call that
panics leaves a state behind. The effects of callbacks other than panics are left out (they are in `Stream/Model.lean`),
and so is `SkipNext`; `agrees` says that otherwise this is the model of `Stream/Model.lean`.
-/

namespace Verif.Stream.Panics

/-- stream/stream.go:17-25 `Source[T]`, when the caller recovers from panics: also a call of `Next` that panics leaves a state
behind. `none` is a call that does not return. -/
structure Source (T : Type) where
  σ : Type
  next : σ → Option (Go (Option T) × σ)

variable {T R : Type}

/-- stream/stream.go:45-47, 112-151: the things stored in `Stream.ops`. -/
inductive Op (T : Type) where
  | map (f : T → Go T)
  | filter (p : T → Go Bool)
  | skip (n : Nat)
  | limit (n : Nat)
  | peek (c : T → Go Unit)

/-- The ways the inner loop of `Next` ends: fell through with a value, `continue loop_src`, `goto end_of_stream`, a
callback panicked. `s.ops[i] = op - 1` (:81, :86) happens before later operations run and is not undone. -/
inductive Out (T : Type) where
  | pass (v : T) (ops : List (Op T))
  | drop (ops : List (Op T))
  | stop
  | fail (e : String) (ops : List (Op T))

/-- Puts an operation (with its updated counter) back in front. -/
def Out.cons (op : Op T) : Out T → Out T
  | .pass v ops => .pass v (op :: ops)
  | .drop ops => .drop (op :: ops)
  | .stop => .stop
  | .fail e ops => .fail e (op :: ops)

/-- stream/stream.go:73-97: the loop over `s.ops` for one source element. -/
def runOps : List (Op T) → T → Out T
  | [], v => .pass v []
  | .filter p :: ops, v =>                                  -- :75-78
    match p v with
    | .error e => .fail e (.filter p :: ops)
    | .ok b => if !b then .drop (.filter p :: ops) else (runOps ops v).cons (.filter p)
  | .skip n :: ops, v =>                                    -- :79-83
    if n > 0 then .drop (.skip (n - 1) :: ops) else (runOps ops v).cons (.skip n)
  | .limit n :: ops, v =>                                   -- :84-89
    if n > 0 then (runOps ops v).cons (.limit (n - 1)) else .stop
  | .map f :: ops, v =>                                     -- :90-91
    match f v with
    | .error e => .fail e (.map f :: ops)
    | .ok w => (runOps ops w).cons (.map f)
  | .peek c :: ops, v =>                                    -- :92-93
    match c v with
    | .error e => .fail e (.peek c :: ops)
    | .ok () => (runOps ops v).cons (.peek c)

/-- stream/stream.go:71-103: the loop over the source. The second component is the new `(src, ops)`; `none` means
`clear()`, which a panic skips. -/
def loop (S : Source T) (ops : List (Op T)) (s : S.σ) :
    Option (Go (Option T) × Option (S.σ × List (Op T))) := do
  match ← S.next s with
  | (.error e, s') => some (.error e, some (s', ops))
  | (.ok none, _) => some (.ok none, none)
  | (.ok (some v), s') =>
    match runOps ops v with
    | .pass w ops' => some (.ok (some w), some (s', ops'))
    | .stop => some (.ok none, none)
    | .fail e ops' => some (.error e, some (s', ops'))
    | .drop ops' => loop S ops' s'
partial_fixpoint

/-- stream/stream.go:49-57 `Stream[T]`: `(src, ops)`, or `none` when `src == nil`. -/
def Stream (S : Source T) := Option (S.σ × List (Op T))

/-- stream/stream.go:67-103 `Next`. -/
def Stream.next {S : Source T} : Stream S → Option (Go (Option T) × Stream S)
  | none => some (.ok none, none)
  | some (q, ops) => loop S ops q

/-- A stream is a source (stream/stream.go:65-108). -/
def asSource (S : Source T) : Source T := ⟨Stream S, Stream.next⟩

/-- stream/stream.go:27-39 `typeTransformerStream.Next`: the element is gone when the mapper is called. -/
def tts (S : Source T) (t : T → Go R) : Source R where
  σ := Stream S
  next s := do
    match ← s.next with
    | (.error e, s') => some (.error e, s')
    | (.ok none, s') => some (.ok none, s')
    | (.ok (some v), s') => some ((t v).map some, s')

/-- stream/source.go:10-23 `sliceSource`. -/
def sliceSource (a : List T) : Source T where
  σ := Nat
  next i := match a[i]? with
    | none => some (.ok none, i)
    | some x => some (.ok (some x), i + 1)

/-- stream/source.go:102-104 `BoundedGenerator`, with a generator that may panic. -/
def generator {γ : Type} (g : γ → Go (Option T) × γ) : Source T := ⟨γ, fun s => some (g s)⟩

/-- The terminal operations are loops that call `Next` and then user code; `f` gives the new accumulator and whether the
loop is left. -/
def Stream.fold {S : Source T} {A : Type} (f : A → T → Go (A × Bool)) (a : A) (s : Stream S) :
    Option (Go A × Stream S) := do
  match ← s.next with
  | (.error e, s') => some (.error e, s')
  | (.ok none, s') => some (.ok a, s')
  | (.ok (some v), s') =>
    match f a v with
    | .error e => some (.error e, s')
    | .ok (a', true) => some (.ok a', s')
    | .ok (a', false) => Stream.fold f a' s'
partial_fixpoint

section
variable {S : Source T}

/-- stream/stream.go:192-196 `Collect`. -/
def Stream.collect (c : T → Go Unit) (s : Stream S) := s.fold (fun (_ : Unit) v => (c v).map fun _ => ((), false)) ()

/-- stream/stream.go:198-205 `All`. -/
def Stream.all (p : T → Go Bool) (s : Stream S) :=
  s.fold (fun (_ : Bool) v => (p v).map fun b => if !b then (false, true) else (true, false)) true

/-- stream/stream.go:207-214 `Any`. -/
def Stream.any (p : T → Go Bool) (s : Stream S) :=
  s.fold (fun (_ : Bool) v => (p v).map fun b => if b then (true, true) else (false, false)) false

/-- stream/stream.go:244-250, 270-276 `Reduce`. -/
def Stream.reduce {A : Type} (acc : A → T → Go A) (a : A) (s : Stream S) :=
  s.fold (fun a v => (acc a v).map fun a' => (a', false)) a

/-- stream/stream.go:236-242 `Slice`. -/
def Stream.slice (s : Stream S) := s.fold (fun (r : List T) v => .ok (r ++ [v], false)) []

end

/-! ## Specification -/

/-- What a call of `Next` brings: an element, a panic, the end. -/
inductive Item (T : Type) where
  | val (v : T)
  | boom (e : String)
  | eof

/-- The item a result stands for. -/
def item : Go (Option T) → Item T
  | .error e => .boom e
  | .ok none => .eof
  | .ok (some v) => .val v

/-- Calling `Next` again and again, recovering from panics, brings these items. -/
inductive Gives (S : Source T) : S.σ → List (Item T) → S.σ → Prop where
  | nil (s : S.σ) : Gives S s [] s
  | cons {s s1 s' : S.σ} {r : Go (Option T)} {l : List (Item T)} :
      S.next s = some (r, s1) → Gives S s1 l s' → Gives S s (item r :: l) s'

/-- A callback on an item; panics and the end go through. -/
def onVal (f : T → Go (Option R)) : Item T → Option (Item R)
  | .val v => match f v with
    | .error e => some (.boom e)
    | .ok none => none
    | .ok (some w) => some (.val w)
  | .boom e => some (.boom e)
  | .eof => some .eof

/-- `Skip(n)` drops the first `n` elements; panics do not count. -/
def skipItems : Nat → List (Item T) → List (Item T)
  | 0, l => l
  | _ + 1, [] => []
  | n + 1, .val _ :: l => skipItems n l
  | n + 1, x :: l => x :: skipItems (n + 1) l

/-- `Limit(n)` lets `n` elements through and ends the stream at the next; panics do not count. -/
def limitItems : Nat → List (Item T) → List (Item T)
  | _, [] => []
  | 0, .val _ :: _ => [.eof]
  | n + 1, .val v :: l => .val v :: limitItems n l
  | n, x :: l => x :: limitItems n l

/-- One stage of the pipeline as a function on the items. -/
def stage : Op T → List (Item T) → List (Item T)
  | .map f => List.filterMap (onVal fun v => (f v).map some)
  | .filter p => List.filterMap (onVal fun v => (p v).map fun b => if b then some v else none)
  | .skip n => skipItems n
  | .limit n => limitItems n
  | .peek c => List.filterMap (onVal fun v => (c v).map fun _ => some v)

/-- The pipeline. -/
def pipe (ops : List (Op T)) (l : List (Item T)) : List (Item T) := ops.foldl (fun l op => stage op l) l

/-- The items up to the end. -/
def upTo : List (Item T) → List (Item T)
  | [] => []
  | .eof :: _ => [.eof]
  | x :: l => x :: upTo l

/-- A terminal operation on the items: what it does, and the items it leaves. `none`: it wants more of them. -/
def foldItems {A : Type} (f : A → T → Go (A × Bool)) : A → List (Item T) → Option (Go A × List (Item T))
  | _, [] => none
  | _, .boom e :: l => some (.error e, l)
  | a, .eof :: l => some (.ok a, l)
  | a, .val v :: l => match f a v with
    | .error e => some (.error e, l)
    | .ok (a', true) => some (.ok a', l)
    | .ok (a', false) => foldItems f a' l

/-! ## The pipeline -/

theorem stage_boom (op : Op T) (e : String) (l : List (Item T)) :
    stage op (.boom e :: l) = .boom e :: stage op l := by
  cases op with
  | skip n => cases n <;> simp [stage, skipItems]
  | limit n => cases n <;> simp [stage, limitItems]
  | _ => simp [stage, onVal]

theorem stage_eof (op : Op T) (l : List (Item T)) : stage op (.eof :: l) = .eof :: stage op l := by
  cases op with
  | skip n => cases n <;> simp [stage, skipItems]
  | limit n => cases n <;> simp [stage, limitItems]
  | _ => simp [stage, onVal]

theorem pipe_cons (op : Op T) (ops : List (Op T)) (l : List (Item T)) :
    pipe (op :: ops) l = pipe ops (stage op l) := rfl

theorem pipe_boom (ops : List (Op T)) (e : String) :
    ∀ l : List (Item T), pipe ops (.boom e :: l) = .boom e :: pipe ops l := by
  induction ops with
  | nil => intro l; rfl
  | cons op ops ih => intro l; rw [pipe_cons, pipe_cons, stage_boom, ih]

theorem pipe_eof (ops : List (Op T)) : ∀ l : List (Item T), pipe ops (.eof :: l) = .eof :: pipe ops l := by
  induction ops with
  | nil => intro l; rfl
  | cons op ops ih => intro l; rw [pipe_cons, pipe_cons, stage_eof, ih]

theorem pipe_nil (ops : List (Op T)) : pipe ops [] = [] := by
  induction ops with
  | nil => rfl
  | cons op ops ih =>
    rw [pipe_cons]
    cases op with
    | skip n => cases n <;> simpa [stage, skipItems] using ih
    | limit n => cases n <;> simpa [stage, limitItems] using ih
    | _ => simpa [stage] using ih

/-- One element through the pipeline. -/
theorem pipe_val (ops : List (Op T)) : ∀ (v : T) (l : List (Item T)), upTo (pipe ops (.val v :: l)) =
    match runOps ops v with
    | .pass w ops' => .val w :: upTo (pipe ops' l)
    | .drop ops' => upTo (pipe ops' l)
    | .stop => [.eof]
    | .fail e ops' => .boom e :: upTo (pipe ops' l) := by
  induction ops with
  | nil => intro v l; rfl
  | cons op ops ih =>
    intro v l
    rw [pipe_cons]
    cases op with
    | map f =>
      cases hf : f v with
      | error e => simp [stage, onVal, hf, runOps, Except.map, pipe_boom, upTo, pipe_cons]
      | ok w =>
        simp only [stage, onVal, hf, runOps, Except.map, List.filterMap_cons]
        rw [ih]
        cases runOps ops w <;> simp [Out.cons, pipe_cons, stage, Except.map]
    | filter p =>
      cases hf : p v with
      | error e => simp [stage, onVal, hf, runOps, Except.map, pipe_boom, upTo, pipe_cons]
      | ok b =>
        cases b with
        | false => simp [stage, onVal, hf, runOps, Except.map, pipe_cons]
        | true =>
          simp only [stage, onVal, hf, runOps, Except.map, List.filterMap_cons, if_true, Bool.not_true]
          rw [ih]
          cases runOps ops v <;> simp [Out.cons, pipe_cons, stage, Except.map]
    | peek c =>
      cases hf : c v with
      | error e => simp [stage, onVal, hf, runOps, Except.map, pipe_boom, upTo, pipe_cons]
      | ok u =>
        simp only [stage, onVal, hf, runOps, Except.map, List.filterMap_cons]
        rw [ih]
        cases runOps ops v <;> simp [Out.cons, pipe_cons, stage, Except.map]
    | skip n =>
      cases n with
      | zero =>
        simp only [stage, skipItems, runOps]
        rw [ih]
        cases runOps ops v <;> simp [Out.cons, pipe_cons, stage, skipItems]
      | succ n => simp [stage, skipItems, runOps, pipe_cons]
    | limit n =>
      cases n with
      | zero => simp [stage, limitItems, runOps, pipe_eof, upTo]
      | succ n =>
        simp only [stage, limitItems, runOps]
        rw [ih]
        cases runOps ops v <;> simp [Out.cons, pipe_cons, stage]

theorem eof_forever (S : Source T) (k : Nat) :
    Gives (asSource S) (none : Stream S) (List.replicate k .eof) (none : Stream S) := by
  induction k with
  | zero => exact .nil _
  | succ k ih => exact .cons (r := .ok none) rfl ih

/-- Dropped elements in front make no difference. -/
theorem gives_of_next_eq {S : Source T} {s s' s1 : S.σ} {l : List (Item T)} (h : S.next s = S.next s1)
    (hl : l ≠ []) (hg : Gives S s1 l s') : Gives S s l s' := by
  cases hg with
  | nil => exact absurd rfl hl
  | cons h1 h2 => exact .cons (h.trans h1) h2

theorem gives_pipe {S : Source T} {q q' : S.σ} {l : List (Item T)} (h : Gives S q l q') :
    ∀ ops : List (Op T), ∃ s' : Stream S, Gives (asSource S) (some (q, ops) : Stream S) (upTo (pipe ops l)) s' ∧
      (.eof ∈ upTo (pipe ops l) → s' = none) := by
  induction h with
  | nil s =>
    intro ops
    rw [pipe_nil]
    exact ⟨_, .nil _, by simp [upTo]⟩
  | @cons s s1 s' r l hn _ ih =>
    intro ops
    match r, hn with
    | .error e, hn =>
      obtain ⟨t, h1, h2⟩ := ih ops
      have e1 : upTo (pipe ops (item (.error e) :: l)) = .boom e :: upTo (pipe ops l) := by
        simp [item, pipe_boom, upTo]
      rw [e1]
      refine ⟨t, .cons (r := .error e) ?_ h1, by simpa using h2⟩
      show loop S ops s = _
      rw [loop, hn]
      rfl
    | .ok none, hn =>
      have e1 : upTo (pipe ops (item (.ok none) :: l)) = [.eof] := by simp [item, pipe_eof, upTo]
      rw [e1]
      refine ⟨none, .cons (r := .ok none) ?_ (.nil _), fun _ => rfl⟩
      show loop S ops s = _
      rw [loop, hn]
      rfl
    | .ok (some v), hn =>
      have e1 : item (.ok (some v)) = Item.val v := rfl
      rw [e1, pipe_val]
      have e2 : (asSource S).next (some (s, ops) : Stream S) = loop S ops s := rfl
      rw [loop, hn] at e2
      cases hr : runOps ops v with
      | pass w ops' =>
        obtain ⟨t, h1, h2⟩ := ih ops'
        refine ⟨t, .cons (r := .ok (some w)) ?_ h1, by simpa using h2⟩
        rw [e2]; simp [hr]; rfl
      | stop =>
        refine ⟨none, .cons (r := .ok none) ?_ (.nil _), fun _ => rfl⟩
        rw [e2]; simp [hr]; rfl
      | fail e ops' =>
        obtain ⟨t, h1, h2⟩ := ih ops'
        refine ⟨t, .cons (r := .error e) ?_ h1, by simpa using h2⟩
        rw [e2]; simp [hr]; rfl
      | drop ops' =>
        obtain ⟨t, h1, h2⟩ := ih ops'
        by_cases hl : upTo (pipe ops' l) = []
        · exact ⟨some (s, ops), by simpa [hl] using Gives.nil (S := asSource S) _, by simp [hl]⟩
        · refine ⟨t, gives_of_next_eq ?_ hl h1, h2⟩
          rw [e2]; simp [hr]; rfl

/-- **C106.** A panic costs the element it happened on and nothing else: if the source brings the items `l` (elements,
panics, the end), a caller that recovers gets from the stream exactly the items that the pipeline makes of `l`, where a
callback that panics turns its element into a panic and neither `Skip` nor `Limit` counts it. Once the end has been
reported, it is reported forever, panics or not. -/
theorem C106_pipeline (S : Source T) (q q' : S.σ) (ops : List (Op T)) (l : List (Item T)) (h : Gives S q l q') :
    ∃ s' : Stream S, Gives (asSource S) (some (q, ops) : Stream S) (upTo (pipe ops l)) s' ∧
      (.eof ∈ upTo (pipe ops l) → ∀ k, Gives (asSource S) s' (List.replicate k .eof) s') := by
  obtain ⟨s', h1, h2⟩ := gives_pipe h ops
  refine ⟨s', h1, fun hm k => ?_⟩
  rw [h2 hm]
  exact eof_forever S k

/-- **C106.** `stream.Map`: the same for a change of type. -/
theorem C106_mapTo (S : Source T) (t : T → Go R) (s s' : Stream S) (l : List (Item T))
    (h : Gives (asSource S) s l s') :
    Gives (tts S t) s (l.filterMap (onVal fun v => (t v).map some)) s' := by
  change (asSource S).σ at s s'
  induction h with
  | nil s => exact .nil _
  | @cons s s1 s' r l hn _ ih =>
    have hn : Stream.next s = some (r, s1) := hn
    match r, hn with
    | .error e, hn =>
      have e1 : (item (.error e) :: l).filterMap (onVal fun v => (t v).map some) =
        item (.error e) :: l.filterMap (onVal fun v => (t v).map some) := by simp [item, onVal]
      rw [e1]
      exact .cons (by simp [tts, hn]; rfl) ih
    | .ok none, hn =>
      have e1 : (item (.ok none) :: l).filterMap (onVal fun v => (t v).map some) =
        item (.ok none) :: l.filterMap (onVal fun v => (t v).map some) := by simp [item, onVal]
      rw [e1]
      exact .cons (by simp [tts, hn]; rfl) ih
    | .ok (some v), hn =>
      have e1 : (item (.ok (some v)) :: l).filterMap (onVal fun v => (t v).map some) =
          item ((t v).map some) :: l.filterMap (onVal fun v => (t v).map some) := by
        cases ht : t v <;> simp [item, onVal, ht, Except.map]
      rw [e1]
      exact .cons (by simp [tts, hn]; rfl) ih

theorem fold_val {S : Source T} {A : Type} (f : A → T → Go (A × Bool)) (a : A) {s s1 : Stream S} {v : T}
    (h : s.next = some (.ok (some v), s1)) : s.fold f a = match f a v with
      | .error e => some (.error e, s1)
      | .ok (a', true) => some (.ok a', s1)
      | .ok (a', false) => s1.fold f a' := by
  rw [Stream.fold, h]
  rfl

theorem fold_end {S : Source T} {A : Type} (f : A → T → Go (A × Bool)) (a : A) {s s1 : Stream S}
    (h : s.next = some (.ok none, s1)) : s.fold f a = some (.ok a, s1) := by
  rw [Stream.fold, h]
  rfl

theorem fold_boom {S : Source T} {A : Type} (f : A → T → Go (A × Bool)) (a : A) {s s1 : Stream S} {e : String}
    (h : s.next = some (.error e, s1)) : s.fold f a = some (.error e, s1) := by
  rw [Stream.fold, h]
  rfl

/-- **C106.** Terminal operations: they stop at the first panic, whether of the pipeline or of their own callback, with
that panic; the element of that panic and those before it are gone, and the stream goes on with the rest. -/
theorem C106_terminal (S : Source T) (s s' : Stream S) (l : List (Item T)) (h : Gives (asSource S) s l s')
    {A : Type} (f : A → T → Go (A × Bool)) (a : A) (r : Go A) (rest : List (Item T))
    (hf : foldItems f a l = some (r, rest)) :
    ∃ s1, s.fold f a = some (r, s1) ∧ Gives (asSource S) s1 rest s' := by
  change (asSource S).σ at s s'
  change ∃ s1, Stream.fold (S := S) f a s = some (r, s1) ∧ Gives (asSource S) s1 rest s'
  induction h generalizing a with
  | nil s => cases hf
  | @cons s s1 s' r' l hn hg ih =>
    have hn : Stream.next s = some (r', s1) := hn
    match r', hn with
    | .error e, hn => cases hf; exact ⟨s1, fold_boom f a hn, hg⟩
    | .ok none, hn => cases hf; exact ⟨s1, fold_end f a hn, hg⟩
    | .ok (some v), hn =>
      have e0 := fold_val f a hn
      simp only [item, foldItems] at hf
      cases hv : f a v with
      | error e =>
        rw [hv] at hf e0
        cases hf
        exact ⟨s1, e0, hg⟩
      | ok ab =>
        obtain ⟨a', b⟩ := ab
        rw [hv] at hf e0
        cases b with
        | true =>
          cases hf
          exact ⟨s1, e0, hg⟩
        | false =>
          obtain ⟨t, h1, h2⟩ := ih a' hf
          exact ⟨t, e0.trans h1, h2⟩

theorem gives_append {S : Source T} {s s1 s2 : S.σ} {l l' : List (Item T)} (h : Gives S s l s1)
    (h' : Gives S s1 l' s2) : Gives S s (l ++ l') s2 := by
  induction h with
  | nil => exact h'
  | cons h1 _ ih => exact .cons h1 (ih h')

/-- `Slice` of elements and then a panic: all of them are lost. -/
theorem C106_slice (S : Source T) (s s' : Stream S) (vs : List T) (e : String) (rest : List (Item T))
    (h : Gives (asSource S) s (vs.map .val ++ .boom e :: rest) s') :
    ∃ s1, s.slice = some (.error e, s1) ∧ Gives (asSource S) s1 rest s' := by
  refine C106_terminal S s s' _ h _ _ _ rest ?_
  clear h
  suffices ∀ r : List T, foldItems (fun (r : List T) v => .ok (r ++ [v], false)) r
      (vs.map .val ++ .boom e :: rest) = some (.error e, rest) from this []
  induction vs with
  | nil => intro r; rfl
  | cons v vs ih => intro r; simp only [List.map_cons, List.cons_append, foldItems]; exact ih _

theorem foldItems_same {A : Type} (f : A → T → Go (A × Bool)) (a : A) (vs : List T)
    (h : ∀ v ∈ vs, f a v = .ok (a, false)) (l : List (Item T)) :
    foldItems f a (vs.map .val ++ l) = foldItems f a l := by
  induction vs with
  | nil => rfl
  | cons v vs ih =>
    simp only [List.map_cons, List.cons_append, foldItems]
    rw [h v (by simp)]
    exact ih fun v hv => h v (by simp [hv])

/-- What a loop that runs user code on each element makes of the item after elements on which it went on: `fin` at the
end of the stream. -/
def decide1 {A : Type} (fin : A) (f : T → Go (Option A)) : Item T → Option (Go A)
  | .boom e => some (.error e)
  | .eof => some (.ok fin)
  | .val v => match f v with
    | .error e => some (.error e)
    | .ok (some a) => some (.ok a)
    | .ok none => none

/-- **C106.** `All`, `Any` and `Collect`, item by item: elements on which the loop goes on, and the item that ends it. -/
theorem C106_all_any (S : Source T) (s s' : Stream S) (vs : List T) (x : Item T) (rest : List (Item T))
    (h : Gives (asSource S) s (vs.map .val ++ x :: rest) s') :
    (∀ p r, (∀ v ∈ vs, p v = .ok true) → decide1 true (fun v => (p v).map fun b => if b then none else some false) x =
        some r → ∃ s1, s.all p = some (r, s1) ∧ Gives (asSource S) s1 rest s') ∧
    (∀ p r, (∀ v ∈ vs, p v = .ok false) → decide1 false (fun v => (p v).map fun b => if b then some true else none) x =
        some r → ∃ s1, s.any p = some (r, s1) ∧ Gives (asSource S) s1 rest s') ∧
    (∀ c r, (∀ v ∈ vs, c v = .ok ()) → decide1 () (fun v => (c v).map fun _ => none) x =
        some r → ∃ s1, s.collect c = some (r, s1) ∧ Gives (asSource S) s1 rest s') := by
  refine ⟨fun p r hv hx => ?_, fun p r hv hx => ?_, fun p r hv hx => ?_⟩
  · refine C106_terminal S s s' _ h _ _ _ rest ?_
    rw [foldItems_same _ _ _ (fun v hm => by rw [hv v hm]; rfl)]
    cases x with
    | boom e => cases hx; rfl
    | eof => cases hx; rfl
    | val v =>
      simp only [decide1] at hx
      simp only [foldItems]
      cases hp : p v with
      | error e => rw [hp] at hx; cases hx; rfl
      | ok b => rw [hp] at hx; cases b <;> cases hx; rfl
  · refine C106_terminal S s s' _ h _ _ _ rest ?_
    rw [foldItems_same _ _ _ (fun v hm => by rw [hv v hm]; rfl)]
    cases x with
    | boom e => cases hx; rfl
    | eof => cases hx; rfl
    | val v =>
      simp only [decide1] at hx
      simp only [foldItems]
      cases hp : p v with
      | error e => rw [hp] at hx; cases hx; rfl
      | ok b => rw [hp] at hx; cases b <;> cases hx; rfl
  · refine C106_terminal S s s' _ h _ _ _ rest ?_
    rw [foldItems_same _ _ _ (fun v hm => by rw [hv v hm]; rfl)]
    cases x with
    | boom e => cases hx; rfl
    | eof => cases hx; rfl
    | val v =>
      simp only [decide1] at hx
      simp only [foldItems]
      cases hp : p v with
      | error e => rw [hp] at hx; cases hx; rfl
      | ok b => rw [hp] at hx; cases hx

/-- **C106.** `Reduce`: elements that the accumulator took, and then a panic, an element on which the accumulator
panics, or the end. -/
theorem C106_reduce (S : Source T) (s s' : Stream S) (vs : List T) (x : Item T) (rest : List (Item T))
    (h : Gives (asSource S) s (vs.map .val ++ x :: rest) s') {A : Type} (acc : A → T → Go A) (a b : A)
    (hb : vs.foldlM acc a = .ok b) (r : Go A) (hx : decide1 b (fun v => (acc b v).map fun _ => none) x = some r) :
    ∃ s1, s.reduce acc a = some (r, s1) ∧ Gives (asSource S) s1 rest s' := by
  refine C106_terminal S s s' _ h _ _ _ rest ?_
  clear h
  induction vs generalizing a with
  | nil =>
    cases hb
    cases x with
    | boom e => cases hx; rfl
    | eof => cases hx; rfl
    | val v =>
      simp only [decide1] at hx
      simp only [List.map_nil, List.nil_append, foldItems]
      cases hp : acc b v with
      | error e => rw [hp] at hx; cases hx; rfl
      | ok b => rw [hp] at hx; cases hx
  | cons v vs ih =>
    rw [List.foldlM_cons] at hb
    simp only [List.map_cons, List.cons_append, foldItems]
    cases hp : acc a v with
    | error e => rw [hp] at hb; cases hb
    | ok a' =>
      rw [hp] at hb
      exact ih a' hb

/-! ## The model without panics -/

/-- A callback that does not panic. -/
def ofOp {E : Type} : Verif.Stream.Op T E → Op T
  | .map f => .map fun v => .ok (f v)
  | .filter p => .filter fun v => .ok (p v)
  | .skip n => .skip n
  | .limit n => .limit n
  | .peek _ => .peek fun _ => .ok ()

/-- A source of `Stream/Model.lean`; `after s` is what it is left as if its `Next` panics. -/
def ofSource {E : Type} (S : Verif.Stream.Source T E) (after : S.σ → S.σ) : Source T where
  σ := S.σ
  next s := (S.next s).map fun r => match r with
    | .error e => (.error e, after s)
    | .ok x => (.ok x.val, x.st)

/-- The same outcome and, after a call that returns, the same state. -/
def Same {E : Type} {S : Verif.Stream.Source T E} {after : S.σ → S.σ} :
    Option (Go (Option T × Option (S.σ × List (Verif.Stream.Op T E)) × List E)) →
    Option (Go (Option T) × Option ((ofSource S after).σ × List (Op T))) → Prop
  | none, none => True
  | some (.error e), some (.error e', _) => e' = e
  | some (.ok (v, st, _)), some (.ok v', st') => v' = v ∧ st' = st.map fun x => (x.1, x.2.map ofOp)
  | _, _ => False

theorem runOps_ofOp {E : Type} (ops : List (Verif.Stream.Op T E)) : ∀ v : T, runOps (ops.map ofOp) v =
    match Verif.Stream.runOps ops v with
    | .pass w ops' _ => .pass w (ops'.map ofOp)
    | .drop ops' _ => .drop (ops'.map ofOp)
    | .stop _ => .stop := by
  induction ops with
  | nil => intro v; rfl
  | cons op ops ih =>
    intro v
    cases op with
    | map f =>
      simp only [List.map_cons, ofOp, runOps, Verif.Stream.runOps, ih]
      cases Verif.Stream.runOps ops (f v) <;> rfl
    | filter p =>
      simp only [List.map_cons, ofOp, runOps, Verif.Stream.runOps, ih]
      cases p v <;> simp only [Bool.not_false, Bool.not_true, if_true, Bool.false_eq_true, if_false]
      · rfl
      · cases Verif.Stream.runOps ops v <;> rfl
    | skip n =>
      simp only [List.map_cons, ofOp, runOps, Verif.Stream.runOps, ih]
      split
      · rfl
      · cases Verif.Stream.runOps ops v <;> rfl
    | limit n =>
      simp only [List.map_cons, ofOp, runOps, Verif.Stream.runOps, ih]
      split
      · cases Verif.Stream.runOps ops v <;> rfl
      · rfl
    | peek c =>
      simp only [List.map_cons, ofOp, runOps, Verif.Stream.runOps, ih]
      cases Verif.Stream.runOps ops v <;> rfl

theorem agrees_some {E : Type} (S : Verif.Stream.Source T E) (after : S.σ → S.σ)
    (ops : List (Verif.Stream.Op T E)) (q : S.σ)
    (r : Go (Option T × Option (S.σ × List (Verif.Stream.Op T E)) × List E))
    (h : Verif.Stream.loop S ops q = some r) :
    ∃ r', loop (ofSource S after) (ops.map ofOp) q = some r' ∧ Same (after := after) (some r) (some r') := by
  refine Verif.Stream.loop.partial_correctness S (fun ops q r =>
    ∃ r', loop (ofSource S after) (ops.map ofOp) q = some r' ∧ Same (after := after) (some r) (some r')) ?_ ops q r h
  intro rec ih ops q r h
  have e0 := loop.eq_1 (ofSource S after) (ops.map ofOp) q
  rw [e0]
  cases hn : S.next q with
  | none => rw [hn] at h; cases h
  | some x =>
    rw [hn] at h
    have e1 : (ofSource S after).next q = some (match (generalizing := false) x with
      | .error e => (.error e, after q)
      | .ok x => (.ok x.val, x.st)) := by simp [ofSource, hn]
    rw [e1]
    match x with
    | .error e => cases h; exact ⟨_, rfl, rfl⟩
    | .ok ⟨none, s', l⟩ => cases h; exact ⟨_, rfl, rfl, rfl⟩
    | .ok ⟨some v, s', l⟩ =>
      simp only [Option.bind_eq_bind, Option.bind_some] at h ⊢
      rw [runOps_ofOp]
      cases hr : Verif.Stream.runOps ops v with
      | pass w ops' l' => rw [hr] at h; cases h; exact ⟨_, rfl, rfl, rfl⟩
      | stop l' => rw [hr] at h; cases h; exact ⟨_, rfl, rfl, rfl⟩
      | drop ops' l' =>
        rw [hr] at h
        simp only at h
        cases hc : rec ops' s' with
        | none => rw [hc] at h; cases h
        | some y =>
          rw [hc] at h
          obtain ⟨r', h1, h2⟩ := ih _ _ _ hc
          refine ⟨r', h1, ?_⟩
          match y with
          | .error e => cases h; exact h2
          | .ok (a, b, c) =>
            cases h
            match r', h2 with
            | (.error _, _), h2 => exact h2.elim
            | (.ok _, _), h2 => exact h2

theorem agrees_none {E : Type} (S : Verif.Stream.Source T E) (after : S.σ → S.σ)
    (ops : List (Verif.Stream.Op T E)) (q : S.σ) (r) (h : loop (ofSource S after) (ops.map ofOp) q = some r) :
    Verif.Stream.loop S ops q ≠ none := by
  refine loop.partial_correctness (ofSource S after) (fun ops' q _ =>
    ∀ ops : List (Verif.Stream.Op T E), ops' = ops.map ofOp → Verif.Stream.loop S ops q ≠ none) ?_ _ q r h ops rfl
  intro rec ih ops' q r h ops hops
  subst hops
  change S.σ at q
  have e0 := Verif.Stream.loop.eq_1 S ops q
  rw [e0]
  cases hn : S.next q with
  | none => simp [ofSource, hn] at h
  | some x =>
    have e1 : (ofSource S after).next q = some (match (generalizing := false) x with
      | .error e => (.error e, after q)
      | .ok x => (.ok x.val, x.st)) := by simp [ofSource, hn]
    rw [e1] at h
    match x with
    | .error e => simp
    | .ok ⟨none, s', l⟩ => simp
    | .ok ⟨some v, s', l⟩ =>
      simp only [Option.bind_eq_bind, Option.bind_some] at h ⊢
      rw [runOps_ofOp] at h
      cases hr : Verif.Stream.runOps ops v with
      | pass w ops' l' => simp
      | stop l' => simp
      | drop ops' l' =>
        rw [hr] at h
        have := ih _ _ _ h ops' rfl
        cases hc : Verif.Stream.loop S ops' s' with
        | none => exact absurd hc this
        | some y => cases y <;> simp [hc]

/-- With callbacks that do not panic, `Next` is that of `Stream/Model.lean`. -/
theorem agrees {E : Type} (S : Verif.Stream.Source T E) (after : S.σ → S.σ) (ops : List (Verif.Stream.Op T E))
    (q : S.σ) : Same (Verif.Stream.loop S ops q) (loop (ofSource S after) (ops.map ofOp) q) := by
  cases h : Verif.Stream.loop S ops q with
  | none =>
    cases h' : loop (ofSource S after) (ops.map ofOp) q with
    | none => trivial
    | some r => exact absurd h (agrees_none S after ops q r h')
  | some r =>
    obtain ⟨r', h1, h2⟩ := agrees_some S after ops q r h
    rw [h1]
    exact h2

/-! ## The sources -/

/-- `n` calls. -/
def calls {γ : Type} (g : γ → Go (Option T) × γ) : Nat → γ → List (Item T) × γ
  | 0, c => ([], c)
  | n + 1, c => (item (g c).1 :: (calls g n (g c).2).1, (calls g n (g c).2).2)

/-- C106: a generator is called once for each call of `Next`, whatever the calls before it did. -/
theorem C106_generator {γ : Type} (g : γ → Go (Option T) × γ) (n : Nat) (c : γ) :
    Gives (generator g) c (calls g n c).1 (calls g n c).2 := by
  induction n generalizing c with
  | zero => exact Gives.nil (S := generator g) c
  | succ n ih => exact Gives.cons (S := generator g) (r := (g c).1) (s1 := (g c).2) rfl (ih (g c).2)

/-- C106: a slice brings its elements and then ends again and again. -/
theorem C106_sliceSource (a : List T) (n : Nat) :
    Gives (sliceSource a) (0 : Nat) (a.map .val ++ List.replicate n .eof) a.length := by
  have hend : ∀ n, Gives (sliceSource a) a.length (List.replicate n .eof) a.length := by
    intro n
    induction n with
    | zero => exact .nil _
    | succ n ih =>
      refine .cons (r := .ok none) (s1 := a.length) ?_ ih
      simp [sliceSource]
  have : ∀ (k i : Nat), i + k = a.length →
      Gives (sliceSource a) i ((a.drop i).map .val ++ List.replicate n .eof) a.length := by
    intro k
    induction k with
    | zero =>
      intro i hi
      obtain rfl : i = a.length := by omega
      simpa using hend n
    | succ k ih =>
      intro i hi
      have h : i < a.length := by omega
      rw [List.drop_eq_getElem_cons h, List.map_cons, List.cons_append]
      refine .cons (r := .ok (some a[i])) (s1 := (i + 1 : Nat)) ?_ (ih (i + 1) (by omega))
      simp [sliceSource, List.getElem?_eq_getElem h]
  exact this a.length 0 (by omega)

/-! ## Examples -/

/-- Panics on 0. -/
def inv (x : Nat) : Go Nat := if x = 0 then .error "division by zero" else .ok (60 / x)

/-- `Of(5, 0, 4, 3, 0, 2).Map(60/x).Skip(1).Limit(2)`: a panic, 15, 20, a panic, the end. -/
example : Gives (sliceSource [5, 0, 4, 3, 0, 2]) (0 : Nat)
    [.val 5, .val 0, .val 4, .val 3, .val 0, .val 2, .eof] (6 : Nat) :=
  .cons (r := .ok (some 5)) rfl <| .cons (r := .ok (some 0)) rfl <| .cons (r := .ok (some 4)) rfl <|
    .cons (r := .ok (some 3)) rfl <| .cons (r := .ok (some 0)) rfl <| .cons (r := .ok (some 2)) rfl <|
    .cons (r := .ok none) rfl <| .nil _

example : upTo (pipe [.map inv, .skip 1, .limit 2] [.val 5, .val 0, .val 4, .val 3, .val 0, .val 2, .eof]) =
    [.boom "division by zero", .val 15, .val 20, .boom "division by zero", .eof] := by
  rfl

/-- The items of C106_slice: `Slice` panics and the elements 12 and 15 are lost; a second `Slice` gives the rest. -/
example : foldItems (fun (r : List Nat) v => .ok (r ++ [v], false)) []
    [.val 12, .val 15, .boom "division by zero", .val 20, .eof] =
    some (.error "division by zero", [.val 20, .eof]) := by rfl

example : foldItems (fun (r : List Nat) v => .ok (r ++ [v], false)) [] [.val 20, .eof] = some (.ok [20], []) := by rfl

end Verif.Stream.Panics
