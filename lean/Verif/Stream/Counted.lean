import Verif.Stream.Loop

/-!
# C119 with `Skip` and `Limit`

The loop one would write has a variable for each of them, which counts down.
-/

namespace Verif.Stream.Mem

open Verif.Slice (Heap Slice load)

variable {M T A : Type}

/-! ## Specification -/

/-- Intermediate operations. The counters of `Skip` and `Limit` are variables of the loop, numbered by the place of the
operation. -/
inductive Step (M T : Type) where
  | map (f : T → St M T)
  | filter (p : T → St M Bool)
  | peek (c : T → St M Unit)
  | skip
  | limit

/-- Memory and the variables of the loop. -/
abbrev Vars (M : Type) := M × (Nat → Nat)

/-- Runs a callback, which does not see the variables of the loop. -/
def inMem {B : Type} (c : St M B) : St (Vars M) B := fun s => ((c s.1).1, (c s.1).2, s.2)

/-- The value of a variable. -/
def var (i : Nat) : St (Vars M) Nat := fun s => (.ok (s.2 i), s)

/-- `x--`. -/
def dec (i : Nat) : St (Vars M) Unit := fun s => (.ok (), s.1, fun j => if j = i then s.2 i - 1 else s.2 j)

/-- How a round of the loop ends: `continue`; the terminal operation leaves; a `Limit` is used up. -/
inductive Turn (A : Type) where
  | on (a : A)
  | leave (a : A)
  | stop

/-- The body of the loop: `v = f(v)` for a mapper, `if !p(v) { continue }` for a predicate, `c(v)` for a consumer,
`if x > 0 { x--; continue }` for `Skip`, `if x > 0 { x-- } else { break }` for `Limit`, and then what the terminal
operation does with `v`. -/
def round (f : A → T → St M (A × Bool)) (a : A) : Nat → List (Step M T) → T → St (Vars M) (Turn A)
  | _, [], v => do let r ← inMem (f a v); pure (if r.2 then .leave r.1 else .on r.1)
  | i, .map g :: l, v => do let w ← inMem (g v); round f a (i + 1) l w
  | i, .filter p :: l, v => do let b ← inMem (p v); if b then round f a (i + 1) l v else pure (.on a)
  | i, .peek c :: l, v => do inMem (c v); round f a (i + 1) l v
  | i, .skip :: l, v => do let x ← var i; if x > 0 then do dec i; pure (.on a) else round f a (i + 1) l v
  | i, .limit :: l, v => do let x ← var i; if x > 0 then do dec i; round f a (i + 1) l v else pure .stop

/-- `for v, ok := src.Next(); ok; v, ok = src.Next() { … }`. `none` as the state of the source: it has ended, or is not
needed any more because a `Limit` is used up. -/
def forSourceV (S : Source M T) (b : A → T → St (Vars M) (Turn A)) (a : A) (q : S.σ) (s : Vars M) :
    Option (Go A × Option S.σ × Vars M) := do
  match ← S.next q s.1 with
  | (.error e, q', m') => some (.error e, some q', m', s.2)
  | (.ok none, _, m') => some (.ok a, none, m', s.2)
  | (.ok (some v), q', m') =>
    match b a v (m', s.2) with
    | (.error e, s') => some (.error e, some q', s')
    | (.ok .stop, s') => some (.ok a, none, s')
    | (.ok (.leave a'), s') => some (.ok a', some q', s')
    | (.ok (.on a'), s') => forSourceV S b a' q' s'
partial_fixpoint

/-- `for _, v := range s { … }` for the `k` elements from `i` on. -/
def forRangeV [Inhabited T] (view : M → Heap T) (s : Slice) (b : A → T → St (Vars M) (Turn A)) :
    Nat → Nat → A → St (Vars M) A
  | 0, _, a => pure a
  | k + 1, i, a => do
    let v ← inMem (elem view s i)
    match ← b a v with
    | .stop => pure a
    | .leave a' => pure a'
    | .on a' => forRangeV view s b k (i + 1) a'

/-- The step as an operation of a stream, when its counter is `x`. -/
def Step.op : Step M T → Nat → Op M T
  | .map f, _ => .map f
  | .filter p, _ => .filter p
  | .peek c, _ => .peek c
  | .skip, x => .skip x
  | .limit, x => .limit x

/-- The chain of operations, from place `i` on, with the values of the counters. -/
def chain (n : Nat → Nat) : Nat → List (Step M T) → List (Op M T)
  | _, [] => []
  | i, s :: l => s.op (n i) :: chain n (i + 1) l

/-! ## One round -/

section
variable {S : Source M T}

theorem chain_congr {n n' : Nat → Nat} (l : List (Step M T)) : ∀ i, (∀ j, i ≤ j → n' j = n j) →
    chain n' i l = chain n i l := by
  induction l with
  | nil => intro i _; rfl
  | cons s l ih =>
    intro i h
    simp only [chain, h i (Nat.le_refl i)]
    rw [ih (i + 1) fun j hj => h j (by omega)]

/-- What a round does, when the operations give `r`. -/
def Round (f : A → T → St M (A × Bool)) (a : A) (l : List (Step M T)) (i : Nat) (n : Nat → Nat) (x : Go (Turn A) × Vars M)
    (r : Out M T × M) : Prop :=
  ∃ n', (∀ j, j < i → n' j = n j) ∧ match r with
    | (.pass w ops, m') => ops = chain n' i l ∧ x = match f a w m' with
      | (.error e, m'') => (.error e, m'', n')
      | (.ok (a', true), m'') => (.ok (.leave a'), m'', n')
      | (.ok (a', false), m'') => (.ok (.on a'), m'', n')
    | (.drop ops, m') => ops = chain n' i l ∧ x = (.ok (.on a), m', n')
    | (.stop, m') => x = (.ok .stop, m', n')
    | (.fail e ops, m') => ops = chain n' i l ∧ x = (.error e, m', n')

theorem Round.cons {f : A → T → St M (A × Bool)} {a : A} {l : List (Step M T)} {i : Nat} {n : Nat → Nat}
    {x : Go (Turn A) × Vars M} {r : Out M T × M} (h : Round f a l (i + 1) n x r) (s : Step M T) (n₀ : Nat → Nat)
    (h0 : ∀ j, j < i → n j = n₀ j) :
    Round f a (s :: l) i n₀ x (r.1.cons (s.op (n i)), r.2) := by
  obtain ⟨n', hn, h⟩ := h
  refine ⟨n', fun j hj => (hn j (by omega)).trans (h0 j hj), ?_⟩
  have hi : n' i = n i := hn i (by omega)
  rcases r with ⟨_ | _ | _ | _, m'⟩
  · exact ⟨by simp only [chain, hi, ← h.1], h.2⟩
  · exact ⟨by simp only [chain, hi, ← h.1], h.2⟩
  · exact h
  · exact ⟨by simp only [chain, hi, ← h.1], h.2⟩

theorem round_run (f : A → T → St M (A × Bool)) (a : A) (l : List (Step M T)) : ∀ (i : Nat) (n : Nat → Nat) (v : T) (m : M),
    Round f a l i n (round f a i l v (m, n)) (runOps (chain n i l) v m) := by
  induction l with
  | nil =>
    intro i n v m
    refine ⟨n, fun _ _ => rfl, rfl, ?_⟩
    simp only [round, St.bind_apply, inMem]
    rcases f a v m with ⟨_ | ⟨_, _ | _⟩, _⟩ <;> rfl
  | cons s l ih =>
    intro i n v m
    cases s with
    | map g =>
      simp only [chain, Step.op, runOps, round, St.bind_apply, inMem]
      rcases hg : g v m with ⟨e | w, m'⟩
      · exact ⟨n, fun _ _ => rfl, rfl, rfl⟩
      · exact (ih (i + 1) n w m').cons (.map g) n fun _ _ => rfl
    | peek c =>
      simp only [chain, Step.op, runOps, round, St.bind_apply, inMem]
      rcases hg : c v m with ⟨e | w, m'⟩
      · exact ⟨n, fun _ _ => rfl, rfl, rfl⟩
      · exact (ih (i + 1) n v m').cons (.peek c) n fun _ _ => rfl
    | filter p =>
      simp only [chain, Step.op, runOps, round, St.bind_apply, inMem]
      rcases hg : p v m with ⟨e | _ | _, m'⟩
      · exact ⟨n, fun _ _ => rfl, rfl, rfl⟩
      · exact ⟨n, fun _ _ => rfl, rfl, rfl⟩
      · exact (ih (i + 1) n v m').cons (.filter p) n fun _ _ => rfl
    | skip =>
      simp only [chain, Step.op, runOps, round, St.bind_apply, var]
      by_cases h : n i > 0
      · simp only [h, if_true, St.bind_apply, dec]
        refine ⟨_, fun j hj => ?_, ?_, rfl⟩
        · simp only [Nat.ne_of_lt hj, if_false]
        · simp only [chain, Step.op, if_true]
          exact congrArg _ (chain_congr (n' := fun j => if j = i then n i - 1 else n j) (n := n) l (i + 1)
            fun j hj => by simp only [show ¬ j = i from by omega, if_false]).symm
      · simp only [h, if_false]
        exact (ih (i + 1) n v m).cons .skip n fun _ _ => rfl
    | limit =>
      simp only [chain, Step.op, runOps, round, St.bind_apply, var]
      by_cases h : n i > 0
      · simp only [h, if_true, St.bind_apply, dec]
        have := (ih (i + 1) (fun j => if j = i then n i - 1 else n j) v m).cons .limit n fun j hj => by
          simp only [Nat.ne_of_lt hj, if_false]
        rw [chain_congr (n := n) l (i + 1) fun j hj => by simp only [show ¬ j = i from by omega, if_false]] at this
        simpa only [Step.op, if_true] using this
      · simp only [h, if_false]
        exact ⟨n, fun _ _ => rfl, rfl⟩

/-! ## The loop -/

theorem foldV_step (f : A → T → St M (A × Bool)) (l : List (Step M T)) (a : A) (q : S.σ) (m : M) (n : Nat → Nat) :
    Stream.fold f a (some (q, chain n 0 l) : Stream S) m =
      (S.next q m).bind fun x => match x with
        | (.error e, q', m') => some (.error e, some (q', chain n 0 l), m')
        | (.ok none, _, m') => some (.ok a, none, m')
        | (.ok (some v), q', m') =>
          match round f a 0 l v (m', n) with
          | (.error e, s) => some (.error e, some (q', chain s.2 0 l), s.1)
          | (.ok .stop, s) => some (.ok a, none, s.1)
          | (.ok (.leave a'), s) => some (.ok a', some (q', chain s.2 0 l), s.1)
          | (.ok (.on a'), s) => Stream.fold f a' (some (q', chain s.2 0 l) : Stream S) s.1 := by
  rw [Stream.fold.eq_1]
  simp only [Stream.next]
  rw [loop.eq_1]
  rcases hn : S.next q m with _ | ⟨_ | _ | v, q', m'⟩
  · rfl
  · rfl
  · rfl
  · dsimp only [Option.bind_eq_bind, Option.bind_some]
    obtain ⟨n', -, this⟩ := round_run f a l 0 n v m'
    rcases hr : runOps (chain n 0 l) v m' with ⟨_ | _ | _ | _, m''⟩ <;> rw [hr] at this
    · rw [this.1, this.2]
      dsimp only [Option.bind_some]
      rcases f a _ m'' with ⟨_ | ⟨_, _ | _⟩, _⟩ <;> rfl
    · rw [this.1, this.2]
      dsimp only
      rw [Stream.fold.eq_1]
      rfl
    · rw [this]
      rfl
    · rw [this.1, this.2]
      rfl

/-- What the loop over the source does, when `Next` has the result `r`. -/
def FollowsV (f : A → T → St M (A × Bool)) (l : List (Step M T)) (q : S.σ) (s : Vars M) :
    Go (Option T) × Option (S.σ × List (Op M T)) × M → A → Prop
  | (.ok (some w), s', m'), a => ∃ q' n', s' = some (q', chain n' 0 l) ∧
      forSourceV S (fun a v => round f a 0 l v) a q s = match f a w m' with
        | (.error e, m'') => some (.error e, some q', m'', n')
        | (.ok (a', true), m'') => some (.ok a', some q', m'', n')
        | (.ok (a', false), m'') => forSourceV S (fun a v => round f a 0 l v) a' q' (m'', n')
  | (.ok none, _, _), a => forSourceV S (fun a v => round f a 0 l v) a q s ≠ none
  | (.error _, _, _), a => forSourceV S (fun a v => round f a 0 l v) a q s ≠ none

theorem FollowsV.congr {f : A → T → St M (A × Bool)} {l : List (Step M T)} {q q' : S.σ} {s s' : Vars M}
    {r : Go (Option T) × Option (S.σ × List (Op M T)) × M} {a : A} (h : FollowsV f l q' s' r a)
    (e : forSourceV S (fun a v => round f a 0 l v) a q s = forSourceV S (fun a v => round f a 0 l v) a q' s') :
    FollowsV f l q s r a := by
  match r, h with
  | (.ok (some w), s', m'), h => obtain ⟨q', n', h1, h2⟩ := h; exact ⟨q', n', h1, e.trans h2⟩
  | (.ok none, _, _), h => simpa [FollowsV, e] using h
  | (.error _, _, _), h => simpa [FollowsV, e] using h

theorem loopV_for (f : A → T → St M (A × Bool)) (l : List (Step M T)) {q : S.σ} {m : M} {n : Nat → Nat}
    {r : Go (Option T) × Option (S.σ × List (Op M T)) × M}
    (h : loop S (chain n 0 l) q m = some r) : ∀ a, FollowsV f l q (m, n) r a := by
  refine loop.partial_correctness S (fun ops q m r => ∀ n, ops = chain n 0 l → ∀ a,
    FollowsV f l q (m, n) r a) ?_ _ q m r h n rfl
  intro rec ih ops q m r h n hops a
  subst hops
  have e := forSourceV.eq_1 S (fun a v => round f a 0 l v) a q (m, n)
  rcases hn : S.next q m with _ | ⟨_ | _ | v, q', m'⟩ <;> rw [hn] at h e
  · cases h
  · cases h; simp [FollowsV, e]
  · cases h; simp [FollowsV, e]
  · dsimp only [Option.bind_eq_bind, Option.bind_some] at h e
    obtain ⟨n', -, this⟩ := round_run f a l 0 n v m'
    rcases hr : runOps (chain n 0 l) v m' with ⟨_ | _ | _ | _, m''⟩ <;> rw [hr] at this h
    · cases h
      rw [this.2] at e
      rw [this.1]
      refine ⟨q', n', rfl, e.trans ?_⟩
      rcases f a _ m'' with ⟨_ | ⟨_, _ | _⟩, _⟩ <;> rfl
    · rw [this.2] at e
      rw [this.1] at h
      exact (ih _ _ _ _ h n' rfl a).congr e
    · cases h
      rw [this] at e
      simp [FollowsV, e]
    · cases h
      rw [this.2] at e
      simp [FollowsV, e]

/-- What the loop leaves, as a stream. -/
def leaves (l : List (Step M T)) (r : Go A × Option S.σ × Vars M) : Go A × Stream S × M :=
  (r.1, r.2.1.map fun q => (q, chain r.2.2.2 0 l), r.2.2.1)

theorem fold_eq_forSourceV (f : A → T → St M (A × Bool)) (l : List (Step M T)) (a : A) (q : S.σ) (m : M) (n : Nat → Nat) :
    Stream.fold f a (some (q, chain n 0 l) : Stream S) m =
      (forSourceV S (fun a v => round f a 0 l v) a q (m, n)).map (leaves l) := by
  have h1 : ∀ r, forSourceV S (fun a v => round f a 0 l v) a q (m, n) = some r →
      Stream.fold f a (some (q, chain n 0 l) : Stream S) m = some (leaves l r) := by
    refine forSourceV.partial_correctness S _ (fun a q s r =>
      Stream.fold f a (some (q, chain s.2 0 l) : Stream S) s.1 = some (leaves l r)) ?_ a q (m, n)
    intro rec ih a q s r h
    rw [foldV_step]
    rcases hn : S.next q s.1 with _ | ⟨_ | _ | v, q', m'⟩
    · rw [hn] at h; cases h
    · rw [hn] at h; cases h; rfl
    · rw [hn] at h; cases h; rfl
    · rw [hn] at h
      dsimp only [Option.bind_eq_bind, Option.bind_some] at h ⊢
      rcases hb : round f a 0 l v (m', s.2) with ⟨_ | _ | _ | _, _⟩ <;> rw [hb] at h
      · cases h; rfl
      · exact ih _ _ _ _ h
      · cases h; rfl
      · cases h; rfl
  have h2 : ∀ r, Stream.fold f a (some (q, chain n 0 l) : Stream S) m = some r →
      forSourceV S (fun a v => round f a 0 l v) a q (m, n) ≠ none := by
    intro r h
    refine Stream.fold.partial_correctness f (fun a (s : Stream S) m _ => ∀ q n, s = some (q, chain n 0 l) →
      forSourceV S (fun a v => round f a 0 l v) a q (m, n) ≠ none) ?_ a _ m r h q n rfl
    intro rec ih a s m r h q n hs
    subst hs
    simp only [Stream.next] at h
    cases hl : loop S (chain n 0 l) q m with
    | none => rw [hl] at h; cases h
    | some x =>
      rw [hl] at h
      have := loopV_for f l hl a
      rcases x with ⟨_ | _ | w, s', m'⟩
      · exact this
      · exact this
      · obtain ⟨q', n', hs', he⟩ := this
        rw [he]
        dsimp only [Option.bind_eq_bind, Option.bind_some] at h
        rcases hb : f a w m' with ⟨_ | ⟨_, _ | _⟩, _⟩ <;> rw [hb] at h
        · simp
        · exact ih _ _ _ _ h _ _ hs'
        · simp
  cases hf : forSourceV S (fun a v => round f a 0 l v) a q (m, n) with
  | none =>
    cases hd : Stream.fold f a (some (q, chain n 0 l) : Stream S) m with
    | none => rfl
    | some r => exact (h2 r hd hf).elim
  | some r => exact h1 r hf

theorem forSourceV_end {b : A → T → St (Vars M) (Turn A)} {a : A} {q q' : S.σ} {s : Vars M} {m' : M}
    (h : S.next q s.1 = some (.ok none, q', m')) : forSourceV S b a q s = some (.ok a, none, m', s.2) := by
  rw [forSourceV.eq_1, h]; rfl

theorem forSourceV_error {b : A → T → St (Vars M) (Turn A)} {a : A} {q q' : S.σ} {s : Vars M} {m' : M} {e : String}
    (h : S.next q s.1 = some (.error e, q', m')) : forSourceV S b a q s = some (.error e, some q', m', s.2) := by
  rw [forSourceV.eq_1, h]; rfl

theorem forSourceV_some {b : A → T → St (Vars M) (Turn A)} {a : A} {q q' : S.σ} {s : Vars M} {m' : M} {v : T}
    (h : S.next q s.1 = some (.ok (some v), q', m')) : forSourceV S b a q s = match b a v (m', s.2) with
      | (.error e, s') => some (.error e, some q', s')
      | (.ok .stop, s') => some (.ok a, none, s')
      | (.ok (.leave a'), s') => some (.ok a', some q', s')
      | (.ok (.on a'), s') => forSourceV S b a' q' s' := by
  rw [forSourceV.eq_1, h]; rfl

end

/-- The loop over a slice source is `range`. -/
theorem forSourceV_slice [Inhabited T] {view : M → Heap T} {s : Slice} (b : A → T → St (Vars M) (Turn A)) (k : Nat) :
    ∀ (i : Nat) (a : A) (x : Vars M), i + k = s.len → ∃ q, forSourceV (sliceSource view s) b a (i : Nat) x =
      some ((forRangeV view s b k i a x).1, q, (forRangeV view s b k i a x).2) := by
  induction k with
  | zero =>
    intro i a x hi
    have : (sliceSource view s).next i x.1 = some (.ok none, i, x.1) := if_pos (by omega)
    exact ⟨none, forSourceV_end this⟩
  | succ k ih =>
    intro i a x hi
    simp only [forRangeV, St.bind_apply, elem, inMem]
    rcases hl : (load s i (view x.1)).1 with e | y
    · have : (sliceSource view s).next i x.1 = some (.error e, i + 1, x.1) := by
        simp only [sliceSource, hl]; rw [if_neg (by omega)]
      exact ⟨_, forSourceV_error this⟩
    · have : (sliceSource view s).next i x.1 = some (.ok (some y), i + 1, x.1) := by
        simp only [sliceSource, hl]; rw [if_neg (by omega)]
      rw [forSourceV_some this]
      dsimp only
      rcases hb : b a y (x.1, x.2) with ⟨e | _ | _ | _, x'⟩
      · exact ⟨_, rfl⟩
      · simpa using ih (i + 1) _ x' (by omega)
      · exact ⟨_, rfl⟩
      · exact ⟨_, rfl⟩

/-! ## C119 -/

/-- A terminal operation on a stream with any chain of operations over any source is the loop over that source with a
variable for each counter: the same result or panic, the same memory; the stream is left with the state of the source
and the counters of the loop, or empty if the source has ended or a `Limit` was used up. -/
theorem C119_counters {S : Source M T} (f : A → T → St M (A × Bool)) (l : List (Step M T)) (n : Nat → Nat) (a : A)
    (q : S.σ) (m : M) :
    Stream.fold f a (some (q, chain n 0 l) : Stream S) m =
      (forSourceV S (fun a v => round f a 0 l v) a q (m, n)).map
        fun r => (r.1, r.2.1.map fun q => (q, chain r.2.2.2 0 l), r.2.2.1) := fold_eq_forSourceV f l a q m n

/-- Over a slice it is the loop with `range`. -/
theorem C119_counters_slice [Inhabited T] (view : M → Heap T) (s : Slice) (f : A → T → St M (A × Bool))
    (l : List (Step M T)) (n : Nat → Nat) (a : A) (m : M) :
    ∃ st, (ofSlice view s 0 (chain n 0 l)).fold f a m =
      some ((forRangeV view s (fun a v => round f a 0 l v) s.len 0 a (m, n)).1, st,
        (forRangeV view s (fun a v => round f a 0 l v) s.len 0 a (m, n)).2.1) := by
  have e := fold_eq_forSourceV (S := sliceSource view s) f l a (0 : Nat) m n
  obtain ⟨q, h⟩ := forSourceV_slice (view := view) (s := s) (fun a v => round f a 0 l v) s.len 0 a (m, n) (by omega)
  rw [h] at e
  exact ⟨_, e⟩

/-- Every list of operations is such a chain. -/
theorem C119_chain (ops : List (Op M T)) : ∃ l n, chain n 0 l = ops ∧ l.length = ops.length := by
  have : ∀ (ops : List (Op M T)) i, ∃ l n, chain n i l = ops ∧ l.length = ops.length := by
    intro ops
    induction ops with
    | nil => exact fun i => ⟨[], fun _ => 0, rfl, rfl⟩
    | cons op ops ih =>
      intro i
      obtain ⟨l, n, h, hl⟩ := ih (i + 1)
      have hs : ∃ (s : Step M T) (x : Nat), s.op x = op := by
        cases op with
        | map f => exact ⟨.map f, 0, rfl⟩
        | filter p => exact ⟨.filter p, 0, rfl⟩
        | peek c => exact ⟨.peek c, 0, rfl⟩
        | skip x => exact ⟨.skip, x, rfl⟩
        | limit x => exact ⟨.limit, x, rfl⟩
      obtain ⟨s, x, hs⟩ := hs
      refine ⟨s :: l, fun j => if j = i then x else n j, ?_, by simp [hl]⟩
      simp only [chain, if_true, hs]
      rw [chain_congr (n := n) l (i + 1) fun j hj => by simp only [show ¬ j = i from by omega, if_false], h]
  exact this ops 0

/-! ## Concrete case -/

/-- `Skip(1)`, a consumer that overwrites the third element, `Limit(2)`: the first element is dropped, the third is
overwritten before it is read, and the consumer is called once more for the element that is too many for `Limit`. -/
example : ∃ st, (ofSlice Prod.fst ⟨.arr 0 0, 4, 4⟩ 0 [.skip 1, .peek scribble, .limit 2]).fold gather []
    (([[1, 2, 3, 4]], 0) : ExM) = some (.ok [2, 2], st, ([[1, 2, 4, 4]], 0)) :=
  C119_counters_slice Prod.fst ⟨.arr 0 0, 4, 4⟩ gather [.skip, .peek scribble, .limit]
    (fun i => if i = 0 then 1 else 2) [] ([[1, 2, 3, 4]], 0)

end Verif.Stream.Mem
