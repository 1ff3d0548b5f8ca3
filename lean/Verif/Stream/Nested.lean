import Verif.Stream.Loop

/-!
# C121: a stream as the source of another

`stream.New(s)` and `stream.Map(s, t)` take a stream as source. Callbacks may read and change memory and may panic.
-/

namespace Verif.Stream.Mem

variable {M T A : Type}

/-- stream/stream.go:65-103: a stream is a source. -/
def asSource (S : Source M T) : Source M T := ⟨Stream S, Stream.next⟩

/-- stream/stream.go:27-39 `typeTransformerStream.Next`. -/
def tts {R : Type} (S : Source M T) (t : T → St M R) : Source M R where
  σ := Stream S
  next s m := do
    match ← s.next m with
    | (.error e, s', m') => some (.error e, s', m')
    | (.ok none, s', m') => some (.ok none, s', m')
    | (.ok (some v), s', m') =>
      match t v m' with
      | (.error e, m'') => some (.error e, s', m'')
      | (.ok w, m'') => some (.ok (some w), s', m'')

/-- stream/stream.go:59-63 `New(s)`. -/
def newOf {S : Source M T} (s : Stream S) : Stream (asSource S) := some (s, [])

/-- stream/stream.go:153-155 `Map(s, t)`. -/
def mapTo {R : Type} {S : Source M T} (s : Stream S) (t : T → St M R) : Stream (tts S t) := some (s, [])

/-- Adding operations (stream/stream.go:112-151). -/
def Stream.add {S : Source M T} (s : Stream S) (ops : List (Op M T)) : Stream S :=
  match s with
  | none => none
  | some (q, o) => some (q, o ++ ops)

/-! ## Specification -/

/-- Two calls do the same: neither returns, or both do, with the same result or panic and the same memory, and leave
things related by `R` behind. -/
def Agree {X Y : Type} (R : X → Y → Prop) : Option (Go A × X × M) → Option (Go A × Y × M) → Prop
  | none, none => True
  | some (r, x, m), some (r', y, m') => r = r' ∧ m = m' ∧ R x y
  | _, _ => False

/-- Two streams that nobody can tell apart: whatever calls of `Next` have been made, the next one does the same. -/
def Alike {S S' : Source M T} (s : Stream S) (s' : Stream S') : Prop :=
  ∃ R : Stream S → Stream S' → Prop, R s s' ∧ ∀ s s', R s s' → ∀ m, Agree R (s.next m) (s'.next m)

/-! ## Both at once -/

/-- `asSource` and `tts` with an optional mapper. -/
def wrap (S : Source M T) (o : Option (T → St M T)) : Source M T where
  σ := Stream S
  next s m := do
    match ← s.next m with
    | (.error e, s', m') => some (.error e, s', m')
    | (.ok none, s', m') => some (.ok none, s', m')
    | (.ok (some v), s', m') =>
      match o with
      | none => some (.ok (some v), s', m')
      | some t =>
        match t v m' with
        | (.error e, m'') => some (.error e, s', m'')
        | (.ok w, m'') => some (.ok (some w), s', m'')

/-- The operations in between. -/
def mid : Option (T → St M T) → List (Op M T)
  | none => []
  | some t => [.map t]

/-- Puts operations back in front. -/
def Out.pre (ops : List (Op M T)) : Out M T → Out M T
  | .pass v o => .pass v (ops ++ o)
  | .drop o => .drop (ops ++ o)
  | .stop => .stop
  | .fail e o => .fail e (ops ++ o)

theorem runOps_append (ops1 ops2 : List (Op M T)) : ∀ (v : T) (m : M),
    runOps (ops1 ++ ops2) v m = match runOps ops1 v m with
      | (.pass w o, m') => ((runOps ops2 w m').1.pre o, (runOps ops2 w m').2)
      | (.drop o, m') => (.drop (o ++ ops2), m')
      | (.stop, m') => (.stop, m')
      | (.fail e o, m') => (.fail e (o ++ ops2), m') := by
  induction ops1 with
  | nil =>
    intro v m
    simp only [List.nil_append, runOps]
    rcases runOps ops2 v m with ⟨_ | _ | _ | _, m'⟩ <;> rfl
  | cons op ops1 ih =>
    intro v m
    have key : ∀ (o : Op M T) (w : T) (m : M),
        ((runOps (ops1 ++ ops2) w m).1.cons o, (runOps (ops1 ++ ops2) w m).2) =
          match ((runOps ops1 w m).1.cons o, (runOps ops1 w m).2) with
          | (.pass w o, m') => ((runOps ops2 w m').1.pre o, (runOps ops2 w m').2)
          | (.drop o, m') => (.drop (o ++ ops2), m')
          | (.stop, m') => (.stop, m')
          | (.fail e o, m') => (.fail e (o ++ ops2), m') := by
      intro o w m
      rw [ih]
      rcases runOps ops1 w m with ⟨_ | _ | _ | _, m'⟩
      · dsimp only [Out.cons]
        rcases runOps ops2 _ m' with ⟨_ | _ | _ | _, m''⟩ <;> rfl
      · rfl
      · rfl
      · rfl
    cases op with
    | map f =>
      simp only [List.cons_append, runOps]
      rcases f v m with ⟨e | w, m'⟩
      · rfl
      · exact key _ _ _
    | filter p =>
      simp only [List.cons_append, runOps]
      rcases p v m with ⟨e | _ | _, m'⟩
      · rfl
      · rfl
      · exact key _ _ _
    | peek c =>
      simp only [List.cons_append, runOps]
      rcases c v m with ⟨e | w, m'⟩
      · rfl
      · exact key _ _ _
    | skip n =>
      simp only [List.cons_append, runOps]
      split
      · rfl
      · exact key _ _ _
    | limit n =>
      simp only [List.cons_append, runOps]
      split
      · exact key _ _ _
      · rfl

section
variable {S : Source M T} (o : Option (T → St M T))

/-- The states of the two streams. -/
inductive Rel : Stream S → Stream (wrap S o) → Prop where
  | ended : Rel none none
  | spent (ops : List (Op M T)) : Rel none (some ((none : Stream S), ops))
  | on (q : S.σ) (ops1 ops2 : List (Op M T)) :
      Rel (some (q, ops1 ++ (mid o ++ ops2))) (some ((some (q, ops1) : Stream S), ops2))

/-- One element of the inner source. -/
theorem nested_step (ops1 ops2 : List (Op M T)) (q : S.σ) (m : M) :
    loop (wrap S o) ops2 (some (q, ops1) : Stream S) m =
      (S.next q m).bind fun x => match x with
        | (.error e, q', m') => some (.error e, some ((some (q', ops1) : Stream S), ops2), m')
        | (.ok none, _, m') => some (.ok none, none, m')
        | (.ok (some v), q', m') =>
          match runOps ops1 v m' with
          | (.stop, m'') => some (.ok none, none, m'')
          | (.fail e o1, m'') => some (.error e, some ((some (q', o1) : Stream S), ops2), m'')
          | (.drop o1, m'') => loop (wrap S o) ops2 (some (q', o1) : Stream S) m''
          | (.pass w o1, m'') =>
            match runOps (mid o) w m'' with
            | (.pass u _, m3) =>
              (match runOps ops2 u m3 with
              | (.pass w o2, m4) => some (.ok (some w), some ((some (q', o1) : Stream S), o2), m4)
              | (.stop, m4) => some (.ok none, none, m4)
              | (.fail e o2, m4) => some (.error e, some ((some (q', o1) : Stream S), o2), m4)
              | (.drop o2, m4) => loop (wrap S o) o2 (some (q', o1) : Stream S) m4)
            | (.fail e _, m3) => some (.error e, some ((some (q', o1) : Stream S), ops2), m3)
            | (_, m3) => some (.ok none, none, m3) := by
  refine (loop.eq_1 (wrap S o) ops2 _ m).trans ?_
  have hw : (wrap S o).next (some (q, ops1) : Stream S) m = (loop S ops1 q m).bind fun x => match x with
      | (.error e, s', m') => some (.error e, s', m')
      | (.ok none, s', m') => some (.ok none, s', m')
      | (.ok (some v), s', m') =>
        match o with
        | none => some (.ok (some v), s', m')
        | some t =>
          match t v m' with
          | (.error e, m'') => some (.error e, s', m'')
          | (.ok w, m'') => some (.ok (some w), s', m'') := rfl
  refine (congrArg (fun z => Option.bind z _) hw).trans ?_
  rw [loop.eq_1 S]
  rcases hn : S.next q m with _ | ⟨_ | _ | v, q', m'⟩
  · rfl
  · rfl
  · rfl
  · dsimp only [Option.bind_eq_bind, Option.bind_some]
    rcases hr : runOps ops1 v m' with ⟨_ | _ | _ | _, m''⟩
    · dsimp only [Option.bind_some]
      cases o with
      | none => rfl
      | some t =>
        simp only [mid, runOps]
        rcases ht : t _ m'' with ⟨e | u, m3⟩
        · rfl
        · rfl
    · rename_i o1
      exact (loop.eq_1 (wrap S o) ops2 (some (q', o1) : Stream S) m'').symm
    · rfl
    · rfl

/-- What the flat stream does with a value that has come through `ops1`. -/
def after (ops1 ops2 : List (Op M T)) (q : S.σ) (w : T) (m : M) : Option (Go (Option T) × Stream S × M) :=
  match runOps (mid o ++ ops2) w m with
  | (.pass u l, m') => some (.ok (some u), some (q, ops1 ++ l), m')
  | (.stop, m') => some (.ok none, none, m')
  | (.fail e l, m') => some (.error e, some (q, ops1 ++ l), m')
  | (.drop l, m') => loop S (ops1 ++ l) q m'

theorem flat_step (ops1 ops2 : List (Op M T)) (q : S.σ) (m : M) :
    loop S (ops1 ++ (mid o ++ ops2)) q m =
      (S.next q m).bind fun x => match x with
        | (.error e, q', m') => some (.error e, some (q', ops1 ++ (mid o ++ ops2)), m')
        | (.ok none, _, m') => some (.ok none, none, m')
        | (.ok (some v), q', m') =>
          match runOps ops1 v m' with
          | (.stop, m'') => some (.ok none, none, m'')
          | (.fail e o1, m'') => some (.error e, some (q', o1 ++ (mid o ++ ops2)), m'')
          | (.drop o1, m'') => loop S (o1 ++ (mid o ++ ops2)) q' m''
          | (.pass w o1, m'') => after o o1 ops2 q' w m'' := by
  rw [loop.eq_1]
  rcases hn : S.next q m with _ | ⟨_ | _ | v, q', m'⟩
  · rfl
  · rfl
  · rfl
  · dsimp only [Option.bind_eq_bind, Option.bind_some]
    rw [runOps_append]
    rcases hr : runOps ops1 v m' with ⟨_ | _ | _ | _, m''⟩
    · dsimp only [after]
      rcases hr : runOps (mid o ++ ops2) _ m'' with ⟨_ | _ | _ | _, m3⟩ <;> rfl
    · rfl
    · rfl
    · rfl

/-- The operations in between pass or panic. -/
theorem after_eq (ops1 ops2 : List (Op M T)) (q : S.σ) (w : T) (m : M) :
    after o ops1 ops2 q w m = match runOps (mid o) w m with
      | (.pass u _, m3) =>
        (match runOps ops2 u m3 with
        | (.pass w o2, m4) => some (.ok (some w), some (q, ops1 ++ (mid o ++ o2)), m4)
        | (.stop, m4) => some (.ok none, none, m4)
        | (.fail e o2, m4) => some (.error e, some (q, ops1 ++ (mid o ++ o2)), m4)
        | (.drop o2, m4) => loop S (ops1 ++ (mid o ++ o2)) q m4)
      | (.fail e _, m3) => some (.error e, some (q, ops1 ++ (mid o ++ ops2)), m3)
      | (_, m3) => some (.ok none, none, m3) := by
  cases o with
  | none =>
    simp only [after, mid, List.nil_append, runOps]
  | some t =>
    simp only [after, mid, List.cons_append, List.nil_append, runOps]
    rcases ht : t w m with ⟨e | u, m3⟩
    · rfl
    · dsimp only [Out.cons]
      rcases hr : runOps ops2 u m3 with ⟨_ | _ | _ | _, m4⟩ <;> rfl

/-- If the flat stream returns, so does the nested one. -/
theorem nested_of_flat {ops1 ops2 : List (Op M T)} {q : S.σ} {m : M} {r}
    (h : loop S (ops1 ++ (mid o ++ ops2)) q m = some r) :
    ∃ r', loop (wrap S o) ops2 (some (q, ops1) : Stream S) m = some r' ∧ Agree (Rel o) (some r) (some r') := by
  refine loop.partial_correctness S (fun ops q m r => ∀ ops1 ops2, ops = ops1 ++ (mid o ++ ops2) →
    ∃ r', loop (wrap S o) ops2 (some (q, ops1) : Stream S) m = some r' ∧ Agree (Rel o) (some r) (some r')) ?_
    _ q m r h ops1 ops2 rfl
  clear h
  intro rec ih ops q m r h ops1 ops2 e
  subst e
  rw [nested_step]
  rcases hn : S.next q m with _ | ⟨_ | _ | v, q', m'⟩ <;> rw [hn] at h
  · cases h
  · cases h; exact ⟨_, rfl, rfl, rfl, .on _ _ _⟩
  · cases h; exact ⟨_, rfl, rfl, rfl, .ended⟩
  · dsimp only [Option.bind_eq_bind, Option.bind_some] at h ⊢
    rw [runOps_append] at h
    rcases hr : runOps ops1 v m' with ⟨_ | _ | _ | _, m''⟩ <;> rw [hr] at h
    · dsimp only at h ⊢
      rw [runOps_append] at h
      cases o with
      | none =>
        simp only [mid, runOps] at h ⊢
        rcases hr : runOps ops2 _ m'' with ⟨_ | _ | _ | _, m3⟩ <;> rw [hr] at h
        · cases h; exact ⟨_, rfl, rfl, rfl, .on _ _ _⟩
        · exact ih _ _ _ _ h _ _ rfl
        · cases h; exact ⟨_, rfl, rfl, rfl, .ended⟩
        · cases h; exact ⟨_, rfl, rfl, rfl, .on _ _ _⟩
      | some t =>
        simp only [mid, runOps] at h ⊢
        rcases ht : t _ m'' with ⟨e | u, m3⟩ <;> rw [ht] at h
        · cases h; exact ⟨_, rfl, rfl, rfl, .on _ _ _⟩
        · dsimp only [Out.cons] at h ⊢
          rcases hr : runOps ops2 u m3 with ⟨_ | _ | _ | _, m4⟩ <;> rw [hr] at h
          · cases h; exact ⟨_, rfl, rfl, rfl, .on _ _ _⟩
          · exact ih _ _ _ _ h _ _ rfl
          · cases h; exact ⟨_, rfl, rfl, rfl, .ended⟩
          · cases h; exact ⟨_, rfl, rfl, rfl, .on _ _ _⟩
    · exact ih _ _ _ _ h _ _ rfl
    · cases h; exact ⟨_, rfl, rfl, rfl, .ended⟩
    · cases h; exact ⟨_, rfl, rfl, rfl, .on _ _ _⟩

/-- What the flat stream does, when `Next` of the inner one has the result `y`. -/
def Goes (ops2 : List (Op M T)) (z : Option (Go (Option T) × Stream S × M)) : Go (Option T) × Stream S × M → Prop
  | (.ok (some w), s', m') => ∃ q' o1, s' = some (q', o1) ∧ z = after o o1 ops2 q' w m'
  | _ => z ≠ none

theorem inner_goes {ops1 : List (Op M T)} (ops2 : List (Op M T)) {q : S.σ} {m : M} {y}
    (h : loop S ops1 q m = some y) : Goes o ops2 (loop S (ops1 ++ (mid o ++ ops2)) q m) y := by
  refine loop.partial_correctness S (fun ops1 q m y =>
    Goes o ops2 (loop S (ops1 ++ (mid o ++ ops2)) q m) y) ?_ _ q m y h
  clear h
  intro rec ih ops1 q m y h
  rw [flat_step]
  rcases hn : S.next q m with _ | ⟨_ | _ | v, q', m'⟩ <;> rw [hn] at h
  · cases h
  · cases h; simp [Goes]
  · cases h; simp [Goes]
  · dsimp only [Option.bind_eq_bind, Option.bind_some] at h ⊢
    rcases hr : runOps ops1 v m' with ⟨_ | _ | _ | _, m''⟩ <;> rw [hr] at h
    · cases h; exact ⟨_, _, rfl, rfl⟩
    · exact ih _ _ _ _ h
    · cases h; simp [Goes]
    · cases h; simp [Goes]

/-- If the nested stream returns, so does the flat one. -/
theorem flat_of_nested {ops1 ops2 : List (Op M T)} {q : S.σ} {m : M} {r}
    (h : loop (wrap S o) ops2 (some (q, ops1) : Stream S) m = some r) :
    loop S (ops1 ++ (mid o ++ ops2)) q m ≠ none := by
  refine loop.partial_correctness (wrap S o) (fun ops2 (s : Stream S) m r => ∀ q ops1, s = some (q, ops1) →
    loop S (ops1 ++ (mid o ++ ops2)) q m ≠ none) ?_ ops2 (some (q, ops1) : Stream S) m r h q ops1 rfl
  clear h
  intro rec ih ops2 s m r h q ops1 e
  subst e
  have hw : (wrap S o).next (some (q, ops1) : Stream S) m = (loop S ops1 q m).bind fun x => match x with
      | (.error e, s', m') => some (.error e, s', m')
      | (.ok none, s', m') => some (.ok none, s', m')
      | (.ok (some v), s', m') =>
        match o with
        | none => some (.ok (some v), s', m')
        | some t =>
          match t v m' with
          | (.error e, m'') => some (.error e, s', m'')
          | (.ok w, m'') => some (.ok (some w), s', m'') := rfl
  have h := (congrArg (fun z => Option.bind z _) hw).symm.trans h
  cases hl : loop S ops1 q m with
  | none => rw [hl] at h; cases h
  | some y =>
    have hg := inner_goes o ops2 hl
    rw [hl] at h
    rcases y with ⟨_ | _ | w, s', m'⟩
    · exact hg
    · exact hg
    · obtain ⟨q', o1, rfl, hg⟩ := hg
      rw [hg, after_eq]
      cases o with
      | none =>
        simp only [mid, runOps] at h ⊢
        replace h : (match runOps ops2 w m' with
            | (.pass w ops', m'') => some (.ok (some w), some ((some (q', o1) : Stream S), ops'), m'')
            | (.stop, m'') => some (.ok none, none, m'')
            | (.fail e ops', m'') => some (.error e, some ((some (q', o1) : Stream S), ops'), m'')
            | (.drop ops', m'') => rec ops' (some (q', o1) : Stream S) m'') = some r := h
        rcases hr : runOps ops2 w m' with ⟨_ | _ | _ | _, m3⟩ <;> rw [hr] at h
        · simp
        · exact ih _ _ _ _ h _ _ rfl
        · simp
        · simp
      | some t =>
        simp only [mid, runOps] at h ⊢
        dsimp only [Option.bind_some] at h
        rcases ht : t w m' with ⟨e | u, m3⟩ <;> rw [ht] at h
        · simp
        · dsimp only [Out.cons]
          replace h : (match runOps ops2 u m3 with
              | (.pass w ops', m'') => some (.ok (some w), some ((some (q', o1) : Stream S), ops'), m'')
              | (.stop, m'') => some (.ok none, none, m'')
              | (.fail e ops', m'') => some (.error e, some ((some (q', o1) : Stream S), ops'), m'')
              | (.drop ops', m'') => rec ops' (some (q', o1) : Stream S) m'') = some r := h
          rcases hr : runOps ops2 u m3 with ⟨_ | _ | _ | _, m4⟩ <;> rw [hr] at h
          · exact Option.some_ne_none _
          · exact ih _ _ _ _ h _ _ rfl
          · exact Option.some_ne_none _
          · exact Option.some_ne_none _

theorem rel_next {s : Stream S} {s' : Stream (wrap S o)} (h : Rel o s s') (m : M) :
    Agree (Rel o) (s.next m) (s'.next m) := by
  cases h with
  | ended => exact ⟨rfl, rfl, .ended⟩
  | spent ops =>
    have : Stream.next (some ((none : Stream S), ops) : Stream (wrap S o)) m = some (.ok none, none, m) :=
      loop.eq_1 (wrap S o) ops (none : Stream S) m
    rw [this]
    exact ⟨rfl, rfl, .ended⟩
  | on q ops1 ops2 =>
    show Agree (Rel o) (loop S (ops1 ++ (mid o ++ ops2)) q m) (loop (wrap S o) ops2 (some (q, ops1) : Stream S) m)
    cases hf : loop S (ops1 ++ (mid o ++ ops2)) q m with
    | some r => obtain ⟨r', e, hs⟩ := nested_of_flat o hf; rw [e]; exact hs
    | none =>
      cases hn : loop (wrap S o) ops2 (some (q, ops1) : Stream S) m with
      | none => trivial
      | some r => exact (flat_of_nested o hn hf).elim

theorem rel_alike {s : Stream S} {s' : Stream (wrap S o)} (h : Rel o s s') : Alike s s' := by
  exact ⟨Rel o, h, fun s s' h m => rel_next o h m⟩

theorem rel_new (s : Stream S) (ops : List (Op M T)) :
    Rel o (s.add (mid o ++ ops)) (some (s, ops)) := by
  cases s with
  | none => exact .spent ops
  | some x => exact .on x.1 x.2 ops

/-- Without a mapper nothing is added. -/
theorem wrap_none : (wrap S none).next = (asSource S).next := by
  funext s m
  show (s.next m).bind _ = s.next m
  rcases hs : s.next m with _ | ⟨_ | _ | _, _, _⟩ <;> rfl

theorem next_congr {X : Type} {n n' : X → M → Option (Go (Option T) × X × M)} (h : n = n')
    (s : Option (X × List (Op M T))) (m : M) :
    Stream.next (S := ⟨X, n⟩) s m = Stream.next (S := ⟨X, n'⟩) s m := by subst h; rfl

end

/-! ## Streams over sources that do the same -/

section
variable {S S' : Source M T}

theorem Agree.symm {X Y : Type} {R : X → Y → Prop} {x : Option (Go A × X × M)} {y : Option (Go A × Y × M)}
    (h : Agree R x y) : Agree (fun y x => R x y) y x := by
  rcases x with _ | ⟨r, x, m⟩ <;> rcases y with _ | ⟨r', y, m'⟩
  · trivial
  · exact h.elim
  · exact h.elim
  · exact ⟨h.1.symm, h.2.1.symm, h.2.2⟩

/-- States of streams over related sources. -/
inductive Lift (R : S.σ → S'.σ → Prop) : Stream S → Stream S' → Prop where
  | ended : Lift R none none
  | on (q : S.σ) (q' : S'.σ) (ops : List (Op M T)) : R q q' → Lift R (some (q, ops)) (some (q', ops))

theorem loop_lift {R : S.σ → S'.σ → Prop} (hR : ∀ q q', R q q' → ∀ m, Agree R (S.next q m) (S'.next q' m))
    {ops : List (Op M T)} {q : S.σ} {q' : S'.σ} {m : M} (hq : R q q') {r} (h : loop S ops q m = some r) :
    Agree (Lift R) (some r) (loop S' ops q' m) := by
  refine loop.partial_correctness S (fun ops q m r => ∀ q', R q q' →
    Agree (Lift R) (some r) (loop S' ops q' m)) ?_ _ q m r h q' hq
  clear h hq
  intro rec ih ops q m r h q' hq
  rw [loop.eq_1]
  have := hR q q' hq m
  rcases hn : S.next q m with _ | ⟨x, q1, m1⟩ <;> rw [hn] at h this
  · cases h
  · rcases hn' : S'.next q' m with _ | ⟨x', q1', m1'⟩ <;> rw [hn'] at this
    · exact this.elim
    · obtain ⟨rfl, rfl, h1⟩ := this
      rcases x with _ | _ | v
      · cases h; exact ⟨rfl, rfl, .on _ _ _ h1⟩
      · cases h; exact ⟨rfl, rfl, .ended⟩
      · dsimp only [Option.bind_eq_bind, Option.bind_some] at h ⊢
        rcases hr : runOps ops v m1 with ⟨_ | _ | _ | _, m2⟩ <;> rw [hr] at h
        · cases h; exact ⟨rfl, rfl, .on _ _ _ h1⟩
        · exact ih _ _ _ _ h _ h1
        · cases h; exact ⟨rfl, rfl, .ended⟩
        · cases h; exact ⟨rfl, rfl, .on _ _ _ h1⟩

theorem lift_alike {R : S.σ → S'.σ → Prop} (hR : ∀ q q', R q q' → ∀ m, Agree R (S.next q m) (S'.next q' m))
    {s : Stream S} {s' : Stream S'} (h : Lift R s s') : Alike s s' := by
  refine ⟨Lift R, h, ?_⟩
  intro s s' h m
  cases h with
  | ended => exact ⟨rfl, rfl, .ended⟩
  | on q q' ops hq =>
    simp only [Stream.next]
    cases hl : loop S ops q m with
    | some r => exact loop_lift hR hq hl
    | none =>
      cases hl' : loop S' ops q' m with
      | none => trivial
      | some r =>
        have := loop_lift (R := fun q' q => R q q') (fun _ _ h m => (hR _ _ h m).symm) hq hl'
        rw [hl] at this
        exact this.elim

end

theorem next_ended {S : Source M T} {s s' : Stream S} {m m' : M} (h : s.next m = some (.ok none, s', m')) : s' = none := by
  have key : ∀ {ops q m r}, loop S ops q m = some r → r.1 = .ok none → r.2.1 = none := by
    intro ops q m r h
    refine loop.partial_correctness S (fun _ _ _ r => r.1 = .ok none → r.2.1 = none) ?_ ops q m r h
    clear h
    intro rec ih ops q m r h
    rcases hn : S.next q m with _ | ⟨_ | _ | v, q', m'⟩ <;> rw [hn] at h
    · cases h
    · cases h; intro e; cases e
    · cases h; intro _; rfl
    · dsimp only [Option.bind_eq_bind, Option.bind_some] at h
      rcases hr : runOps ops v m' with ⟨_ | _ | _ | _, m''⟩ <;> rw [hr] at h
      · cases h; intro e; cases e
      · exact ih _ _ _ _ h
      · cases h; intro _; rfl
      · cases h; intro e; cases e
  cases s with
  | none => cases h; rfl
  | some x => exact key h rfl

section
variable {B C : Type} {S : Source M B} (t : B → St M C) (u : C → St M T)

/-- States of a mapped mapped stream and of a stream mapped once. -/
inductive Rel2 : Stream (tts S t) → Stream S → Prop where
  | ended : Rel2 none none
  | on (s : Stream S) : Rel2 (some (s, [])) s

/-- First one, then the other. -/
def thenDo (v : B) : St M T := do let w ← t v; u w

theorem tts_tts (x : Stream (tts S t)) (y : Stream S) (h : Rel2 t x y) (m : M) :
    Agree (Rel2 t) ((tts (tts S t) u).next x m) ((tts S (thenDo t u)).next y m) := by
  cases h with
  | ended => exact ⟨rfl, rfl, .ended⟩
  | on =>
    have hl : Stream.next (some (y, []) : Stream (tts S t)) m = _ := loop.eq_1 (tts S t) [] y m
    show Agree _ (Option.bind (Stream.next (some (y, []) : Stream (tts S t)) m) _) _
    rw [hl]
    simp only [tts]
    rcases hs : y.next m with _ | ⟨_ | _ | v, s', m'⟩
    · trivial
    · exact ⟨rfl, rfl, .on _⟩
    · rw [next_ended hs]; exact ⟨rfl, rfl, .ended⟩
    · simp only [thenDo, St.bind_apply, Option.bind_eq_bind, Option.bind_some]
      rcases ht : t v m' with ⟨e | w, m2⟩
      · exact ⟨rfl, rfl, .on _⟩
      · simp only [runOps, Option.bind_some]
        rcases hu : u w m2 with ⟨e | x, m3⟩
        · exact ⟨rfl, rfl, .on _⟩
        · exact ⟨rfl, rfl, .on _⟩

end

/-! ## C121 -/

/-- What cannot be told apart cannot be told apart by a terminal operation: the same result or panic, the same memory,
and what is left of the streams cannot be told apart either. -/
theorem C121_terminal {S S' : Source M T} {s : Stream S} {s' : Stream S'} (h : Alike s s')
    (f : A → T → St M (A × Bool)) (a : A) (m : M) :
    Agree Alike (s.fold f a m) (s'.fold f a m) := by
  have key : ∀ {S S' : Source M T} {s : Stream S} {s' : Stream S'} {R : Stream S → Stream S' → Prop}, R s s' →
      (∀ s s', R s s' → ∀ m, Agree R (s.next m) (s'.next m)) → ∀ {a m r}, s.fold f a m = some r →
      Agree Alike (some r) (s'.fold f a m) := by
    intro S S' s s' R hs hR a m r h
    refine Stream.fold.partial_correctness f (fun a (s : Stream S) m r => ∀ s', R s s' →
      Agree Alike (some r) (s'.fold f a m)) ?_ a s m r h s' hs
    clear h hs
    intro rec ih a s m r h s' hs
    rw [Stream.fold.eq_1]
    have := hR s s' hs m
    rcases hn : s.next m with _ | ⟨x, q1, m1⟩ <;> rw [hn] at h this
    · cases h
    · rcases hn' : s'.next m with _ | ⟨x', q1', m1'⟩ <;> rw [hn'] at this
      · exact this.elim
      · obtain ⟨rfl, rfl, h1⟩ := this
        have ha : Alike q1 q1' := ⟨R, h1, hR⟩
        rcases x with _ | _ | v
        · cases h; exact ⟨rfl, rfl, ha⟩
        · cases h; exact ⟨rfl, rfl, ha⟩
        · dsimp only [Option.bind_eq_bind, Option.bind_some] at h ⊢
          rcases hf : f a v m1 with ⟨_ | ⟨_, _ | _⟩, m2⟩ <;> rw [hf] at h
          · cases h; exact ⟨rfl, rfl, ha⟩
          · exact ih _ _ _ _ h _ h1
          · cases h; exact ⟨rfl, rfl, ha⟩
  obtain ⟨R, hs, hR⟩ := h
  cases hf : s.fold f a m with
  | some r => exact key hs hR hf
  | none =>
    cases hf' : s'.fold f a m with
    | none => trivial
    | some r =>
      have := key (R := fun s' s => R s s') hs (fun _ _ h m => (hR _ _ h m).symm) hf'
      rw [hf] at this
      exact this.elim

/-- `New(s)` with operations is `s` with these operations. -/
theorem C121_new {S : Source M T} (s : Stream S) (ops : List (Op M T)) :
    Alike (s.add ops) ((newOf s).add ops) := by
  refine ⟨Rel none, rel_new none s ops, fun s s' h m => ?_⟩
  have := rel_next none h m
  have e : Stream.next (S := wrap S none) s' m = Stream.next (S := asSource S) s' m := next_congr wrap_none s' m
  rw [e] at this
  exact this

/-- `stream.Map(s, t)` with `t` from `T` to `T` is `s.Map(t)`, whatever operations come before and after. -/
theorem C121_map {S : Source M T} (s : Stream S) (t : T → St M T) (ops : List (Op M T)) :
    Alike (s.add (.map t :: ops)) ((mapTo s t).add ops) := rel_alike (some t) (rel_new (some t) s ops)

/-- `stream.Map(stream.Map(s, t), u)` is `stream.Map(s, v ↦ u(t(v)))`. -/
theorem C121_compose {B C : Type} {S : Source M B} (s : Stream S) (t : B → St M C) (u : C → St M T)
    (ops : List (Op M T)) :
    Alike ((mapTo (mapTo s t) u).add ops) ((mapTo s fun v => do let w ← t v; u w).add ops) :=
  lift_alike (S := tts (tts S t) u) (S' := tts S (thenDo t u)) (tts_tts t u) (.on _ _ ops (.on s))

/-- A stream may be replaced by one that cannot be told apart from it under `stream.Map`. -/
theorem C121_replace {B : Type} {S S' : Source M B} {s : Stream S} {s' : Stream S'} (h : Alike s s') (t : B → St M T)
    (ops : List (Op M T)) : Alike ((mapTo s t).add ops) ((mapTo s' t).add ops) := by
  obtain ⟨R, hs, hR⟩ := h
  refine lift_alike (S := tts S t) (S' := tts S' t) (R := R) ?_ (.on _ _ ops hs)
  intro x y hxy m
  have := hR x y hxy m
  simp only [tts]
  rcases hn : x.next m with _ | ⟨r, q1, m1⟩ <;> rcases hn' : y.next m with _ | ⟨r', q1', m1'⟩ <;> rw [hn, hn'] at this
  · trivial
  · exact this.elim
  · exact this.elim
  · obtain ⟨rfl, rfl, h1⟩ := this
    rcases r with _ | _ | v
    · exact ⟨rfl, rfl, h1⟩
    · exact ⟨rfl, rfl, h1⟩
    · simp only [Option.bind_eq_bind, Option.bind_some]
      rcases ht : t v m1 with ⟨e | w, m2⟩
      · exact ⟨rfl, rfl, h1⟩
      · exact ⟨rfl, rfl, h1⟩

/-! ## Concrete cases -/

/-- `running` as a mapper from outside, on a new stream over the stream: it panics in the second round, and what the
first round did stays. -/
example : ∃ st, ((mapTo (newOf (ofSlice Prod.fst ⟨.arr 0 0, 3, 3⟩ 0 [])) running).add [.peek scribble]).fold gather []
    (([[4, 7, 3]], 0) : ExM) = some (.error "too big", st, ([[4, 7, 4]], 4)) := by
  have h0 := C121_replace (C121_new (ofSlice Prod.fst ⟨.arr 0 0, 3, 3⟩ 0 []) []) running [.peek scribble]
  have h1 := C121_terminal h0 gather [] (([[4, 7, 3]], 0) : ExM)
  have h2 := C121_terminal (C121_map (ofSlice Prod.fst ⟨.arr 0 0, 3, 3⟩ 0 []) running [.peek scribble]) gather []
    (([[4, 7, 3]], 0) : ExM)
  obtain ⟨st, h3⟩ : ∃ st, (ofSlice Prod.fst ⟨.arr 0 0, 3, 3⟩ 0 [.map running, .peek scribble]).fold gather []
      (([[4, 7, 3]], 0) : ExM) = some (.error "too big", st, ([[4, 7, 4]], 4)) :=
    C119_slice Prod.fst ⟨.arr 0 0, 3, 3⟩ gather [.map running, .peek scribble] [] ([[4, 7, 3]], 0)
  have h4 : ((ofSlice Prod.fst ⟨.arr 0 0, 3, 3⟩ 0 []).add [.map running, .peek scribble]).fold gather []
      (([[4, 7, 3]], 0) : ExM) = some (.error "too big", st, ([[4, 7, 4]], 4)) := h3
  rw [h4] at h2
  have h5 : (ofSlice (Prod.fst : ExM → _) ⟨.arr 0 0, 3, 3⟩ 0 []).add [] = ofSlice Prod.fst ⟨.arr 0 0, 3, 3⟩ 0 [] := rfl
  rw [h5] at h1
  revert h1 h2
  rcases Stream.fold gather [] ((mapTo (ofSlice Prod.fst ⟨.arr 0 0, 3, 3⟩ 0 []) running).add [.peek scribble])
    (([[4, 7, 3]], 0) : ExM) with _ | ⟨r, x, m⟩
  · exact fun _ h => h.elim
  · intro h1 h2
    obtain ⟨rfl, rfl, -⟩ := h2
    revert h1
    show Agree Alike _ (Stream.fold gather [] ((mapTo (newOf (ofSlice Prod.fst ⟨.arr 0 0, 3, 3⟩ 0 [])) running).add
      [.peek scribble]) _) → _
    rcases Stream.fold gather [] ((mapTo (newOf (ofSlice Prod.fst ⟨.arr 0 0, 3, 3⟩ 0 [])) running).add [.peek scribble])
      (([[4, 7, 3]], 0) : ExM) with _ | ⟨r, x, m⟩
    · exact fun h => h.elim
    · rintro ⟨rfl, rfl, -⟩; exact ⟨_, rfl⟩

/-- Not everything is alike: a stream with a mapper and one without. -/
example (q : fives.σ) : ¬ Alike (some (q, [.map fun v => pure (v + 1)]) : Stream fives) (some (q, []) : Stream fives) := by
  rintro ⟨R, h, hR⟩
  have := hR _ _ h ()
  have e1 : Stream.next (some (q, [.map fun v => pure (v + 1)]) : Stream fives) () = _ := loop.eq_1 fives _ q ()
  have e2 : Stream.next (some (q, []) : Stream fives) () = _ := loop.eq_1 fives _ q ()
  rw [e1, e2] at this
  exact absurd this.1 (by decide)

end Verif.Stream.Mem
