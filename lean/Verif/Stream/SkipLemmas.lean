import Verif.Stream.PeekLemmas

/-! # A `Skip` stored in the stream, over any source

Nothing is assumed about the source here: it may be endless, panic, or not return. -/

namespace Verif.Stream

variable {T E : Type} {S : Source T E}

/-- The outcome of the loop. -/
abbrev LoopRes (S : Source T E) := Go (Option T × Option (S.σ × List (Op T E)) × List E)

/-- All cases of one turn of the loop. -/
theorem loop_cases (ops : List (Op T E)) (q : S.σ) :
    loop S ops q = match S.next q with
      | none => none
      | some (.error e) => some (.error e)
      | some (.ok ⟨none, _, l⟩) => some (.ok (none, none, l))
      | some (.ok ⟨some v, q', l⟩) =>
        match runOps ops v with
        | .pass v ops' l' => some (.ok (some v, some (q', ops'), l ++ l'))
        | .stop l' => some (.ok (none, none, l ++ l'))
        | .drop ops' l' =>
          match loop S ops' q' with
          | none => none
          | some (.error e) => some (.error e)
          | some (.ok (r, st, l'')) => some (.ok (r, st, l ++ l' ++ l'')) := by
  rw [loop]
  match S.next q with
  | none => rfl
  | some (.error e) => rfl
  | some (.ok ⟨none, _, l⟩) => rfl
  | some (.ok ⟨some v, q', l⟩) =>
    simp only [Option.bind_eq_bind, Option.bind_some]
    cases runOps ops v with
    | pass v o l' => rfl
    | stop l' => rfl
    | drop o l' =>
      dsimp only
      match loop S o q' with
      | none => rfl
      | some (.error e) => rfl
      | some (.ok (r, st, l'')) => rfl

/-- Induction over the turns of a loop that ends. -/
theorem loop_induct (motive : List (Op T E) → S.σ → LoopRes S → Prop)
    (herr : ∀ ops q e, S.next q = some (.error e) → motive ops q (.error e))
    (hnone : ∀ ops q q' l, S.next q = some (.ok ⟨none, q', l⟩) → motive ops q (.ok (none, none, l)))
    (hpass : ∀ ops q v q' l v' ops' l', S.next q = some (.ok ⟨some v, q', l⟩) →
      runOps ops v = .pass v' ops' l' → motive ops q (.ok (some v', some (q', ops'), l ++ l')))
    (hstop : ∀ ops q v q' l l', S.next q = some (.ok ⟨some v, q', l⟩) →
      runOps ops v = .stop l' → motive ops q (.ok (none, none, l ++ l')))
    (hdropE : ∀ ops q v q' l ops' l' e, S.next q = some (.ok ⟨some v, q', l⟩) →
      runOps ops v = .drop ops' l' → motive ops' q' (.error e) → motive ops q (.error e))
    (hdrop : ∀ ops q v q' l ops' l' r st l'', S.next q = some (.ok ⟨some v, q', l⟩) →
      runOps ops v = .drop ops' l' → motive ops' q' (.ok (r, st, l'')) →
      motive ops q (.ok (r, st, l ++ l' ++ l'')))
    (ops : List (Op T E)) (q : S.σ) (r : LoopRes S) (h : loop S ops q = some r) : motive ops q r := by
  refine loop.partial_correctness S motive ?_ ops q r h
  intro loop ih ops q r hr
  cases hn : S.next q with
  | none => rw [hn] at hr; cases hr
  | some g =>
    rw [hn] at hr
    match g, hn, hr with
    | .error e, hn, hr => cases hr; exact herr _ _ _ hn
    | .ok ⟨none, _, l⟩, hn, hr => cases hr; exact hnone _ _ _ _ hn
    | .ok ⟨some v, q', l⟩, hn, hr =>
      simp only [Option.bind_eq_bind, Option.bind_some] at hr
      cases hro : runOps ops v with
      | pass v' o l' => rw [hro] at hr; cases hr; exact hpass _ _ _ _ _ _ _ _ hn hro
      | stop l' => rw [hro] at hr; cases hr; exact hstop _ _ _ _ _ _ hn hro
      | drop o l' =>
        rw [hro] at hr
        dsimp only at hr
        cases hlo : loop o q' with
        | none => rw [hlo] at hr; cases hr
        | some g =>
          rw [hlo] at hr
          cases g with
          | error e => cases hr; exact hdropE _ _ _ _ _ _ _ _ hn hro (ih _ _ _ hlo)
          | ok r =>
            obtain ⟨r1, r2, r3⟩ := r
            cases hr
            exact hdrop _ _ _ _ _ _ _ _ _ _ hn hro (ih _ _ _ hlo)

theorem loop_dropE {ops ops' : List (Op T E)} {q q' : S.σ} {l l' : List E} {x : T} {e : String}
    (h : S.next q = some (.ok ⟨some x, q', l⟩)) (hr : runOps ops x = .drop ops' l')
    (hl : loop S ops' q' = some (.error e)) : loop S ops q = some (.error e) := by
  rw [loop_cases, h]; simp [hr, hl]

/-- The outcome with one more operation stored. -/
def addTail (t : Op T E) : LoopRes S → LoopRes S
  | .error e => .error e
  | .ok (r, none, l) => .ok (r, none, l)
  | .ok (r, some (q, ops), l) => .ok (r, some (q, ops ++ [t]), l)

/-- Discards the element of an outcome and goes on. -/
def thenLoop (n : Nat) : LoopRes S → Option (LoopRes S)
  | .error e => some (.error e)
  | .ok (_, none, l) => some (.ok (none, none, l))
  | .ok (_, some (q, ops), l) =>
    match loop S (ops ++ [.skip n]) q with
    | none => none
    | some (.error e) => some (.error e)
    | some (.ok (r, st, l')) => some (.ok (r, st, l ++ l'))

theorem run_tail (ops : List (Op T E)) (n : Nat) (x : T) :
    runOps (ops ++ [.skip n]) x = match runOps ops x with
      | .pass v o l => if n = 0 then .pass v (o ++ [.skip 0]) l else .drop (o ++ [.skip (n - 1)]) l
      | .drop o l => .drop (o ++ [.skip n]) l
      | .stop l => .stop l := by
  rw [runOps_append]
  cases runOps ops x with
  | pass v o l =>
    cases n with
    | zero => simp [Out.andThen, runOps, Out.cons]
    | succ n => simp [Out.andThen, runOps]
  | drop o l => rfl
  | stop l => rfl

/-- A stored `Skip` does not make a loop end. -/
theorem loop_tail_isSome : ∀ (ops0 : List (Op T E)) (q : S.σ) (r : LoopRes S), loop S ops0 q = some r →
    ∀ (n : Nat) (ops : List (Op T E)), ops0 = ops ++ [.skip n] → (loop S ops q).isSome := by
  apply loop_induct (motive := fun ops0 q _ => ∀ (n : Nat) (ops : List (Op T E)),
    ops0 = ops ++ [Op.skip n] → (loop S ops q).isSome)
  · intro ops0 q e hn n ops _; rw [loop_error hn]; rfl
  · intro ops0 q q' l hn n ops _; rw [loop_none hn]; rfl
  · intro ops0 q v q' l v' ops' l' hn hr n ops he
    subst he
    rw [run_tail] at hr
    cases hro : runOps ops v with
    | pass a b c => rw [loop_pass hn hro]; rfl
    | drop b c => rw [hro] at hr; cases hr
    | stop c => rw [hro] at hr; cases hr
  · intro ops0 q v q' l l' hn hr n ops he
    subst he
    rw [run_tail] at hr
    cases hro : runOps ops v with
    | pass a b c => rw [loop_pass hn hro]; rfl
    | drop b c => rw [hro] at hr; cases hr
    | stop c => rw [loop_stop hn hro]; rfl
  · intro ops0 q v q' l ops' l' e hn hr ih n ops he
    subst he
    rw [run_tail] at hr
    cases hro : runOps ops v with
    | pass a b c => rw [loop_pass hn hro]; rfl
    | drop b c =>
      rw [hro] at hr
      cases hr
      have := ih _ b rfl
      rw [loop_cases, hn]
      match hl : loop S b q', this with
      | some (.error e), _ => simp [hro, hl]
      | some (.ok r), _ => simp [hro, hl]
    | stop c => rw [hro] at hr; cases hr
  · intro ops0 q v q' l ops' l' r st l'' hn hr ih n ops he
    subst he
    rw [run_tail] at hr
    cases hro : runOps ops v with
    | pass a b c => rw [loop_pass hn hro]; rfl
    | drop b c =>
      rw [hro] at hr
      cases hr
      have := ih _ b rfl
      rw [loop_cases, hn]
      match hl : loop S b q', this with
      | some (.error e), _ => simp [hro, hl]
      | some (.ok r), _ => simp [hro, hl]
    | stop c => rw [hro] at hr; cases hr

/-- An exhausted `Skip` does nothing. -/
theorem loop_skip_zero (ops : List (Op T E)) (q : S.σ) :
    loop S (ops ++ [.skip 0]) q = (loop S ops q).map (addTail (.skip 0)) := by
  have fwd : ∀ ops q (r : LoopRes S), loop S ops q = some r →
      loop S (ops ++ [.skip 0]) q = some (addTail (.skip 0) r) := by
    apply loop_induct
    · intro ops q e hn; exact loop_error hn
    · intro ops q q' l hn; exact loop_none hn
    · intro ops q v q' l v' ops' l' hn hr; exact loop_pass hn (by rw [run_tail, hr]; rfl)
    · intro ops q v q' l l' hn hr; exact loop_stop hn (by rw [run_tail, hr])
    · intro ops q v q' l ops' l' e hn hr ih; exact loop_dropE hn (by rw [run_tail, hr]) ih
    · intro ops q v q' l ops' l' r st l'' hn hr ih
      cases st with
      | none => exact loop_drop hn (by rw [run_tail, hr]) ih
      | some st => exact loop_drop hn (by rw [run_tail, hr]) ih
  cases h : loop S ops q with
  | some r => exact fwd ops q r h
  | none =>
    cases h' : loop S (ops ++ [.skip 0]) q with
    | none => rfl
    | some r =>
      have := loop_tail_isSome _ _ _ h' _ ops rfl
      rw [h] at this; cases this

/-- A stored `Skip` of `n + 1` discards one element and goes on with `Skip` of `n`. -/
theorem loop_skip_succ (ops : List (Op T E)) (q : S.σ) (n : Nat) :
    loop S (ops ++ [.skip (n + 1)]) q = (loop S ops q).bind (thenLoop n) := by
  have tail : ∀ {ops b : List (Op T E)} {q q' : S.σ} {v a : T} {l c : List E},
      S.next q = some (.ok ⟨some v, q', l⟩) → runOps ops v = .pass a b c →
      loop S (ops ++ [.skip (n + 1)]) q = thenLoop n (.ok (some a, some (q', b), l ++ c)) := by
    intro ops b q q' v a l c hn hr
    have hr' : runOps (ops ++ [.skip (n + 1)]) v = .drop (b ++ [.skip n]) c := by rw [run_tail, hr]; rfl
    rw [loop_cases, hn]
    simp only [hr', thenLoop]
  have fwd : ∀ ops q (r : LoopRes S), loop S ops q = some r →
      loop S (ops ++ [.skip (n + 1)]) q = thenLoop n r := by
    apply loop_induct
    · intro ops q e hn; exact loop_error hn
    · intro ops q q' l hn; exact loop_none hn
    · intro ops q v q' l v' ops' l' hn hr; exact tail hn hr
    · intro ops q v q' l l' hn hr; exact loop_stop hn (by rw [run_tail, hr])
    · intro ops q v q' l ops' l' e hn hr ih; exact loop_dropE hn (by rw [run_tail, hr]) ih
    · intro ops q v q' l ops' l' r st l'' hn hr ih
      have hr' : runOps (ops ++ [.skip (n + 1)]) v = .drop (ops' ++ [.skip (n + 1)]) l' := by
        rw [run_tail, hr]
      rw [loop_cases, hn]
      simp only [hr', ih]
      cases st with
      | none => rfl
      | some st =>
        obtain ⟨q2, o2⟩ := st
        simp only [thenLoop]
        rcases hx : loop S (o2 ++ [.skip n]) q2 with _ | e | ⟨r, st, l'⟩ <;> simp [hx]
  cases h : loop S ops q with
  | some r => exact fwd ops q r h
  | none =>
    cases h' : loop S (ops ++ [.skip (n + 1)]) q with
    | none => rfl
    | some r =>
      have := loop_tail_isSome _ _ _ h' _ ops rfl
      rw [h] at this; cases this

/-! ## Reading a stream with a stored `Skip` -/

/-- Applies a function to the list that was read. -/
def onRead {A B : Type} (g : A → B) : Option (Go A) → Option (Go B)
  | none => none
  | some (.error e) => some (.error e)
  | some (.ok a) => some (.ok (g a))

theorem tts_next {R : Type} (f : T → R) (s : Stream S) : (tts S f).next s = match s.next with
    | none => none
    | some (.error e) => some (.error e)
    | some (.ok ⟨none, s', l⟩) => some (.ok ⟨none, s', l⟩)
    | some (.ok ⟨some v, s', l⟩) => some (.ok ⟨some (f v), s', l⟩) := by
  rcases h : s.next with _ | e | ⟨_ | v, s', l⟩ <;> simp [tts, h]

theorem reads_succ (S : Source T E) (k : Nat) (q : S.σ) : reads S (k + 1) q = match S.next q with
    | none => none
    | some (.error e) => some (.error e)
    | some (.ok ⟨none, _, _⟩) => some (.ok [])
    | some (.ok ⟨some v, q', _⟩) =>
      match reads S k q' with
      | none => none
      | some (.error e) => some (.error e)
      | some (.ok vs) => some (.ok (v :: vs)) := rfl

theorem reads_mapped {R : Type} (f : T → R) (m : Nat) (s : Stream S) :
    reads (tts S f) (m + 1) s = match s.next with
      | none => none
      | some (.error e) => some (.error e)
      | some (.ok ⟨none, _, _⟩) => some (.ok [])
      | some (.ok ⟨some v, s', _⟩) => onRead (f v :: ·) (reads (tts S f) m s') := by
  refine (reads_succ (tts S f) m s).trans ?_
  have := tts_next f s
  rcases h : s.next with _ | e | ⟨_ | v, s', l⟩
  all_goals rw [h] at this; dsimp only at this; rw [this]
  dsimp only
  rcases hr : reads (tts S f) m s' with _ | e | vs <;> rfl

/-- The state with an exhausted `Skip` stored. -/
def withSkip (s : Stream S) : Stream S :=
  match s.src with
  | none => s
  | some q => ⟨some q, s.ops ++ [.skip 0], s.hasPred⟩

/-- Reading goes on in the same way when an exhausted `Skip` is stored. -/
theorem next_skip_zero (o : Option S.σ) (ops : List (Op T E)) (hp : Bool) :
    (⟨o, ops ++ [.skip 0], hp⟩ : Stream S).next = match (⟨o, ops, hp⟩ : Stream S).next with
      | none => none
      | some (.error e) => some (.error e)
      | some (.ok ⟨v, s', l⟩) => some (.ok ⟨v, withSkip s', l⟩) := by
  cases o with
  | none => rfl
  | some q =>
    simp only [Stream.next, loop_skip_zero]
    rcases h : loop S ops q with _ | e | ⟨v, _ | ⟨q', ops'⟩, l⟩ <;> rfl

theorem reads_skip_zero {R : Type} (f : T → R) (k : Nat) : ∀ (o : Option S.σ) (ops : List (Op T E)) (hp : Bool),
    reads (tts S f) k (⟨o, ops ++ [.skip 0], hp⟩ : Stream S) = reads (tts S f) k (⟨o, ops, hp⟩ : Stream S) := by
  induction k with
  | zero => intros; rfl
  | succ k ih =>
    intro o ops hp
    rw [reads_mapped, reads_mapped, next_skip_zero]
    rcases h : (⟨o, ops, hp⟩ : Stream S).next with _ | e | ⟨_ | v, s', l⟩
    · rfl
    · rfl
    · rfl
    · dsimp only
      congr 1
      obtain ⟨_ | q', ops', hp'⟩ := s'
      · rfl
      · exact ih _ _ _

theorem finished_reads {R : Type} (f : T → R) (k : Nat) (ops : List (Op T E)) (hp : Bool) :
    reads (tts S f) k (⟨none, ops, hp⟩ : Stream S) = some (.ok []) := by
  cases k <;> rfl

theorem loop_keeps (ops : List (Op T E)) (q : S.σ) (v : Option T) (st) (l : List E)
    (h : loop S ops q = some (.ok (v, st, l))) : v.isSome = st.isSome := by
  refine loop_induct (motive := fun _ _ r => ∀ v st l, r = .ok (v, st, l) → v.isSome = st.isSome)
    ?_ ?_ ?_ ?_ ?_ ?_ ops q _ h v st l rfl
  · intro ops q e _ v st l h; cases h
  · intro ops q q' l _ v st l h; cases h; rfl
  · intro ops q v q' l v' ops' l' _ _ v st l h; cases h; rfl
  · intro ops q v q' l l' _ _ v st l h; cases h; rfl
  · intro ops q v q' l ops' l' e _ _ _ v st l h; cases h
  · intro ops q v q' l ops' l' r st l'' _ _ ih v st l h; cases h; exact ih _ _ _ rfl

/-- With `Skip(n)` stored, the next `k + 1` reads give the next `n + k + 1` reads without the first `n`. -/
theorem reads_skip {R : Type} (f : T → R) (n : Nat) : ∀ (k : Nat) (o : Option S.σ) (ops : List (Op T E))
    (hp : Bool), reads (tts S f) (k + 1) (⟨o, ops ++ [.skip n], hp⟩ : Stream S) =
      onRead (List.drop n) (reads (tts S f) (n + k + 1) (⟨o, ops, hp⟩ : Stream S)) := by
  induction n with
  | zero =>
    intro k o ops hp
    rw [reads_skip_zero, Nat.zero_add]
    rcases reads (tts S f) (k + 1) (⟨o, ops, hp⟩ : Stream S) with _ | e | vs <;> rfl
  | succ n ih =>
    intro k o ops hp
    cases o with
    | none => rw [finished_reads, finished_reads]; rfl
    | some q =>
      rw [show n + 1 + k + 1 = (n + k + 1) + 1 by omega, reads_mapped f (n + k + 1), reads_mapped f k]
      simp only [Stream.next, loop_skip_succ]
      rcases hl : loop S ops q with _ | e | ⟨_ | v, _ | ⟨q', ops'⟩, l⟩
      · rfl
      · rfl
      · rfl
      · have := loop_keeps _ _ _ _ _ hl; cases this
      · have := loop_keeps _ _ _ _ _ hl; cases this
      · have := ih k (some q') ops' hp
        rw [reads_mapped f k] at this
        simp only [Stream.next] at this
        simp only [Option.bind_some, thenLoop, Option.bind_eq_bind]
        have hd : ∀ z : Option (Go (List R)), onRead (List.drop (n + 1)) (onRead (f v :: ·) z) =
            onRead (List.drop n) z := by
          intro z; rcases z with _ | e | vs <;> rfl
        show _ = onRead (List.drop (n + 1)) (onRead (f v :: ·) _)
        rw [hd, ← show _ = _ from this]
        rcases hl2 : loop S (ops' ++ [.skip n]) q' with _ | e | ⟨_ | a, _ | ⟨q2, o2⟩, l2⟩ <;>
          simp [hl2, Stream.clear]

end Verif.Stream
