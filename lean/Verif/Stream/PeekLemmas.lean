import Verif.Stream.LimitLemmas

/-! # Which elements a consumer in the middle of the chain sees -/

namespace Verif.Stream

variable {T E : Type} {S : Source T E}

/-- The events of running the operations over a whole list. -/
def runLog : List (Op T E) → List T → List E
  | _, [] => []
  | ops, x :: xs =>
    match runOps ops x with
    | .pass _ ops' l => l ++ runLog ops' xs
    | .drop ops' l => l ++ runLog ops' xs
    | .stop l => l

/-- One call of `Next` over a silent source, with its events. -/
theorem loop_log {b : Nat} (hS : Silent S) (xs : List T) : ∀ (ops : List (Op T E)) (q : S.σ),
    Behaves S b (seqOf xs) q →
    (∃ l, loop S ops q = some (.ok (none, none, l)) ∧ sem ops xs = [] ∧ l = runLog ops xs) ∨
    (∃ v xs' ops' q' l, loop S ops q = some (.ok (some v, some (q', ops'), l)) ∧
      Behaves S b (seqOf xs') q' ∧ sem ops xs = v :: sem ops' xs' ∧ runLog ops xs = l ++ runLog ops' xs') := by
  induction xs with
  | nil =>
    intro ops q h
    obtain ⟨q', l, hn⟩ := h.nil
    have hl : l = [] := hS q _ hn
    subst hl
    exact .inl ⟨[], loop_none hn, sem_nil _, by simp [runLog]⟩
  | cons x xs ih =>
    intro ops q h
    obtain ⟨q', l, hn, hb⟩ := h.cons
    have hl : l = [] := hS q _ hn
    subst hl
    rw [sem_cons, runLog]
    cases hr : runOps ops x with
    | pass v ops' l' => exact .inr ⟨v, xs, ops', q', _, loop_pass hn hr, hb, rfl, rfl⟩
    | stop l' => exact .inl ⟨_, loop_stop hn hr, rfl, rfl⟩
    | drop ops' l' =>
      rcases ih ops' q' hb with ⟨l'', h1, h2, h3⟩ | ⟨v, xs', ops'', q'', l'', h1, h2, h3, h4⟩
      · exact .inl ⟨_, loop_drop hn hr h1, h2, by rw [h3]; rfl⟩
      · exact .inr ⟨v, xs', ops'', q'', _, loop_drop hn hr h1, h2, h3, by
          dsimp only; rw [h4]; simp⟩

/-- The result and the events of a stream read to its end. -/
theorem reduce_log {A : Type} {b : Nat} (hS : Silent S) (acc : A → T → A) (n : Nat) :
    ∀ (xs : List T) (ops : List (Op T E)) (q : S.σ) (hp : Bool) (r : A), (sem ops xs).length = n →
    Behaves S b (seqOf xs) q →
    ∃ s', Stream.reduce acc r (⟨some q, ops, hp⟩ : Stream S) =
      some (.ok ⟨(sem ops xs).foldl acc r, s', runLog ops xs⟩) := by
  induction n with
  | zero =>
    intro xs ops q hp r hn hb
    rcases loop_log hS xs ops q hb with ⟨l, h1, h2, h3⟩ | ⟨v, xs', ops', q', l, h1, h2, h3, h4⟩
    · rw [h2, ← h3]; exact ⟨_, reduce_none (next_of_loop rfl h1)⟩
    · rw [h3] at hn; simp at hn
  | succ n ih =>
    intro xs ops q hp r hn hb
    rcases loop_log hS xs ops q hb with ⟨l, h1, h2, h3⟩ | ⟨v, xs', ops', q', l, h1, h2, h3, h4⟩
    · rw [h2] at hn; simp at hn
    · rw [h3] at hn ⊢
      rw [h4]
      obtain ⟨s', h5⟩ := ih xs' ops' q' hp (acc r v) (by simpa using hn) h2
      exact ⟨s', reduce_some (next_of_loop_some rfl h1) h5⟩

/-! ## One consumer -/

/-- The operations behind go on with what the operations in front let through. -/
def Out.andThen (rest : List (Op T E)) : Out T E → Out T E
  | .pass v ops l =>
    match runOps rest v with
    | .pass v' rest' l' => .pass v' (ops ++ rest') (l ++ l')
    | .drop rest' l' => .drop (ops ++ rest') (l ++ l')
    | .stop l' => .stop (l ++ l')
  | .drop ops l => .drop (ops ++ rest) l
  | .stop l => .stop l

theorem runOps_append (pre rest : List (Op T E)) (x : T) :
    runOps (pre ++ rest) x = (runOps pre x).andThen rest := by
  have comm : ∀ (op : Op T E) (l : List E) (o : Out T E),
      (o.andThen rest).cons op l = (o.cons op l).andThen rest := by
    intro op l o
    cases o with
    | pass v ops l' =>
      simp only [Out.andThen, Out.cons]
      cases runOps rest v <;> simp
    | drop ops l' => rfl
    | stop l' => rfl
  induction pre generalizing x with
  | nil =>
    show runOps rest x = _
    simp only [runOps, Out.andThen]
    cases runOps rest x <;> rfl
  | cons op pre ih =>
    cases op with
    | map f => simp only [List.cons_append, runOps, ih, comm]
    | peek f => simp only [List.cons_append, runOps, ih, comm]
    | filter p =>
      simp only [List.cons_append, runOps, ih, comm]
      split <;> rfl
    | skip p =>
      simp only [List.cons_append, runOps, ih, comm]
      split <;> rfl
    | limit p =>
      simp only [List.cons_append, runOps, ih, comm]
      split <;> rfl

/-- The stored operation is not a limit. -/
def Op.noLimit : Op T E → Prop
  | .limit _ => False
  | _ => True

theorem noLimit_run {ops : List (Op T E)} (h : ∀ op ∈ ops, op.noLimit) : ∀ (x : T),
    ∃ ops', (runOps ops x).ops = some ops' ∧ ∀ op ∈ ops', op.noLimit := by
  induction ops with
  | nil => intro x; exact ⟨[], rfl, fun op h => by cases h⟩
  | cons op ops ih =>
    intro x
    have hop := h op (by simp)
    have ih' := ih (fun o ho => h o (by simp [ho]))
    have back : ∀ (op' : Op T E) (l : List E) (y : T), op'.noLimit →
        ∃ ops', ((runOps ops y).cons op' l).ops = some ops' ∧ ∀ op ∈ ops', op.noLimit := by
      intro op' l y hq
      obtain ⟨o, h1, h2⟩ := ih' y
      refine ⟨op' :: o, by rw [Out.ops_cons, h1]; rfl, ?_⟩
      intro op hmem
      rcases List.mem_cons.1 hmem with rfl | hmem
      · exact hq
      · exact h2 op hmem
    cases op with
    | map f => exact back _ _ _ trivial
    | peek c => exact back _ _ _ trivial
    | filter p =>
      simp only [runOps]
      by_cases hp : (!p x) = true
      · rw [if_pos hp]; exact ⟨_, rfl, h⟩
      · rw [if_neg hp]; exact back _ _ _ trivial
    | skip j =>
      simp only [runOps]
      by_cases hp : j > 0
      · rw [if_pos hp]
        refine ⟨_, rfl, ?_⟩
        intro op hmem
        rcases List.mem_cons.1 hmem with rfl | hmem
        · trivial
        · exact h op (by simp [hmem])
      · rw [if_neg hp]; exact back _ _ _ trivial
    | limit j => exact hop.elim

/-- With one consumer and no limit behind it, the events are those of the consumer on the elements that
reach it. -/
theorem runLog_peek (c : T → List E) (xs : List T) : ∀ (pre post : List (Op T E)),
    (∀ op ∈ pre, op.quiet) → (∀ op ∈ post, op.quiet) → (∀ op ∈ post, op.noLimit) →
    runLog (pre ++ .peek c :: post) xs = (sem pre xs).flatMap c := by
  induction xs with
  | nil => intro pre post _ _ _; simp [runLog, sem_nil]
  | cons x xs ih =>
    intro pre post h1 h2 h3
    rw [runLog, runOps_append, sem_cons]
    have q1 := quiet_run h1 x
    cases hr : runOps pre x with
    | stop l => rw [hr] at q1; simpa [Out.andThen, Out.log] using q1.1
    | drop pre' l =>
      rw [hr] at q1
      have hl : l = [] := q1.1
      subst hl
      exact ih pre' post (q1.2 _ rfl) h2 h3
    | pass v pre' l =>
      rw [hr] at q1
      have hl : l = [] := q1.1
      subst hl
      have q2 := quiet_run h2 v
      obtain ⟨post', n1, n2⟩ := noLimit_run h3 v
      have q3 := q2.2 _ n1
      have q2 := q2.1
      simp only [Out.andThen, runOps]
      cases hr2 : runOps post v with
      | stop l => rw [hr2] at n1; cases n1
      | drop o l =>
        rw [hr2] at n1 q2
        cases n1
        have hl : l = [] := q2
        subst hl
        simp [Out.cons, ih pre' post' (q1.2 _ rfl) q3 n2]
      | pass v' o l =>
        rw [hr2] at n1 q2
        cases n1
        have hl : l = [] := q2
        subst hl
        simp [Out.cons, ih pre' post' (q1.2 _ rfl) q3 n2]

/-- With one consumer, the events are those of the consumer on a first part of the elements that reach it. -/
theorem runLog_prefix (c : T → List E) (xs : List T) : ∀ (pre post : List (Op T E)),
    (∀ op ∈ pre, op.quiet) → (∀ op ∈ post, op.quiet) →
    ∃ k, runLog (pre ++ .peek c :: post) xs = ((sem pre xs).take k).flatMap c ∧
      (sem post (sem pre xs)).length ≤ k := by
  induction xs with
  | nil => intro pre post _ _; exact ⟨0, by simp [runLog], by simp [sem_nil]⟩
  | cons x xs ih =>
    intro pre post h1 h2
    rw [runLog, runOps_append, sem_cons]
    have q1 := quiet_run h1 x
    cases hr : runOps pre x with
    | stop l =>
      rw [hr] at q1
      have hl : l = [] := q1.1
      subst hl
      exact ⟨0, by simp [Out.andThen], by simp [sem_nil]⟩
    | drop pre' l =>
      rw [hr] at q1
      have hl : l = [] := q1.1
      subst hl
      exact ih pre' post (q1.2 _ rfl) h2
    | pass v pre' l =>
      rw [hr] at q1
      have hl : l = [] := q1.1
      subst hl
      have q2 := quiet_run h2 v
      dsimp only
      rw [sem_cons]
      simp only [Out.andThen, runOps]
      cases hr2 : runOps post v with
      | stop l =>
        rw [hr2] at q2
        have hl : l = [] := q2.1
        subst hl
        exact ⟨1, by simp [Out.cons], by simp⟩
      | drop o l =>
        rw [hr2] at q2
        have hl : l = [] := q2.1
        subst hl
        obtain ⟨k, hk, hk'⟩ := ih pre' o (q1.2 _ rfl) (q2.2 _ rfl)
        exact ⟨k + 1, by simp [Out.cons, hk], by dsimp only; omega⟩
      | pass v' o l =>
        rw [hr2] at q2
        have hl : l = [] := q2.1
        subst hl
        obtain ⟨k, hk, hk'⟩ := ih pre' o (q1.2 _ rfl) (q2.2 _ rfl)
        exact ⟨k + 1, by simp [Out.cons, hk], by simpa using hk'⟩

/-! ## Chains that push nothing into the source -/

/-- The call makes every later `Skip` an operation of the stream. -/
def Call.isPred : Call T E → Bool
  | .filter _ | .limit _ => true
  | _ => false

/-- No `Skip` of the chain reaches the source; `seen` says whether a `Filter` or `Limit` came before. -/
def Unpushed : Bool → List (Call T E) → Prop
  | _, [] => True
  | seen, .skip n :: cs => (seen = true ∨ n = 0) ∧ Unpushed seen cs
  | seen, c :: cs => Unpushed (seen || c.isPred) cs

theorem chain_hasPred (cs : List (Call T E)) : ∀ {s s' : Stream S}, s.chain cs = .ok s' →
    s'.hasPred = (s.hasPred || cs.any Call.isPred) := by
  induction cs with
  | nil => intro s s' h; cases h; simp
  | cons c cs ih =>
    intro s s' h
    unfold Stream.chain at h
    cases hc : s.call c with
    | error e => rw [hc] at h; cases h
    | ok s1 =>
      rw [hc] at h
      rw [ih h, List.any_cons, ← Bool.or_assoc]
      congr 1
      cases c with
      | map f => cases hc; simp [Stream.map, Call.isPred]
      | filter f => cases hc; simp [Stream.filter, Call.isPred]
      | peek f => cases hc; simp [Stream.peek, Call.isPred]
      | limit n =>
        simp only [Stream.call, Stream.limit] at hc
        split at hc
        · cases hc
        · cases hc; simp [Call.isPred]
      | skip n =>
        simp only [Stream.call, Stream.skip] at hc
        split at hc
        · cases hc
        split at hc
        · cases hc; simp [Call.isPred]
        split at hc
        · rename_i hp
          cases hs : s.src with
          | none => rw [hs] at hc; cases hc
          | some q =>
            rw [hs] at hc
            dsimp only at hc
            cases hk : S.skip n q with
            | error e => rw [hk] at hc; cases hc
            | ok r => rw [hk] at hc; cases hc; simp [Call.isPred]
        · rename_i hp
          cases hc
          simp at hp
          simp [hp]

theorem chain_unpushed (cs : List (Call T E)) : ∀ {s s' : Stream S}, s.chain cs = .ok s' →
    Unpushed s.hasPred cs →
    s'.src = s.src ∧ ∃ ops', s'.ops = s.ops ++ ops' ∧
      ((∀ c ∈ cs, c.quiet) → ∀ op ∈ ops', op.quiet) ∧
      ((∀ c ∈ cs, ∀ n, c ≠ .limit n) → ∀ op ∈ ops', op.noLimit) ∧
      ∀ xs, sem ops' xs = listChain cs xs := by
  induction cs with
  | nil =>
    intro s s' h _
    cases h
    exact ⟨rfl, [], by simp, (fun _ op h => by cases h), (fun _ op h => by cases h), fun _ => rfl⟩
  | cons c cs ih =>
    intro s s' h hu
    unfold Stream.chain at h
    cases hc : s.call c with
    | error e => rw [hc] at h; cases h
    | ok s1 =>
      rw [hc] at h
      have first : s1.src = s.src ∧ Unpushed s1.hasPred cs ∧ ∃ o1, s1.ops = s.ops ++ o1 ∧
          (c.quiet → ∀ op ∈ o1, op.quiet) ∧ ((∀ n, c ≠ .limit n) → ∀ op ∈ o1, op.noLimit) ∧
          ∀ xs, sem o1 xs = c.onList xs := by
        cases c with
        | map f =>
          cases hc
          exact ⟨rfl, by simpa [Unpushed, Call.isPred, Stream.map] using hu, [.map f], rfl,
            (fun _ op h => by simp at h; subst h; trivial),
            (fun _ op h => by simp at h; subst h; trivial), fun _ => rfl⟩
        | filter f =>
          cases hc
          exact ⟨rfl, by simpa [Unpushed, Call.isPred, Stream.filter] using hu, [.filter f], rfl,
            (fun _ op h => by simp at h; subst h; trivial),
            (fun _ op h => by simp at h; subst h; trivial), fun _ => rfl⟩
        | peek f =>
          cases hc
          exact ⟨rfl, by simpa [Unpushed, Call.isPred, Stream.peek] using hu, [.peek f], rfl,
            (fun hq op h => by simp at h; subst h; exact hq),
            (fun _ op h => by simp at h; subst h; trivial), fun _ => rfl⟩
        | limit n =>
          simp only [Stream.call, Stream.limit] at hc
          split at hc
          · cases hc
          · cases hc
            exact ⟨rfl, by simpa [Unpushed, Call.isPred] using hu, [.limit n.toNat], rfl,
              (fun _ op h => by simp at h; subst h; trivial),
              (fun hn => absurd rfl (hn n)), fun _ => rfl⟩
        | skip n =>
          simp only [Stream.call, Stream.skip] at hc
          split at hc
          · cases hc
          split at hc
          · rename_i h0
            subst h0
            cases hc
            exact ⟨rfl, hu.2, [], by simp, (fun _ op h => by cases h), (fun _ op h => by cases h),
              fun xs => by simp [sem, Call.onList]⟩
          split at hc
          · rename_i h0 hp
            rcases hu.1 with h | h
            · rw [h] at hp; cases hp
            · exact absurd h h0
          · rename_i hp
            cases hc
            have hp' : s.hasPred = true := by simpa using hp
            refine ⟨rfl, ?_, [.skip n.toNat], rfl, (fun _ op h => by simp at h; subst h; trivial),
              (fun _ op h => by simp at h; subst h; trivial), fun _ => rfl⟩
            have := hu.2
            rwa [hp'] at this
      obtain ⟨f0, f1, o1, f2, f3, f4, f5⟩ := first
      obtain ⟨i1, o2, i2, i3, i4, i5⟩ := ih h f1
      refine ⟨i1.trans f0, o1 ++ o2, by rw [i2, f2, List.append_assoc], ?_, ?_, ?_⟩
      · intro hq op hop
        rcases List.mem_append.1 hop with h | h
        · exact f3 (hq c (by simp)) op h
        · exact i3 (fun c hc => hq c (by simp [hc])) op h
      · intro hq op hop
        rcases List.mem_append.1 hop with h | h
        · exact f4 (hq c (by simp)) op h
        · exact i4 (fun c hc => hq c (by simp [hc])) op h
      · intro xs
        rw [sem_append, f5, i5]; rfl

theorem chain_append (cs cs' : List (Call T E)) : ∀ (s : Stream S),
    s.chain (cs ++ cs') = match s.chain cs with
      | .error e => .error e
      | .ok s' => s'.chain cs' := by
  induction cs with
  | nil => intro s; rfl
  | cons c cs ih =>
    intro s
    simp only [List.cons_append, Stream.chain]
    cases s.call c with
    | error e => rfl
    | ok s1 => exact ih s1

end Verif.Stream
