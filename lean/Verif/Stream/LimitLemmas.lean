import Verif.Stream.Lemmas

/-! # How much a limited stream reads -/

namespace Verif.Stream

variable {T E : Type} {S : Source T E}

/-- `ops` contains a limit that ends the stream after at most `k` more source elements: nothing in front of it
can drop elements for ever. -/
inductive Bound : List (Op T E) → Nat → Prop
  | here {n k : Nat} {ops : List (Op T E)} : n ≤ k → Bound (.limit n :: ops) k
  | limit {n k : Nat} {ops : List (Op T E)} : Bound ops k → Bound (.limit n :: ops) k
  | map {f : T → T} {k : Nat} {ops : List (Op T E)} : Bound ops k → Bound (.map f :: ops) k
  | peek {c : T → List E} {k : Nat} {ops : List (Op T E)} : Bound ops k → Bound (.peek c :: ops) k
  | skip {n k : Nat} {ops : List (Op T E)} : Bound ops k → Bound (.skip n :: ops) (n + k)

theorem Bound.mono {ops : List (Op T E)} {k k' : Nat} (h : Bound ops k) (hk : k ≤ k') : Bound ops k' := by
  induction h generalizing k' with
  | here h => exact .here (by omega)
  | limit _ ih => exact .limit (ih hk)
  | map _ ih => exact .map (ih hk)
  | peek _ ih => exact .peek (ih hk)
  | @skip n k ops _ ih =>
    have := Bound.skip (n := n) (ih (k' := k' - n) (by omega))
    rwa [show n + (k' - n) = k' by omega] at this

/-- The operations after an element, unless the stream stops. -/
def Out.ops : Out T E → Option (List (Op T E))
  | .pass _ ops _ => some ops
  | .drop ops _ => some ops
  | .stop _ => none

theorem Out.ops_cons (op : Op T E) (l : List E) (o : Out T E) :
    (o.cons op l).ops = o.ops.map (op :: ·) := by cases o <;> rfl

theorem Bound.run {ops : List (Op T E)} {k : Nat} (h : Bound ops k) : ∀ (x : T) {ops' : List (Op T E)},
    (runOps ops x).ops = some ops' → ∃ k', k = k' + 1 ∧ Bound ops' k' := by
  induction h with
  | @here n k ops h =>
    intro x ops' hr
    simp only [runOps] at hr
    split at hr
    · rw [Out.ops_cons] at hr
      obtain ⟨o, ho, rfl⟩ := Option.map_eq_some_iff.1 hr
      exact ⟨k - 1, by omega, .here (by omega)⟩
    · cases hr
  | @limit n k ops h ih =>
    intro x ops' hr
    simp only [runOps] at hr
    split at hr
    · rw [Out.ops_cons] at hr
      obtain ⟨o, ho, rfl⟩ := Option.map_eq_some_iff.1 hr
      obtain ⟨k', h1, h2⟩ := ih x ho
      exact ⟨k', h1, .limit h2⟩
    · cases hr
  | @map f k ops h ih =>
    intro x ops' hr
    simp only [runOps] at hr
    rw [Out.ops_cons] at hr
    obtain ⟨o, ho, rfl⟩ := Option.map_eq_some_iff.1 hr
    obtain ⟨k', h1, h2⟩ := ih _ ho
    exact ⟨k', h1, .map h2⟩
  | @peek c k ops h ih =>
    intro x ops' hr
    simp only [runOps] at hr
    rw [Out.ops_cons] at hr
    obtain ⟨o, ho, rfl⟩ := Option.map_eq_some_iff.1 hr
    obtain ⟨k', h1, h2⟩ := ih _ ho
    exact ⟨k', h1, .peek h2⟩
  | @skip n k ops h ih =>
    intro x ops' hr
    simp only [runOps] at hr
    split at hr
    · cases hr
      exact ⟨n - 1 + k, by omega, .skip h⟩
    · rename_i hn
      have : n = 0 := by omega
      subst this
      rw [Out.ops_cons] at hr
      obtain ⟨o, ho, rfl⟩ := Option.map_eq_some_iff.1 hr
      obtain ⟨k', h1, h2⟩ := ih _ ho
      exact ⟨0 + k', by omega, .skip h2⟩

/-- `ops` contains a limit of at most `n`. -/
def Lim (ops : List (Op T E)) (n : Nat) : Prop := ∃ m, .limit m ∈ ops ∧ m ≤ n

theorem Lim.run {ops : List (Op T E)} {n : Nat} (h : Lim ops n) (x : T) :
    match runOps ops x with
    | .pass _ ops' _ => ∃ n', n = n' + 1 ∧ Lim ops' n'
    | .drop ops' _ => Lim ops' n
    | .stop _ => True := by
  obtain ⟨m, hm, hmn⟩ := h
  induction ops generalizing x with
  | nil => cases hm
  | cons op ops ih =>
    -- the limit is further back, the front operation lets the element through unchanged in kind
    have back : ∀ (op' : Op T E) (l : List E) (y : T), .limit m ∈ ops →
        match (runOps ops y).cons op' l with
        | .pass _ ops' _ => ∃ n', n = n' + 1 ∧ Lim ops' n'
        | .drop ops' _ => Lim ops' n
        | .stop _ => True := by
      intro op' l y hm
      have := ih y hm
      cases hr : runOps ops y with
      | pass v o l' =>
        rw [hr] at this
        obtain ⟨n', h1, m', h2, h3⟩ := this
        exact ⟨n', h1, m', List.mem_cons_of_mem _ h2, h3⟩
      | drop o l' =>
        rw [hr] at this
        obtain ⟨m', h2, h3⟩ := this
        exact ⟨m', List.mem_cons_of_mem _ h2, h3⟩
      | stop l' => trivial
    have hm' : .limit m = op ∨ .limit m ∈ ops := List.mem_cons.1 hm
    cases op with
    | map f => exact back _ _ _ (hm'.resolve_left (fun h => by cases h))
    | peek f => exact back _ _ _ (hm'.resolve_left (fun h => by cases h))
    | filter p =>
      simp only [runOps]
      have hb := hm'.resolve_left (fun h => by cases h)
      split
      all_goals rename_i hr
      · split at hr
        · cases hr
        · have := back (.filter p) [] x hb; rw [hr] at this; exact this
      · split at hr
        · cases hr; exact ⟨m, List.mem_cons_of_mem _ hb, hmn⟩
        · have := back (.filter p) [] x hb; rw [hr] at this; exact this
      · trivial
    | skip j =>
      simp only [runOps]
      have hb := hm'.resolve_left (fun h => by cases h)
      split
      all_goals rename_i hr
      · split at hr
        · cases hr
        · have := back (.skip j) [] x hb; rw [hr] at this; exact this
      · split at hr
        · cases hr; exact ⟨m, List.mem_cons_of_mem _ hb, hmn⟩
        · have := back (.skip j) [] x hb; rw [hr] at this; exact this
      · trivial
    | limit j =>
      simp only [runOps]
      by_cases hj : j > 0
      · rw [if_pos hj]
        rcases hm' with h | h
        · cases h
          cases hr : runOps ops x with
          | pass v o l' => exact ⟨n - 1, by omega, m - 1, List.mem_cons_self, by omega⟩
          | drop o l' => exact ⟨m - 1, List.mem_cons_self, by omega⟩
          | stop l' => trivial
        · exact back _ _ _ h
      · rw [if_neg hj]; trivial

/-- The stored operations produce no events. -/
def Op.quiet : Op T E → Prop
  | .peek c => ∀ v, c v = []
  | _ => True

def Out.log : Out T E → List E
  | .pass _ _ l => l
  | .drop _ l => l
  | .stop l => l

theorem Out.log_cons (op : Op T E) (l : List E) (o : Out T E) : (o.cons op l).log = l ++ o.log := by
  cases o <;> rfl

theorem quiet_run {ops : List (Op T E)} (h : ∀ op ∈ ops, op.quiet) : ∀ (x : T),
    (runOps ops x).log = [] ∧ ∀ ops', (runOps ops x).ops = some ops' → ∀ op ∈ ops', op.quiet := by
  induction ops with
  | nil => intro x; exact ⟨rfl, fun ops' h => by cases h; intro op h; cases h⟩
  | cons op ops ih =>
    intro x
    have hop := h op (by simp)
    have ih' := ih (fun o ho => h o (by simp [ho]))
    have back : ∀ (op' : Op T E) (l : List E) (y : T), op'.quiet → l = [] →
        ((runOps ops y).cons op' l).log = [] ∧
        ∀ ops', ((runOps ops y).cons op' l).ops = some ops' → ∀ op ∈ ops', op.quiet := by
      intro op' l y hq hl
      refine ⟨by rw [Out.log_cons, hl, (ih' y).1]; rfl, ?_⟩
      intro ops' h'
      rw [Out.ops_cons] at h'
      obtain ⟨o, ho, rfl⟩ := Option.map_eq_some_iff.1 h'
      intro op hmem
      rcases List.mem_cons.1 hmem with rfl | hmem
      · exact hq
      · exact (ih' y).2 o ho op hmem
    cases op with
    | map f => exact back _ _ _ trivial rfl
    | peek c => exact back _ _ _ hop (hop x)
    | filter p =>
      simp only [runOps]
      by_cases hp : (!p x) = true
      · rw [if_pos hp]
        exact ⟨rfl, fun ops' h' => by cases h'; exact h⟩
      · rw [if_neg hp]; exact back _ _ _ trivial rfl
    | skip j =>
      simp only [runOps]
      by_cases hp : j > 0
      · rw [if_pos hp]
        refine ⟨rfl, fun ops' h' => ?_⟩
        cases h'
        intro op hmem
        rcases List.mem_cons.1 hmem with rfl | hmem
        · trivial
        · exact h op (by simp [hmem])
      · rw [if_neg hp]; exact back _ _ _ trivial rfl
    | limit j =>
      simp only [runOps]
      by_cases hp : j > 0
      · rw [if_pos hp]; exact back _ _ _ trivial rfl
      · rw [if_neg hp]; exact ⟨rfl, fun ops' h' => by cases h'⟩

/-- Every call of `Next` returns without panic (true of every base source used within its contract). -/
def Returns (S : Source T E) : Prop := ∀ q, ∃ r, S.next q = some (.ok r)

/-- One call of `Next` under a limit. -/
theorem loop_bound (hS : Returns S) (k : Nat) : ∀ (ops : List (Op T Unit)) (q : S.σ) (n : Nat),
    Bound ops k → Lim ops n → (∀ op ∈ ops, op.quiet) →
    ∃ r st l, loop (ticking S) ops q = some (.ok (r, st, l)) ∧ l.length ≤ k + 1 ∧
      match r with
      | none => st = none
      | some _ => ∃ q' ops' k' n', st = some (q', ops') ∧ l.length + k' ≤ k ∧ n = n' + 1 ∧
          Bound ops' k' ∧ Lim ops' n' ∧ (∀ op ∈ ops', op.quiet) := by
  induction k with
  | zero =>
    intro ops q n hb hl hq
    obtain ⟨⟨v, q', l⟩, hr⟩ := hS q
    have ht : (ticking S).next q = some (.ok ⟨v, q', [()]⟩) := by simp [ticking, hr]
    cases v with
    | none => exact ⟨none, none, [()], loop_none ht, by simp, rfl⟩
    | some v =>
      cases ho : (runOps ops v).ops with
      | some ops' => obtain ⟨k', h1, _⟩ := hb.run v ho; omega
      | none =>
        cases hrun : runOps ops v with
        | pass a b c => rw [hrun] at ho; cases ho
        | drop a b => rw [hrun] at ho; cases ho
        | stop l' =>
          have hlog := (quiet_run hq v).1
          rw [hrun] at hlog
          have hlog : l' = [] := hlog
          exact ⟨none, none, [()], by rw [loop_stop ht hrun, hlog]; rfl, by simp, rfl⟩
  | succ k ih =>
    intro ops q n hb hl hq
    obtain ⟨⟨v, q', l⟩, hr⟩ := hS q
    have ht : (ticking S).next q = some (.ok ⟨v, q', [()]⟩) := by simp [ticking, hr]
    cases v with
    | none => exact ⟨none, none, [()], loop_none ht, by simp, rfl⟩
    | some v =>
      have hlog := (quiet_run hq v).1
      have hlim := hl.run v
      cases hrun : runOps ops v with
      | stop l' =>
        rw [hrun] at hlog
        have hlog : l' = [] := hlog
        exact ⟨none, none, [()], by rw [loop_stop ht hrun, hlog]; rfl, by simp, rfl⟩
      | pass v' ops' l' =>
        rw [hrun] at hlog hlim
        have hlog : l' = [] := hlog
        have ho : (runOps ops v).ops = some ops' := by rw [hrun]; rfl
        obtain ⟨k', h1, h2⟩ := hb.run v ho
        obtain ⟨n', h3, h4⟩ := hlim
        exact ⟨some v', some (q', ops'), [()], by rw [loop_pass ht hrun, hlog]; rfl, by simp,
          q', ops', k', n', rfl, by simp; omega, h3, h2, h4, (quiet_run hq v).2 _ ho⟩
      | drop ops' l' =>
        rw [hrun] at hlog hlim
        have hlog : l' = [] := hlog
        have ho : (runOps ops v).ops = some ops' := by rw [hrun]; rfl
        obtain ⟨k', h1, h2⟩ := hb.run v ho
        have : k' = k := by omega
        subst this
        obtain ⟨r, st, l'', h3, h4, h5⟩ := ih ops' q' n h2 hlim ((quiet_run hq v).2 _ ho)
        refine ⟨r, st, () :: l'', by rw [loop_drop ht hrun h3, hlog]; rfl, by simp; omega, ?_⟩
        cases r with
        | none => exact h5
        | some x =>
          obtain ⟨q'', ops'', k'', n'', g1, g2, g3⟩ := h5
          exact ⟨q'', ops'', k'', n'', g1, by simp; omega, g3⟩

theorem reduce_bound {A : Type} (acc : A → T → A) (hS : Returns S) (n : Nat) :
    ∀ (k : Nat) (ops : List (Op T Unit)) (q : S.σ) (hp : Bool) (r : A),
    Bound ops k → Lim ops n → (∀ op ∈ ops, op.quiet) →
    ∃ (xs : List T) (s' : Stream (ticking S)) (l : List Unit), Stream.reduce acc r (⟨some q, ops, hp⟩ : Stream (ticking S)) =
        some (.ok ⟨xs.foldl acc r, s', l⟩) ∧
      xs.length ≤ n ∧ l.length ≤ k + 1 := by
  induction n with
  | zero =>
    intro k ops q hp r hb hl hq
    obtain ⟨v, st, l, h1, h2, h3⟩ := loop_bound hS k ops q 0 hb hl hq
    cases v with
    | some v => obtain ⟨_, _, _, n', _, _, h, _⟩ := h3; omega
    | none =>
      cases h3
      exact ⟨[], _, l, reduce_none (next_of_loop rfl h1), Nat.le_refl _, h2⟩
  | succ n ih =>
    intro k ops q hp r hb hl hq
    obtain ⟨v, st, l, h1, h2, h3⟩ := loop_bound hS k ops q (n + 1) hb hl hq
    cases v with
    | none =>
      cases h3
      exact ⟨[], _, l, reduce_none (next_of_loop rfl h1), Nat.zero_le _, h2⟩
    | some v =>
      obtain ⟨q', ops', k', n', rfl, g1, g2, g3, g4, g5⟩ := h3
      have : n' = n := by omega
      subst this
      obtain ⟨xs, s', l', e1, e2, e3⟩ := ih k' ops' q' hp (acc r v) g3 g4 g5
      exact ⟨v :: xs, s', l ++ l', reduce_some (next_of_loop_some rfl h1) e1,
        by simp; omega, by simp; omega⟩

/-! ## From calls to stored operations -/

/-- Filter is the only operation that can drop elements for ever. -/
def Call.isFilter : Call T E → Bool
  | .filter _ => true
  | _ => false

/-- What a chain of calls leaves in `ops`. -/
theorem chain_ops {S : Source T E} (cs : List (Call T E)) : ∀ {s s' : Stream S}, s.chain cs = .ok s' →
    (∀ q, s.src = some q → ∃ q', s'.src = some q') ∧
    ∃ ops', s'.ops = s.ops ++ ops' ∧
      ((∀ c ∈ cs, c.quiet) → ∀ op ∈ ops', op.quiet) ∧
      (∀ pre n post, cs = pre ++ .limit n :: post → Lim ops' n.toNat ∧
        ((∀ c ∈ pre, c.isFilter = false) → Bound ops' (skips pre + n.toNat))) := by
  induction cs with
  | nil =>
    intro s s' h
    cases h
    exact ⟨fun q h => ⟨q, h⟩, [], by simp, (fun _ op h => by cases h),
      fun pre n post h => absurd h (by cases pre <;> simp)⟩
  | cons c cs ih =>
    intro s s' h
    unfold Stream.chain at h
    cases hc : s.call c with
    | error e => rw [hc] at h; cases h
    | ok s1 =>
      rw [hc] at h
      obtain ⟨i1, ops', i2, i3, i4⟩ := ih h
      -- what the first call stores
      have first : (∀ q, s.src = some q → ∃ q', s1.src = some q') ∧
          ∃ o1, s1.ops = s.ops ++ o1 ∧ (c.quiet → ∀ op ∈ o1, op.quiet) ∧
            (∀ n, c = .limit n → o1 = [.limit n.toNat]) ∧
            (∀ k, c.isFilter = false → Bound ops' k → Bound (o1 ++ ops') (c.cost + k)) := by
        cases c with
        | map f =>
          cases hc
          exact ⟨fun q h => ⟨q, h⟩, [.map f], rfl, (fun _ op h => by simp at h; subst h; trivial),
            (fun n h => by cases h), fun k _ h => by simpa [Call.cost] using Bound.map h⟩
        | filter p =>
          cases hc
          exact ⟨fun q h => ⟨q, h⟩, [.filter p], rfl, (fun _ op h => by simp at h; subst h; trivial),
            (fun n h => by cases h), (fun k h => by cases h)⟩
        | peek f =>
          cases hc
          exact ⟨fun q h => ⟨q, h⟩, [.peek f], rfl, (fun hq op h => by simp at h; subst h; exact hq),
            (fun n h => by cases h), fun k _ h => by simpa [Call.cost] using Bound.peek h⟩
        | limit n =>
          simp only [Stream.call, Stream.limit] at hc
          split at hc
          · cases hc
          · cases hc
            exact ⟨fun q h => ⟨q, h⟩, [.limit n.toNat], rfl, (fun _ op h => by simp at h; subst h; trivial),
              (fun m h => by cases h; rfl), fun k _ h => by simpa [Call.cost] using Bound.limit h⟩
        | skip n =>
          simp only [Stream.call, Stream.skip] at hc
          split at hc
          · cases hc
          split at hc
          · cases hc
            exact ⟨fun q h => ⟨q, h⟩, [], by simp, (fun _ op h => by cases h), (fun m h => by cases h),
              fun k _ h => h.mono (by omega)⟩
          split at hc
          · cases hs : s.src with
            | none => rw [hs] at hc; cases hc
            | some q =>
              rw [hs] at hc
              dsimp only at hc
              cases hk : S.skip n q with
              | error e => rw [hk] at hc; cases hc
              | ok r =>
                rw [hk] at hc
                cases hc
                exact ⟨fun q _ => ⟨_, rfl⟩, [], by simp, (fun _ op h => by cases h), (fun m h => by cases h),
                  fun k _ h => h.mono (by omega)⟩
          · cases hc
            exact ⟨fun q h => ⟨q, h⟩, [.skip n.toNat], rfl, (fun _ op h => by simp at h; subst h; trivial),
              (fun m h => by cases h), fun k _ h => Bound.skip h⟩
      obtain ⟨f0, o1, f1, f2, f3, f4⟩ := first
      refine ⟨fun q h => ?_, o1 ++ ops', by rw [i2, f1, List.append_assoc], ?_, ?_⟩
      · obtain ⟨q', h⟩ := f0 q h; exact i1 q' h
      · intro hq op hop
        rcases List.mem_append.1 hop with h | h
        · exact f2 (hq c (by simp)) op h
        · exact i3 (fun c hc => hq c (by simp [hc])) op h
      · intro pre n post hcs
        cases pre with
        | nil =>
          simp only [List.nil_append, List.cons.injEq] at hcs
          obtain ⟨rfl, rfl⟩ := hcs
          rw [f3 n rfl]
          exact ⟨⟨n.toNat, List.mem_cons_self, Nat.le_refl _⟩, fun _ => .here (by simp [skips])⟩
        | cons c' pre =>
          simp only [List.cons_append, List.cons.injEq] at hcs
          obtain ⟨rfl, rfl⟩ := hcs
          obtain ⟨⟨m, g1, g2⟩, g3⟩ := i4 pre n post rfl
          refine ⟨⟨m, List.mem_append_right _ g1, g2⟩, fun hf => ?_⟩
          have := f4 _ (hf c (by simp)) (g3 (fun c hc => hf c (by simp [hc])))
          rwa [← Nat.add_assoc, show c.cost + skips pre = skips (c :: pre) by simp [skips]] at this

end Verif.Stream
