import Verif.Stream.Props

/-!
# C92: streams that panic, hang or never end
-/

namespace Verif.Stream

variable {T E : Type} {S : Source T E}

/-- The call does not return: it panics with the message, or (`none`) runs forever. -/
def Fails {A : Type} (b : Option String) (x : Option (Go A)) : Prop := x = b.map .error

/-- Reading `vs` from `s`, one element after another, leaves `s'`. -/
inductive Reads : Stream S → List T → Stream S → Prop
  | nil (s : Stream S) : Reads s [] s
  | cons {s s' s'' : Stream S} {l : List E} {v : T} {vs : List T} :
      s.next = some (.ok ⟨some v, s', l⟩) → Reads s' vs s'' → Reads s (v :: vs) s''

theorem fails_reduce {A : Type} (acc : A → T → A) {b : Option String} {s s' : Stream S} {vs : List T}
    (h : Reads s vs s') (hf : Fails b s'.next) : ∀ r, Fails b (s.reduce acc r) := by
  induction h with
  | nil s =>
    intro r
    unfold Fails at hf ⊢
    rw [Stream.reduce, hf]
    cases b <;> rfl
  | @cons _ _ _ _ v _ h _ ih =>
    intro r
    have := ih hf (acc r v)
    unfold Fails at this ⊢
    rw [Stream.reduce]
    cases b <;> simp [h, this]

theorem fails_collect (c : T → List E) {b : Option String} {s s' : Stream S} {vs : List T}
    (h : Reads s vs s') (hf : Fails b s'.next) : Fails b (s.collect c) := by
  induction h with
  | nil s =>
    unfold Fails at hf ⊢
    rw [Stream.collect, hf]
    cases b <;> rfl
  | cons h _ ih =>
    have := ih hf
    unfold Fails at this ⊢
    rw [Stream.collect]
    cases b <;> simp [h, this]

theorem fails_all (p : T → Bool) {b : Option String} {s s' : Stream S} {vs : List T} (h : Reads s vs s')
    (hf : Fails b s'.next) : (vs.all p = true ∧ Fails b (s.all p)) ∨
    vs.all p = false ∧ ∃ s'' l, s.all p = some (.ok ⟨false, s'', l⟩) ∧ Reads s'' ((vs.dropWhile p).drop 1) s' := by
  induction h with
  | nil s =>
    refine Or.inl ⟨rfl, ?_⟩
    unfold Fails at hf ⊢
    rw [Stream.all, hf]
    cases b <;> rfl
  | @cons s s' s'' l v vs h hs ih =>
    cases hp : p v with
    | false => exact Or.inr ⟨by simp [hp], s', l, by rw [Stream.all]; simp [h, hp], by simpa [hp] using hs⟩
    | true =>
      rcases ih hf with ⟨h1, h2⟩ | ⟨h1, s3, l', h2, h3⟩
      · refine Or.inl ⟨by simp [hp, h1], ?_⟩
        unfold Fails at h2 ⊢
        rw [Stream.all]
        cases b <;> simp [h, hp, h2]
      · exact Or.inr ⟨by simp [hp, h1], s3, l ++ l', by rw [Stream.all]; simp [h, hp, h2], by simpa [hp] using h3⟩

theorem fails_any (p : T → Bool) {b : Option String} {s s' : Stream S} {vs : List T} (h : Reads s vs s')
    (hf : Fails b s'.next) : (vs.any p = false ∧ Fails b (s.any p)) ∨
    vs.any p = true ∧ ∃ s'' l, s.any p = some (.ok ⟨true, s'', l⟩) ∧
      Reads s'' ((vs.dropWhile fun x => !p x).drop 1) s' := by
  induction h with
  | nil s =>
    refine Or.inl ⟨rfl, ?_⟩
    unfold Fails at hf ⊢
    rw [Stream.any, hf]
    cases b <;> rfl
  | @cons s s' s'' l v vs h hs ih =>
    cases hp : p v with
    | true => exact Or.inr ⟨by simp [hp], s', l, by rw [Stream.any]; simp [h, hp], by simpa [hp] using hs⟩
    | false =>
      rcases ih hf with ⟨h1, h2⟩ | ⟨h1, s3, l', h2, h3⟩
      · refine Or.inl ⟨by simp [hp, h1], ?_⟩
        unfold Fails at h2 ⊢
        rw [Stream.any]
        cases b <;> simp [h, hp, h2]
      · exact Or.inr ⟨by simp [hp, h1], s3, l ++ l', by rw [Stream.any]; simp [h, hp, h2], by simpa [hp] using h3⟩

/-- **C92.** If a stream gives `vs` and then its `Next` panics or hangs, so does every terminal operation that
reads that far, with the same panic; `All`, `Any`, `None` and `First` return normally if `vs` decides them, and
leave the rest. -/
theorem C92_terminal_fails (b : Option String) (s s' : Stream S) (vs : List T) (h : Reads s vs s')
    (hf : Fails b s'.next) :
    (∀ (A : Type) (acc : A → T → A) (r : A), Fails b (s.reduce acc r)) ∧ Fails b s.slice ∧ Fails b s.count ∧
    (∀ c, Fails b (s.collect c)) ∧
    (∀ p, if vs.all p then Fails b (s.all p) else
      ∃ s'' l, s.all p = some (.ok ⟨false, s'', l⟩) ∧ Reads s'' ((vs.dropWhile p).drop 1) s') ∧
    (∀ p, if vs.any p then
        (∃ s'' l, s.any p = some (.ok ⟨true, s'', l⟩) ∧ s.noneOf p = some (.ok ⟨false, s'', l⟩) ∧
          Reads s'' ((vs.dropWhile fun x => !p x).drop 1) s')
      else Fails b (s.any p) ∧ Fails b (s.noneOf p)) ∧
    match vs with
    | [] => Fails b s.first
    | v :: rest => ∃ s'' l, s.first = some (.ok ⟨v, s'', l⟩) ∧ Reads s'' rest s' := by
  refine ⟨fun A acc r => fails_reduce acc h hf r, fails_reduce _ h hf _, fails_reduce _ h hf _,
    fun c => fails_collect c h hf, fun p => ?_, fun p => ?_, ?_⟩
  · rcases fails_all p h hf with ⟨h1, h2⟩ | ⟨h1, h2⟩
    · rw [if_pos h1]; exact h2
    · rw [if_neg (by simp [h1])]; exact h2
  · rcases fails_any p h hf with ⟨h1, h2⟩ | ⟨h1, s3, l, h2, h3⟩
    · rw [if_neg (by simp [h1])]
      refine ⟨h2, ?_⟩
      unfold Fails at h2 ⊢
      cases b <;> simp [Stream.noneOf, h2]
    · rw [if_pos h1]
      exact ⟨s3, l, h2, by simp [Stream.noneOf, h2], h3⟩
  · cases h with
    | nil s =>
      unfold Fails at hf ⊢
      cases b <;> simp [Stream.first, hf]
    | @cons _ s1 _ l v vs h hs => exact ⟨s1, l, by simp [Stream.first, h], hs⟩

/-- Reading never ends: the elements are `v 0`, `v 1`, … -/
structure Endless (s : Stream S) (v : Nat → T) (st : Nat → Stream S) : Prop where
  zero : st 0 = s
  next : ∀ i, ∃ l, (st i).next = some (.ok ⟨some (v i), st (i + 1), l⟩)

theorem Endless.reads {s : Stream S} {v : Nat → T} {st : Nat → Stream S} (h : Endless s v st) (k : Nat) :
    ∀ i, Reads (st i) ((List.range k).map fun x => v (i + x)) (st (i + k)) := by
  induction k with
  | zero => intro i; exact .nil _
  | succ k ih =>
    intro i
    obtain ⟨l, hl⟩ := h.next i
    rw [List.range_succ_eq_map, List.map_cons, List.map_map]
    refine .cons hl ?_
    have := ih (i + 1)
    have e : i + 1 + k = i + (k + 1) := by omega
    rw [e] at this
    have e : ((fun x => v (i + x)) ∘ Nat.succ) = fun x => v (i + 1 + x) := by
      funext x
      show v (i + (x + 1)) = _
      congr 1; omega
    rw [e]
    exact this

theorem endless_reduce {A : Type} (acc : A → T → A) {s : Stream S} {v : Nat → T} {st : Nat → Stream S}
    (h : Endless s v st) (r : A) : s.reduce acc r = none := by
  have : ∀ (r : A) (s : Stream S) x, s.reduce acc r = some x → ∀ i, s = st i → False := by
    refine Stream.reduce.partial_correctness acc (fun _ s _ => ∀ i, s = st i → False) ?_
    intro red ih r s x hx i hs
    subst hs
    obtain ⟨l, hl⟩ := h.next i
    cases hr : red (acc r (v i)) (st (i + 1)) with
    | none => simp [hl, hr] at hx
    | some y => exact ih _ _ _ hr (i + 1) rfl
  cases hx : s.reduce acc r with
  | none => rfl
  | some x => exact (this r s x hx 0 h.zero.symm).elim

theorem endless_collect (c : T → List E) {s : Stream S} {v : Nat → T} {st : Nat → Stream S}
    (h : Endless s v st) : s.collect c = none := by
  have : ∀ (s : Stream S) x, s.collect c = some x → ∀ i, s = st i → False := by
    refine Stream.collect.partial_correctness c (fun s _ => ∀ i, s = st i → False) ?_
    intro red ih s x hx i hs
    subst hs
    obtain ⟨l, hl⟩ := h.next i
    cases hr : red (st (i + 1)) with
    | none => simp [hl, hr] at hx
    | some y => exact ih _ _ hr (i + 1) rfl
  cases hx : s.collect c with
  | none => rfl
  | some x => exact (this s x hx 0 h.zero.symm).elim

theorem endless_all (p : T → Bool) {s : Stream S} {v : Nat → T} {st : Nat → Stream S} (h : Endless s v st)
    (hp : ∀ i, p (v i) = true) : s.all p = none := by
  have : ∀ (s : Stream S) x, s.all p = some x → ∀ i, s = st i → False := by
    refine Stream.all.partial_correctness p (fun s _ => ∀ i, s = st i → False) ?_
    intro red ih s x hx i hs
    subst hs
    obtain ⟨l, hl⟩ := h.next i
    cases hr : red (st (i + 1)) with
    | none => simp [hl, hr, hp] at hx
    | some y => exact ih _ _ hr (i + 1) rfl
  cases hx : s.all p with
  | none => rfl
  | some x => exact (this s x hx 0 h.zero.symm).elim

theorem endless_any (p : T → Bool) {s : Stream S} {v : Nat → T} {st : Nat → Stream S} (h : Endless s v st)
    (hp : ∀ i, p (v i) = false) : s.any p = none := by
  have : ∀ (s : Stream S) x, s.any p = some x → ∀ i, s = st i → False := by
    refine Stream.any.partial_correctness p (fun s _ => ∀ i, s = st i → False) ?_
    intro red ih s x hx i hs
    subst hs
    obtain ⟨l, hl⟩ := h.next i
    cases hr : red (st (i + 1)) with
    | none => simp [hl, hr, hp] at hx
    | some y => exact ih _ _ hr (i + 1) rfl
  cases hx : s.any p with
  | none => rfl
  | some x => exact (this s x hx 0 h.zero.symm).elim

theorem stops_all (p : T → Bool) {v : Nat → T} {st : Nat → Stream S}
    (h : ∀ i, ∃ l, (st i).next = some (.ok ⟨some (v i), st (i + 1), l⟩)) (n : Nat) (hn : p (v n) = false) :
    ∀ (k i : Nat), i + k = n → (∀ j, i ≤ j → j < n → p (v j) = true) → ∃ l, (st i).all p = some (.ok ⟨false, st (n + 1), l⟩)
  | 0, i, e, _ => by
    obtain ⟨l, hl⟩ := h i
    obtain rfl : i = n := by omega
    exact ⟨l, by rw [Stream.all]; simp [hl, hn]⟩
  | k + 1, i, e, hp => by
    obtain ⟨l, hl⟩ := h i
    obtain ⟨l', hl'⟩ := stops_all p h n hn k (i + 1) (by omega) (fun j h1 h2 => hp j (by omega) h2)
    exact ⟨l ++ l', by rw [Stream.all]; simp [hl, hl', hp i (by omega) (by omega)]⟩

theorem stops_any (p : T → Bool) {v : Nat → T} {st : Nat → Stream S}
    (h : ∀ i, ∃ l, (st i).next = some (.ok ⟨some (v i), st (i + 1), l⟩)) (n : Nat) (hn : p (v n) = true) :
    ∀ (k i : Nat), i + k = n → (∀ j, i ≤ j → j < n → p (v j) = false) → ∃ l, (st i).any p = some (.ok ⟨true, st (n + 1), l⟩)
  | 0, i, e, _ => by
    obtain ⟨l, hl⟩ := h i
    obtain rfl : i = n := by omega
    exact ⟨l, by rw [Stream.any]; simp [hl, hn]⟩
  | k + 1, i, e, hp => by
    obtain ⟨l, hl⟩ := h i
    obtain ⟨l', hl'⟩ := stops_any p h n hn k (i + 1) (by omega) (fun j h1 h2 => hp j (by omega) h2)
    exact ⟨l ++ l', by rw [Stream.any]; simp [hl, hl', hp i (by omega) (by omega)]⟩

/-- **C92.** On a stream without end, `Reduce`, `Slice`, `Count` and `Collect` do not return; `All`, `Any` and
`None` do so just if some element decides them, having read up to that element; `First` returns the first. -/
theorem C92_endless (s : Stream S) (v : Nat → T) (st : Nat → Stream S) (h : Endless s v st) :
    (∀ (A : Type) (acc : A → T → A) (r : A), s.reduce acc r = none) ∧ s.slice = none ∧ s.count = none ∧
    (∀ c, s.collect c = none) ∧
    (∀ p, (∀ i, p (v i) = true) → s.all p = none) ∧
    (∀ p n, p (v n) = false → (∀ i, i < n → p (v i) = true) → ∃ l, s.all p = some (.ok ⟨false, st (n + 1), l⟩)) ∧
    (∀ p, (∀ i, p (v i) = false) → s.any p = none ∧ s.noneOf p = none) ∧
    (∀ p n, p (v n) = true → (∀ i, i < n → p (v i) = false) → ∃ l, s.any p = some (.ok ⟨true, st (n + 1), l⟩) ∧
      s.noneOf p = some (.ok ⟨false, st (n + 1), l⟩)) ∧
    ∃ l, s.first = some (.ok ⟨v 0, st 1, l⟩) := by
  refine ⟨fun A acc r => endless_reduce acc h r, endless_reduce _ h _, endless_reduce _ h _, fun c => endless_collect c h,
    fun p hp => endless_all p h hp, fun p n h1 h2 => ?_, fun p hp => ?_, fun p n h1 h2 => ?_, ?_⟩
  · obtain ⟨l, hl⟩ := stops_all p h.next n h1 n 0 (by omega) (fun j _ h => h2 j h)
    rw [h.zero] at hl
    exact ⟨l, hl⟩
  · have := endless_any p h hp
    exact ⟨this, by simp [Stream.noneOf, this]⟩
  · obtain ⟨l, hl⟩ := stops_any p h.next n h1 n 0 (by omega) (fun j _ h => h2 j h)
    rw [h.zero] at hl
    exact ⟨l, hl, by simp [Stream.noneOf, hl]⟩
  · obtain ⟨l, hl⟩ := h.next 0
    rw [h.zero] at hl
    exact ⟨l, by simp [Stream.first, hl]⟩

/-! ## Chains over a source that fails -/

/-- Reading `xs` from the source, one element after another, leaves it in state `q'`. -/
inductive SourceReads (S : Source T E) : S.σ → List T → S.σ → Prop
  | nil (q : S.σ) : SourceReads S q [] q
  | cons {q q' q'' : S.σ} {l : List E} {x : T} {xs : List T} :
      S.next q = some (.ok ⟨some x, q', l⟩) → SourceReads S q' xs q'' → SourceReads S q (x :: xs) q''

/-- Not `Limit`. -/
def Op.unlimited : Op T E → Prop
  | .limit _ => False
  | _ => True

/-- No `Limit` is left, and none has ended the stream. -/
def Out.unlimited : Out T E → Prop
  | .pass _ ops _ => ∀ o ∈ ops, o.unlimited
  | .drop ops _ => ∀ o ∈ ops, o.unlimited
  | .stop _ => False

theorem runOps_unlimited (ops : List (Op T E)) (h : ∀ o ∈ ops, o.unlimited) (x : T) : (runOps ops x).unlimited := by
  induction ops generalizing x with
  | nil => intro o ho; cases ho
  | cons op ops ih =>
    have hop := h op (by simp)
    have hops : ∀ o ∈ ops, o.unlimited := fun o ho => h o (by simp [ho])
    have lift : ∀ (op' : Op T E) (l : List E) (y : T), op'.unlimited → ((runOps ops y).cons op' l).unlimited := by
      intro op' l y hop'
      have := ih hops y
      cases hr : runOps ops y <;> rw [hr] at this
      · intro o ho
        rcases List.mem_cons.1 ho with rfl | ho
        · exact hop'
        · exact this o ho
      · intro o ho
        rcases List.mem_cons.1 ho with rfl | ho
        · exact hop'
        · exact this o ho
      · exact this
    cases op with
    | map f => exact lift _ _ _ hop
    | peek c => exact lift _ _ _ hop
    | limit n => exact hop.elim
    | filter p =>
      unfold runOps
      by_cases e : (!p x) = true
      · rw [if_pos e]; exact h
      · rw [if_neg e]; exact lift _ _ _ hop
    | skip n =>
      unfold runOps
      by_cases e : n > 0
      · rw [if_pos e]
        intro o ho
        rcases List.mem_cons.1 ho with rfl | ho
        · trivial
        · exact hops o ho
      · rw [if_neg e]; exact lift _ _ _ hop

theorem loop_fails {ops : List (Op T E)} {q : S.σ} {b : Option String} (h : Fails b (S.next q)) : Fails b (loop S ops q) := by
  unfold Fails at h ⊢
  rw [loop, h]
  cases b <;> rfl

theorem next_fails {ops : List (Op T E)} {q : S.σ} {hp : Bool} {b : Option String} (h : Fails b (loop S ops q)) :
    Fails b (⟨some q, ops, hp⟩ : Stream S).next := by
  unfold Fails at h ⊢
  cases b <;> simp [Stream.next, h]

/-- A dropped element does not show. -/
theorem next_drop {ops ops' : List (Op T E)} {q q' : S.σ} {l l' : List E} {x : T} {hp : Bool}
    (h : S.next q = some (.ok ⟨some x, q', l⟩)) (hr : runOps ops x = .drop ops' l') :
    (∀ b, Fails b (⟨some q', ops', hp⟩ : Stream S).next → Fails b (⟨some q, ops, hp⟩ : Stream S).next) ∧
    ∀ v s' l'', (⟨some q', ops', hp⟩ : Stream S).next = some (.ok ⟨some v, s', l''⟩) →
      ∃ l3, (⟨some q, ops, hp⟩ : Stream S).next = some (.ok ⟨some v, s', l3⟩) := by
  constructor
  · intro b hb
    cases hl : loop S ops' q' with
    | none =>
      simp [Stream.next, hl, Fails] at hb
      cases b with
      | none => exact next_fails (by unfold Fails; rw [loop, h]; simp [hr, hl])
      | some e => cases hb
    | some g =>
      cases g with
      | error e =>
        simp only [Stream.next, hl, Fails] at hb
        cases b with
        | none => cases hb
        | some e' =>
          have : e' = e := by injection hb with hb; injection hb with hb; exact hb.symm
          subst this
          exact next_fails (by unfold Fails; rw [loop, h]; simp [hr, hl])
      | ok r =>
        obtain ⟨v, st, l3⟩ := r
        cases st <;> simp [Stream.next, hl, Fails] at hb <;> cases b <;> cases hb
  · intro v s' l'' hb
    cases hl : loop S ops' q' with
    | none => simp [Stream.next, hl] at hb
    | some g =>
      cases g with
      | error e => simp [Stream.next, hl] at hb
      | ok r =>
        obtain ⟨v', st, l3⟩ := r
        have := loop_drop h hr hl
        cases st with
        | none =>
          simp [Stream.next, hl] at hb
          refine ⟨l ++ l' ++ l3, ?_⟩
          simp [Stream.next, this, hb.1, ← hb.2.1]
          rfl
        | some st =>
          simp [Stream.next, hl] at hb
          exact ⟨l ++ l' ++ l3, by simp [Stream.next, this, hb.1, ← hb.2.1]⟩

theorem chain_fails {b : Option String} {q q' : S.σ} {xs : List T} (h : SourceReads S q xs q')
    (hf : Fails b (S.next q')) (hp : Bool) : ∀ (ops : List (Op T E)), (∀ o ∈ ops, o.unlimited) →
    ∃ s', Reads ⟨some q, ops, hp⟩ (sem ops xs) s' ∧ Fails b s'.next := by
  induction h with
  | nil q => intro ops _; rw [sem_nil]; exact ⟨_, .nil _, next_fails (loop_fails hf)⟩
  | @cons q q1 q2 l x xs h _ ih =>
    intro ops ho
    have hu := runOps_unlimited ops ho x
    have hs := sem_cons ops x xs
    cases hr : runOps ops x with
    | pass v ops' l' =>
      rw [hr] at hu hs
      rw [hs]
      obtain ⟨s', h1, h2⟩ := ih hf ops' hu
      exact ⟨s', .cons (next_of_loop_some (s := ⟨some q, ops, hp⟩) rfl (loop_pass h hr)) h1, h2⟩
    | drop ops' l' =>
      rw [hr] at hu hs
      rw [hs]
      obtain ⟨s', h1, h2⟩ := ih hf ops' hu
      obtain ⟨d1, d2⟩ := next_drop (hp := hp) h hr
      simp only
      generalize sem ops' xs = ys at h1
      cases h1 with
      | nil => exact ⟨_, .nil _, d1 b h2⟩
      | cons h3 h4 =>
        obtain ⟨l3, h5⟩ := d2 _ _ _ h3
        exact ⟨s', .cons h5 h4, h2⟩
    | stop l' => rw [hr] at hu; exact hu.elim

/-- `Map`, `Filter` and `Peek`. -/
def Call.simple : Call T E → Prop
  | .map _ | .filter _ | .peek _ => True
  | _ => False

theorem chain_simple (cs : List (Call T E)) : ∀ (s : Stream S), (∀ c ∈ cs, c.simple) → (∀ o ∈ s.ops, o.unlimited) →
    ∃ s', s.chain cs = .ok s' ∧ s'.src = s.src ∧ (∀ o ∈ s'.ops, o.unlimited) ∧
      ∀ xs, sem s'.ops xs = listChain cs (sem s.ops xs) := by
  induction cs with
  | nil => exact fun s _ h => ⟨s, rfl, rfl, h, fun _ => rfl⟩
  | cons c cs ih =>
    intro s hc ho
    have hcs : ∀ c ∈ cs, c.simple := fun c h => hc c (by simp [h])
    have one : ∀ (s1 : Stream S) (o : Op T E), s.call c = .ok s1 → s1.src = s.src → s1.ops = s.ops ++ [o] → o.unlimited →
        (∀ xs, o.onList xs = c.onList xs) → ∃ s', s.chain (c :: cs) = .ok s' ∧ s'.src = s.src ∧
          (∀ o ∈ s'.ops, o.unlimited) ∧ ∀ xs, sem s'.ops xs = listChain (c :: cs) (sem s.ops xs) := by
      intro s1 o e1 e2 e3 e4 e5
      obtain ⟨s', h1, h2, h3, h4⟩ := ih s1 hcs (by
        rw [e3]
        intro o' ho'
        rcases List.mem_append.1 ho' with ho' | ho'
        · exact ho o' ho'
        · rw [List.mem_singleton] at ho'; rw [ho']; exact e4)
      refine ⟨s', by simp [Stream.chain, e1, h1], h2.trans e2, h3, fun xs => ?_⟩
      rw [h4, e3, sem_append]
      show listChain cs (o.onList _) = listChain cs (c.onList _)
      rw [e5]
    cases c with
    | map f => exact one _ (.map f) rfl rfl rfl trivial (fun _ => rfl)
    | filter p => exact one _ (.filter p) rfl rfl rfl trivial (fun _ => rfl)
    | peek c => exact one _ (.peek c) rfl rfl rfl trivial (fun _ => rfl)
    | skip n => exact (hc (.skip n) (by simp)).elim
    | limit n => exact (hc (.limit n) (by simp)).elim

/-- **C92.** If a source gives `xs` and then panics or hangs, a chain of `Map`, `Filter` and `Peek` over it gives
what the chain makes of `xs` and then panics with the same panic, or hangs. -/
theorem C92_chain_fails (b : Option String) (q q' : S.σ) (xs : List T) (h : SourceReads S q xs q')
    (hf : Fails b (S.next q')) (cs : List (Call T E)) (hc : ∀ c ∈ cs, c.simple) :
    ∃ s s', (new S q).chain cs = .ok s ∧ Reads s (listChain cs xs) s' ∧ Fails b s'.next := by
  obtain ⟨s, h1, h2, h3, h4⟩ := chain_simple cs (new S q) hc (by simp [new])
  obtain ⟨s', h5, h6⟩ := chain_fails h hf s.hasPred s.ops h3
  refine ⟨s, s', h1, ?_, h6⟩
  rw [h4] at h5
  have : s = ⟨some q, s.ops, s.hasPred⟩ := by
    obtain ⟨a, b, c⟩ := s
    simp only at h2
    rw [h2]; rfl
  rw [this]
  exact h5

/-- A source that gives 0, 1, 2 and then panics. -/
def faulty : Source Nat Nat where
  σ := Nat
  next q := some (if q < 3 then .ok ⟨some q, q + 1, []⟩ else .error "source")
  skip n q := .ok (n, q + n.toNat)

theorem faulty_reads : SourceReads faulty (0 : Nat) [0, 1, 2] (3 : Nat) :=
  .cons (l := []) rfl (.cons (l := []) rfl (.cons (l := []) rfl (.nil _)))

/-- The hypotheses are met: `Filter(even).Map(+10)` of it gives 10 and 12 and then panics; so does `Slice`. -/
example : ∃ s, (new faulty (0 : Nat)).chain [.filter (· % 2 == 0), .map (· + 10)] = .ok s ∧
    s.slice = some (.error "source") ∧ ∃ s' l, s.any (· == 12) = some (.ok ⟨true, s', l⟩) := by
  obtain ⟨s, s', h1, h2, h3⟩ := C92_chain_fails (S := faulty) (some "source") (0 : Nat) (3 : Nat) _ faulty_reads rfl
    [.filter (· % 2 == 0), .map (· + 10)] (by simp [Call.simple])
  have := C92_terminal_fails _ _ _ _ h2 h3
  refine ⟨s, h1, this.2.1, ?_⟩
  have h4 := this.2.2.2.2.2.1 (· == 12)
  rw [if_pos (by decide)] at h4
  obtain ⟨s'', l, h4, -, -⟩ := h4
  exact ⟨s'', l, h4⟩

/-- An endless stream: `Generate(n ↦ n)`. -/
example : Endless (S := generator Unit fun n : Nat => (n, n + 1)) (new _ (0 : Nat)) id (fun i => new _ (i : Nat)) where
  zero := rfl
  next i := ⟨[], by
    refine next_of_loop_some rfl (loop_pass (l := []) (l' := []) ?_ rfl)
    rfl⟩

end Verif.Stream
