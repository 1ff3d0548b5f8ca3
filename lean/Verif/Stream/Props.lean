import Verif.Stream.PeekLemmas
import Verif.Stream.IntRange

/-! # Properties of streams: C42 – C49 -/

namespace Verif.Stream

variable {T E : Type} {S : Source T E}

/-- The streams a program can have, with the list each still has to yield: made by `New`, then intermediate
operations and reads in any order. `b` is how far the source may still be moved by `Skip`. (A stream over
`stream.Map` is one of these too: its source behaves like a list by `tts_behaves`.) -/
inductive Built {S : Source T E} : Nat → Stream S → List T → Prop
  | new {b : Nat} {xs : List T} {q : S.σ} : Behaves S b (seqOf xs) q → Built b (new S q) xs
  | call {b : Nat} {xs : List T} {s s' : Stream S} {c : Call T E} : Built b s xs → c.legal → c.cost ≤ b →
      s.call c = .ok s' → Built (b - c.cost) s' (c.onList xs)
  | next {b : Nat} {x : T} {xs : List T} {s s' : Stream S} {l : List E} : Built b s (x :: xs) →
      s.next = some (.ok ⟨some x, s', l⟩) → Built b s' xs

theorem Built.yields {b : Nat} {s : Stream S} {xs : List T} (h : Built b s xs) : Yields b s xs := by
  induction h with
  | new h => exact new_yields h
  | call _ hl hc he ih =>
    obtain ⟨s1, h1, h2⟩ := ih.call _ hl hc
    rw [he] at h1; cases h1; exact h2
  | next _ he ih =>
    obtain ⟨s1, l, h1, h2⟩ := ih.next_cons
    rw [he] at h1; cases h1; exact h2

/-! ## C45: terminal operations -/

theorem reduce_lists {A : Type} (acc : A → T → A) {s : Stream S} {xs : List T} (h : Lists s xs) :
    ∀ r, ∃ s' l, s.reduce acc r = some (.ok ⟨xs.foldl acc r, s', l⟩) := by
  induction h with
  | nil h => intro r; exact ⟨_, _, reduce_none h⟩
  | cons h _ ih =>
    intro r
    obtain ⟨s', l, h'⟩ := ih (acc r _)
    exact ⟨s', _, reduce_some h h'⟩

/-- C45: `Slice` returns the list. -/
theorem slice_lists {s : Stream S} {xs : List T} (h : Lists s xs) :
    ∃ s' l, s.slice = some (.ok ⟨xs, s', l⟩) := by
  obtain ⟨s', l, h'⟩ := reduce_lists (fun r v => r ++ [v]) h ([] : List T)
  have : ∀ (xs ys : List T), xs.foldl (fun r v => r ++ [v]) ys = ys ++ xs := by
    intro xs
    induction xs with
    | nil => simp
    | cons x xs ih => intro ys; simp [ih]
  rw [this] at h'
  exact ⟨s', l, h'⟩

/-- C45: `Count` returns the length (of any list whose length is an `int`). -/
theorem count_lists {s : Stream S} {xs : List T} (h : Lists s xs)
    (hn : xs.length < 9223372036854775808) : ∃ s' l, s.count = some (.ok ⟨(xs.length : Int), s', l⟩) := by
  obtain ⟨s', l, h'⟩ := reduce_lists (fun (n : Int) (_ : T) => wrap64 (n + 1)) h 0
  have : ∀ (xs : List T) (k : Nat), k + xs.length < 9223372036854775808 →
      xs.foldl (fun (n : Int) (_ : T) => wrap64 (n + 1)) (k : Int) = ((k + xs.length : Nat) : Int) := by
    intro xs
    induction xs with
    | nil => simp
    | cons x xs ih =>
      intro k hk
      rw [List.length_cons] at hk
      rw [List.foldl_cons, wrap64_id (by unfold isInt64; omega)]
      have := ih (k + 1) (by omega)
      rw [Int.natCast_add, Int.natCast_one] at this
      rw [this, List.length_cons]; congr 1; omega
  have h0 := this xs 0 (by omega)
  rw [Int.natCast_zero] at h0
  rw [h0, Nat.zero_add] at h'
  exact ⟨s', l, h'⟩

/-- C45: `Reduce` (the method and the function) is the left fold. -/
theorem reduce_foldl {A : Type} {s : Stream S} {xs : List T} (h : Lists s xs) (acc : A → T → A) (r : A) :
    ∃ s' l, s.reduce acc r = some (.ok ⟨xs.foldl acc r, s', l⟩) := reduce_lists acc h r

/-- The stream reports the end without any event. -/
def Finished (s : Stream S) : Prop := s.src = none

theorem next_none_finished {s s' : Stream S} {l : List E} (h : s.next = some (.ok ⟨none, s', l⟩)) :
    Finished s' := by
  cases hs : s.src with
  | none => simp [Stream.next, hs] at h; rw [← h.1]; rfl
  | some q =>
    simp only [Stream.next, hs] at h
    cases hl : loop S s.ops q with
    | none => rw [hl] at h; cases h
    | some g =>
      rw [hl] at h
      cases g with
      | error e => cases h
      | ok r =>
        obtain ⟨v, st, l'⟩ := r
        cases st with
        | none => cases h; rfl
        | some st =>
          cases v with
          | some v => cases h
          | none =>
            -- the loop never reports an end and keeps its source
            exfalso
            refine loop.partial_correctness S (fun _ _ r => ∀ q ops l, r = .ok (none, some (q, ops), l) → False)
              ?_ s.ops q _ hl st.1 st.2 l' rfl
            intro loop ih ops q r hr q' ops' l hrl
            subst hrl
            cases hn : S.next q with
            | none => rw [hn] at hr; cases hr
            | some g =>
              rw [hn] at hr
              match g, hr with
              | .error e, hr => cases hr
              | .ok ⟨none, _, l⟩, hr => cases hr
              | .ok ⟨some v, s', l⟩, hr =>
                simp only [Option.bind_eq_bind, Option.bind_some] at hr
                cases hro : runOps ops v with
                | pass v' o l' => rw [hro] at hr; cases hr
                | stop l' => rw [hro] at hr; cases hr
                | drop o l' =>
                  rw [hro] at hr
                  dsimp only at hr
                  cases hlo : loop o s' with
                  | none => rw [hlo] at hr; cases hr
                  | some g =>
                    rw [hlo] at hr
                    cases g with
                    | error e => cases hr
                    | ok r =>
                      obtain ⟨r1, r2, r3⟩ := r
                      cases hr
                      exact ih _ _ _ hlo _ _ _ rfl

theorem finished_next {s : Stream S} (h : Finished s) : s.next = some (.ok ⟨none, s.clear, []⟩) := by
  simp only [Stream.next, show s.src = none from h]

/-- C45: `Collect` calls the consumer on every element in order. `ls` pairs each element with the events of
the stream's own callbacks (`Peek`) during the `Next` that delivers it, `fin` are those of the last `Next`;
neither depends on the consumer. -/
theorem collect_lists {s : Stream S} {xs : List T} (h : Lists s xs) :
    ∃ (ls : List (List E × T)) (fin : List E), ls.map Prod.snd = xs ∧ ∀ c : T → List E,
      ∃ s', s.collect c = some (.ok ⟨(), s', ls.flatMap (fun p => p.1 ++ c p.2) ++ fin⟩) := by
  induction h with
  | @nil s s' l h => exact ⟨[], l, rfl, fun c => ⟨s', by rw [Stream.collect]; simp [h]⟩⟩
  | @cons s s' l v vs h hs ih =>
    obtain ⟨ls, fin, h1, h2⟩ := ih
    refine ⟨(l, v) :: ls, fin, by simp [h1], fun c => ?_⟩
    obtain ⟨s'', h''⟩ := h2 c
    exact ⟨s'', by rw [Stream.collect]; simp [h, h'']⟩

/-- C45: `All` is for-all, and leaves exactly what follows the first element that decides it. -/
theorem all_lists {s : Stream S} {xs : List T} (p : T → Bool) (h : Lists s xs) :
    ∃ s' l, s.all p = some (.ok ⟨xs.all p, s', l⟩) ∧ Lists s' ((xs.dropWhile p).drop 1) := by
  induction h with
  | @nil s s' l h =>
    exact ⟨s', l, by rw [Stream.all]; simp [h], .nil (finished_next (next_none_finished h))⟩
  | @cons s s' l v vs h hs ih =>
    cases hp : p v with
    | false => exact ⟨s', l, by rw [Stream.all]; simp [h, hp], by simpa [hp] using hs⟩
    | true =>
      obtain ⟨s'', l', h1, h2⟩ := ih
      exact ⟨s'', l ++ l', by rw [Stream.all]; simp [h, hp, h1], by simpa [hp] using h2⟩

/-- C45: `Any` is exists, and leaves exactly what follows the first element that decides it. -/
theorem any_lists {s : Stream S} {xs : List T} (p : T → Bool) (h : Lists s xs) :
    ∃ s' l, s.any p = some (.ok ⟨xs.any p, s', l⟩) ∧ Lists s' ((xs.dropWhile fun x => !p x).drop 1) := by
  induction h with
  | @nil s s' l h =>
    exact ⟨s', l, by rw [Stream.any]; simp [h], .nil (finished_next (next_none_finished h))⟩
  | @cons s s' l v vs h hs ih =>
    cases hp : p v with
    | true => exact ⟨s', l, by rw [Stream.any]; simp [h, hp], by simpa [hp] using hs⟩
    | false =>
      obtain ⟨s'', l', h1, h2⟩ := ih
      exact ⟨s'', l ++ l', by rw [Stream.any]; simp [h, hp, h1], by simpa [hp] using h2⟩

/-- C45: `None` is not-exists, and leaves the same rest as `Any`. -/
theorem noneOf_lists {s : Stream S} {xs : List T} (p : T → Bool) (h : Lists s xs) :
    ∃ s' l, s.noneOf p = some (.ok ⟨xs.all fun x => !p x, s', l⟩) ∧
      Lists s' ((xs.dropWhile fun x => !p x).drop 1) := by
  obtain ⟨s', l, h1, h2⟩ := any_lists p h
  refine ⟨s', l, ?_, h2⟩
  simp only [Stream.noneOf, h1]
  simp [List.all_eq_not_any_not]

/-- C45: `First` is the head, leaves the tail, and panics on an empty stream. -/
theorem first_lists {s : Stream S} {xs : List T} (h : Lists s xs) :
    match xs with
    | [] => s.first = some (.error "Stream.First: stream is empty")
    | x :: rest => ∃ s' l, s.first = some (.ok ⟨x, s', l⟩) ∧ Lists s' rest := by
  cases h with
  | nil h => simp [Stream.first, h]
  | @cons _ s' l _ _ h hs => exact ⟨s', l, by simp [Stream.first, h], hs⟩

/-! ## C42: the list pipeline -/

/-- C42: any chain of intermediate operations over any stream a program can have (whose source behaves like a
list) makes a stream that yields the list pipeline; `Slice` returns it. The sum of all arguments of `Skip`
must not exceed what the source can be moved by: for a slice `2^63 - 1 - len` (see `pipeline_slice_partial`
and `pipeline_false`), for iterators and generators anything. -/
theorem pipeline_partial {b : Nat} {s : Stream S} {xs : List T} (h : Built b s xs) (cs : List (Call T E))
    (hl : ∀ c ∈ cs, c.legal) (hc : skips cs ≤ b) :
    ∃ s', s.chain cs = .ok s' ∧ Built (b - skips cs) s' (listChain cs xs) ∧
      ∃ s'' l, s'.slice = some (.ok ⟨listChain cs xs, s'', l⟩) := by
  have main : ∀ (cs : List (Call T E)) {b : Nat} {s : Stream S} {xs : List T}, Built b s xs →
      (∀ c ∈ cs, c.legal) → skips cs ≤ b →
      ∃ s', s.chain cs = .ok s' ∧ Built (b - skips cs) s' (listChain cs xs) := by
    intro cs
    induction cs with
    | nil => intro b s xs h _ _; exact ⟨s, rfl, h⟩
    | cons c cs ih =>
      intro b s xs h hl hc
      have hk : skips (c :: cs) = c.cost + skips cs := by simp [skips]
      obtain ⟨s1, h1, _⟩ := h.yields.call c (hl c (by simp)) (by omega)
      obtain ⟨s2, h2, h3⟩ := ih (.call h (hl c (by simp)) (by omega) h1)
        (fun c hc => hl c (by simp [hc])) (by omega)
      refine ⟨s2, by simp [Stream.chain, h1, h2], ?_⟩
      rw [hk, ← Nat.sub_sub]; exact h3
  obtain ⟨s', h1, h2⟩ := main cs h hl hc
  exact ⟨s', h1, h2, slice_lists h2.yields.lists⟩

/-- C42 for slices: `OfSlice(xs)` and any chain whose `Skip`s and the length together fit an `int`. -/
theorem pipeline_slice_partial (xs : List T) (cs : List (Call T E)) (hl : ∀ c ∈ cs, c.legal)
    (hc : xs.length + skips cs < 9223372036854775808) :
    ∃ s' s'' l, (ofSlice E xs).chain cs = .ok s' ∧ s'.slice = some (.ok ⟨listChain cs xs, s'', l⟩) := by
  obtain ⟨s', h1, _, s'', l, h2⟩ := pipeline_partial
    (.new (slice_behaves E xs 0 (skips cs) (Nat.zero_le _) hc)) cs hl (Nat.le_refl _)
  exact ⟨s', s'', l, h1, h2⟩

/-- A chain that mixes everything, and its list meaning. -/
example : listChain (E := Unit) [.map (· + 1), .skip 2, .filter (· % 2 == 0), .peek (fun _ => []), .skip 1,
    .limit 2] [0, 1, 2, 3, 4, 5, 6, 7, 8, 9] = [6, 8] := by decide

example : ∃ s' s'' l, (ofSlice Unit [0, 1, 2, 3, 4, 5, 6, 7, 8, 9]).chain [.map (· + 1), .skip 2,
    .filter (· % 2 == 0), .peek (fun _ => []), .skip 1, .limit 2] = .ok s' ∧
    s'.slice = some (.ok ⟨[6, 8], s'', l⟩) :=
  pipeline_slice_partial _ _ (by intro c hc; simp at hc; rcases hc with rfl | rfl | rfl | rfl | rfl | rfl <;>
    simp [Call.legal]) (by decide)

/-- C42 as stated fails: after `Skip(1).Skip(MaxInt64)` on a slice, `Slice` panics (`s.i + n` overflows). -/
theorem pipeline_false : ∃ (s' : Stream (sliceSource Unit [10, 20])),
    (ofSlice Unit [10, 20]).chain [.skip 1, .skip 9223372036854775807] = .ok s' ∧
    s'.slice = some (.error "index out of range") ∧
    listChain (E := Unit) [.skip 1, .skip 9223372036854775807] [10, 20] = [] := by
  refine ⟨⟨some (-9223372036854775808 : Int), [], false⟩, rfl, ?_, by decide⟩
  have hl : loop (sliceSource Unit [10, 20]) [] (-9223372036854775808 : Int) =
      some (.error "index out of range") := loop_error rfl
  unfold Stream.slice
  rw [Stream.reduce]
  simp [Stream.next, hl]

/-! ## C43: consumers -/

theorem listChain_append (a b : List (Call T E)) (xs : List T) :
    listChain (a ++ b) xs = listChain b (listChain a xs) := by
  induction a generalizing xs with
  | nil => rfl
  | cons c a ih => exact ih _

/-- The parts of a stream with one consumer in the middle. -/
theorem peek_parts {b : Nat} {xs : List T} {q : S.σ} (hS : Silent S) (hb : Behaves S b (seqOf xs) q)
    (pre post : List (Call T E)) (c : T → List E) (hl : ∀ c ∈ pre ++ post, c.legal)
    (hk : skips (pre ++ post) ≤ b) (hq : ∀ c ∈ pre ++ post, c.quiet)
    (hu : Unpushed (pre.any Call.isPred) post) :
    ∃ s' s'' o1 o2 xs1, (new S q).chain (pre ++ .peek c :: post) = .ok s' ∧
      s'.slice = some (.ok ⟨listChain (pre ++ .peek c :: post) xs, s'', runLog (o1 ++ .peek c :: o2) xs1⟩) ∧
      sem o1 xs1 = listChain pre xs ∧ (∀ op ∈ o1, op.quiet) ∧ (∀ op ∈ o2, op.quiet) ∧
      ((∀ c ∈ post, ∀ n, c ≠ .limit n) → ∀ op ∈ o2, op.noLimit) ∧ ∀ ys, sem o2 ys = listChain post ys := by
  have hk' : skips (pre ++ .peek c :: post) = skips (pre ++ post) := by
    simp [skips, Call.cost]
  have hl' : ∀ c' ∈ pre ++ .peek c :: post, c'.legal := by
    intro c' h
    rcases List.mem_append.1 h with h | h
    · exact hl c' (List.mem_append_left _ h)
    rcases List.mem_cons.1 h with rfl | h
    · trivial
    · exact hl c' (List.mem_append_right _ h)
  -- the three parts of the chain
  obtain ⟨s1, h1, y1⟩ := (new_yields hb).chain pre (fun c h => hl c (List.mem_append_left _ h))
    (by simp [skips] at hk ⊢; omega)
  have hp1 := chain_hasPred pre h1
  obtain ⟨⟨q1, xs1, e1, e2, e3⟩, _⟩ := y1
  obtain ⟨_, o1, e4, e5, _⟩ := chain_ops pre h1
  have e5 := e5 (fun c h => hq c (List.mem_append_left _ h))
  obtain ⟨s3, h3, _⟩ := (new_yields hb).chain (pre ++ .peek c :: post) hl' (by omega)
  have h3' := h3
  rw [chain_append, h1] at h3
  have h3 : (s1.peek c).chain post = .ok s3 := h3
  obtain ⟨e6, o2, e7, e8, e9, e10⟩ := chain_unpushed post h3 (by
    show Unpushed s1.hasPred post
    rw [hp1]; simpa [new] using hu)
  have e8 := e8 (fun c h => hq c (List.mem_append_right _ h))
  have e4 : s1.ops = o1 := by simpa [new] using e4
  have hops : s3.ops = o1 ++ .peek c :: o2 := by rw [e7]; simp [Stream.peek, e4]
  have hsrc : s3.src = some q1 := by rw [e6]; exact e1
  obtain ⟨s4, h4⟩ := reduce_log hS (fun r v => r ++ [v]) _ xs1 s3.ops q1 s3.hasPred [] rfl e2
  have hs3 : s3 = ⟨some q1, s3.ops, s3.hasPred⟩ := by cases s3; simp_all
  rw [← hs3] at h4
  refine ⟨s3, s4, o1, o2, xs1, h3', ?_, by rw [← e4, e3], e5, e8, e9, e10⟩
  show s3.reduce _ _ = _
  rw [h4]
  have f2 : ∀ (xs ys : List T), xs.foldl (fun r v => r ++ [v]) ys = ys ++ xs := by
    intro xs
    induction xs with
    | nil => simp
    | cons x xs ih => intro ys; simp [ih]
  have f3 : sem s3.ops xs1 = listChain (pre ++ .peek c :: post) xs := by
    rw [hops, sem_append, listChain_append, ← e4, e3]
    exact e10 _
  rw [f2, f3, hops]; rfl

/-- C43 (partial): a consumer added with `Peek` sees exactly the elements that reach that point in list
semantics, each once and in order, if no `Limit` follows it and no later `Skip` is pushed into the source
(that is: a `Filter` or `Limit` comes before every later `Skip`). All other callbacks produce no events
here, so that the events are the calls of this consumer.

Missing: with a `Limit` behind it the consumer sees one element more than needed (`peek_overreads`), and a
`Skip` that is pushed into the source hides elements from it (`peek_misses`). -/
theorem peek_partial {b : Nat} {xs : List T} {q : S.σ} (hS : Silent S) (hb : Behaves S b (seqOf xs) q)
    (pre post : List (Call T E)) (c : T → List E) (hl : ∀ c ∈ pre ++ post, c.legal)
    (hk : skips (pre ++ post) ≤ b) (hq : ∀ c ∈ pre ++ post, c.quiet)
    (hlim : ∀ c ∈ post, ∀ n, c ≠ .limit n) (hu : Unpushed (pre.any Call.isPred) post) :
    ∃ s' s'', (new S q).chain (pre ++ .peek c :: post) = .ok s' ∧
      s'.slice = some (.ok ⟨listChain (pre ++ .peek c :: post) xs, s'',
        (listChain pre xs).flatMap c⟩) := by
  obtain ⟨s3, s4, o1, o2, xs1, h1, h2, h3, h4, h5, h6, _⟩ := peek_parts hS hb pre post c hl hk hq hu
  exact ⟨s3, s4, h1, by rw [h2, runLog_peek c xs1 o1 o2 h4 h5 (h6 hlim), h3]⟩

/-- C43 (partial): with `Limit`s behind it the consumer sees the first `k` of the elements that reach it, for
some `k` that covers at least as many as are delivered at the end of the chain: never an element twice, out of
order, or one that does not reach it. -/
theorem peek_prefix_partial {b : Nat} {xs : List T} {q : S.σ} (hS : Silent S)
    (hb : Behaves S b (seqOf xs) q)
    (pre post : List (Call T E)) (c : T → List E) (hl : ∀ c ∈ pre ++ post, c.legal)
    (hk : skips (pre ++ post) ≤ b) (hq : ∀ c ∈ pre ++ post, c.quiet)
    (hu : Unpushed (pre.any Call.isPred) post) :
    ∃ s' s'' k, (new S q).chain (pre ++ .peek c :: post) = .ok s' ∧
      s'.slice = some (.ok ⟨listChain (pre ++ .peek c :: post) xs, s'',
        ((listChain pre xs).take k).flatMap c⟩) ∧
      (listChain (pre ++ .peek c :: post) xs).length ≤ k := by
  obtain ⟨s3, s4, o1, o2, xs1, h1, h2, h3, h4, h5, _, h7⟩ := peek_parts hS hb pre post c hl hk hq hu
  obtain ⟨k, hk1, hk2⟩ := runLog_prefix c xs1 o1 o2 h4 h5
  refine ⟨s3, s4, k, h1, by rw [h2, hk1, h3], ?_⟩
  rw [h7, h3] at hk2
  rw [listChain_append]; exact hk2

theorem slice_silent (E : Type) (a : List T) : Silent (sliceSource E a) := by
  intro q r h
  simp only [sliceSource] at h
  split at h
  · cases h; rfl
  · split at h <;> cases h; rfl

/-- The consumer of `Of(0..5).Map(+1).Peek(c).Filter(even).Skip(1)` sees `1 … 6`. -/
example : ∃ s' s'', (ofSlice Nat [0, 1, 2, 3, 4, 5]).chain
    ([.map (· + 1)] ++ .peek (fun v => [v]) :: [.filter (· % 2 == 0), .skip 1]) = .ok s' ∧
    s'.slice = some (.ok ⟨[4, 6], s'', [1, 2, 3, 4, 5, 6]⟩) :=
  peek_partial (slice_silent _ _) (slice_behaves Nat _ 0 1 (Nat.zero_le _) (by decide)) [.map (· + 1)]
    [.filter (· % 2 == 0), .skip 1] (fun v => [v])
    (by intro c hc; simp at hc; rcases hc with rfl | rfl | rfl <;> simp [Call.legal]) (by decide)
    (by intro c hc; simp at hc; rcases hc with rfl | rfl | rfl <;> trivial)
    (by intro c hc n; simp at hc; rcases hc with rfl | rfl <;> simp)
    (by simp [Unpushed, Call.isPred])

/-- C43 fails when a `Skip` is pushed into the source: the consumer of `Of(1, 2, 3).Peek(c).Skip(1)` should see
`1, 2, 3` — the elements that reach it — and sees `2, 3`. -/
theorem peek_misses : ∃ s' s'', (ofSlice Nat [1, 2, 3]).chain [.peek (fun v => [v]), .skip 1] = .ok s' ∧
    s'.slice = some (.ok ⟨[2, 3], s'', [2, 3]⟩) := by
  obtain ⟨s', h⟩ := reduce_log (slice_silent Nat [1, 2, 3]) (fun r v => r ++ [v]) _ [2, 3]
    [.peek (fun v => [v])] (1 : Int) false [] rfl (slice_behaves Nat [1, 2, 3] 1 0 (by decide) (by decide))
  exact ⟨⟨some (1 : Int), [.peek (fun v => [v])], false⟩, s', rfl, h⟩

/-- C43 fails before a `Limit`: the consumer of `Of(1, 2, 3).Peek(c).Limit(1)` should see `1`, all that
is needed, and sees `1, 2`. -/
theorem peek_overreads : ∃ s' s'', (ofSlice Nat [1, 2, 3]).chain [.peek (fun v => [v]), .limit 1] = .ok s' ∧
    s'.slice = some (.ok ⟨[1], s'', [1, 2]⟩) := by
  obtain ⟨s', h⟩ := reduce_log (slice_silent Nat [1, 2, 3]) (fun r v => r ++ [v]) _ [1, 2, 3]
    [.peek (fun v => [v]), .limit 1] (0 : Int) true [] rfl
    (slice_behaves Nat [1, 2, 3] 0 0 (by decide) (by decide))
  exact ⟨⟨some (0 : Int), [.peek (fun v => [v]), .limit 1], true⟩, s', rfl, h⟩

/-! ## C44: limits -/

/-- C44 (partial): a chain with a `Limit(n)` that no `Filter` precedes ends on every source, finite or
infinite, delivers at most `n` elements, and asks its source for at most `n + 1` elements, plus what the
`Skip`s before the limit drop.

Missing: the source is asked for `n + 1`, not `n` elements (`limit_overreads`: always so if it has them); with
a `Filter` before the `Limit` the stream need not end (`limit_diverges`). -/
theorem limit_partial (hS : Returns S) (q : S.σ) (pre post : List (Call T Unit)) (n : Int)
    (hq : ∀ c ∈ pre ++ .limit n :: post, c.quiet) (hf : ∀ c ∈ pre, c.isFilter = false)
    {s : Stream (ticking S)} (hs : (new (ticking S) q).chain (pre ++ .limit n :: post) = .ok s) :
    ∃ xs s' reads, s.slice = some (.ok ⟨xs, s', reads⟩) ∧ xs.length ≤ n.toNat ∧
      reads.length ≤ skips pre + n.toNat + 1 := by
  obtain ⟨h0, ops, h1, h2, h3⟩ := chain_ops _ hs
  obtain ⟨hl, hb⟩ := h3 pre n post rfl
  obtain ⟨q', hq'⟩ := h0 q rfl
  have h1 : s.ops = ops := by simpa [new] using h1
  obtain ⟨xs, s', l, r1, r2, r3⟩ := reduce_bound (fun r v => r ++ [v]) hS n.toNat _ ops q' s.hasPred
    ([] : List T) (hb hf) hl (h2 hq)
  have hs' : s = ⟨some q', ops, s.hasPred⟩ := by cases s; simp_all
  have f2 : ∀ (xs ys : List T), xs.foldl (fun r v => r ++ [v]) ys = ys ++ xs := by
    intro xs
    induction xs with
    | nil => simp
    | cons x xs ih => intro ys; simp [ih]
  rw [f2] at r1
  refine ⟨xs, s', l, ?_, r2, r3⟩
  rw [hs']
  exact r1

theorem generator_returns {γ : Type} (g : γ → T × γ) : Returns (generator E g) := fun _ => ⟨_, rfl⟩

/-- Skip, limit and filter over an endless generator. -/
example : ∃ s : Stream (ticking (generator Unit fun n : Nat => (n, n + 1))),
    (new (ticking (generator Unit fun n : Nat => (n, n + 1))) (0 : Nat)).chain
      ([.map (· * 2), .skip 3] ++ .limit 4 :: [.filter (· % 3 == 0)]) = .ok s ∧
    ∃ xs s' reads, s.slice = some (.ok ⟨xs, s', reads⟩) ∧ xs.length ≤ 4 ∧ reads.length ≤ 3 + 4 + 1 := by
  refine ⟨_, rfl, ?_⟩
  exact limit_partial (generator_returns _) _ [.map (· * 2), .skip 3] [.filter (· % 3 == 0)] 4
    (by intro c hc; simp at hc; rcases hc with rfl | rfl | rfl | rfl <;> trivial)
    (by intro c hc; simp at hc; rcases hc with rfl | rfl <;> rfl) rfl

/-- C44 is false by one, always: limited to `n`, a stream over an endless generator yields the first `n` values
and asks for `n + 1`. -/
theorem limit_overreads {γ : Type} (g : γ → T × γ) (q : γ) (n : Nat) :
    ∃ s s', (new (ticking (generator E g)) q).limit n = .ok s ∧
      s.slice = some (.ok ⟨(List.range n).map (fun i => (g (callN g i q)).1), s', List.replicate (n + 1) ()⟩) := by
  refine ⟨⟨some q, [.limit n], true⟩, ?_⟩
  have main : ∀ (n : Nat) (q : γ) (r : List T), ∃ s',
      Stream.reduce (fun r v => r ++ [v]) r (⟨some q, [.limit n], true⟩ : Stream (ticking (generator E g))) =
        some (.ok ⟨r ++ (List.range n).map (fun i => (g (callN g i q)).1), s', List.replicate (n + 1) ()⟩) := by
    intro n
    induction n with
    | zero =>
      intro q r
      have hl : loop (ticking (generator E g)) [.limit 0] q = some (.ok (none, none, [()])) :=
        loop_stop (x := (g q).1) (q' := (g q).2) (l := [()]) (l' := []) rfl rfl
      exact ⟨_, by rw [List.range_zero, List.map_nil, List.append_nil]
                   exact reduce_none (next_of_loop rfl hl)⟩
    | succ n ih =>
      intro q r
      have hl : loop (ticking (generator E g)) [.limit (n + 1)] q =
          some (.ok (some (g q).1, some ((g q).2, [.limit n]), [()])) :=
        loop_pass (S := ticking (generator E g)) (q := q) (x := (g q).1) (v := (g q).1) (q' := (g q).2)
          (ops' := [.limit n]) (l := [()]) (l' := []) rfl rfl
      obtain ⟨s', h⟩ := ih (g q).2 (r ++ [(g q).1])
      refine ⟨s', ?_⟩
      have := reduce_some (next_of_loop_some (s := ⟨some q, [.limit (n + 1)], true⟩) rfl hl) h
      rw [this, List.range_succ_eq_map, List.map_cons, List.map_map, List.append_assoc]
      rfl
  obtain ⟨s', h⟩ := main n q []
  exact ⟨s', by simp [Stream.limit, new], by rw [List.nil_append] at h; exact h⟩

/-- C44 fails with a `Filter` in front: `Generate(g).Filter(never).Limit(0)` has delivered all it may
deliver — nothing — and its `Next` does not return. -/
theorem limit_diverges {γ : Type} (g : γ → T × γ) (q : γ) (n : Nat) :
    (⟨some q, [.filter (fun _ => false), .limit n], true⟩ : Stream (generator E g)).next = none := by
  have : ∀ (ops : List (Op T E)) (q : γ) r, loop (generator E g) ops q = some r →
      ops = [.filter (fun _ => false), .limit n] → False := by
    refine loop.partial_correctness (generator E g)
      (fun ops _ _ => ops = [.filter (fun _ => false), .limit n] → False) ?_
    intro loop ih ops q r hr hops
    subst hops
    cases hl : loop [.filter (fun _ => false), .limit n] (g q).2 with
    | none => simp [generator, runOps, hl] at hr
    | some r' => exact ih _ _ _ hl rfl
  simp only [Stream.next]
  cases hl : loop (generator E g) [.filter (fun _ => false), .limit n] q with
  | none => rfl
  | some r => exact (this _ _ _ hl rfl).elim

/-! ## C46: a finished stream stays finished -/

/-- A call on a stream: `Next` or an intermediate operation. -/
inductive Use (T E : Type) where
  | next
  | call (c : Call T E)

/-- Performs one use; for `Next` the value is returned. -/
def Stream.use (s : Stream S) : Use T E → Option (Go (Option T × Stream S))
  | .next => do
    match ← s.next with
    | .error e => some (.error e)
    | .ok ⟨v, s', _⟩ => some (.ok (v, s'))
  | .call c =>
    match s.call c with
    | .error e => some (.error e)
    | .ok s' => some (.ok (none, s'))

/-- Performs uses in a row and returns the values of all `Next`s. -/
def Stream.uses (s : Stream S) : List (Use T E) → Option (Go (List (Option T) × Stream S))
  | [] => some (.ok ([], s))
  | u :: us => do
    match ← s.use u with
    | .error e => some (.error e)
    | .ok (v, s') =>
      match ← s'.uses us with
      | .error e => some (.error e)
      | .ok (vs, s'') => some (.ok (v :: vs, s''))

/-- C46 (partial): after `Next` has reported the end, any sequence of later uses — `Next` and intermediate
operations with legal arguments, but no `Skip(n)`, `n > 0`, unless the stream had a `Filter` or `Limit` —
neither panics nor runs for ever, and every `Next` in it reports the end.

Missing: `Skip` on a finished stream without `Filter` or `Limit` panics (`finished_skip_panics`). -/
theorem finished_stays_partial {s s' : Stream S} {l : List E} (h : s.next = some (.ok ⟨none, s', l⟩))
    (us : List (Use T E)) (hl : ∀ c, .call c ∈ us → c.legal)
    (hskip : s'.hasPred = true ∨ ∀ c, .call c ∈ us → c.cost = 0) :
    ∃ s'', s'.uses us = some (.ok (us.map (fun _ => none), s'')) ∧ Finished s'' := by
  have hf := next_none_finished h
  clear h
  generalize s' = t at *
  clear s'
  induction us generalizing t with
  | nil => exact ⟨t, rfl, hf⟩
  | cons u us ih =>
    have step : ∃ t', t.use u = some (.ok (none, t')) ∧ Finished t' ∧
        (t'.hasPred = true ∨ ∀ c, .call c ∈ us → c.cost = 0) := by
      have hs' : ∀ t' : Stream S, (t.hasPred = true → t'.hasPred = true) →
          (t'.hasPred = true ∨ ∀ c, .call c ∈ us → c.cost = 0) := by
        intro t' hp
        rcases hskip with h | h
        · exact .inl (hp h)
        · exact .inr fun c hc => h c (by simp [hc])
      cases u with
      | next =>
        exact ⟨t.clear, by simp [Stream.use, finished_next hf], rfl, hs' _ fun h => h⟩
      | call c =>
        have hlc := hl c (by simp)
        cases c with
        | map f => exact ⟨_, rfl, hf, hs' _ fun h => h⟩
        | filter f => exact ⟨_, rfl, hf, hs' _ fun _ => rfl⟩
        | peek f => exact ⟨_, rfl, hf, hs' _ fun h => h⟩
        | limit n =>
          have hn : ¬ n < 0 := by have : 0 ≤ n := hlc; omega
          exact ⟨{ t with hasPred := true, ops := t.ops ++ [.limit n.toNat] },
            by simp [Stream.use, Stream.call, Stream.limit, hn], hf, hs' _ fun _ => rfl⟩
        | skip n =>
          have hn : ¬ n < 0 := by have : 0 ≤ n := hlc; omega
          by_cases h0 : n = 0
          · exact ⟨t, by simp [Stream.use, Stream.call, Stream.skip, h0], hf, hs' _ fun h => h⟩
          · have hp : t.hasPred = true := by
              rcases hskip with h | h
              · exact h
              · have := h (.skip n) (by simp)
                have : n.toNat = 0 := this
                omega
            exact ⟨{ t with hasPred := true, ops := t.ops ++ [.skip n.toNat] },
              by simp [Stream.use, Stream.call, Stream.skip, hn, h0, hp], hf, hs' _ fun _ => rfl⟩
    obtain ⟨t', h1, h2, h3⟩ := step
    obtain ⟨s'', h4, h5⟩ := ih (fun c hc => hl c (by simp [hc])) t' h3 h2
    exact ⟨s'', by simp [Stream.uses, h1, h4], h5⟩

/-- C46 fails for `Skip`: on every finished stream without `Filter` or `Limit`, `Skip(n)` with `n > 0` panics. -/
theorem finished_skip_panics {s s' : Stream S} {l : List E} (h : s.next = some (.ok ⟨none, s', l⟩))
    (hp : s'.hasPred = false) {n : Int} (hn : 0 < n) : s'.skip n = .error "nil pointer dereference" := by
  have hf : s'.src = none := next_none_finished h
  simp [Stream.skip, hp, hf, show ¬ n < 0 by omega, show n ≠ 0 by omega]

/-- Both happen: an empty slice is finished after one `Next`, with and without a filter. -/
example : ∃ s' l, (ofSlice Nat ([] : List Nat)).next = some (.ok ⟨none, s', l⟩) ∧ s'.hasPred = false :=
  ⟨_, _, next_of_loop rfl (loop_none (q' := (0 : Int)) rfl), rfl⟩

example : ∃ s' l, ((ofSlice Nat ([] : List Nat)).filter (· == 0)).next = some (.ok ⟨none, s', l⟩) ∧
    s'.hasPred = true :=
  ⟨_, _, next_of_loop rfl (loop_none (q' := (0 : Int)) rfl), rfl⟩

end Verif.Stream
