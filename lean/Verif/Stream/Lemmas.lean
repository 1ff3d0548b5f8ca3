import Verif.Stream.Spec

/-! # The loop of `Next` against lists -/

namespace Verif.Stream

variable {T E : Type} {S : Source T E}

/-! ## Sequences -/

theorem seqOf_zero_nil : seqOf ([] : List T) 0 = none := rfl

theorem seqOf_drop (xs : List T) (n : Nat) : (seqOf xs).drop n = seqOf (xs.drop n) := by
  funext i
  show xs[i + n]? = (xs.drop n)[i]?
  rw [List.getElem?_drop, Nat.add_comm]

theorem Seq.drop_drop (a : Seq T) (m n : Nat) : (a.drop m).drop n = a.drop (m + n) := by
  funext i
  show a (i + n + m) = a (i + (m + n))
  congr 1; omega

theorem Seq.drop_zero (a : Seq T) : a.drop 0 = a := rfl

/-! ## `Behaves` is itself a description -/

theorem behaves_describes (S : Source T E) : Describes S (Behaves S) where
  some := by
    rintro b a q x ⟨P, hP, h⟩ ha
    obtain ⟨q', l, h1, h2⟩ := hP.some h ha
    exact ⟨q', l, h1, P, hP, h2⟩
  none := by
    rintro b a q ⟨P, hP, h⟩ ha
    exact hP.none h ha
  skip := by
    rintro b a q n ⟨P, hP, h⟩ hn
    obtain ⟨r, q', h1, h2⟩ := hP.skip h hn
    exact ⟨r, q', h1, P, hP, h2⟩

theorem Behaves.cons {b : Nat} {x : T} {xs : List T} {q : S.σ} (h : Behaves S b (seqOf (x :: xs)) q) :
    ∃ q' l, S.next q = some (.ok ⟨some x, q', l⟩) ∧ Behaves S b (seqOf xs) q' := by
  obtain ⟨q', l, h1, h2⟩ := (behaves_describes S).some h (x := x) rfl
  rw [seqOf_drop] at h2
  exact ⟨q', l, h1, h2⟩

theorem Behaves.nil {b : Nat} {q : S.σ} (h : Behaves S b (seqOf ([] : List T)) q) :
    ∃ q' l, S.next q = some (.ok ⟨none, q', l⟩) :=
  ((behaves_describes S).none h rfl).2

theorem Behaves.skip {b n : Nat} {xs : List T} {q : S.σ} (h : Behaves S b (seqOf xs) q)
    (hn : n ≤ b) : ∃ r q', S.skip n q = .ok (r, q') ∧ Behaves S (b - n) (seqOf (xs.drop n)) q' := by
  obtain ⟨r, q', h1, h2⟩ := (behaves_describes S).skip h hn
  rw [seqOf_drop] at h2
  exact ⟨r, q', h1, h2⟩

/-! ## One turn of the loop -/

theorem loop_none {ops : List (Op T E)} {q q' : S.σ} {l : List E}
    (h : S.next q = some (.ok ⟨none, q', l⟩)) : loop S ops q = some (.ok (none, none, l)) := by
  rw [loop, h]; rfl

theorem loop_error {ops : List (Op T E)} {q : S.σ} {e : String}
    (h : S.next q = some (.error e)) : loop S ops q = some (.error e) := by
  rw [loop, h]; rfl

theorem loop_pass {ops ops' : List (Op T E)} {q q' : S.σ} {l l' : List E} {x v : T}
    (h : S.next q = some (.ok ⟨some x, q', l⟩)) (hr : runOps ops x = .pass v ops' l') :
    loop S ops q = some (.ok (some v, some (q', ops'), l ++ l')) := by
  rw [loop, h]; simp [hr]

theorem loop_stop {ops : List (Op T E)} {q q' : S.σ} {l l' : List E} {x : T}
    (h : S.next q = some (.ok ⟨some x, q', l⟩)) (hr : runOps ops x = .stop l') :
    loop S ops q = some (.ok (none, none, l ++ l')) := by
  rw [loop, h]; simp [hr]

theorem loop_drop {ops ops' : List (Op T E)} {q q' : S.σ} {l l' : List E} {x : T}
    {r : Option T} {st : Option (S.σ × List (Op T E))} {l'' : List E}
    (h : S.next q = some (.ok ⟨some x, q', l⟩)) (hr : runOps ops x = .drop ops' l')
    (hl : loop S ops' q' = some (.ok (r, st, l''))) :
    loop S ops q = some (.ok (r, st, l ++ l' ++ l'')) := by
  rw [loop, h]; simp [hr, hl]

theorem next_of_loop {s : Stream S} {q : S.σ} {r : Option T} {l : List E} (hs : s.src = some q)
    (h : loop S s.ops q = some (.ok (r, none, l))) : s.next = some (.ok ⟨r, s.clear, l⟩) := by
  simp [Stream.next, hs, h]

theorem next_of_loop_some {s : Stream S} {q q' : S.σ} {ops' : List (Op T E)} {r : Option T} {l : List E}
    (hs : s.src = some q) (h : loop S s.ops q = some (.ok (r, some (q', ops'), l))) :
    s.next = some (.ok ⟨r, ⟨some q', ops', s.hasPred⟩, l⟩) := by
  simp [Stream.next, hs, h]

theorem reduce_none {A : Type} {acc : A → T → A} {r : A} {s s' : Stream S} {l : List E}
    (h : s.next = some (.ok ⟨none, s', l⟩)) : s.reduce acc r = some (.ok ⟨r, s', l⟩) := by
  rw [Stream.reduce]; simp [h]

theorem reduce_some {A : Type} {acc : A → T → A} {r r' : A} {s s' s'' : Stream S} {v : T} {l l' : List E}
    (h : s.next = some (.ok ⟨some v, s', l⟩)) (h' : s'.reduce acc (acc r v) = some (.ok ⟨r', s'', l'⟩)) :
    s.reduce acc r = some (.ok ⟨r', s'', l ++ l'⟩) := by
  rw [Stream.reduce]; simp [h, h']

/-! ## The operations of a stream on a list -/

/-- The list meaning of what is stored in `Stream.ops`. -/
def Op.onList : Op T E → List T → List T
  | .map f, xs => xs.map f
  | .filter p, xs => xs.filter p
  | .skip n, xs => xs.drop n
  | .limit n, xs => xs.take n
  | .peek _, xs => xs

def sem : List (Op T E) → List T → List T
  | [], xs => xs
  | op :: ops, xs => sem ops (op.onList xs)

theorem sem_append (ops ops' : List (Op T E)) (xs : List T) :
    sem (ops ++ ops') xs = sem ops' (sem ops xs) := by
  induction ops generalizing xs with
  | nil => rfl
  | cons op ops ih => exact ih _

theorem sem_nil (ops : List (Op T E)) : sem ops [] = [] := by
  induction ops with
  | nil => rfl
  | cons op ops ih => cases op <;> simpa [sem, Op.onList] using ih

/-- What one run of the operations over an element means for the list. -/
theorem sem_cons (ops : List (Op T E)) (x : T) (xs : List T) :
    sem ops (x :: xs) = match runOps ops x with
      | .pass v ops' _ => v :: sem ops' xs
      | .drop ops' _ => sem ops' xs
      | .stop _ => [] := by
  induction ops generalizing x xs with
  | nil => rfl
  | cons op ops ih =>
    cases op with
    | map f =>
      show sem ops (f x :: xs.map f) = _
      rw [ih]; simp only [runOps]
      cases runOps ops (f x) <;> simp [Out.cons, sem, Op.onList]
    | filter p =>
      simp only [runOps]
      cases hp : p x with
      | false => simp [sem, Op.onList, hp]
      | true =>
        show sem ops ((x :: xs).filter p) = _
        rw [List.filter_cons_of_pos hp, ih]
        cases runOps ops x <;> simp [Out.cons, sem, Op.onList]
    | skip n =>
      simp only [runOps]
      cases n with
      | zero =>
        show sem ops (x :: xs) = _
        rw [ih]
        cases runOps ops x <;> simp [Out.cons, sem, Op.onList]
      | succ n => simp [sem, Op.onList]
    | limit n =>
      simp only [runOps]
      cases n with
      | zero => simpa [sem, Op.onList] using sem_nil ops
      | succ n =>
        show sem ops (x :: xs.take n) = _
        rw [ih]
        cases runOps ops x <;> simp [Out.cons, sem, Op.onList]
    | peek c =>
      show sem ops (x :: xs) = _
      rw [ih]; simp only [runOps]
      cases runOps ops x <;> simp [Out.cons, sem, Op.onList]

/-- Only `Map` and `Peek` are stored. -/
def plain : List (Op T E) → Prop
  | [] => True
  | .map _ :: ops => plain ops
  | .peek _ :: ops => plain ops
  | _ :: _ => False

theorem plain_append {ops ops' : List (Op T E)} (h : plain ops) (h' : plain ops') :
    plain (ops ++ ops') := by
  induction ops with
  | nil => exact h'
  | cons op ops ih => cases op <;> first | exact ih h | exact h.elim

theorem plain_run {ops : List (Op T E)} (h : plain ops) (x : T) :
    ∃ v l, runOps ops x = .pass v ops l := by
  induction ops generalizing x with
  | nil => exact ⟨_, _, rfl⟩
  | cons op ops ih =>
    cases op with
    | map f => obtain ⟨v, l, hv⟩ := ih h (f x); exact ⟨v, [] ++ l, by simp [runOps, hv, Out.cons]⟩
    | peek c => obtain ⟨v, l, hv⟩ := ih h x; exact ⟨v, c x ++ l, by simp [runOps, hv, Out.cons]⟩
    | filter p => exact h.elim
    | skip p => exact h.elim
    | limit p => exact h.elim

theorem plain_drop {ops : List (Op T E)} (h : plain ops) (n : Nat) (xs : List T) :
    sem ops (xs.drop n) = (sem ops xs).drop n := by
  induction ops generalizing xs with
  | nil => rfl
  | cons op ops ih =>
    cases op with
    | map f =>
      show sem ops ((xs.drop n).map f) = (sem ops (xs.map f)).drop n
      rw [List.map_drop]; exact ih h _
    | peek c => exact ih h _
    | filter p => exact h.elim
    | skip p => exact h.elim
    | limit p => exact h.elim

/-- One call of `Next` over a source that behaves like a list. -/
theorem loop_list {b : Nat} (xs : List T) : ∀ (ops : List (Op T E)) (q : S.σ),
    Behaves S b (seqOf xs) q →
    match sem ops xs with
    | [] => ∃ l, loop S ops q = some (.ok (none, none, l))
    | v :: vs => ∃ xs' ops' q' l, loop S ops q = some (.ok (some v, some (q', ops'), l)) ∧
        Behaves S b (seqOf xs') q' ∧ sem ops' xs' = vs ∧ (plain ops → ops' = ops) := by
  induction xs with
  | nil =>
    intro ops q h
    obtain ⟨q', l, hn⟩ := h.nil
    rw [sem_nil]
    exact ⟨l, by rw [loop, hn]; rfl⟩
  | cons x xs ih =>
    intro ops q h
    obtain ⟨q', l, hn, hb⟩ := h.cons
    rw [sem_cons]
    cases hr : runOps ops x with
    | pass v ops' l' =>
      refine ⟨xs, ops', q', l ++ l', ?_, hb, rfl, ?_⟩
      · rw [loop, hn]; simp [hr]
      · intro hp; obtain ⟨_, _, h'⟩ := plain_run hp x
        rw [hr] at h'; cases h'; rfl
    | stop l' => exact ⟨l ++ l', by rw [loop, hn]; simp [hr]⟩
    | drop ops' l' =>
      have hp : ¬ plain ops := by
        intro hp; obtain ⟨_, _, h'⟩ := plain_run hp x
        rw [hr] at h'; cases h'
      have := ih ops' q' hb
      dsimp only
      cases hs : sem ops' xs with
      | nil =>
        rw [hs] at this
        obtain ⟨l'', h''⟩ := this
        exact ⟨l ++ l' ++ l'', by rw [loop, hn]; simp [hr, h'']⟩
      | cons v vs =>
        rw [hs] at this
        obtain ⟨xs', ops'', q'', l'', h'', h1, h2, _⟩ := this
        exact ⟨xs', ops'', q'', l ++ l' ++ l'', by rw [loop, hn]; simp [hr, h''], h1, h2,
          fun h => (hp h).elim⟩

/-! ## Streams over a list source -/

/-- The stream is not finished; its source behaves like a list, and that list run through the stored
operations is `vs`. -/
structure Yields (b : Nat) (s : Stream S) (vs : List T) : Prop where
  ex : ∃ q xs, s.src = some q ∧ Behaves S b (seqOf xs) q ∧ sem s.ops xs = vs
  pl : s.hasPred = false → plain s.ops

theorem new_yields {b : Nat} {xs : List T} {q : S.σ} (h : Behaves S b (seqOf xs) q) :
    Yields b (new S q) xs := ⟨⟨q, xs, rfl, h, rfl⟩, fun _ => trivial⟩

theorem Yields.next_cons {b : Nat} {s : Stream S} {v : T} {vs : List T} (h : Yields b s (v :: vs)) :
    ∃ s' l, s.next = some (.ok ⟨some v, s', l⟩) ∧ Yields b s' vs := by
  obtain ⟨⟨q, xs, hs, hb, hv⟩, hpl⟩ := h
  have := loop_list xs s.ops q hb
  rw [hv] at this
  obtain ⟨xs', ops', q', l, h1, h2, h3, h4⟩ := this
  refine ⟨⟨some q', ops', s.hasPred⟩, l, by simp [Stream.next, hs, h1], ⟨q', xs', rfl, h2, h3⟩, ?_⟩
  intro hp
  show plain ops'
  rw [h4 (hpl hp)]; exact hpl hp

theorem Yields.next_nil {b : Nat} {s : Stream S} (h : Yields b s ([] : List T)) :
    ∃ l, s.next = some (.ok ⟨none, s.clear, l⟩) := by
  obtain ⟨⟨q, xs, hs, hb, hv⟩, hpl⟩ := h
  have := loop_list xs s.ops q hb
  rw [hv] at this
  obtain ⟨l, h1⟩ := this
  exact ⟨l, by simp [Stream.next, hs, h1]⟩

theorem Yields.lists {b : Nat} {s : Stream S} {vs : List T} (h : Yields b s vs) : Lists s vs := by
  induction vs generalizing s with
  | nil => obtain ⟨l, h⟩ := h.next_nil; exact .nil h
  | cons v vs ih => obtain ⟨s', l, h1, h2⟩ := h.next_cons; exact .cons h1 (ih h2)

theorem Yields.mono {b b' : Nat} {s : Stream S} {vs : List T} (h : Yields b s vs)
    (hm : ∀ (a : Seq T) (q : S.σ), Behaves S b a q → Behaves S b' a q) : Yields b' s vs := by
  obtain ⟨⟨q, xs, hs, hb, hv⟩, hpl⟩ := h
  exact ⟨⟨q, xs, hs, hm _ _ hb, hv⟩, hpl⟩

/-- A smaller allowance is allowed. -/
theorem Behaves.mono {b b' : Nat} {a : Seq T} {q : S.σ} (h : Behaves S b a q) (hb : b' ≤ b) :
    Behaves S b' a q := by
  obtain ⟨P, hP, h⟩ := h
  refine ⟨fun c a q => ∃ d, c ≤ d ∧ P d a q, ?_, b, hb, h⟩
  refine ⟨?_, ?_, ?_⟩
  · rintro c a q x ⟨d, hd, h⟩ ha
    obtain ⟨q', l, h1, h2⟩ := hP.some h ha
    exact ⟨q', l, h1, d, hd, h2⟩
  · rintro c a q ⟨d, hd, h⟩ ha
    exact hP.none h ha
  · rintro c a q n ⟨d, hd, h⟩ hn
    obtain ⟨r, q', h1, h2⟩ := hP.skip (n := n) h (by omega)
    exact ⟨r, q', h1, d - n, by omega, h2⟩

theorem Yields.skip {b : Nat} {s : Stream S} {vs : List T} (h : Yields b s vs) {n : Nat} (hn : n ≤ b) :
    ∃ s', s.skip n = .ok s' ∧ Yields (b - n) s' (vs.drop n) := by
  obtain ⟨⟨q, xs, hs, hb, hv⟩, hpl⟩ := h
  unfold Stream.skip
  rw [if_neg (by omega)]
  by_cases h0 : n = 0
  · subst h0; exact ⟨s, by simp, ⟨q, xs, hs, hb, hv⟩, hpl⟩
  rw [if_neg (by omega)]
  cases hp : s.hasPred with
  | false =>
    obtain ⟨r, q', h1, h2⟩ := hb.skip hn
    refine ⟨{ s with src := some q' }, by simp [hs, h1, hp], ⟨q', _, rfl, h2, ?_⟩, hpl⟩
    show sem s.ops _ = _
    rw [plain_drop (hpl hp), hv]
  | true =>
    refine ⟨{ s with hasPred := true, ops := s.ops ++ [.skip n] }, by simp, ⟨q, xs, hs, hb.mono (Nat.sub_le _ _), ?_⟩, fun h => by cases h⟩
    show sem (s.ops ++ _) xs = _
    rw [sem_append, hv]; rfl

/-- One call on the stream is the corresponding list function. -/
theorem Yields.call {b : Nat} {s : Stream S} {vs : List T} (h : Yields b s vs) (c : Call T E)
    (hl : c.legal) (hc : c.cost ≤ b) :
    ∃ s', s.call c = .ok s' ∧ Yields (b - c.cost) s' (c.onList vs) := by
  obtain ⟨⟨q, xs, hs, hb, hv⟩, hpl⟩ := id h
  cases c with
  | map f =>
    refine ⟨_, rfl, ⟨q, xs, hs, hb, ?_⟩, fun h => plain_append (hpl h) trivial⟩
    show sem (s.ops ++ _) xs = _
    rw [sem_append, hv]; rfl
  | peek f =>
    refine ⟨_, rfl, ⟨q, xs, hs, hb, ?_⟩, fun h => plain_append (hpl h) trivial⟩
    show sem (s.ops ++ _) xs = _
    rw [sem_append, hv]; rfl
  | filter p =>
    refine ⟨_, rfl, ⟨q, xs, hs, hb, ?_⟩, fun h => by cases h⟩
    show sem (s.ops ++ _) xs = _
    rw [sem_append, hv]; rfl
  | limit n =>
    have hn : ¬ n < 0 := by have : 0 ≤ n := hl; omega
    refine ⟨{ s with hasPred := true, ops := s.ops ++ [.limit n.toNat] },
      by show s.limit n = _; unfold Stream.limit; rw [if_neg hn],
      ⟨q, xs, hs, hb, ?_⟩, fun h => by cases h⟩
    show sem (s.ops ++ _) xs = _
    rw [sem_append, hv]; rfl
  | skip n =>
    obtain ⟨m, rfl⟩ : ∃ m : Nat, n = m := ⟨n.toNat, (Int.toNat_of_nonneg hl).symm⟩
    exact h.skip (n := m) hc

theorem Yields.chain (cs : List (Call T E)) : ∀ {b : Nat} {s : Stream S} {vs : List T},
    Yields b s vs → (∀ c ∈ cs, c.legal) → skips cs ≤ b →
    ∃ s', s.chain cs = .ok s' ∧ Yields (b - skips cs) s' (listChain cs vs) := by
  induction cs with
  | nil => intro b s vs h _ _; exact ⟨s, rfl, h⟩
  | cons c cs ih =>
    intro b s vs h hl hb
    have hk : skips (c :: cs) = c.cost + skips cs := by simp [skips]
    obtain ⟨s', h1, h2⟩ := h.call c (hl c (by simp)) (by omega)
    obtain ⟨s'', h3, h4⟩ := ih h2 (fun c hc => hl c (by simp [hc])) (by omega)
    refine ⟨s'', by simp [Stream.chain, h1, h3], ?_⟩
    rw [hk, ← Nat.sub_sub]; exact h4

/-- A type-mapped stream behaves like the mapped list. -/
theorem tts_behaves {R : Type} {b : Nat} {s : Stream S} {vs : List T} (f : T → R) (h : Yields b s vs) :
    Behaves (tts S f) b (seqOf (vs.map f)) s := by
  refine ⟨fun b a s => ∃ vs, Yields b s vs ∧ a = seqOf (vs.map f), ?_, vs, h, rfl⟩
  refine ⟨?_, ?_, ?_⟩
  · rintro b a s x ⟨vs, h, rfl⟩ ha
    cases vs with
    | nil => cases ha
    | cons v vs =>
      obtain ⟨s', l, h1, h2⟩ := h.next_cons
      cases ha
      exact ⟨s', l, by simp [tts, h1], vs, h2, by rw [seqOf_drop]; rfl⟩
  · rintro b a s ⟨vs, h, rfl⟩ ha
    cases vs with
    | cons v vs => cases ha
    | nil =>
      obtain ⟨l, h1⟩ := h.next_nil
      exact ⟨fun i => rfl, s.clear, l, by simp [tts, h1]⟩
  · rintro b a s n ⟨vs, h, rfl⟩ hn
    obtain ⟨s', h1, h2⟩ := h.skip hn
    exact ⟨-1, s', by simp [tts, h1], vs.drop n, h2, by rw [seqOf_drop, List.map_drop]⟩

/-! ## Reading -/

/-- The first `k` elements of a sequence, up to its end. -/
def Seq.take (a : Seq T) : Nat → List T
  | 0 => []
  | k + 1 => match a 0 with
    | none => []
    | some x => x :: (a.drop 1).take k

theorem reads_behaves {b : Nat} (k : Nat) : ∀ {a : Seq T} {q : S.σ}, Behaves S b a q →
    reads S k q = some (.ok (a.take k)) := by
  induction k with
  | zero => intros; rfl
  | succ k ih =>
    intro a q h
    unfold reads
    cases ha : a 0 with
    | none =>
      obtain ⟨_, q', l, h1⟩ := (behaves_describes S).none h ha
      simp [h1, Seq.take, ha]
    | some x =>
      obtain ⟨q', l, h1, h2⟩ := (behaves_describes S).some h ha
      simp [h1, Seq.take, ha, ih h2]

theorem Seq.take_of_none {a : Seq T} (h : ∀ i, a i = none) (k : Nat) : a.take k = [] := by
  cases k <;> simp [Seq.take, h]

theorem take_drop_behaves {b : Nat} (k n : Nat) : ∀ {a : Seq T} {q : S.σ}, Behaves S b a q →
    (a.drop n).take k = (a.take (n + k)).drop n := by
  induction n with
  | zero => intro a q _; rw [Nat.zero_add]; rfl
  | succ n ih =>
    intro a q h
    rw [show n + 1 + k = (n + k) + 1 by omega]
    have hs : a.take (n + k + 1) = match a 0 with
      | none => []
      | some x => x :: (a.drop 1).take (n + k) := rfl
    rw [hs]
    cases ha : a 0 with
    | none =>
      obtain ⟨h0, _⟩ := (behaves_describes S).none h ha
      exact Seq.take_of_none (fun i => h0 _) k
    | some x =>
      obtain ⟨q', l, h1, h2⟩ := (behaves_describes S).some h ha
      show _ = List.drop (n + 1) (x :: _)
      rw [List.drop_succ_cons, ← ih h2, Seq.drop_drop, Nat.add_comm 1 n]

theorem Behaves.skipIsDrop {b n : Nat} {a : Seq T} {q : S.σ} (h : Behaves S b a q)
    (hn : n ≤ b) : SkipIsDrop S n q := by
  obtain ⟨r, q', h1, h2⟩ := (behaves_describes S).skip h hn
  refine ⟨r, q', h1, fun k => ⟨_, reads_behaves _ h, ?_⟩⟩
  rw [reads_behaves k h2, take_drop_behaves k n h]

end Verif.Stream
