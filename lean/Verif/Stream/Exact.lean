import Verif.Stream.Props
import Verif.Stream.SkipLemmas

/-!
# C113: exactly what a stream reads, and when the callbacks run

The specification knows lists only: `kept`, `over`, `events`, `trace`, `first`.
-/

namespace Verif.Stream.Exact

open Verif.Stream

variable {T E : Type} {S : Source T E}

/-! ## What is said -/

/-- The first `n` elements of a sequence (all of them, if there are fewer). -/
def first (a : Seq T) : Nat → List T
  | 0 => []
  | n + 1 => first a n ++ (a n).toList

/-- The sum of the `Skip`s that no `Filter` or `Limit` comes before: the source does these. -/
def pushed : List (Call T E) → Nat
  | [] => 0
  | .skip n :: cs => n.toNat + pushed cs
  | .map _ :: cs => pushed cs
  | .peek _ :: cs => pushed cs
  | .filter _ :: _ => 0
  | .limit _ :: _ => 0

/-- The other calls. -/
def kept : List (Call T E) → List (Call T E)
  | [] => []
  | .skip _ :: cs => kept cs
  | .map f :: cs => .map f :: kept cs
  | .peek c :: cs => .peek c :: kept cs
  | .filter p :: cs => .filter p :: cs
  | .limit n :: cs => .limit n :: cs

/-- More than `n` of the elements come to some `Limit(n)`. -/
def over : List (Call T E) → List T → Bool
  | [], _ => false
  | .limit n :: cs, ys => decide (n.toNat < ys.length) || over cs (ys.take n.toNat)
  | c :: cs, ys => over cs (c.onList ys)

/-- The calls of the consumers, in the order of the chain, for elements that come to them from `new` but not from
`old`. -/
def events : List (Call T E) → (old new : List T) → List E
  | [], _, _ => []
  | .peek c :: cs, old, new => (new.drop old.length).flatMap c ++ events cs old new
  | c :: cs, old, new => events cs (c.onList old) (c.onList new)

/-- Everything that happens while `ys` is read: `t` for the read, then the consumers that the element comes to, then
the next read. -/
def trace (t : List E) (cs : List (Call T E)) (ys : List T) : List E :=
  (List.range ys.length).flatMap fun i => t ++ events cs (ys.take i) (ys.take (i + 1))

/-- Every call of the source's `Next` has the events `t`. -/
def Steady (S : Source T E) (t : List E) : Prop := ∀ q r, S.next q = some (.ok r) → r.log = t

/-- `k` calls of `Next`, or fewer if the stream ends: the values, the stream and the events. -/
def pulls : Nat → Stream S → Option (Go (Fin (List T) S))
  | 0, s => some (.ok ⟨[], s, []⟩)
  | k + 1, s => do
    match ← s.next with
    | .error e => some (.error e)
    | .ok ⟨none, s', l⟩ => some (.ok ⟨[], s', l⟩)
    | .ok ⟨some v, s', l⟩ =>
      match ← pulls k s' with
      | .error e => some (.error e)
      | .ok ⟨vs, s'', l'⟩ => some (.ok ⟨v :: vs, s'', l ++ l'⟩)

/-! ## One element -/

/-- The operations of the stream after it has read `zs`. -/
def opsOf : List (Call T E) → List T → List (Op T E)
  | [], _ => []
  | .map f :: cs, zs => .map f :: opsOf cs (zs.map f)
  | .filter p :: cs, zs => .filter p :: opsOf cs (zs.filter p)
  | .skip n :: cs, zs =>
    if n.toNat = 0 then opsOf cs zs else .skip (n.toNat - zs.length) :: opsOf cs (zs.drop n.toNat)
  | .limit n :: cs, zs => .limit (n.toNat - zs.length) :: opsOf cs (zs.take n.toNat)
  | .peek c :: cs, zs => .peek c :: opsOf cs zs

theorem events_same (cs : List (Call T E)) : ∀ ys, events cs ys ys = [] := by
  induction cs with
  | nil => intro ys; rfl
  | cons c cs ih =>
    intro ys
    cases c <;> simp [events, ih]

/-- What one more element does. -/
def Effect (cs : List (Call T E)) (zs : List T) (x : T) : Out T E → Prop
  | .pass v ops l => ops = opsOf cs (zs ++ [x]) ∧ l = events cs zs (zs ++ [x]) ∧
      listChain cs (zs ++ [x]) = listChain cs zs ++ [v] ∧ over cs (zs ++ [x]) = false
  | .drop ops l => ops = opsOf cs (zs ++ [x]) ∧ l = events cs zs (zs ++ [x]) ∧
      listChain cs (zs ++ [x]) = listChain cs zs ∧ over cs (zs ++ [x]) = false
  | .stop l => l = events cs zs (zs ++ [x]) ∧ listChain cs (zs ++ [x]) = listChain cs zs ∧
      over cs (zs ++ [x]) = true

theorem effect (cs : List (Call T E)) : ∀ (zs : List T) (x : T), over cs zs = false →
    Effect cs zs x (runOps (opsOf cs zs) x) := by
  induction cs with
  | nil => intro zs x _; exact ⟨rfl, rfl, rfl, rfl⟩
  | cons c cs ih =>
    intro zs x h
    cases c with
    | map f =>
      have := ih (zs.map f) (f x) h
      simp only [opsOf, runOps]
      cases hr : runOps (opsOf cs (zs.map f)) (f x) <;> rw [hr] at this <;>
        simpa [Effect, Out.cons, opsOf, events, over, listChain, Call.onList] using this
    | peek c =>
      have := ih zs x h
      simp only [opsOf, runOps]
      cases hr : runOps (opsOf cs zs) x <;> rw [hr] at this <;>
        simpa [Effect, Out.cons, opsOf, events, over, listChain, Call.onList] using this
    | filter p =>
      simp only [opsOf, runOps]
      cases hp : p x with
      | false =>
        rw [if_pos (by rfl)]
        have hf : (zs ++ [x]).filter p = zs.filter p := by simp [hp]
        refine ⟨by simp [opsOf, hf], ?_, by simp [listChain, Call.onList, hf], by
          simpa [over, Call.onList, hf] using h⟩
        simp [events, Call.onList, hf, events_same]
      | true =>
        rw [if_neg (by simp)]
        have hf : (zs ++ [x]).filter p = zs.filter p ++ [x] := by simp [hp]
        have := ih (zs.filter p) x h
        cases hr : runOps (opsOf cs (zs.filter p)) x <;> rw [hr] at this <;>
          simpa [Effect, Out.cons, opsOf, events, over, listChain, Call.onList, hp] using this
    | skip n =>
      by_cases h0 : n.toNat = 0
      · have := ih zs x (by simpa [over, Call.onList, h0] using h)
        simp only [opsOf, h0, if_true]
        cases hr : runOps (opsOf cs zs) x <;> rw [hr] at this <;>
          simpa [Effect, opsOf, events, over, listChain, Call.onList, h0] using this
      · simp only [opsOf, if_neg h0, runOps]
        by_cases hn : n.toNat - zs.length > 0
        · rw [if_pos hn]
          have hf : (zs ++ [x]).drop n.toNat = zs.drop n.toNat := by
            rw [List.drop_of_length_le (by simp; omega), List.drop_of_length_le (by omega)]
          refine ⟨?_, ?_, by simp only [listChain, Call.onList, hf], by
            simp only [over, Call.onList] at h ⊢; rw [hf]; exact h⟩
          · simp only [opsOf, if_neg h0, hf]
            congr 2
            simp; omega
          · simp only [events, Call.onList, hf, events_same]
        · rw [if_neg hn]
          have hf : (zs ++ [x]).drop n.toNat = zs.drop n.toNat ++ [x] := by
            rw [List.drop_append_of_le_length (by omega)]
          have := ih (zs.drop n.toNat) x h
          have h1 : n.toNat - zs.length = 0 := by omega
          have h2 : n.toNat - (zs ++ [x]).length = 0 := by simp; omega
          cases hr : runOps (opsOf cs (zs.drop n.toNat)) x <;> rw [hr] at this <;>
            simpa only [Effect, Out.cons, opsOf, if_neg h0, h1, h2, events, over, listChain, Call.onList, hf,
              List.cons.injEq, true_and, List.nil_append] using this
    | limit n =>
      simp only [over, Bool.or_eq_false_iff, decide_eq_false_iff_not] at h
      have ht : zs.take n.toNat = zs := List.take_of_length_le (by omega)
      simp only [opsOf, runOps]
      by_cases hn : n.toNat - zs.length > 0
      · rw [if_pos hn]
        have hf : (zs ++ [x]).take n.toNat = zs ++ [x] := List.take_of_length_le (by simp; omega)
        have hd : decide (n.toNat < (zs ++ [x]).length) = false := by simp; omega
        have := ih (zs.take n.toNat) x h.2
        rw [ht] at this ⊢
        have h1 : n.toNat - zs.length - 1 = n.toNat - (zs ++ [x]).length := by simp; omega
        cases hr : runOps (opsOf cs zs) x <;> rw [hr] at this <;>
          simpa only [Effect, Out.cons, opsOf, h1, events, over, listChain, Call.onList, hf, ht, hd,
            List.cons.injEq, true_and, List.nil_append, Bool.false_or] using this
      · rw [if_neg hn]
        have hf : (zs ++ [x]).take n.toNat = zs := by
          rw [List.take_append_of_le_length (by omega), ht]
        refine ⟨?_, by simp only [listChain, Call.onList, hf, ht], ?_⟩
        · simp only [events, Call.onList, hf, ht, events_same]
        · simp only [over, Bool.or_eq_true, decide_eq_true_eq]
          left; simp; omega

/-! ## Reading -/

/-- The events `l` happen first. -/
def after {A : Type} (l : List E) : Option (Go (Fin A S)) → Option (Go (Fin A S))
  | none => none
  | some (.error e) => some (.error e)
  | some (.ok ⟨r, s, l'⟩) => some (.ok ⟨r, s, l ++ l'⟩)

theorem after_after {A : Type} (l l' : List E) (o : Option (Go (Fin A S))) :
    after l (after l' o) = after (l ++ l') o := by
  match o with
  | none => rfl
  | some (.error e) => rfl
  | some (.ok ⟨r, s, l''⟩) => simp [after]

variable {A : Type} {acc : A → T → A}

theorem reduce_end {ops : List (Op T E)} {q q' : S.σ} {l : List E} {hp : Bool} {r : A}
    (h : S.next q = some (.ok ⟨none, q', l⟩)) :
    Stream.reduce acc r (⟨some q, ops, hp⟩ : Stream S) = some (.ok ⟨r, ⟨none, [], hp⟩, l⟩) :=
  reduce_none (next_of_loop rfl (loop_none h))

theorem reduce_stop {ops : List (Op T E)} {q q' : S.σ} {l l' : List E} {hp : Bool} {r : A} {x : T}
    (h : S.next q = some (.ok ⟨some x, q', l⟩)) (hr : runOps ops x = .stop l') :
    Stream.reduce acc r (⟨some q, ops, hp⟩ : Stream S) = some (.ok ⟨r, ⟨none, [], hp⟩, l ++ l'⟩) :=
  reduce_none (next_of_loop rfl (loop_stop h hr))

theorem reduce_pass {ops ops' : List (Op T E)} {q q' : S.σ} {l l' : List E} {hp : Bool} {r : A} {x v : T}
    (h : S.next q = some (.ok ⟨some x, q', l⟩)) (hr : runOps ops x = .pass v ops' l') :
    Stream.reduce acc r (⟨some q, ops, hp⟩ : Stream S) =
      after (l ++ l') (Stream.reduce acc (acc r v) (⟨some q', ops', hp⟩ : Stream S)) := by
  have hn : (⟨some q, ops, hp⟩ : Stream S).next = _ := next_of_loop_some rfl (loop_pass h hr)
  rw [Stream.reduce.eq_1 acc r ⟨some q, ops, hp⟩, hn]
  dsimp only [Option.bind_eq_bind, Option.bind_some]
  match Stream.reduce acc (acc r v) (⟨some q', ops', hp⟩ : Stream S) with
  | none => rfl
  | some (.error e) => rfl
  | some (.ok ⟨r, s, l''⟩) => rfl

/-- `Next` goes on after an element that is dropped. -/
theorem next_drop {ops ops' : List (Op T E)} {q q' : S.σ} {l l' : List E} {hp : Bool} {x : T}
    (h : S.next q = some (.ok ⟨some x, q', l⟩)) (hr : runOps ops x = .drop ops' l') :
    (⟨some q, ops, hp⟩ : Stream S).next = match (⟨some q', ops', hp⟩ : Stream S).next with
      | none => none
      | some (.error e) => some (.error e)
      | some (.ok ⟨v, s, l''⟩) => some (.ok ⟨v, s, l ++ l' ++ l''⟩) := by
  simp only [Stream.next]
  rw [loop_cases ops q, h]
  dsimp only
  rw [hr]
  dsimp only
  match loop S ops' q' with
  | none => rfl
  | some (.error e) => rfl
  | some (.ok (v, none, l)) => rfl
  | some (.ok (v, some (q, o), l)) => rfl

theorem reduce_drop {ops ops' : List (Op T E)} {q q' : S.σ} {l l' : List E} {hp : Bool} {r : A} {x : T}
    (h : S.next q = some (.ok ⟨some x, q', l⟩)) (hr : runOps ops x = .drop ops' l') :
    Stream.reduce acc r (⟨some q, ops, hp⟩ : Stream S) =
      after (l ++ l') (Stream.reduce acc r (⟨some q', ops', hp⟩ : Stream S)) := by
  rw [Stream.reduce.eq_1 acc r ⟨some q, ops, hp⟩, Stream.reduce.eq_1 acc r ⟨some q', ops', hp⟩, next_drop h hr]
  match (⟨some q', ops', hp⟩ : Stream S).next with
  | none => rfl
  | some (.error e) => rfl
  | some (.ok ⟨none, s, l''⟩) => rfl
  | some (.ok ⟨some v, s, l''⟩) =>
    dsimp only [Option.bind_eq_bind, Option.bind_some]
    match Stream.reduce acc (acc r v) s with
    | none => rfl
    | some (.error e) => rfl
    | some (.ok ⟨r, s, l3⟩) => simp [after]

theorem pulls_pass {ops ops' : List (Op T E)} {q q' : S.σ} {l l' : List E} {hp : Bool} {k : Nat} {x v : T}
    {vs : List T} {s : Stream S} {l'' : List E}
    (h : S.next q = some (.ok ⟨some x, q', l⟩)) (hr : runOps ops x = .pass v ops' l')
    (hk : pulls k (⟨some q', ops', hp⟩ : Stream S) = some (.ok ⟨vs, s, l''⟩)) :
    pulls (k + 1) (⟨some q, ops, hp⟩ : Stream S) = some (.ok ⟨v :: vs, s, l ++ l' ++ l''⟩) := by
  have hn : (⟨some q, ops, hp⟩ : Stream S).next = _ := next_of_loop_some rfl (loop_pass h hr)
  simp only [pulls, hn, Option.bind_eq_bind, Option.bind_some, hk]

theorem pulls_drop {ops ops' : List (Op T E)} {q q' : S.σ} {l l' : List E} {hp : Bool} {k : Nat} {x : T}
    (h : S.next q = some (.ok ⟨some x, q', l⟩)) (hr : runOps ops x = .drop ops' l') :
    pulls (k + 1) (⟨some q, ops, hp⟩ : Stream S) = after (l ++ l') (pulls (k + 1) (⟨some q', ops', hp⟩ : Stream S)) := by
  simp only [pulls]
  rw [next_drop h hr]
  match (⟨some q', ops', hp⟩ : Stream S).next with
  | none => rfl
  | some (.error e) => rfl
  | some (.ok ⟨none, s, l''⟩) => rfl
  | some (.ok ⟨some v, s, l''⟩) =>
    dsimp only [Option.bind_eq_bind, Option.bind_some]
    match pulls k s with
    | none => rfl
    | some (.error e) => rfl
    | some (.ok ⟨r, s, l3⟩) => simp [after]

/-- As `trace`, after `zs` was read. -/
def traceFrom (t : List E) (cs : List (Call T E)) : List T → List T → List E
  | _, [] => []
  | zs, x :: ws => t ++ events cs zs (zs ++ [x]) ++ traceFrom t cs (zs ++ [x]) ws

theorem trace_from (t : List E) (cs : List (Call T E)) (ws : List T) : ∀ zs,
    traceFrom t cs zs ws = (List.range' zs.length ws.length).flatMap fun i =>
      t ++ events cs ((zs ++ ws).take i) ((zs ++ ws).take (i + 1)) := by
  induction ws with
  | nil => intro zs; rfl
  | cons x ws ih =>
    intro zs
    rw [traceFrom, ih, List.length_cons, List.range'_succ, List.flatMap_cons]
    congr 1
    · rw [List.take_left' rfl, show zs ++ x :: ws = (zs ++ [x]) ++ ws by simp, List.take_left' (by simp)]
    · simp

theorem trace_eq (t : List E) (cs : List (Call T E)) (ws : List T) : trace t cs ws = traceFrom t cs [] ws := by
  rw [trace_from, trace, List.range_eq_range']; rfl

theorem traceFrom_append (t : List E) (cs : List (Call T E)) (us ws : List T) : ∀ zs,
    traceFrom t cs zs (us ++ ws) = traceFrom t cs zs us ++ traceFrom t cs (zs ++ us) ws := by
  induction us with
  | nil => intro zs; simp [traceFrom]
  | cons x us ih => intro zs; simp [traceFrom, ih]

/-- The sequence begins with the list. -/
def Begins (a : Seq T) (ws : List T) : Prop := ∀ i, i < ws.length → a i = ws[i]?

theorem Begins.cons {a : Seq T} {x : T} {ws : List T} (h : Begins a (x :: ws)) :
    a 0 = some x ∧ Begins (a.drop 1) ws :=
  ⟨h 0 (by simp), fun i hi => by
    have := h (i + 1) (by simpa using hi)
    simpa [Seq.drop] using this⟩

theorem Steady.log {t : List E} (hS : Steady S t) {q q' : S.σ} {v : Option T} {l : List E}
    (h : S.next q = some (.ok ⟨v, q', l⟩)) : l = t := hS _ _ h

theorem over_append (cs : List (Call T E)) : ∀ (ys zs : List T), over cs ys = true → over cs (ys ++ zs) = true ∧
    listChain cs (ys ++ zs) = listChain cs ys := by
  induction cs with
  | nil => intro ys zs h; cases h
  | cons c cs ih =>
    intro ys zs h
    cases c with
    | map f => simpa [over, listChain, Call.onList] using ih (ys.map f) (zs.map f) h
    | filter p => simpa [over, listChain, Call.onList] using ih (ys.filter p) (zs.filter p) h
    | peek c => exact ih ys zs h
    | skip n =>
      have := ih (ys.drop n.toNat) (zs.drop (n.toNat - ys.length)) h
      simpa only [over, listChain, Call.onList, List.drop_append] using this
    | limit n =>
      simp only [over, Bool.or_eq_true, decide_eq_true_eq, listChain, Call.onList] at h ⊢
      by_cases hn : n.toNat < ys.length
      · have : (ys ++ zs).take n.toNat = ys.take n.toNat := List.take_append_of_le_length (by omega)
        rw [this]
        exact ⟨.inl (by simp; omega), rfl⟩
      · have h := h.resolve_left hn
        have ht : ys.take n.toNat = ys := List.take_of_length_le (by omega)
        rw [ht] at h
        rw [List.take_append, ht]
        have := ih _ (zs.take (n.toNat - ys.length)) h
        exact ⟨.inr this.1, this.2⟩

theorem over_of_append {cs : List (Call T E)} {ys zs : List T} (h : over cs (ys ++ zs) = false) : over cs ys = false := by
  cases ho : over cs ys with
  | false => rfl
  | true => rw [(over_append cs ys zs ho).1] at h; cases h

/-- Reading `ws`, when no `Limit` ends the stream before. -/
theorem reduce_steps {t : List E} (hS : Steady S t) (cs : List (Call T E)) (r0 : A) (hp : Bool) (b : Nat) (ws : List T) :
    ∀ (zs : List T) (a : Seq T) (q : S.σ), Behaves S b a q → Begins a ws → over cs (zs ++ ws) = false →
    ∃ q', Behaves S b (a.drop ws.length) q' ∧
      Stream.reduce acc ((listChain cs zs).foldl acc r0) (⟨some q, opsOf cs zs, hp⟩ : Stream S) =
        after (traceFrom t cs zs ws)
          (Stream.reduce acc ((listChain cs (zs ++ ws)).foldl acc r0) (⟨some q', opsOf cs (zs ++ ws), hp⟩ : Stream S)) := by
  induction ws with
  | nil =>
    intro zs a q hb _ _
    refine ⟨q, hb, ?_⟩
    rw [List.append_nil]
    match Stream.reduce acc ((listChain cs zs).foldl acc r0) (⟨some q, opsOf cs zs, hp⟩ : Stream S) with
    | none => rfl
    | some (.error e) => rfl
    | some (.ok ⟨r, s, l⟩) => rfl
  | cons x ws ih =>
    intro zs a q hb ha ho
    obtain ⟨h0, ha'⟩ := ha.cons
    obtain ⟨q1, l, hn, hb'⟩ := (behaves_describes S).some hb h0
    have hl := hS.log hn
    subst hl
    have he : zs ++ x :: ws = (zs ++ [x]) ++ ws := by simp
    obtain ⟨q2, hb2, h2⟩ := ih (zs ++ [x]) _ q1 hb' ha' (by rw [← he]; exact ho)
    refine ⟨q2, ?_, ?_⟩
    · have : (a.drop 1).drop ws.length = a.drop (x :: ws).length := by
        funext i; simp only [Seq.drop, List.length_cons, Nat.add_assoc]
      rw [← this]; exact hb2
    have ef := effect cs zs x (over_of_append ho)
    rw [he, traceFrom]
    cases hr : runOps (opsOf cs zs) x with
    | stop l' =>
      rw [hr] at ef
      rw [he] at ho
      exact absurd ef.2.2 (by rw [over_of_append ho]; decide)
    | drop ops' l' =>
      rw [hr] at ef
      obtain ⟨rfl, rfl, e3, -⟩ := ef
      rw [reduce_drop hn hr, ← e3, h2, after_after]
    | pass v ops' l' =>
      rw [hr] at ef
      obtain ⟨rfl, rfl, e3, -⟩ := ef
      rw [e3, List.foldl_append, List.foldl_cons, List.foldl_nil] at h2
      rw [reduce_pass hn hr, h2, after_after]

theorem listChain_prefix (cs : List (Call T E)) : ∀ (ys zs : List T), ∃ d, listChain cs (ys ++ zs) = listChain cs ys ++ d := by
  induction cs with
  | nil => intro ys zs; exact ⟨zs, rfl⟩
  | cons c cs ih =>
    intro ys zs
    cases c with
    | map f => simpa [listChain, Call.onList] using ih (ys.map f) (zs.map f)
    | filter p => simpa [listChain, Call.onList] using ih (ys.filter p) (zs.filter p)
    | peek c => exact ih ys zs
    | skip n =>
      simpa only [listChain, Call.onList, List.drop_append] using ih (ys.drop n.toNat) (zs.drop (n.toNat - ys.length))
    | limit n =>
      simpa only [listChain, Call.onList, List.take_append] using ih (ys.take n.toNat) (zs.take (n.toNat - ys.length))

/-- Calls of `Next` that read `ws`, whose last element is delivered. -/
theorem pulls_steps {t : List E} (hS : Steady S t) (cs : List (Call T E)) (hp : Bool) (b : Nat) (ws : List T) :
    ∀ (zs : List T) (a : Seq T) (q : S.σ) (k : Nat), Behaves S b a q → Begins a ws → over cs (zs ++ ws) = false →
    (listChain cs (zs ++ ws)).length = (listChain cs zs).length + k →
    (∀ us vs, ws = us ++ vs → vs ≠ [] → (listChain cs (zs ++ us)).length < (listChain cs zs).length + k) →
    ∃ q', Behaves S b (a.drop ws.length) q' ∧
      pulls k (⟨some q, opsOf cs zs, hp⟩ : Stream S) =
        some (.ok ⟨(listChain cs (zs ++ ws)).drop (listChain cs zs).length, ⟨some q', opsOf cs (zs ++ ws), hp⟩,
          traceFrom t cs zs ws⟩) := by
  induction ws with
  | nil =>
    intro zs a q k hb _ _ hk _
    rw [List.append_nil] at hk ⊢
    have : k = 0 := by omega
    subst this
    exact ⟨q, hb, by rw [List.drop_length]; rfl⟩
  | cons x ws ih =>
    intro zs a q k hb ha ho hk hm
    obtain ⟨h0, ha'⟩ := ha.cons
    obtain ⟨q1, l, hn, hb'⟩ := (behaves_describes S).some hb h0
    have hl := hS.log hn
    subst hl
    have he : zs ++ x :: ws = (zs ++ [x]) ++ ws := by simp
    have hk0 := hm [] (x :: ws) rfl (by simp)
    rw [List.append_nil] at hk0
    obtain ⟨k, rfl⟩ : ∃ k', k = k' + 1 := ⟨k - 1, by omega⟩
    have hd : (a.drop 1).drop ws.length = a.drop (x :: ws).length := by
      funext i; simp only [Seq.drop, List.length_cons, Nat.add_assoc]
    have ef := effect cs zs x (over_of_append ho)
    rw [he] at ho hk ⊢
    rw [traceFrom]
    cases hr : runOps (opsOf cs zs) x with
    | stop l' =>
      rw [hr] at ef
      exact absurd ef.2.2 (by rw [over_of_append ho]; decide)
    | drop ops' l' =>
      rw [hr] at ef
      obtain ⟨rfl, rfl, e3, -⟩ := ef
      obtain ⟨q2, hb2, h2⟩ := ih (zs ++ [x]) _ q1 (k + 1) hb' ha' ho (by rw [e3]; exact hk)
        (by
          intro us vs hw hv
          have := hm (x :: us) vs (by rw [hw]; rfl) hv
          rw [e3]; simpa using this)
      refine ⟨q2, by rw [← hd]; exact hb2, ?_⟩
      rw [pulls_drop hn hr, h2, e3]
      rfl
    | pass v ops' l' =>
      rw [hr] at ef
      obtain ⟨rfl, rfl, e3, -⟩ := ef
      obtain ⟨q2, hb2, h2⟩ := ih (zs ++ [x]) _ q1 k hb' ha' ho (by rw [e3, hk, List.length_append, List.length_singleton]; omega)
        (by
          intro us vs hw hv
          have := hm (x :: us) vs (by rw [hw]; rfl) hv
          rw [e3]; simp at this ⊢; omega)
      refine ⟨q2, by rw [← hd]; exact hb2, ?_⟩
      rw [pulls_pass hn hr h2]
      obtain ⟨d, hd⟩ := listChain_prefix cs (zs ++ [x]) ws
      rw [e3] at hd
      rw [e3, hd]
      simp

/-! ## Endless reading -/

/-- The source never ends and no `Limit` is exceeded. -/
def Endless (cs : List (Call T E)) (zs : List T) (a : Seq T) : Prop :=
  (∀ i, (a i).isSome) ∧ ∀ ws, Begins a ws → over cs (zs ++ ws) = false

theorem Endless.step {cs : List (Call T E)} {zs : List T} {a : Seq T} (h : Endless cs zs a) :
    ∃ x, a 0 = some x ∧ Endless cs (zs ++ [x]) (a.drop 1) := by
  obtain ⟨x, hx⟩ := Option.isSome_iff_exists.1 (h.1 0)
  refine ⟨x, hx, fun i => h.1 _, fun ws hw => ?_⟩
  have := h.2 (x :: ws) (fun i hi => by
    cases i with
    | zero => simpa using hx
    | succ i => simpa [Seq.drop] using hw i (by simpa using hi))
  simpa using this

theorem loop_endless {t : List E} (hS : Steady S t) (cs : List (Call T E)) (b : Nat) (ops : List (Op T E)) (q : S.σ)
    (res : LoopRes S) (h : loop S ops q = some res) : ∀ (zs : List T) (a : Seq T), ops = opsOf cs zs →
    Behaves S b a q → Endless cs zs a →
    ∃ v q' l zs' a', res = .ok (some v, some (q', opsOf cs zs'), l) ∧ Behaves S b a' q' ∧ Endless cs zs' a' ∧
      listChain cs zs' = listChain cs zs ++ [v] ∧
      (∀ k, (∀ ws, Begins a ws → (listChain cs (zs ++ ws)).length < k) →
        ∀ ws, Begins a' ws → (listChain cs (zs' ++ ws)).length < k) := by
  have next : ∀ {zs : List T} {a : Seq T} {q : S.σ}, Behaves S b a q → Endless cs zs a →
      ∃ x q', S.next q = some (.ok ⟨some x, q', t⟩) ∧ Behaves S b (a.drop 1) q' ∧ Endless cs (zs ++ [x]) (a.drop 1) ∧
        Effect cs zs x (runOps (opsOf cs zs) x) ∧
        (∀ k, (∀ ws, Begins a ws → (listChain cs (zs ++ ws)).length < k) →
          ∀ ws, Begins (a.drop 1) ws → (listChain cs ((zs ++ [x]) ++ ws)).length < k) := by
    intro zs a q hb he
    obtain ⟨x, hx, he'⟩ := he.step
    obtain ⟨q', l, hn, hb'⟩ := (behaves_describes S).some hb hx
    have hl := hS.log hn
    subst hl
    have h0 := he.2 [] (fun i hi => by cases hi)
    rw [List.append_nil] at h0
    refine ⟨x, q', hn, hb', he', effect cs zs x h0, fun k hk ws hw => ?_⟩
    have := hk (x :: ws) (fun i hi => by
      cases i with
      | zero => simpa using hx
      | succ i => simpa [Seq.drop] using hw i (by simpa using hi))
    simpa using this
  revert h
  revert ops q res
  apply loop_induct
  · intro ops q e hn zs a ho hb he
    obtain ⟨x, q', h1, -⟩ := next hb he
    rw [hn] at h1; cases h1
  · intro ops q q' l hn zs a ho hb he
    obtain ⟨x, q', h1, -⟩ := next hb he
    rw [hn] at h1; cases h1
  · intro ops q v q' l v' ops' l' hn hr zs a ho hb he
    obtain ⟨x, q1, h1, hb', he', ef, hk⟩ := next hb he
    rw [hn] at h1; cases h1
    rw [← ho, hr] at ef
    obtain ⟨rfl, rfl, e3, -⟩ := ef
    exact ⟨v', q', _, _, _, rfl, hb', he', e3, hk⟩
  · intro ops q v q' l l' hn hr zs a ho hb he
    obtain ⟨x, q1, h1, hb', he', ef, -⟩ := next hb he
    rw [hn] at h1; cases h1
    rw [← ho, hr] at ef
    have := he'.2 [] (fun i hi => by cases hi)
    rw [List.append_nil, ef.2.2] at this
    cases this
  · intro ops q v q' l ops' l' e hn hr ih zs a ho hb he
    obtain ⟨x, q1, h1, hb', he', ef, -⟩ := next hb he
    rw [hn] at h1; cases h1
    rw [← ho, hr] at ef
    obtain ⟨v, q2, l, zs', a', h, -⟩ := ih _ _ ef.1 hb' he'
    cases h
  · intro ops q v q' l ops' l' r st l'' hn hr ih zs a ho hb he
    obtain ⟨x, q1, h1, hb', he', ef, hk⟩ := next hb he
    rw [hn] at h1; cases h1
    rw [← ho, hr] at ef
    obtain ⟨v, q2, l, zs', a', h, g1, g2, g3, g4⟩ := ih _ _ ef.1 hb' he'
    cases h
    exact ⟨v, q2, _, zs', a', rfl, g1, g2, by rw [g3, ef.2.2.1], fun k h => g4 k (hk k h)⟩

theorem reduce_endless {t : List E} (hS : Steady S t) (cs : List (Call T E)) (b : Nat) (r : A) (s : Stream S)
    (zs : List T) (a : Seq T) (q : S.σ) (hq : s.src = some q) (ho : s.ops = opsOf cs zs) (hb : Behaves S b a q)
    (he : Endless cs zs a) : s.reduce acc r = none := by
  cases hr : s.reduce acc r with
  | none => rfl
  | some res =>
    refine (Stream.reduce.partial_correctness acc (fun _ s _ => ∀ (zs : List T) (a : Seq T) (q : S.σ), s.src = some q →
      s.ops = opsOf cs zs → Behaves S b a q → Endless cs zs a → False) ?_ r s res hr zs a q hq ho hb he).elim
    intro red ih r s res hres zs a q hq ho hb he
    cases hl : loop S s.ops q with
    | none =>
      have : s.next = none := by simp [Stream.next, hq, hl]
      rw [this] at hres; cases hres
    | some res' =>
      obtain ⟨v, q', l, zs', a', rfl, g1, g2, -⟩ := loop_endless hS cs b _ _ _ hl zs a ho hb he
      rw [next_of_loop_some hq hl] at hres
      dsimp only [Option.bind_eq_bind, Option.bind_some] at hres
      cases hr : red (acc r v) ⟨some q', opsOf cs zs', s.hasPred⟩ with
      | none => rw [hr] at hres; cases hres
      | some x => exact ih _ _ _ hr zs' a' q' rfl rfl g1 g2

theorem pulls_endless {t : List E} (hS : Steady S t) (cs : List (Call T E)) (b : Nat) : ∀ (k : Nat) (s : Stream S)
    (zs : List T) (a : Seq T) (q : S.σ), s.src = some q → s.ops = opsOf cs zs → Behaves S b a q → Endless cs zs a →
    (∀ ws, Begins a ws → (listChain cs (zs ++ ws)).length < (listChain cs zs).length + k) → pulls k s = none := by
  intro k
  induction k with
  | zero =>
    intro s zs a q _ _ _ _ hk
    have := hk [] (fun i hi => by cases hi)
    simp at this
  | succ k ih =>
    intro s zs a q hq ho hb he hk
    cases hl : loop S s.ops q with
    | none =>
      have : s.next = none := by simp [Stream.next, hq, hl]
      simp [pulls, this]
    | some res' =>
      obtain ⟨v, q', l, zs', a', rfl, g1, g2, g3, g4⟩ := loop_endless hS cs b _ _ _ hl zs a ho hb he
      have := ih ⟨some q', opsOf cs zs', s.hasPred⟩ zs' a' q' rfl rfl g1 g2 (by
        intro ws hw
        have := g4 _ hk ws hw
        rw [g3]; simp; omega)
      simp only [pulls, next_of_loop_some hq hl, Option.bind_eq_bind, Option.bind_some, this]
      rfl

/-! ## Building the chain -/

theorem chain_pred (cs : List (Call T E)) (hl : ∀ c ∈ cs, c.legal) : ∀ (s : Stream S), s.hasPred = true →
    s.chain cs = .ok ⟨s.src, s.ops ++ opsOf cs [], true⟩ := by
  induction cs with
  | nil => intro s h; cases s; cases h; simp [Stream.chain, opsOf]
  | cons c cs ih =>
    intro s h
    have ih := ih (fun c hc => hl c (List.mem_cons_of_mem _ hc))
    have hc := hl c (List.mem_cons_self ..)
    cases c with
    | map f => simp only [Stream.chain, Stream.call]; rw [ih (s.map f) h]; simp [opsOf, Stream.map]
    | peek f => simp only [Stream.chain, Stream.call]; rw [ih (s.peek f) h]; simp [opsOf, Stream.peek]
    | filter f => simp only [Stream.chain, Stream.call]; rw [ih _ rfl]; simp [opsOf, Stream.filter]
    | limit n =>
      have hn : 0 ≤ n := hc
      simp only [Stream.chain, Stream.call, Stream.limit, if_neg (show ¬ n < 0 by omega)]
      rw [ih _ rfl]; simp [opsOf]
    | skip n =>
      have hn : 0 ≤ n := hc
      simp only [Stream.chain, Stream.call, Stream.skip, if_neg (show ¬ n < 0 by omega), h]
      by_cases h0 : n = 0
      · rw [if_pos h0]; dsimp only; rw [ih _ h]; simp [opsOf, h0]
      · rw [if_neg h0]
        simp only [Bool.not_true, Bool.false_eq_true, if_false]
        rw [ih _ rfl]
        simp [opsOf, show ¬ n ≤ 0 by omega]

theorem chain_start (cs : List (Call T E)) (hl : ∀ c ∈ cs, c.legal) : ∀ (b : Nat) (a : Seq T) (q : S.σ) (ops : List (Op T E)),
    Behaves S b a q → pushed cs ≤ b →
    ∃ q' hp, (⟨some q, ops, false⟩ : Stream S).chain cs = .ok ⟨some q', ops ++ opsOf (kept cs) [], hp⟩ ∧
      Behaves S (b - pushed cs) (a.drop (pushed cs)) q' := by
  induction cs with
  | nil => intro b a q ops hb _; exact ⟨q, false, by simp [Stream.chain, kept, opsOf], hb⟩
  | cons c cs ih =>
    intro b a q ops hb hk
    have hl' : ∀ c ∈ cs, c.legal := fun c hc => hl c (List.mem_cons_of_mem _ hc)
    have ih := ih hl'
    have hc := hl c (List.mem_cons_self ..)
    cases c with
    | map f =>
      obtain ⟨q', hp, h1, h2⟩ := ih b a q (ops ++ [.map f]) hb hk
      exact ⟨q', hp, by simp only [Stream.chain, Stream.call, Stream.map]; rw [h1]; simp [kept, opsOf], h2⟩
    | peek f =>
      obtain ⟨q', hp, h1, h2⟩ := ih b a q (ops ++ [.peek f]) hb hk
      exact ⟨q', hp, by simp only [Stream.chain, Stream.call, Stream.peek]; rw [h1]; simp [kept, opsOf], h2⟩
    | filter f =>
      refine ⟨q, true, ?_, hb⟩
      simp only [Stream.chain, Stream.call]
      rw [chain_pred cs hl' _ rfl]; simp [opsOf, Stream.filter, kept]
    | limit n =>
      have hn : 0 ≤ n := hc
      refine ⟨q, true, ?_, hb⟩
      simp only [Stream.chain, Stream.call, Stream.limit, if_neg (show ¬ n < 0 by omega)]
      rw [chain_pred cs hl' _ rfl]; simp [opsOf, kept]
    | skip n =>
      have hn : 0 ≤ n := hc
      simp only [pushed] at hk ⊢
      simp only [Stream.chain, Stream.call, Stream.skip, if_neg (show ¬ n < 0 by omega), kept]
      by_cases h0 : n = 0
      · subst h0
        rw [if_pos rfl]
        simpa using ih b a q ops hb (by simpa using hk)
      · rw [if_neg h0]
        obtain ⟨r, q1, h1, h2⟩ := (behaves_describes S).skip hb (n := n.toNat) (by omega)
        rw [Int.toNat_of_nonneg hn] at h1
        obtain ⟨q', hp, h3, h4⟩ := ih (b - n.toNat) _ q1 ops h2 (by omega)
        refine ⟨q', hp, ?_, ?_⟩
        · simp only [Bool.not_false, if_true, h1]
          exact h3
        · have e : (a.drop n.toNat).drop (pushed cs) = a.drop (n.toNat + pushed cs) := by
            funext i; simp only [Seq.drop]; congr 1; omega
          rw [← e, ← Nat.sub_sub]
          exact h4

theorem listChain_kept (cs : List (Call T E)) : ∀ xs, listChain (kept cs) (xs.drop (pushed cs)) = listChain cs xs := by
  induction cs with
  | nil => intro xs; rfl
  | cons c cs ih =>
    intro xs
    cases c with
    | map f => simp only [kept, pushed, listChain, Call.onList, List.map_drop, ih]
    | peek c => simp only [kept, pushed, listChain, Call.onList, ih]
    | filter p => rfl
    | limit n => rfl
    | skip n => simp only [kept, pushed, listChain, Call.onList, ← ih, List.drop_drop]

/-! ## The theorems -/

theorem first_length (a : Seq T) (n : Nat) (h : ∀ i, i < n → (a i).isSome) : (first a n).length = n := by
  induction n with
  | zero => rfl
  | succ n ih =>
    obtain ⟨x, hx⟩ := Option.isSome_iff_exists.1 (h n (by omega))
    rw [first, hx]
    simp [ih (fun i hi => h i (by omega))]

theorem begins_first (a : Seq T) (n : Nat) (h : ∀ i, i < n → (a i).isSome) : Begins a (first a n) := by
  induction n with
  | zero => intro i hi; cases hi
  | succ n ih =>
    have ih := ih (fun i hi => h i (by omega))
    have hn := first_length a n (fun i hi => h i (by omega))
    obtain ⟨x, hx⟩ := Option.isSome_iff_exists.1 (h n (by omega))
    intro i hi
    rw [first, hx] at hi ⊢
    simp [hn] at hi
    by_cases hin : i < n
    · rw [ih i (by omega), Option.toList_some, List.getElem?_append_left (by omega)]
    · have : i = n := by omega
      subst this
      rw [hx, Option.toList_some, List.getElem?_append_right (by omega)]; simp [hn]

theorem begins_eq {a : Seq T} {ws : List T} (h : Begins a ws) : ws = first a ws.length := by
  have hs : ∀ i, i < ws.length → (a i).isSome := fun i hi => by rw [h i hi]; simp [hi]
  apply List.ext_getElem?
  intro i
  by_cases hi : i < ws.length
  · rw [← h i hi, begins_first a _ hs i (by rw [first_length a _ hs]; exact hi)]
  · rw [List.getElem?_eq_none (by omega), List.getElem?_eq_none (by rw [first_length a _ hs]; omega)]

theorem first_append (a : Seq T) (m n : Nat) (h : m ≤ n) : ∃ vs, first a n = first a m ++ vs := by
  induction n with
  | zero => have : m = 0 := by omega
            subst this; exact ⟨[], rfl⟩
  | succ n ih =>
    by_cases hm : m = n + 1
    · subst hm; exact ⟨[], by simp⟩
    · obtain ⟨vs, hv⟩ := ih (by omega)
      exact ⟨vs ++ (a n).toList, by rw [first, hv]; simp⟩

theorem snoc_foldl (xs ys : List T) : xs.foldl (fun r v => r ++ [v]) ys = ys ++ xs := by
  induction xs generalizing ys with
  | nil => simp
  | cons x xs ih => simp [ih]

theorem listChain_nil (cs : List (Call T E)) : listChain cs [] = [] := by
  induction cs with
  | nil => rfl
  | cons c cs ih => cases c <;> simpa [listChain, Call.onList] using ih

theorem behaves_down {b : Nat} (i : Nat) : ∀ {a : Seq T} {q : S.σ} {n : Nat}, Behaves S b a q → (a n).isSome → i ≤ n →
    (a i).isSome := by
  induction i with
  | zero =>
    intro a q n hb hn _
    cases h : a 0 with
    | some x => rfl
    | none => rw [((behaves_describes S).none hb h).1 n] at hn; cases hn
  | succ i ih =>
    intro a q n hb hn hi
    cases h : a 0 with
    | none => rw [((behaves_describes S).none hb h).1 n] at hn; cases hn
    | some x =>
      obtain ⟨q', l, -, hb'⟩ := (behaves_describes S).some hb h
      exact ih (n := n - 1) hb' (by unfold Seq.drop; rw [show n - 1 + 1 = n by omega]; exact hn) (by omega)

/-- Reading to the end of a finite source, if no `Limit` ends the stream before: all elements are read, once each, and
then the end. -/
theorem C113_to_the_end {t : List E} (hS : Steady S t) {b : Nat} {xs : List T} {q : S.σ}
    (hb : Behaves S b (seqOf xs) q) (cs : List (Call T E)) (hl : ∀ c ∈ cs, c.legal) (hk : pushed cs ≤ b)
    (ho : over (kept cs) (xs.drop (pushed cs)) = false) :
    ∃ s s', (new S q).chain cs = .ok s ∧ Finished s' ∧
      s.slice = some (.ok ⟨listChain cs xs, s', trace t (kept cs) (xs.drop (pushed cs)) ++ t⟩) := by
  obtain ⟨q', hp, h1, h2⟩ := chain_start cs hl b _ q [] hb hk
  rw [seqOf_drop] at h2
  obtain ⟨q2, h3, h4⟩ := reduce_steps (acc := fun r v => r ++ [v]) hS (kept cs) [] hp _ (xs.drop (pushed cs)) [] _ q' h2
    (fun i hi => rfl) ho
  rw [seqOf_drop, List.drop_length] at h3
  obtain ⟨q3, l, h5⟩ := h3.nil
  have hlog := hS.log h5
  subst hlog
  refine ⟨_, ⟨none, [], hp⟩, h1, rfl, ?_⟩
  show Stream.reduce _ _ _ = _
  rw [listChain_nil, List.foldl_nil, List.nil_append] at h4
  rw [List.nil_append, h4, reduce_end h5, snoc_foldl, List.nil_append, listChain_kept, ← trace_eq]
  rfl

/-- Reading to the end when element `n + 1` is the first that is one too many for some `Limit`: exactly `n + 1`
elements are read, whatever the source has more. -/
theorem C113_to_the_limit {t : List E} (hS : Steady S t) {b : Nat} {a : Seq T} {q : S.σ}
    (hb : Behaves S b a q) (cs : List (Call T E)) (hl : ∀ c ∈ cs, c.legal) (hk : pushed cs ≤ b) (n : Nat)
    (h0 : over (kept cs) (first (a.drop (pushed cs)) n) = false)
    (h1 : over (kept cs) (first (a.drop (pushed cs)) (n + 1)) = true) :
    ∃ s s', (new S q).chain cs = .ok s ∧ Finished s' ∧
      s.slice = some (.ok ⟨listChain (kept cs) (first (a.drop (pushed cs)) (n + 1)), s',
        trace t (kept cs) (first (a.drop (pushed cs)) (n + 1))⟩) := by
  obtain ⟨q', hp, h2, h3⟩ := chain_start cs hl b _ q [] hb hk
  generalize a.drop (pushed cs) = a at *
  generalize kept cs = cs at *
  obtain ⟨x, hx⟩ : ∃ x, a n = some x := by
    cases hx : a n with
    | some x => exact ⟨x, rfl⟩
    | none =>
      rw [first, hx] at h1
      simp [h0] at h1
  have hs : ∀ i, i < n → (a i).isSome := fun i hi =>
    behaves_down i h3 (n := n) (by rw [hx]; rfl) (by omega)
  have hlen := first_length a n hs
  obtain ⟨q2, h4, h5⟩ := reduce_steps (acc := fun r v => r ++ [v]) hS cs [] hp _ (first a n) [] _ q' h3
    (begins_first a n hs) h0
  obtain ⟨q3, l, h6, -⟩ := (behaves_describes S).some h4 (x := x) (by
    show a (0 + (first a n).length) = _
    rw [hlen, Nat.zero_add, hx])
  have hlog := hS.log h6
  subst hlog
  rw [listChain_nil, List.foldl_nil, List.nil_append] at h5
  have ef := effect cs (first a n) x h0
  have hf : first a (n + 1) = first a n ++ [x] := by rw [first, hx]; rfl
  rw [hf] at h1 ⊢
  cases hr : runOps (opsOf cs (first a n)) x with
  | pass v o l => rw [hr] at ef; exact absurd h1 (by rw [ef.2.2.2]; decide)
  | drop o l => rw [hr] at ef; exact absurd h1 (by rw [ef.2.2.2]; decide)
  | stop l' =>
    rw [hr] at ef
    obtain ⟨rfl, e2, -⟩ := ef
    refine ⟨_, ⟨none, [], hp⟩, h2, rfl, ?_⟩
    show Stream.reduce _ _ _ = _
    rw [List.nil_append, h5, reduce_stop h6 hr, snoc_foldl, e2, trace_eq, traceFrom_append]
    simp [after, traceFrom]

/-- Reading to the end never returns if the source has no end and no `Limit` is exceeded. -/
theorem C113_forever {t : List E} (hS : Steady S t) {b : Nat} {a : Seq T} {q : S.σ}
    (hb : Behaves S b a q) (cs : List (Call T E)) (hl : ∀ c ∈ cs, c.legal) (hk : pushed cs ≤ b)
    (ha : ∀ i, (a i).isSome) (h0 : ∀ n, over (kept cs) (first (a.drop (pushed cs)) n) = false) :
    ∃ s, (new S q).chain cs = .ok s ∧ s.slice = none := by
  obtain ⟨q', hp, h1, h2⟩ := chain_start cs hl b _ q [] hb hk
  refine ⟨_, h1, reduce_endless hS (kept cs) _ _ _ [] _ q' rfl rfl h2 ⟨fun i => ha _, fun ws hw => ?_⟩⟩
  rw [begins_eq hw]
  exact h0 _

/-- Over a source without end, reading to the end returns exactly if some `Limit` is exceeded by some first part of the
source. -/
theorem C113_returns_iff {t : List E} (hS : Steady S t) {b : Nat} {a : Seq T} {q : S.σ}
    (hb : Behaves S b a q) (cs : List (Call T E)) (hl : ∀ c ∈ cs, c.legal) (hk : pushed cs ≤ b)
    (ha : ∀ i, (a i).isSome) {s : Stream S} (hs : (new S q).chain cs = .ok s) :
    s.slice.isSome ↔ ∃ n, over (kept cs) (first (a.drop (pushed cs)) n) = true := by
  constructor
  · intro h
    apply Classical.byContradiction
    intro hn
    obtain ⟨s', h1, h2⟩ := C113_forever hS hb cs hl hk ha (fun n => by
      cases ho : over (kept cs) (first (a.drop (pushed cs)) n) with
      | false => rfl
      | true => exact absurd ⟨n, ho⟩ hn)
    rw [hs] at h1; cases h1
    rw [h2] at h; cases h
  · rintro ⟨n, hn⟩
    have least : ∀ n, over (kept cs) (first (a.drop (pushed cs)) n) = true →
        ∃ m, over (kept cs) (first (a.drop (pushed cs)) m) = false ∧
          over (kept cs) (first (a.drop (pushed cs)) (m + 1)) = true := by
      intro n
      induction n with
      | zero =>
        intro h
        have e : ∀ cs : List (Call T E), over cs [] = false := by
          intro cs
          induction cs with
          | nil => rfl
          | cons c cs ih => cases c <;> simpa [over, Call.onList] using ih
        rw [first, e] at h; cases h
      | succ n ih =>
        intro h
        cases ho : over (kept cs) (first (a.drop (pushed cs)) n) with
        | true => exact ih ho
        | false => exact ⟨n, ho, h⟩
    obtain ⟨m, h0, h1⟩ := least n hn
    obtain ⟨s', s'', h2, -, h3⟩ := C113_to_the_limit hS hb cs hl hk m h0 h1
    rw [hs] at h2; cases h2
    rw [h3]; rfl

/-- Taking `k` elements reads exactly the `n` elements of which the last is the first that makes `k` come through. -/
theorem C113_lazy {t : List E} (hS : Steady S t) {b : Nat} {a : Seq T} {q : S.σ}
    (hb : Behaves S b a q) (cs : List (Call T E)) (hl : ∀ c ∈ cs, c.legal) (hk : pushed cs ≤ b) (k n : Nat)
    (h0 : over (kept cs) (first (a.drop (pushed cs)) n) = false)
    (hn : (listChain (kept cs) (first (a.drop (pushed cs)) n)).length = k)
    (hm : ∀ m, m < n → (listChain (kept cs) (first (a.drop (pushed cs)) m)).length < k) :
    ∃ s s', (new S q).chain cs = .ok s ∧
      pulls k s = some (.ok ⟨listChain (kept cs) (first (a.drop (pushed cs)) n), s',
        trace t (kept cs) (first (a.drop (pushed cs)) n)⟩) := by
  obtain ⟨q', hp, h1, h2⟩ := chain_start cs hl b _ q [] hb hk
  generalize a.drop (pushed cs) = a at *
  generalize kept cs = cs at *
  have hs : ∀ i, i < n → (a i).isSome := by
    intro i hi
    refine behaves_down i h2 (n := n - 1) ?_ (by omega)
    cases hx : a (n - 1) with
    | some x => rfl
    | none =>
      exfalso
      have := hm (n - 1) (by omega)
      obtain ⟨n, rfl⟩ : ∃ m, n = m + 1 := ⟨n - 1, by omega⟩
      rw [Nat.add_sub_cancel] at hx this
      rw [first, hx] at hn
      simp at hn
      omega
  obtain ⟨q2, -, h4⟩ := pulls_steps hS cs hp _ (first a n) [] _ q' k h2 (begins_first a n hs) h0
    (by rw [listChain_nil, List.nil_append]; simpa using hn)
    (by
      intro us vs hu hv
      rw [listChain_nil, List.nil_append]
      have hlen := first_length a n hs
      have hul : us.length < n := by
        rw [hu, List.length_append] at hlen
        have := List.length_pos_iff.2 hv
        omega
      have hb : Begins a us := by
        intro i hi
        have := begins_first a n hs i (by rw [hlen]; omega)
        rw [this, hu, List.getElem?_append_left hi]
      rw [begins_eq hb]
      simpa using hm _ hul)
  refine ⟨_, ⟨some q2, opsOf cs (first a n), hp⟩, h1, ?_⟩
  rw [listChain_nil] at h4
  rw [List.nil_append, trace_eq]
  exact h4

/-- Taking `k` elements never returns if the source has no end, fewer than `k` come through and no `Limit` is
exceeded. -/
theorem C113_lazy_forever {t : List E} (hS : Steady S t) {b : Nat} {a : Seq T} {q : S.σ}
    (hb : Behaves S b a q) (cs : List (Call T E)) (hl : ∀ c ∈ cs, c.legal) (hk : pushed cs ≤ b) (k : Nat)
    (ha : ∀ i, (a i).isSome) (h0 : ∀ n, over (kept cs) (first (a.drop (pushed cs)) n) = false)
    (hn : ∀ n, (listChain (kept cs) (first (a.drop (pushed cs)) n)).length < k) :
    ∃ s, (new S q).chain cs = .ok s ∧ pulls k s = none := by
  obtain ⟨q', hp, h1, h2⟩ := chain_start cs hl b _ q [] hb hk
  refine ⟨_, h1, pulls_endless hS (kept cs) _ _ _ [] _ q' rfl rfl h2 ⟨fun i => ha _, fun ws hw => ?_⟩ fun ws hw => ?_⟩
  · rw [begins_eq hw]; exact h0 _
  · rw [begins_eq hw]; exact Nat.lt_of_lt_of_le (hn _) (Nat.le_add_left ..)

/-! ## One consumer -/

theorem events_quiet {cs : List (Call T E)} (h : ∀ c ∈ cs, c.quiet) : ∀ old new, events cs old new = [] := by
  induction cs with
  | nil => intro old new; rfl
  | cons c cs ih =>
    intro old new
    have ih := ih (fun c hc => h c (List.mem_cons_of_mem _ hc))
    cases c with
    | peek c =>
      have hc : ∀ v, c v = [] := h (.peek c) (List.mem_cons_self ..)
      simp [events, ih, hc]
    | _ => exact ih _ _

theorem events_one {pre post : List (Call T E)} (c : T → List E) (h1 : ∀ c ∈ pre, c.quiet) (h2 : ∀ c ∈ post, c.quiet) :
    ∀ old new, events (pre ++ .peek c :: post) old new =
      ((listChain pre new).drop (listChain pre old).length).flatMap c := by
  induction pre with
  | nil => intro old new; simp [events, events_quiet h2, listChain]
  | cons d pre ih =>
    intro old new
    have ih := ih (fun c hc => h1 c (List.mem_cons_of_mem _ hc))
    cases d with
    | peek d =>
      have hd : ∀ v, d v = [] := h1 (.peek d) (List.mem_cons_self ..)
      simp [events, ih, hd, listChain, Call.onList]
    | _ => exact ih _ _

/-- If only one consumer in the chain has events, these are its calls on all that comes to it of what is read. With the
theorems above this is which elements a `Peek` sees, whatever follows it. -/
theorem C113_peek {pre post : List (Call T E)} (c : T → List E) (h1 : ∀ c ∈ pre, c.quiet) (h2 : ∀ c ∈ post, c.quiet)
    (ys : List T) : trace [] (pre ++ .peek c :: post) ys = (listChain pre ys).flatMap c := by
  have main : ∀ (ws zs : List T), (listChain pre zs).flatMap c ++ traceFrom [] (pre ++ .peek c :: post) zs ws =
      (listChain pre (zs ++ ws)).flatMap c := by
    intro ws
    induction ws with
    | nil => intro zs; simp [traceFrom]
    | cons x ws ih =>
      intro zs
      obtain ⟨d, hd⟩ := listChain_prefix pre zs [x]
      have := ih (zs ++ [x])
      rw [List.append_assoc, List.singleton_append] at this
      rw [← this, traceFrom, events_one c h1 h2, hd]
      simp
  have := main ys []
  rw [listChain_nil] at this
  rw [trace_eq]
  simpa using this

/-! `Peek` then `Limit(1)` over 5, 6, 7: the consumer sees 5 and 6. -/
example : over (E := Nat) [.peek fun v => [v], .limit 1] [5] = false ∧
    over (E := Nat) [.peek fun v => [v], .limit 1] [5, 6] = true ∧
    trace [] [.peek fun v => [v], .limit 1] [5, 6] = [5, 6] := by decide

/-! ## Sources with a visible `Next` -/

/-- The source `S`, with the event `t` for every call of its `Next` and no others. -/
def loud (t : E) (S : Source T E) : Source T E where
  σ := S.σ
  next q :=
    match S.next q with
    | none => none
    | some (.error e) => some (.error e)
    | some (.ok ⟨v, q', _⟩) => some (.ok ⟨v, q', [t]⟩)
  skip := S.skip

/-- The theorems apply to it. -/
theorem loud_steady (t : E) (S : Source T E) : Steady (loud t S) [t] := by
  intro q r h
  simp only [loud] at h
  split at h
  · cases h
  · cases h
  · cases h; rfl

theorem loud_behaves (t : E) {b : Nat} {a : Seq T} {q : S.σ} (h : Behaves S b a q) : Behaves (loud t S) b a q := by
  obtain ⟨P, hP, h⟩ := h
  refine ⟨P, ⟨?_, ?_, hP.skip⟩, h⟩
  · intro b a q x h hx
    obtain ⟨q', l, h1, h2⟩ := hP.some h hx
    exact ⟨q', [t], by simp only [loud]; rw [h1], h2⟩
  · intro b a q h hx
    obtain ⟨h0, q', l, h1⟩ := hP.none h hx
    exact ⟨h0, q', [t], by simp only [loud]; rw [h1]⟩

/-- Sources that are not streams have no events of their own. -/
theorem silent_steady (h : Silent S) : Steady S [] := h

/-! `Of(1, 2, 3, 4, 5, 6).Skip(1).Peek(c).Filter(even).Peek(d).Limit(1)` reads 2, 3 and 4 (0 is a read, `10 + x` is
`c(x)`, `20 + x` is `d(x)`) and delivers 2. -/

/-- The chain. -/
def demo : List (Call Nat Nat) :=
  [.skip 1, .peek fun x => [10 + x], .filter (· % 2 == 0), .peek fun x => [20 + x], .limit 1]

example : ∃ s s', (new (loud 0 (sliceSource Nat [1, 2, 3, 4, 5, 6])) (0 : Int)).chain demo = .ok s ∧ Finished s' ∧
    s.slice = some (.ok ⟨[2], s', [0, 12, 22, 0, 13, 0, 14, 24]⟩) :=
  C113_to_the_limit (loud_steady _ _) (loud_behaves 0 (slice_behaves Nat [1, 2, 3, 4, 5, 6] 0 1 (by decide) (by decide)))
    demo (by intro c hc; simp [demo] at hc; rcases hc with rfl | rfl | rfl | rfl | rfl <;> simp [Call.legal]) (by decide) 2
    (by decide) (by decide)

/-! The first element of it costs one read. -/

example : ∃ s s', (new (loud 0 (sliceSource Nat [1, 2, 3, 4, 5, 6])) (0 : Int)).chain demo = .ok s ∧
    pulls 1 s = some (.ok ⟨[2], s', [0, 12, 22]⟩) :=
  C113_lazy (loud_steady _ _) (loud_behaves 0 (slice_behaves Nat [1, 2, 3, 4, 5, 6] 0 1 (by decide) (by decide)))
    demo (by intro c hc; simp [demo] at hc; rcases hc with rfl | rfl | rfl | rfl | rfl <;> simp [Call.legal]) (by decide) 1 1
    (by decide) (by decide) (by intro m hm; cases (show m = 0 by omega); decide)

/-! Without the `Limit` everything is read, and the end. -/

example : ∃ s s', (new (loud 0 (sliceSource Nat [1, 2, 3])) (0 : Int)).chain (demo.take 4) = .ok s ∧ Finished s' ∧
    s.slice = some (.ok ⟨[2], s', [0, 12, 22, 0, 13, 0]⟩) :=
  C113_to_the_end (loud_steady _ _) (loud_behaves 0 (slice_behaves Nat [1, 2, 3] 0 1 (by decide) (by decide)))
    (demo.take 4) (by intro c hc; simp [demo] at hc; rcases hc with rfl | rfl | rfl | rfl <;> simp [Call.legal]) (by decide)
    (by decide)

/-- An endless source. -/
abbrev nats : Source Nat Nat := generator Nat fun n : Nat => (n, n + 1)

theorem nats_behaves (b : Nat) : Behaves nats b (fun i => some i) (0 : Nat) := by
  have h := generator_behaves Nat (fun n : Nat => (n, n + 1)) 0 b
  have e : ∀ i k, callN (fun n : Nat => (n, n + 1)) i k = k + i := by
    intro i
    induction i with
    | zero => intro k; rfl
    | succ i ih => intro k; rw [callN, ih]; simp; omega
  have e' : genSeq (fun n : Nat => (n, n + 1)) 0 = fun i => some i := by
    funext i; simp only [genSeq, e, Nat.zero_add]
  rw [e'] at h
  exact h

/-! `Next` behind a filter that nothing passes. -/

example : ∃ s, (new nats (0 : Nat)).chain [.filter fun _ => false] = .ok s ∧ pulls 1 s = none := by
  have z : ∀ xs : List Nat, xs.filter (fun _ => false) = [] := by intro xs; simp
  refine C113_lazy_forever (t := []) (silent_steady ?_) (nats_behaves 0) [.filter fun _ => false] ?_ (by decide) 1
    (fun _ => rfl) (fun n => ?_) (fun n => ?_)
  · intro q r h; cases h; rfl
  · intro c hc; simp at hc; subst hc; trivial
  · simp [kept, over]
  · simp [kept, pushed, listChain, Call.onList]

/-! Two elements greater than 10, limited to two, need a third. -/

example : ∃ s s', (new (loud 0 nats) (0 : Nat)).chain [.filter (10 < ·), .limit 2] = .ok s ∧ Finished s' ∧
    s.slice = some (.ok ⟨[11, 12], s', List.replicate 14 0⟩) :=
  C113_to_the_limit (loud_steady _ _) (loud_behaves 0 (nats_behaves 0)) [.filter (10 < ·), .limit 2]
    (by intro c hc; simp at hc; rcases hc with rfl | rfl <;> simp [Call.legal]) (by decide) 13 (by decide) (by decide)

end Verif.Stream.Exact
