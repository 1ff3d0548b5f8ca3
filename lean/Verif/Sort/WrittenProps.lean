import Verif.Sort.WrittenSim
import Verif.Sort.More

/-!
# `sort_any.go` as written does what the common model does
-/

set_option linter.unusedSectionVars false

namespace Verif.Sort.Written

open Verif.Sort

variable {σ E : Type} [Inhabited E] {less : σ → E → E → Go Bool × σ} {α β : Type}

/-- Run a decision tree with the comparator in state `s`: a result, or the panic of the comparator with the slice as
it is then, and the state of the comparator; `none` if the tree itself fails. -/
def ev (less : σ → E → E → Go Bool × σ) : σ → Prog E α → Option (Except (String × List E) α × σ)
  | s, .ret a => some (.ok a, s)
  | _, .fail _ => none
  | s, .note _ p => ev less s p
  | s, .ask .lt x y d next =>
    match (less s x y).1 with
    | .ok b => ev less (less s x y).2 (next b)
    | .error e => some (.error (e, d), (less s x y).2)
  | s, .ask .nlt x y d next =>
    match (less s x y).1 with
    | .ok b => ev less (less s x y).2 (next !b)
    | .error e => some (.error (e, d), (less s x y).2)

theorem ev_runP (p : Prog E α) (s : σ) :
    (∀ a s', ev less s p = some (.ok a, s') → p.runP (ofPanicking less) s = .done a) ∧
    (∀ e d s', ev less s p = some (.error (e, d), s') → p.runP (ofPanicking less) s = .panicked e d) ∧
    (ev less s p = none → ∃ msg, p.runP (ofPanicking less) s = .crashed msg) := by
  induction p generalizing s with
  | ret b =>
    refine ⟨fun a s' h => ?_, fun e d s' h => ?_, fun h => ?_⟩
    · cases h; rfl
    · cases h
    · cases h
  | fail msg => exact ⟨fun _ _ h => (by cases h), fun _ _ _ h => (by cases h), fun _ => ⟨msg, rfl⟩⟩
  | note e p ih => exact ih s
  | ask k x y d next ih =>
    cases k with
    | lt =>
      cases e : (less s x y).1 with
      | ok b =>
        simp only [ev, Prog.runP, ofPanicking, e]
        exact ih b _
      | error m =>
        simp only [ev, Prog.runP, ofPanicking, e]
        refine ⟨fun a s' h => ?_, fun m' d' s' h => ?_, fun h => ?_⟩
        · cases h
        · cases h; rfl
        · cases h
    | nlt =>
      cases e : (less s x y).1 with
      | ok b =>
        simp only [ev, Prog.runP, ofPanicking, e, Except.map]
        exact ih (!b) _
      | error m =>
        simp only [ev, Prog.runP, ofPanicking, e, Except.map]
        refine ⟨fun a s' h => ?_, fun m' d' s' h => ?_, fun h => ?_⟩
        · cases h
        · cases h; rfl
        · cases h

theorem ev_leaf {p : Prog E α} {x : α} {s s' : σ} (hx : ev less s p = some (.ok x, s')) : Leaf p x := by
  induction p generalizing s with
  | ret a => cases hx; exact .ret _
  | fail msg => cases hx
  | note e p ih => exact .note (ih hx)
  | ask k a b d next ih =>
    cases k with
    | lt =>
      simp only [ev] at hx
      split at hx
      · exact .ask _ (ih _ hx)
      · cases hx
    | nlt =>
      simp only [ev] at hx
      split at hx
      · exact .ask _ (ih _ hx)
      · cases hx

/-- Sequencing of results. -/
def andThen (r : Option (Except (String × List E) α × σ)) (f : σ → α → Option (Except (String × List E) β × σ)) :
    Option (Except (String × List E) β × σ) :=
  match r with
  | none => none
  | some (.error e, s) => some (.error e, s)
  | some (.ok a, s) => f s a

theorem ev_bind (p : Prog E α) (f : α → Prog E β) (s : σ) :
    ev less s (p.bind f) = andThen (ev less s p) fun s' a => ev less s' (f a) := by
  induction p generalizing s with
  | ret a => rfl
  | fail msg => rfl
  | note e p ih => exact ih s
  | ask k x y d next ih =>
    cases k with
    | lt =>
      simp only [Prog.bind, ev]
      cases (less s x y).1 with
      | ok b => exact ih b _
      | error m => rfl
    | nlt =>
      simp only [Prog.bind, ev]
      cases (less s x y).1 with
      | ok b => exact ih (!b) _
      | error m => rfl

/-- The model's program, run on `d`, returns `x` and leaves `d'`. -/
def Does (less : σ → E → E → Go Bool × σ) (p : M E α) (s : σ) (d : List E) (x : α) (s' : σ) (d' : List E) : Prop :=
  ev less s (p d) = some (.ok (x, d'), s')

/-- On slices of length `n`, whenever the program `p` of the model returns or the comparator panics in it, the
function `q` does the same. -/
def Agrees (less : σ → E → E → Go Bool × σ) (n : Nat) (f : α → β) (p : M E α) (q : W σ E β) : Prop :=
  ∀ s d, d.length = n →
    (∀ x s' d', Does less p s d x s' d' → q (s, d) = some (.ok (f x), (s', d')) ∧ d'.length = n) ∧
    (∀ e s' d', ev less s (p d) = some (.error (e, d'), s') → q (s, d) = some (.error e, (s', d')))

variable {n : Nat}

theorem Agrees.pure {f : α → β} (x : α) {y : β} (h : f x = y) : Agrees less n f (Pure.pure x) (Pure.pure y) := by
  intro s d hd
  refine ⟨fun a s' d' hp => ?_, fun e s' d' hp => (by cases hp)⟩
  unfold Does at hp
  cases hp
  subst h
  exact ⟨rfl, hd⟩

theorem Agrees.fail {f : α → β} (msg : String) (q : W σ E β) : Agrees less n f (M.fail msg) q :=
  fun _ _ _ => ⟨fun _ _ _ hp => (by cases hp), fun _ _ _ hp => (by cases hp)⟩

theorem ev_seq {α' : Type} (p : M E α') (k : α' → M E α) (s : σ) (d : List E) :
    ev less s ((p >>= k) d) = andThen (ev less s (p d)) fun s' a => ev less s' (k a.1 a.2) := ev_bind (p d) _ s

theorem does_bind {α' : Type} {p : M E α'} {k : α' → M E α} {d d' : List E} {x : α} {s s' : σ}
    (h : Does less (p >>= k) s d x s' d') :
    ∃ a s1 d1, Does less p s d a s1 d1 ∧ Does less (k a) s1 d1 x s' d' := by
  unfold Does at *
  rw [ev_seq] at h
  match e : ev less s (p d), h with
  | none, h => cases h
  | some (.error _, _), h => cases h
  | some (.ok a, s1), h => exact ⟨a.1, s1, a.2, rfl, h⟩

theorem Agrees.bind {α' β' : Type} {f : α' → β'} {g : α → β} {p : M E α'} {k : α' → M E α} {q : W σ E β'} {l : β' → W σ E β}
    (h : Agrees less n f p q)
    (hk : ∀ a, (Reach n p a) → Agrees less n g (k a) (l (f a))) :
    Agrees less n g (p >>= k) (q >>= l) := by
  intro s d hd
  refine ⟨fun x s' d' hp => ?_, fun e s' d' hp => ?_⟩
  · obtain ⟨a, s1, d1, h1, h2⟩ := does_bind hp
    obtain ⟨e1, n1⟩ := (h s d hd).1 a s1 d1 h1
    obtain ⟨e2, n2⟩ := (hk a ⟨d, d1, hd, ev_leaf h1⟩ s1 d1 n1).1 x s' d' h2
    exact ⟨by rw [bind_ok e1, e2], n2⟩
  · rw [ev_seq] at hp
    match e1 : ev less s (p d), hp with
    | none, hp => cases hp
    | some (.error (m, d1), s1), hp =>
      have := (h s d hd).2 m s1 d1 e1
      cases hp
      exact bind_error this
    | some (.ok (a, d1), s1), hp =>
      obtain ⟨e3, n1⟩ := (h s d hd).1 a s1 d1 e1
      rw [bind_ok e3]
      exact (hk a ⟨d, d1, hd, ev_leaf e1⟩ s1 d1 n1).2 e s' d' hp

theorem at_in {s : σ} {d : List E} {i : Int} (h : inRange d i) : at_ (quiet less) i (s, d) = some (.ok (el d i), (s, d)) := by
  show some ((goGet d i).map (fun x => x), (s, d)) = _
  rw [Ordered.goGet_in h]
  rfl

/-- Unless it is outside the slice, a program that starts with a comparison does what it should. -/
theorem Agrees.inside_less {g : α → β} {i j : Int} {k : Bool → M E α} {q : W σ E β}
    (h : 0 ≤ i → i < n → Agrees less n g (lessAt i j >>= k) q) : Agrees less n g (lessAt i j >>= k) q := by
  intro s d hd
  by_cases hr : inRange d i ∧ inRange d j
  · exact h hr.1.1 (hd ▸ hr.1.2) s d hd
  · have : ev less s ((lessAt i j >>= k) d) = none := by
      rw [ev_seq, lessAt_eq, if_neg hr]
      rfl
    refine ⟨fun x s' d' hp => ?_, fun e s' d' hp => ?_⟩
    · unfold Does at hp; rw [this] at hp; cases hp
    · rw [this] at hp; cases hp

theorem Agrees.inside_nless {g : α → β} {i j : Int} {k : Bool → M E α} {q : W σ E β}
    (h : 0 ≤ j → j < n → Agrees less n g (nlessAt i j >>= k) q) : Agrees less n g (nlessAt i j >>= k) q := by
  intro s d hd
  by_cases hr : inRange d i ∧ inRange d j
  · exact h hr.2.1 (hd ▸ hr.2.2) s d hd
  · have : ev less s ((nlessAt i j >>= k) d) = none := by
      rw [ev_seq, nlessAt_eq, if_neg hr]
      rfl
    refine ⟨fun x s' d' hp => ?_, fun e s' d' hp => ?_⟩
    · unfold Does at hp; rw [this] at hp; cases hp
    · rw [this] at hp; cases hp

theorem Agrees.ltAt (i j : Int) : Agrees less n id (lessAt i j) (isLess (quiet less) i j) := by
  intro s d hd
  by_cases hr : inRange d i ∧ inRange d j
  · have e1 : ev less s (lessAt i j d) = ev less s (.ask .lt (el d i) (el d j) d fun b => .ret (b, d)) := by
      rw [lessAt_eq, if_pos hr]
    have e2 : isLess (quiet less) i j (s, d) = call (quiet less) (el d i) (el d j) (s, d) := by
      unfold isLess
      rw [bind_ok (at_in hr.1), bind_ok (at_in hr.2)]
    unfold Does
    rw [e1, e2]
    simp only [ev, call, quiet]
    cases (less s (el d i) (el d j)).1 with
    | ok b =>
      refine ⟨fun x s' d' hp => ?_, fun e s' d' hp => ?_⟩
      · cases hp; exact ⟨rfl, hd⟩
      · cases hp
    | error m =>
      refine ⟨fun x s' d' hp => ?_, fun e s' d' hp => ?_⟩
      · cases hp
      · cases hp; rfl
  · have : ev less s (lessAt i j d) = none := by
      rw [lessAt_eq, if_neg hr]
      rfl
    refine ⟨fun x s' d' hp => ?_, fun e s' d' hp => ?_⟩
    · unfold Does at hp; rw [this] at hp; cases hp
    · rw [this] at hp; cases hp

theorem Agrees.nless (i j : Int) : Agrees less n id (nlessAt i j) (notLess (quiet less) i j) := by
  intro s d hd
  by_cases hr : inRange d i ∧ inRange d j
  · have e1 : ev less s (nlessAt i j d) = ev less s (.ask .nlt (el d i) (el d j) d fun b => .ret (b, d)) := by
      rw [nlessAt_eq, if_pos hr]
    have e2 : notLess (quiet less) i j (s, d) = (do let b ← call (quiet less) (el d i) (el d j); Pure.pure (!b) : W σ E Bool) (s, d) := by
      unfold notLess
      rw [bind_ok (at_in hr.1), bind_ok (at_in hr.2)]
    unfold Does
    rw [e1, e2]
    cases e3 : (less s (el d i) (el d j)).1 with
    | ok b =>
      have : call (quiet less) (el d i) (el d j) (s, d) = some (.ok b, ((less s (el d i) (el d j)).2, d)) := by
        simp only [call, quiet, e3]
      rw [bind_ok this]
      simp only [ev, e3]
      refine ⟨fun x s' d' hp => ?_, fun e s' d' hp => ?_⟩
      · cases hp; exact ⟨rfl, hd⟩
      · cases hp
    | error m =>
      have : call (quiet less) (el d i) (el d j) (s, d) = some (.error m, ((less s (el d i) (el d j)).2, d)) := by
        simp only [call, quiet, e3]
      rw [bind_error this]
      simp only [ev, e3]
      refine ⟨fun x s' d' hp => ?_, fun e s' d' hp => ?_⟩
      · cases hp
      · cases hp; rfl
  · have : ev less s (nlessAt i j d) = none := by
      rw [nlessAt_eq, if_neg hr]
      rfl
    refine ⟨fun x s' d' hp => ?_, fun e s' d' hp => ?_⟩
    · unfold Does at hp; rw [this] at hp; cases hp
    · rw [this] at hp; cases hp

theorem Agrees.swap (i j : Int) : Agrees less n id (Sort.swap i j) (exchange (quiet less) i j) := by
  intro s d hd
  by_cases hr : inRange d i ∧ inRange d j
  · have e1 : ev less s (Sort.swap i j d) = some (.ok ((), (d.set i.toNat (el d j)).set j.toNat (el d i)), s) := by
      unfold Sort.swap; rw [if_pos hr]; rfl
    have e2 : exchange (quiet less) i j (s, d) = some (.ok (), (s, (d.set i.toNat (el d j)).set j.toNat (el d i))) := by
      obtain ⟨r1, r2⟩ := hr
      unfold exchange
      rw [bind_ok (at_in r2), bind_ok (at_in r1)]
      have s1 : put (quiet less) i (el d j) (s, d) = some (.ok (), (s, d.set i.toNat (el d j))) := by
        have l1 : i.toNat < d.length := by have := r1.1; have := r1.2; omega
        simp only [put, quiet]
        rw [goSet_ok r1.1 l1]
      rw [bind_ok s1]
      simp only [put, quiet]
      have l2 : j.toNat < (d.set i.toNat (el d j)).length := by
        rw [List.length_set]; have := r2.1; have := r2.2; omega
      rw [goSet_ok r2.1 l2]
    unfold Does
    rw [e1, e2]
    refine ⟨fun x s' d' hp => ?_, fun e s' d' hp => ?_⟩
    · cases hp; exact ⟨rfl, by simp [hd]⟩
    · cases hp
  · have : ev less s (Sort.swap i j d) = none := by
      unfold Sort.swap; rw [if_neg hr]; rfl
    refine ⟨fun x s' d' hp => ?_, fun e s' d' hp => ?_⟩
    · unfold Does at hp; rw [this] at hp; cases hp
    · rw [this] at hp; cases hp

theorem Agrees.recurse {p : M E Unit} {q : W σ E Unit} (h : Agrees less n id p q) : Agrees less n id (recurse p) q := by
  intro s d hd
  have e : ev less s (Sort.recurse p d) = ev less s (p d) := by
    show ev less s ((p d).bind fun r => _) = _
    rw [ev_bind]
    match ev less s (p d) with
    | none => rfl
    | some (.error _, _) => rfl
    | some (.ok _, _) => rfl
  unfold Does
  rw [e]
  exact h s d hd

theorem agrees_of_sim {f : α → β} {p : M E α} {q : W σ E β} (h : Sim (quiet less) n f p q) : Agrees less n f p q := by
  induction h with
  | pure x h => exact .pure x h
  | fail msg q => exact .fail msg q
  | bind _ _ ih ihk => exact ih.bind ihk
  | ltAt i j => exact .ltAt i j
  | nless i j => exact .nless i j
  | swap i j => exact .swap i j
  | recurse _ ih => exact ih.recurse
  | inside_less _ ih => exact .inside_less ih
  | inside_nless _ ih => exact .inside_nless ih

/-! ## The exported functions -/

/-- What a caller sees of an outcome of the common model: how the call ends and the slice then. -/
def Ends (o : Outcome (Unit × List E) E) (r : Option (Go Unit × σ × List E)) : Prop :=
  match o with
  | .done ((), out) => ∃ s', r = some (.ok (), s', out)
  | .panicked msg slice => ∃ s', r = some (.error msg, s', slice)
  | .crashed _ => False

theorem ends_of {p : M E Unit} (hp : p = sortProg ∨ p = stableProg) {q : W σ E Unit} (s : σ) (data : List E)
    (h : ∀ s d, d.length = data.length →
      (∀ s' d', Does less p s d () s' d' → q (s, d) = some (.ok (), (s', d'))) ∧
      (∀ e s' d', ev less s (p d) = some (.error (e, d'), s') → q (s, d) = some (.error e, (s', d')))) :
    Ends ((p data).runP (ofPanicking less) s) (q (s, data)) := by
  obtain ⟨h1, h2⟩ := h s data rfl
  obtain ⟨k1, k2, k3⟩ := ev_runP (less := less) (p data) s
  cases e : ev less s (p data) with
  | none =>
    obtain ⟨msg, hm⟩ := k3 e
    rcases C76_panicking_comparator data less s p hp with ⟨out, ho, -⟩ | ⟨m, sl, ho, -⟩ <;>
      (rw [hm] at ho; cases ho)
  | some r =>
    obtain ⟨r, s'⟩ := r
    cases r with
    | ok a =>
      obtain ⟨⟨⟩, out⟩ := a
      rw [k1 _ _ e]
      exact ⟨s', h1 s' out e⟩
    | error m =>
      obtain ⟨m, sl⟩ := m
      rw [k2 _ _ _ e]
      exact ⟨s', h2 m s' sl e⟩

/-- **`sort_any.go` as written.** For every comparator — it may keep state, contradict itself and panic — and every
slice a Go program can have, `Sort` and `Stable`, transcribed on their own and without any bound on their loops, end,
and they end as the common model says: normally with the same slice, or with the same panic and the same slice. -/
theorem C131_as_written (less : σ → E → E → Go Bool × σ) (s : σ) (data : List E) (hn : data.length < 2 ^ 63) :
    Ends ((sortProg data).runP (ofPanicking less) s) (SortFn (quiet less) s data) ∧
    Ends ((stableProg data).runP (ofPanicking less) s) (StableFn (quiet less) s data) := by
  refine ⟨?_, ?_⟩
  · refine ends_of (Or.inl rfl) (q := pdqsort (quiet less) 0 data.length (bitsLen data.length)) s data ?_
    intro s d hd
    obtain ⟨h1, h2⟩ := agrees_of_sim (sim_pdqsort (env := quiet less) hn (data.length + 1) 0 data.length
      (bitsLen data.length) true true (by omega) (by omega) (by omega)) s d hd
    unfold Does sortProg at *
    rw [hd]
    exact ⟨fun s' d' h => (h1 () s' d' h).1, h2⟩
  · refine ends_of (Or.inr rfl) (q := stable (quiet less) data.length) s data ?_
    intro s d hd
    obtain ⟨h1, h2⟩ := agrees_of_sim (sim_stable (env := quiet less) hn) s d hd
    unfold Does stableProg at *
    rw [hd]
    exact ⟨fun s' d' h => (h1 () s' d' h).1, h2⟩

/-- **They always end, and the slice is a rearrangement then.** Whatever the comparator does, `Sort` and `Stable`
return, or end with a panic that the comparator raised on two elements of the slice; in both cases the slice holds
exactly the original elements. There is no fuel here: the loops of the transcription are unbounded. -/
theorem C131_ends (less : σ → E → E → Go Bool × σ) (s : σ) (data : List E) (hn : data.length < 2 ^ 63) :
    ∀ r ∈ [SortFn (quiet less) s data, StableFn (quiet less) s data],
      ∃ res s' out, r = some (res, s', out) ∧ out.Perm data ∧
        (res = .ok () ∨ ∃ msg s'' x y, res = .error msg ∧ x ∈ data ∧ y ∈ data ∧ (less s'' x y).1 = .error msg) := by
  have key : ∀ (p : M E Unit) (r : Option (Go Unit × σ × List E)), (p = sortProg ∨ p = stableProg) → Ends ((p data).runP (ofPanicking less) s) r →
      ∃ res s' out, r = some (res, s', out) ∧ out.Perm data ∧
        (res = .ok () ∨ ∃ msg s'' x y, res = .error msg ∧ x ∈ data ∧ y ∈ data ∧ (less s'' x y).1 = .error msg) := by
    intro p r hp he
    rcases C76_panicking_comparator data less s p hp with ⟨out, ho, h2⟩ | ⟨m, sl, ho, h2, s'', x, y, hx, hy, h3⟩
    · rw [ho] at he
      obtain ⟨s', he⟩ := he
      exact ⟨_, s', out, he, h2, Or.inl rfl⟩
    · rw [ho] at he
      obtain ⟨s', he⟩ := he
      exact ⟨_, s', sl, he, h2, Or.inr ⟨m, s'', x, y, rfl, hx, hy, h3⟩⟩
  obtain ⟨h1, h2⟩ := C131_as_written less s data hn
  intro r hr
  rcases List.mem_cons.1 hr with rfl | hr
  · exact key _ _ (Or.inl rfl) h1
  · rcases List.mem_singleton.1 hr with rfl
    exact key _ _ (Or.inr rfl) h2

/-- A comparator that also counts how often it is called. -/
def counted (f : σ → E → E → Bool × σ) : σ × Nat → E → E → Go Bool × (σ × Nat) :=
  fun c x y => (.ok (f c.1 x y).1, ((f c.1 x y).2, c.2 + 1))

theorem ev_counted (f : σ → E → E → Bool × σ) (p : Prog E α) : ∀ (s : σ) (k : Nat) (a : α) (s' : σ) (m : Nat),
    p.exec (ofStateful f) s = .ok (a, s', m) → ev (counted f) (s, k) p = some (.ok a, (s', k + m)) := by
  induction p with
  | ret b => intro s k a s' m h; cases h; rfl
  | fail _ => intro s k a s' m h; cases h
  | note e p ih => exact ih
  | ask kd x y d next ih =>
    intro s k a s' m h
    unfold Prog.exec at h
    rcases hx : (next (ofStateful f s kd x y).1).exec (ofStateful f) (ofStateful f s kd x y).2 with e | ⟨b', t, l⟩
    · rw [hx] at h; cases h
    · rw [hx] at h
      cases h
      have hi := ih (ofStateful f s kd x y).1 (ofStateful f s kd x y).2 (k + 1) a s' l hx
      rw [show k + (l + 1) = k + 1 + l by omega]
      cases kd with
      | lt => exact hi
      | nlt => exact hi

/-- **The number of calls.** If the model says that with the comparator `f` the call leaves `out` after calling `f`
`m` times, then the function as written leaves `out`, and `f` was called `m` times. -/
theorem C131_counted (f : σ → E → E → Bool × σ) (s : σ) (data : List E) (hn : data.length < 2 ^ 63) :
    (∀ out m, runProg sortProg (ofStateful f) s data = .ok (out, m) →
      ∃ s', SortFn (quiet (counted f)) (s, 0) data = some (.ok (), (s', m), out)) ∧
    (∀ out m, runProg stableProg (ofStateful f) s data = .ok (out, m) →
      ∃ s', StableFn (quiet (counted f)) (s, 0) data = some (.ok (), (s', m), out)) := by
  have key : ∀ (p : M E Unit) out m, runProg p (ofStateful f) s data = .ok (out, m) →
      ∃ s', Does (counted f) p (s, 0) data () (s', m) out := by
    intro p out m h
    unfold runProg at h
    rcases e : (p data).exec (ofStateful f) s with _ | ⟨⟨⟨⟩, d'⟩, s', k⟩
    · rw [e] at h; cases h
    · rw [e] at h
      cases h
      have := ev_counted f (p data) s 0 _ _ _ e
      rw [Nat.zero_add] at this
      exact ⟨s', this⟩
  refine ⟨fun out m h => ?_, fun out m h => ?_⟩
  · obtain ⟨s', h⟩ := key sortProg out m h
    exact ⟨s', ((agrees_of_sim (sim_pdqsort (env := quiet (counted f)) hn (data.length + 1) 0 data.length
      (bitsLen data.length) true true (by omega) (by omega) (by omega)) (s, 0) data rfl).1 () _ _ h).1⟩
  · obtain ⟨s', h⟩ := key stableProg out m h
    exact ⟨s', ((agrees_of_sim (sim_stable (env := quiet (counted f)) hn) (s, 0) data rfl).1 () _ _ h).1⟩

/-- A comparator without state, counting its calls. -/
def counting (lt : E → E → Bool) : Unit × Nat → E → E → Go Bool × (Unit × Nat) :=
  counted fun _ x y => (lt x y, ())

theorem ofStateful_pure (lt : E → E → Bool) :
    (ofStateful fun (_ : Unit) (x y : E) => (lt x y, ())) = ofLess lt := by
  funext s k x y
  cases k <;> rfl

/-- **`Sort` and `Stable` as written sort.** With a comparator that orders the elements of the slice, both return;
the slice is then ascending and a rearrangement; after `Stable` equivalent elements are in their old order; and the
comparator was called at most `n * (130 * (⌊log₂ n⌋ + 1) + 29)` times by `Sort` and at most
`n * (4 * (⌊log₂ n⌋ + 1) + 19)` times by `Stable`. -/
theorem C131_sorts (lt : E → E → Bool) (data : List E) (hw : StrictWeakOn data lt) (hn : data.length < 2 ^ 63) :
    (∃ out m, SortFn (quiet (counting lt)) ((), 0) data = some (.ok (), ((), m), out) ∧ out.Perm data ∧ Ascending lt out ∧
      m ≤ data.length * (130 * (Nat.log2 data.length + 1) + 29)) ∧
    (∃ out m, StableFn (quiet (counting lt)) ((), 0) data = some (.ok (), ((), m), out) ∧ out.Perm data ∧ Ascending lt out ∧
      (∀ x ∈ data, (out.filter fun y => !lt x y && !lt y x) = data.filter fun y => !lt x y && !lt y x) ∧
      m ≤ data.length * (4 * (Nat.log2 data.length + 1) + 19)) := by
  obtain ⟨k1, k2⟩ := C131_counted (fun (_ : Unit) (x y : E) => (lt x y, ())) () data hn
  rw [ofStateful_pure] at k1 k2
  obtain ⟨⟨o1, a1, a2, a3⟩, ⟨o2, b1, b2, b3, b4⟩⟩ := C01_C05_order_on_elements lt data hw
  refine ⟨?_, ?_⟩
  · obtain ⟨⟨out, m, h1, h2, h3⟩, -⟩ := C72_sort_comparisons lt data hw
    have : o1 = out := by
      unfold sort at a1; rw [h1] at a1; cases a1; rfl
    subst this
    obtain ⟨⟨⟩, h⟩ := k1 o1 m h1
    exact ⟨o1, m, h, a2, h2, h3⟩
  · obtain ⟨⟨out, m, h1, h3⟩, -⟩ := C73_stable_comparisons_pure data lt lt lt
    have : o2 = out := by
      unfold stableSort at b1; rw [h1] at b1; cases b1; rfl
    subst this
    obtain ⟨⟨⟩, h⟩ := k2 o2 m h1
    exact ⟨o2, m, h, b2, b3, b4, h3⟩

/-- A slice that is already ascending — for any comparator at all — is left as it is after at most `n + 11` calls. -/
theorem C131_ascending (lt : E → E → Bool) (data : List E) (ha : Ascending lt data) (hn : data.length < 2 ^ 63) :
    ∃ m, SortFn (quiet (counting lt)) ((), 0) data = some (.ok (), ((), m), data) ∧ m ≤ data.length + 11 := by
  obtain ⟨k1, -⟩ := C131_counted (fun (_ : Unit) (x y : E) => (lt x y, ())) () data hn
  rw [ofStateful_pure] at k1
  obtain ⟨m, h1, h2⟩ := C75_ascending_unchanged lt data ha
  obtain ⟨⟨⟩, h⟩ := k1 data m h1
  exact ⟨m, h, h2⟩

/-! ## Concrete cases -/

/-- Twenty elements with duplicates: the quicksort branch, and for `Stable` one block. -/
example : ∃ out m, SortFn (quiet <| counting fun x y : Int => decide (x < y)) ((), 0)
      [5, 3, 5, 1, 0, 9, 8, 7, 7, 2, 4, 6, 3, 3, 1, 0, 5, 9, 8, 2] = some (.ok (), ((), m), out) ∧
      Ascending (fun x y : Int => decide (x < y)) out := by
  obtain ⟨⟨out, m, h, -, h', -⟩, -⟩ := C131_sorts (fun x y : Int => decide (x < y))
    [5, 3, 5, 1, 0, 9, 8, 7, 7, 2, 4, 6, 3, 3, 1, 0, 5, 9, 8, 2]
    ⟨fun x _ => by simp, fun x _ y _ z _ => by simp; omega, fun x _ y _ z _ => by simp; omega⟩ (by simp)
  exact ⟨out, m, h, h'⟩

/-- A comparator that panics on its second call: the two elements swapped before are still there. -/
def secondPanics : Nat → Nat → Nat → Go Bool × Nat :=
  fun s x y => (if s = 0 then .ok (decide (x < y)) else .error "boom", s + 1)

example : ∃ s', SortFn (quiet secondPanics) 0 [2, 1, 0] = some (.error "boom", s', [1, 2, 0]) := by
  have h := (C131_as_written secondPanics 0 [2, 1, 0] (by simp)).1
  rwa [show (sortProg [2, 1, 0]).runP (ofPanicking secondPanics) 0 = .panicked "boom" [1, 2, 0] by decide +kernel] at h

/-- A comparator that always says yes: `Stable` ends and only rearranges. -/
example : ∃ res s' out, StableFn (quiet <| fun (_ : Unit) (_ _ : Nat) => (.ok true, ())) () (List.range 50) = some (res, s', out) ∧
    out.Perm (List.range 50) := by
  obtain ⟨res, s', out, h, h', -⟩ := C131_ends (fun (_ : Unit) (_ _ : Nat) => (.ok true, ())) () (List.range 50)
    (by simp) _ (List.mem_cons_of_mem _ (List.mem_singleton.2 rfl))
  exact ⟨res, s', out, h, h'⟩

end Verif.Sort.Written
