import Verif.AtomicValue.Lemmas
import Verif.Conc.Steps
import Verif.Conc.Refute

/-!
# Properties of `atomic.Value` (C39–C41, C68)
-/

set_option linter.unusedSectionVars false

namespace Verif.AtomicValue

open Verif.Conc

variable {T : Type} [Inhabited T]

/-! ## Test data -/

/-- Equality of a type on which `==` is equality. -/
def exactEq (T : Type) [DecidableEq T] : GoEq T :=
  ⟨fun a b => decide (a = b), fun a b h => by simp_all, fun a b c h1 h2 => by simp_all⟩

/-- Zeros with a sign: `==` does not see the sign. -/
inductive Zero where
  | plus | minus
  deriving DecidableEq

instance : Inhabited Zero := ⟨.plus⟩

/-- `==` on zeros. -/
def zeroEq : GoEq Zero := ⟨fun _ _ => true, fun _ _ _ => rfl, fun _ _ _ _ _ => rfl⟩

/-- The first free address below 10. -/
def freeAddr (σ : Sh T) : Option Nat := (List.range 10).find? fun q => (σ.heap q).isNone

/-- A zero `Value` and idle goroutines. -/
abbrev start (T : Type) [Inhabited T] : Cfg T := Config.init (M := mach T) (zero : Sh T)

/-- Some outcome of an action. -/
def outcome (_ : Tid) : (a : Act T) → Sh T → Option (Ans a × Sh T)
  | .alloc v, σ => (freeAddr σ).map fun q => (q, σ.put q v)
  | .load, σ => some (σ.cur, σ)
  | .store q, σ => some ((), { σ with cur := some q })
  | .swap q, σ => some (σ.cur, { σ with cur := some q })
  | .cas p q, σ => if σ.cur = p then some (true, { σ with cur := some q }) else some (false, σ)
  | .deref p, σ => (σ.heap p).map fun v => (v, σ)

theorem outcome_step (t : Tid) (a : Act T) (σ : Sh T) (ans : Ans a) (σ' : Sh T)
    (h : outcome t a σ = some (ans, σ')) : AStep t a σ ans σ' := by
  cases a with
  | alloc v =>
    simp only [outcome, Option.map_eq_some_iff] at h
    obtain ⟨q, hq, e⟩ := h
    injection e with e1 e2
    subst e1 e2
    have := List.find?_some hq
    exact .alloc σ v q (by simpa using this)
  | load => injection h with h; injection h with h1 h2; subst h1 h2; exact .load σ
  | store q => injection h with h; injection h with h1 h2; subst h1 h2; exact .store σ q
  | swap q => injection h with h; injection h with h1 h2; subst h1 h2; exact .swap σ q
  | cas p q =>
    simp only [outcome] at h
    split at h
    · rename_i hc; injection h with h; injection h with h1 h2; subst h1 h2; exact .casHit σ p q hc
    · rename_i hc; injection h with h; injection h with h1 h2; subst h1 h2; exact .casMiss σ p q hc
  | deref p =>
    simp only [outcome, Option.map_eq_some_iff] at h
    obtain ⟨v, hv, e⟩ := h
    injection e with e1 e2
    subst e1 e2
    exact .deref σ p v hv

/-- Follow a schedule. -/
def play (E : GoEq T) (gs : List (Conc.Go (Op T))) (s : Cfg T) :=
  followAll (M := mach T) (R := Res T) (body E) outcome gs s

theorem play_exec {E : GoEq T} {gs : List (Conc.Go (Op T))} {s s' : Cfg T} {ls : List (Lab T)} {cs : List (Cfg T)}
    (h : play E gs s = some (ls, cs, s')) : Exec (body E) s ls s' := followAll_exec outcome_step h

/-- A goroutine makes a whole call of `n` steps. -/
def whole (t : Tid) (op : Op T) (n : Nat) : List (Conc.Go (Op T)) :=
  .call t op :: (List.replicate n (.act t) ++ [.ret t])

/-- A schedule shows that a history is possible. -/
theorem play_history {E : GoEq T} {gs : List (Conc.Go (Op T))} {H : List (Event (Op T) (Res T))}
    (h : (play E gs (start T)).map (fun x => history x.1) = some H) :
    ∃ tr s, Exec (body E) (start T) tr s ∧ history tr = H := by
  rw [Option.map_eq_some_iff] at h
  obtain ⟨⟨tr, cs, s⟩, h1, h2⟩ := h
  exact ⟨tr, s, play_exec h1, h2⟩

/-! ## C39 -/

/-- A variable of a type on which `==` is equality. `CompareAndSwap` may fail without cause if `strict` is false. -/
def Exact (strict : Bool) (x : T) : Op T → Res T → T → Prop
  | .load, r, x' => r = .val x ∧ x' = x
  | .store v, r, x' => r = .unit ∧ x' = v
  | .swap v, r, x' => r = .val x ∧ x' = v
  | .cas old new, r, x' => (r = .bool true ∧ x = old ∧ x' = new) ∨ (r = .bool false ∧ x' = x ∧ (strict = true → x ≠ old))

/-- The variable. -/
def exactVar (T : Type) [Inhabited T] (strict : Bool) : SeqSpec (Op T) (Res T) := ⟨T, default, Exact strict⟩

theorem exact_of_legal {E : GoEq T} (hE : ∀ a b, E.eq a b = true ↔ a = b) {strict : Bool} {x x' : T} {op : Op T}
    {r : Res T} (h : Legal E strict x op r x') : Exact strict x op r x' := by
  cases op with
  | load => exact h
  | store v => exact h
  | swap v => exact h
  | cas o n =>
    rcases h with ⟨h1, h2, h3⟩ | ⟨h1, h2, h3⟩
    · have h2 := (hE _ _).1 h2
      refine Or.inl ⟨h1, h2, ?_⟩
      rcases h3 with h3 | ⟨h3, h4⟩
      · exact h3
      · rw [h4, h2, (hE _ _).1 h3]
    · refine Or.inr ⟨h1, h2, fun hs e => ?_⟩
      have := (hE _ _).2 e
      rw [h3 hs] at this
      cases this

theorem exact_run {E : GoEq T} (hE : ∀ a b, E.eq a b = true ↔ a = b) {strict : Bool} {x : (var E strict).St}
    {l : List (Op T × Res T)} {y : (var E strict).St} (h : (var E strict).Run x l y) :
    (exactVar T strict).Run x l y := by
  induction h with
  | nil => exact .nil _
  | snoc _ hl ih => exact .snoc ih (exact_of_legal hE hl)

theorem exact_linearizable {E : GoEq T} (hE : ∀ a b, E.eq a b = true ↔ a = b) {strict : Bool}
    {H : List (Event (Op T) (Res T))} (h : Linearizable (var E strict) H) : Linearizable (exactVar T strict) H := by
  obtain ⟨L, s, h1, h2⟩ := h
  exact ⟨L, s, exact_run hE h1, h2⟩

/-- Every execution is linearizable as a variable, except that `CompareAndSwap` may fail without cause and,
on success with `new == old`, may keep the old value. -/
theorem C39_linearizable_partial (E : GoEq T) (tr : List (Lab T)) (s : Cfg T)
    (he : Exec (body E) (start T) tr s) : Linearizable (var E false) (history tr) :=
  (sim E false).linearizable (.of_exec (fun _ _ h => by cases h) he)

/-- If `==` is equality on the type, every execution is linearizable as a variable, except that `CompareAndSwap` may
fail without cause. What is missing: types like `float64`, for which it is false (`C39_full_false`). -/
theorem C39_exact_partial (E : GoEq T) (hE : ∀ a b, E.eq a b = true ↔ a = b) (tr : List (Lab T)) (s : Cfg T)
    (he : Exec (body E) (start T) tr s) : Linearizable (exactVar T false) (history tr) :=
  exact_linearizable hE (C39_linearizable_partial E tr s he)

/-- Two goroutines interleaved: a swap between the load and the pointer CAS of another. -/
example : (play (exactEq Nat) ([.call 0 (.cas 0 5), .call 1 (.swap 7), .act 0, .act 1, .act 0, .act 1, .act 0, .ret 1, .ret 0] ++
    whole 1 .load 2) (start Nat)).map (fun x => history x.1) =
    some [.inv 0 (.cas 0 5), .inv 1 (.swap 7), .ret 1 (.val 0), .ret 0 (.bool false), .inv 1 .load, .ret 1 (.val 7)] := rfl

/-- A variable with the type's `==`: `CompareAndSwap` stores `new` whenever it succeeds. -/
def Stores (E : GoEq T) (x : T) : Op T → Res T → T → Prop
  | .load, r, x' => r = .val x ∧ x' = x
  | .store v, r, x' => r = .unit ∧ x' = v
  | .swap v, r, x' => r = .val x ∧ x' = v
  | .cas old new, r, x' => (r = .bool true ∧ E.eq x old = true ∧ x' = new) ∨ (r = .bool false ∧ x' = x)

/-- The variable. -/
def storesVar (E : GoEq T) : SeqSpec (Op T) (Res T) := ⟨T, default, Stores E⟩

/-- Full C39, for every `==`. -/
def C39_full_statement : Prop := ∀ (T : Type) [Inhabited T] (E : GoEq T) (tr : List (Lab T)) (s : Cfg T),
  Exec (body E) (start T) tr s → Linearizable (storesVar E) (history tr)

/-- `CompareAndSwap(0, -0)`, then `Load`. -/
def zeroHistory : List (Event (Op Zero) (Res Zero)) :=
  [.inv 0 (.cas .plus .minus), .ret 0 (.bool true), .inv 0 .load, .ret 0 (.val .plus)]

/-- `CompareAndSwap(0, -0)` says it has stored -0, and `Load` then gives 0. -/
theorem C39_full_false : ¬ C39_full_statement := by
  intro h
  obtain ⟨tr, s, he, hH⟩ := play_history (E := zeroEq) (gs := whole 0 (.cas .plus .minus) 2 ++ whole 0 .load 1)
    (H := zeroHistory) rfl
  have hl := h Zero zeroEq tr s he
  rw [hH] at hl
  have r1 : Returns zeroHistory 0 1 (.cas .plus .minus) (.bool true) := ⟨0, rfl, rfl, by decide, fun k e h1 h2 => by omega⟩
  have r2 : Returns zeroHistory 2 3 .load (.val .plus) := ⟨0, rfl, rfl, by decide, fun k e h1 h2 => by omega⟩
  obtain ⟨l, x, x', g1, g2, g3, g4⟩ := hl.before r2
  have hm := g3 0 1 _ _ r1 (by decide)
  have all : ∀ e ∈ l, e.2 = (.cas .plus .minus, .bool true) := by
    intro e he'
    obtain ⟨k1, ⟨t, k2⟩, k3⟩ := g4 e he'
    obtain ⟨i, op, r⟩ := e
    match i, k1, k2 with
    | 0, _, _ => exact k3 1 _ _ r1
    | 1, _, k2 => cases k2
    | 3, _, k2 => cases k2
    | i + 4, _, k2 => cases k2
  have key : ∀ (l : List (Op Zero × Res Zero)) (y : (storesVar zeroEq).St), (storesVar zeroEq).Run (storesVar zeroEq).init l y →
      (∀ e ∈ l, e = (.cas .plus .minus, .bool true)) → l = [] ∨ y = .minus := by
    intro l y hr
    induction hr with
    | nil => intro _; exact Or.inl rfl
    | @snoc s1 s2 l op r _ hs _ =>
      intro ha
      have := ha (op, r) (by simp)
      injection this with e1 e2
      subst e1 e2
      rcases hs with ⟨-, -, hs⟩ | ⟨hs, -⟩
      · exact Or.inr hs
      · cases hs
  rcases key _ x g1 (fun e he' => by
    obtain ⟨e', he'', rfl⟩ := List.mem_map.1 he'
    exact all e' he'') with e | e
  · rw [List.map_eq_nil_iff] at e
    rw [e] at hm; cases hm
  · subst e
    exact absurd g2.1 (by intro e; cases e)

/-! ## C40 -/

/-- If no `Store` or `Swap` writes a value equal to the one held, the object with failing `CompareAndSwap` is
linearizable. What is missing: executions with such writes, for which it is false (`C40_full_false`). -/
theorem C40_strict_partial (E : GoEq T) (tr : List (Lab T)) (s : Cfg T)
    (he : ExecIf (Changing E) (body E) (start T) tr s) : Linearizable (var E true) (history tr) := by
  refine (sim E true).linearizable (tr := tr) (c := s) ?_
  induction he with
  | nil => exact .nil
  | snoc _ hq hs ih => exact .snoc ih (fun _ => hq) hs

/-- In particular if only `Load` and `CompareAndSwap` are called. -/
theorem C40_cas_only_partial (E : GoEq T) (tr : List (Lab T)) (s : Cfg T) (he : Exec (body E) (start T) tr s)
    (hop : Calls (fun _ op => op = .load ∨ ∃ o n, op = .cas o n) tr) : Linearizable (var E true) (history tr) := by
  have key : ExecIf (Changing E) (body E) (start T) tr s ∧
      ∃ stg : Tid → Stage T, (∀ t, s.th t = (stg t).thread E) ∧ Inv E s.sh stg ∧
        ∀ t, s.th t = .idle ∨ ∃ op p, s.th t = .run op p ∧ (op = .load ∨ ∃ o n, op = .cas o n) := by
    induction he with
    | nil => exact ⟨.nil, fun _ => .idle, fun _ => rfl, zero_inv E, fun _ => Or.inl rfl⟩
    | @snoc tr c c' l he hs ih =>
      obtain ⟨h1, h2⟩ := hop.of_snoc
      obtain ⟨g1, stg, g2, g3, g4⟩ := ih h1
      cases hs with
      | call t op ht =>
        obtain ⟨b1, b2, b3, b4, b5⟩ := begin_ok E c.sh op
        refine ⟨.snoc g1 trivial (.call t op ht), upd stg t (.begin op), th_upd g2 t b1, g3.edge t _ b3 b4 b5, fun u => ?_⟩
        by_cases e : u = t
        · subst e; exact Or.inr ⟨op, _, upd_same _ _ _, h2 u op rfl⟩
        · have := g4 u
          rw [← upd_other c.th (.run op (body E op)) e] at this
          exact this
      | act t op x k ans sh' ht hst =>
        have hch : Changing E c (.act t x ans) := by
          have hth := g2 t
          rw [ht] at hth
          rcases g4 t with e | ⟨op', p, e, e'⟩
          · rw [ht] at e; cases e
          · rw [ht] at e
            injection e with e1 _
            subst e1
            cases hst' : stg t <;> rw [hst'] at hth <;> (try (cases hth; done)) <;>
              (injection hth with q1 q2; subst q1; first
                | (injection q2 with q2 q3; subst q2; trivial)
                | (rcases e' with e' | ⟨o, n, e'⟩ <;> cases e')
                | cases q2)
        obtain ⟨s', e1, e2⟩ := stage_step E false g3 (by rw [← g2]; exact ht) (fun h => by cases h) hst
        refine ⟨.snoc g1 hch (.act t op x k ans sh' ht hst), upd stg t s', th_upd g2 t e1, e2.inv, fun u => ?_⟩
        by_cases e : u = t
        · subst e
          rcases g4 u with e | ⟨op', p, e, e'⟩
          · rw [ht] at e; cases e
          · rw [ht] at e
            injection e with e1 _
            subst e1
            exact Or.inr ⟨_, _, upd_same _ _ _, e'⟩
        · have := g4 u
          rw [← upd_other c.th (.run op (k ans)) e] at this
          exact this
      | ret t op r ht =>
        refine ⟨.snoc g1 trivial (.ret t op r ht), upd stg t .idle, th_upd g2 t rfl, g3.edge t _ rfl rfl trivial, fun u => ?_⟩
        by_cases e : u = t
        · subst e; exact Or.inl (upd_same _ _ _)
        · have := g4 u
          rw [← upd_other c.th .idle e] at this
          exact this
  exact C40_strict_partial E tr s key.1

/-- If a call of `CompareAndSwap(old, new)` returns false, then at some moment of the call the value held was not
equal to `old`, unless a `Store` or `Swap` wrote a value equal to the one held during the call. -/
theorem C40_moment_partial (E : GoEq T) (t : Tid) (o n : T) (tr0 tr : List (Lab T)) (s0 s1 s2 : Cfg T)
    (h : FullCall (body E) (start T) t (.cas o n) (.bool false) tr0 tr s0 s1 s2)
    (hc : ExecIf (Changing E) (body E) s1 tr s2) :
    ∃ m, During (body E) s1 tr s2 m ∧ E.eq (value m.sh) o = false := by
  have hb : ∃ a, Rel E false s0 a := by
    obtain ⟨a, L, hr, -⟩ := (sim E false).book (.of_exec (fun _ _ h => by cases h) h.before)
    exact ⟨a, hr⟩
  obtain ⟨a, stg0, N, k1, -, k3, -⟩ := hb
  have hs1 : s1 = ⟨s0.sh, upd s0.th t (.run (.cas o n) (body E (.cas o n)))⟩ := by
    have := h.call
    cases this with
    | call _ _ ht => rfl
  have key : ∀ {tr : List (Lab T)} {s : Cfg T}, ExecIf (Changing E) (body E) s1 tr s → (∀ op r, .ret t op r ∉ tr) →
      ∃ stg : Tid → Stage T, (∀ u, s.th u = (stg u).thread E) ∧ Inv E s.sh stg ∧
        ((stg t).status E s.sh = .pending (.cas o n) ∨ (stg t).status E s.sh = .done (.cas o n) (.bool true) ∨
          (stg t).status E s.sh = .done (.cas o n) (.bool false) ∧
            ∃ m, During (body E) s1 tr s m ∧ E.eq (value m.sh) o = false) := by
    intro tr s he
    induction he with
    | nil =>
      intro _
      obtain ⟨b1, b2, b3, b4, b5⟩ := begin_ok E s0.sh (.cas o n)
      rw [hs1]
      exact ⟨upd stg0 t (.begin (.cas o n)), th_upd k1 t b1, k3.edge t _ b3 b4 b5, Or.inl (by rw [upd_same]; exact b2)⟩
    | @snoc tr c c' l he hq hs ih =>
      intro hn
      obtain ⟨stg, g1, g2, g3⟩ := ih (fun op r hm => hn op r (List.mem_append.2 (Or.inl hm)))
      have nidle : stg t ≠ .idle := by
        intro e
        rw [e] at g3
        rcases g3 with g3 | g3 | ⟨g3, -⟩ <;> cases g3
      have hs' := hs
      -- the status of `t` is the same, or it failed in this step
      have fin : ∀ stg' : Tid → Stage T, (∀ u, c'.th u = (stg' u).thread E) → Inv E c'.sh stg' →
          ((stg' t).status E c'.sh = (stg t).status E c.sh ∨
            ((stg t).status E c.sh = .pending (.cas o n) ∧ ((stg' t).status E c'.sh = .done (.cas o n) (.bool true) ∨
              (stg' t).status E c'.sh = .done (.cas o n) (.bool false) ∧ E.eq (value c'.sh) o = false))) →
          ∃ stg : Tid → Stage T, (∀ u, c'.th u = (stg u).thread E) ∧ Inv E c'.sh stg ∧
            ((stg t).status E c'.sh = .pending (.cas o n) ∨ (stg t).status E c'.sh = .done (.cas o n) (.bool true) ∨
            (stg t).status E c'.sh = .done (.cas o n) (.bool false) ∧
              ∃ m, During (body E) s1 (tr ++ [l]) c' m ∧ E.eq (value m.sh) o = false) := by
        intro stg' f1 f2 f3
        refine ⟨stg', f1, f2, ?_⟩
        rcases f3 with e | ⟨-, e | ⟨e, e'⟩⟩
        · rw [e]
          rcases g3 with g3 | g3 | ⟨g3, m, hm, hv⟩
          · exact Or.inl g3
          · exact Or.inr (Or.inl g3)
          · exact Or.inr (Or.inr ⟨g3, m, hm.snoc hs', hv⟩)
        · exact Or.inr (Or.inl e)
        · exact Or.inr (Or.inr ⟨e, c', During.last (.snoc he.exec hs'), e'⟩)
      cases hs with
      | call u op hu =>
        obtain ⟨b1, b2, b3, b4, b5⟩ := begin_ok E c.sh op
        have : t ≠ u := by
          rintro rfl
          exact nidle (thread_idle (by rw [← g1]; exact hu))
        refine fin (upd stg u (.begin op)) (th_upd g1 u b1) (g2.edge u _ b3 b4 b5) (Or.inl ?_)
        rw [upd_other _ _ this]
      | act u op x k ans sh' hu hst =>
        obtain ⟨s', e1, e2⟩ := stage_step E true g2 (by rw [← g1]; exact hu) (fun _ => hq) hst
        refine fin (upd stg u s') (th_upd g1 u e1) e2.inv ?_
        by_cases ct : t = u
        · subst ct
          rw [upd_same]
          rcases e2.own with ⟨-, e⟩ | ⟨op', r, p1, p2, p3⟩
          · exact Or.inl e
          · right
            rcases g3 with g3 | g3 | ⟨g3, -⟩
            · rw [g3] at p1
              injection p1 with p1
              subst p1
              refine ⟨g3, ?_⟩
              rcases p3 with ⟨rfl, -, -⟩ | ⟨rfl, e, e'⟩
              · exact Or.inl p2
              · refine Or.inr ⟨p2, ?_⟩
                show E.eq (value sh') o = false
                rw [e]; exact e' rfl
            · rw [g3] at p1; cases p1
            · rw [g3] at p1; cases p1
        · rw [upd_other _ _ ct]
          rcases e2.others t ct with e | ⟨o', n', p1, p2, p3⟩
          · exact Or.inl e
          · right
            rcases g3 with g3 | g3 | ⟨g3, -⟩
            · rw [g3] at p1
              injection p1 with p1
              injection p1 with p1 p1'
              subst p1 p1'
              exact ⟨g3, Or.inr ⟨p2, p3 rfl⟩⟩
            · rw [g3] at p1; cases p1
            · rw [g3] at p1; cases p1
      | ret u op r hu =>
        have : t ≠ u := by
          rintro rfl
          exact hn op r (by simp)
        refine fin (upd stg u .idle) (th_upd g1 u rfl) (g2.edge u _ rfl rfl trivial) (Or.inl ?_)
        rw [upd_other _ _ this]
  obtain ⟨stg, g1, -, g3⟩ := key hc h.none
  have hst : stg t = .fin (.cas o n) (.bool false) := thread_ret (by rw [← g1]; exact h.ret)
  rw [hst] at g3
  rcases g3 with g3 | g3 | ⟨-, g3⟩
  · cases g3
  · cases g3
  · exact g3

/-- Full C40. -/
def C40_full_statement : Prop := ∀ (tr : List (Lab Nat)) (s : Cfg Nat),
  Exec (body (exactEq Nat)) (start Nat) tr s → Linearizable (var (exactEq Nat) true) (history tr)

/-- The value is 1; a `CompareAndSwap(1, 2)` has read it; another goroutine stores 1 again. -/
def spurious : List (Conc.Go (Op Nat)) := whole 1 (.store 1) 2 ++
  [.call 0 (.cas 1 2), .act 0, .act 0, .act 0] ++ whole 1 (.store 1) 2 ++ [.act 0, .ret 0]

/-- `CompareAndSwap(1, 2)` fails although the value always was 1. -/
theorem C40_full_false : ¬ C40_full_statement := by
  intro h
  let H : List (Event (Op Nat) (Res Nat)) := [.inv 1 (.store 1), .ret 1 .unit, .inv 0 (.cas 1 2), .inv 1 (.store 1), .ret 1 .unit,
    .ret 0 (.bool false)]
  obtain ⟨tr, s, he, hH⟩ := play_history (E := exactEq Nat) (gs := spurious) (H := H) rfl
  have hl := h tr s he
  rw [hH] at hl
  have r1 : Returns H 0 1 (.store 1) .unit := ⟨1, rfl, rfl, by decide, fun k e h1 h2 => by omega⟩
  have r2 : Returns H 2 5 (.cas 1 2) (.bool false) := by
    refine ⟨0, rfl, rfl, by decide, fun k e h1 h2 h3 => ?_⟩
    match k, h1, h2, h3 with
    | 3, _, _, h3 => cases h3; decide
    | 4, _, _, h3 => cases h3; decide
  obtain ⟨l, x, x', g1, g2, g3, g4⟩ := hl.before r2
  have hm := g3 0 1 _ _ r1 (by decide)
  have all : ∀ e ∈ l, e.2.1 = .store 1 := by
    intro e he'
    obtain ⟨k1, ⟨t, k2⟩, -⟩ := g4 e he'
    obtain ⟨i, op, r⟩ := e
    match i, k1, k2 with
    | 0, _, k2 => cases k2; rfl
    | 1, _, k2 => cases k2
    | 3, _, k2 => cases k2; rfl
    | 4, _, k2 => cases k2
    | 5, _, k2 => cases k2
    | i + 6, _, k2 => cases k2
  have key : ∀ (l : List (Op Nat × Res Nat)) (y : (var (exactEq Nat) true).St),
      (var (exactEq Nat) true).Run (var (exactEq Nat) true).init l y →
      (∀ e ∈ l, e.1 = .store 1) → l = [] ∨ y = (1 : Nat) := by
    intro l y hr
    induction hr with
    | nil => intro _; exact Or.inl rfl
    | @snoc s1 s2 l op r _ hs _ =>
      intro ha
      have := ha (op, r) (by simp)
      simp only at this
      subst this
      exact Or.inr hs.2
  rcases key _ x g1 (fun e he' => by
    obtain ⟨e', he'', rfl⟩ := List.mem_map.1 he'
    exact all e' he'') with e | e
  · rw [List.map_eq_nil_iff] at e
    rw [e] at hm; cases hm
  · subst e
    rcases g2 with ⟨e, -⟩ | ⟨-, -, e⟩
    · cases e
    · have := e rfl
      revert this
      decide

/-- Whether a step changes the value. -/
def changing (E : GoEq T) (x : Cfg T × Lab T) : Bool :=
  match x.2 with
  | .act _ (.store q) _ => !E.eq (look x.1.sh (some q)) (value x.1.sh)
  | .act _ (.swap q) _ => !E.eq (look x.1.sh (some q)) (value x.1.sh)
  | _ => true

theorem changing_ok {E : GoEq T} {x : Cfg T × Lab T} (h : changing E x = true) : Changing E x.1 x.2 := by
  obtain ⟨c, l⟩ := x
  cases l with
  | call _ _ => trivial
  | ret _ _ _ => trivial
  | act t a ans =>
    cases a <;> first | trivial | simpa [changing, Changing] using h

/-- A call that fails because the value was changed, to 7 and back to 1, all steps changing the value. -/
example : ∃ tr s, ExecIf (Changing (exactEq Nat)) (body (exactEq Nat)) (start Nat) tr s ∧
    history tr = [.inv 1 (.store 1), .ret 1 .unit, .inv 0 (.cas 1 2), .inv 1 (.store 7), .ret 1 .unit,
      .inv 1 (.swap 1), .ret 1 (.val 7), .ret 0 (.bool false)] := by
  let gs : List (Conc.Go (Op Nat)) := whole 1 (.store 1) 2 ++ [.call 0 (.cas 1 2), .act 0, .act 0, .act 0] ++
    whole 1 (.store 7) 2 ++ whole 1 (.swap 1) 3 ++ [.act 0, .ret 0]
  have h : (play (exactEq Nat) gs (start Nat)).map (fun x => (history x.1, (x.2.1.zip x.1).all (changing (exactEq Nat)))) =
      some ([.inv 1 (.store 1), .ret 1 .unit, .inv 0 (.cas 1 2), .inv 1 (.store 7), .ret 1 .unit,
        .inv 1 (.swap 1), .ret 1 (.val 7), .ret 0 (.bool false)], true) := rfl
  rw [Option.map_eq_some_iff] at h
  obtain ⟨⟨tr, cs, s⟩, h1, h2⟩ := h
  injection h2 with h2 h3
  exact ⟨tr, s, followAll_if outcome_step h1 (fun x hx => changing_ok (List.all_eq_true.1 h3 x hx)), h2⟩

/-! ## C41 -/

/-- The cells are allocated from the front and the pointer points to one. -/
def Ok (σ : Sh T) : Prop := At σ σ.cur (value σ) ∧ ∃ B, ∀ q, B ≤ q → σ.heap q = none

theorem zero_ok : Ok (zero : Sh T) := ⟨rfl, 0, fun _ _ => rfl⟩

theorem Ok.put {σ : Sh T} (h : Ok σ) {q : Nat} (v : T) (hq : σ.heap q = none) :
    Ok (σ.put q v) ∧ value (σ.put q v) = value σ := by
  have hv := value_put (v := v) h.1 hq
  refine ⟨⟨by rw [hv]; exact h.1.put hq, ?_⟩, hv⟩
  obtain ⟨B, hB⟩ := h.2
  refine ⟨max B (q + 1), fun x hx => ?_⟩
  simp only [Sh.put]
  rw [if_neg (by omega)]
  exact hB x (by omega)

theorem Ok.publish {σ : Sh T} (h : Ok σ) {q : Nat} {v : T} (hq : σ.heap q = some v) :
    Ok { σ with cur := some q } ∧ value { σ with cur := some q } = v := by
  have hv : value { σ with cur := some q } = v := by simp [value, look, hq]
  exact ⟨⟨by rw [hv]; exact hq, h.2⟩, hv⟩

theorem Ok.free {σ : Sh T} (h : Ok σ) : ∃ q, σ.heap q = none := by
  obtain ⟨B, hB⟩ := h.2
  exact ⟨B, hB B (Nat.le_refl B)⟩

theorem alone_valueAt (t : Tid) {σ : Sh T} {post : Res T → Sh T → Prop} {p : Option Nat} {w : T} (h : At σ p w)
    (hp : post (.val w) σ) : Always (mach T) t post (valueAt p) σ := by
  cases p with
  | none =>
    simp only [At] at h
    subst h
    exact hp
  | some p =>
    refine ⟨⟨w, σ, .deref σ p w h⟩, fun ans σ' hs => ?_⟩
    cases hs with
    | deref _ _ _ hd =>
      simp only [At] at h
      rw [h] at hd
      injection hd with hd
      subst hd
      exact hp

theorem alone_casRest (E : GoEq T) (t : Tid) {σ : Sh T} {o n : T} {q : Nat} (h : Ok σ) (hq : σ.heap q = some n) :
    Always (mach T) t (fun r σ' => Ok σ' ∧ Legal E true (value σ) (.cas o n) r (value σ'))
      (casRest E o n q σ.cur (value σ)) σ := by
  unfold casRest
  split
  · rename_i c1
    exact ⟨h, Or.inr ⟨rfl, rfl, fun _ => c1⟩⟩
  · rename_i c1
    split
    · rename_i c2
      exact ⟨h, Or.inl ⟨rfl, by simpa using c1, Or.inr ⟨c2, rfl⟩⟩⟩
    · refine ⟨⟨true, _, .casHit σ _ q rfl⟩, fun ans σ' hs => ?_⟩
      cases hs with
      | casHit _ _ _ _ =>
        obtain ⟨g1, g2⟩ := h.publish hq
        exact ⟨g1, Or.inl ⟨rfl, by simpa using c1, Or.inl g2⟩⟩
      | casMiss _ _ _ hc => exact absurd rfl hc

/-- Alone, the methods do what they should. -/
theorem alone_body (E : GoEq T) (t : Tid) (op : Op T) {σ : Sh T} (h : Ok σ) :
    Always (mach T) t (fun r σ' => Ok σ' ∧ Legal E true (value σ) op r (value σ')) (body E op) σ := by
  cases op with
  | load =>
    refine ⟨⟨_, _, .load σ⟩, fun ans σ' hs => ?_⟩
    cases hs with
    | load => exact alone_valueAt t h.1 ⟨h, rfl, rfl⟩
  | store v =>
    obtain ⟨q0, hq0⟩ := h.free
    refine ⟨⟨_, _, .alloc σ v q0 hq0⟩, fun q σ' hs => ?_⟩
    cases hs with
    | alloc _ _ _ hq =>
      refine ⟨⟨(), _, .store _ q⟩, fun ans σ'' hs => ?_⟩
      cases hs with
      | store =>
        obtain ⟨g1, g2⟩ := (h.put v hq).1.publish (q := q) (v := v) (by simp [Sh.put])
        exact ⟨g1, rfl, g2⟩
  | swap v =>
    obtain ⟨q0, hq0⟩ := h.free
    refine ⟨⟨_, _, .alloc σ v q0 hq0⟩, fun q σ' hs => ?_⟩
    cases hs with
    | alloc _ _ _ hq =>
      refine ⟨⟨_, _, .swap _ q⟩, fun ans σ'' hs => ?_⟩
      cases hs with
      | swap =>
        obtain ⟨g1, g2⟩ := (h.put v hq).1.publish (q := q) (v := v) (by simp [Sh.put])
        exact alone_valueAt t (w := value σ) (h.1.put (v := v) hq) ⟨g1, rfl, g2⟩
  | cas o n =>
    obtain ⟨q0, hq0⟩ := h.free
    refine ⟨⟨_, _, .alloc σ n q0 hq0⟩, fun q σ' hs => ?_⟩
    cases hs with
    | alloc _ _ _ hq =>
      refine ⟨⟨_, _, .load _⟩, fun ans σ'' hs => ?_⟩
      cases hs with
      | load =>
        obtain ⟨g1, g2⟩ := h.put n hq
        have hr := alone_casRest E t (o := o) (n := n) (q := q) g1 (by simp [Sh.put])
        rw [g2] at hr
        have hat := h.1.put (v := n) hq
        cases hc : (σ.put q n).cur with
        | none =>
          rw [show σ.cur = none from hc] at hat
          simp only [At] at hat
          rw [hc, hat] at hr
          rw [hat]
          exact hr
        | some p =>
          rw [show σ.cur = some p from hc] at hat
          rw [hc] at hr
          refine ⟨⟨_, _, .deref _ p _ hat⟩, fun w σ3 hs => ?_⟩
          cases hs with
          | deref _ _ _ hd =>
            have : w = value σ := Option.some.inj (hd.symm.trans hat)
            rw [this]
            exact hr

/-- Calls made one after the other, from a zero `Value`. -/
inductive OneByOne (E : GoEq T) (t : Tid) : List (Op T × Res T) → Sh T → Prop where
  | nil : OneByOne E t [] zero
  | snoc {l : List (Op T × Res T)} {σ σ' : Sh T} {op : Op T} {r : Res T} :
      OneByOne E t l σ → Big (mach T) t (body E op) σ r σ' → OneByOne E t (l ++ [(op, r)]) σ'

/-- Used by one goroutine, a zero `Value` behaves like a variable that holds the zero value, `CompareAndSwap`
succeeds exactly if the value held equals `old`, and all calls return. In particular: `Load` and `Swap` on a zero
`Value` return the zero value, `CompareAndSwap(zero, new)` succeeds, and `Load` after `Store(v)` returns `v`. -/
theorem C41_zero_value (E : GoEq T) (t : Tid) :
    (∀ l σ, OneByOne E t l σ → (∃ x, (var E true).Run (default : T) l x) ∧
      ∀ op, ∃ r σ', Big (mach T) t (body E op) σ r σ') ∧
    (∀ r σ, Big (mach T) t (body E .load) zero r σ → r = .val default) ∧
    (∀ v r σ, Big (mach T) t (body E (.swap v)) zero r σ → r = .val default) ∧
    (∀ n r σ, Big (mach T) t (body E (.cas default n)) zero r σ → E.eq default default = true → r = .bool true) ∧
    (∀ l σ v r σ1 r' σ2, OneByOne E t l σ → Big (mach T) t (body E (.store v)) σ r σ1 →
      Big (mach T) t (body E .load) σ1 r' σ2 → r' = .val v) := by
  have ok : ∀ l σ, OneByOne E t l σ → Ok σ ∧ (var E true).Run (default : T) l (value (T := T) σ) := by
    intro l σ h
    induction h with
    | nil => exact ⟨zero_ok, .nil _⟩
    | snoc _ hb ih =>
      have := Always.post hb (alone_body E t _ ih.1)
      exact ⟨this.1, .snoc ih.2 this.2⟩
  refine ⟨fun l σ h => ⟨⟨_, (ok l σ h).2⟩, fun op => Always.ends (alone_body E t op (ok l σ h).1)⟩, ?_, ?_, ?_, ?_⟩
  · intro r σ hb
    exact (Always.post hb (alone_body E t _ zero_ok)).2.1
  · intro v r σ hb
    exact (Always.post hb (alone_body E t _ zero_ok)).2.1
  · intro n r σ hb he
    rcases (Always.post hb (alone_body E t _ zero_ok)).2 with ⟨h, -⟩ | ⟨-, -, h⟩
    · exact h
    · have := h rfl
      rw [show value (zero : Sh T) = default from rfl, he] at this
      cases this
  · intro l σ v r σ1 r' σ2 h hb hb'
    have h1 := Always.post hb (alone_body E t _ (ok l σ h).1)
    have h2 := Always.post hb' (alone_body E t _ h1.1)
    rw [h1.2.2] at h2
    exact h2.2.1

/-- A history of this kind. -/
example : (play (exactEq Nat) (whole 0 .load 1 ++ whole 0 (.cas 0 3) 3 ++ whole 0 (.cas 0 4) 3 ++ whole 0 (.swap 8) 3 ++
    whole 0 (.store 9) 2 ++ whole 0 .load 2) (start Nat)).map (fun x => (history x.1).filter fun e => e matches .ret _ _) =
    some [.ret 0 (.val 0), .ret 0 (.bool true), .ret 0 (.bool false), .ret 0 (.val 3), .ret 0 .unit, .ret 0 (.val 9)] := rfl

/-! ## C68 -/

/-- The methods are wait-free: a goroutine in a call can always go on, whatever the others do, and returns after at
most four atomic steps of its own. -/
theorem C68_wait_free (E : GoEq T) :
    (∀ tr s, Exec (body E) (start T) tr s → ∀ t, s.th t ≠ .idle →
      ∃ l s', Step (body E) s l s' ∧ l.innerBy t) ∧
    (∀ tr0 s0 t op s1 tr s2, Exec (body E) (start T) tr0 s0 → Step (body E) s0 (.call t op) s1 →
      Exec (body E) s1 tr s2 → (∀ op r, .ret t op r ∉ tr) → tr.countP (Label.actBy t) ≤ 4) := by
  constructor
  · intro tr s he t ht
    have hb : ∃ B, ∀ q, B ≤ q → s.sh.heap q = none := by
      refine he.invariant (P := fun _ _ => True) (fun c : Cfg T => ∃ B, ∀ q, B ≤ q → c.sh.heap q = none) ⟨0, fun _ _ => rfl⟩
        (fun c t op h _ _ => h) ?_ (fun c t op r h _ => h) (fun _ _ _ => trivial)
      rintro c t op a k ans sh' ⟨B, hB⟩ - hs
      cases hs with
      | alloc _ v q hq =>
        refine ⟨max B (q + 1), fun x hx => ?_⟩
        simp only [Sh.put]
        rw [if_neg (by omega)]
        exact hB x (by omega)
      | load => exact ⟨B, hB⟩
      | store => exact ⟨B, hB⟩
      | swap => exact ⟨B, hB⟩
      | casHit => exact ⟨B, hB⟩
      | casMiss => exact ⟨B, hB⟩
      | deref => exact ⟨B, hB⟩
    obtain ⟨B, hB⟩ := hb
    obtain ⟨a, L, ⟨stg, N, k1, -, k3, -⟩, -⟩ := (sim E false).book (.of_exec (fun _ _ h => by cases h) he)
    cases hs : s.th t with
    | idle => exact absurd hs ht
    | run op p =>
      cases p with
      | ret r => exact ⟨_, _, .ret t op r hs, rfl⟩
      | act x k =>
        have can : ∃ ans σ', AStep t x s.sh ans σ' := by
          cases x with
          | alloc v => exact ⟨B, _, .alloc _ v B (hB B (Nat.le_refl B))⟩
          | load => exact ⟨_, _, .load _⟩
          | store q => exact ⟨_, _, .store _ q⟩
          | swap q => exact ⟨_, _, .swap _ q⟩
          | cas p q =>
            by_cases c : s.sh.cur = p
            · exact ⟨_, _, .casHit _ p q c⟩
            · exact ⟨_, _, .casMiss _ p q c⟩
          | deref p =>
            have hth := k1 t
            rw [hs] at hth
            have hl : ∃ w, (stg t).loaded = some (some p, w) := by
              cases hst : stg t <;> rw [hst] at hth <;> (try (cases hth; done)) <;>
                (injection hth with q1 q2; first
                  | (injection q2 with q2 q3; first | (injection q2 with q2; subst q2; exact ⟨_, rfl⟩) | cases q2)
                  | cases q2)
            obtain ⟨w, hw⟩ := hl
            exact ⟨w, _, .deref _ p w (k3.lo t _ w hw)⟩
        obtain ⟨ans, σ', hst⟩ := can
        exact ⟨_, _, .act t op x k ans σ' hs hst, rfl⟩
  · intro tr0 s0 t op s1 tr s2 _ hc he hn
    have hw : Within (M := mach T) 4 (body E op) := by
      have hv : ∀ n p, Within (M := mach T) (n + 1) (valueAt (T := T) p) := by
        intro n p
        cases p with
        | none => trivial
        | some p => exact fun _ => by cases n <;> trivial
      have hr : ∀ o n q p (w : T), Within (M := mach T) 1 (casRest E o n q p w) := by
        intro o n q p w
        unfold casRest
        split
        · trivial
        · split
          · trivial
          · exact fun _ => trivial
      cases op with
      | load => exact fun p => hv 2 p
      | store v => exact fun _ _ => trivial
      | swap v => exact fun _ p => hv 1 p
      | cas o n =>
        intro q p
        cases p with
        | none =>
          show Within (M := mach T) 2 (casRest E o n q none default)
          unfold casRest
          split
          · trivial
          · split
            · trivial
            · exact fun _ => trivial
        | some p => exact fun w => hr o n q (some p) w
    have h1 : s1.th t = .run op (body E op) := by
      cases hc with
      | call _ _ _ => exact upd_same _ _ _
    obtain ⟨p', m, -, -, e⟩ := he.within h1 hw hn
    omega

/-- Four steps are needed. -/
example : (play (exactEq Nat) (whole 0 (.store 1) 2 ++ whole 0 (.cas 1 2) 4) (start Nat)).map
    (fun x => x.1.countP (Label.actBy 0)) = some 6 := rfl

end Verif.AtomicValue
