import Verif.AtomicValue.Props

/-!
# C40: when exactly `CompareAndSwap` of `atomic.Value` fails

`CompareAndSwap(old, new)` loads the pointer once, compares what it points to with `old`, and, unless `new == old`,
exchanges the pointer if it is still the one it loaded. A cell is published at most once, so the pointer is still the
one it loaded exactly if nobody wrote in between. That gives the result of every call, whatever the other goroutines do.
-/

set_option linter.unusedSectionVars false

namespace Verif.AtomicValue

open Verif.Conc

variable {T : Type} [Inhabited T]

/-- The step stores a pointer: `Store`, `Swap`, or a compare and swap that succeeds. -/
def Writes : Lab T → Prop
  | .act _ (.store _) _ => True
  | .act _ (.swap _) _ => True
  | .act _ (.cas _ _) b => b = true
  | _ => False

/-- The goroutine that makes the step. -/
def who : Lab T → Tid
  | .call t _ => t
  | .act t _ _ => t
  | .ret t _ _ => t

/-- What the call by `t` of `CompareAndSwap(o, n)`, in the course of which `tr` happens and leads from the
state `s1` to the state `s2`, returns.
It loads the pointer once, in state `m`. If the value held then is not `== o` it returns false. If it is, and `n == o`,
it returns true. Otherwise it returns true exactly if no other goroutine writes between the load and its compare and
swap of the pointer. -/
def Outcome (E : GoEq T) (t : Tid) (o n : T) (s1 s2 : Cfg T) (tr : List (Lab T)) (b : Bool) : Prop :=
  ∃ (tr1 tr2 : List (Lab T)) (m : Cfg T) (p : Option Nat), tr = tr1 ++ .act t .load p :: tr2 ∧
    Exec (body E) s1 tr1 m ∧ Exec (body E) m (.act t .load p :: tr2) s2 ∧ (∀ p', .act t .load p' ∉ tr1) ∧
    (∀ p', .act t .load p' ∉ tr2) ∧
    ((E.eq (value m.sh) o = false ∧ b = false) ∨
      (E.eq (value m.sh) o = true ∧ E.eq n o = true ∧ b = true) ∨
      (E.eq (value m.sh) o = true ∧ E.eq n o = false ∧ ∃ q tr3 tr4, tr2 = tr3 ++ .act t (.cas p q) b :: tr4 ∧
        (b = true ↔ ∀ l ∈ tr3, who l ≠ t → ¬ Writes l)))

/-! ## Proof -/

theorem At.unique {σ : Sh T} {p : Option Nat} {w w' : T} (h : At σ p w) (h' : At σ p w') : w = w' := by
  rw [← h.look, h'.look]

/-- A pointer about to be published has not been loaded by anybody. -/
theorem Inv.fresh {E : GoEq T} {σ : Sh T} {stg : Tid → Stage T} (h : Inv E σ stg) {u t : Tid} {q : Nat} {v w : T}
    {p : Option Nat} (hq : (stg u).priv = some (q, v)) (hl : (stg t).loaded = some (p, w)) : some q ≠ p := by
  rintro rfl
  exact (h.pr u q v hq).2.2.1 t w hl

/-- A step that writes moves the pointer away from what `t` loaded, any other leaves it. -/
theorem cur_step {E : GoEq T} {σ σ' : Sh T} {stg : Tid → Stage T} (h : Inv E σ stg) {u t : Tid} {op : Op T}
    {x : Act T} {k : Ans x → P T} {ans : Ans x} {p : Option Nat} {w : T}
    (hu : (stg u).thread E = .run op (.act x k)) (hl : (stg t).loaded = some (p, w)) (hs : AStep u x σ ans σ') :
    (Writes (.act u x ans : Lab T) → σ'.cur ≠ p) ∧ (¬ Writes (.act u x ans : Lab T) → σ'.cur = σ.cur) := by
  have pub : ∀ q, (∃ v, (stg u).priv = some (q, v)) → some q ≠ p := fun q ⟨v, hv⟩ => h.fresh hv hl
  cases hs with
  | alloc _ v q hq => exact ⟨fun h => h.elim, fun _ => rfl⟩
  | load _ => exact ⟨fun h => h.elim, fun _ => rfl⟩
  | store _ q =>
    refine ⟨fun _ => pub q ?_, fun h => (h trivial).elim⟩
    revert hu
    cases stg u <;> intro hu <;> first | cases hu | skip
    · exact ⟨_, rfl⟩
  | swap _ q =>
    refine ⟨fun _ => pub q ?_, fun h => (h trivial).elim⟩
    revert hu
    cases stg u <;> intro hu <;> first | cases hu | skip
    · exact ⟨_, rfl⟩
  | casHit _ p' q hp =>
    refine ⟨fun _ => pub q ?_, fun h => (h rfl).elim⟩
    revert hu
    cases stg u <;> intro hu <;> first | cases hu | skip
    · exact ⟨_, rfl⟩
  | casMiss _ p' q hp => exact ⟨fun h => (by cases h), fun _ => rfl⟩
  | deref _ p' v hv => exact ⟨fun h => h.elim, fun _ => rfl⟩

/-- How far `t` has come. -/
inductive Far (E : GoEq T) (t : Tid) (o n : T) (s1 : Cfg T) (tr : List (Lab T)) (s : Cfg T) : Stage T → Prop where
  | alloc : (∀ p', .act t .load p' ∉ tr) → Far E t o n s1 tr s (.cas0 o n)
  | load (q : Nat) : (∀ p', .act t .load p' ∉ tr) → Far E t o n s1 tr s (.cas1 o n q)
  | read (tr1 tr2 : List (Lab T)) (m : Cfg T) (p : Option Nat) (st : Stage T) (q : Nat) :
      tr = tr1 ++ .act t .load p :: tr2 → Exec (body E) s1 tr1 m → Exec (body E) m (.act t .load p :: tr2) s →
      (∀ p', .act t .load p' ∉ tr1) →
      (∀ p', .act t .load p' ∉ tr2) → (s.sh.cur = p ↔ ∀ l ∈ tr2, who l ≠ t → ¬ Writes l) →
      ((∃ p0, p = some p0 ∧ st = .cas2 o n q p0 (value m.sh)) ∨ st = .cas3 o n q p (value m.sh)) →
      Far E t o n s1 tr s st
  | fin (b : Bool) : Outcome E t o n s1 s tr b → Far E t o n s1 tr s (.fin (.cas o n) (.bool b))

theorem not_mem_snoc {tr : List (Lab T)} {l : Lab T} {t : Tid} (h : ∀ p', .act t .load p' ∉ tr)
    (hl : ∀ p', l ≠ .act t .load p') : ∀ p', .act t .load p' ∉ tr ++ [l] := by
  intro p' hm
  rcases List.mem_append.1 hm with hm | hm
  · exact h p' hm
  · exact hl p' (List.mem_singleton.1 hm).symm

theorem Outcome.snoc {E : GoEq T} {t : Tid} {o n : T} {s1 s s' : Cfg T} {tr : List (Lab T)} {b : Bool}
    {l : Lab T} (h : Outcome E t o n s1 s tr b) (hs : Step (body E) s l s') (hl : ∀ p', l ≠ .act t .load p') :
    Outcome E t o n s1 s' (tr ++ [l]) b := by
  obtain ⟨tr1, tr2, m, p, rfl, h2, hx, h3, h4, h5⟩ := h
  refine ⟨tr1, tr2 ++ [l], m, p, by simp, h2, .snoc hx hs, h3, not_mem_snoc h4 hl, ?_⟩
  rcases h5 with h5 | h5 | ⟨a, b, q, tr3, tr4, rfl, h6⟩
  · exact Or.inl h5
  · exact Or.inr (Or.inl h5)
  · exact Or.inr (Or.inr ⟨a, b, q, tr3, tr4 ++ [l], by simp, h6⟩)

/-- The stages whose goroutine is about to go on after reading `w` through `p`. -/
theorem thread_rest {E : GoEq T} {s : Stage T} {o n w : T} {q : Nat} {p : Option Nat}
    (h : s.thread E = .run (.cas o n) (casRest E o n q p w)) :
    (E.eq w o = false ∧ s = .fin (.cas o n) (.bool false)) ∨
    (E.eq w o = true ∧ E.eq n o = true ∧ s = .fin (.cas o n) (.bool true)) ∨
    (E.eq w o = true ∧ E.eq n o = false ∧ ∃ w', s = .cas3 o n q p w') := by
  unfold casRest at h
  by_cases c1 : E.eq w o = false
  · rw [if_pos c1] at h
    exact Or.inl ⟨c1, thread_ret h⟩
  · rw [if_neg c1] at h
    have c1' : E.eq w o = true := by simpa using c1
    by_cases c2 : E.eq n o = true
    · rw [if_pos c2] at h
      exact Or.inr (Or.inl ⟨c1', c2, thread_ret h⟩)
    · rw [if_neg c2] at h
      refine Or.inr (Or.inr ⟨c1', by simpa using c2, ?_⟩)
      revert h
      cases s <;> intro h <;> first | cases h | skip
      · rename_i w'
        exact ⟨w', rfl⟩

theorem thread_cas1 {E : GoEq T} {s : Stage T} {o n : T} {k : Option Nat → P T}
    (h : s.thread E = .run (.cas o n) (.act .load k)) : ∃ q, s = .cas1 o n q := by
  revert h
  cases s <;> intro h <;> first | cases h | skip
  · rename_i q
    exact ⟨q, rfl⟩

theorem thread_cas2 {E : GoEq T} {s : Stage T} {o n : T} {p : Nat} {k : T → P T}
    (h : s.thread E = .run (.cas o n) (.act (.deref p) k)) : ∃ q w, s = .cas2 o n q p w := by
  revert h
  cases s <;> intro h <;> first | cases h | skip
  · rename_i q w
    exact ⟨q, w, rfl⟩

/-- The result of a completed `CompareAndSwap`, in every execution. -/
theorem C40_exact (E : GoEq T) (t : Tid) (o n : T) (b : Bool) (tr0 tr : List (Lab T)) (s0 s1 s2 : Cfg T)
    (h : FullCall (body E) (start T) t (.cas o n) (.bool b) tr0 tr s0 s1 s2) : Outcome E t o n s1 s2 tr b := by
  have hb : ∃ a, Rel E false s0 a := by
    obtain ⟨a, L, hr, -⟩ := (sim E false).book (.of_exec (fun _ _ h => by cases h) h.before)
    exact ⟨a, hr⟩
  obtain ⟨a, stg0, N, k1, -, k3, -⟩ := hb
  have hs1 : s1 = ⟨s0.sh, upd s0.th t (.run (.cas o n) (body E (.cas o n)))⟩ := by
    have := h.call
    cases this with
    | call _ _ ht => rfl
  have key : ∀ {tr : List (Lab T)} {s : Cfg T}, Exec (body E) s1 tr s → (∀ op r, .ret t op r ∉ tr) →
      ∃ stg : Tid → Stage T, (∀ u, s.th u = (stg u).thread E) ∧ Inv E s.sh stg ∧ Far E t o n s1 tr s (stg t) := by
    intro tr s he
    induction he with
    | nil =>
      intro _
      obtain ⟨b1, b2, b3, b4, b5⟩ := begin_ok E s0.sh (.cas o n)
      rw [hs1]
      refine ⟨upd stg0 t (.begin (.cas o n)), th_upd k1 t b1, k3.edge t _ b3 b4 b5, ?_⟩
      rw [upd_same]
      exact .alloc (by simp)
    | @snoc tr c c' l he hs ih =>
      intro hn
      obtain ⟨stg, g1, g2, g3⟩ := ih (fun op r hm => hn op r (List.mem_append.2 (Or.inl hm)))
      have nidle : stg t ≠ .idle := by
        intro e
        rw [e] at g3
        cases g3 with
        | read _ _ _ _ _ _ _ _ _ _ _ _ h => rcases h with ⟨_, _, h⟩ | h <;> cases h
      -- a step of another goroutine
      have other : who l ≠ t → (∀ p w, (stg t).loaded = some (p, w) →
          (Writes l → c'.sh.cur ≠ p) ∧ (¬ Writes l → c'.sh.cur = c.sh.cur)) → Far E t o n s1 (tr ++ [l]) c' (stg t) := by
        intro hw hcur
        have hl : ∀ p', l ≠ .act t .load p' := by rintro p' rfl; exact hw rfl
        revert g3 hcur
        generalize stg t = st
        intro g3 hcur
        cases g3 with
        | alloc h1 => exact .alloc (not_mem_snoc h1 hl)
        | load q h1 => exact .load q (not_mem_snoc h1 hl)
        | read tr1 tr2 m p st q h1 h2 hx h3 h4 h5 h6 =>
          refine .read tr1 (tr2 ++ [l]) m p st q (by rw [h1]; simp) h2 (.snoc hx hs) h3 (not_mem_snoc h4 hl) ?_ h6
          have hl' : st.loaded = some (p, value m.sh) := by
            rcases h6 with ⟨p0, rfl, rfl⟩ | rfl <;> rfl
          obtain ⟨w1, w2⟩ := hcur _ _ hl'
          by_cases cw : Writes l
          · constructor
            · intro e; exact absurd e (w1 cw)
            · intro e; exact absurd cw (e l (by simp) hw)
          · rw [w2 cw, h5]
            constructor
            · intro e x hx hx'
              rcases List.mem_append.1 hx with hx | hx
              · exact e x hx hx'
              · rw [List.mem_singleton.1 hx]; exact cw
            · intro e x hx hx'
              exact e x (List.mem_append.2 (Or.inl hx)) hx'
        | fin b ho => exact .fin b (ho.snoc hs hl)
      have hs' := hs
      cases hs with
      | call u op hu =>
        obtain ⟨b1, b2, b3, b4, b5⟩ := begin_ok E c.sh op
        have : t ≠ u := by
          rintro rfl
          exact nidle (thread_idle (by rw [← g1]; exact hu))
        refine ⟨upd stg u (.begin op), th_upd g1 u b1, g2.edge u _ b3 b4 b5, ?_⟩
        rw [upd_other _ _ this]
        exact other (fun e => this e.symm) fun p w _ => ⟨fun h => h.elim, fun _ => rfl⟩
      | ret u op r hu =>
        have : t ≠ u := by
          rintro rfl
          exact hn op r (by simp)
        refine ⟨upd stg u .idle, th_upd g1 u rfl, g2.edge u _ rfl rfl trivial, ?_⟩
        rw [upd_other _ _ this]
        exact other (fun e => this e.symm) fun p w _ => ⟨fun h => h.elim, fun _ => rfl⟩
      | act u op x k ans sh' hu hst =>
        have hu' : (stg u).thread E = .run op (.act x k) := by rw [← g1]; exact hu
        obtain ⟨s', e1, e2⟩ := stage_step E false g2 hu' (fun h => by cases h) hst
        refine ⟨upd stg u s', th_upd g1 u e1, e2.inv, ?_⟩
        by_cases ct : t = u
        · subst ct
          have hinv := e2.inv.lo t
          rw [upd_same] at hinv ⊢
          have hlo := g2.lo t
          have hloc := g2.loc t
          revert g3 hu' hlo hloc
          generalize stg t = st
          intro g3 hu' hlo hloc
          cases g3 with
          | alloc h1 =>
            cases hu'
            obtain ⟨q, rfl⟩ := thread_cas1 e1
            exact .load q (not_mem_snoc h1 fun p' => by simp)
          | load q h1 =>
            cases hu'
            cases hst
            -- the state at the load is `c`
            cases hp : c.sh.cur with
            | none =>
              rw [hp] at e1 hs'
              have hv : value c.sh = default := by simp [value, look, hp]
              rcases thread_rest e1 with ⟨a1, rfl⟩ | ⟨a1, a2, rfl⟩ | ⟨a1, a2, w', rfl⟩
              · exact .fin false ⟨tr, [], c, none, rfl, he, .snoc .nil hs', h1, by simp, Or.inl ⟨by rw [hv]; exact a1, rfl⟩⟩
              · exact .fin true ⟨tr, [], c, none, rfl, he, .snoc .nil hs', h1, by simp,
                  Or.inr (Or.inl ⟨by rw [hv]; exact a1, a2, rfl⟩)⟩
              · have hw : w' = value c.sh := by
                  rw [hv]; exact hinv _ _ rfl
                subst hw
                exact .read tr [] c none _ q rfl he (.snoc .nil hs') h1 (by simp) (by simp [hp]) (Or.inr rfl)
            | some p0 =>
              rw [hp] at e1 hs'
              obtain ⟨q', w', rfl⟩ := thread_cas2 e1
              have hw : w' = value c.sh := by
                have := (hinv _ _ rfl).look
                rw [← this, value, hp]
              subst hw
              exact .read tr [] c (some p0) _ q' rfl he (.snoc .nil hs') h1 (by simp) (by simp [hp]) (Or.inl ⟨p0, rfl, rfl⟩)
          | read tr1 tr2 m p st q h1 h2 hx h3 h4 h5 h6 =>
            rcases h6 with ⟨p0, rfl, rfl⟩ | rfl
            · cases hu'
              have hv : At c.sh (some p0) (value m.sh) := hlo _ _ rfl
              cases hst with
              | deref _ _ v hd =>
                have : ans = value m.sh := At.unique (σ := c.sh) (p := some p0) hd hv
                subst this
                have hl : ∀ p', (.act t (.deref p0) (value m.sh) : Lab T) ≠ .act t .load p' := fun p' => by simp
                have e : tr ++ [.act t (.deref p0) (value m.sh)] =
                  tr1 ++ .act t .load (some p0) :: (tr2 ++ [.act t (.deref p0) (value m.sh)]) := by rw [h1]; simp
                rcases thread_rest e1 with ⟨a1, rfl⟩ | ⟨a1, a2, rfl⟩ | ⟨a1, a2, w', rfl⟩
                · exact .fin false ⟨tr1, _, m, some p0, e, h2, .snoc hx hs', h3, not_mem_snoc h4 hl, Or.inl ⟨a1, rfl⟩⟩
                · exact .fin true ⟨tr1, _, m, some p0, e, h2, .snoc hx hs', h3, not_mem_snoc h4 hl, Or.inr (Or.inl ⟨a1, a2, rfl⟩)⟩
                · have : w' = value m.sh := At.unique (σ := c.sh) (p := some p0) (hinv _ _ rfl) hv
                  subst this
                  refine .read tr1 _ m (some p0) _ q e h2 (.snoc hx hs') h3 (not_mem_snoc h4 hl) ?_ (Or.inr rfl)
                  show c.sh.cur = _ ↔ _
                  rw [h5]
                  constructor
                  · intro e x hx hx'
                    rcases List.mem_append.1 hx with hx | hx
                    · exact e x hx hx'
                    · rw [List.mem_singleton.1 hx] at hx'
                      exact absurd rfl hx'
                  · intro e x hx hx'
                    exact e x (List.mem_append.2 (Or.inl hx)) hx'
            · have hloc : E.eq (value m.sh) o = true ∧ E.eq n o = false := hloc
              cases hu'
              have done : ∀ b : Bool, (b = true ↔ c.sh.cur = p) →
                  ∀ s, Step (body E) c (.act t (.cas p q) b) s → Outcome E t o n s1 s (tr ++ [.act t (.cas p q) b]) b := by
                intro b hb s hs
                have hx' := Exec.snoc hx hs
                have e : tr ++ [.act t (.cas p q) b] = tr1 ++ .act t .load p :: (tr2 ++ [.act t (.cas p q) b]) := by
                  rw [h1]; simp
                refine ⟨tr1, _, m, p, e, h2, hx', h3,
                  not_mem_snoc h4 (fun p' => by simp), Or.inr (Or.inr ⟨hloc.1, hloc.2, q, tr2, [], rfl, ?_⟩)⟩
                rw [hb, h5]
              cases hst with
              | casHit _ _ _ hp =>
                obtain rfl := thread_ret e1
                exact .fin true (done true (by simp [hp]) _ hs')
              | casMiss _ _ _ hp =>
                obtain rfl := thread_ret e1
                exact .fin false (done false (by simp [hp]) _ hs')
          | fin b ho => cases hu'
        · rw [upd_other _ _ ct]
          exact other (fun e => ct e.symm) fun p w hl => cur_step g2 hu' hl hst
  obtain ⟨stg, g1, -, g3⟩ := key h.inside h.none
  have hst : stg t = .fin (.cas o n) (.bool b) := thread_ret (by rw [← g1]; exact h.ret)
  rw [hst] at g3
  cases g3 with
  | read _ _ _ _ _ _ _ _ _ _ _ _ h => rcases h with ⟨_, _, h⟩ | h <;> cases h
  | fin _ ho => exact ho

/-- A call during which nobody else writes returns true exactly if the value held when it loads is `== old`. -/
theorem C40_alone (E : GoEq T) (t : Tid) (o n : T) (b : Bool) (tr0 tr : List (Lab T)) (s0 s1 s2 : Cfg T)
    (h : FullCall (body E) (start T) t (.cas o n) (.bool b) tr0 tr s0 s1 s2)
    (ha : ∀ l ∈ tr, who l ≠ t → ¬ Writes l) :
    ∃ tr1 tr2 m p, tr = tr1 ++ .act t .load p :: tr2 ∧ Exec (body E) s1 tr1 m ∧
      Exec (body E) m (.act t .load p :: tr2) s2 ∧ (b = true ↔ E.eq (value m.sh) o = true) := by
  obtain ⟨tr1, tr2, m, p, rfl, h2, hx, -, -, h5⟩ := C40_exact E t o n b tr0 tr s0 s1 s2 h
  refine ⟨tr1, tr2, m, p, rfl, h2, hx, ?_⟩
  rcases h5 with ⟨a, rfl⟩ | ⟨a, -, rfl⟩ | ⟨a, -, q, tr3, tr4, rfl, h6⟩
  · simp [a]
  · simp [a]
  · rw [h6, a]
    exact ⟨fun _ => rfl, fun _ l hl => ha l (by simp [hl])⟩

/-- A call that fails although the value held was `== old` all the time: another goroutine wrote, between the load and
the compare and swap. -/
theorem C40_in_vain (E : GoEq T) (t : Tid) (o n : T) (tr0 tr : List (Lab T)) (s0 s1 s2 : Cfg T)
    (h : FullCall (body E) (start T) t (.cas o n) (.bool false) tr0 tr s0 s1 s2)
    (hv : ∀ m, During (body E) s1 tr s2 m → E.eq (value m.sh) o = true) :
    E.eq n o = false ∧ ∃ tr1 p tr3 q tr4 l, tr = tr1 ++ .act t .load p :: (tr3 ++ .act t (.cas p q) false :: tr4) ∧
      l ∈ tr3 ∧ who l ≠ t ∧ Writes l := by
  obtain ⟨tr1, tr2, m, p, rfl, h2, hx, -, -, h5⟩ := C40_exact E t o n false tr0 tr s0 s1 s2 h
  have hm : E.eq (value m.sh) o = true := hv m ⟨tr1, _, rfl, h2, hx⟩
  rcases h5 with ⟨a, -⟩ | ⟨a, -, e⟩ | ⟨a, hn, q, tr3, tr4, rfl, h6⟩
  · rw [hm] at a; cases a
  · cases e
  · refine ⟨hn, tr1, p, tr3, q, tr4, ?_⟩
    have : ¬ ∀ l ∈ tr3, who l ≠ t → ¬ Writes l := fun hh => by cases h6.2 hh
    simp only [Classical.not_forall, Classical.not_not] at this
    obtain ⟨l, k1, k2, k3⟩ := this
    exact ⟨l, rfl, k1, k2, k3⟩

/-! ## Examples -/

/-- No return of goroutine 0. -/
def open_ (l : List (Lab Nat)) : Bool := l.all fun
  | .ret t _ _ => t != 0
  | _ => true

/-- A schedule shows a complete call of goroutine 0. -/
theorem shown_call (gs0 gs : List (Conc.Go (Op Nat))) (op : Op Nat) (r : Res Nat)
    (h : ((play (exactEq Nat) gs0 (start Nat)).bind fun x => (play (exactEq Nat) [.call 0 op] x.2.2).bind fun y =>
      (play (exactEq Nat) gs y.2.2).map fun z => (open_ z.1, z.2.1.map fun m => value m.sh, z.2.2.th 0)) =
        some (true, List.replicate (gs.length + 1) 1, .run op (.ret r))) :
    ∃ tr0 tr s0 s1 s2, FullCall (body (exactEq Nat)) (start Nat) 0 op r tr0 tr s0 s1 s2 ∧
      ∀ m, During (body (exactEq Nat)) s1 tr s2 m → value m.sh = 1 := by
  cases hx : play (exactEq Nat) gs0 (start Nat) with
  | none => rw [hx] at h; cases h
  | some x =>
    rw [hx, Option.bind_some] at h
    cases hy : play (exactEq Nat) [.call 0 op] x.2.2 with
    | none => rw [hy] at h; cases h
    | some y =>
      rw [hy, Option.bind_some] at h
      cases hz : play (exactEq Nat) gs y.2.2 with
      | none => rw [hz] at h; cases h
      | some z =>
        rw [hz, Option.map_some, Option.some.injEq] at h
        injection h with h1 h2
        injection h2 with h2 h3
        obtain ⟨tr0, cs0, s0⟩ := x
        obtain ⟨tr1, cs1, s1⟩ := y
        obtain ⟨tr, cs, s2⟩ := z
        have hcall : Step (body (exactEq Nat)) s0 (.call 0 op) s1 := by
          unfold play at hy
          simp only [followAll] at hy
          cases hf : follow (M := mach Nat) (R := Res Nat) (body (exactEq Nat)) outcome s0 (.call 0 op) with
          | none => rw [hf] at hy; cases hy
          | some w =>
            rw [hf] at hy
            simp only [Option.some.injEq, Prod.mk.injEq] at hy
            obtain ⟨l, s⟩ := w
            obtain ⟨-, -, rfl⟩ := hy
            have := follow_step outcome_step hf
            simp only [follow] at hf
            split at hf
            · simp only [Option.some.injEq, Prod.mk.injEq] at hf
              obtain ⟨rfl, -⟩ := hf
              exact this
            · cases hf
        refine ⟨tr0, tr, s0, s1, s2, ⟨play_exec hx, hcall, play_exec hz, ?_, h3⟩, ?_⟩
        · intro op r hm
          have := List.all_eq_true.1 h1 _ hm
          simp at this
        · intro m hm
          have hm' : m ∈ cs := followAll_during outcome_step
            (fun t a σ ans σ1 σ2 h1 h2 => by cases h1 <;> cases h2 <;> rfl) hz hm
          have : value m.sh ∈ cs.map fun m => value m.sh := List.mem_map_of_mem hm'
          rw [h2] at this
          exact (List.mem_replicate.1 this).2

/-- The value is 1; while goroutine 0 is between the load and the compare and swap of `CompareAndSwap(1, 2)`,
goroutine 1 stores 1 again. The call returns false though the value was 1 all the time. -/
example : ∃ tr0 tr s0 s1 s2,
    FullCall (body (exactEq Nat)) (start Nat) 0 (.cas 1 2) (.bool false) tr0 tr s0 s1 s2 ∧
    ∀ m, During (body (exactEq Nat)) s1 tr s2 m → value m.sh = 1 :=
  shown_call (whole 1 (.store 1) 2) ([.act 0, .act 0, .act 0] ++ whole 1 (.store 1) 2 ++ [.act 0]) _ _ rfl

/-- Goroutine 1 stores 1 before goroutine 0 loads: the call returns true. Only its last step changes the value. -/
example : ∃ tr s, Exec (body (exactEq Nat)) (start Nat) tr s ∧
    history tr = [.inv 1 (.store 1), .ret 1 .unit, .inv 0 (.cas 1 2), .inv 1 (.store 1), .ret 1 .unit, .ret 0 (.bool true)] :=
  play_history (gs := whole 1 (.store 1) 2 ++ [.call 0 (.cas 1 2), .act 0] ++ whole 1 (.store 1) 2 ++
    [.act 0, .act 0, .act 0, .ret 0]) rfl

/-! ## The types on which C39 and C40 hold

`CompareAndSwap` gives what it should give for C39 exactly on the types whose `==` is equality (floats are not among
them, for 0 and -0); C40 fails on every type with a value `o == o` and a value `n != o`. -/

theorem Stores.of_legal {E : GoEq T} (hE : ∀ a b, E.eq a b = true → a = b) {x x' : T} {op : Op T} {r : Res T}
    (h : Legal E false x op r x') : Stores E x op r x' := by
  cases op with
  | load => exact h
  | store v => exact h
  | swap v => exact h
  | cas o n =>
    rcases h with ⟨h1, h2, h3⟩ | ⟨h1, h2, -⟩
    · refine Or.inl ⟨h1, h2, ?_⟩
      rcases h3 with h3 | ⟨h3, h4⟩
      · exact h3
      · rw [h4, hE _ _ h2, hE _ _ h3]
    · exact Or.inr ⟨h1, h2⟩

/-- `Store(a)`, `CompareAndSwap(a, b)` where `a == b`, then `Load`. -/
def keptHistory (a b : T) : List (Event (Op T) (Res T)) :=
  [.inv 0 (.store a), .ret 0 .unit, .inv 0 (.cas a b), .ret 0 (.bool true), .inv 0 .load, .ret 0 (.val a)]

theorem kept_history (E : GoEq T) (a b : T) (hab : E.eq a b = true) :
    ∃ tr s, Exec (body E) (start T) tr s ∧ history tr = keptHistory a b := by
  have hba := E.symm _ _ hab
  have e : casRest E a b 1 (some 0) a = .ret (.bool true) := by simp [casRest, E.trans _ _ _ hab hba, hba]
  obtain ⟨tr, cs, c, h1, h2, h3, h4, h5⟩ : ∃ tr cs c, play E (whole 0 (.store a) 2 ++ [.call 0 (.cas a b), .act 0, .act 0,
      .act 0]) (start T) = some (tr, cs, c) ∧ history tr = [.inv 0 (.store a), .ret 0 .unit, .inv 0 (.cas a b)] ∧
      c.th 0 = Thread.run (.cas a b) (casRest E a b 1 (some 0) a) ∧ c.sh.cur = some 0 ∧ c.sh.heap 0 = some a :=
    ⟨_, _, _, rfl, rfl, rfl, rfl, rfl⟩
  rw [e] at h3
  have g1 := (play_exec h1).snoc (.ret 0 _ _ h3)
  have g2 := g1.snoc (.call 0 .load (upd_same c.th 0 .idle))
  have hs : AStep 0 .load c.sh (some 0) c.sh := h4 ▸ AStep.load (t := 0) c.sh
  have g3 := g2.snoc (.act (M := mach T) 0 .load .load _ (some 0) c.sh rfl hs)
  have hs' : AStep 0 (.deref 0) c.sh a c.sh := .deref _ _ _ h5
  have g4 := g3.snoc (.act (M := mach T) 0 .load (.deref 0) _ a c.sh rfl hs')
  have g5 := g4.snoc (.ret 0 .load (.val a) rfl)
  refine ⟨_, _, g5, ?_⟩
  simp only [history_append, h2]
  rfl

/-- `Store(o)`; then `CompareAndSwap(o, n)` while another goroutine stores `o` again. -/
def vainHistory (o n : T) : List (Event (Op T) (Res T)) := [.inv 1 (.store o), .ret 1 .unit, .inv 0 (.cas o n),
  .inv 1 (.store o), .ret 1 .unit, .ret 0 (.bool false)]

theorem vain_history (E : GoEq T) (o n : T) (ho : E.eq o o = true) (hn : E.eq n o = false) :
    ∃ tr s, Exec (body E) (start T) tr s ∧ history tr = vainHistory o n := by
  have e : casRest E o n 1 (some 0) o = .act (.cas (some 0) 1) fun b => .ret (.bool b) := by simp [casRest, ho, hn]
  obtain ⟨tr, cs, c, h1, h2, h3, h4⟩ : ∃ tr cs c, play E (whole 1 (.store o) 2 ++ [.call 0 (.cas o n), .act 0, .act 0,
      .act 0] ++ whole 1 (.store o) 2) (start T) = some (tr, cs, c) ∧ history tr = [.inv 1 (.store o), .ret 1 .unit,
        .inv 0 (.cas o n), .inv 1 (.store o), .ret 1 .unit] ∧
      c.th 0 = Thread.run (.cas o n) (casRest E o n 1 (some 0) o) ∧ c.sh.cur = some 2 :=
    ⟨_, _, _, rfl, rfl, rfl, rfl⟩
  rw [e] at h3
  have hs : AStep 0 (.cas (some 0) 1) c.sh false c.sh := .casMiss _ _ _ (by rw [h4]; decide)
  have g1 := (play_exec h1).snoc (.act (M := mach T) 0 (.cas o n) (.cas (some 0) 1) _ false c.sh h3 hs)
  have g2 := g1.snoc (.ret 0 (.cas o n) (.bool false) rfl)
  refine ⟨_, _, g2, ?_⟩
  simp only [history_append, h2]
  rfl

/-- The types on which every execution of `Load`, `Store`, `Swap` and `CompareAndSwap` is linearizable as a variable
into which a successful `CompareAndSwap` stores `new`. -/
theorem C39_iff (E : GoEq T) : (∀ (tr : List (Lab T)) (s : Cfg T), Exec (body E) (start T) tr s →
      Linearizable (storesVar E) (history tr)) ↔ ∀ a b, E.eq a b = true → a = b := by
  constructor
  · intro h a b hab
    obtain ⟨tr, s, he, hH⟩ := kept_history E a b hab
    have hl := h tr s he
    rw [hH] at hl
    obtain ⟨L, s, h1, h2, h3, h4, h5⟩ := hl
    have r2 : Returns (keptHistory a b) 2 3 (.cas a b) (.bool true) :=
      ⟨0, rfl, rfl, by decide, fun k e h1 h2 => by omega⟩
    have r3 : Returns (keptHistory a b) 4 5 .load (.val a) := ⟨0, rfl, rfl, by decide, fun k e h1 h2 => by omega⟩
    have idx : ∀ i op r, (i, op, r) ∈ L → i = 0 ∨ i = 2 ∨ i = 4 := by
      intro i op r hm
      obtain ⟨t, ht⟩ := h3 i op r hm
      match i, ht with
      | 0, _ => exact Or.inl rfl
      | 1, ht => cases ht
      | 2, _ => exact Or.inr (Or.inl rfl)
      | 3, ht => cases ht
      | 4, _ => exact Or.inr (Or.inr rfl)
      | 5, ht => cases ht
      | i + 6, ht => cases ht
    obtain ⟨l1, l2, rfl⟩ := List.append_of_mem (h4 _ _ _ _ r3)
    have hm : (2, .cas a b, .bool true) ∈ l1 := by
      rcases List.mem_append.1 (h4 _ _ _ _ r2) with hm | hm
      · exact hm
      · rcases List.mem_cons.1 hm with e | hm
        · cases e
        · have := (List.pairwise_cons.1 (List.pairwise_append.1 h5).2.1).1 _ hm _ _ _ r2
          simp at this
    obtain ⟨k1, k2, rfl⟩ := List.append_of_mem hm
    have hk : k2 = [] := by
      cases k2 with
      | nil => rfl
      | cons x k2 =>
        obtain ⟨i, op, r⟩ := x
        exfalso
        have r1 : Returns (keptHistory a b) 0 1 (.store a) .unit := ⟨0, rfl, rfl, by decide, fun k e h1 h2 => by omega⟩
        have hx : (i, op, r) ∈ k1 ++ (2, .cas a b, .bool true) :: (i, op, r) :: k2 := by simp
        simp only [List.map_append, List.map_cons] at h2
        rcases idx i op r (List.mem_append.2 (Or.inl hx)) with rfl | rfl | rfl
        · have := List.pairwise_append.1 (List.pairwise_append.1 h5).1
          have := (List.pairwise_cons.1 this.2.1).1 (0, op, r) (by simp) _ _ _ r1
          simp at this
        · simp [List.nodup_append] at h2
        · simp [List.nodup_append] at h2
    subst hk
    simp only [List.map_append, List.map_cons, List.append_assoc, List.cons_append, List.nil_append] at h1
    obtain ⟨m1, -, h1⟩ := SeqSpec.Run.split _ _ h1
    obtain ⟨m2, q1, h1⟩ := SeqSpec.Run.split [(Op.cas a b, Res.bool true)] _ h1
    obtain ⟨m3, q2, -⟩ := SeqSpec.Run.split [(Op.load, Res.val a)] _ h1
    have q2 := q2.one
    rcases q1.one with ⟨-, -, e⟩ | ⟨e, -⟩
    · subst e
      injection q2.1
    · cases e
  · intro hE tr s he
    obtain ⟨L, s, h1, h2⟩ := C39_linearizable_partial E tr s he
    refine ⟨L, s, ?_, h2⟩
    clear h2
    generalize L.map Prod.snd = l at h1 ⊢
    induction h1 with
    | nil => exact .nil _
    | snoc _ hl ih => exact .snoc ih (Stores.of_legal hE hl)

/-- C40 fails on every type that has a value `o == o` and a value `n != o`. -/
theorem C40_fails (E : GoEq T) (o n : T) (ho : E.eq o o = true) (hn : E.eq n o = false) :
    ¬ ∀ (tr : List (Lab T)) (s : Cfg T), Exec (body E) (start T) tr s → Linearizable (var E true) (history tr) := by
  intro h
  obtain ⟨tr, s, he, hH⟩ := vain_history E o n ho hn
  have hl := h tr s he
  rw [hH] at hl
  have r1 : Returns (vainHistory o n) 0 1 (.store o) .unit := ⟨1, rfl, rfl, by decide, fun k e h1 h2 => by omega⟩
  have r2 : Returns (vainHistory o n) 2 5 (.cas o n) (.bool false) := by
    refine ⟨0, rfl, rfl, by decide, fun k e h1 h2 h3 => ?_⟩
    match k, h1, h2, h3 with
    | 3, _, _, h3 => cases h3; simp [Event.tid]
    | 4, _, _, h3 => cases h3; simp [Event.tid]
  obtain ⟨l, x, x', g1, g2, g3, g4⟩ := hl.before r2
  have hm := g3 0 1 _ _ r1 (by decide)
  have all : ∀ e ∈ l, e.2.1 = .store o := by
    intro e he'
    obtain ⟨k1, ⟨t, k2⟩, -⟩ := g4 e he'
    obtain ⟨i, op, r⟩ := e
    match i, k1, k2 with
    | 0, _, k2 => cases k2; rfl
    | 1, _, k2 => cases k2
    | 3, _, k2 => cases k2; rfl
    | 4, _, k2 => cases k2
    | 5, _, k2 => cases k2
    | i + 6, _, k2 => cases k2
  have key : ∀ (l : List (Op T × Res T)) (y : (var E true).St), (var E true).Run (var E true).init l y →
      (∀ e ∈ l, e.1 = .store o) → l = [] ∨ y = o := by
    intro l y hr
    induction hr with
    | nil => intro _; exact Or.inl rfl
    | @snoc s1 s2 l op r _ hs _ =>
      intro ha
      have := ha (op, r) (by simp)
      simp only at this
      subst this
      exact Or.inr hs.2
  rcases key _ x g1 (fun e he' => by
    obtain ⟨e', he'', rfl⟩ := List.mem_map.1 he'
    exact all e' he'') with e | e
  · rw [List.map_eq_nil_iff] at e
    rw [e] at hm; cases hm
  · subst e
    rcases g2 with ⟨e, -⟩ | ⟨-, -, e⟩
    · cases e
    · have := e rfl
      rw [ho] at this
      cases this

/-- Both on the natural numbers: C39 holds, C40 does not. -/
example : ∀ a b, (exactEq Nat).eq a b = true → a = b := by simp [exactEq]

example : (exactEq Nat).eq 1 1 = true ∧ (exactEq Nat).eq 2 1 = false := by decide

/-- For `==` on zeros with a sign C39 fails. -/
example : ¬ ∀ a b, zeroEq.eq a b = true → a = b := fun h => by cases h .plus .minus rfl

end Verif.AtomicValue
