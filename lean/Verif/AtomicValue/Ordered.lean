import Verif.Conc.Before
import Verif.AtomicValue.Props

/-!
# C122: what is stored in an `atomic.Value` is published safely
-/

set_option linter.unusedSectionVars false

namespace Verif.AtomicValue

open Verif.Conc

variable {T : Type} [Inhabited T]

/-! ## Specification -/

/-- The step sets the pointer to `q`. -/
def Sets (tr : List (Lab T)) (n : Nat) (q : Nat) : Prop :=
  ∃ t, Does tr n t (.store q) ∨ Does tr n t (.swap q) ∨ ∃ p, Answers tr n t (.cas p q) true

/-- The step finds the pointer to be `q`. -/
def Finds (tr : List (Lab T)) (n : Nat) (q : Nat) : Prop :=
  ∃ t, Answers tr n t .load (some q) ∨ (∃ q', Answers tr n t (.swap q') (some q)) ∨
    ∃ q', Answers tr n t (.cas (some q) q') true

/-- What atomic operations order (Go memory model, "Atomic Values"): who sets the pointer, and who finds what was set,
with no other setting in between. -/
def Sync (tr : List (Lab T)) (m n : Nat) : Prop :=
  m < n ∧ ∃ q, Sets tr m q ∧ Finds tr n q ∧ ∀ k q', m < k → k < n → ¬ Sets tr k q'

/-! ## Proof -/

/-- The program publishes only cells it allocated (`own`) and reads only cells whose address it got from the pointer
(`seen`). -/
def Safe : List Nat → List Nat → P T → Prop
  | _, _, .ret _ => True
  | own, seen, .act (.alloc _) k => ∀ q, Safe (q :: own) seen (k q)
  | own, seen, .act .load k => ∀ p : Option Nat, Safe own (p.toList ++ seen) (k p)
  | own, seen, .act (.store q) k => q ∈ own ∧ Safe own seen (k ())
  | own, seen, .act (.swap q) k => q ∈ own ∧ ∀ p : Option Nat, Safe own (p.toList ++ seen) (k p)
  | own, seen, .act (.cas _ q) k => q ∈ own ∧ ∀ b, Safe own seen (k b)
  | own, seen, .act (.deref p) k => p ∈ seen ∧ ∀ v, Safe own seen (k v)

theorem safe_body (E : GoEq T) (op : Op T) : Safe [] [] (body E op) := by
  cases op with
  | load =>
    intro p
    cases p with
    | none => trivial
    | some p => exact ⟨by simp, fun v => trivial⟩
  | store v => exact fun q => ⟨by simp, trivial⟩
  | swap v =>
    refine fun q => ⟨by simp, fun p => ?_⟩
    cases p with
    | none => trivial
    | some p => exact ⟨by simp, fun v => trivial⟩
  | cas o n =>
    have rest : ∀ (q : Nat) (p : Option Nat) (w : T) (seen : List Nat), Safe [q] seen (casRest E o n q p w) := by
      intro q p w seen
      unfold casRest
      split
      · trivial
      · split
        · trivial
        · exact ⟨by simp, fun b => trivial⟩
    intro q p
    cases p with
    | none => exact rest _ _ _ _
    | some p => exact ⟨by simp, fun w => rest _ _ _ _⟩

/-- Cell `q` was allocated at step `m`. -/
def Made (tr : List (Lab T)) (m : Nat) (q : Nat) : Prop := ∃ t v, Answers tr m t (.alloc v) q

theorem Made.snoc {tr : List (Lab T)} {m q : Nat} (h : Made tr m q) (l : Lab T) : Made (tr ++ [l]) m q := by
  obtain ⟨t, v, h⟩ := h
  exact ⟨t, v, h.snoc l⟩

theorem Sets.snoc {tr : List (Lab T)} {m q : Nat} (h : Sets tr m q) (l : Lab T) : Sets (tr ++ [l]) m q := by
  obtain ⟨t, h | h | ⟨p, h⟩⟩ := h
  · exact ⟨t, .inl (h.snoc l)⟩
  · exact ⟨t, .inr (.inl (h.snoc l))⟩
  · exact ⟨t, .inr (.inr ⟨p, h.snoc l⟩)⟩

theorem Sets.bound {tr : List (Lab T)} {m q : Nat} (h : Sets tr m q) : m < tr.length := by
  obtain ⟨t, h | h | ⟨p, h⟩⟩ := h <;> exact h.bound

theorem Finds.snoc {tr : List (Lab T)} {m q : Nat} (h : Finds tr m q) (l : Lab T) : Finds (tr ++ [l]) m q := by
  obtain ⟨t, h | ⟨q', h⟩ | ⟨p, h⟩⟩ := h
  · exact ⟨t, .inl (h.snoc l)⟩
  · exact ⟨t, .inr (.inl ⟨q', h.snoc l⟩)⟩
  · exact ⟨t, .inr (.inr ⟨p, h.snoc l⟩)⟩

theorem Finds.bound {tr : List (Lab T)} {m q : Nat} (h : Finds tr m q) : m < tr.length := by
  obtain ⟨t, h | ⟨q', h⟩ | ⟨p, h⟩⟩ := h <;> exact h.bound

/-- Earlier steps set what they set. -/
theorem Sets.of_snoc {tr : List (Lab T)} {m q : Nat} {l : Lab T} (h : Sets (tr ++ [l]) m q) (hm : m < tr.length) :
    Sets tr m q := by
  obtain ⟨t, h | h | ⟨p, h⟩⟩ := h
  · rcases h.of_snoc with h | ⟨rfl, -⟩
    · exact ⟨t, .inl h⟩
    · omega
  · rcases h.of_snoc with h | ⟨rfl, -⟩
    · exact ⟨t, .inr (.inl h)⟩
    · omega
  · rcases h.of_snoc with h | ⟨rfl, -⟩
    · exact ⟨t, .inr (.inr ⟨p, h⟩)⟩
    · omega

theorem Sync.snoc {tr : List (Lab T)} {m n : Nat} (h : Sync tr m n) (l : Lab T) : Sync (tr ++ [l]) m n := by
  obtain ⟨h1, q, h2, h3, h4⟩ := h
  refine ⟨h1, q, h2.snoc l, h3.snoc l, fun k q' hk hk' hs => ?_⟩
  have := h3.bound
  exact h4 k q' hk hk' (hs.of_snoc (by omega))

theorem grow {tr : List (Lab T)} {m n : Nat} (h : Before (Sync tr) tr m n) (l : Lab T) :
    Before (Sync (tr ++ [l])) (tr ++ [l]) m n := h.mono [l] fun _ _ h => h.snoc l

/-- What the steps so far tell. -/
structure Pub (tr : List (Lab T)) (σ : Sh T) (own seen : Tid → List Nat) : Prop where
  /-- what was allocated is there -/
  there : ∀ m q, Made tr m q → σ.heap q ≠ none
  /-- no address is given out twice -/
  once : ∀ m n q, Made tr m q → Made tr n q → m = n
  /-- cells goroutines have allocated -/
  own : ∀ t q, q ∈ own t → ∃ m v, Answers tr m t (.alloc v) q
  /-- cells they have found -/
  seen : ∀ t q, q ∈ seen t → ∃ m n a, Made tr m q ∧ Before (Sync tr) tr m n ∧ Does tr n t a
  /-- the cell the pointer points to -/
  cur : ∀ q, σ.cur = some q → ∃ m n, Made tr m q ∧ Before (Sync tr) tr m n ∧ Sets tr n q ∧
    ∀ k q', n < k → ¬ Sets tr k q'
  /-- cells read -/
  read : ∀ m n q t, Made tr m q → Does tr n t (.deref q) → Before (Sync tr) tr m n
  /-- what was read is there -/
  used : ∀ n t q, Does tr n t (.deref q) → σ.heap q ≠ none

theorem sets_of_quiet {tr : List (Lab T)} {k q : Nat} {l : Lab T} (hl : ∀ q, ¬ Sets (tr ++ [l]) tr.length q)
    (h : Sets (tr ++ [l]) k q) : Sets tr k q := by
  have := h.bound
  simp at this
  by_cases c : k = tr.length
  · subst c; exact absurd h (hl q)
  · exact h.of_snoc (by omega)

/-- A step that allocates nothing and sets nothing, and reads only what was found. -/
theorem Pub.calm {tr : List (Lab T)} {σ : Sh T} {own seen seen' own' : Tid → List Nat} (h : Pub tr σ own seen) {l : Lab T}
    (h1 : ∀ t v q, l ≠ .act t (.alloc v) q) (h2 : ∀ q, ¬ Sets (tr ++ [l]) tr.length q)
    (h3 : ∀ t q v, l = .act t (.deref q) v → q ∈ seen t ∧ σ.heap q ≠ none)
    (ho : ∀ t q, q ∈ own' t → q ∈ own t)
    (hn : ∀ t q, q ∈ seen' t → q ∈ seen t ∨ σ.cur = some q ∧ Finds (tr ++ [l]) tr.length q ∧ l.tid = t ∧
      ∃ a ans, l = .act t a ans) :
    Pub (tr ++ [l]) σ own' seen' := by
  have made : ∀ {m q}, Made (tr ++ [l]) m q → Made tr m q := by
    rintro m q ⟨t, v, hm⟩
    rcases hm.of_snoc with hm | ⟨-, e⟩
    · exact ⟨t, v, hm⟩
    · exact absurd e (h1 _ _ _)
  refine ⟨fun m q hm => h.there m q (made hm), fun m n q hm hn => h.once m n q (made hm) (made hn), ?_, ?_, ?_, ?_, ?_⟩
  · intro t q hq
    obtain ⟨m, v, hm⟩ := h.own t q (ho t q hq)
    exact ⟨m, v, hm.snoc l⟩
  · intro t q hq
    rcases hn t q hq with hq | ⟨hq, hf, -, a, ans, rfl⟩
    · obtain ⟨m, n, a, k1, k2, k3⟩ := h.seen t q hq
      exact ⟨m, n, a, k1.snoc l, grow k2 l, k3.snoc l⟩
    · obtain ⟨m, n, k1, k2, k3, k4⟩ := h.cur q hq
      refine ⟨m, tr.length, a, k1.snoc _, (grow k2 _).trans (.sync ⟨k3.bound, q, k3.snoc _, hf, ?_⟩), Does.last _ _ _ _⟩
      intro k q' h5 h6 h7
      exact k4 k q' h5 (h7.of_snoc h6)
  · intro q hq
    obtain ⟨m, n, k1, k2, k3, k4⟩ := h.cur q hq
    exact ⟨m, n, k1.snoc l, grow k2 l, k3.snoc l, fun k q' hk hs => k4 k q' hk (sets_of_quiet h2 hs)⟩
  · intro m n q t hm hd
    rcases hd.of_snoc with hd | ⟨rfl, v, rfl⟩
    · exact grow (h.read m n q t (made hm) hd) l
    · obtain ⟨m', n', a, k1, k2, k3⟩ := h.seen t q (h3 t q v rfl).1
      have := h.once m m' q (made hm) k1
      subst this
      exact (grow k2 _).trans (Does.program k3.bound (k3.snoc _) (Does.last _ _ _ _))
  · intro n t q hd
    rcases hd.of_snoc with hd | ⟨rfl, v, rfl⟩
    · exact h.used n t q hd
    · exact (h3 t q v rfl).2

/-- A step that sets the pointer to a cell of its goroutine. -/
theorem Pub.set {tr : List (Lab T)} {σ : Sh T} {own seen seen' : Tid → List Nat} (h : Pub tr σ own seen) {t : Tid}
    {a : Act T} {ans : Ans a} {q : Nat}
    (h1 : ∀ v, a ≠ .alloc v) (h2 : Sets (tr ++ [.act t a ans]) tr.length q) (h3 : ∀ q, a ≠ .deref q) (hq : q ∈ own t)
    (hn : ∀ u p, p ∈ seen' u → p ∈ seen u ∨ σ.cur = some p ∧ Finds (tr ++ [.act t a ans]) tr.length p ∧ t = u) :
    Pub (tr ++ [.act t a ans]) { σ with cur := some q } own seen' := by
  have made : ∀ {m q}, Made (tr ++ [.act t a ans]) m q → Made tr m q := by
    rintro m q ⟨u, v, hm⟩
    rcases hm.of_snoc with hm | ⟨-, e⟩
    · exact ⟨u, v, hm⟩
    · injection e with e1 e2
      exact absurd e2 (h1 _)
  refine ⟨fun m q hm => h.there m q (made hm), fun m n q hm hn => h.once m n q (made hm) (made hn), ?_, ?_, ?_, ?_, ?_⟩
  · intro u p hp
    obtain ⟨m, v, hm⟩ := h.own u p hp
    exact ⟨m, v, hm.snoc _⟩
  · intro u p hp
    rcases hn u p hp with hp' | ⟨hp', hf, rfl⟩
    · obtain ⟨m, n, a, k1, k2, k3⟩ := h.seen u p hp'
      exact ⟨m, n, a, k1.snoc _, grow k2 _, k3.snoc _⟩
    · obtain ⟨m, n, k1, k2, k3, k4⟩ := h.cur p hp'
      refine ⟨m, tr.length, a, k1.snoc _, (grow k2 _).trans (.sync ⟨k3.bound, p, k3.snoc _, hf, ?_⟩), Does.last _ _ _ _⟩
      intro k q' h5 h6 h7
      exact k4 k q' h5 (h7.of_snoc h6)
  · intro p hp
    injection hp with hp
    subst hp
    obtain ⟨m, v, hm⟩ := h.own t q hq
    refine ⟨m, tr.length, ⟨t, v, hm.snoc _⟩, Does.program hm.bound (hm.snoc _).does (Does.last _ _ _ _), h2, ?_⟩
    intro k q' hk hs
    have := hs.bound
    simp at this
    omega
  · intro m n p u hm hd
    rcases hd.of_snoc with hd | ⟨rfl, v, e⟩
    · exact grow (h.read m n p u (made hm) hd) _
    · injection e with e1 e2
      exact absurd e2 (h3 _)
  · intro n u p hd
    rcases hd.of_snoc with hd | ⟨-, v, e⟩
    · exact h.used n u p hd
    · injection e with e1 e2
      exact absurd e2 (h3 _)

/-- A step that allocates. -/
theorem Pub.make {tr : List (Lab T)} {σ : Sh T} {own seen own' : Tid → List Nat} (h : Pub tr σ own seen) {t : Tid} {v : T}
    {q : Nat} (hq : σ.heap q = none) (ho : ∀ u p, p ∈ own' u → p ∈ own u ∨ p = q ∧ u = t) :
    Pub (tr ++ [.act t (.alloc v) q]) (σ.put q v) own' seen := by
  have made : ∀ {m p}, Made (tr ++ [.act t (.alloc v) q]) m p → Made tr m p ∧ p ≠ q ∨ m = tr.length ∧ p = q := by
    rintro m p ⟨u, w, hm⟩
    rcases hm.of_snoc with hm' | ⟨rfl, e⟩
    · refine .inl ⟨⟨u, w, hm'⟩, ?_⟩
      rintro rfl
      exact h.there m p ⟨u, w, hm'⟩ hq
    · injection e with e1 e2 e3
      exact .inr ⟨rfl, e3.symm⟩
  have quiet : ∀ p, ¬ Sets (tr ++ [.act t (.alloc v) q]) tr.length p := by
    rintro p ⟨u, hs | hs | ⟨p', hs⟩⟩
    · rcases hs.of_snoc with hs | ⟨-, ans, e⟩
      · exact absurd hs.bound (Nat.lt_irrefl _)
      · injection e with e1 e2; cases e2
    · rcases hs.of_snoc with hs | ⟨-, ans, e⟩
      · exact absurd hs.bound (Nat.lt_irrefl _)
      · injection e with e1 e2; cases e2
    · rcases hs.of_snoc with hs | ⟨-, e⟩
      · exact absurd hs.bound (Nat.lt_irrefl _)
      · injection e with e1 e2; cases e2
  refine ⟨?_, ?_, ?_, ?_, ?_, ?_, ?_⟩
  · intro m p hm
    rcases made hm with ⟨hm, hp⟩ | ⟨-, rfl⟩
    · simp only [Sh.put, if_neg hp]
      exact h.there m p hm
    · simp [Sh.put]
  · intro m n p hm hn
    rcases made hm with ⟨hm, hp⟩ | ⟨rfl, rfl⟩ <;> rcases made hn with ⟨hn, hp'⟩ | ⟨rfl, e⟩
    · exact h.once m n p hm hn
    · exact absurd e hp
    · exact absurd rfl hp'
    · rfl
  · intro u p hp
    rcases ho u p hp with hp | ⟨rfl, rfl⟩
    · obtain ⟨m, w, hm⟩ := h.own u p hp
      exact ⟨m, w, hm.snoc _⟩
    · exact ⟨tr.length, v, Answers.last _ _ _ _⟩
  · intro u p hp
    obtain ⟨m, n, a, k1, k2, k3⟩ := h.seen u p hp
    exact ⟨m, n, a, k1.snoc _, grow k2 _, k3.snoc _⟩
  · intro p hp
    obtain ⟨m, n, k1, k2, k3, k4⟩ := h.cur p hp
    exact ⟨m, n, k1.snoc _, grow k2 _, k3.snoc _, fun k q' hk hs => k4 k q' hk (sets_of_quiet quiet hs)⟩
  · intro m n p u hm hr
    rcases hr.of_snoc with hr' | ⟨-, w, e⟩
    · rcases made hm with ⟨hm', -⟩ | ⟨-, rfl⟩
      · exact grow (h.read m n p u hm' hr') _
      · exact absurd hq (h.used n u p hr')
    · injection e with e1 e2; cases e2
  · intro n u p hr
    rcases hr.of_snoc with hr | ⟨-, w, e⟩
    · simp only [Sh.put]
      split
      · simp
      · exact h.used n u p hr
    · injection e with e1 e2; cases e2

theorem pub {E : GoEq T} {tr : List (Lab T)} {s : Cfg T} (he : Exec (body E) (start T) tr s) :
    ∃ own seen : Tid → List Nat, Pub tr s.sh own seen ∧ ∀ t, match s.th t with
      | .idle => own t = [] ∧ seen t = []
      | .run _ p => Safe (own t) (seen t) p := by
  induction he with
  | nil =>
    refine ⟨fun _ => [], fun _ => [], ⟨?_, ?_, ?_, ?_, ?_, ?_, ?_⟩, fun t => ⟨rfl, rfl⟩⟩
    · rintro m q ⟨t, v, h⟩; have := h.bound; simp at this
    · rintro m n q ⟨t, v, h⟩; have := h.bound; simp at this
    · intro t q h; cases h
    · intro t q h; cases h
    · intro q h; cases h
    · rintro m n q u ⟨t, v, h⟩; have := h.bound; simp at this
    · intro n t q h; have := h.bound; simp at this
  | @snoc tr c c' l _ hs ih =>
    obtain ⟨own, seen, K, H⟩ := ih
    cases hs with
    | call t op hi =>
      refine ⟨own, seen, K.calm (by intros; nofun) ?_ (by intro _ _ _ e; cases e) (fun _ _ h => h) (fun _ _ h => .inl h), ?_⟩
      · rintro q ⟨u, h | h | ⟨p, h⟩⟩ <;> rcases h.of_snoc with h | h
        all_goals first | exact absurd h.bound (Nat.lt_irrefl _) | (obtain ⟨-, ans, e⟩ := h; cases e) | (obtain ⟨-, e⟩ := h; cases e)
      · intro u
        by_cases hu : u = t
        · subst hu
          have := H u
          rw [hi] at this
          simp only [upd_same]
          rw [this.1, this.2]
          exact safe_body E op
        · simp only [upd_other _ _ hu]; exact H u
    | ret t op r hr =>
      refine ⟨upd own t [], upd seen t [], K.calm (by intros; nofun) ?_ (by intro _ _ _ e; cases e) ?_ ?_, ?_⟩
      · rintro q ⟨u, h | h | ⟨p, h⟩⟩ <;> rcases h.of_snoc with h | h
        all_goals first | exact absurd h.bound (Nat.lt_irrefl _) | (obtain ⟨-, ans, e⟩ := h; cases e) | (obtain ⟨-, e⟩ := h; cases e)
      · intro u q hq
        by_cases hu : u = t
        · subst hu; rw [upd_same] at hq; cases hq
        · rw [upd_other _ _ hu] at hq; exact hq
      · intro u q hq
        by_cases hu : u = t
        · subst hu; rw [upd_same] at hq; cases hq
        · rw [upd_other _ _ hu] at hq; exact .inl hq
      · intro u
        by_cases hu : u = t
        · subst hu
          simp only [upd_same]
          trivial
        · simp only [upd_other _ _ hu]; exact H u
    | act t op a k ans sh' hr hst =>
      have ht := H t
      rw [hr] at ht
      have rest : ∀ {o s : List Nat}, Safe o s (k ans) → ∀ u, match upd c.th t (.run op (k ans)) u with
          | .idle => upd own t o u = [] ∧ upd seen t s u = []
          | .run _ p => Safe (upd own t o u) (upd seen t s u) p := by
        intro o s h u
        by_cases hu : u = t
        · subst hu; simp only [upd_same]; exact h
        · simp only [upd_other _ _ hu]; exact H u
      have same : ∀ (f : Tid → List Nat) u (q : Nat), q ∈ upd f t (f t) u ↔ q ∈ f u := by
        intro f u q
        by_cases hu : u = t
        · subst hu; rw [upd_same]
        · rw [upd_other _ _ hu]
      have id_ : ∀ f : Tid → List Nat, upd f t (f t) = f := by
        intro f
        funext u
        by_cases hu : u = t
        · subst hu; rw [upd_same]
        · rw [upd_other _ _ hu]
      have found : ∀ (p : Option Nat) u q, q ∈ upd seen t (p.toList ++ seen t) u → q ∈ seen u ∨ p = some q ∧ u = t := by
        intro p u q hq
        by_cases hu : u = t
        · subst hu
          rw [upd_same] at hq
          rcases List.mem_append.1 hq with hq | hq
          · exact .inr ⟨by simpa using hq, rfl⟩
          · exact .inl hq
        · rw [upd_other _ _ hu] at hq; exact .inl hq
      cases hst with
      | alloc _ v q hq =>
        refine ⟨upd own t (q :: own t), upd seen t (seen t), ?_, rest (ht _)⟩
        rw [id_ seen]
        refine K.make hq fun u p hp => ?_
        by_cases hu : u = t
        · subst hu
          rw [upd_same] at hp
          rcases List.mem_cons.1 hp with hp | hp
          · exact .inr ⟨hp, rfl⟩
          · exact .inl hp
        · rw [upd_other _ _ hu] at hp; exact .inl hp
      | load =>
        refine ⟨upd own t (own t), upd seen t (_ ++ seen t), ?_, rest (ht _)⟩
        refine K.calm (by intros; nofun) ?_ (by intro _ _ _ e; cases e) (fun u q h => (same own u q).1 h) fun u q hq => ?_
        · rintro q ⟨u, h | h | ⟨p, h⟩⟩ <;> rcases h.of_snoc with h | h
          all_goals first | exact absurd h.bound (Nat.lt_irrefl _) | (obtain ⟨-, ans, e⟩ := h; cases e) | (obtain ⟨-, e⟩ := h; cases e)
        · rcases found _ u q hq with h | ⟨h, rfl⟩
          · exact .inl h
          · refine .inr ⟨h, ⟨u, .inl ?_⟩, rfl, _, _, rfl⟩
            have := Answers.last tr u (.load : (mach T).A) c.sh.cur
            rw [h] at this ⊢
            exact this
      | store _ q =>
        refine ⟨upd own t (own t), upd seen t (seen t), ?_, rest ht.2⟩
        rw [id_, id_]
        exact K.set (by intros; nofun) ⟨t, .inl (Does.last _ _ _ _)⟩ (by intros; nofun) ht.1 fun u p h => .inl h
      | swap _ q =>
        refine ⟨upd own t (own t), upd seen t (_ ++ seen t), ?_, rest (ht.2 _)⟩
        rw [id_]
        refine K.set (by intros; nofun) ⟨t, .inr (.inl (Does.last _ _ _ _))⟩ (by intros; nofun) ht.1 fun u p hp => ?_
        rcases found _ u p hp with h | ⟨h, rfl⟩
        · exact .inl h
        · refine .inr ⟨h, ⟨u, .inr (.inl ⟨q, ?_⟩)⟩, rfl⟩
          have := Answers.last tr u (.swap q : (mach T).A) c.sh.cur
          rw [h] at this ⊢
          exact this
      | casHit _ p q hp =>
        refine ⟨upd own t (own t), upd seen t (seen t), ?_, rest (ht.2 _)⟩
        rw [id_, id_]
        exact K.set (by intros; nofun) ⟨t, .inr (.inr ⟨p, Answers.last _ _ _ _⟩)⟩ (by intros; nofun) ht.1
          fun u p h => .inl h
      | casMiss _ p q hp =>
        refine ⟨upd own t (own t), upd seen t (seen t), ?_, rest (ht.2 _)⟩
        rw [id_, id_]
        refine K.calm (by intros; nofun) ?_ (by intro _ _ _ e; cases e) (fun u q h => h) fun u q hq => .inl hq
        rintro q ⟨u, h | h | ⟨p, h⟩⟩ <;> rcases h.of_snoc with h | h
        all_goals first | exact absurd h.bound (Nat.lt_irrefl _) | (obtain ⟨-, ans, e⟩ := h; cases e) | (obtain ⟨-, e⟩ := h; cases e)
      | deref _ p v hv =>
        refine ⟨upd own t (own t), upd seen t (seen t), ?_, rest (ht.2 _)⟩
        rw [id_, id_]
        refine K.calm (by intros; nofun) ?_ ?_ (fun u q h => h) fun u q hq => .inl hq
        · rintro q ⟨u, h | h | ⟨p, h⟩⟩ <;> rcases h.of_snoc with h | h
          all_goals first | exact absurd h.bound (Nat.lt_irrefl _) | (obtain ⟨-, ans, e⟩ := h; cases e) | (obtain ⟨-, e⟩ := h; cases e)
        · intro u q w e
          cases e
          exact ⟨ht.1, by rw [hv]; simp⟩

/-- Who reads a cell does so after it was written: the step that writes the new cell happens before every step that
reads it. -/
theorem C122_published (E : GoEq T) (tr : List (Lab T)) (s : Cfg T) (he : Exec (body E) (start T) tr s) (m n q : Nat)
    (t u : Tid) (v : T) (hm : Answers tr m t (.alloc v) q) (hn : Does tr n u (.deref q)) : Before (Sync tr) tr m n := by
  obtain ⟨own, seen, K, -⟩ := pub he
  exact K.read m n q u ⟨t, v, hm⟩ hn

/-- Goroutine 0 stores, goroutine 1 loads. -/
example : ∃ (tr : List (Lab Nat)) (s : Cfg Nat), Exec (body (exactEq Nat)) (start Nat) tr s ∧
    Answers tr 1 0 (.alloc 5) 0 ∧ Does tr 6 1 (.deref 0) := by
  have hp : ∃ ls cs c, play (exactEq Nat) (whole 0 (.store 5) 2 ++ whole 1 .load 2) (start Nat) = some (ls, cs, c) :=
    ⟨_, _, _, rfl⟩
  obtain ⟨ls, cs, c, h⟩ := hp
  refine ⟨ls, c, play_exec h, ?_⟩
  cases h
  exact ⟨rfl, ⟨_, rfl⟩⟩

end Verif.AtomicValue
