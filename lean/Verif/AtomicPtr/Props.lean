import Verif.AtomicPtr.Model
import Verif.Conc.Lin
import Verif.Conc.Moment

/-!
# C81: `atomic.Ptr` is a linearizable, wait-free pointer variable

Unlike `atomic.Value` (C39, C40) without any exception: `CompareAndSwap` fails only if the pointer differs.
-/

namespace Verif.AtomicPtr

open Verif.Conc

/-- What the methods do on a plain pointer variable. -/
def Legal (x : Addr) : Op → Res → Addr → Prop
  | .load, r, x' => r = .ptr x ∧ x' = x
  | .store q, r, x' => r = .unit ∧ x' = q
  | .swap q, r, x' => r = .ptr x ∧ x' = q
  | .cas old new, r, x' => (x = old ∧ r = .bool true ∧ x' = new) ∨ (x ≠ old ∧ r = .bool false ∧ x' = x)

/-- A pointer variable that initially holds `p`. -/
def var (p : Addr) : SeqSpec Op Res := ⟨Addr, p, Legal⟩

/-- Where a goroutine is in its call. -/
inductive Stage where
  | idle
  | begun (op : Op)
  | done (op : Op) (r : Res)

/-- The goroutine. -/
def Stage.thread : Stage → Thread mach Op Res
  | .idle => .idle
  | .begun op => .run op (body op)
  | .done op r => .run op (.ret r)

/-- Its place at the atomic object. -/
def Stage.status : Stage → CStatus Op Res
  | .idle => .idle
  | .begun op => .pending op
  | .done op r => .done op r

/-- The relation of the simulation. -/
def Rel (p : Addr) (c : Config mach Op Res) (a : Canon (var p)) : Prop :=
  ∃ stg : Tid → Stage, c.th = (fun t => (stg t).thread) ∧ a = ⟨c.sh, fun t => (stg t).status⟩

theorem upd_fun {α β : Type} (f : Tid → α) (t : Tid) (x : α) (g : α → β) :
    (fun u => g (upd f t x u)) = upd (fun u => g (f u)) t (g x) := by
  funext u
  by_cases c : u = t
  · subst c; rw [upd_same, upd_same]
  · rw [upd_other _ _ c, upd_other _ _ c]

/-- The one step of a method has the effect of the method. -/
theorem step_legal {t : Tid} {op : Op} {x : Act} {k : Ans x → P} {v v' : Addr} {ans : Ans x}
    (hb : body op = .act x k) (hs : AStep t x v ans v') : ∃ r, k ans = .ret r ∧ Legal v op r v' := by
  cases op with
  | load =>
    cases hb; cases hs
    exact ⟨_, rfl, rfl, rfl⟩
  | store q =>
    cases hb; cases hs
    exact ⟨_, rfl, rfl, rfl⟩
  | swap q =>
    cases hb; cases hs
    exact ⟨_, rfl, rfl, rfl⟩
  | cas o n =>
    cases hb
    cases hs with
    | casHit => exact ⟨_, rfl, Or.inl ⟨rfl, rfl, rfl⟩⟩
    | casMiss _ _ _ h => exact ⟨_, rfl, Or.inr ⟨h, rfl, rfl⟩⟩

theorem sim (p : Addr) : Sim (var p) body (Config.init (M := mach) (newPtr p)) (fun _ _ => True) (Rel p) where
  start := ⟨fun _ => .idle, rfl, rfl⟩
  call c a t op hr _ hi := by
    obtain ⟨stg, h1, rfl⟩ := hr
    have hst : stg t = .idle := by
      rw [h1] at hi
      cases h : stg t <;> simp only [h, Stage.thread] at hi <;> first | rfl | cases hi
    refine ⟨by simp [hst, Stage.status], upd stg t (.begun op), ?_, ?_⟩
    · simp only [h1]; rw [upd_fun]; rfl
    · rw [upd_fun]; rfl
  act c a t op x k ans sh' hr ht hs := by
    obtain ⟨stg, h1, rfl⟩ := hr
    rw [h1] at ht
    have hst : stg t = .begun op ∧ body op = .act x k := by
      cases h : stg t with
      | idle => simp only [h, Stage.thread] at ht; cases ht
      | done o r => simp only [h, Stage.thread] at ht; cases ht
      | begun o =>
        simp only [h, Stage.thread] at ht
        injection ht with e1 e2
        subst e1
        exact ⟨rfl, e2⟩
    obtain ⟨r, hk, hl⟩ := step_legal hst.2 hs
    refine ⟨⟨sh', upd (fun u => (stg u).status) t (.done op r)⟩,
      .step t op r sh' (by simp [hst.1, Stage.status]) hl (.refl _), upd stg t (.done op r), ?_, ?_⟩
    · simp only [h1, hk]; rw [upd_fun]; rfl
    · rw [upd_fun]; rfl
  ret c a t op r hr ht := by
    obtain ⟨stg, h1, rfl⟩ := hr
    rw [h1] at ht
    have hst : stg t = .done op r := by
      cases h : stg t with
      | idle => simp only [h, Stage.thread] at ht; cases ht
      | begun o =>
        simp only [h, Stage.thread] at ht
        injection ht with e1 e2
        cases o <;> cases e2
      | done o r' =>
        simp only [h, Stage.thread] at ht
        injection ht with e1 e2
        injection e2 with e2
        rw [e1, e2]
    refine ⟨_, .refl _, by simp [hst, Stage.status], upd stg t .idle, ?_, ?_⟩
    · simp only [h1]; rw [upd_fun]; rfl
    · rw [upd_fun]; rfl

/-- **C81.** Every history of calls of a `Ptr` by any number of goroutines is linearizable: as if the calls
had been made one at a time on a pointer variable. -/
theorem C81_linearizable (p : Addr) (tr : List (Label mach Op Res)) (c : Config mach Op Res)
    (he : Exec body (Config.init (M := mach) (newPtr p)) tr c) : Linearizable (var p) (history tr) :=
  (sim p).linearizable he (fun _ _ _ => trivial)

/-- **C81.** No method ever waits: in every reachable state a goroutine that is in a call can take its next
step, and after its one atomic action it returns. -/
theorem C81_wait_free (p : Addr) (tr : List (Label mach Op Res)) (c : Config mach Op Res)
    (he : Exec body (Config.init (M := mach) (newPtr p)) tr c) (t : Tid) (op : Op) (q : P)
    (ht : c.th t = .run op q) :
    (∃ r, q = .ret r) ∨
    (∃ x k, q = .act x k ∧ (∃ ans sh', mach.step t x c.sh ans sh') ∧ ∀ ans, ∃ r, k ans = .ret r) := by
  obtain ⟨a, -, hr, -⟩ := (sim p).book he (fun _ _ _ => trivial)
  obtain ⟨stg, h1, -⟩ := hr
  rw [h1] at ht
  cases h : stg t with
  | idle => simp only [h, Stage.thread] at ht; cases ht
  | done o r => simp only [h, Stage.thread] at ht; injection ht with _ e; exact Or.inl ⟨r, e.symm⟩
  | begun o =>
    simp only [h, Stage.thread] at ht
    injection ht with _ e
    subst e
    right
    cases o with
    | load => exact ⟨_, _, rfl, ⟨_, _, .load _⟩, fun ans => ⟨_, rfl⟩⟩
    | store q => exact ⟨_, _, rfl, ⟨_, _, .store _ q⟩, fun ans => ⟨_, rfl⟩⟩
    | swap q => exact ⟨_, _, rfl, ⟨_, _, .swap _ q⟩, fun ans => ⟨_, rfl⟩⟩
    | cas o n =>
      refine ⟨_, _, rfl, ?_, fun ans => ⟨_, rfl⟩⟩
      by_cases e : c.sh = o
      · exact ⟨true, n, by rw [e]; exact .casHit o n⟩
      · exact ⟨false, _, .casMiss _ o n e⟩

/-! ## Initialising once with `CompareAndSwap(nil, q)` -/

/-- Calls that lose nothing: reads, and `CompareAndSwap` from nil to something. -/
def InitOnce : Op → Prop
  | .load => True
  | .cas none (some _) => True
  | _ => False

/-- `CompareAndSwap` returned true. -/
def isWin : Event Op Res → Bool
  | .ret _ (.bool true) => true
  | _ => false

/-- How often it did. -/
def wins (l : List (Event Op Res)) : Nat := l.countP isWin

/-- What holds while only such calls are made: nobody has won and the pointer is nil, or it is not and
either somebody has been told or one goroutine is about to be. -/
def J (n : Nat) (sh : Addr) (stg : Tid → Stage) : Prop :=
  (sh = none ∧ n = 0 ∧ ∀ t op, stg t ≠ .done op (.bool true)) ∨
  (sh ≠ none ∧ n = 1 ∧ ∀ t op, stg t ≠ .done op (.bool true)) ∨
  (sh ≠ none ∧ n = 0 ∧ ∃ t0 op0, stg t0 = .done op0 (.bool true) ∧ ∀ t op, stg t = .done op (.bool true) → t = t0)

/-- Other changes of stage. -/
theorem J.same {n : Nat} {sh : Addr} {stg : Tid → Stage} (h : J n sh stg) (t : Tid) (s : Stage)
    (h0 : ∀ op, stg t ≠ .done op (.bool true)) (h1 : ∀ op, s ≠ .done op (.bool true)) : J n sh (upd stg t s) := by
  have ne : ∀ u op', upd stg t s u = .done op' (.bool true) → stg u = .done op' (.bool true) := by
    intro u op' hu
    by_cases e : u = t
    · subst e; rw [upd_same] at hu; exact absurd hu (h1 op')
    · rwa [upd_other _ _ e] at hu
  rcases h with ⟨a, b, d⟩ | ⟨a, b, d⟩ | ⟨a, b, t0, op0, d0, d⟩
  · exact Or.inl ⟨a, b, fun u op' hu => d u op' (ne u op' hu)⟩
  · exact Or.inr (Or.inl ⟨a, b, fun u op' hu => d u op' (ne u op' hu)⟩)
  · refine Or.inr (Or.inr ⟨a, b, t0, op0, ?_, fun u op' hu => d u op' (ne u op' hu)⟩)
    rw [upd_other]
    · exact d0
    · rintro rfl; exact h0 _ d0

theorem stage_idle {s : Stage} (h : s.thread = .idle) : s = .idle := by
  cases s <;> simp only [Stage.thread] at h <;> first | rfl | cases h

theorem stage_act {s : Stage} {op : Op} {x : Act} {k : Ans x → P} (h : s.thread = .run op (.act x k)) :
    s = .begun op ∧ body op = .act x k := by
  cases s with
  | idle => cases h
  | done o r => cases h
  | begun o =>
    simp only [Stage.thread] at h
    injection h with e1 e2
    subst e1
    exact ⟨rfl, e2⟩

theorem stage_ret {s : Stage} {op : Op} {r : Res} (h : s.thread = .run op (.ret r)) : s = .done op r := by
  cases s with
  | idle => cases h
  | begun o =>
    simp only [Stage.thread] at h
    injection h with e1 e2
    cases o <;> cases e2
  | done o r' =>
    simp only [Stage.thread] at h
    injection h with e1 e2
    injection e2 with e2
    rw [e1, e2]

theorem J_exec {tr : List (Label mach Op Res)} {c : Config mach Op Res}
    (he : Exec body (Config.init (M := mach) (newPtr none)) tr c) (hP : Calls (fun _ op => InitOnce op) tr) :
    ∃ stg : Tid → Stage, c.th = (fun t => (stg t).thread) ∧ (∀ t op, stg t = .begun op → InitOnce op) ∧
      J (wins (history tr)) c.sh stg := by
  induction he with
  | nil =>
    refine ⟨fun _ => .idle, rfl, ?_, Or.inl ⟨rfl, rfl, ?_⟩⟩
    · intro t op h; cases h
    · intro t op h; cases h
  | @snoc tr c c' l _ hs ih =>
    obtain ⟨h1, h2⟩ := hP.of_snoc
    obtain ⟨stg, g1, g2, g3⟩ := ih h1
    have wa : ∀ l : List (Event Op Res), wins (history tr ++ l) = wins (history tr) + wins l :=
      fun l => List.countP_append
    rw [history_append, wa]
    have g2' : ∀ t s, (∀ op, s ≠ .begun op) → ∀ u op', upd stg t s u = .begun op' → InitOnce op' := by
      intro t s hs u op' hu
      by_cases e : u = t
      · subst e; rw [upd_same] at hu; exact absurd hu (hs _)
      · rw [upd_other _ _ e] at hu; exact g2 u op' hu
    cases hs with
    | call t op ht =>
      rw [g1] at ht
      have hi := stage_idle ht
      refine ⟨upd stg t (.begun op), ?_, ?_, ?_⟩
      · simp only [g1]; rw [upd_fun]; rfl
      · intro u op' hu
        by_cases e : u = t
        · subst e; rw [upd_same] at hu; injection hu with hu; subst hu; exact h2 _ _ rfl
        · rw [upd_other _ _ e] at hu; exact g2 u op' hu
      · exact g3.same t _ (by rw [hi]; intro op h; cases h) (by intro op h; cases h)
    | act t op x k ans sh' ht hst =>
      rw [g1] at ht
      obtain ⟨e1, e2⟩ := stage_act ht
      have hop := g2 t op e1
      obtain ⟨r, hk, hl⟩ := step_legal e2 hst
      refine ⟨upd stg t (.done op r), ?_, g2' t _ (by intro op h; cases h), ?_⟩
      · simp only [g1, hk]; rw [upd_fun]; rfl
      · have same : r ≠ .bool true → sh' = c.sh → J (wins (history tr)) sh' (upd stg t (.done op r)) := by
          intro hr hsh
          rw [hsh]
          exact g3.same t _ (by rw [e1]; intro op h; cases h) (fun op h => by injection h with _ h; exact hr h)
        show J (wins (history tr) + 0) _ _
        rw [Nat.add_zero]
        cases op with
        | load =>
          obtain ⟨rfl, hsh⟩ := hl
          exact same (fun h => by cases h) hsh
        | store q => exact absurd hop (fun h => h)
        | swap q => exact absurd hop (fun h => h)
        | cas o n =>
          cases o with
          | some o => exact absurd hop (fun h => h)
          | none =>
            cases n with
            | none => exact absurd hop (fun h => h)
            | some q =>
              rcases hl with ⟨e3, rfl, hsh⟩ | ⟨e3, rfl, hsh⟩
              · subst hsh
                rcases g3 with ⟨a, b, d⟩ | ⟨a, b, d⟩ | ⟨a, b, t0, d⟩
                · refine Or.inr (Or.inr ⟨(fun h => by cases h), b, t, _, upd_same _ _ _, ?_⟩)
                  intro u op' hu
                  by_cases e : u = t
                  · exact e
                  · rw [upd_other _ _ e] at hu; exact absurd hu (d u op')
                · exact absurd e3 a
                · exact absurd e3 a
              · exact same (fun h => by cases h) hsh
    | ret t op r ht =>
      rw [g1] at ht
      have e1 := stage_ret ht
      refine ⟨upd stg t .idle, ?_, g2' t _ (by intro op h; cases h), ?_⟩
      · simp only [g1]; rw [upd_fun]; rfl
      · by_cases hr : r = .bool true
        · subst hr
          rcases g3 with ⟨a, b, d⟩ | ⟨a, b, d⟩ | ⟨a, b, t0, op0, d0, d⟩
          · exact absurd e1 (d t op)
          · exact absurd e1 (d t op)
          · refine Or.inr (Or.inl ⟨a, by rw [b]; rfl, ?_⟩)
            intro u op' hu
            by_cases e : u = t
            · subst e; rw [upd_same] at hu; cases hu
            · rw [upd_other _ _ e] at hu
              exact e ((d u op' hu).trans (d t op e1).symm)
        · have hw : wins (history [(.ret t op r : Label mach Op Res)]) = 0 := by
            cases r with
            | unit => rfl
            | ptr p => rfl
            | bool b => cases b with
              | false => rfl
              | true => exact absurd rfl hr
          rw [hw, Nat.add_zero]
          exact g3.same t _ (by rw [e1]; intro op h; injection h with _ h; exact hr h) (by intro op h; cases h)

/-- **C81.** If any number of goroutines try to set a zero `Ptr` with `CompareAndSwap(nil, q)` and nobody
stores or swaps, at most one of them is told that it succeeded, in every interleaving; and when no call is
under way, one of them was exactly if the pointer is set. -/
theorem C81_single_winner (tr : List (Label mach Op Res)) (c : Config mach Op Res)
    (he : Exec body (Config.init (M := mach) (newPtr none)) tr c) (hP : Calls (fun _ op => InitOnce op) tr) :
    wins (history tr) ≤ 1 ∧ ((∀ t, c.th t = .idle) → (wins (history tr) = 1 ↔ c.sh ≠ none)) := by
  obtain ⟨stg, h1, -, h3⟩ := J_exec he hP
  constructor
  · rcases h3 with ⟨-, b, -⟩ | ⟨-, b, -⟩ | ⟨-, b, -⟩ <;> omega
  · intro hi
    rcases h3 with ⟨a, b, -⟩ | ⟨a, b, -⟩ | ⟨a, b, t0, op0, d, -⟩
    · rw [a, b]; simp
    · rw [b]; simp [a]
    · have := hi t0
      rw [h1] at this
      simp only [d, Stage.thread] at this
      cases this

/-! ## An execution -/

/-- The outcome of an action. -/
def outcome (_ : Tid) : (a : Act) → Addr → Option (Ans a × Addr)
  | .loadPointer, v => some (v, v)
  | .storePointer q, _ => some ((), q)
  | .swapPointer q, v => some (v, q)
  | .casPointer p q, v => if v = p then some (true, q) else some (false, v)

theorem outcome_step (t : Tid) (a : Act) (σ : Addr) (ans : Ans a) (σ' : Addr)
    (h : outcome t a σ = some (ans, σ')) : AStep t a σ ans σ' := by
  cases a with
  | loadPointer => injection h with h; injection h with h1 h2; subst h1 h2; exact .load σ
  | storePointer q => injection h with h; injection h with h1 h2; subst h1 h2; exact .store σ q
  | swapPointer q => injection h with h; injection h with h1 h2; subst h1 h2; exact .swap σ q
  | casPointer p q =>
    simp only [outcome] at h
    split at h
    · rename_i hc; subst hc; injection h with h; injection h with h1 h2; subst h1 h2; exact .casHit σ q
    · rename_i hc; injection h with h; injection h with h1 h2; subst h1 h2; exact .casMiss σ p q hc

/-- Two goroutines race to set the pointer, a third reads. -/
def race : List (Conc.Go Op) :=
  [.call 0 (.cas none (some 7)), .call 1 (.cas none (some 8)), .call 2 .load, .act 1, .act 0, .ret 0, .act 2, .ret 1,
    .ret 2]

example : (followAll (M := mach) (R := Res) body outcome race (Config.init (newPtr none))).map
    (fun x => ((history x.1).filter (fun e => e matches .ret _ _), x.2.2.sh)) =
    some ([.ret 0 (.bool false), .ret 1 (.bool true), .ret 2 (.ptr (some 8))], some 8) := rfl

example : ∃ tr c, Exec body (Config.init (M := mach) (newPtr none)) tr c ∧ Calls (fun _ op => InitOnce op) tr ∧
    wins (history tr) = 1 := by
  obtain ⟨⟨tr, cs, c⟩, h⟩ : ∃ x, followAll (M := mach) (R := Res) body outcome race (Config.init (newPtr none)) = some x :=
    ⟨_, rfl⟩
  refine ⟨tr, c, followAll_exec outcome_step h, ?_, ?_⟩
  · have : tr = _ := (congrArg (fun x => (x.map Prod.fst).getD []) h).symm
    rw [this]
    intro t op hm
    simp [followAll, follow, race, Config.init, upd, body, cas, load, outcome, newPtr] at hm
    rcases hm with ⟨_, rfl⟩ | ⟨_, rfl⟩ | ⟨_, rfl⟩ <;> trivial
  · have : tr = _ := (congrArg (fun x => (x.map Prod.fst).getD []) h).symm
    rw [this]
    rfl

end Verif.AtomicPtr
