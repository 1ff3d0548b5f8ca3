import Verif.Sharded.Props

/-!
# C86: user code that calls back into the map

`GetOrSetFactory`, `Iterate`, `IterateShards` and `IterateShardsReadOnly` call user code. Here user code may be any
program over the same shards, in particular one that calls methods of the map. So goroutines run arbitrary
programs: the operations of the system are the programs themselves.
-/

set_option linter.unusedSectionVars false

namespace Verif.Sharded

open Verif.Conc Verif.GoMap

variable {K V : Type} [DecidableEq K] [Inhabited V]

/-! ## Methods with given user code -/

/-- `GetOrSetFactory` (ds/xmap/sharded.go:88-101) with a given factory (`none`: it panics). -/
def getOrSetFactoryWith (c : Conf K) (k : K) (fac : P K V (Option V)) : P K V (Res K V) := do
  match ← tryGetCore c k with
  | some v => return .pair v true
  | none => do
    let i := shardOf c k
    lock i
    let items ← read i
    match items.get? k with
    | some v => do
      step_ (.unlock i)
      return .pair v true
    | none => do
      let w ← fac
      match w with
      | none => do
        step_ (.unlock i)
        return .panic
      | some v => do
        step_ (.write i (·.put k v))
        step_ (.unlock i)
        return .pair v false

/-- `visitAll` with a given `fn` (`false`: it panics). -/
def visitAllWith (fn : K × V → P K V Bool) : List (K × V) → List (K × V) → P K V (List (K × V) × Bool)
  | [], done => return (done, true)
  | e :: es, done => do
    let b ← fn e
    if b then visitAllWith fn es (done ++ [e]) else return (done ++ [e], false)

/-- The loop of `Iterate` (ds/xmap/sharded.go:159-170) with a given `fn`. -/
def iterateLoopWith (fn : K × V → P K V Bool) : (i rem : Nat) → List (K × V) → P K V (Res K V)
  | _, 0, acc => return .visited acc true
  | i, rem + 1, acc => do
    step_ (.rlock i)
    let items ← read i
    let o ← rangeOrder
    let (acc', ok) ← visitAllWith fn (o.visit items) acc
    step_ (.runlock i)
    if ok then iterateLoopWith fn (i + 1) rem acc' else return .visited acc' false

/-- With user code that does not call back they are the methods of the model. -/
theorem getOrSetFactoryWith_eq (c : Conf K) (k : K) :
    getOrSetFactoryWith (V := V) c k (callFactory k) = getOrSetFactory c k := rfl

theorem visitAllWith_eq : ∀ (es done : List (K × V)), visitAllWith (fun _ => callFn) es done = visitAll es done := by
  intro es
  induction es with
  | nil => intro done; rfl
  | cons e es ih => intro done; simp only [visitAllWith, visitAll, ih]

theorem iterateLoopWith_eq : ∀ (rem i : Nat) (acc : List (K × V)),
    iterateLoopWith (fun _ => callFn) i rem acc = iterateLoop i rem acc := by
  intro rem
  induction rem with
  | zero => intro i acc; rfl
  | succ rem ih => intro i acc; simp only [iterateLoopWith, iterateLoop, ih, visitAllWith_eq]

/-! ## User code runs under a lock -/

/-- Where user code may be called. -/
def UserOk (c : Conf K) (h : Held) : Act K V → Prop
  | .factory k => h = .W (shardOf c k)
  | .callback => ∃ i, i < c.n ∧ h = .R i
  | .edit => ∃ i, i < c.n ∧ h = .W i
  | _ => True

/-- The program takes and releases locks in order and calls user code only as said. -/
def UserDisc (c : Conf K) {R : Type} : Held → P K V R → Prop
  | h, .ret _ => h = .no
  | h, .act a k => ∃ h', heldAfter h a = some h' ∧ UserOk c h a ∧ ∀ ans, UserDisc c h' (k ans)

section
variable {c : Conf K} {R : Type} {i : Nat}

theorem ud_lock {f : Unit → P K V R} (hf : UserDisc c (.W i) (f ())) : UserDisc c .no (lock i >>= f) :=
  ⟨.P i, rfl, trivial, fun _ => ⟨.W i, if_pos rfl, trivial, fun _ => hf⟩⟩
theorem ud_unlock {f : Unit → P K V R} (hf : UserDisc c .no (f ())) : UserDisc c (.W i) (step_ (.unlock i) >>= f) :=
  ⟨.no, if_pos rfl, trivial, fun _ => hf⟩
theorem ud_rlock {f : Unit → P K V R} (hf : UserDisc c (.R i) (f ())) : UserDisc c .no (step_ (.rlock i) >>= f) :=
  ⟨.R i, rfl, trivial, fun _ => hf⟩
theorem ud_runlock {f : Unit → P K V R} (hf : UserDisc c .no (f ())) : UserDisc c (.R i) (step_ (.runlock i) >>= f) :=
  ⟨.no, if_pos rfl, trivial, fun _ => hf⟩
theorem ud_readR {f : Tab K V → P K V R} (hf : ∀ m, UserDisc c (.R i) (f m)) : UserDisc c (.R i) (read i >>= f) :=
  ⟨.R i, rfl, trivial, hf⟩
theorem ud_readW {f : Tab K V → P K V R} (hf : ∀ m, UserDisc c (.W i) (f m)) : UserDisc c (.W i) (read i >>= f) :=
  ⟨.W i, rfl, trivial, hf⟩
theorem ud_write {g : Tab K V → Tab K V} {f : Unit → P K V R} (hf : UserDisc c (.W i) (f ())) :
    UserDisc c (.W i) (step_ (.write i g) >>= f) := ⟨.W i, rfl, trivial, fun _ => hf⟩
theorem ud_order {f : Order K V → P K V R} (hf : ∀ o, UserDisc c (.R i) (f o)) : UserDisc c (.R i) (rangeOrder >>= f) :=
  ⟨.R i, rfl, trivial, hf⟩
theorem ud_fn (hi : i < c.n) {f : Bool → P K V R} (hf : ∀ b, UserDisc c (.R i) (f b)) :
    UserDisc c (.R i) (callFn >>= f) := ⟨.R i, rfl, ⟨i, hi, rfl⟩, hf⟩
theorem ud_ret {r : R} : UserDisc (V := V) c .no (pure r) := rfl

theorem ud_tryGet {k : K} {f : Option V → P K V R} (hf : ∀ r, UserDisc c .no (f r)) :
    UserDisc c .no (tryGetCore c k >>= f) :=
  ⟨.R _, rfl, trivial, fun _ => ⟨.R _, rfl, trivial, fun _ => ⟨.no, if_pos rfl, trivial, fun _ => hf _⟩⟩⟩

end

theorem ud_lenLoop {c : Conf K} : ∀ (rem i n : Nat), UserDisc (V := V) c .no (lenLoop i rem n) := by
  intro rem
  induction rem with
  | zero => intro i n; exact ud_ret
  | succ rem ih => intro i n; exact ud_rlock (ud_readR fun m => ud_runlock (ih _ _))

theorem ud_emptyLoop {c : Conf K} : ∀ (rem i : Nat), UserDisc (V := V) c .no (emptyLoop i rem) := by
  intro rem
  induction rem with
  | zero => intro i; exact ud_ret
  | succ rem ih =>
    intro i
    refine ud_rlock (ud_readR fun m => ud_runlock ?_)
    split
    · exact ud_ret
    · exact ih _

theorem ud_visitAll {c : Conf K} {R : Type} {i : Nat} (hi : i < c.n) {f : List (K × V) × Bool → P K V R}
    (hf : ∀ x, UserDisc c (.R i) (f x)) : ∀ (es done : List (K × V)), UserDisc c (.R i) (visitAll es done >>= f) := by
  intro es
  induction es with
  | nil => intro done; exact hf _
  | cons e es ih =>
    intro done
    refine ⟨.R i, rfl, ⟨i, hi, rfl⟩, fun b => ?_⟩
    cases b with
    | true => exact ih _
    | false => exact hf _

theorem ud_iterateLoop {c : Conf K} : ∀ (rem i : Nat) (l : List (K × V)), i + rem = c.n →
    UserDisc c .no (iterateLoop i rem l) := by
  intro rem
  induction rem with
  | zero => intro i l _; exact ud_ret
  | succ rem ih =>
    intro i l h
    refine ud_rlock (ud_readR fun m => ud_order fun o => ud_visitAll (by omega) (fun x => ?_) _ _)
    obtain ⟨acc, b⟩ := x
    refine ud_runlock ?_
    cases b with
    | true => exact ih _ _ (by omega)
    | false => exact ud_ret

theorem ud_iterateShardsLoop {c : Conf K} : ∀ (rem i : Nat), i + rem = c.n →
    UserDisc (V := V) c .no (iterateShardsLoop i rem) := by
  intro rem
  induction rem with
  | zero => intro i _; exact ud_ret
  | succ rem ih =>
    intro i h
    refine ud_lock ⟨.W i, rfl, ⟨i, by omega, rfl⟩, fun f => ?_⟩
    cases f with
    | none => exact ud_unlock ud_ret
    | some f => exact ud_write (ud_unlock (ih _ (by omega)))

theorem ud_readOnlyLoop {c : Conf K} : ∀ (rem i : Nat), i + rem = c.n →
    UserDisc (V := V) c .no (iterateShardsReadOnlyLoop i rem) := by
  intro rem
  induction rem with
  | zero => intro i _; exact ud_ret
  | succ rem ih =>
    intro i h
    refine ud_rlock (ud_readR fun m => ud_fn (by omega) fun b => ud_runlock ?_)
    cases b with
    | true => exact ih _ (by omega)
    | false => exact ud_ret

theorem ud_collectLoop {c : Conf K} {α R : Type} (add : α → List (K × V) → α) {f : α → P K V R}
    (hf : ∀ x, UserDisc c .no (f x)) : ∀ (rem i : Nat) (x : α), UserDisc c .no (collectLoop add i rem x >>= f) := by
  intro rem
  induction rem with
  | zero => intro i x; exact hf x
  | succ rem ih =>
    intro i x
    exact ⟨.R i, rfl, trivial, fun _ => ⟨.R i, rfl, trivial, fun _ => ⟨.R i, rfl, trivial, fun _ =>
      ⟨.no, if_pos rfl, trivial, fun _ => ih _ _⟩⟩⟩⟩

theorem ud_clearLoop {c : Conf K} : ∀ (rem i : Nat), UserDisc (V := V) c .no (clearLoop i rem) := by
  intro rem
  induction rem with
  | zero => intro i; exact ud_ret
  | succ rem ih => intro i; exact ud_rlock ⟨.R i, rfl, trivial, fun _ => ud_runlock (ih _)⟩

theorem ud_body (c : Conf K) (op : Op K V) : UserDisc c .no (body c op) := by
  cases op with
  | set k v => exact ud_lock (ud_write (ud_unlock ud_ret))
  | trySet k v =>
    refine ud_lock (ud_readW fun m => ?_)
    cases m.get? k with
    | none => exact ud_write (ud_unlock ud_ret)
    | some w => exact ud_unlock ud_ret
  | get k => exact ud_tryGet fun r => by cases r <;> exact ud_ret
  | tryGet k => exact ud_tryGet fun r => by cases r <;> exact ud_ret
  | getOrSetFactory k =>
    refine ud_tryGet fun r => ?_
    cases r with
    | some v => exact ud_ret
    | none =>
      refine ud_lock (ud_readW fun m => ?_)
      cases m.get? k with
      | some w => exact ud_unlock ud_ret
      | none =>
        refine ⟨.W (shardOf c k), rfl, rfl, fun w => ?_⟩
        cases w with
        | none => exact ud_unlock ud_ret
        | some v => exact ud_write (ud_unlock ud_ret)
  | getOrSetDefault k d =>
    refine ud_tryGet fun r => ?_
    cases r with
    | some v => exact ud_ret
    | none =>
      refine ud_lock (ud_readW fun m => ?_)
      cases m.get? k with
      | some w => exact ud_unlock ud_ret
      | none => exact ud_write (ud_unlock ud_ret)
  | len => exact ud_lenLoop _ _ _
  | empty => exact ud_emptyLoop _ _
  | has k => exact ud_rlock (ud_readR fun _ => ud_runlock ud_ret)
  | delete k => exact ud_lock (ud_write (ud_unlock ud_ret))
  | iterate => exact ud_iterateLoop _ _ _ (by simp)
  | iterateShards => exact ud_iterateShardsLoop _ _ (by simp)
  | iterateShardsReadOnly => exact ud_readOnlyLoop _ _ (by simp)
  | keys => exact ud_collectLoop _ (fun _ => ud_ret) _ _ _
  | values => exact ud_collectLoop _ (fun _ => ud_ret) _ _ _
  | entries => exact ud_collectLoop _ (fun _ => ud_ret) _ _ _
  | toMap => exact ud_collectLoop _ (fun _ => ud_ret) _ _ _
  | clear => exact ud_clearLoop _ _

/-- The invariant. -/
def UserInv (c : Conf K) (s : Cfg K V) : Prop :=
  ∃ held, LockInv s.sh.lock held ∧ ∀ t, match s.th t with
    | .idle => held t = .no
    | .run _ p => UserDisc c (held t) p

theorem userInv {c : Conf K} {tr : List (Lab K V)} {s : Cfg K V} (he : Exec (body c) (Config.init fresh) tr s) :
    UserInv c s := by
  refine Exec.invariant (P := fun _ _ => True) (UserInv c) ?_ ?_ ?_ ?_ he (fun _ _ _ => trivial)
  · exact ⟨fun _ => .no, LockInv.start, fun t => rfl⟩
  · rintro s t op ⟨held, L, H⟩ - hi
    refine ⟨held, L, fun u => ?_⟩
    by_cases hu : u = t
    · subst hu
      have := H u
      rw [hi] at this
      simp only [upd_same]
      rw [this]
      exact ud_body c op
    · simp only [upd_other _ _ hu]; exact H u
  · rintro s t op a k ans sh' ⟨held, L, H⟩ hr hs
    have ht := H t
    rw [hr] at ht
    obtain ⟨h', e1, -, e3⟩ := ht
    refine ⟨upd held t h', L.step hs e1, fun u => ?_⟩
    by_cases hu : u = t
    · subst hu
      simp only [upd_same]
      exact e3 ans
    · simp only [upd_other _ _ hu]; exact H u
  · rintro s t op r ⟨held, L, H⟩ hr
    refine ⟨held, L, fun u => ?_⟩
    by_cases hu : u = t
    · subst hu
      have := H u
      rw [hr] at this
      simp only [upd_same]
      exact this
    · simp only [upd_other _ _ hu]; exact H u

/-! ## Goroutines that run any programs -/

/-- The state of a system in which goroutines run any programs. -/
abbrev AnyCfg (K V : Type) [DecidableEq K] := Config (mach K V) (P K V (Res K V)) (Res K V)

/-- An execution of goroutines that run any programs. -/
abbrev AnyExec (s : AnyCfg K V) (tr : List (Label (mach K V) (P K V (Res K V)) (Res K V))) (s' : AnyCfg K V) : Prop :=
  Exec (M := mach K V) (fun p => p) s tr s'

/-- Nobody else can take the writers' mutex from `t`. -/
theorem wr_kept {t u : Tid} {a : Act K V} {σ σ' : Sh K V} {ans : Ans a} (h : AStep u a σ ans σ') (hu : u ≠ t) {i : Nat}
    (hw : (σ.lock i).wr = some t) : (σ'.lock i).wr = some t := by
  cases h with
  | lockBegin _ j h0 =>
    simp only [set1]
    split
    · rename_i e; subst e; rw [hw] at h0; cases h0
    · exact hw
  | lockWait _ j h0 _ _ =>
    simp only [set1]
    split
    · rename_i e; subst e; exact hw
    · exact hw
  | unlock _ j h0 _ =>
    simp only [set1]
    split
    · rename_i e; subst e; rw [hw] at h0; injection h0 with h0; exact absurd h0.symm hu
    · exact hw
  | rlock _ j h0 =>
    simp only [set1]
    split
    · rename_i e; subst e; exact hw
    · exact hw
  | runlock _ j h0 =>
    simp only [set1]
    split
    · rename_i e; subst e; exact hw
    · exact hw
  | read _ _ => exact hw
  | write _ _ _ => exact hw
  | factory _ _ _ => exact hw
  | callback _ _ => exact hw
  | edit _ _ => exact hw
  | order _ _ => exact hw

/-- Nobody else can make the reader `t` leave. -/
theorem rd_kept {t u : Tid} {a : Act K V} {σ σ' : Sh K V} {ans : Ans a} (h : AStep u a σ ans σ') (hu : u ≠ t) {i : Nat}
    (hw : t ∈ (σ.lock i).rd) : t ∈ (σ'.lock i).rd := by
  cases h with
  | lockBegin _ j h0 =>
    simp only [set1]
    split
    · rename_i e; subst e; exact hw
    · exact hw
  | lockWait _ j h0 _ _ =>
    simp only [set1]
    split
    · rename_i e; subst e; exact hw
    · exact hw
  | unlock _ j h0 _ =>
    simp only [set1]
    split
    · rename_i e; subst e; exact hw
    · exact hw
  | rlock _ j h0 =>
    simp only [set1]
    split
    · rename_i e; subst e; exact List.mem_cons_of_mem _ hw
    · exact hw
  | runlock _ j h0 =>
    simp only [set1]
    split
    · rename_i e; subst e; exact (List.mem_erase_of_ne (Ne.symm hu)).2 hw
    · exact hw
  | read _ _ => exact hw
  | write _ _ _ => exact hw
  | factory _ _ _ => exact hw
  | callback _ _ => exact hw
  | edit _ _ => exact hw
  | order _ _ => exact hw

/-- An invariant that every step of another goroutine keeps, and that lets the goroutines in `T` take no step but
those that keep it, holds forever. -/
theorem forever {s s' : AnyCfg K V} {tr : List (Label (mach K V) (P K V (Res K V)) (Res K V))} (h : AnyExec s tr s')
    (I : AnyCfg K V → Prop) (h0 : I s) (hk : ∀ s l s', I s → Step (M := mach K V) (fun p => p) s l s' → I s') : I s' := by
  induction h with
  | nil => exact h0
  | snoc _ hs ih => exact hk _ _ _ ih hs

theorem upd_upd {α : Type} (f : Tid → α) (t : Tid) (x y : α) : upd (upd f t x) t y = upd f t y := by
  funext u
  unfold upd
  split <;> rfl

/-- Only goroutine `t` is in a call, and runs the rest `q` of the program `p`. -/
def Only (σ : Sh K V) (t : Tid) (p q : P K V (Res K V)) : AnyCfg K V := ⟨σ, upd (fun _ => .idle) t (.run p q)⟩

/-- Goroutine `t` comes from the new map to the given point by itself. -/
def Comes (σ : Sh K V) (t : Tid) (p q : P K V (Res K V)) : Prop := ∃ tr, AnyExec (Config.init fresh) tr (Only σ t p q)

theorem comes_call (t : Tid) (p : P K V (Res K V)) : Comes fresh t p p :=
  ⟨_, .snoc .nil (.call t p rfl)⟩

theorem Comes.step {σ σ' : Sh K V} {t : Tid} {p : P K V (Res K V)} {a : Act K V} {q : Ans a → P K V (Res K V)} {ans : Ans a}
    (h : Comes σ t p (.act a q)) (hs : AStep t a σ ans σ') : Comes σ' t p (q ans) := by
  obtain ⟨tr, he⟩ := h
  have := Exec.snoc he (.act t p a q ans σ' (by simp only [Only, upd_same]) hs)
  simp only [Only, upd_upd] at this
  exact ⟨_, this⟩

end Verif.Sharded

namespace Verif.Sharded.Props

open Verif.Conc Verif.GoMap

variable {K V : Type} [DecidableEq K] [Inhabited V]

/-- User code runs under a lock, in every execution: the factory while the shard of the key is locked for writing by
the caller and nobody else is inside; `fn` of `Iterate` and `IterateShardsReadOnly` while a shard is locked for
reading; `fn` of `IterateShards` while a shard is locked for writing. -/
theorem C86_user_code_under_lock (c : Conf K) (tr : List (Lab K V)) (s : Cfg K V)
    (he : Exec (body c) (Config.init fresh) tr s) (t : Tid) :
    (∀ k, Next s t (.factory k) → s.sh.lock (shardOf c k) = ⟨some t, true, []⟩) ∧
    (Next s t .callback → ∃ i, i < c.n ∧ t ∈ (s.sh.lock i).rd) ∧
    (Next s t .edit → ∃ i, i < c.n ∧ s.sh.lock i = ⟨some t, true, []⟩) := by
  obtain ⟨held, L, H⟩ := userInv he
  have hW : ∀ i, held t = .W i → s.sh.lock i = ⟨some t, true, []⟩ := by
    intro i hw
    have h1 := (L.wr i t).2 (Or.inr hw)
    obtain ⟨h2, h3⟩ := L.actW i t hw
    cases hl : s.sh.lock i with
    | mk wr active rd =>
      rw [hl] at h1 h2 h3
      simp only at h1 h2 h3
      rw [h1, h2, h3]
  have ok : ∀ a, Next s t a → UserOk c (held t) a := by
    rintro a ⟨op, k, h⟩
    have := H t
    rw [h] at this
    obtain ⟨h', -, e, -⟩ := this
    exact e
  refine ⟨fun k h => hW _ (ok _ h), fun h => ?_, fun h => ?_⟩
  · obtain ⟨i, hi, e⟩ := ok _ h
    refine ⟨i, hi, ?_⟩
    have := L.rd i t
    rw [e, if_pos rfl] at this
    exact List.count_pos_iff.1 (by omega)
  · obtain ⟨i, hi, e⟩ := ok _ h
    exact ⟨i, hi, hW i e⟩

/-- A goroutine that holds the lock of a shard for writing and calls a method of the map on a key of that shard
never returns from it, whatever other goroutines do, and never releases the lock. (`f` is the rest of the program.) -/
theorem C86_call_under_write_lock (c : Conf K) (s s' : AnyCfg K V)
    (tr : List (Label (mach K V) (P K V (Res K V)) (Res K V))) (he : AnyExec s tr s') (t : Tid) (p : P K V (Res K V))
    (op : Op K V) (k : K) (hk : op = .get k ∨ op = .tryGet k ∨ op = .has k ∨ op = .delete k ∨ op = .getOrSetFactory k ∨
      (∃ v, op = .set k v) ∨ (∃ v, op = .trySet k v) ∨ ∃ v, op = .getOrSetDefault k v)
    {R : Type} (g : Res K V → P K V R) (f : R → P K V (Res K V))
    (hw : (s.sh.lock (shardOf c k)).wr = some t) (ht : s.th t = .run p ((body c op >>= g) >>= f)) :
    s'.th t = .run p ((body c op >>= g) >>= f) ∧ (s'.sh.lock (shardOf c k)).wr = some t := by
  have start : ∃ a q, ((body c op >>= g) >>= f) = .act a q ∧ (a = .rlock (shardOf c k) ∨ a = .lockBegin (shardOf c k)) := by
    rcases hk with rfl | rfl | rfl | rfl | rfl | ⟨v, rfl⟩ | ⟨v, rfl⟩ | ⟨v, rfl⟩
    · exact ⟨_, _, rfl, Or.inl rfl⟩
    · exact ⟨_, _, rfl, Or.inl rfl⟩
    · exact ⟨_, _, rfl, Or.inl rfl⟩
    · exact ⟨_, _, rfl, Or.inr rfl⟩
    · exact ⟨_, _, rfl, Or.inl rfl⟩
    · exact ⟨_, _, rfl, Or.inr rfl⟩
    · exact ⟨_, _, rfl, Or.inr rfl⟩
    · exact ⟨_, _, rfl, Or.inl rfl⟩
  obtain ⟨a, q, e, ha⟩ := start
  rw [e] at ht ⊢
  refine forever he (fun s => s.th t = .run p (.act a q) ∧ (s.sh.lock (shardOf c k)).wr = some t) ⟨ht, hw⟩ ?_
  rintro s l s' ⟨h1, h2⟩ hs
  cases hs with
  | call u op' hi =>
    have : t ≠ u := by rintro rfl; rw [hi] at h1; cases h1
    exact ⟨by simp only [upd_other _ _ this]; exact h1, h2⟩
  | ret u op' r hr =>
    have : t ≠ u := by rintro rfl; rw [hr] at h1; cases h1
    exact ⟨by simp only [upd_other _ _ this]; exact h1, h2⟩
  | act u op' b q' ans sh' hr hst =>
    have : t ≠ u := by
      rintro rfl
      rw [hr] at h1
      injection h1 with h3 h4
      injection h4 with h4 h5
      subst h4
      rcases ha with rfl | rfl
      · cases hst with | rlock _ _ h0 => rw [h2] at h0; cases h0
      · cases hst with | lockBegin _ _ h0 => rw [h2] at h0; cases h0
    exact ⟨by simp only [upd_other _ _ this]; exact h1, wr_kept hst (Ne.symm this) h2⟩

/-- A goroutine that holds the lock of a shard for reading (as in `fn` of `Iterate`) and calls a method that writes
on a key of that shard never returns from it, whatever other goroutines do. -/
theorem C86_write_under_read_lock (c : Conf K) (s s' : AnyCfg K V)
    (tr : List (Label (mach K V) (P K V (Res K V)) (Res K V))) (he : AnyExec s tr s') (t : Tid) (p : P K V (Res K V))
    (op : Op K V) (k : K) (hk : op = .delete k ∨ (∃ v, op = .set k v) ∨ ∃ v, op = .trySet k v)
    {R : Type} (g : Res K V → P K V R) (f : R → P K V (Res K V))
    (hw : t ∈ (s.sh.lock (shardOf c k)).rd) (ht : s.th t = .run p ((body c op >>= g) >>= f)) :
    t ∈ (s'.sh.lock (shardOf c k)).rd ∧ ∃ a q, s'.th t = .run p (.act a q) ∧
      (a = .lockBegin (shardOf c k) ∨ a = .lockWait (shardOf c k)) := by
  have start : ∃ q q', ((body c op >>= g) >>= f) = .act (.lockBegin (shardOf c k)) q ∧
      q () = .act (.lockWait (shardOf c k)) q' := by
    rcases hk with rfl | ⟨v, rfl⟩ | ⟨v, rfl⟩
    · exact ⟨_, _, rfl, rfl⟩
    · exact ⟨_, _, rfl, rfl⟩
    · exact ⟨_, _, rfl, rfl⟩
  obtain ⟨q, q', e, e'⟩ := start
  rw [e] at ht
  have inv := forever he (fun s => t ∈ (s.sh.lock (shardOf c k)).rd ∧
    (s.th t = .run p (.act (.lockBegin (shardOf c k)) q) ∨ s.th t = .run p (.act (.lockWait (shardOf c k)) q')))
    ⟨hw, Or.inl ht⟩ ?_
  · obtain ⟨h1, h2 | h2⟩ := inv
    · exact ⟨h1, _, _, h2, Or.inl rfl⟩
    · exact ⟨h1, _, _, h2, Or.inr rfl⟩
  · rintro s l s' ⟨h2, h1⟩ hs
    have run : ∃ x, s.th t = .run p x := by
      rcases h1 with h1 | h1
      · exact ⟨_, h1⟩
      · exact ⟨_, h1⟩
    cases hs with
    | call u op' hi =>
      have : t ≠ u := by rintro rfl; obtain ⟨x, h⟩ := run; rw [hi] at h; cases h
      refine ⟨h2, ?_⟩
      simp only [upd_other _ _ this]; exact h1
    | ret u op' r hr =>
      have : t ≠ u := by
        rintro rfl
        rcases h1 with h1 | h1
        · rw [hr] at h1; cases h1
        · rw [hr] at h1; cases h1
      refine ⟨h2, ?_⟩
      simp only [upd_other _ _ this]; exact h1
    | act u op' b q'' ans sh' hr hst =>
      by_cases this : t = u
      · subst this
        rcases h1 with h1 | h1
        · rw [hr] at h1
          injection h1 with h3 h4
          injection h4 with h4 h5
          subst h3 h4
          have h5 := eq_of_heq h5
          subst h5
          cases hst with
          | lockBegin _ _ h0 =>
            refine ⟨by simp only [set1, if_true]; exact h2, Or.inr ?_⟩
            simp only [upd_same]
            rw [e']
        · rw [hr] at h1
          injection h1 with h3 h4
          injection h4 with h4 h5
          subst h4
          cases hst with
          | lockWait _ _ _ _ h0 => rw [h0] at h2; cases h2
      · refine ⟨rd_kept hst (Ne.symm this) h2, ?_⟩
        simp only [upd_other _ _ this]; exact h1

/-- A goroutine that holds the lock of a shard for reading and calls a method that reads on a key of that shard
never returns from it if another goroutine is waiting to lock the shard for writing; neither does that one. -/
theorem C86_read_under_read_lock (c : Conf K) (s s' : AnyCfg K V)
    (tr : List (Label (mach K V) (P K V (Res K V)) (Res K V))) (he : AnyExec s tr s') (t u : Tid)
    (p p' : P K V (Res K V)) (op : Op K V) (k : K)
    (hk : op = .get k ∨ op = .tryGet k ∨ op = .has k ∨ op = .getOrSetFactory k ∨ ∃ v, op = .getOrSetDefault k v)
    {R : Type} (g : Res K V → P K V R) (f : R → P K V (Res K V)) (q' : Unit → P K V (Res K V))
    (hw : t ∈ (s.sh.lock (shardOf c k)).rd) (ht : s.th t = .run p ((body c op >>= g) >>= f))
    (hu : s.th u = .run p' (.act (.lockWait (shardOf c k)) q')) (hwr : (s.sh.lock (shardOf c k)).wr = some u) :
    s'.th t = .run p ((body c op >>= g) >>= f) ∧ s'.th u = .run p' (.act (.lockWait (shardOf c k)) q') := by
  have start : ∃ q, ((body c op >>= g) >>= f) = .act (.rlock (shardOf c k)) q := by
    rcases hk with rfl | rfl | rfl | rfl | ⟨v, rfl⟩
    · exact ⟨_, rfl⟩
    · exact ⟨_, rfl⟩
    · exact ⟨_, rfl⟩
    · exact ⟨_, rfl⟩
    · exact ⟨_, rfl⟩
  obtain ⟨q, e⟩ := start
  rw [e] at ht ⊢
  have inv := forever he (fun s => (s.th t = .run p (.act (.rlock (shardOf c k)) q) ∧
    s.th u = .run p' (.act (.lockWait (shardOf c k)) q')) ∧ t ∈ (s.sh.lock (shardOf c k)).rd ∧
    (s.sh.lock (shardOf c k)).wr = some u) ⟨⟨ht, hu⟩, hw, hwr⟩ ?_
  · exact inv.1
  · rintro s l s' ⟨⟨h1, h2⟩, h3, h4⟩ hs
    cases hs with
    | call v op' hi =>
      have n1 : t ≠ v := by rintro rfl; rw [hi] at h1; cases h1
      have n2 : u ≠ v := by rintro rfl; rw [hi] at h2; cases h2
      refine ⟨?_, h3, h4⟩
      simp only [upd_other _ _ n1, upd_other _ _ n2]; exact ⟨h1, h2⟩
    | ret v op' r hr =>
      have n1 : t ≠ v := by rintro rfl; rw [hr] at h1; cases h1
      have n2 : u ≠ v := by rintro rfl; rw [hr] at h2; cases h2
      refine ⟨?_, h3, h4⟩
      simp only [upd_other _ _ n1, upd_other _ _ n2]; exact ⟨h1, h2⟩
    | act v op' b q'' ans sh' hr hst =>
      have n1 : t ≠ v := by
        rintro rfl
        rw [hr] at h1
        injection h1 with _ h5
        injection h5 with h5 _
        subst h5
        cases hst with | rlock _ _ h0 => rw [h4] at h0; cases h0
      have n2 : u ≠ v := by
        rintro rfl
        rw [hr] at h2
        injection h2 with _ h5
        injection h5 with h5 _
        subst h5
        cases hst with | lockWait _ _ _ _ h0 => rw [h0] at h3; cases h3
      refine ⟨?_, rd_kept hst (Ne.symm n1) h3, wr_kept hst (Ne.symm n2) h4⟩
      simp only [upd_other _ _ n1, upd_other _ _ n2]; exact ⟨h1, h2⟩

/-- Two goroutines that hold each a shard for writing and each call a method on a key of the other's shard never
return. -/
theorem C86_crossed_calls (c : Conf K) (s s' : AnyCfg K V)
    (tr : List (Label (mach K V) (P K V (Res K V)) (Res K V))) (he : AnyExec s tr s') (t u : Tid)
    (p p' : P K V (Res K V)) (k l : K) (v w : V) {R : Type} (g g' : Res K V → P K V R) (f f' : R → P K V (Res K V))
    (ht : s.th t = .run p ((body c (.set l v) >>= g) >>= f)) (hu : s.th u = .run p' ((body c (.set k w) >>= g') >>= f'))
    (hwt : (s.sh.lock (shardOf c k)).wr = some t) (hwu : (s.sh.lock (shardOf c l)).wr = some u) :
    s'.th t = s.th t ∧ s'.th u = s.th u := by
  have e1 : ∃ q, ((body c (.set l v) >>= g) >>= f) = .act (.lockBegin (shardOf c l)) q := ⟨_, rfl⟩
  have e2 : ∃ q, ((body c (.set k w) >>= g') >>= f') = .act (.lockBegin (shardOf c k)) q := ⟨_, rfl⟩
  obtain ⟨q1, e1⟩ := e1
  obtain ⟨q2, e2⟩ := e2
  rw [e1] at ht
  rw [e2] at hu
  rw [ht, hu]
  have inv := forever he (fun s => (s.th t = .run p (.act (.lockBegin (shardOf c l)) q1) ∧
    s.th u = .run p' (.act (.lockBegin (shardOf c k)) q2)) ∧ (s.sh.lock (shardOf c k)).wr = some t ∧
    (s.sh.lock (shardOf c l)).wr = some u) ⟨⟨ht, hu⟩, hwt, hwu⟩ ?_
  · exact inv.1
  · rintro s lab s' ⟨⟨h1, h2⟩, h3, h4⟩ hs
    cases hs with
    | call v op' hi =>
      have n1 : t ≠ v := by rintro rfl; rw [hi] at h1; cases h1
      have n2 : u ≠ v := by rintro rfl; rw [hi] at h2; cases h2
      refine ⟨?_, h3, h4⟩
      simp only [upd_other _ _ n1, upd_other _ _ n2]; exact ⟨h1, h2⟩
    | ret v op' r hr =>
      have n1 : t ≠ v := by rintro rfl; rw [hr] at h1; cases h1
      have n2 : u ≠ v := by rintro rfl; rw [hr] at h2; cases h2
      refine ⟨?_, h3, h4⟩
      simp only [upd_other _ _ n1, upd_other _ _ n2]; exact ⟨h1, h2⟩
    | act v op' b q'' ans sh' hr hst =>
      have n1 : t ≠ v := by
        rintro rfl
        rw [hr] at h1
        injection h1 with _ h5
        injection h5 with h5 _
        subst h5
        cases hst with | lockBegin _ _ h0 => rw [h4] at h0; cases h0
      have n2 : u ≠ v := by
        rintro rfl
        rw [hr] at h2
        injection h2 with _ h5
        injection h5 with h5 _
        subst h5
        cases hst with | lockBegin _ _ h0 => rw [h3] at h0; cases h0
      refine ⟨?_, wr_kept hst (Ne.symm n1) h3, wr_kept hst (Ne.symm n2) h4⟩
      simp only [upd_other _ _ n1, upd_other _ _ n2]; exact ⟨h1, h2⟩

/-! ### The situations come up -/

/-- `GetOrSetFactory` on a new map, with a factory that calls a method of the map on a key of the same shard, for
instance on the same key, comes to a point from which it never returns, whatever other goroutines do. -/
theorem C86_factory_deadlock (c : Conf K) (t : Tid) (k k' : K) (hs : shardOf c k' = shardOf c k) (op : Op K V)
    (hk : op = .get k' ∨ op = .tryGet k' ∨ op = .has k' ∨ op = .delete k' ∨ op = .getOrSetFactory k' ∨
      (∃ v, op = .set k' v) ∨ (∃ v, op = .trySet k' v) ∨ ∃ v, op = .getOrSetDefault k' v)
    (g : Res K V → P K V (Option V)) :
    ∃ (s : AnyCfg K V) (tr : _), AnyExec (Config.init fresh) tr s ∧ ∀ tr' (s' : AnyCfg K V), AnyExec s tr' s' →
      s'.th t ≠ .idle ∧ ∀ p r, s'.th t ≠ .run p (.ret r) := by
  have h0 := comes_call t (getOrSetFactoryWith c k (body c op >>= g))
  have h1 := h0.step (AStep.rlock _ (shardOf c k) rfl)
  have h2 := h1.step (AStep.read _ (shardOf c k))
  have h3 := h2.step (AStep.runlock _ (shardOf c k) (by simp [set1]))
  have h4 := h3.step (AStep.lockBegin _ (shardOf c k) (by simp [set1, fresh]))
  have h5 := h4.step (AStep.lockWait _ (shardOf c k) (by simp [set1]) (by simp [set1]) (by simp [set1, fresh]))
  have h6 := h5.step (AStep.read _ (shardOf c k))
  obtain ⟨tr, he⟩ := h6
  refine ⟨_, tr, he, fun tr' s' he' => ?_⟩
  have hth := upd_same (fun _ => (Thread.idle : Thread (mach K V) (P K V (Res K V)) (Res K V))) t
    (.run (getOrSetFactoryWith c k (body c op >>= g)) ((body c op >>= g) >>= fun w => match w with
      | none => do
        step_ (.unlock (shardOf c k))
        return .panic
      | some v => do
        step_ (.write (shardOf c k) (·.put k v))
        step_ (.unlock (shardOf c k))
        return .pair v false))
  have := C86_call_under_write_lock c _ s' tr' he' t _ op k' hk g _ (by rw [hs]; simp [Only, set1]) hth
  rw [this.1]
  refine ⟨(fun h => by cases h), fun p r h => ?_⟩
  rcases hk with rfl | rfl | rfl | rfl | rfl | ⟨v, rfl⟩ | ⟨v, rfl⟩ | ⟨v, rfl⟩ <;> cases h

/-- Runs given schedules. -/
def playAny (gs : List (Conc.Go (P Nat Nat (Res Nat Nat)))) :
    Option (List (Label (mach Nat Nat) (P Nat Nat (Res Nat Nat)) (Res Nat Nat)) × List (AnyCfg Nat Nat) × AnyCfg Nat Nat) :=
  followAll (M := mach Nat Nat) (R := Res Nat Nat) (fun p => p) outcome gs (Config.init fresh)

/-- `fn` of `Iterate` sets the key it is called on. -/
def touching : P Nat Nat (Res Nat Nat) :=
  iterateLoopWith (fun e => body two (.set e.1 (e.2 + 1)) >>= fun _ => pure true) 0 2 []

/-- `fn` of `Iterate` looks up the key it is called on. -/
def looking : P Nat Nat (Res Nat Nat) :=
  iterateLoopWith (fun e => body two (.tryGet e.1) >>= fun _ => pure true) 0 2 []

/-- Goroutine 0 sets key 4, then calls `Iterate` up to the call of `fn`. -/
def upToFn (p : P Nat Nat (Res Nat Nat)) : List (Conc.Go (P Nat Nat (Res Nat Nat))) :=
  [.call 0 (body two (.set 4 1)), .act 0, .act 0, .act 0, .act 0, .ret 0, .call 0 p, .act 0, .act 0, .act 0]

/-- Setting in `fn`: after its first step the goroutine cannot go on. -/
example : (playAny (upToFn touching ++ [.act 0])).isSome = true ∧
    (playAny (upToFn touching ++ [.act 0, .act 0])).isSome = false := by decide +kernel

/-- Looking up in `fn`: it works if nobody wants to write -/
example : (playAny (upToFn looking ++ [.act 0, .act 0, .act 0, .act 0, .act 0, .act 0, .act 0, .act 0, .ret 0])).isSome =
    true := by decide +kernel

/-- but not if goroutine 1 has come to set key 6, of the same shard; nor can goroutine 1 then go on. -/
example : (playAny (upToFn looking ++ [.call 1 (body two (.set 6 2)), .act 1])).isSome = true ∧
    (playAny (upToFn looking ++ [.call 1 (body two (.set 6 2)), .act 1, .act 0])).isSome = false ∧
    (playAny (upToFn looking ++ [.call 1 (body two (.set 6 2)), .act 1, .act 1])).isSome = false := by decide +kernel

/-- Two factories, for keys 0 and 1, each setting the other key: both are stuck. -/
def crossed (k l : Nat) : P Nat Nat (Res Nat Nat) :=
  getOrSetFactoryWith two k (body two (.set l 5) >>= fun _ => pure (some 3))

example : let gs : List (Conc.Go (P Nat Nat (Res Nat Nat))) := [.call 0 (crossed 0 1), .call 1 (crossed 1 0)] ++
      List.replicate 6 (.act 0) ++ List.replicate 6 (.act 1)
    (playAny gs).isSome = true ∧ (playAny (gs ++ [.act 0])).isSome = false ∧
      (playAny (gs ++ [.act 1])).isSome = false := by decide +kernel

/-- Alone, the factory for key 0 may set key 1. -/
example : (playAny ([.call 0 (crossed 0 1)] ++ List.replicate 12 (.act 0) ++ [.ret 0])).isSome = true := by decide +kernel

end Verif.Sharded.Props
