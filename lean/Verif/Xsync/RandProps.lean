import Verif.Xsync.RandPool

/-!
# Properties of the generator pools (C65)
-/

namespace Verif.Xsync.Rand

open Verif.Conc

/-- What happens. -/
abbrev Lab := Label mach Op Bool

/-- Goroutine `t` gets generator `g`, from the pool or new. -/
def Got (t : Tid) (g : Nat) (l : Lab) : Prop := l = .act t .take (some g) ∨ ∃ s, l = .act t (.make s) g

/-- Goroutine `t` has got generator `g` and not put it back since. -/
def HasGen (tr : List Lab) (t : Tid) (g : Nat) : Prop :=
  ∃ a l b, tr = a ++ l :: b ∧ Got t g l ∧ .act t (.put g) () ∉ b

/-- The seeds from which generators were made. -/
def madeFrom (tr : List Lab) : List Nat := tr.filterMap fun | .act _ (.make s) _ => some s | _ => none

theorem hasGen_snoc (tr : List Lab) (l : Lab) (t : Tid) (g : Nat) :
    HasGen (tr ++ [l]) t g ↔ Got t g l ∨ (HasGen tr t g ∧ l ≠ .act t (.put g) ()) := by
  constructor
  · rintro ⟨a, l', b, e, h1, h2⟩
    rcases List.eq_nil_or_concat b with rfl | ⟨b', x, rfl⟩
    · obtain ⟨-, e2⟩ := List.append_inj' e rfl
      injection e2 with e2
      subst e2
      exact Or.inl h1
    · rw [List.concat_eq_append, ← List.cons_append, ← List.append_assoc] at e
      obtain ⟨e1, e2⟩ := List.append_inj' e rfl
      injection e2 with e2
      subst e2 e1
      simp only [List.concat_eq_append, List.mem_append, not_or, List.mem_singleton] at h2
      exact Or.inr ⟨⟨a, l', b', rfl, h1, h2.1⟩, fun e => h2.2 e.symm⟩
  · rintro (h | ⟨⟨a, l', b, rfl, h1, h2⟩, h3⟩)
    · exact ⟨tr, l, [], rfl, h, by simp⟩
    · refine ⟨a, l', b ++ [l], by simp, h1, ?_⟩
      simp only [List.mem_append, List.mem_singleton, not_or]
      exact ⟨h2, fun e => h3 e.symm⟩

theorem got_act {t u : Tid} {g : Nat} {a : Act} {ans : Ans a} {hs : List Nat} (hn : hs.Nodup) :
    (Got u g (.act t a ans) ∨ (g ∈ hs ∧ Label.act (Op := Op) (R := Bool) (M := mach) t a ans ≠ .act u (.put g) ())) ↔
      if u = t then g ∈ change a ans hs else g ∈ hs := by
  by_cases c : u = t
  · subst c
    rw [if_pos rfl]
    cases a with
    | take =>
      cases ans with
      | none => simp [Got, change]
      | some g' => simp only [Got, change]; simp [eq_comm]
    | make s => simp only [Got, change]; simp [eq_comm]
    | put g' =>
      simp only [Got, change]
      rw [hn.mem_erase_iff]
      constructor
      · rintro (h | ⟨h1, h2⟩)
        · simp at h
        · exact ⟨fun e => h2 (by rw [e]), h1⟩
      · rintro ⟨h1, h2⟩
        exact Or.inr ⟨h2, fun e => h1 (by simp at e; exact e.symm)⟩
    | lock => simp [Got, change]
    | seed => simp [Got, change]
    | unlock => simp [Got, change]
    | use g' => simp [Got, change]
    | evict => simp [Got, change]
  · rw [if_neg c]
    have c' : t ≠ u := fun e => c e.symm
    simp [Got, c']

/-- What is known in every reachable state. -/
theorem reach {tr : List Lab} {c : Config mach Op Bool} (he : Exec body (Config.init fresh) tr c) :
    ∃ has : Tid → Has, (∀ t, Fits (c.th t) (has t)) ∧ Inv c.sh has ∧ (∀ t g, HasGen tr t g ↔ g ∈ (has t).gens) ∧
      c.sh.seeds = madeFrom tr := by
  induction he with
  | nil =>
    refine ⟨fun _ => ⟨[], false, none⟩, fun _ => rfl, ?_, ?_, rfl⟩
    · constructor <;> simp [Config.init, fresh]
    · intro t g
      constructor
      · rintro ⟨a, l, b, e, -⟩; simp at e
      · intro h; cases h
  | @snoc tr c c' l _ hs ih =>
    obtain ⟨has, k1, k2, k3, k4⟩ := ih
    cases hs with
    | call t op hi =>
      have ht : has t = ⟨[], false, none⟩ := by have := k1 t; rw [hi] at this; exact this
      refine ⟨has, fun u => ?_, k2, fun u g => ?_, ?_⟩
      · show Fits (upd c.th t _ u) _
        by_cases c : u = t
        · subst c; rw [upd_same, ht]; exact body_keeps op
        · rw [upd_other _ _ c]; exact k1 u
      · rw [hasGen_snoc, k3]; simp [Got]
      · show c.sh.seeds = _
        rw [k4]; simp [madeFrom]
    | act t op a k ans sh' ht hst =>
      have hk : Keeps (.act a k) (has t) := by have := k1 t; rw [ht] at this; exact this
      obtain ⟨h', e1, e2, e3⟩ := inv_step k2 hk hst
      refine ⟨upd has t h', fun u => ?_, e2, fun u g => ?_, ?_⟩
      · show Fits (upd c.th t _ u) _
        by_cases c : u = t
        · subst c; rw [upd_same, upd_same]; exact e1
        · rw [upd_other _ _ c, upd_other _ _ c]; exact k1 u
      · rw [hasGen_snoc, k3, got_act (k2.gens u)]
        by_cases c : u = t
        · subst c; rw [upd_same, if_pos rfl, e3]
        · rw [upd_other _ _ c, if_neg c]
      · show sh'.seeds = _
        cases hst <;> simp [madeFrom, k4]
    | ret t op r ht =>
      have hk : has t = ⟨[], false, none⟩ := by have := k1 t; rw [ht] at this; exact this
      refine ⟨has, fun u => ?_, k2, fun u g => ?_, ?_⟩
      · show Fits (upd c.th t _ u) _
        by_cases c : u = t
        · subst c; rw [upd_same]; exact hk
        · rw [upd_other _ _ c]; exact k1 u
      · rw [hasGen_snoc, k3]; simp [Got]
      · show c.sh.seeds = _
        rw [k4]; simp [madeFrom]

/-! ## The properties -/

/-- C65: no generator is with two goroutines at the same time, and none that is with a goroutine is in the pool. -/
theorem never_shared {tr : List Lab} {c : Config mach Op Bool} (he : Exec body (Config.init fresh) tr c) {t u : Tid}
    {g : Nat} (ht : HasGen tr t g) : (HasGen tr u g → u = t) ∧ g ∉ c.sh.bag := by
  obtain ⟨has, -, k2, k3, -⟩ := reach he
  exact ⟨fun hu => k2.apart u t g ((k3 u g).1 hu) ((k3 t g).1 ht), k2.inside t g ((k3 t g).1 ht)⟩

/-- C65: a goroutine uses only generators it has (so, by `never_shared`, no two use the same at the same time). -/
theorem uses_own {tr : List Lab} {c c' : Config mach Op Bool} (he : Exec body (Config.init fresh) tr c) {t : Tid}
    {g v : Nat} (hs : Step body c (.act t (.use g) v) c') : HasGen tr t g := by
  obtain ⟨has, k1, -, k3, -⟩ := reach he
  cases hs with
  | act _ op _ k _ sh' ht hst =>
    have hk : Keeps (.act (.use g) k) (has t) := by have := k1 t; rw [ht] at this; exact this
    exact (k3 t g).2 hk.1

/-- C65: a goroutine that is not in a call has put back every generator it got, whether its calls panicked or not. -/
theorem put_back {tr : List Lab} {c : Config mach Op Bool} (he : Exec body (Config.init fresh) tr c) {t : Tid}
    (hi : c.th t = .idle) {a b : List Lab} {l : Lab} {g : Nat} (e : tr = a ++ l :: b) (hl : Got t g l) :
    .act t (.put g) () ∈ b := by
  obtain ⟨has, k1, -, k3, -⟩ := reach he
  have ht : has t = ⟨[], false, none⟩ := by have := k1 t; rw [hi] at this; exact this
  refine Classical.byContradiction fun hb => ?_
  have := (k3 t g).1 ⟨a, l, b, e, hl, hb⟩
  rw [ht] at this
  cases this

/-- C65: also at the moment a call returns or panics, it has put everything back. -/
theorem put_back_at_return {tr : List Lab} {c c' : Config mach Op Bool} (he : Exec body (Config.init fresh) tr c)
    {t : Tid} {op : Op} {panics : Bool} (hs : Step body c (.ret t op panics) c') (g : Nat) : ¬ HasGen tr t g := by
  obtain ⟨has, k1, -, k3, -⟩ := reach he
  cases hs with
  | ret _ _ _ ht =>
    have hk : has t = ⟨[], false, none⟩ := by have := k1 t; rw [ht] at this; exact this
    intro h
    have := (k3 t g).1 h
    rw [hk] at this
    cases this

/-- C65: the master generator is used only under its lock. -/
theorem master_locked {tr : List Lab} {c c' : Config mach Op Bool} (he : Exec body (Config.init fresh) tr c) {t : Tid}
    {n : Nat} (hs : Step body c (.act t .seed n) c') : c.sh.lock = some t := by
  obtain ⟨has, k1, k2, -, -⟩ := reach he
  cases hs with
  | act _ op _ k _ sh' ht hst =>
    have hk : Keeps (.act .seed k) (has t) := by have := k1 t; rw [ht] at this; exact this
    exact (k2.lock t).2 hk.1

/-- C65: no two generators are made from the same draw of the master, and when nobody holds its lock no draw was
wasted. -/
theorem seeds_used_once {tr : List Lab} {c : Config mach Op Bool} (he : Exec body (Config.init fresh) tr c) :
    (madeFrom tr).Nodup ∧ (c.sh.lock = none → ∀ n, n < c.sh.drawn ↔ n ∈ madeFrom tr) := by
  obtain ⟨has, -, k2, -, k4⟩ := reach he
  rw [← k4]
  refine ⟨k2.seedsNodup, fun hl n => ?_⟩
  rw [k2.seeds n]
  constructor
  · rintro (h | ⟨t, h⟩)
    · exact h
    · have h1 := k2.seedLock t (by rw [h]; simp)
      rw [← k2.lock t, hl] at h1
      cases h1
  · exact Or.inl

/-! ## The hypotheses can be met -/

/-- Some outcome of an action. -/
def outcome (t : Tid) : (a : Act) → Sh → Option (Ans a × Sh)
  | .take, σ => match σ.bag with
    | [] => some (none, σ)
    | g :: _ => some (some g, { σ with bag := σ.bag.erase g })
  | .lock, σ => if σ.lock = none then some ((), { σ with lock := some t }) else none
  | .seed, σ => some (σ.drawn, { σ with drawn := σ.drawn + 1 })
  | .make s, σ => some (σ.seeds.length, { σ with seeds := σ.seeds ++ [s] })
  | .unlock, σ => if σ.lock = some t then some ((), { σ with lock := none }) else none
  | .use _, σ => some (7, σ)
  | .put g, σ => some ((), { σ with bag := g :: σ.bag })
  | .evict, σ => some ((), { σ with bag := σ.bag.erase 0 })

theorem outcome_step (t : Tid) (a : Act) (σ : Sh) (ans : Ans a) (σ' : Sh)
    (h : outcome t a σ = some (ans, σ')) : AStep t a σ ans σ' := by
  cases a <;> simp only [outcome] at h
  case take =>
    split at h
    · injection h with h; injection h with h1 h2; subst h1 h2; exact .miss σ
    · rename_i g l e
      injection h with h; injection h with h1 h2; subst h1 h2; exact .hit σ g (by rw [e]; simp)
  case lock =>
    split at h
    · rename_i hc; injection h with h; injection h with h1 h2; subst h1 h2; exact .lock σ hc
    · cases h
  case unlock =>
    split at h
    · rename_i hc; injection h with h; injection h with h1 h2; subst h1 h2; exact .unlock σ hc
    · cases h
  case seed => injection h with h; injection h with h1 h2; subst h1 h2; exact .seed σ
  case make => injection h with h; injection h with h1 h2; subst h1 h2; exact .make σ _
  case use => injection h with h; injection h with h1 h2; subst h1 h2; exact .use σ _ _
  case put => injection h with h; injection h with h1 h2; subst h1 h2; exact .put σ _
  case evict => injection h with h; injection h with h1 h2; subst h1 h2; exact .evict σ 0

/-- `Intn(0)` panics. -/
def intn0 : Use := .panic

/-- `Shuffle` with a callback that calls `Intn(0)`. -/
def shuffle : Use := .draw fun _ => .call intn0 .done

/-- Goroutine 0 shuffles, its callback panics; goroutine 1 calls `Intn(0)` in between. -/
def sched : List (Conc.Go Op) :=
  [.call 0 (.fn shuffle)] ++ List.replicate 5 (.act 0) ++ [.call 1 (.fn intn0), .act 1] ++ List.replicate 6 (.act 0) ++
    List.replicate 4 (.act 1) ++ [.act 0, .act 1, .act 0, .ret 0, .ret 1]

/-- Follow it. -/
def played (n : Nat) := followAll (M := mach) (R := Bool) body outcome (sched.take n) (Config.init fresh)

/-- Three generators are made, both calls panic, all three come back. -/
example : ∃ tr c, Exec body (Config.init fresh) tr c ∧ (∀ t, c.th t = .idle) ∧ madeFrom tr = [0, 1, 2] ∧
    .ret 0 (.fn shuffle) true ∈ tr ∧ .ret 1 (.fn intn0) true ∈ tr ∧ c.sh.bag.length = 3 := by
  have hp : ∃ ls cs c, played 30 = some (ls, cs, c) := ⟨_, _, _, rfl⟩
  obtain ⟨ls, cs, c, h⟩ := hp
  refine ⟨ls, c, followAll_exec outcome_step h, ?_⟩
  cases h
  refine ⟨fun t => ?_, rfl, by simp, by simp, rfl⟩
  match t with
  | 0 => rfl
  | 1 => rfl
  | n + 2 => simp [upd, Config.init]

/-- Two goroutines with generators at the same time. -/
example : ∃ tr c, Exec body (Config.init fresh) tr c ∧ HasGen tr 0 0 ∧ HasGen tr 1 2 := by
  have hp : ∃ ls cs c, played 17 = some (ls, cs, c) := ⟨_, _, _, rfl⟩
  obtain ⟨ls, cs, c, h⟩ := hp
  refine ⟨ls, c, followAll_exec outcome_step h, ?_, ?_⟩
  · cases h
    exact ⟨[_, _, _, _], _, _, rfl, Or.inr ⟨0, rfl⟩, by simp⟩
  · cases h
    exact ⟨[_, _, _, _, _, _, _, _, _, _, _, _, _, _, _, _], _, _, rfl, Or.inr ⟨2, rfl⟩, by simp⟩

end Verif.Xsync.Rand
