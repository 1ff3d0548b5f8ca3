import Verif.Sharded.Props

/-!
# C101: keys that cannot be hashed

A key type that holds interface values (`any`, or a struct with an interface field; possible as a type argument for
`comparable` since Go 1.20) has keys on which a Go map panics: those that hold a slice, map or function. `Set`,
`TrySet`, `TryGet`, `Has` and `Delete` use the map between `Lock` and `Unlock` without `defer`.
-/

set_option linter.unusedSectionVars false

namespace Verif.Sharded

open Verif.Conc Verif.GoMap

/-- The keys that make trouble: those on which the hash function given to `NewShardedCustom` panics, and those on
which a Go map does (reading, assigning and deleting, also if the map is empty). -/
structure Bad (K : Type) where
  hash : K → Bool
  key : K → Bool

/-- `GetShard` panics (ds/xmap/sharded.go:46-52): the hash function is called only if there are several shards. -/
def noShard {K : Type} (c : Conf K) (x : Bad K) (k : K) : Bool := c.n != 1 && x.hash k

section
variable {K V : Type} [BEq K] [Inhabited V]

/-- `Lock`, then a panic. -/
def lockPanic (i : Nat) : P K V (Res K V) := do
  lock i
  return .panic

/-- `RLock`, then a panic. -/
def rlockPanic (i : Nat) : P K V (Res K V) := do
  step_ (.rlock i)
  return .panic

/-- A method on a key: `GetShard` panics, or the map does, or neither. -/
def keyed (c : Conf K) (x : Bad K) (k : K) (panics : Nat → P K V (Res K V)) (p : P K V (Res K V)) : P K V (Res K V) :=
  if noShard c x k then return .panic else if x.key k then panics (shardOf c k) else p

/-- The methods, when there may be such keys. `Set` (ds/xmap/sharded.go:54-59), `TrySet` (61-70) and `Delete` (149-154)
panic after `Lock`; `TryGet` (80-86) and `Has` (141-147) after `RLock`; `Get` (72-78), `GetOrSetFactory` (88-101) and
`GetOrSetDefault` (103-115) in `TryGet`, before any `defer`. The other methods see only keys that are in the map. -/
def bodyBad (c : Conf K) (x : Bad K) (op : Op K V) : P K V (Res K V) :=
  match op with
  | .set k _ => keyed c x k lockPanic (body c op)
  | .trySet k _ => keyed c x k lockPanic (body c op)
  | .delete k => keyed c x k lockPanic (body c op)
  | .get k => keyed c x k rlockPanic (body c op)
  | .tryGet k => keyed c x k rlockPanic (body c op)
  | .has k => keyed c x k rlockPanic (body c op)
  | .getOrSetFactory k => keyed c x k rlockPanic (body c op)
  | .getOrSetDefault k _ => keyed c x k rlockPanic (body c op)
  | _ => body c op

/-- The key of a method. -/
def Op.key? : Op K V → Option K
  | .set k _ | .trySet k _ | .delete k | .get k | .tryGet k | .has k | .getOrSetFactory k | .getOrSetDefault k _ => some k
  | _ => none

end

variable {K V : Type} [DecidableEq K] [Inhabited V]

/-- C101 as stated: when all calls have ended, also by panics, no lock is held. -/
def LocksReleased (V : Type) [Inhabited V] (c : Conf K) (x : Bad K) : Prop :=
  ∀ (tr : List (Lab K V)) (s : Cfg K V), Exec (bodyBad c x) (Config.init fresh) tr s →
    (∀ t, s.th t = .idle) → ∀ i, (s.sh.lock i).wr = none ∧ (s.sh.lock i).rd = []

theorem noShard_false {c : Conf K} {x : Bad K} {k : K} (h : c.n = 1 ∨ x.hash k = false) : noShard c x k = false := by
  rcases h with h | h <;> simp [noShard, h]

theorem disc_bodyBad (c : Conf K) (x : Bad K) (op : Op K V)
    (h : ∀ k, op.key? = some k → x.key k = true → noShard c x k = true) : Disc .any .no (bodyBad c x op) := by
  have hb := disc_body .any c op (by decide) (fun e => by cases e)
  have hk : ∀ k (q : Nat → P K V (Res K V)), op.key? = some k → Disc .any .no (keyed c x k q (body c op)) := by
    intro k q e
    unfold keyed
    by_cases h1 : noShard c x k = true
    · rw [if_pos h1]; exact disc_ret
    · rw [if_neg h1, if_neg (fun h2 => h1 (h k e h2))]; exact hb
  cases op <;> first | exact hb | exact hk _ _ rfl

/-- C101, what holds: in every execution in which each key that the map panics on also makes the hash function panic,
and there is more than one shard (so with `NewSharded`), locks are released. That includes panics of factories and
callbacks. Missing: other keys, for which it is false. -/
theorem C101_released_partial (c : Conf K) (x : Bad K) (tr : List (Lab K V)) (s : Cfg K V)
    (he : Exec (bodyBad c x) (Config.init fresh) tr s)
    (hx : Calls (fun _ op => ∀ k, op.key? = some k → x.key k = true → c.n ≠ 1 ∧ x.hash k = true) tr)
    (hi : ∀ t, s.th t = .idle) (i : Nat) : (s.sh.lock i).wr = none ∧ (s.sh.lock i).rd = [] := by
  have : DiscInv .any s := by
    refine Exec.invariant (DiscInv .any) ?_ ?_ ?_ ?_ he hx
    · exact ⟨fun _ => .no, LockInv.start, fun t => rfl⟩
    · rintro s t op ⟨held, L, H⟩ hop hi
      refine ⟨held, L, fun u => ?_⟩
      by_cases hu : u = t
      · subst hu
        have := H u
        rw [hi] at this
        simp only [upd_same]
        rw [this]
        exact disc_bodyBad c x op fun k e1 e2 => by
          have := hop k e1 e2
          simp [noShard, this.1, this.2]
      · simp only [upd_other _ _ hu]; exact H u
    · rintro s t op a k ans sh' ⟨held, L, H⟩ hr hs
      have ht := H t
      rw [hr] at ht
      obtain ⟨h', e1, e2, e3⟩ := ht
      refine ⟨upd held t h', L.step hs e1, fun u => ?_⟩
      by_cases hu : u = t
      · subst hu
        simp only [upd_same]
        exact e3 ans
      · simp only [upd_other _ _ hu]; exact H u
    · rintro s t op r ⟨held, L, H⟩ hr
      refine ⟨held, L, fun u => ?_⟩
      by_cases hu : u = t
      · subst hu
        have := H u
        rw [hr] at this
        simp only [upd_same]
        exact this
      · simp only [upd_other _ _ hu]; exact H u
  obtain ⟨held, L, H⟩ := this
  have hn : ∀ t, held t = .no := fun t => by
    have := H t
    rw [hi t] at this
    exact this
  constructor
  · cases h : (s.sh.lock i).wr with
    | none => rfl
    | some t =>
      have := (L.wr i t).1 h
      rw [hn t] at this
      rcases this with h | h <;> cases h
  · cases h : (s.sh.lock i).rd with
    | nil => rfl
    | cons t l =>
      have := L.rd i t
      rw [h, hn t] at this
      simp at this

/-! ## A lock left behind -/

/-- The program releases the lock of shard `i` for writing only after it has asked for it; and it does ask if `must`. -/
def Shut (i : Nat) (must : Bool) : P K V (Res K V) → Prop
  | .ret _ => must = false
  | .act a k => a = .lockBegin i ∨ a = .rlock i ∨ (a ≠ .unlock i ∧ ∀ ans, Shut i must (k ans))

theorem shut_of_disc {i : Nat} : ∀ {h : Held} {p : P K V (Res K V)}, Disc .any h p → h ≠ .P i → h ≠ .W i → Shut i false p
  | _, .ret _, _, _, _ => rfl
  | h, .act a k, ⟨h', e1, _, e3⟩, hP, hW => by
    by_cases hl : a = .lockBegin i
    · exact Or.inl hl
    refine Or.inr (Or.inr ⟨?_, fun ans => ?_⟩)
    · rintro rfl
      exact hW (heldAfter_unlock e1).1
    · refine shut_of_disc (e3 ans) ?_ ?_
      · rintro rfl
        cases a <;> cases h <;> simp_all [heldAfter]
      · rintro rfl
        cases a <;> cases h <;> simp_all [heldAfter]

theorem shut_bodyBad (c : Conf K) (x : Bad K) (i : Nat) (op : Op K V) : Shut i false (bodyBad c x op) := by
  have hb := shut_of_disc (i := i) (disc_body .any c op (by decide) (fun e => by cases e)) (by simp) (by simp)
  have hr : ∀ k (q : Nat → P K V (Res K V)), (∀ j, Shut i false (q j)) → Shut i false (keyed c x k q (body c op)) := by
    intro k q hq
    unfold keyed
    split
    · rfl
    · split
      · exact hq _
      · exact hb
  have h1 : ∀ j, Shut (K := K) (V := V) i false (lockPanic j) := fun j =>
    Or.inr (Or.inr ⟨by simp, fun _ => Or.inr (Or.inr ⟨by simp, fun _ => rfl⟩)⟩)
  have h2 : ∀ j, Shut (K := K) (V := V) i false (rlockPanic j) := fun j =>
    Or.inr (Or.inr ⟨by simp, fun _ => rfl⟩)
  cases op <;> first | exact hb | exact hr _ _ h1 | exact hr _ _ h2

/-- The methods that cannot end without the lock of shard `i`: those on a key of that shard for which `GetShard` does
not panic, and those that go through all shards and cannot be stopped. -/
def Needs (c : Conf K) (x : Bad K) (i : Nat) : Op K V → Prop
  | .len | .keys | .values | .entries | .toMap | .clear => i < c.n
  | op => ∃ k, op.key? = some k ∧ shardOf c k = i ∧ (c.n = 1 ∨ x.hash k = false)

theorem shut_skip {i : Nat} {b : Bool} {a : Act K V} {f : Ans a → P K V (Res K V)} (ha : a ≠ .unlock i)
    (h : ∀ ans, Shut i b (f ans)) : Shut i b (.act a f) := Or.inr (Or.inr ⟨ha, h⟩)

theorem shut_collect {α : Type} {i : Nat} (add : α → List (K × V) → α) {f : α → P K V (Res K V)} :
    ∀ (rem j : Nat) (acc : α), j ≤ i → i < j + rem → Shut i true (collectLoop add j rem acc >>= f)
  | 0, j, acc, h1, h2 => by omega
  | rem + 1, j, acc, h1, h2 => by
    by_cases e : j = i
    · subst e; exact Or.inr (Or.inl rfl)
    · exact shut_skip (by simp) fun _ => shut_skip (by simp) fun m => shut_skip (by simp) fun o =>
        shut_skip (by simp) fun _ => shut_collect add rem (j + 1) _ (by omega) (by omega)

theorem shut_len {i : Nat} : ∀ (rem j n : Nat), j ≤ i → i < j + rem → Shut (K := K) (V := V) i true (lenLoop j rem n)
  | 0, j, n, h1, h2 => by omega
  | rem + 1, j, n, h1, h2 => by
    by_cases e : j = i
    · subst e; exact Or.inr (Or.inl rfl)
    · exact shut_skip (by simp) fun _ => shut_skip (by simp) fun m => shut_skip (by simp) fun _ =>
        shut_len rem (j + 1) _ (by omega) (by omega)

theorem shut_clear {i : Nat} : ∀ (rem j : Nat), j ≤ i → i < j + rem → Shut (K := K) (V := V) i true (clearLoop j rem)
  | 0, j, h1, h2 => by omega
  | rem + 1, j, h1, h2 => by
    by_cases e : j = i
    · subst e; exact Or.inr (Or.inl rfl)
    · exact shut_skip (by simp) fun _ => shut_skip (by simp) fun m => shut_skip (by simp) fun _ =>
        shut_clear rem (j + 1) (by omega) (by omega)

theorem shut_needs {c : Conf K} {x : Bad K} {i : Nat} {op : Op K V} (h : Needs c x i op) : Shut i true (bodyBad c x op) := by
  have key : ∀ k (q : Nat → P K V (Res K V)) (p : P K V (Res K V)), (c.n = 1 ∨ x.hash k = false) → Shut i true (q (shardOf c k)) →
      Shut i true p → Shut i true (keyed c x k q p) := by
    intro k q p hn hq hp
    unfold keyed
    rw [if_neg (by simp [noShard_false hn])]
    split
    · exact hq
    · exact hp
  cases op with
  | len => exact shut_len _ _ _ (Nat.zero_le _) (by have : i < c.n := h; omega)
  | keys => exact shut_collect _ _ _ _ (Nat.zero_le _) (by have : i < c.n := h; omega)
  | values => exact shut_collect _ _ _ _ (Nat.zero_le _) (by have : i < c.n := h; omega)
  | entries => exact shut_collect _ _ _ _ (Nat.zero_le _) (by have : i < c.n := h; omega)
  | toMap => exact shut_collect _ _ _ _ (Nat.zero_le _) (by have : i < c.n := h; omega)
  | clear => exact shut_clear _ _ (Nat.zero_le _) (by have : i < c.n := h; omega)
  | empty => obtain ⟨k, e, -⟩ := h; cases e
  | iterate => obtain ⟨k, e, -⟩ := h; cases e
  | iterateShards => obtain ⟨k, e, -⟩ := h; cases e
  | iterateShardsReadOnly => obtain ⟨k, e, -⟩ := h; cases e
  | set k v => obtain ⟨k, e, rfl, hn⟩ := h; cases e; exact key _ _ _ hn (Or.inl rfl) (Or.inl rfl)
  | trySet k v => obtain ⟨k, e, rfl, hn⟩ := h; cases e; exact key _ _ _ hn (Or.inl rfl) (Or.inl rfl)
  | delete k => obtain ⟨k, e, rfl, hn⟩ := h; cases e; exact key _ _ _ hn (Or.inl rfl) (Or.inl rfl)
  | get k => obtain ⟨k, e, rfl, hn⟩ := h; cases e; exact key _ _ _ hn (Or.inr (Or.inl rfl)) (Or.inr (Or.inl rfl))
  | tryGet k => obtain ⟨k, e, rfl, hn⟩ := h; cases e; exact key _ _ _ hn (Or.inr (Or.inl rfl)) (Or.inr (Or.inl rfl))
  | has k => obtain ⟨k, e, rfl, hn⟩ := h; cases e; exact key _ _ _ hn (Or.inr (Or.inl rfl)) (Or.inr (Or.inl rfl))
  | getOrSetFactory k => obtain ⟨k, e, rfl, hn⟩ := h; cases e; exact key _ _ _ hn (Or.inr (Or.inl rfl)) (Or.inr (Or.inl rfl))
  | getOrSetDefault k v => obtain ⟨k, e, rfl, hn⟩ := h; cases e; exact key _ _ _ hn (Or.inr (Or.inl rfl)) (Or.inr (Or.inl rfl))

/-- Only `Unlock` makes the writers' mutex free. -/
theorem wr_stays {t u : Tid} {a : Act K V} {σ σ' : Sh K V} {ans : Ans a} (h : AStep u a σ ans σ') {i : Nat}
    (hw : (σ.lock i).wr = some t) (ha : a ≠ .unlock i) : (σ'.lock i).wr = some t := by
  cases h <;> try exact hw
  all_goals
    simp only [set1]
    split
    · rename_i e; subst e; simp_all
    · exact hw

/-- **C101.** A writers' mutex that is left locked when no call is in progress is never released, and no method that
needs that shard ever returns, whatever goroutines do from then on. -/
theorem C101_locked_forever (c : Conf K) (x : Bad K) (s s' : Cfg K V) (tr : List (Lab K V))
    (he : Exec (bodyBad c x) s tr s') (hi : ∀ t, s.th t = .idle) (i : Nat) (t : Tid) (hw : (s.sh.lock i).wr = some t) :
    (s'.sh.lock i).wr = some t ∧ ∀ u op r, .ret u op r ∈ tr → ¬ Needs c x i op := by
  suffices h : (s'.sh.lock i).wr = some t ∧ (∀ u op r, .ret u op r ∈ tr → ¬ Needs c x i op) ∧
      ∀ u op p, s'.th u = .run op p → Shut i false p ∧ (Needs c x i op → Shut i true p) from ⟨h.1, h.2.1⟩
  induction he with
  | nil => exact ⟨hw, by simp, fun u op p h => by rw [hi u] at h; cases h⟩
  | snoc _ hs ih =>
    obtain ⟨h1, h2, h3⟩ := ih
    cases hs with
    | call v op0 h0 =>
      refine ⟨h1, fun u op r hm => h2 u op r (by simpa using hm), fun u op p hu => ?_⟩
      by_cases e : u = v
      · subst e
        simp only [upd_same] at hu
        injection hu with e1 e2
        subst e1; subst e2
        exact ⟨shut_bodyBad _ _ _ _, shut_needs⟩
      · simp only [upd_other _ _ e] at hu
        exact h3 u op p hu
    | ret v op0 r0 h0 =>
      refine ⟨h1, fun u op r hm => ?_, fun u op p hu => ?_⟩
      · rcases List.mem_append.1 hm with hm | hm
        · exact h2 u op r hm
        · simp only [List.mem_singleton, Label.ret.injEq] at hm
          obtain ⟨rfl, rfl, rfl⟩ := hm
          intro hn
          have := (h3 _ _ _ h0).2 hn
          cases this
      · by_cases e : u = v
        · subst e
          simp only [upd_same] at hu
          cases hu
        · simp only [upd_other _ _ e] at hu
          exact h3 u op p hu
    | act v op0 a k ans sh' h0 hst =>
      obtain ⟨g1, g2⟩ := h3 _ _ _ h0
      have nb : ¬ (a = .lockBegin i ∨ a = .rlock i) := by
        rintro (rfl | rfl)
        · cases hst with | lockBegin _ _ hn => rw [h1] at hn; cases hn
        · cases hst with | rlock _ _ hn => rw [h1] at hn; cases hn
      have go : ∀ b, Shut i b (.act a k : P K V (Res K V)) → a ≠ .unlock i ∧ Shut i b (k ans) := by
        intro b hb
        rcases hb with hb | hb | ⟨hb, hc⟩
        · exact absurd (Or.inl hb) nb
        · exact absurd (Or.inr hb) nb
        · exact ⟨hb, hc ans⟩
      refine ⟨wr_stays hst h1 (go _ g1).1, fun u op r hm => h2 u op r (by simpa using hm), fun u op p hu => ?_⟩
      by_cases e : u = v
      · subst e
        simp only [upd_same] at hu
        injection hu with e1 e2
        subst e1; subst e2
        exact ⟨(go _ g1).2, fun hn => (go _ (g2 hn)).2⟩
      · simp only [upd_other _ _ e] at hu
        exact h3 u op p hu

/-- **C101.** And such a mutex is left behind by `Set`, `TrySet` and `Delete` of a key that the map panics on, if
the hash function does not, or there is just one shard. -/
theorem C101_leaves_locked (c : Conf K) (x : Bad K) (k : K) (hk : x.key k = true) (hn : c.n = 1 ∨ x.hash k = false) (t : Tid)
    (op : Op K V) (hop : op = .delete k ∨ ∃ v, op = .set k v ∨ op = .trySet k v) :
    ∃ (tr : List (Lab K V)) (s : Cfg K V),
      Exec (bodyBad c x) (Config.init fresh) (tr ++ [.ret t op .panic]) s ∧ (∀ u, s.th u = .idle) ∧
      (s.sh.lock (shardOf c k)).wr = some t := by
  have hn := noShard_false hn
  have e : bodyBad c x op = lockPanic (shardOf c k) := by
    rcases hop with rfl | ⟨v, rfl | rfl⟩ <;> simp [bodyBad, keyed, hn, hk]
  have h1 : Exec (M := mach K V) (bodyBad c x) (Config.init fresh) _ _ := .snoc .nil (.call t op rfl)
  have h2 := h1.snoc (.act (M := mach K V) t op (.lockBegin (shardOf c k)) _ () _ (by simp only [upd_same]; rw [e]; rfl)
    (.lockBegin _ _ rfl))
  have h3 := h2.snoc (.act (M := mach K V) t op (.lockWait (shardOf c k)) _ () _ (by simp only [upd_same]; rfl)
    (.lockWait _ _ (by simp [set1]) (by simp [set1]) (by simp [set1]; rfl)))
  have h4 := h3.snoc (.ret t op .panic (by simp only [upd_same]; rfl))
  refine ⟨_, _, h4, fun u => ?_, by simp [set1]⟩
  by_cases hu : u = t
  · simp [hu, upd]
  · simp [hu, upd, Config.init]

/-- So C101 is false for one shard, and for hash functions that take keys the map does not. -/
theorem not_locksReleased (c : Conf K) (x : Bad K) (k : K) (hk : x.key k = true) (hn : c.n = 1 ∨ x.hash k = false) :
    ¬ LocksReleased V c x := by
  intro h
  obtain ⟨tr, s, he, hi, hw⟩ := C101_leaves_locked (V := V) c x k hk hn 0 (.delete k) (Or.inl rfl)
  have := (h _ s he hi (shardOf c k)).1
  rw [hw] at this
  cases this

/-- **C101, exactly.** All calls release their locks if and only if choosing the shard panics for every key
that the map panics on. -/
theorem C101_exact (c : Conf K) (x : Bad K) :
    LocksReleased V c x ↔ ∀ k, x.key k = true → c.n ≠ 1 ∧ x.hash k = true := by
  constructor
  · intro h k hk
    refine ⟨fun hn => not_locksReleased c x k hk (Or.inl hn) h, ?_⟩
    cases hh : x.hash k with
    | true => rfl
    | false => exact absurd h (not_locksReleased c x k hk (Or.inr hh))
  · intro h tr s he hi i
    exact C101_released_partial c x tr s he (fun _ _ _ k _ hk => h k hk) hi i

/-! ## A reader left behind -/

/-- The program, which is inside shard `i` for reading `n` times, leaves no more often than it enters. -/
def Bal (i : Nat) : Nat → P K V (Res K V) → Prop
  | _, .ret _ => True
  | n, .act a k =>
    (a = .rlock i → ∀ ans, Bal i (n + 1) (k ans)) ∧ (a = .runlock i → ∃ m, n = m + 1 ∧ ∀ ans, Bal i m (k ans)) ∧
    (a ≠ .rlock i → a ≠ .runlock i → ∀ ans, Bal i n (k ans))

theorem bal_of_disc {i : Nat} {p : P K V (Res K V)} : ∀ {h : Held}, Disc .any h p → Bal i (if h = .R i then 1 else 0) p := by
  induction p with
  | ret r => intro _ _; trivial
  | act a k ih =>
    rintro h ⟨h', e1, -, e3⟩
    refine ⟨?_, ?_, ?_⟩
    · rintro rfl ans
      obtain ⟨rfl, rfl⟩ := heldAfter_rlock e1
      have := ih ans (e3 ans)
      simpa using this
    · rintro rfl
      obtain ⟨rfl, rfl⟩ := heldAfter_runlock e1
      refine ⟨0, by simp, fun ans => ?_⟩
      have := ih ans (e3 ans)
      simpa using this
    · intro n1 n2 ans
      have := ih ans (e3 ans)
      have e : (h' = .R i) ↔ (h = .R i) := by
        constructor
        · rintro rfl
          cases a <;> cases h <;> simp_all [heldAfter]
        · rintro rfl
          cases a <;> simp_all [heldAfter]
      simp only [e] at this
      exact this

theorem bal_bodyBad (c : Conf K) (x : Bad K) (i : Nat) (op : Op K V) : Bal i 0 (bodyBad c x op) := by
  have hb : Bal i 0 (body c op) := bal_of_disc (h := .no) (disc_body .any c op (by decide) (fun e => by cases e))
  have hr : ∀ k (q : Nat → P K V (Res K V)), (∀ j, Bal i 0 (q j)) → Bal i 0 (keyed c x k q (body c op)) := by
    intro k q hq
    unfold keyed
    split
    · trivial
    · split
      · exact hq _
      · exact hb
  have h1 : ∀ j, Bal (K := K) (V := V) i 0 (lockPanic j) := fun j =>
    ⟨(fun e => by cases e), (fun e => by cases e), fun _ _ _ =>
      ⟨(fun e => by cases e), (fun e => by cases e), fun _ _ _ => trivial⟩⟩
  have h2 : ∀ j, Bal (K := K) (V := V) i 0 (rlockPanic j) := fun j =>
    ⟨fun _ _ => trivial, (fun e => by cases e), fun _ _ _ => trivial⟩
  cases op <;> first | exact hb | exact hr _ _ h1 | exact hr _ _ h2

/-- The program does not end before it has waited for the readers of shard `i` to leave. -/
def Waits (i : Nat) : P K V (Res K V) → Prop
  | .ret _ => False
  | .act a k => a = .lockWait i ∨ ∀ ans, Waits i (k ans)

theorem waits_bodyBad {c : Conf K} {x : Bad K} {i : Nat} {op : Op K V} {k : K}
    (hop : op = .delete k ∨ ∃ v, op = .set k v ∨ op = .trySet k v) (hi : shardOf c k = i) (hn : noShard c x k = false) :
    Waits i (bodyBad c x op) := by
  have key : ∀ (p : P K V (Res K V)), Waits i p → Waits i (keyed c x k lockPanic p) := by
    intro p hp
    unfold keyed
    rw [if_neg (by simp [hn])]
    split
    · rw [hi]; exact Or.inr fun _ => Or.inl rfl
    · exact hp
  subst hi
  rcases hop with rfl | ⟨v, rfl | rfl⟩ <;> exact key _ (Or.inr fun _ => Or.inl rfl)

/-- Only `RLock` and `RUnlock` change the readers. -/
theorem rd_same {u : Tid} {a : Act K V} {σ σ' : Sh K V} {ans : Ans a} (h : AStep u a σ ans σ') {i : Nat} {t : Tid}
    (h1 : a ≠ .rlock i) (h2 : a ≠ .runlock i) : (σ'.lock i).rd.count t = (σ.lock i).rd.count t := by
  cases h <;> try rfl
  all_goals
    simp only [set1]
    split
    · rename_i e; subst e; first | rfl | simp_all
    · rfl

/-- Others do not take a reader out. -/
theorem rd_others {t u : Tid} {a : Act K V} {σ σ' : Sh K V} {ans : Ans a} (h : AStep u a σ ans σ') (hu : u ≠ t) {i : Nat} :
    (σ.lock i).rd.count t ≤ (σ'.lock i).rd.count t := by
  cases h <;> try exact Nat.le_refl _
  all_goals
    simp only [set1]
    split
    · rename_i e; subst e
      first
        | exact Nat.le_refl _
        | exact List.count_le_count_cons
        | exact Nat.le_of_eq (List.count_erase_of_ne (Ne.symm hu)).symm
    · exact Nat.le_refl _

/-- **C101.** A reader that is left inside a shard when no call is in progress never leaves, and no `Set`, `TrySet` or
`Delete` of a key of that shard ever returns (unless `GetShard` panics), whatever goroutines do from then on. -/
theorem C101_reader_forever (c : Conf K) (x : Bad K) (s s' : Cfg K V) (tr : List (Lab K V))
    (he : Exec (bodyBad c x) s tr s') (hi : ∀ t, s.th t = .idle) (i : Nat) (t : Tid) (hw : t ∈ (s.sh.lock i).rd) :
    t ∈ (s'.sh.lock i).rd ∧ ∀ u op r k, .ret u op r ∈ tr → (op = .delete k ∨ ∃ v, op = .set k v ∨ op = .trySet k v) →
      shardOf c k = i → c.n ≠ 1 ∧ x.hash k = true := by
  let T (op : Op K V) : Prop := ∃ k, (op = .delete k ∨ ∃ v, op = .set k v ∨ op = .trySet k v) ∧ shardOf c k = i ∧
    noShard c x k = false
  suffices h : (∃ n, n + 1 ≤ (s'.sh.lock i).rd.count t ∧ ∀ op p, s'.th t = .run op p → Bal i n p) ∧
      (∀ u op r, .ret u op r ∈ tr → ¬ T op) ∧ ∀ u op p, s'.th u = .run op p → T op → Waits i p by
    obtain ⟨⟨n, h1, -⟩, h2, -⟩ := h
    refine ⟨List.count_pos_iff.1 (by omega), fun u op r k hm ho hs => ?_⟩
    cases hn : noShard c x k with
    | true => simpa [noShard] using hn
    | false => exact absurd ⟨k, ho, hs, hn⟩ (h2 u op r hm)
  induction he with
  | nil =>
    exact ⟨⟨0, List.count_pos_iff.2 hw, fun op p h => by rw [hi t] at h; cases h⟩, by simp,
      fun u op p h => by rw [hi u] at h; cases h⟩
  | snoc _ hs ih =>
    obtain ⟨⟨n, h0, h1⟩, h2, h3⟩ := ih
    cases hs with
    | call v op0 hv =>
      refine ⟨?_, fun u op r hm => h2 u op r (by simpa using hm), fun u op p hu => ?_⟩
      · by_cases e : t = v
        · subst e
          refine ⟨0, Nat.le_trans (Nat.le_add_left 1 n) h0, fun op p hu => ?_⟩
          simp only [upd_same] at hu
          injection hu with e1 e2
          subst e1; subst e2
          exact bal_bodyBad _ _ _ _
        · refine ⟨n, h0, fun op p hu => ?_⟩
          simp only [upd_other _ _ e] at hu
          exact h1 op p hu
      · by_cases e : u = v
        · subst e
          simp only [upd_same] at hu
          injection hu with e1 e2
          subst e1; subst e2
          rintro ⟨k, ho, hs, hn⟩
          exact waits_bodyBad ho hs hn
        · simp only [upd_other _ _ e] at hu
          exact h3 u op p hu
    | ret v op0 r0 hv =>
      refine ⟨⟨n, h0, fun op p hu => ?_⟩, fun u op r hm => ?_, fun u op p hu => ?_⟩
      · by_cases e : t = v
        · subst e
          simp only [upd_same] at hu
          cases hu
        · simp only [upd_other _ _ e] at hu
          exact h1 op p hu
      · rcases List.mem_append.1 hm with hm | hm
        · exact h2 u op r hm
        · simp only [List.mem_singleton, Label.ret.injEq] at hm
          obtain ⟨rfl, rfl, rfl⟩ := hm
          intro hT
          exact h3 _ _ _ hv hT
      · by_cases e : u = v
        · subst e
          simp only [upd_same] at hu
          cases hu
        · simp only [upd_other _ _ e] at hu
          exact h3 u op p hu
    | act v op0 a k ans sh' hv hst =>
      refine ⟨?_, fun u op r hm => h2 u op r (by simpa using hm), fun u op p hu hT => ?_⟩
      · by_cases e : t = v
        · subst e
          obtain ⟨b1, b2, b3⟩ := h1 _ _ hv
          have done : ∀ (f : Tid → Thread (mach K V) (Op K V) (Res K V)) (m : Nat), (∀ ans, Bal i m (k ans)) →
              m + 1 ≤ (sh'.lock i).rd.count t → ∃ n, n + 1 ≤ (sh'.lock i).rd.count t ∧
              ∀ op p, upd f t (.run op0 (k ans)) t = Thread.run op p → Bal i n p := by
            intro f m hm hc
            refine ⟨m, hc, fun op p hu => ?_⟩
            simp only [upd_same] at hu
            injection hu with e1 e2
            subst e2
            exact hm ans
          by_cases ha1 : a = .rlock i
          · subst ha1
            refine done _ _ (b1 rfl) ?_
            cases hst
            simp [set1]
            omega
          · by_cases ha2 : a = .runlock i
            · subst ha2
              obtain ⟨m, rfl, hm⟩ := b2 rfl
              refine done _ m hm ?_
              cases hst
              simp [set1, List.count_erase_self]
              omega
            · refine done _ n (b3 ha1 ha2) ?_
              exact Nat.le_trans h0 (Nat.le_of_eq (rd_same hst ha1 ha2).symm)
        · refine ⟨n, Nat.le_trans h0 (rd_others hst (Ne.symm e)), fun op p hu => ?_⟩
          simp only [upd_other _ _ e] at hu
          exact h1 op p hu
      · by_cases e : u = v
        · subst e
          simp only [upd_same] at hu
          injection hu with e1 e2
          subst e1; subst e2
          rcases h3 _ _ _ hv hT with rfl | hw'
          · cases hst with
            | lockWait _ _ _ _ h => rw [h] at h0; simp at h0
          · exact hw' ans
        · simp only [upd_other _ _ e] at hu
          exact h3 u op p hu hT

/-- **C101.** Such a reader is left behind by `Get`, `TryGet`, `Has`, `GetOrSetFactory` and `GetOrSetDefault`. -/
theorem C101_leaves_reader (c : Conf K) (x : Bad K) (k : K) (hk : x.key k = true) (hn : c.n = 1 ∨ x.hash k = false) (t : Tid)
    (op : Op K V) (hop : op = .get k ∨ op = .tryGet k ∨ op = .has k ∨ op = .getOrSetFactory k ∨
      ∃ v, op = .getOrSetDefault k v) :
    ∃ (tr : List (Lab K V)) (s : Cfg K V),
      Exec (bodyBad c x) (Config.init fresh) (tr ++ [.ret t op .panic]) s ∧ (∀ u, s.th u = .idle) ∧
      t ∈ (s.sh.lock (shardOf c k)).rd := by
  have hn := noShard_false hn
  have e : bodyBad c x op = rlockPanic (shardOf c k) := by
    rcases hop with rfl | rfl | rfl | rfl | ⟨v, rfl⟩ <;> simp [bodyBad, keyed, hn, hk]
  have h1 : Exec (M := mach K V) (bodyBad c x) (Config.init fresh) _ _ := .snoc .nil (.call t op rfl)
  have h2 := h1.snoc (.act (M := mach K V) t op (.rlock (shardOf c k)) _ () _ (by simp only [upd_same]; rw [e]; rfl)
    (.rlock _ _ rfl))
  have h3 := h2.snoc (.ret t op .panic (by simp only [upd_same]; rfl))
  refine ⟨_, _, h3, fun u => ?_, by simp [set1]⟩
  by_cases hu : u = t
  · simp [hu, upd]
  · simp [hu, upd, Config.init]

/-- Key 7 cannot be hashed, and there is one shard: after `Set(7, 1)` has panicked `Set(3, 1)` never returns. -/
example : ¬ LocksReleased Nat Props.one ⟨fun k => k == 7, fun k => k == 7⟩ ∧
    ∃ (tr : List (Lab Nat Nat)) (s : Cfg Nat Nat),
      Exec (bodyBad Props.one ⟨fun k => k == 7, fun k => k == 7⟩) (Config.init fresh) (tr ++ [.ret 0 (.set 7 1) .panic]) s ∧
      ∀ tr' s', Exec (bodyBad Props.one ⟨fun k => k == 7, fun k => k == 7⟩) s tr' s' → ∀ u r, .ret u (.set 3 1) r ∉ tr' := by
  refine ⟨not_locksReleased _ _ 7 rfl (.inl rfl), ?_⟩
  obtain ⟨tr, s, h1, h2, h3⟩ := C101_leaves_locked (V := Nat) Props.one ⟨fun k => k == 7, fun k => k == 7⟩ 7 rfl (.inl rfl) 0
    (.set 7 1) (Or.inr ⟨1, Or.inl rfl⟩)
  refine ⟨tr, s, h1, fun tr' s' he u r hm => ?_⟩
  exact (C101_locked_forever _ _ _ _ _ he h2 _ _ h3).2 _ _ _ hm ⟨3, rfl, rfl, .inl rfl⟩

/-- With two shards and a hash function that panics on the same keys all is well, whatever is called. -/
example (tr : List (Lab Nat Nat)) (s : Cfg Nat Nat)
    (he : Exec (bodyBad Props.two ⟨fun k => k == 7, fun k => k == 7⟩) (Config.init fresh) tr s)
    (hi : ∀ t, s.th t = .idle) : (s.sh.lock 1).wr = none ∧ (s.sh.lock 1).rd = [] :=
  C101_released_partial _ _ _ _ he (fun _ _ _ k _ hk => ⟨by decide, hk⟩) hi 1

/-- `TryGet(7)` panics and `Set(3, 1)` never returns. -/
example : ∃ (tr : List (Lab Nat Nat)) (s : Cfg Nat Nat),
      Exec (bodyBad Props.one ⟨fun k => k == 7, fun k => k == 7⟩) (Config.init fresh) (tr ++ [.ret 0 (.tryGet 7) .panic]) s ∧
      ∀ tr' s', Exec (bodyBad Props.one ⟨fun k => k == 7, fun k => k == 7⟩) s tr' s' → ∀ u r, .ret u (.set 3 1) r ∉ tr' := by
  obtain ⟨tr, s, h1, h2, h3⟩ := C101_leaves_reader (V := Nat) Props.one ⟨fun k => k == 7, fun k => k == 7⟩ 7 rfl (.inl rfl) 0
    (.tryGet 7) (Or.inr (Or.inl rfl))
  refine ⟨tr, s, h1, fun tr' s' he u r hm => ?_⟩
  have := (C101_reader_forever _ _ _ _ _ he h2 _ _ h3).2 _ _ _ 3 hm (Or.inr ⟨1, Or.inl rfl⟩) rfl
  exact this.1 rfl

end Verif.Sharded
