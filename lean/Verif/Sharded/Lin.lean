import Verif.Conc.Lin
import Verif.Sharded.Locks

/-!
# The single-key operations take effect at one moment
-/

set_option linter.unusedSectionVars false

namespace Verif.Sharded

open Verif.Conc Verif.GoMap

variable {K V : Type} [DecidableEq K] [Inhabited V]

/-- The table of shard `i` is `m`, as far as the map `μ` tells. -/
def Knows (c : Conf K) (i : Nat) (m : Tab K V) (μ : PMap K V) : Prop := ∀ k, shardOf c k = i → μ k = m.get? k

/-- `m` can be the table of shard `i`. -/
def ShardOk (c : Conf K) (i : Nat) (m : Tab K V) : Prop := m.WF ∧ ∀ k v, (k, v) ∈ m → shardOf c k = i

/-- Nothing happens, or the call takes effect without changing the map, knowing the table of shard `i`. -/
def LinRead (c : Conf K) (op : Op K V) (i : Nat) (m : Tab K V) (s s' : Option (Res K V)) : Prop :=
  s' = s ∨ s = none ∧ ∃ r, s' = some r ∧ ∀ μ, Knows c i m μ → (mapSpec K V).legal μ op r μ

/-- The call takes effect by changing the table of shard `i`. -/
def LinWrite (c : Conf K) (op : Op K V) (i : Nat) (m m' : Tab K V) (s s' : Option (Res K V)) : Prop :=
  s = none ∧ ∃ r, s' = some r ∧ ∀ μ μ', Knows c i m μ → Knows c i m' μ' →
    (∀ k, shardOf c k ≠ i → μ' k = μ k) → (mapSpec K V).legal μ op r μ'

/-- What `GetOrSetFactory` does after the factory has returned `v`. -/
def storing (c : Conf K) (x : K) (v : V) : P K V (Res K V) :=
  .act (.write (shardOf c x) (·.put x v)) fun _ => .act (.unlock (shardOf c x)) fun _ => .ret (.pair v false)

/-- The rest of a call of `op`: `h` is the lock held, `m` the table of that shard if held for writing, `s`
the result if the call has already taken effect. -/
def Good (c : Conf K) (op : Op K V) : Held → Tab K V → Option (Res K V) → P K V (Res K V) → Prop
  | h, _, s, .ret r => h = .no ∧ (s = some r ∨ s = none ∧ ∀ μ, (mapSpec K V).legal μ op r μ)
  | h, m, s, .act (.lockBegin i) k => h = .no ∧ Good c op (.P i) m s (k ())
  | h, _, s, .act (.lockWait i) k => h = .P i ∧ ∀ m, ShardOk c i m → Good c op (.W i) m s (k ())
  | h, m, s, .act (.unlock i) k => h = .W i ∧ Good c op .no m s (k ())
  | h, m, s, .act (.rlock i) k => h = .no ∧ Good c op (.R i) m s (k ())
  | h, m, s, .act (.runlock i) k => h = .R i ∧ Good c op .no m s (k ())
  | h, m, s, .act (.read i) k =>
    (h = .R i ∧ ∀ m', ∃ s', LinRead c op i m' s s' ∧ Good c op h m s' (k m')) ∨
    (h = .W i ∧ ∃ s', LinRead c op i m s s' ∧ Good c op h m s' (k m))
  | h, m, s, .act (.write i f) k =>
    h = .W i ∧ ShardOk c i (f m) ∧ ∃ s', LinWrite c op i m (f m) s s' ∧ Good c op h (f m) s' (k ())
  | h, m, s, .act (.factory x) k =>
    h = .W (shardOf c x) ∧ m.get? x = none ∧
    op = .getOrSetFactory x ∧ (∀ v, k (some v) = storing c x v) ∧
    ∀ ans, ∃ s', LinRead c op (shardOf c x) m s s' ∧ Good c op h m s' (k ans)
  | h, m, s, .act .callback k => ∀ ans, Good c op h m s (k ans)
  | h, m, s, .act .edit k => ∀ ans, Good c op h m s (k ans)
  | h, m, s, .act .order k => ∀ ans, Good c op h m s (k ans)

section
variable {c : Conf K} {op : Op K V}

theorem good_ret {m : Tab K V} {r : Res K V} : Good c op .no m (some r) (pure r) := ⟨rfl, Or.inl rfl⟩

theorem good_lock {i : Nat} {m : Tab K V} {s : Option (Res K V)} {f : Unit → P K V (Res K V)}
    (hf : ∀ m, ShardOk c i m → Good c op (.W i) m s (f ())) : Good c op .no m s (lock i >>= f) :=
  ⟨rfl, rfl, fun m hm => hf m hm⟩

theorem good_unlock {i : Nat} {m : Tab K V} {s : Option (Res K V)} {f : Unit → P K V (Res K V)}
    (hf : Good c op .no m s (f ())) : Good c op (.W i) m s (step_ (.unlock i) >>= f) := ⟨rfl, hf⟩

theorem good_readW {i : Nat} {m : Tab K V} {s : Option (Res K V)} (s' : Option (Res K V))
    {f : Tab K V → P K V (Res K V)} (hl : LinRead c op i m s s') (hf : Good c op (.W i) m s' (f m)) :
    Good c op (.W i) m s (read i >>= f) := Or.inr ⟨rfl, s', hl, hf⟩

theorem good_write {i : Nat} {m : Tab K V} {s : Option (Res K V)} {g : Tab K V → Tab K V} (s' : Option (Res K V))
    {f : Unit → P K V (Res K V)} (ho : ShardOk c i (g m)) (hl : LinWrite c op i m (g m) s s')
    (hf : Good c op (.W i) (g m) s' (f ())) : Good c op (.W i) m s (step_ (.write i g) >>= f) :=
  ⟨rfl, ho, s', hl, hf⟩

theorem good_tryGetCore {k : K} {m0 : Tab K V} {s : Option (Res K V)} {f : Option V → P K V (Res K V)}
    (hf : ∀ m : Tab K V, ∃ s', LinRead c op (shardOf c k) m s s' ∧ Good c op .no m0 s' (f (m.get? k))) :
    Good c op .no m0 s (tryGetCore c k >>= f) := by
  refine ⟨rfl, Or.inl ⟨rfl, fun m' => ?_⟩⟩
  obtain ⟨s', h1, h2⟩ := hf m'
  exact ⟨s', h1, rfl, h2⟩

/-- Programs that only read can be let take effect at the end, if any result is allowed. -/
theorem good_of_ro (hop : ∀ r μ, (mapSpec K V).legal μ op r μ) : ∀ {h : Held} {p : P K V (Res K V)} (m : Tab K V),
    Disc .ro h p → Good c op h m none p
  | h, .ret r, m, hd => ⟨hd, Or.inr ⟨rfl, fun μ => hop r μ⟩⟩
  | h, .act (.lockBegin i) k, m, hd => by
    obtain ⟨h', e1, e2, e3⟩ := hd
    obtain ⟨e4, e5⟩ := heldAfter_lockBegin e1
    exact ⟨e4, good_of_ro hop m (e5 ▸ e3 ())⟩
  | h, .act (.lockWait i) k, m, hd => by
    obtain ⟨h', e1, e2, e3⟩ := hd
    obtain ⟨e4, e5⟩ := heldAfter_lockWait e1
    exact ⟨e4, fun m _ => good_of_ro hop m (e5 ▸ e3 ())⟩
  | h, .act (.unlock i) k, m, hd => by
    obtain ⟨h', e1, e2, e3⟩ := hd
    obtain ⟨e4, e5⟩ := heldAfter_unlock e1
    exact ⟨e4, good_of_ro hop m (e5 ▸ e3 ())⟩
  | h, .act (.rlock i) k, m, hd => by
    obtain ⟨h', e1, e2, e3⟩ := hd
    obtain ⟨e4, e5⟩ := heldAfter_rlock e1
    exact ⟨e4, good_of_ro hop m (e5 ▸ e3 ())⟩
  | h, .act (.runlock i) k, m, hd => by
    obtain ⟨h', e1, e2, e3⟩ := hd
    obtain ⟨e4, e5⟩ := heldAfter_runlock e1
    exact ⟨e4, good_of_ro hop m (e5 ▸ e3 ())⟩
  | h, .act (.read i) k, m, hd => by
    obtain ⟨h', e1, e2, e3⟩ := hd
    have e4 : h' = h := by cases h <;> (injection e1 with e1; exact e1.symm)
    subst e4
    rcases e2 with e2 | e2
    · exact Or.inl ⟨e2, fun m' => ⟨none, Or.inl rfl, good_of_ro hop m (e3 m')⟩⟩
    · exact Or.inr ⟨e2, none, Or.inl rfl, good_of_ro hop m (e3 m)⟩
  | h, .act (.write i f) k, m, hd => by
    obtain ⟨h', e1, e2, e3⟩ := hd
    exact absurd e2 (by simp [Covered])
  | h, .act (.factory x) k, m, hd => by
    obtain ⟨h', e1, e2, e3⟩ := hd
    exact absurd e2 (by simp [Covered])
  | h, .act .callback k, m, hd => by
    obtain ⟨h', e1, e2, e3⟩ := hd
    have e4 : h' = h := by cases h <;> (injection e1 with e1; exact e1.symm)
    subst e4
    exact fun ans => good_of_ro hop m (e3 ans)
  | h, .act .edit k, m, hd => by
    obtain ⟨h', e1, e2, e3⟩ := hd
    have e4 : h' = h := by cases h <;> (injection e1 with e1; exact e1.symm)
    subst e4
    exact fun ans => good_of_ro hop m (e3 ans)
  | h, .act .order k, m, hd => by
    obtain ⟨h', e1, e2, e3⟩ := hd
    have e4 : h' = h := by cases h <;> (injection e1 with e1; exact e1.symm)
    subst e4
    exact fun ans => good_of_ro hop m (e3 ans)

end

theorem ShardOk.put {c : Conf K} {k : K} {v : V} {m : Tab K V} (h : ShardOk c (shardOf c k) m) :
    ShardOk c (shardOf c k) (m.put k v) := by
  refine ⟨WF.put h.1 k v, fun x w hx => ?_⟩
  rcases (mem_put k v (x, w)).1 hx with e | ⟨e, -⟩
  · injection e with e1 e2; rw [e1]
  · exact h.2 x w e

theorem ShardOk.del {c : Conf K} {k : K} {m : Tab K V} (h : ShardOk c (shardOf c k) m) :
    ShardOk c (shardOf c k) (m.del k) :=
  ⟨WF.del h.1 k, fun x w hx => h.2 x w ((mem_del k (x, w)).1 hx).1⟩

/-- The new map, if the table of one shard has had `k` set. -/
theorem knows_put {c : Conf K} {k : K} {v : V} {m : Tab K V} (h : m.WF) {μ μ' : PMap K V}
    (h1 : Knows c (shardOf c k) m μ) (h2 : Knows c (shardOf c k) (m.put k v) μ')
    (h3 : ∀ x, shardOf c x ≠ shardOf c k → μ' x = μ x) : μ' = μ.set k v := by
  funext x
  unfold PMap.set
  by_cases e : shardOf c x = shardOf c k
  · rw [h2 x e, h1 x e, get?_put h]
  · rw [h3 x e, if_neg]
    rintro rfl; exact e rfl

theorem knows_del {c : Conf K} {k : K} {m : Tab K V} (h : m.WF) {μ μ' : PMap K V}
    (h1 : Knows c (shardOf c k) m μ) (h2 : Knows c (shardOf c k) (m.del k) μ')
    (h3 : ∀ x, shardOf c x ≠ shardOf c k → μ' x = μ x) : μ' = μ.erase k := by
  funext x
  unfold PMap.erase
  by_cases e : shardOf c x = shardOf c k
  · rw [h2 x e, h1 x e, get?_del h]
  · rw [h3 x e, if_neg]
    rintro rfl; exact e rfl

/-- The operations considered. -/
def Allowed (op : Op K V) : Prop := SingleKey op ∨ ReadsAll op

theorem legal_single {op : Op K V} {r : Res K V} {μ μ' : PMap K V} (hs : SingleKey op) (h : Legal μ op r μ') :
    (mapSpec K V).legal μ op r μ' := ⟨fun _ => h, fun hr => by cases op <;> first | exact hs.elim | exact hr.elim⟩

theorem legal_all {op : Op K V} (hs : ReadsAll op) (r : Res K V) (μ : PMap K V) :
    (mapSpec K V).legal μ op r μ := ⟨fun h => (by cases op <;> first | exact h.elim | exact hs.elim), fun _ => rfl⟩

/-- Every method takes effect at one moment. -/
theorem good_body (c : Conf K) (op : Op K V) (h : Allowed op) (m0 : Tab K V) : Good c op .no m0 none (body c op) := by
  cases op with
  | set k v =>
    refine good_lock fun m hm => good_write (some .unit) hm.put ⟨rfl, _, rfl, ?_⟩ (good_unlock good_ret)
    intro μ μ' h1 h2 h3
    exact legal_single trivial ⟨rfl, knows_put hm.1 h1 h2 h3⟩
  | trySet k v =>
    refine good_lock fun m hm => ?_
    cases hk : m.get? k with
    | none =>
      refine good_readW none (Or.inl rfl) ?_
      simp only [hk]
      refine good_write (some (.bool true)) hm.put ⟨rfl, _, rfl, ?_⟩ (good_unlock good_ret)
      intro μ μ' h1 h2 h3
      refine legal_single trivial ?_
      simp only [Legal, h1 k rfl, hk]
      exact ⟨trivial, knows_put hm.1 h1 h2 h3⟩
    | some w =>
      refine good_readW (some (.bool false)) (Or.inr ⟨rfl, _, rfl, fun μ h1 => ?_⟩) ?_
      · refine legal_single trivial ?_
        simp only [Legal, h1 k rfl, hk]
        exact ⟨trivial, trivial⟩
      · simp only [hk]
        exact good_unlock good_ret
  | get k =>
    refine good_tryGetCore fun m => ?_
    cases hk : m.get? k with
    | none =>
      refine ⟨some .panic, Or.inr ⟨rfl, _, rfl, fun μ h1 => legal_single trivial ⟨rfl, ?_⟩⟩, good_ret⟩
      rw [h1 k rfl, hk]
    | some w =>
      refine ⟨some (.val w), Or.inr ⟨rfl, _, rfl, fun μ h1 => legal_single trivial ⟨rfl, ?_⟩⟩, good_ret⟩
      rw [h1 k rfl, hk]
  | tryGet k =>
    refine good_tryGetCore fun m => ?_
    cases hk : m.get? k with
    | none =>
      refine ⟨some (.pair default false), Or.inr ⟨rfl, _, rfl, fun μ h1 => legal_single trivial ⟨rfl, ?_⟩⟩, good_ret⟩
      rw [h1 k rfl, hk]
    | some w =>
      refine ⟨some (.pair w true), Or.inr ⟨rfl, _, rfl, fun μ h1 => legal_single trivial ⟨rfl, ?_⟩⟩, good_ret⟩
      rw [h1 k rfl, hk]
  | getOrSetFactory k =>
    refine good_tryGetCore fun m => ?_
    cases hk : m.get? k with
    | some w =>
      refine ⟨some (.pair w true), Or.inr ⟨rfl, _, rfl, fun μ h1 => legal_single trivial ?_⟩, good_ret⟩
      simp only [Legal, h1 k rfl, hk]
      exact ⟨trivial, trivial⟩
    | none =>
      clear hk
      refine ⟨none, Or.inl rfl, ?_⟩
      refine good_lock fun m hm => ?_
      cases hk : m.get? k with
      | some w =>
        refine good_readW (some (.pair w true)) (Or.inr ⟨rfl, _, rfl, fun μ h1 => ?_⟩) ?_
        · refine legal_single trivial ?_
          simp only [Legal, h1 k rfl, hk]
          exact ⟨trivial, trivial⟩
        · simp only [hk]
          exact good_unlock good_ret
      | none =>
        refine good_readW none (Or.inl rfl) ?_
        simp only [hk]
        refine ⟨rfl, hk, rfl, fun v => rfl, fun w => ?_⟩
        cases w with
        | none =>
          refine ⟨some .panic, Or.inr ⟨rfl, _, rfl, fun μ h1 => ?_⟩, good_unlock good_ret⟩
          refine legal_single trivial ?_
          simp only [Legal, h1 k rfl, hk]
          exact Or.inl ⟨trivial, trivial⟩
        | some v =>
          refine ⟨none, Or.inl rfl, ?_⟩
          refine good_write (some (.pair v false)) hm.put ⟨rfl, _, rfl, ?_⟩ (good_unlock good_ret)
          intro μ μ' h1 h2 h3
          refine legal_single trivial ?_
          simp only [Legal, h1 k rfl, hk]
          exact Or.inr ⟨v, rfl, knows_put hm.1 h1 h2 h3⟩
  | getOrSetDefault k d =>
    refine good_tryGetCore fun m => ?_
    cases hk : m.get? k with
    | some w =>
      refine ⟨some (.pair w true), Or.inr ⟨rfl, _, rfl, fun μ h1 => legal_single trivial ?_⟩, good_ret⟩
      simp only [Legal, h1 k rfl, hk]
      exact ⟨trivial, trivial⟩
    | none =>
      clear hk
      refine ⟨none, Or.inl rfl, ?_⟩
      refine good_lock fun m hm => ?_
      cases hk : m.get? k with
      | some w =>
        refine good_readW (some (.pair w true)) (Or.inr ⟨rfl, _, rfl, fun μ h1 => ?_⟩) ?_
        · refine legal_single trivial ?_
          simp only [Legal, h1 k rfl, hk]
          exact ⟨trivial, trivial⟩
        · simp only [hk]
          exact good_unlock good_ret
      | none =>
        refine good_readW none (Or.inl rfl) ?_
        simp only [hk]
        refine good_write (some (.pair d false)) hm.put ⟨rfl, _, rfl, ?_⟩ (good_unlock good_ret)
        intro μ μ' h1 h2 h3
        refine legal_single trivial ?_
        simp only [Legal, h1 k rfl, hk]
        exact ⟨trivial, knows_put hm.1 h1 h2 h3⟩
  | has k =>
    refine ⟨rfl, Or.inl ⟨rfl, fun m => ⟨some (.bool (m.get? k).isSome), ?_, rfl, good_ret⟩⟩⟩
    refine Or.inr ⟨rfl, _, rfl, fun μ h1 => legal_single trivial ⟨rfl, ?_⟩⟩
    rw [h1 k rfl]
  | delete k =>
    refine good_lock fun m hm => good_write (some .unit) hm.del ⟨rfl, _, rfl, ?_⟩ (good_unlock good_ret)
    intro μ μ' h1 h2 h3
    exact legal_single trivial ⟨rfl, knows_del hm.1 h1 h2 h3⟩
  | len => exact good_of_ro (legal_all (by trivial)) _ (disc_lenLoop _ _ _)
  | empty => exact good_of_ro (legal_all (by trivial)) _ (disc_emptyLoop _ _)
  | iterate => exact good_of_ro (legal_all (by trivial)) _ (disc_iterateLoop _ _ _)
  | iterateShardsReadOnly => exact good_of_ro (legal_all (by trivial)) _ (disc_readOnlyLoop _ _)
  | keys => exact good_of_ro (legal_all (by trivial)) _ (Disc.bind (fun _ => disc_ret) (discTo_self.2 (disc_collectLoop _ _ _ _)))
  | values => exact good_of_ro (legal_all (by trivial)) _ (Disc.bind (fun _ => disc_ret) (discTo_self.2 (disc_collectLoop _ _ _ _)))
  | entries => exact good_of_ro (legal_all (by trivial)) _ (Disc.bind (fun _ => disc_ret) (discTo_self.2 (disc_collectLoop _ _ _ _)))
  | toMap => exact good_of_ro (legal_all (by trivial)) _ (Disc.bind (fun _ => disc_ret) (discTo_self.2 (disc_collectLoop _ _ _ _)))
  | iterateShards => exact absurd h (by simp [Allowed, SingleKey, ReadsAll])
  | clear => exact absurd h (by simp [Allowed, SingleKey, ReadsAll])

/-! ## The simulation -/

/-- Where a call is at the atomic object. -/
def stat (op : Op K V) : Option (Res K V) → CStatus (Op K V) (Res K V)
  | none => .pending op
  | some r => .done op r

/-- A goroutine and its counterpart. -/
def ThOk (c : Conf K) (h : Held) (m : Tab K V) : Thread (mach K V) (Op K V) (Res K V) → CStatus (Op K V) (Res K V) → Prop
  | .idle, x => x = .idle ∧ h = .no
  | .run op p, x => Allowed op ∧ ∃ s, x = stat op s ∧ Good c op h m s p

/-- The relation, with what goroutines hold and know. -/
structure Rel (c : Conf K) (s : Cfg K V) (a : Canon (mapSpec K V)) (held : Tid → Held) (know : Tid → Tab K V) :
    Prop where
  L : LockInv s.sh.lock held
  pl : Placed c s.sh.items
  st : a.st = absMap c s.sh.items
  kn : ∀ t i, held t = .W i → know t = s.sh.items i
  th : ∀ t, ThOk c (held t) (know t) (s.th t) (a.th t)

/-- Taking effect, or not. -/
def LinOpt (op : Op K V) (μ μ' : PMap K V) (s s' : Option (Res K V)) : Prop :=
  (s' = s ∧ μ' = μ) ∨ s = none ∧ ∃ r, s' = some r ∧ (mapSpec K V).legal μ op r μ'

theorem lin_of_opt {op : Op K V} {a : Canon (mapSpec K V)} {μ' : PMap K V} {s s' : Option (Res K V)} {t : Tid}
    (h : LinOpt op a.st μ' s s') (ht : a.th t = stat op s) : Lin _ a ⟨μ', upd a.th t (stat op s')⟩ := by
  rcases h with ⟨rfl, rfl⟩ | ⟨rfl, r, rfl, hl⟩
  · have : upd a.th t (stat op s') = a.th := by
      rw [← ht]; funext u; unfold upd; split
      · rename_i e; rw [e]
      · rfl
    rw [this]
    exact .refl _
  · exact .step t op r μ' ht hl (.refl _)

/-- One goroutine moves on. -/
theorem Rel.move {c : Conf K} {s : Cfg K V} {a : Canon (mapSpec K V)} {held : Tid → Held} {know : Tid → Tab K V}
    (h : Rel c s a held know) {t : Tid} {op : Op K V} {x : Act K V} {ans : Ans x} {sh' : Sh K V}
    (hs : AStep t x s.sh ans sh') {h' : Held} (hh : heldAfter (held t) x = some h') {m' : Tab K V}
    {s' : Option (Res K V)} {p : P K V (Res K V)} (hop : Allowed op) (hg : Good c op h' m' s' p)
    (hpl : Placed c sh'.items) (hkn : ∀ i, h' = .W i → m' = sh'.items i)
    (hoth : ∀ u i, u ≠ t → held u = .W i → sh'.items i = s.sh.items i) :
    Rel c ⟨sh', upd s.th t (.run op p)⟩ ⟨absMap c sh'.items, upd a.th t (stat op s')⟩ (upd held t h')
      (upd know t m') where
  L := h.L.step hs hh
  pl := hpl
  st := rfl
  kn u i hu := by
    by_cases e : u = t
    · subst e
      rw [upd_same] at hu ⊢
      exact hkn i hu
    · rw [upd_other _ _ e] at hu ⊢
      rw [h.kn u i hu]
      exact (hoth u i e hu).symm
  th u := by
    by_cases e : u = t
    · subst e
      simp only [upd_same]
      exact ⟨hop, s', rfl, hg⟩
    · simp only [upd_other _ _ e]
      exact h.th u

theorem knows_abs (c : Conf K) (items : Nat → Tab K V) (i : Nat) : Knows c i (items i) (absMap c items) := by
  intro k hk
  unfold absMap
  rw [hk]

theorem linOpt_of_read {c : Conf K} {op : Op K V} {i : Nat} {items : Nat → Tab K V} {s s' : Option (Res K V)}
    (h : LinRead c op i (items i) s s') : LinOpt op (absMap c items) (absMap c items) s s' := by
  rcases h with h | ⟨h, r, h', hl⟩
  · exact Or.inl ⟨h, rfl⟩
  · exact Or.inr ⟨h, r, h', hl _ (knows_abs c items i)⟩

theorem heldAfter_other {h : Held} {a : Act K V} (ha : ∀ i, a ≠ .lockBegin i ∧ a ≠ .lockWait i ∧ a ≠ .unlock i ∧
    a ≠ .rlock i ∧ a ≠ .runlock i) : heldAfter h a = some h := by
  cases a with
  | lockBegin i => exact absurd rfl (ha i).1
  | lockWait i => exact absurd rfl (ha i).2.1
  | unlock i => exact absurd rfl (ha i).2.2.1
  | rlock i => exact absurd rfl (ha i).2.2.2.1
  | runlock i => exact absurd rfl (ha i).2.2.2.2
  | _ => cases h <;> rfl

/-- Every action is matched. -/
theorem Rel.act {c : Conf K} {s : Cfg K V} {a : Canon (mapSpec K V)} {held : Tid → Held} {know : Tid → Tab K V}
    (h : Rel c s a held know) {t : Tid} {op : Op K V} {x : Act K V} {k : Ans x → P K V (Res K V)} {ans : Ans x}
    {sh' : Sh K V} (hr : s.th t = .run op (.act x k)) (hs : AStep t x s.sh ans sh') :
    ∃ a' h' m', Lin _ a a' ∧ heldAfter (held t) x = some h' ∧
      Rel c ⟨sh', upd s.th t (.run op (k ans))⟩ a' (upd held t h') (upd know t m') := by
  have ht := h.th t
  rw [hr] at ht
  obtain ⟨hop, s0, hst, hg⟩ := ht
  have stay : ∀ (p : P K V (Res K V)) (h' : Held) (m' : Tab K V), heldAfter (held t) x = some h' →
      Good c op h' m' s0 p → sh'.items = s.sh.items → (∀ i, h' = .W i → m' = sh'.items i) →
      ∃ a' h' m', Lin _ a a' ∧ heldAfter (held t) x = some h' ∧
        Rel c ⟨sh', upd s.th t (.run op p)⟩ a' (upd held t h') (upd know t m') := by
    intro p h' m' e1 e2 e3 e4
    refine ⟨_, h', m', lin_of_opt (μ' := absMap c sh'.items) (s' := s0) (Or.inl ⟨rfl, ?_⟩) hst, e1,
      h.move hs e1 hop e2 ?_ e4 ?_⟩
    · rw [h.st, e3]
    · rw [e3]; exact h.pl
    · intro u i _ _; rw [e3]
  cases hs with
  | lockBegin _ i _ =>
    obtain ⟨e1, e2⟩ := hg
    exact stay _ (.P i) (know t) (by rw [e1]; rfl) e2 rfl (fun j e => by cases e)
  | lockWait _ i _ _ _ =>
    obtain ⟨e1, e2⟩ := hg
    refine stay _ (.W i) (s.sh.items i) (by rw [e1]; simp [heldAfter]) (e2 _ ⟨h.pl.wf i, h.pl.place i⟩) rfl ?_
    intro j e; injection e with e; rw [e]
  | unlock _ i _ _ =>
    obtain ⟨e1, e2⟩ := hg
    exact stay _ .no (know t) (by rw [e1]; simp [heldAfter]) e2 rfl (fun j e => by cases e)
  | rlock _ i _ =>
    obtain ⟨e1, e2⟩ := hg
    exact stay _ (.R i) (know t) (by rw [e1]; rfl) e2 rfl (fun j e => by cases e)
  | runlock _ i _ =>
    obtain ⟨e1, e2⟩ := hg
    exact stay _ .no (know t) (by rw [e1]; simp [heldAfter]) e2 rfl (fun j e => by cases e)
  | callback _ b => exact stay _ (held t) (know t) (heldAfter_other (by simp)) (hg b) rfl (fun j e => h.kn t j e)
  | edit _ f => exact stay _ (held t) (know t) (heldAfter_other (by simp)) (hg f) rfl (fun j e => h.kn t j e)
  | order _ o => exact stay _ (held t) (know t) (heldAfter_other (by simp)) (hg o) rfl (fun j e => h.kn t j e)
  | read _ i =>
    have hh : heldAfter (held t) (.read (K := K) (V := V) i) = some (held t) := heldAfter_other (by simp)
    have fin : ∀ s', LinRead c op i (s.sh.items i) s0 s' → Good c op (held t) (know t) s' (k (s.sh.items i)) →
        ∃ a' h' m', Lin _ a a' ∧ heldAfter (held t) (.read (K := K) (V := V) i) = some h' ∧
          Rel c ⟨s.sh, upd s.th t (.run op (k (s.sh.items i)))⟩ a' (upd held t h') (upd know t m') := by
      intro s' hl hg
      have hl' := linOpt_of_read hl
      rw [← h.st] at hl'
      refine ⟨_, held t, know t, lin_of_opt hl' hst, hh, ?_⟩
      have := h.move (AStep.read (t := t) s.sh i) hh hop hg h.pl (h.kn t) (fun _ _ _ _ => rfl)
      rw [← h.st] at this
      exact this
    rcases hg with ⟨e1, e2⟩ | ⟨e1, s', e2, e3⟩
    · obtain ⟨s', e2, e3⟩ := e2 (s.sh.items i)
      exact fin s' e2 e3
    · have e4 := h.kn t i e1
      rw [e4] at e2
      refine fin s' e2 ?_
      have e5 : k (s.sh.items i) = k (know t) := by rw [e4]
      rw [e5]
      exact e3
  | factory _ y v =>
    obtain ⟨e1, -, -, -, e2⟩ := hg
    have hh : heldAfter (held t) (.factory (K := K) (V := V) y) = some (held t) := heldAfter_other (by simp)
    obtain ⟨s', hl, hg⟩ := e2 v
    rw [h.kn t _ e1] at hl
    have hl' := linOpt_of_read hl
    rw [← h.st] at hl'
    refine ⟨_, held t, know t, lin_of_opt hl' hst, hh, ?_⟩
    have := h.move (AStep.factory (t := t) s.sh y v) hh hop hg h.pl (h.kn t) (fun _ _ _ _ => rfl)
    rw [← h.st] at this
    exact this
  | write _ i f =>
    obtain ⟨e1, e2, s', e3, e4⟩ := hg
    have hh : heldAfter (held t) (.write (K := K) (V := V) i f) = some (held t) := heldAfter_other (by simp)
    rw [h.kn t i e1] at e2 e3
    have e4' : Good c op (held t) (f (s.sh.items i)) s' (k ()) := by rw [← h.kn t i e1]; exact e4
    obtain ⟨e5, r, e6, e7⟩ := e3
    refine ⟨_, held t, f (s.sh.items i), lin_of_opt (μ' := absMap c (set1 s.sh.items i (f (s.sh.items i))))
      (s' := s') (Or.inr ⟨e5, r, e6, ?_⟩) hst, hh, ?_⟩
    · rw [h.st]
      refine e7 _ _ (knows_abs c _ i) ?_ ?_
      · have := knows_abs c (set1 s.sh.items i (f (s.sh.items i))) i
        rw [set1_same] at this
        exact this
      · intro x hx
        unfold absMap
        rw [set1_other _ _ hx]
    · refine h.move (AStep.write (t := t) s.sh i f) hh hop e4' ?_ ?_ ?_
      · exact placed_set1 h.pl i _ e2.1 e2.2
      · intro j e
        rw [e1] at e
        injection e with e
        subst e
        exact (set1_same _ _ _).symm
      · intro u j hu hj
        by_cases e : j = i
        · subst e
          exact absurd (h.L.unique (Or.inr hj) (Or.inr e1)) hu
        · exact set1_other _ _ e

/-- The simulation. -/
theorem sim (c : Conf K) : Sim (mapSpec K V) (body c) (Config.init fresh) (fun _ op => Allowed op)
    (fun s a => ∃ held know, Rel c s a held know) where
  start := by
    refine ⟨fun _ => .no, fun _ => [], LockInv.start, ⟨fun _ => List.Pairwise.nil, fun i k v h => by cases h⟩, rfl, ?_, ?_⟩
    · intro t i h; cases h
    · intro t; exact ⟨rfl, rfl⟩
  call := by
    rintro s a t op ⟨held, know, h⟩ hop hi
    have ht := h.th t
    rw [hi] at ht
    refine ⟨ht.1, held, know, h.L, h.pl, h.st, h.kn, fun u => ?_⟩
    by_cases e : u = t
    · subst e
      simp only [upd_same]
      refine ⟨hop, none, rfl, ?_⟩
      rw [ht.2]
      exact good_body c op hop _
    · simp only [upd_other _ _ e]
      exact h.th u
  act := by
    rintro s a t op x k ans sh' ⟨held, know, h⟩ hr hs
    obtain ⟨a', h', m', h1, -, h2⟩ := h.act hr hs
    exact ⟨a', h1, _, _, h2⟩
  ret := by
    rintro s a t op r ⟨held, know, h⟩ hr
    have ht := h.th t
    rw [hr] at ht
    obtain ⟨hop, s0, hst, hh, hg⟩ := ht
    have hlin : LinOpt op a.st a.st s0 (some r) := by
      rcases hg with hg | ⟨hg, hl⟩
      · exact Or.inl ⟨hg.symm, rfl⟩
      · exact Or.inr ⟨hg, r, rfl, hl _⟩
    refine ⟨_, lin_of_opt hlin hst, upd_same _ _ _, held, know, h.L, h.pl, h.st, h.kn, fun u => ?_⟩
    by_cases e : u = t
    · subst e
      simp only [upd_same]
      exact ⟨rfl, hh⟩
    · simp only [upd_other _ _ e]
      exact h.th u

/-- In every execution the relation holds. -/
theorem rel_of_exec {c : Conf K} {tr : List (Label (mach K V) (Op K V) (Res K V))} {s : Cfg K V}
    (he : Exec (body c) (Config.init fresh) tr s) (hP : Calls (fun _ op => Allowed op) tr) :
    ∃ a held know, Rel c s a held know := by
  obtain ⟨a, L, ⟨held, know, h⟩, -⟩ := (sim c).book he hP
  exact ⟨a, held, know, h⟩

end Verif.Sharded
