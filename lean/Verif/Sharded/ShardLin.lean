import Verif.Conc.Refute
import Verif.Sharded.ClearProps

/-!
# C91: with `Clear`, each shard is linearizable

Linearizability of all methods but `IterateShards`, seen through one shard at a time. `Clear` writes under the
read lock, so two accesses of a table may be unordered by locks; the model still makes each access one step (the
race itself is in C36).
-/

set_option linter.unusedSectionVars false

namespace Verif.Sharded

open Verif.Conc Verif.GoMap

variable {K V : Type} [DecidableEq K] [Inhabited V]

/-- The operation is on one key, and that key belongs to shard `j`. -/
def KeyIn (c : Conf K) (j : Nat) : Op K V → Prop
  | .set k _ | .trySet k _ | .get k | .tryGet k | .getOrSetFactory k | .getOrSetDefault k _ | .has k
  | .delete k => shardOf c k = j
  | _ => False

/-- The sequential object seen through shard `j`: one map. Operations on keys of the shard act on it, `Clear`
empties it, and everything else leaves it as it is. If there is no other shard, `Len` and `Empty` are of the
map, too. -/
def shardSpec (c : Conf K) (V : Type) [Inhabited V] (j : Nat) : SeqSpec (Op K V) (Res K V) where
  St := PMap K V
  init := PMap.empty
  legal m op r m' :=
    (KeyIn c j op ∨ op = .clear ∨ c.n = 1 ∧ (op = .len ∨ op = .empty) → Legal m op r m') ∧
    (¬ KeyIn c j op → op ≠ .clear → m' = m)

/-- What the table of shard `j` means. -/
def tabMap (c : Conf K) (j : Nat) (m : Tab K V) : PMap K V := fun k => if shardOf c k = j then m.get? k else none

theorem tabMap_in {c : Conf K} {j : Nat} {k : K} (h : shardOf c k = j) (m : Tab K V) : tabMap c j m k = m.get? k :=
  if_pos h

theorem tabMap_put {c : Conf K} {j : Nat} {k : K} (h : shardOf c k = j) {m : Tab K V} (hm : m.WF) (v : V) :
    tabMap c j (m.put k v) = (tabMap c j m).set k v := by
  funext x
  unfold PMap.set tabMap
  by_cases e : shardOf c x = j
  · rw [if_pos e, if_pos e, get?_put hm]
  · rw [if_neg e, if_neg e, if_neg]
    rintro rfl; exact e h

theorem tabMap_del {c : Conf K} {j : Nat} {k : K} (h : shardOf c k = j) {m : Tab K V} (hm : m.WF) :
    tabMap c j (m.del k) = (tabMap c j m).erase k := by
  funext x
  unfold PMap.erase tabMap
  by_cases e : shardOf c x = j
  · rw [if_pos e, if_pos e, get?_del hm]
  · rw [if_neg e, if_neg e, if_neg]
    rintro rfl; exact e h

/-- Nothing happens, or the call takes effect without changing the shard. -/
def LinR (c : Conf K) (j : Nat) (op : Op K V) (m : Tab K V) (s s' : Option (Res K V)) : Prop :=
  s' = s ∨ s = none ∧ ∃ r, s' = some r ∧ (shardSpec c V j).legal (tabMap c j m) op r (tabMap c j m)

/-- The call takes effect by changing the shard. -/
def LinW (c : Conf K) (j : Nat) (op : Op K V) (m m' : Tab K V) (s s' : Option (Res K V)) : Prop :=
  s = none ∧ ∃ r, s' = some r ∧ (shardSpec c V j).legal (tabMap c j m) op r (tabMap c j m')

/-- The rest of a call of `op`: `h` is the lock held, `m` the table of shard `j` if held for writing, `s` the
result if the call has already taken effect on the shard. -/
def GoodAt (c : Conf K) (j : Nat) (op : Op K V) : Held → Tab K V → Option (Res K V) → P K V (Res K V) → Prop
  | h, _, s, .ret r => h = .no ∧ (s = some r ∨ s = none ∧ ∀ μ, (shardSpec c V j).legal μ op r μ)
  | h, m, s, .act (.lockBegin i) k => h = .no ∧ GoodAt c j op (.P i) m s (k ())
  | h, _, s, .act (.lockWait i) k => h = .P i ∧ ∀ m : Tab K V, m.WF → GoodAt c j op (.W i) m s (k ())
  | h, m, s, .act (.unlock i) k => h = .W i ∧ GoodAt c j op .no m s (k ())
  | h, m, s, .act (.rlock i) k => h = .no ∧ GoodAt c j op (.R i) m s (k ())
  | h, m, s, .act (.runlock i) k => h = .R i ∧ GoodAt c j op .no m s (k ())
  | h, m, s, .act (.read i) k =>
    (i ≠ j ∧ ∀ m', GoodAt c j op h m s (k m')) ∨
    (i = j ∧ ∀ m' : Tab K V, m'.WF → ∃ s', LinR c j op m' s s' ∧ GoodAt c j op h m s' (k m')) ∨
    (h = .W j ∧ i = j ∧ ∃ s', LinR c j op m s s' ∧ GoodAt c j op h m s' (k m))
  | h, m, s, .act (.write i f) k =>
    (i ≠ j ∧ (h = .W i ∨ h = .R i) ∧ (∀ m : Tab K V, m.WF → (f m).WF) ∧ GoodAt c j op h m s (k ())) ∨
    (h = .W j ∧ i = j ∧ (f m).WF ∧ ∃ s', LinW c j op m (f m) s s' ∧ GoodAt c j op h (f m) s' (k ())) ∨
    (h = .R j ∧ i = j ∧ ∀ m' : Tab K V, m'.WF → (f m').WF ∧
      ∃ s', LinW c j op m' (f m') s s' ∧ GoodAt c j op h m s' (k ()))
  | h, m, s, .act (.factory _) k =>
    (∀ ans, GoodAt c j op h m s (k ans)) ∨
    (h = .W j ∧ ∀ ans, ∃ s', LinR c j op m s s' ∧ GoodAt c j op h m s' (k ans))
  | h, m, s, .act .callback k => ∀ ans, GoodAt c j op h m s (k ans)
  | h, m, s, .act .edit k => ∀ ans, GoodAt c j op h m s (k ans)
  | h, m, s, .act .order k => ∀ ans, GoodAt c j op h m s (k ans)

section
variable {c : Conf K} {j : Nat} {op : Op K V}

theorem goodAt_ret {m : Tab K V} {r : Res K V} : GoodAt c j op .no m (some r) (pure r) := ⟨rfl, Or.inl rfl⟩

theorem goodAt_lock {i : Nat} {m : Tab K V} {s : Option (Res K V)} {f : Unit → P K V (Res K V)}
    (hf : ∀ m : Tab K V, m.WF → GoodAt c j op (.W i) m s (f ())) : GoodAt c j op .no m s (lock i >>= f) :=
  ⟨rfl, rfl, fun m hm => hf m hm⟩

theorem goodAt_unlock {i : Nat} {m : Tab K V} {s : Option (Res K V)} {f : Unit → P K V (Res K V)}
    (hf : GoodAt c j op .no m s (f ())) : GoodAt c j op (.W i) m s (step_ (.unlock i) >>= f) := ⟨rfl, hf⟩

theorem goodAt_readW {i : Nat} (hi : i = j) {m : Tab K V} {s : Option (Res K V)} (s' : Option (Res K V))
    {f : Tab K V → P K V (Res K V)} (hl : LinR c j op m s s') (hf : GoodAt c j op (.W i) m s' (f m)) :
    GoodAt c j op (.W i) m s (read i >>= f) := Or.inr (Or.inr ⟨by rw [hi], hi, s', hl, hf⟩)

theorem goodAt_write {i : Nat} (hi : i = j) {m : Tab K V} {s : Option (Res K V)} {g : Tab K V → Tab K V}
    (s' : Option (Res K V)) {f : Unit → P K V (Res K V)} (ho : (g m).WF) (hl : LinW c j op m (g m) s s')
    (hf : GoodAt c j op (.W i) (g m) s' (f ())) : GoodAt c j op (.W i) m s (step_ (.write i g) >>= f) :=
  Or.inr (Or.inl ⟨by rw [hi], hi, ho, s', hl, hf⟩)

theorem goodAt_tryGetCore {k : K} (hk : shardOf c k = j) {m0 : Tab K V} {s : Option (Res K V)}
    {f : Option V → P K V (Res K V)}
    (hf : ∀ m : Tab K V, ∃ s', LinR c j op m s s' ∧ GoodAt c j op .no m0 s' (f (m.get? k))) :
    GoodAt c j op .no m0 s (tryGetCore c k >>= f) := by
  refine ⟨rfl, Or.inr (Or.inl ⟨hk, fun m' _ => ?_⟩)⟩
  obtain ⟨s', h1, h2⟩ := hf m'
  exact ⟨s', h1, rfl, h2⟩

/-- Programs that do not change shard `j` may take effect at the end, if any result is allowed. -/
theorem goodAt_of_cov (hop : ∀ r μ, (shardSpec c V j).legal μ op r μ) : ∀ {h : Held} {p : P K V (Res K V)} (m : Tab K V),
    Disc .cov h p → Writes (fun i f => i ≠ j ∧ ∀ m : Tab K V, m.WF → (f m).WF) p → GoodAt c j op h m none p
  | h, .ret r, m, hd, _ => ⟨hd, Or.inr ⟨rfl, fun μ => hop r μ⟩⟩
  | h, .act (.lockBegin i) k, m, hd, hw => by
    obtain ⟨h', e1, e2, e3⟩ := hd
    obtain ⟨e4, e5⟩ := heldAfter_lockBegin e1
    exact ⟨e4, goodAt_of_cov hop m (e5 ▸ e3 ()) (hw ())⟩
  | h, .act (.lockWait i) k, m, hd, hw => by
    obtain ⟨h', e1, e2, e3⟩ := hd
    obtain ⟨e4, e5⟩ := heldAfter_lockWait e1
    exact ⟨e4, fun m _ => goodAt_of_cov hop m (e5 ▸ e3 ()) (hw ())⟩
  | h, .act (.unlock i) k, m, hd, hw => by
    obtain ⟨h', e1, e2, e3⟩ := hd
    obtain ⟨e4, e5⟩ := heldAfter_unlock e1
    exact ⟨e4, goodAt_of_cov hop m (e5 ▸ e3 ()) (hw ())⟩
  | h, .act (.rlock i) k, m, hd, hw => by
    obtain ⟨h', e1, e2, e3⟩ := hd
    obtain ⟨e4, e5⟩ := heldAfter_rlock e1
    exact ⟨e4, goodAt_of_cov hop m (e5 ▸ e3 ()) (hw ())⟩
  | h, .act (.runlock i) k, m, hd, hw => by
    obtain ⟨h', e1, e2, e3⟩ := hd
    obtain ⟨e4, e5⟩ := heldAfter_runlock e1
    exact ⟨e4, goodAt_of_cov hop m (e5 ▸ e3 ()) (hw ())⟩
  | h, .act (.read i) k, m, hd, hw => by
    obtain ⟨h', e1, e2, e3⟩ := hd
    have e4 : h' = h := by cases h <;> (injection e1 with e1; exact e1.symm)
    subst e4
    by_cases e : i = j
    · exact Or.inr (Or.inl ⟨e, fun m' _ => ⟨none, Or.inl rfl, goodAt_of_cov hop m (e3 m') (hw m')⟩⟩)
    · exact Or.inl ⟨e, fun m' => goodAt_of_cov hop m (e3 m') (hw m')⟩
  | h, .act (.write i f) k, m, hd, hw => by
    obtain ⟨h', e1, e2, e3⟩ := hd
    have e4 : h' = h := by cases h <;> (injection e1 with e1; exact e1.symm)
    subst e4
    exact Or.inl ⟨hw.1.1, Or.inl e2, hw.1.2, goodAt_of_cov hop m (e3 ()) hw.2⟩
  | h, .act (.factory x) k, m, hd, hw => by
    obtain ⟨h', e1, e2, e3⟩ := hd
    have e4 : h' = h := by cases h <;> (injection e1 with e1; exact e1.symm)
    subst e4
    exact Or.inl fun ans => goodAt_of_cov hop m (e3 ans) (hw ans)
  | h, .act .callback k, m, hd, hw => by
    obtain ⟨h', e1, e2, e3⟩ := hd
    have e4 : h' = h := by cases h <;> (injection e1 with e1; exact e1.symm)
    subst e4
    exact fun ans => goodAt_of_cov hop m (e3 ans) (hw ans)
  | h, .act .edit k, m, hd, hw => by
    obtain ⟨h', e1, e2, e3⟩ := hd
    have e4 : h' = h := by cases h <;> (injection e1 with e1; exact e1.symm)
    subst e4
    exact fun ans => goodAt_of_cov hop m (e3 ans) (hw ans)
  | h, .act .order k, m, hd, hw => by
    obtain ⟨h', e1, e2, e3⟩ := hd
    have e4 : h' = h := by cases h <;> (injection e1 with e1; exact e1.symm)
    subst e4
    exact fun ans => goodAt_of_cov hop m (e3 ans) (hw ans)

end

/-- The operations considered. -/
def NoEdit (op : Op K V) : Prop := op ≠ .iterateShards

theorem legal_key {c : Conf K} {j : Nat} {op : Op K V} {r : Res K V} {μ μ' : PMap K V} (hs : KeyIn c j op)
    (h : Legal μ op r μ') : (shardSpec c V j).legal μ op r μ' := ⟨fun _ => h, fun hn => absurd hs hn⟩

theorem Writes.mono {W W' : Nat → (Tab K V → Tab K V) → Prop} (hW : ∀ i f, W i f → W' i f) {R : Type} :
    ∀ {p : P K V R}, Writes W p → Writes W' p
  | .ret _, _ => trivial
  | .act (.write i f) _, h => ⟨hW i f h.1, Writes.mono hW h.2⟩
  | .act (.lockBegin _) _, h => fun ans => Writes.mono hW (h ans)
  | .act (.lockWait _) _, h => fun ans => Writes.mono hW (h ans)
  | .act (.unlock _) _, h => fun ans => Writes.mono hW (h ans)
  | .act (.rlock _) _, h => fun ans => Writes.mono hW (h ans)
  | .act (.runlock _) _, h => fun ans => Writes.mono hW (h ans)
  | .act (.read _) _, h => fun ans => Writes.mono hW (h ans)
  | .act (.factory _) _, h => fun ans => Writes.mono hW (h ans)
  | .act .callback _, h => fun ans => Writes.mono hW (h ans)
  | .act .edit _, h => fun ans => Writes.mono hW (h ans)
  | .act .order _, h => fun ans => Writes.mono hW (h ans)

/-- Calls on keys of the shard take effect at one moment. -/
theorem goodAt_key (c : Conf K) (j : Nat) (op : Op K V) (h : KeyIn c j op) (m0 : Tab K V) :
    GoodAt c j op .no m0 none (body c op) := by
  cases op with
  | set k v =>
    refine goodAt_lock fun m hm => goodAt_write h (some .unit) (WF.put hm k v) ⟨rfl, _, rfl, ?_⟩ (goodAt_unlock goodAt_ret)
    exact legal_key h ⟨rfl, tabMap_put h hm v⟩
  | trySet k v =>
    refine goodAt_lock fun m hm => ?_
    cases hk : m.get? k with
    | none =>
      refine goodAt_readW h none (Or.inl rfl) ?_
      simp only [hk]
      refine goodAt_write h (some (.bool true)) (WF.put hm k v) ⟨rfl, _, rfl, ?_⟩ (goodAt_unlock goodAt_ret)
      refine legal_key h ?_
      simp only [Legal, tabMap_in h, hk]
      exact ⟨trivial, tabMap_put h hm v⟩
    | some w =>
      refine goodAt_readW h (some (.bool false)) (Or.inr ⟨rfl, _, rfl, ?_⟩) ?_
      · refine legal_key h ?_
        simp only [Legal, tabMap_in h, hk]
        exact ⟨trivial, trivial⟩
      · simp only [hk]
        exact goodAt_unlock goodAt_ret
  | get k =>
    refine goodAt_tryGetCore h fun m => ?_
    cases hk : m.get? k with
    | none =>
      refine ⟨some .panic, Or.inr ⟨rfl, _, rfl, legal_key h ⟨rfl, ?_⟩⟩, goodAt_ret⟩
      rw [tabMap_in h, hk]
    | some w =>
      refine ⟨some (.val w), Or.inr ⟨rfl, _, rfl, legal_key h ⟨rfl, ?_⟩⟩, goodAt_ret⟩
      rw [tabMap_in h, hk]
  | tryGet k =>
    refine goodAt_tryGetCore h fun m => ?_
    cases hk : m.get? k with
    | none =>
      refine ⟨some (.pair default false), Or.inr ⟨rfl, _, rfl, legal_key h ⟨rfl, ?_⟩⟩, goodAt_ret⟩
      rw [tabMap_in h, hk]
    | some w =>
      refine ⟨some (.pair w true), Or.inr ⟨rfl, _, rfl, legal_key h ⟨rfl, ?_⟩⟩, goodAt_ret⟩
      rw [tabMap_in h, hk]
  | getOrSetFactory k =>
    refine goodAt_tryGetCore h fun m => ?_
    cases hk : m.get? k with
    | some w =>
      refine ⟨some (.pair w true), Or.inr ⟨rfl, _, rfl, legal_key h ?_⟩, goodAt_ret⟩
      simp only [Legal, tabMap_in h, hk]
      exact ⟨trivial, trivial⟩
    | none =>
      clear hk
      refine ⟨none, Or.inl rfl, ?_⟩
      refine goodAt_lock fun m hm => ?_
      cases hk : m.get? k with
      | some w =>
        refine goodAt_readW h (some (.pair w true)) (Or.inr ⟨rfl, _, rfl, ?_⟩) ?_
        · refine legal_key h ?_
          simp only [Legal, tabMap_in h, hk]
          exact ⟨trivial, trivial⟩
        · simp only [hk]
          exact goodAt_unlock goodAt_ret
      | none =>
        refine goodAt_readW h none (Or.inl rfl) ?_
        simp only [hk]
        refine Or.inr ⟨by rw [show shardOf c k = j from h], fun w => ?_⟩
        cases w with
        | none =>
          refine ⟨some .panic, Or.inr ⟨rfl, _, rfl, ?_⟩, goodAt_unlock goodAt_ret⟩
          refine legal_key h ?_
          simp only [Legal, tabMap_in h, hk]
          exact Or.inl ⟨trivial, trivial⟩
        | some v =>
          refine ⟨none, Or.inl rfl, ?_⟩
          refine goodAt_write h (some (.pair v false)) (WF.put hm k v) ⟨rfl, _, rfl, ?_⟩ (goodAt_unlock goodAt_ret)
          refine legal_key h ?_
          simp only [Legal, tabMap_in h, hk]
          exact Or.inr ⟨v, rfl, tabMap_put h hm v⟩
  | getOrSetDefault k d =>
    refine goodAt_tryGetCore h fun m => ?_
    cases hk : m.get? k with
    | some w =>
      refine ⟨some (.pair w true), Or.inr ⟨rfl, _, rfl, legal_key h ?_⟩, goodAt_ret⟩
      simp only [Legal, tabMap_in h, hk]
      exact ⟨trivial, trivial⟩
    | none =>
      clear hk
      refine ⟨none, Or.inl rfl, ?_⟩
      refine goodAt_lock fun m hm => ?_
      cases hk : m.get? k with
      | some w =>
        refine goodAt_readW h (some (.pair w true)) (Or.inr ⟨rfl, _, rfl, ?_⟩) ?_
        · refine legal_key h ?_
          simp only [Legal, tabMap_in h, hk]
          exact ⟨trivial, trivial⟩
        · simp only [hk]
          exact goodAt_unlock goodAt_ret
      | none =>
        refine goodAt_readW h none (Or.inl rfl) ?_
        simp only [hk]
        refine goodAt_write h (some (.pair d false)) (WF.put hm k d) ⟨rfl, _, rfl, ?_⟩ (goodAt_unlock goodAt_ret)
        refine legal_key h ?_
        simp only [Legal, tabMap_in h, hk]
        exact ⟨trivial, tabMap_put h hm d⟩
  | has k =>
    refine ⟨rfl, Or.inr (Or.inl ⟨h, fun m _ => ⟨some (.bool (m.get? k).isSome), ?_, rfl, goodAt_ret⟩⟩)⟩
    refine Or.inr ⟨rfl, _, rfl, legal_key h ⟨rfl, ?_⟩⟩
    rw [tabMap_in h]
  | delete k =>
    refine goodAt_lock fun m hm => goodAt_write h (some .unit) (WF.del hm k) ⟨rfl, _, rfl, ?_⟩ (goodAt_unlock goodAt_ret)
    exact legal_key h ⟨rfl, tabMap_del h hm⟩
  | _ => exact h.elim

/-- `Clear` takes effect when it empties the shard. -/
theorem goodAt_clearLoop (c : Conf K) (j : Nat) : ∀ (rem i : Nat) (m0 : Tab K V) (s : Option (Res K V)),
    (s = none ∧ i ≤ j ∧ j < i + rem ∨ s = some .unit ∧ j < i) → GoodAt c j .clear .no m0 s (clearLoop i rem)
  | 0, i, m0, s, h => ⟨rfl, Or.inl (by
      rcases h with h | h
      · omega
      · exact h.1)⟩
  | rem + 1, i, m0, s, h => by
    refine ⟨rfl, ?_⟩
    by_cases e : i = j
    · subst e
      obtain ⟨h, -⟩ : s = none ∧ i ≤ i := by
        rcases h with h | h
        · exact ⟨h.1, h.2.1⟩
        · omega
      refine Or.inr (Or.inr ⟨rfl, rfl, fun m' _ => ⟨List.Pairwise.nil, some .unit, ⟨h, _, rfl, ?_⟩, rfl, ?_⟩⟩)
      · refine ⟨fun _ => ⟨rfl, ?_⟩, fun _ hn => absurd rfl hn⟩
        funext x
        unfold tabMap
        split <;> rfl
      · exact goodAt_clearLoop c i rem (i + 1) m0 _ (Or.inr ⟨rfl, by omega⟩)
    · refine Or.inl ⟨e, Or.inr rfl, fun _ _ => List.Pairwise.nil, rfl, ?_⟩
      refine goodAt_clearLoop c j rem (i + 1) m0 s ?_
      rcases h with h | h
      · exact Or.inl ⟨h.1, by omega, by omega⟩
      · exact Or.inr ⟨h.1, by omega⟩

theorem tabMap_one {c : Conf K} (hc : c.n = 1) (m : Tab K V) : tabMap c 0 m = fun k => m.get? k := by
  funext k
  unfold tabMap shardOf
  rw [if_pos hc, if_pos rfl]

/-- Every method but `IterateShards` takes effect on each shard at one moment. -/
theorem goodAt_body (c : Conf K) (j : Nat) (hj : j < c.n) (op : Op K V) (h : NoEdit op) (m0 : Tab K V) :
    GoodAt c j op .no m0 none (body c op) := by
  by_cases hk : KeyIn c j op
  · exact goodAt_key c j op hk m0
  · by_cases hcl : op = .clear
    · subst hcl
      exact goodAt_clearLoop c j c.n 0 m0 none (Or.inl ⟨rfl, by omega, by omega⟩)
    · by_cases h1 : c.n = 1 ∧ (op = .len ∨ op = .empty)
      · obtain ⟨hc, e⟩ := h1
        have : j = 0 := by omega
        subst this
        have hleg : ∀ (op : Op K V), op ≠ .clear → ¬ KeyIn c 0 op → ∀ (r : Res K V) (m : Tab K V),
            Legal (fun k => m.get? k) op r (fun k => m.get? k) →
            (shardSpec c V 0).legal (tabMap c 0 m) op r (tabMap c 0 m) := by
          intro op _ _ r m h
          refine ⟨fun _ => ?_, fun _ _ => rfl⟩
          rw [tabMap_one hc]; exact h
        rcases e with e | e
        · subst e
          show GoodAt c 0 .len .no m0 none (lenLoop 0 c.n 0)
          rw [hc]
          refine ⟨rfl, Or.inr (Or.inl ⟨rfl, fun m hm => ⟨some (.nat (0 + m.length)), Or.inr ⟨rfl, _, rfl, ?_⟩, rfl, goodAt_ret⟩⟩)⟩
          exact hleg _ (by simp) hk _ _ ⟨rfl, _, rfl, m, lists hm, (Nat.zero_add _).symm⟩
        · subst e
          show GoodAt c 0 .empty .no m0 none (emptyLoop 0 c.n)
          rw [hc]
          refine ⟨rfl, Or.inr (Or.inl ⟨rfl, fun m hm => ⟨some (.bool (m.length == 0)), Or.inr ⟨rfl, _, rfl, ?_⟩, rfl, ?_⟩⟩)⟩
          · refine hleg _ (by simp) hk _ _ ⟨rfl, _, rfl, ?_⟩
            cases m with
            | nil => exact ⟨fun _ => rfl, fun _ => rfl⟩
            | cons e m =>
              refine ⟨(fun e => by cases e), fun e' => ?_⟩
              have := (lists hm).mem e.1 e.2 |>.1 (List.mem_cons_self ..)
              rw [congrFun e' e.1] at this
              cases this
          · cases m with
            | nil => exact goodAt_ret
            | cons e m => exact goodAt_ret
      · refine goodAt_of_cov (fun r μ => ⟨fun h => ?_, fun _ _ => rfl⟩) m0 (disc_body .cov c op (by simp) fun _ => hcl) ?_
        · rcases h with h | h | h
          · exact absurd h hk
          · exact absurd h hcl
          · exact absurd h h1
        · refine Writes.mono (fun i f hw => ?_) (writes_body c op)
          cases op with
          | set x v => exact ⟨fun e => hk (hw.1.symm.trans e), fun m hm => by rw [hw.2]; exact WF.put hm x v⟩
          | trySet x v => exact ⟨fun e => hk (hw.1.symm.trans e), fun m hm => by rw [hw.2]; exact WF.put hm x v⟩
          | getOrSetDefault x v => exact ⟨fun e => hk (hw.1.symm.trans e), fun m hm => by rw [hw.2]; exact WF.put hm x v⟩
          | getOrSetFactory x =>
            obtain ⟨h1, v, h2⟩ := hw
            exact ⟨fun e => hk (h1.symm.trans e), fun m hm => by rw [h2]; exact WF.put hm x v⟩
          | delete x => exact ⟨fun e => hk (hw.1.symm.trans e), fun m hm => by rw [hw.2]; exact WF.del hm x⟩
          | clear => exact absurd rfl hcl
          | iterateShards => exact absurd rfl h
          | _ => exact absurd hw (by simp [WriteOf])

/-! ## The simulation -/

/-- A goroutine and its counterpart. -/
def ThOkAt (c : Conf K) (j : Nat) (h : Held) (m : Tab K V) :
    Thread (mach K V) (Op K V) (Res K V) → CStatus (Op K V) (Res K V) → Prop
  | .idle, x => x = .idle ∧ h = .no
  | .run op p, x => ∃ s, x = stat op s ∧ GoodAt c j op h m s p

/-- The relation, with what goroutines hold and know. -/
structure RelAt (c : Conf K) (j : Nat) (s : Cfg K V) (a : Canon (shardSpec c V j)) (held : Tid → Held)
    (know : Tid → Tab K V) : Prop where
  L : LockInv s.sh.lock held
  wf : ∀ i, (s.sh.items i).WF
  st : a.st = tabMap c j (s.sh.items j)
  kn : ∀ t, held t = .W j → know t = s.sh.items j
  th : ∀ t, ThOkAt c j (held t) (know t) (s.th t) (a.th t)

/-- Taking effect, or not. -/
def LinOptAt (c : Conf K) (j : Nat) (op : Op K V) (μ μ' : PMap K V) (s s' : Option (Res K V)) : Prop :=
  (s' = s ∧ μ' = μ) ∨ s = none ∧ ∃ r, s' = some r ∧ (shardSpec c V j).legal μ op r μ'

theorem lin_of_optAt {c : Conf K} {j : Nat} {op : Op K V} {a : Canon (shardSpec c V j)} {μ' : PMap K V}
    {s s' : Option (Res K V)} {t : Tid} (h : LinOptAt c j op a.st μ' s s') (ht : a.th t = stat op s) :
    Lin _ a ⟨μ', upd a.th t (stat op s')⟩ := by
  rcases h with ⟨rfl, rfl⟩ | ⟨rfl, r, rfl, hl⟩
  · have : upd a.th t (stat op s') = a.th := by
      rw [← ht]; funext u; unfold upd; split
      · rename_i e; rw [e]
      · rfl
    rw [this]
    exact .refl _
  · exact .step t op r μ' ht hl (.refl _)

/-- One goroutine moves on. -/
theorem RelAt.move {c : Conf K} {j : Nat} {s : Cfg K V} {a : Canon (shardSpec c V j)} {held : Tid → Held}
    {know : Tid → Tab K V} (h : RelAt c j s a held know) {t : Tid} {op : Op K V} {x : Act K V} {ans : Ans x}
    {sh' : Sh K V} (hs : AStep t x s.sh ans sh') {h' : Held} (hh : heldAfter (held t) x = some h') {m' : Tab K V}
    {s' : Option (Res K V)} {p : P K V (Res K V)} (hg : GoodAt c j op h' m' s' p)
    (hwf : ∀ i, (sh'.items i).WF) (hkn : h' = .W j → m' = sh'.items j)
    (hoth : ∀ u, u ≠ t → held u = .W j → sh'.items j = s.sh.items j) :
    RelAt c j ⟨sh', upd s.th t (.run op p)⟩ ⟨tabMap c j (sh'.items j), upd a.th t (stat op s')⟩ (upd held t h')
      (upd know t m') where
  L := h.L.step hs hh
  wf := hwf
  st := rfl
  kn u hu := by
    by_cases e : u = t
    · subst e
      rw [upd_same] at hu ⊢
      exact hkn hu
    · rw [upd_other _ _ e] at hu ⊢
      rw [h.kn u hu]
      exact (hoth u e hu).symm
  th u := by
    by_cases e : u = t
    · subst e
      simp only [upd_same]
      exact ⟨s', rfl, hg⟩
    · simp only [upd_other _ _ e]
      exact h.th u

theorem linOptAt_of_read {c : Conf K} {j : Nat} {op : Op K V} {m : Tab K V} {s s' : Option (Res K V)}
    (h : LinR c j op m s s') : LinOptAt c j op (tabMap c j m) (tabMap c j m) s s' := by
  rcases h with h | ⟨h, r, h', hl⟩
  · exact Or.inl ⟨h, rfl⟩
  · exact Or.inr ⟨h, r, h', hl⟩

/-- Every action is matched. -/
theorem RelAt.act {c : Conf K} {j : Nat} {s : Cfg K V} {a : Canon (shardSpec c V j)} {held : Tid → Held}
    {know : Tid → Tab K V} (h : RelAt c j s a held know) {t : Tid} {op : Op K V} {x : Act K V}
    {k : Ans x → P K V (Res K V)} {ans : Ans x} {sh' : Sh K V} (hr : s.th t = .run op (.act x k))
    (hs : AStep t x s.sh ans sh') :
    ∃ a' h' m', Lin _ a a' ∧ RelAt c j ⟨sh', upd s.th t (.run op (k ans))⟩ a' (upd held t h') (upd know t m') := by
  have ht := h.th t
  rw [hr] at ht
  obtain ⟨s0, hst, hg⟩ := ht
  have go : ∀ (p : P K V (Res K V)) (h' : Held) (m' : Tab K V) (s' : Option (Res K V)),
      heldAfter (held t) x = some h' → GoodAt c j op h' m' s' p → sh'.items = s.sh.items →
      LinR c j op (s.sh.items j) s0 s' → (h' = .W j → m' = s.sh.items j) →
      ∃ a' h' m', Lin _ a a' ∧ RelAt c j ⟨sh', upd s.th t (.run op p)⟩ a' (upd held t h') (upd know t m') := by
    intro p h' m' s' e1 e2 e3 e4 e5
    have hl := linOptAt_of_read e4
    have hl' : LinOptAt c j op a.st (tabMap c j (sh'.items j)) s0 s' := by rw [h.st, e3]; exact hl
    refine ⟨_, h', m', lin_of_optAt hl' hst, h.move hs e1 e2 ?_ (by rw [e3]; exact e5) ?_⟩
    · rw [e3]; exact h.wf
    · intro u _ _; rw [e3]
  cases hs with
  | lockBegin _ i _ =>
    obtain ⟨e1, e2⟩ := hg
    exact go _ (.P i) (know t) s0 (by rw [e1]; rfl) e2 rfl (Or.inl rfl) (fun e => by cases e)
  | lockWait _ i _ _ _ =>
    obtain ⟨e1, e2⟩ := hg
    refine go _ (.W i) (s.sh.items i) s0 (by rw [e1]; simp [heldAfter]) (e2 _ (h.wf i)) rfl (Or.inl rfl) ?_
    intro e; injection e with e; rw [e]
  | unlock _ i _ _ =>
    obtain ⟨e1, e2⟩ := hg
    exact go _ .no (know t) s0 (by rw [e1]; simp [heldAfter]) e2 rfl (Or.inl rfl) (fun e => by cases e)
  | rlock _ i _ =>
    obtain ⟨e1, e2⟩ := hg
    exact go _ (.R i) (know t) s0 (by rw [e1]; rfl) e2 rfl (Or.inl rfl) (fun e => by cases e)
  | runlock _ i _ =>
    obtain ⟨e1, e2⟩ := hg
    exact go _ .no (know t) s0 (by rw [e1]; simp [heldAfter]) e2 rfl (Or.inl rfl) (fun e => by cases e)
  | callback _ b => exact go _ (held t) (know t) s0 (heldAfter_other (by simp)) (hg b) rfl (Or.inl rfl) (h.kn t)
  | edit _ f => exact go _ (held t) (know t) s0 (heldAfter_other (by simp)) (hg f) rfl (Or.inl rfl) (h.kn t)
  | order _ o => exact go _ (held t) (know t) s0 (heldAfter_other (by simp)) (hg o) rfl (Or.inl rfl) (h.kn t)
  | factory _ y v =>
    rcases hg with hg | ⟨e1, hg⟩
    · exact go _ (held t) (know t) s0 (heldAfter_other (by simp)) (hg v) rfl (Or.inl rfl) (h.kn t)
    · obtain ⟨s', hl, hg⟩ := hg v
      rw [h.kn t e1] at hl
      exact go _ (held t) (know t) s' (heldAfter_other (by simp)) hg rfl hl (h.kn t)
  | read _ i =>
    rcases hg with ⟨-, hg⟩ | ⟨e1, hg⟩ | ⟨e1, e2, s', hl, hg⟩
    · exact go _ (held t) (know t) s0 (heldAfter_other (by simp)) (hg _) rfl (Or.inl rfl) (h.kn t)
    · subst e1
      obtain ⟨s', hl, hg⟩ := hg _ (h.wf i)
      exact go _ (held t) (know t) s' (heldAfter_other (by simp)) hg rfl hl (h.kn t)
    · subst e2
      have e4 := h.kn t e1
      rw [e4] at hl
      have e5 : k (s.sh.items i) = k (know t) := by rw [e4]
      refine go _ (held t) (know t) s' (heldAfter_other (by simp)) ?_ rfl hl (h.kn t)
      rw [e5]; exact hg
  | write _ i f =>
    have hh : heldAfter (held t) (.write (K := K) (V := V) i f) = some (held t) := heldAfter_other (by simp)
    have wf' : (f (s.sh.items i)).WF → ∀ x, (set1 s.sh.items i (f (s.sh.items i)) x).WF := by
      intro hf x
      by_cases e : x = i
      · subst e; rw [set1_same]; exact hf
      · rw [set1_other _ _ e]; exact h.wf x
    rcases hg with ⟨e1, e2, e3, hg⟩ | ⟨e1, e2, e3, s', hl, hg⟩ | ⟨e1, e2, hg⟩
    · have same : set1 s.sh.items i (f (s.sh.items i)) j = s.sh.items j := set1_other _ _ (Ne.symm e1)
      refine ⟨_, held t, know t, lin_of_optAt (μ' := tabMap c j (set1 s.sh.items i (f (s.sh.items i)) j)) (s' := s0)
        (Or.inl ⟨rfl, by rw [same, h.st]⟩) hst, ?_⟩
      exact h.move (AStep.write (t := t) s.sh i f) hh hg (wf' (e3 _ (h.wf i))) (fun e => by rw [h.kn t e]; exact same.symm)
        (fun u _ _ => same)
    · subst e2
      have e4 := h.kn t e1
      have e5 : f (know t) = f (s.sh.items i) := by rw [e4]
      rw [e5] at e3 hg hl
      rw [e4] at hl
      obtain ⟨hl1, r, hl2, hl3⟩ := hl
      refine ⟨_, held t, f (s.sh.items i), lin_of_optAt (μ' := tabMap c i (set1 s.sh.items i (f (s.sh.items i)) i)) (s' := s')
        (Or.inr ⟨hl1, r, hl2, by rw [set1_same, h.st]; exact hl3⟩) hst, ?_⟩
      exact h.move (AStep.write (t := t) s.sh i f) hh hg (wf' e3) (fun _ => (set1_same _ _ _).symm)
        (fun u hu hj => absurd (h.L.unique (Or.inr hj) (Or.inr e1)) hu)
    · subst e2
      obtain ⟨e3, s', ⟨hl1, r, hl2, hl3⟩, hg⟩ := hg _ (h.wf i)
      refine ⟨_, held t, know t, lin_of_optAt (μ' := tabMap c i (set1 s.sh.items i (f (s.sh.items i)) i)) (s' := s')
        (Or.inr ⟨hl1, r, hl2, by rw [set1_same, h.st]; exact hl3⟩) hst, ?_⟩
      exact h.move (AStep.write (t := t) s.sh i f) hh hg (wf' e3) (fun e => by rw [e1] at e; cases e)
        (fun u _ hj => (h.L.no_reader hj e1).elim)

/-- The simulation. -/
theorem simAt (c : Conf K) (j : Nat) (hj : j < c.n) : Sim (shardSpec c V j) (body c) (Config.init fresh)
    (fun _ op => NoEdit op) (fun s a => ∃ held know, RelAt c j s a held know) where
  start := by
    refine ⟨fun _ => .no, fun _ => [], LockInv.start, fun _ => List.Pairwise.nil, ?_, ?_, ?_⟩
    · funext x
      show none = tabMap c j [] x
      unfold tabMap
      split <;> rfl
    · intro t h; cases h
    · intro t; exact ⟨rfl, rfl⟩
  call := by
    rintro s a t op ⟨held, know, h⟩ hop hi
    have ht := h.th t
    rw [hi] at ht
    refine ⟨ht.1, held, know, h.L, h.wf, h.st, h.kn, fun u => ?_⟩
    by_cases e : u = t
    · subst e
      simp only [upd_same]
      refine ⟨none, rfl, ?_⟩
      rw [ht.2]
      exact goodAt_body c j hj op hop _
    · simp only [upd_other _ _ e]
      exact h.th u
  act := by
    rintro s a t op x k ans sh' ⟨held, know, h⟩ hr hs
    obtain ⟨a', h', m', h1, h2⟩ := h.act hr hs
    exact ⟨a', h1, _, _, h2⟩
  ret := by
    rintro s a t op r ⟨held, know, h⟩ hr
    have ht := h.th t
    rw [hr] at ht
    obtain ⟨s0, hst, hh, hg⟩ := ht
    have hlin : LinOptAt c j op a.st a.st s0 (some r) := by
      rcases hg with hg | ⟨hg, hl⟩
      · exact Or.inl ⟨hg.symm, rfl⟩
      · exact Or.inr ⟨hg, r, rfl, hl _⟩
    refine ⟨_, lin_of_optAt hlin hst, upd_same _ _ _, held, know, h.L, h.wf, h.st, h.kn, fun u => ?_⟩
    by_cases e : u = t
    · subst e
      simp only [upd_same]
      exact ⟨rfl, hh⟩
    · simp only [upd_other _ _ e]
      exact h.th u
/-- The sequential object with `Clear`: one map. Other operations that go through all shards are only required
to leave it as it is. -/
def clearSpec (K V : Type) [DecidableEq K] [Inhabited V] : SeqSpec (Op K V) (Res K V) where
  St := PMap K V
  init := PMap.empty
  legal m op r m' := (SingleKey op ∨ op = .clear → Legal m op r m') ∧ (ReadsAll op → m' = m)

/-- The same, where also `Len` and `Empty` are required to be right. -/
def countSpec (K V : Type) [DecidableEq K] [Inhabited V] : SeqSpec (Op K V) (Res K V) where
  St := PMap K V
  init := PMap.empty
  legal m op r m' := (SingleKey op ∨ op = .clear ∨ op = .len ∨ op = .empty → Legal m op r m') ∧ (ReadsAll op → m' = m)

theorem run_mono {St Op R : Type} {i : St} {l l' : St → Op → R → St → Prop}
    (h : ∀ s op r s', l s op r s' → l' s op r s')
    {s : St} {x : List (Op × R)} {s' : St} (hr : SeqSpec.Run ⟨St, i, l⟩ s x s') :
    SeqSpec.Run ⟨St, i, l'⟩ s x s' := by
  exact SeqSpec.Run.rec (S := ⟨St, i, l⟩) (motive := fun x s' _ => SeqSpec.Run ⟨St, i, l'⟩ s x s') (.nil _)
    (fun _ hl ih => .snoc ih (h _ _ _ _ hl)) hr

namespace Props

/-- **C91.** Seen through any one shard, all methods but `IterateShards` are linearizable, among them `Clear`:
calls on keys of the shard act on one map, which `Clear` empties at one moment, and which nothing else changes. -/
theorem C91_shard_linearizable (c : Conf K) (tr : List (Lab K V)) (s : Cfg K V)
    (he : Exec (body c) (Config.init fresh) tr s) (hop : Calls (fun _ op => op ≠ .iterateShards) tr)
    (j : Nat) (hj : j < c.n) : Linearizable (shardSpec c V j) (history tr) :=
  (simAt c j hj).linearizable he hop

/-- **C91.** A map of one shard is linearizable, together with `Clear`, `Len` and `Empty`. -/
theorem C91_one_shard (c : Conf K) (hc : c.n = 1) (tr : List (Lab K V)) (s : Cfg K V)
    (he : Exec (body c) (Config.init fresh) tr s) (hop : Calls (fun _ op => op ≠ .iterateShards) tr) :
    Linearizable (countSpec K V) (history tr) := by
  obtain ⟨L, m, h1, h2⟩ := C91_shard_linearizable c tr s he hop 0 (by omega)
  refine ⟨L, m, run_mono (fun s op r s' h => ?_) h1, h2⟩
  have key : ∀ k : K, shardOf c k = 0 := fun k => if_pos hc
  refine ⟨fun ho => h.1 ?_, fun ho => h.2 ?_ ?_⟩
  · rcases ho with ho | ho | ho
    · refine Or.inl ?_
      cases op <;> first | exact ho.elim | exact key _
    · exact Or.inr (Or.inl ho)
    · exact Or.inr (Or.inr ⟨hc, ho⟩)
  · intro hk; cases op <;> first | exact ho.elim | exact hk.elim
  · rintro rfl; exact ho.elim

/-- In a sequence of `Set`, `Get` and `Clear` that does not set `k`, `Get k` does not find `k` if it was not
there. -/
theorem not_found {s : PMap Nat Nat} {k : Nat} (hk : s k = none) (v : Nat) {l : List (Op Nat Nat × Res Nat Nat)}
    {s' : (clearSpec Nat Nat).St} (h : (clearSpec Nat Nat).Run s l s')
    (hl : ∀ x ∈ l, (∃ k' v, k' ≠ k ∧ x.1 = .set k' v) ∨ (∃ k', x.1 = .get k') ∨ x.1 = .clear) :
    s' k = none ∧ (.get k, .val v) ∉ l := by
  induction h with
  | nil => exact ⟨hk, by simp⟩
  | @snoc s1 s2 y op r h1 h2 ih =>
    obtain ⟨i1, i2⟩ := ih (fun x hx => hl x (by simp [hx]))
    rcases hl (op, r) (by simp) with ⟨k', w, hne, e⟩ | ⟨k', e⟩ | e
    · simp only at e
      subst e
      obtain ⟨-, e⟩ := h2.1 (Or.inl trivial)
      rw [e]
      refine ⟨?_, by simp [i2]⟩
      unfold PMap.set
      rw [if_neg (Ne.symm hne)]; exact i1
    · simp only at e
      subst e
      obtain ⟨e, e'⟩ := h2.1 (Or.inl trivial)
      rw [e]
      refine ⟨i1, fun hm => ?_⟩
      rcases List.mem_append.1 hm with hm | hm
      · exact i2 hm
      · rw [List.mem_singleton] at hm
        injection hm with e1 e2
        injection e1 with e1
        subst e1 e2
        rw [i1] at e'
        cases e'
    · simp only at e
      subst e
      obtain ⟨-, e⟩ := h2.1 (Or.inr rfl)
      rw [e]
      exact ⟨rfl, by simp [i2]⟩

theorem mem_history {M : Machine} {Op R : Type} {t : Tid} {op : Op} : ∀ {tr : List (Label M Op R)}, .call t op ∈ tr →
    .inv t op ∈ history tr
  | [], h => by cases h
  | .call u op' :: tr, h => by
    rcases List.mem_cons.1 h with e | h
    · injection e with e1 e2
      subst e1 e2
      exact List.mem_cons_self ..
    · exact List.mem_cons_of_mem _ (mem_history h)
  | .act _ _ _ :: tr, h => by
    rcases List.mem_cons.1 h with e | h
    · cases e
    · exact mem_history (tr := tr) h
  | .ret _ _ _ :: tr, h => by
    rcases List.mem_cons.1 h with e | h
    · cases e
    · exact List.mem_cons_of_mem _ (mem_history h)

/-- Key 1 is set; while `Clear` has emptied shard 0 but not yet shard 1, another goroutine sets key 0 and finds
key 1; after `Clear`, key 0 is found. -/
def midClear : List (Conc.Go (Op Nat Nat)) :=
  whole 0 (.set 1 10) 4 ++ .call 1 .clear :: List.replicate 3 (.act 1) ++ whole 0 (.set 0 5) 4 ++ whole 0 (.get 1) 3 ++
    List.replicate 3 (.act 1) ++ [.ret 1] ++ whole 0 (.get 0) 3

/-- What happens in it. -/
def clearingHistory : List (Event (Op Nat Nat) (Res Nat Nat)) :=
  [.inv 0 (.set 1 10), .ret 0 .unit, .inv 1 .clear, .inv 0 (.set 0 5), .ret 0 .unit, .inv 0 (.get 1), .ret 0 (.val 10),
    .ret 1 .unit, .inv 0 (.get 0), .ret 0 (.val 5)]

theorem clearing_history : (play two midClear (Config.init fresh)).map (fun x => history x.1) = some clearingHistory := by
  rfl

/-- Calls in that history. -/
theorem returns_of {i j : Nat} {op : Op Nat Nat} {r : Res Nat Nat} (t : Tid)
    (h1 : clearingHistory[i]? = some (.inv t op)) (h2 : clearingHistory[j]? = some (.ret t r)) (h3 : i < j)
    (h4 : ∀ k, i < k → k < j → (clearingHistory[k]?.map Event.tid) ≠ some t) : Returns clearingHistory i j op r := by
  refine ⟨t, h1, h2, h3, fun k e a b he ht => h4 k a b ?_⟩
  rw [he, ← ht]; rfl

theorem clearing_not_linearizable : ¬ Linearizable (clearSpec Nat Nat) clearingHistory := by
  rintro ⟨L, s, h1, h2, h3, h4, h5⟩
  have r0 : Returns clearingHistory 0 1 (.set 1 10) .unit := returns_of 0 rfl rfl (by omega) (by intro k; omega)
  have r2 : Returns clearingHistory 2 7 .clear .unit := returns_of 1 rfl rfl (by omega) (by
    intro k a b
    obtain rfl | rfl | rfl | rfl : k = 3 ∨ k = 4 ∨ k = 5 ∨ k = 6 := by omega
    all_goals simp [clearingHistory, Event.tid])
  have r3 : Returns clearingHistory 3 4 (.set 0 5) .unit := returns_of 0 rfl rfl (by omega) (by intro k; omega)
  have r5 : Returns clearingHistory 5 6 (.get 1) (.val 10) := returns_of 0 rfl rfl (by omega) (by intro k; omega)
  have r8 : Returns clearingHistory 8 9 (.get 0) (.val 5) := returns_of 0 rfl rfl (by omega) (by intro k; omega)
  obtain ⟨pre, post, rfl⟩ := List.append_of_mem (h4 _ _ _ _ r2)
  rw [List.map_append, List.map_cons] at h1 h2
  obtain ⟨m, -, h1⟩ := h1.split
  obtain ⟨m', h6, h1⟩ := SeqSpec.Run.split [(Op.clear, Res.unit)] _ h1
  have hm' : m' = PMap.empty := (h6.one.1 (Or.inr rfl)).2
  subst hm'
  have once : ∀ i op r op' r', (i, op, r) ∈ pre → (i, op', r') ∈ post → False := by
    intro i op r op' r' ha hb
    rw [List.nodup_append] at h2
    exact h2.2.2 i (List.mem_map.2 ⟨_, ha, rfl⟩) i (List.mem_cons_of_mem _ (List.mem_map.2 ⟨_, hb, rfl⟩)) rfl
  have where_ : ∀ {i j op r}, Returns clearingHistory i j op r → i ≠ 2 → (i, op, r) ∈ pre ∨ (i, op, r) ∈ post := by
    intro i j op r hr hi
    rcases List.mem_append.1 (h4 _ _ _ _ hr) with h | h
    · exact Or.inl h
    · rcases List.mem_cons.1 h with h | h
      · injection h with h; exact absurd h hi
      · exact Or.inr h
  rw [List.pairwise_append, List.pairwise_cons] at h5
  obtain ⟨o1, ⟨o2, o3⟩, o4⟩ := h5
  have in0 : (0, .set 1 10, .unit) ∈ pre := by
    rcases where_ r0 (by omega) with h | h
    · exact h
    · have := o2 _ h _ _ _ r0
      simp only at this
      omega
  have in8 : (8, .get 0, .val 5) ∈ post := by
    rcases where_ r8 (by omega) with h | h
    · have := o4 _ h _ (List.mem_cons_self ..) _ _ _ r2
      simp only at this
      omega
    · exact h
  have kinds : ∀ i op r, (i, op, r) ∈ post → op = .set 0 5 ∧ i = 3 ∨ (∃ k, op = .get k) ∨ op = .clear := by
    intro i op r hi
    obtain ⟨t, ht⟩ := h3 i op r (List.mem_append.2 (Or.inr (List.mem_cons_of_mem _ hi)))
    have hb := (List.getElem?_eq_some_iff.1 ht).1
    have hb' : i < 10 := hb
    obtain rfl | rfl | rfl | rfl | rfl | rfl | rfl | rfl | rfl | rfl :
      i = 0 ∨ i = 1 ∨ i = 2 ∨ i = 3 ∨ i = 4 ∨ i = 5 ∨ i = 6 ∨ i = 7 ∨ i = 8 ∨ i = 9 := by omega
    all_goals simp [clearingHistory] at ht
    · exact (once _ _ _ _ _ in0 hi).elim
    · exact Or.inr (Or.inr ht.2.symm)
    · exact Or.inl ⟨ht.2.symm, rfl⟩
    · exact Or.inr (Or.inl ⟨_, ht.2.symm⟩)
    · exact Or.inr (Or.inl ⟨_, ht.2.symm⟩)
  have hmem : ∀ {i op r}, (i, op, r) ∈ post → (op, r) ∈ post.map Prod.snd := fun h => List.mem_map.2 ⟨_, h, rfl⟩
  rcases where_ r3 (by omega) with in3 | in3
  · refine (not_found (k := 0) rfl 5 h1 ?_).2 (hmem in8)
    intro x hx
    obtain ⟨⟨i, y⟩, hi, rfl⟩ := List.mem_map.1 hx
    rcases kinds i y.1 y.2 hi with ⟨e, e'⟩ | e | e
    · subst e'
      exact (once _ _ _ _ _ in3 hi).elim
    · exact Or.inr (Or.inl e)
    · exact Or.inr (Or.inr e)
  · have in5 : (5, .get 1, .val 10) ∈ post := by
      rcases where_ r5 (by omega) with h | h
      · have := o4 _ h _ (List.mem_cons_of_mem _ in3) _ _ _ r3
        simp only at this
        omega
      · exact h
    refine (not_found (k := 1) rfl 10 h1 ?_).2 (hmem in5)
    intro x hx
    obtain ⟨⟨i, y⟩, hi, rfl⟩ := List.mem_map.1 hx
    rcases kinds i y.1 y.2 hi with ⟨e, -⟩ | e | e
    · exact Or.inl ⟨0, 5, by omega, e⟩
    · exact Or.inr (Or.inl e)
    · exact Or.inr (Or.inr e)

/-- **C91.** Over several shards it is not linearizable: there is an execution of single-key operations and one
`Clear` for which there is no sequential order. -/
theorem C91_clear_not_linearizable : ∃ (tr : List (Lab Nat Nat)) (s : Cfg Nat Nat),
    Exec (body two) (Config.init fresh) tr s ∧ Calls (fun _ op => SingleKey op ∨ op = .clear) tr ∧
    ¬ Linearizable (clearSpec Nat Nat) (history tr) := by
  have h := clearing_history
  cases hx : play two midClear (Config.init fresh) with
  | none => rw [hx] at h; cases h
  | some x =>
    obtain ⟨tr, cs, s⟩ := x
    rw [hx, Option.map_some, Option.some.injEq] at h
    simp only at h
    refine ⟨tr, s, play_exec hx, ?_, by rw [h]; exact clearing_not_linearizable⟩
    intro t op hm
    have := mem_history hm
    rw [h] at this
    simp only [clearingHistory, List.mem_cons, Event.inv.injEq, reduceCtorEq, false_or, List.not_mem_nil, or_false] at this
    obtain ⟨-, rfl⟩ | ⟨-, rfl⟩ | ⟨-, rfl⟩ | ⟨-, rfl⟩ | ⟨-, rfl⟩ := this
    · exact Or.inl trivial
    · exact Or.inr rfl
    · exact Or.inl trivial
    · exact Or.inl trivial
    · exact Or.inl trivial

/-- The hypotheses of the positive results are met by that execution, and by one on a single shard,
which does not block `Get` during `Clear`. -/
example : (play two midClear (Config.init fresh)).map (fun x => returned x.1) =
    some [(0, .unit), (0, .unit), (0, .val 10), (1, .unit), (0, .val 5)] := by decide +kernel
def oneShard : Conf Nat := ⟨1, by decide, by decide, fun _ _ => 0, 0⟩
example : (play oneShard (whole 0 (.set 1 10) 4 ++ .call 1 .clear :: .act 1 :: .call 0 (.get 1) :: .act 0 :: .act 0 ::
      List.replicate 2 (.act 1) ++ [.ret 1, .act 0, .ret 0] ++ whole 0 .len 3) (Config.init fresh)).map
        (fun x => returned x.1) =
    some [(0, .unit), (1, .unit), (0, .val 10), (0, .nat 0)] := by decide +kernel

end Props

end Verif.Sharded
