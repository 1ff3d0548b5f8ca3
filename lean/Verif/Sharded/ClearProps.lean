import Verif.Sharded.WeakProps

/-!
# C90: `Clear` while others use the map
-/

set_option linter.unusedSectionVars false

namespace Verif.Sharded

open Verif.Conc Verif.GoMap

variable {K V : Type} [DecidableEq K] [Inhabited V]

/-- The program has emptied the shards below `j` and is going to empty all from `j` to `n` before it returns,
without a result. -/
def Empties (n : Nat) : Nat → P K V (Res K V) → Prop
  | j, .ret r => j = n ∧ r = .unit
  | j, .act (.write i f) k => i = j ∧ (f = fun _ => []) ∧ Empties n (j + 1) (k ())
  | j, .act _ k => ∀ ans, Empties n j (k ans)

theorem empties_clearLoop (n : Nat) : ∀ (rem j : Nat), j + rem = n → Empties n j (clearLoop (K := K) (V := V) j rem)
  | 0, _, h => ⟨h, rfl⟩
  | rem + 1, j, h => fun _ => ⟨rfl, rfl, fun _ => empties_clearLoop n rem (j + 1) (by omega)⟩

/-- Every shard that such a call has emptied was empty at a moment of the call. -/
theorem emptied {c : Conf K} {t : Tid} {op : Op K V} {n : Nat} {s1 s2 : Cfg K V}
    {tr : List (Lab K V)} (he : Exec (body c) s1 tr s2) (hn : ∀ op r, .ret t op r ∉ tr)
    (h1 : ∃ p, s1.th t = .run op p ∧ Empties n 0 p) :
    ∃ j p, s2.th t = .run op p ∧ Empties n j p ∧
      ∀ i, i < j → ∃ m, During (body c) s1 tr s2 m ∧ m.sh.items i = [] := by
  induction he with
  | nil =>
    obtain ⟨p, e1, e2⟩ := h1
    exact ⟨0, p, e1, e2, fun i h => by omega⟩
  | @snoc tr s s' l he hs ih =>
    obtain ⟨j, p, e1, e2, e3⟩ := ih (fun op r h => hn op r (by simp [h]))
    have keep : ∀ i, i < j → ∃ m, During (body c) s1 (tr ++ [l]) s' m ∧ m.sh.items i = [] := by
      intro i hi
      obtain ⟨m, hm, e⟩ := e3 i hi
      exact ⟨m, hm.snoc hs, e⟩
    have last : During (body c) s1 (tr ++ [l]) s' s' := .last (.snoc he hs)
    cases hs with
    | call u op' hi =>
      have : t ≠ u := by rintro rfl; rw [hi] at e1; cases e1
      exact ⟨j, p, by simp only [upd_other _ _ this]; exact e1, e2, keep⟩
    | ret u op' r hr =>
      have : t ≠ u := by rintro rfl; exact hn op' r (by simp)
      exact ⟨j, p, by simp only [upd_other _ _ this]; exact e1, e2, keep⟩
    | act u op' a k ans sh' hr hst =>
      by_cases e : t = u
      · subst e
        rw [hr] at e1
        injection e1 with h1 h2
        subst h1 h2
        cases a with
        | write i f =>
          obtain ⟨rfl, rfl, f3⟩ := e2
          refine ⟨i + 1, _, by simp only [upd_same], f3, fun x hx => ?_⟩
          by_cases c' : x = i
          · subst c'
            refine ⟨_, last, ?_⟩
            cases hst with
            | write _ _ _ => exact set1_same _ _ _
          · exact keep x (by omega)
        | read i => exact ⟨j, _, by simp only [upd_same], e2 ans, keep⟩
        | lockBegin i => exact ⟨j, _, by simp only [upd_same], e2 ans, keep⟩
        | lockWait i => exact ⟨j, _, by simp only [upd_same], e2 ans, keep⟩
        | unlock i => exact ⟨j, _, by simp only [upd_same], e2 ans, keep⟩
        | rlock i => exact ⟨j, _, by simp only [upd_same], e2 ans, keep⟩
        | runlock i => exact ⟨j, _, by simp only [upd_same], e2 ans, keep⟩
        | factory x => exact ⟨j, _, by simp only [upd_same], e2 ans, keep⟩
        | callback => exact ⟨j, _, by simp only [upd_same], e2 ans, keep⟩
        | edit => exact ⟨j, _, by simp only [upd_same], e2 ans, keep⟩
        | order => exact ⟨j, _, by simp only [upd_same], e2 ans, keep⟩
      · exact ⟨j, p, by simp only [upd_other _ _ e]; exact e1, e2, keep⟩

/-- The tables hold each key at most once, whatever is called. -/
theorem wf_of_exec {c : Conf K} {tr : List (Lab K V)} {s : Cfg K V}
    (he : Exec (body c) (Config.init fresh) tr s) (i : Nat) : (s.sh.items i).WF := by
  induction he with
  | nil => exact List.Pairwise.nil
  | @snoc tr s s' l he hs ih =>
    cases hs with
    | call u op' hi => exact ih
    | ret u op' r hr => exact ih
    | act u op a k ans sh' hr hst =>
      cases hst with
      | write _ j f =>
        have hw := (writes_of_exec he u op _ hr).1
        show (set1 s.sh.items j (f (s.sh.items j)) i).WF
        by_cases e : i = j
        · subst e
          rw [set1_same]
          cases op with
          | set x v => rw [show f = (·.put x v) from hw.2]; exact WF.put ih x v
          | trySet x v => rw [show f = (·.put x v) from hw.2]; exact WF.put ih x v
          | getOrSetDefault x v => rw [show f = (·.put x v) from hw.2]; exact WF.put ih x v
          | getOrSetFactory x =>
            obtain ⟨-, v, hw⟩ := hw
            rw [hw]; exact WF.put ih x v
          | delete x => rw [show f = (·.del x) from hw.2]; exact WF.del ih x
          | clear => rw [show f = (fun _ => []) from hw]; exact List.Pairwise.nil
          | iterateShards => exact hw _ ih
          | _ => exact absurd hw (by simp [WriteOf])
        · rw [set1_other _ _ e]; exact ih
      | _ => exact ih

namespace Props

/-- The operation can put an entry for `k` into the map. (`IterateShards` hands the tables to the user.) -/
def CanAdd (k : K) : Op K V → Prop
  | .set x _ | .trySet x _ | .getOrSetFactory x | .getOrSetDefault x _ => x = k
  | .iterateShards => True
  | _ => False

/-- A step of goroutines none of which can add `k` does not make `k` appear. -/
theorem absent_step {c : Conf K} {tr : List (Lab K V)} {s s' : Cfg K V} {l : Lab K V}
    (he : Exec (body c) (Config.init fresh) tr s) (hs : Step (body c) s l s') (k : K)
    (hk : ∀ u op p, s.th u = .run op p → ¬ CanAdd k op) (h : absMap c s.sh.items k = none) :
    absMap c s'.sh.items k = none := by
  cases hs with
  | call u op' hi => exact h
  | ret u op' r hr => exact h
  | act u op a kk ans sh' hr hst =>
    cases hst with
    | write _ j f =>
      have hw := (writes_of_exec he u op _ hr).1
      have hn := hk u op _ hr
      unfold absMap at h ⊢
      show (set1 s.sh.items j (f (s.sh.items j)) (shardOf c k)).get? k = none
      by_cases e : shardOf c k = j
      · subst e
        rw [set1_same]
        have wf := wf_of_exec he (shardOf c k)
        have put : ∀ (x : K) (v : V), x ≠ k → f = (·.put x v) → (f (s.sh.items (shardOf c k))).get? k = none := by
          intro x v hx hf
          rw [hf, get?_put wf, if_neg (fun e => hx e.symm)]; exact h
        cases op with
        | set x v => exact put x v hn hw.2
        | trySet x v => exact put x v hn hw.2
        | getOrSetDefault x v => exact put x v hn hw.2
        | getOrSetFactory x =>
          obtain ⟨-, v, hw⟩ := hw
          exact put x v hn hw
        | delete x =>
          rw [show f = (·.del x) from hw.2, get?_del wf]
          split
          · rfl
          · exact h
        | clear => rw [show f = (fun _ => []) from hw]; rfl
        | iterateShards => exact absurd trivial hn
        | _ => exact absurd hw (by simp [WriteOf])
      · rw [set1_other _ _ e]; exact h
    | _ => exact h

/-- A complete call of `Clear`, whatever the other goroutines call meanwhile. -/
abbrev ClearCall (c : Conf K) (t : Tid) (r : Res K V) (tr0 tr : List (Lab K V)) (s0 s1 s2 : Cfg K V) : Prop :=
  FullCall (body c) (Config.init fresh) t .clear r tr0 tr s0 s1 s2

/-- **C90.** `Clear` empties every shard at some moment of the call. -/
theorem C90_clear_empties (c : Conf K) (t : Tid) (r : Res K V) (tr0 tr : List (Lab K V)) (s0 s1 s2 : Cfg K V)
    (h : ClearCall c t r tr0 tr s0 s1 s2) : r = .unit ∧ ∀ i, i < c.n → ∃ m, During (body c) s1 tr s2 m ∧
      m.sh.items i = [] ∧ ∀ k, shardOf c k = i → absMap c m.sh.items k = none := by
  have start : s1.th t = .run .clear (body c .clear) := by
    cases h.call with
    | call _ _ _ => simp only [upd_same]
  obtain ⟨j, p, e1, e2, e3⟩ := emptied h.inside h.none ⟨_, start, empties_clearLoop c.n c.n 0 (by omega)⟩
  rw [h.ret] at e1
  injection e1 with _ e1
  subst e1
  obtain ⟨rfl, hr⟩ := e2
  refine ⟨hr, fun i hi => ?_⟩
  obtain ⟨m, hm, e⟩ := e3 i hi
  refine ⟨m, hm, e, fun k hk => ?_⟩
  unfold absMap
  rw [hk, e]; rfl

/-- **C90.** A key is gone when `Clear` returns if no call during `Clear` can add it, whatever else happens. -/
theorem C90_clear_removes (c : Conf K) (t : Tid) (r : Res K V) (tr0 tr : List (Lab K V)) (s0 s1 s2 : Cfg K V)
    (h : ClearCall c t r tr0 tr s0 s1 s2) (k : K)
    (hk : ∀ m, During (body c) s1 tr s2 m → ∀ u op p, m.th u = .run op p → ¬ CanAdd k op) :
    absMap c s2.sh.items k = none := by
  obtain ⟨m, ⟨a, b, e, ha, hb⟩, -, hm⟩ := (C90_clear_empties c t r tr0 tr s0 s1 s2 h).2 _ (shardOf_lt c k)
  have pre := (Exec.snoc h.before h.call).trans ha
  have key : ∀ {b : List (Lab K V)} {m' : Cfg K V}, Exec (body c) m b m' → ∀ {d}, tr = a ++ b ++ d →
      Exec (body c) m' d s2 → absMap c m'.sh.items k = none := by
    intro b m' hb
    induction hb with
    | nil => intros; exact hm k rfl
    | @snoc tr' q q' l hb hs ih =>
      intro d e' hd
      have hq : Exec (body c) q (l :: d) s2 := Exec.trans (.snoc .nil hs) hd
      exact absent_step (pre.trans hb) hs k
        (hk q ⟨a ++ tr', l :: d, by rw [e']; simp, ha.trans hb, hq⟩) (ih (d := l :: d) (by rw [e']; simp) hq)
  exact key hb (d := []) (by rw [e]; simp) .nil

/-- **C90**, the other way round: a key that is there when `Clear` returns was absent at one moment of the call
and present at a later one. -/
theorem C90_left_after_clear (c : Conf K) (t : Tid) (r : Res K V) (tr0 tr : List (Lab K V)) (s0 s1 s2 : Cfg K V)
    (h : ClearCall c t r tr0 tr s0 s1 s2) (k : K) (v : V) (hv : absMap c s2.sh.items k = some v) :
    (∃ m, During (body c) s1 tr s2 m ∧ absMap c m.sh.items k = none) ∧
    ∃ m u op p, During (body c) s1 tr s2 m ∧ m.th u = .run op p ∧ CanAdd k op := by
  refine ⟨?_, ?_⟩
  · obtain ⟨m, hm, -, e⟩ := (C90_clear_empties c t r tr0 tr s0 s1 s2 h).2 _ (shardOf_lt c k)
    exact ⟨m, hm, e k rfl⟩
  · refine Classical.byContradiction fun hn => ?_
    rw [C90_clear_removes c t r tr0 tr s0 s1 s2 h k fun m hm u op p hp ha => hn ⟨m, u, op, p, hm, hp, ha⟩] at hv
    cases hv

/-- `Clear` is not atomic over several shards: a key can be set in a shard already emptied before the last
entry of another shard is gone, so that there is an entry at every moment of the call and one is left. -/
theorem C90_not_atomic : ∃ (tr0 tr : List (Lab Nat Nat)) (s0 s1 s2 : Cfg Nat Nat),
    ClearCall two 1 .unit tr0 tr s0 s1 s2 ∧
    ∀ m, During (body two) s1 tr s2 m → absMap two m.sh.items ≠ PMap.empty := by
  obtain ⟨tr0, tr, s0, s1, s2, hc, -, -, hm⟩ := shown_call
    (List.replicate 3 (.act 1) ++ whole 0 (.set 0 5) 4 ++ List.replicate 3 (.act 1)) .clear .unit (by rfl)
  exact ⟨tr0, tr, s0, s1, s2, hc, fun m hd => not_empty_of_inhabited (hm m hd)⟩

/-- In that call key 1, which was there, is removed (nothing adds it meanwhile) and key 0 is left. -/
example : (play two (prelude_ ++ [.call 1 .clear] ++ List.replicate 3 (.act 1) ++ whole 0 (.set 0 5) 4 ++
      List.replicate 3 (.act 1)) (Config.init fresh)).map
        (fun x => (absMap two x.2.2.sh.items 1, absMap two x.2.2.sh.items 0, about x.2.2 1)) =
    some (none, some 5, some .unit) := by decide +kernel
example : (play two prelude_ (Config.init fresh)).map (fun x => absMap two x.2.2.sh.items 1) = some (some 10) := by
  decide +kernel

end Props

end Verif.Sharded
