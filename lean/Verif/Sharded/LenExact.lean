import Verif.Sharded.Props
import Verif.Conc.Term

/-!
# C37: for which maps `Len` and `Empty` always report a state the map was in

Exactly those whose keys all fall into the same shard.
-/

set_option linter.unusedSectionVars false

namespace Verif.Sharded

open Verif.Conc Verif.GoMap Props

variable {K V : Type} [DecidableEq K] [Inhabited V]

/-- A label determines the step. -/
theorem step_det {c : Conf K} {s a b : Cfg K V} {l : Lab K V} (h1 : Step (body c) s l a) (h2 : Step (body c) s l b) :
    a = b := by
  cases h1 with
  | call t op hi => cases h2; rfl
  | ret t op r hi =>
    cases h2; rfl
  | act t op x k ans sh' hr hs =>
    cases h2 with
    | act _ op' _ k' _ sh'' hr' hs' =>
      rw [hr] at hr'
      cases hr'
      have : sh' = sh'' := by cases hs <;> cases hs' <;> rfl
      rw [this]

theorem exec_det {c : Conf K} {s : Cfg K V} {tr : List (Lab K V)} {a : Cfg K V} (h1 : Exec (body c) s tr a) :
    ∀ {b : Cfg K V}, Exec (body c) s tr b → a = b := by
  induction h1 with
  | nil =>
    intro b h2
    generalize e : ([] : List (Lab K V)) = tr at h2
    cases h2 with
    | nil => rfl
    | snoc _ _ => simp at e
  | @snoc tr x y l _ hs ih =>
    intro b h2
    generalize e : tr ++ [l] = tr' at h2
    cases h2 with
    | nil => simp at e
    | snoc h2' hs' =>
      have e1 := List.append_inj_left' e rfl
      have e2 := List.append_inj_right' e rfl
      injection e2 with e2
      subst e1 e2
      cases ih h2'
      exact step_det hs hs'

/-- An execution in which goroutine 1 does not return, only allowed calls are made, and the tables of every
state satisfy `Q`. -/
inductive Walk (c : Conf K) (Q : (Nat → Tab K V) → Prop) (s : Cfg K V) : List (Lab K V) → Cfg K V → Prop where
  | nil : Q s.sh.items → Walk c Q s [] s
  | snoc {tr : List (Lab K V)} {a b : Cfg K V} {l : Lab K V} : Walk c Q s tr a → Step (body c) a l b → Q b.sh.items →
      (∀ t op, l = .call t op → Allowed op) → (∀ op r, l ≠ .ret 1 op r) → Walk c Q s (tr ++ [l]) b

theorem Walk.exec {c : Conf K} {Q : (Nat → Tab K V) → Prop} {s s' : Cfg K V} {tr : List (Lab K V)}
    (h : Walk c Q s tr s') : Exec (body c) s tr s' := by
  induction h with
  | nil _ => exact .nil
  | snoc _ hs _ _ _ ih => exact .snoc ih hs

theorem Walk.calls {c : Conf K} {Q : (Nat → Tab K V) → Prop} {s s' : Cfg K V} {tr : List (Lab K V)}
    (h : Walk c Q s tr s') : Calls (fun _ op => Allowed op) tr ∧ ∀ op r, .ret 1 op r ∉ tr := by
  induction h with
  | nil _ => exact ⟨fun _ _ h => (by cases h), fun _ _ h => (by cases h)⟩
  | snoc _ _ _ h1 h2 ih =>
    refine ⟨fun t op hm => ?_, fun op r hm => ?_⟩
    · rcases List.mem_append.1 hm with hm | hm
      · exact ih.1 t op hm
      · exact h1 t op (List.mem_singleton.1 hm).symm
    · rcases List.mem_append.1 hm with hm | hm
      · exact ih.2 op r hm
      · exact h2 op r (List.mem_singleton.1 hm).symm

theorem Walk.prefix {c : Conf K} {Q : (Nat → Tab K V) → Prop} {s s' : Cfg K V} {tr : List (Lab K V)}
    (h : Walk c Q s tr s') : ∀ a b, tr = a ++ b → ∃ m, Walk c Q s a m := by
  induction h with
  | nil hq =>
    intro a b e
    have : a = [] := by simp_all
    subst this
    exact ⟨_, .nil hq⟩
  | @snoc tr x y l hw hs hq h1 h2 ih =>
    intro a b e
    rcases List.eq_nil_or_concat b with rfl | ⟨b', z, rfl⟩
    · rw [List.append_nil] at e
      subst e
      exact ⟨_, .snoc hw hs hq h1 h2⟩
    · rw [List.concat_eq_append, ← List.append_assoc] at e
      exact ih a b' (List.append_inj_left' e rfl)

theorem Walk.during {c : Conf K} {Q : (Nat → Tab K V) → Prop} {s s' m : Cfg K V} {tr : List (Lab K V)}
    (h : Walk c Q s tr s') (hm : During (body c) s tr s' m) : Q m.sh.items := by
  obtain ⟨a, b, e, h1, -⟩ := hm
  obtain ⟨m', hw⟩ := h.prefix a b e
  cases exec_det h1 hw.exec
  cases hw with
  | nil hq => exact hq
  | snoc _ _ hq _ _ => exact hq

/-- One step of a running method. -/
theorem Walk.act {c : Conf K} {Q : (Nat → Tab K V) → Prop} {s : Cfg K V} {tr : List (Lab K V)} {σ σ' : Sh K V}
    {th : Tid → Thread (mach K V) (Op K V) (Res K V)} {t : Tid} {op : Op K V} {x : Act K V} {k : Ans x → P K V (Res K V)}
    {ans : Ans x} (h : Walk c Q s tr ⟨σ, upd th t (.run op (.act x k))⟩) (hs : AStep t x σ ans σ') (hq : Q σ'.items) :
    Walk c Q s (tr ++ [.act t x ans]) ⟨σ', upd th t (.run op (k ans))⟩ := by
  have h1 := h.snoc (.act (M := mach K V) t op x k ans σ' (upd_same _ _ _) hs) hq
    (by intro t op e; cases e) (by intro op r e; cases e)
  simp only [upd_upd] at h1
  exact h1

/-- Goroutine 0 returns. -/
theorem Walk.ret {c : Conf K} {Q : (Nat → Tab K V) → Prop} {s : Cfg K V} {tr : List (Lab K V)} {σ : Sh K V}
    {th : Tid → Thread (mach K V) (Op K V) (Res K V)} {op : Op K V} {r : Res K V}
    (h : Walk c Q s tr ⟨σ, upd th 0 (.run op (.ret r))⟩) (hq : Q σ.items) :
    Walk c Q s (tr ++ [.ret 0 op r]) ⟨σ, upd th 0 .idle⟩ := by
  have h1 := h.snoc (.ret 0 op r (upd_same th 0 (.run op (.ret r)))) hq (by intro t op e; cases e) (by intro op r e; cases e)
  simp only [upd_upd] at h1
  exact h1

/-- Goroutine 1 looks at a shard. -/
theorem Walk.look {c : Conf K} {Q : (Nat → Tab K V) → Prop} {s : Cfg K V} {tr : List (Lab K V)} {items : Nat → Tab K V}
    {th : Tid → Thread (mach K V) (Op K V) (Res K V)} {op : Op K V} {i : Nat} {F : Tab K V → P K V (Res K V)}
    (h : Walk c Q s tr ⟨⟨items, free⟩, upd th 1 (.run op (.act (.rlock i) fun _ => .act (.read i) fun x =>
      .act (.runlock i) fun _ => F x))⟩) (hq : Q items) :
    ∃ tr', Walk c Q s tr' ⟨⟨items, free⟩, upd th 1 (.run op (F (items i)))⟩ := by
  have h1 := h.act (.rlock _ i rfl) hq
  have h2 := h1.act (.read _ i) hq
  have h3 := h2.act (.runlock _ i (by simp [set1_same])) hq
  simp only [set1_same, set1_set1, List.erase_cons_head] at h3
  have e : set1 free i ⟨(free i).wr, (free i).active, (free i).rd⟩ = free := set1_self free i
  rw [e] at h3
  exact ⟨_, h3⟩

/-- Goroutine 0 calls `Set` or `Delete`. -/
theorem Walk.change {c : Conf K} {Q : (Nat → Tab K V) → Prop} {s : Cfg K V} {tr : List (Lab K V)} {items : Nat → Tab K V}
    {th : Tid → Thread (mach K V) (Op K V) (Res K V)} (op : Op K V) (hop : Allowed op) (i : Nat) (f : Tab K V → Tab K V)
    (hb : body c op = .act (.lockBegin i) fun _ => .act (.lockWait i) fun _ => .act (.write i f) fun _ =>
      .act (.unlock i) fun _ => .ret .unit)
    (h : Walk c Q s tr ⟨⟨items, free⟩, th⟩) (h0 : th 0 = .idle) (hq : Q items) (hq' : Q (set1 items i (f (items i)))) :
    ∃ tr', Walk c Q s tr' ⟨⟨set1 items i (f (items i)), free⟩, th⟩ := by
  have h1 := h.snoc (.call 0 op h0) hq (by intro t op' e; cases e; exact hop) (by intro op r e; cases e)
  rw [hb] at h1
  have h2 := h1.act (.lockBegin _ i rfl) hq
  have h3 := h2.act (.lockWait _ i (by simp [set1_same]) (by simp [set1_same]) (by simp [set1_same, free])) hq
  have h4 := h3.act (.write _ i f) hq'
  have h5 := h4.act (.unlock _ i (by simp [set1_same]) (by simp [set1_same])) hq'
  have h6 := h5.ret hq'
  simp only [set1_same, set1_set1] at h6
  have e : set1 free i ⟨none, false, (free i).rd⟩ = free := set1_self free i
  rw [e] at h6
  have e2 : upd th 0 .idle = th := by
    funext u
    by_cases hu : u = 0
    · subst hu; rw [upd_same, h0]
    · rw [upd_other _ _ hu]
  rw [e2] at h6
  exact ⟨_, h6⟩

/-- A loop that looks at one shard after the other as long as they are empty. -/
structure Looks (L : Nat → Nat → P K V (Res K V)) (r : Res K V) : Prop where
  stop : ∀ i, L i 0 = .ret r
  step : ∀ i rem, ∃ F : Tab K V → P K V (Res K V), L i (rem + 1) = (.act (.rlock i) fun _ => .act (.read i) fun x =>
    .act (.runlock i) fun _ => F x) ∧ F [] = L (i + 1) rem

theorem looks_len : Looks (K := K) (V := V) (fun i rem => lenLoop i rem 0) (.nat 0) where
  stop _ := rfl
  step _ _ := ⟨_, rfl, rfl⟩

theorem looks_empty : Looks (K := K) (V := V) emptyLoop (.bool true) where
  stop _ := rfl
  step _ _ := ⟨_, rfl, rfl⟩

/-- Goroutine 1 looks at empty shards. -/
theorem Walk.looks {c : Conf K} {Q : (Nat → Tab K V) → Prop} {s : Cfg K V} {items : Nat → Tab K V}
    {th : Tid → Thread (mach K V) (Op K V) (Res K V)} {op : Op K V} {L : Nat → Nat → P K V (Res K V)} {r : Res K V}
    (hL : Looks L r) (hq : Q items) (rest : Nat) : ∀ (m i : Nat) (tr : List (Lab K V)),
    (∀ j, i ≤ j → j < i + m → items j = []) →
    Walk c Q s tr ⟨⟨items, free⟩, upd th 1 (.run op (L i (m + rest)))⟩ →
    ∃ tr', Walk c Q s tr' ⟨⟨items, free⟩, upd th 1 (.run op (L (i + m) rest))⟩ := by
  intro m
  induction m with
  | zero => intro i tr _ h; exact ⟨tr, by simpa using h⟩
  | succ m ih =>
    intro i tr he h
    obtain ⟨F, e1, e2⟩ := hL.step i (m + rest)
    rw [show m + 1 + rest = m + rest + 1 by omega, e1] at h
    obtain ⟨tr1, h1⟩ := h.look hq
    rw [he i (by omega) (by omega), e2] at h1
    obtain ⟨tr2, h2⟩ := ih (i + 1) tr1 (fun j a b => he j (by omega) (by omega)) h1
    rw [show i + 1 + m = i + (m + 1) by omega] at h2
    exact ⟨tr2, h2⟩

/-- For two keys in different shards there is a call that finds all shards empty although the map never was. -/
theorem walk_bad (c : Conf K) {op : Op K V} {L : Nat → Nat → P K V (Res K V)} {r : Res K V} (hop : Allowed op)
    (hL : Looks L r) (hb : body c op = L 0 c.n) {k k' : K} (hlt : shardOf c k < shardOf c k') :
    ∃ tr0 tr s0 s1 s2, GoodCall c 1 op r tr0 tr s0 s1 s2 ∧
      ∀ m, During (body c) s1 tr s2 m → absMap c m.sh.items ≠ PMap.empty := by
  have hw : Tab.WF ([] : Tab K V) := List.Pairwise.nil
  have hj := shardOf_lt c k'
  obtain ⟨tr0, h0⟩ := (Walk.nil (c := c) (Q := fun _ => True) (s := ⟨⟨fun _ => ([] : Tab K V), free⟩, fun _ => .idle⟩)
    trivial).change (.set k' default) (Or.inl trivial) (shardOf c k') (·.put k' default) rfl rfl trivial trivial
  generalize e1 : set1 (fun _ => ([] : Tab K V)) (shardOf c k') (Tab.put [] k' default) = X1 at h0
  have a1 : ∀ s, s ≠ shardOf c k' → X1 s = [] := fun s hs => by rw [← e1, set1_other _ _ hs]
  have a1' : X1 (shardOf c k') = Tab.put [] k' default := by rw [← e1, set1_same]
  have q1 : absMap c X1 ≠ PMap.empty := by
    intro e
    have := congrFun e k'
    unfold absMap at this
    rw [a1', get?_put hw, if_pos rfl] at this
    cases this
  have w1 : Walk c (fun m => absMap c m ≠ PMap.empty)
      ⟨⟨X1, free⟩, upd (fun _ => .idle) 1 (.run op (L 0 (shardOf c k + 1 + (c.n - (shardOf c k + 1)))))⟩ [] _ := .nil q1
  obtain ⟨tr1, w2⟩ := w1.looks hL q1 _ _ _ _ (fun s _ hs => a1 s (by omega))
  obtain ⟨tr2, w3⟩ := w2.change (.set k default) (Or.inl trivial) (shardOf c k) (·.put k default) rfl
    (upd_other _ _ (by decide)) q1 (by
      intro e
      have := congrFun e k
      unfold absMap at this
      rw [set1_same, a1 _ (by omega), get?_put hw, if_pos rfl] at this
      cases this)
  generalize e2 : set1 X1 (shardOf c k) (Tab.put (X1 (shardOf c k)) k default) = X2 at w3
  have a2 : X2 (shardOf c k) = Tab.put [] k default := by rw [← e2, set1_same, a1 _ (by omega)]
  have a2' : X2 (shardOf c k') = Tab.put [] k' default := by rw [← e2, set1_other _ _ (by omega), a1']
  have a2'' : ∀ s, s ≠ shardOf c k' → s ≠ shardOf c k → X2 s = [] := fun s h1 h2 => by
    rw [← e2, set1_other _ _ h2, a1 _ h1]
  have q2 : ∀ X : Nat → Tab K V, X (shardOf c k) = Tab.put [] k default → absMap c X ≠ PMap.empty := by
    intro X hX e
    have := congrFun e k
    unfold absMap at this
    rw [hX, get?_put hw, if_pos rfl] at this
    cases this
  obtain ⟨tr3, w4⟩ := w3.change (.delete k') (Or.inl trivial) (shardOf c k') (·.del k') rfl
    (upd_other _ _ (by decide)) (q2 _ a2) (q2 _ (by rw [set1_other _ _ (by omega), a2]))
  generalize e3 : set1 X2 (shardOf c k') (Tab.del (X2 (shardOf c k')) k') = X3 at w4
  have a3 : X3 (shardOf c k) = Tab.put [] k default := by rw [← e3, set1_other _ _ (by omega), a2]
  have a3' : ∀ s, shardOf c k < s → X3 s = [] := by
    intro s hs
    by_cases h : s = shardOf c k'
    · subst h
      rw [← e3, set1_same, a2']
      simp [Tab.put, Tab.del]
    · rw [← e3, set1_other _ _ h, a2'' s h (by omega)]
  obtain ⟨tr4, w5⟩ := Walk.looks hL (q2 _ a3) 0 (c.n - (shardOf c k + 1)) (0 + (shardOf c k + 1)) tr3
    (fun s hs _ => a3' s (by omega)) w4
  rw [hL.stop] at w5
  rw [show shardOf c k + 1 + (c.n - (shardOf c k + 1)) = c.n by omega, ← hb] at w5
  have hcall : Step (body c) (⟨⟨X1, free⟩, fun _ => .idle⟩ : Cfg K V) (.call 1 op)
      (⟨⟨X1, free⟩, upd (fun _ => .idle) 1 (.run op (body c op))⟩ : Cfg K V) := .call 1 op rfl
  exact ⟨tr0, tr4, _, _, _, ⟨⟨h0.exec, hcall, w5.exec, w5.calls.2, rfl⟩, h0.calls.1, hop, w5.calls.1⟩,
    fun m hm => w5.during hm⟩

theorem sum_zero : ∀ {ns : List Nat}, (∀ m ∈ ns, m = 0) → ns.sum = 0
  | [], _ => rfl
  | a :: ns, h => by
    rw [List.sum_cons, h a List.mem_cons_self, sum_zero fun m hm => h m (List.mem_cons_of_mem _ hm)]

theorem sum_single : ∀ (ns : List Nat) (i n : Nat), ns[i]? = some n →
    (∀ (j m : Nat), ns[j]? = some m → j ≠ i → m = 0) → ns.sum = n
  | [], i, n, h, _ => by simp at h
  | a :: ns, 0, n, h, hz => by
    have ha : a = n := by simpa using h
    have : ∀ m ∈ ns, m = 0 := by
      intro m hm
      obtain ⟨j, hj⟩ := List.mem_iff_getElem?.1 hm
      exact hz (j + 1) m (by simpa using hj) (by omega)
    rw [List.sum_cons, sum_zero this, ha, Nat.add_zero]
  | a :: ns, i + 1, n, h, hz => by
    have ha : a = 0 := hz 0 a rfl (by omega)
    have := sum_single ns i n (by simpa using h) (fun j m hj hne => hz (j + 1) m (by simpa using hj) (by omega))
    rw [List.sum_cons, ha, this, Nat.zero_add]

theorem size_none {V : Type} : PMap.Size (PMap.empty : PMap K V) 0 :=
  ⟨[], ⟨List.nodup_nil, fun k v => ⟨fun h => (by cases h), fun h => (by cases h)⟩⟩, rfl⟩

/-- **C37, exactly.** `Empty` never answers `true` unless the map was empty at some moment during the call, and
`Len` always returns the number of entries the map had at some moment during the call, exactly for the maps in
which all keys are in the same shard. In every other map there is a call of each that is wrong. -/
theorem C37_exact (c : Conf K) :
    ((∀ (t : Tid) (tr0 tr : List (Lab K V)) (s0 s1 s2 : Cfg K V), GoodCall c t .empty (.bool true) tr0 tr s0 s1 s2 →
        ∃ m, During (body c) s1 tr s2 m ∧ absMap c m.sh.items = PMap.empty) ↔ ∀ k k', shardOf c k = shardOf c k') ∧
    ((∀ (t : Tid) (r : Res K V) (tr0 tr : List (Lab K V)) (s0 s1 s2 : Cfg K V), GoodCall c t .len r tr0 tr s0 s1 s2 →
        ∃ n m, r = .nat n ∧ During (body c) s1 tr s2 m ∧ (absMap c m.sh.items).Size n) ↔
      ∀ k k', shardOf c k = shardOf c k') := by
  refine ⟨⟨fun h => ?_, fun h t tr0 tr s0 s1 s2 hg => ?_⟩, ⟨fun h => ?_, fun h t r tr0 tr s0 s1 s2 hg => ?_⟩⟩
  · have bad : ∀ k k', ¬ shardOf c k < shardOf c k' := by
      intro k k' hlt
      obtain ⟨tr0, tr, s0, s1, s2, hg, hm⟩ := walk_bad (V := V) c (op := .empty) (Or.inr trivial) looks_empty rfl hlt
      obtain ⟨m, hd, e⟩ := h 1 tr0 tr s0 s1 s2 hg
      exact hm m hd e
    intro k k'
    have := bad k k'
    have := bad k' k
    omega
  · by_cases hk : Nonempty K
    · obtain ⟨k⟩ := hk
      obtain ⟨m, hm, e⟩ := empty_shards hg k
      exact ⟨m, hm, funext fun k' => e k' (h k' k)⟩
    · exact ⟨s1, .first hg.inside, funext fun k => absurd ⟨k⟩ hk⟩
  · have bad : ∀ k k', ¬ shardOf c k < shardOf c k' := by
      intro k k' hlt
      obtain ⟨tr0, tr, s0, s1, s2, hg, hm⟩ := walk_bad (V := V) c (op := .len) (Or.inr trivial) looks_len rfl hlt
      obtain ⟨n, m, hn, hd, l, hl, e⟩ := h 1 _ tr0 tr s0 s1 s2 hg
      injection hn with hn
      subst hn
      have : l = [] := List.length_eq_zero_iff.1 e
      subst this
      refine hm m hd (funext fun x => ?_)
      cases hx : absMap c m.sh.items x with
      | none => rfl
      | some v => exact absurd ((hl.mem x v).2 hx) (by simp)
    intro k k'
    have := bad k k'
    have := bad k' k
    omega
  · obtain ⟨ns, hn, hr, hs⟩ := len_shards hg
    by_cases hk : Nonempty K
    · obtain ⟨k⟩ := hk
      have hi := shardOf_lt c k
      rw [← hn] at hi
      obtain ⟨n, hni⟩ := getElem?_some_of_lt hi
      obtain ⟨m, hm, e⟩ := hs _ n hni
      refine ⟨n, m, ?_, hm, ?_⟩
      · rw [hr, sum_single ns _ n hni]
        intro j a hj hne
        obtain ⟨m', -, e'⟩ := hs j a hj
        have : (fun k' => if shardOf c k' = j then absMap c m'.sh.items k' else none) = PMap.empty := by
          funext k'
          rw [if_neg]
          · rfl
          · intro e; exact hne (by rw [← e, h k' k])
        rw [this] at e'
        exact Size.unique e' size_none
      · have : (fun k' => if shardOf c k' = shardOf c k then absMap c m.sh.items k' else none) = absMap c m.sh.items := by
          funext k'
          rw [if_pos (h k' k)]
        rw [this] at e
        exact e
    · refine ⟨0, s1, ?_, .first hg.inside, ?_⟩
      · rw [hr, sum_zero]
        intro a ha
        obtain ⟨j, hj⟩ := List.mem_iff_getElem?.1 ha
        obtain ⟨m', -, e'⟩ := hs j a hj
        have : (fun k' => if shardOf c k' = j then absMap c m'.sh.items k' else none) = PMap.empty :=
          funext fun k' => absurd ⟨k'⟩ hk
        rw [this] at e'
        exact Size.unique e' size_none
      · have : absMap c s1.sh.items = PMap.empty := funext fun k' => absurd ⟨k'⟩ hk
        rw [this]
        exact size_none

/-- In the map of two shards some call of `Len` is wrong. -/
example : ¬ ∀ (t : Tid) (r : Res Nat Nat) (tr0 tr : List (Lab Nat Nat)) (s0 s1 s2 : Cfg Nat Nat),
    GoodCall two t .len r tr0 tr s0 s1 s2 →
    ∃ n m, r = .nat n ∧ During (body two) s1 tr s2 m ∧ (absMap two m.sh.items).Size n :=
  fun h => absurd ((C37_exact two).2.1 h 0 1) (by decide)

/-- A map of two shards whose keys are all in shard 1: there none is. -/
example : ∀ (t : Tid) (tr0 tr : List (Lab Nat Nat)) (s0 s1 s2 : Cfg Nat Nat),
    GoodCall { two with hash := fun _ _ => 1 } t .empty (.bool true) tr0 tr s0 s1 s2 →
    ∃ m, During (body { two with hash := fun _ _ => 1 }) s1 tr s2 m ∧
      absMap { two with hash := fun _ _ => 1 } m.sh.items = PMap.empty :=
  (C37_exact _).1.2 fun _ _ => rfl

end Verif.Sharded
