import Verif.Sharded.Lin

/-!
# `GetOrSet…` makes one value
-/

set_option linter.unusedSectionVars false

namespace Verif.Sharded

open Verif.Conc Verif.GoMap

variable {K V : Type} [DecidableEq K] [Inhabited V]

/-- Labels of executions. -/
abbrev Lab (K V : Type) [DecidableEq K] := Label (mach K V) (Op K V) (Res K V)

/-- A call of `GetOrSetFactory` or `GetOrSetDefault` for `k`. -/
def GetsOrSets (k : K) : Op K V → Prop
  | .getOrSetFactory k' => k' = k
  | .getOrSetDefault k' _ => k' = k
  | _ => False

/-- Operations among which only `GetOrSet…` write key `k`. -/
def Keeps (k : K) (op : Op K V) : Prop :=
  Allowed op ∧ op ≠ .delete k ∧ (∀ v, op ≠ .set k v) ∧ ∀ v, op ≠ .trySet k v

/-! ## Sequences of calls on one map -/

theorem legal_keeps {k : K} {μ μ' : PMap K V} {op : Op K V} {r : Res K V} (hk : Keeps k op)
    (h : (mapSpec K V).legal μ op r μ') :
    (∀ w, μ k = some w → μ' k = some w ∧ (GetsOrSets k op → r = .pair w true)) ∧
    (μ k = none → (μ' k = none ∧ (GetsOrSets k op → r = .panic)) ∨
      ∃ v, μ' k = some v ∧ GetsOrSets k op ∧ r = .pair v false) := by
  obtain ⟨h1, h2⟩ := h
  obtain ⟨hall, hd, hs, ht⟩ := hk
  have keep : μ' = μ → ¬ GetsOrSets k op →
      (∀ w, μ k = some w → μ' k = some w ∧ (GetsOrSets k op → r = .pair w true)) ∧
      (μ k = none → (μ' k = none ∧ (GetsOrSets k op → r = .panic)) ∨
        ∃ v, μ' k = some v ∧ GetsOrSets k op ∧ r = .pair v false) := by
    rintro rfl hn
    exact ⟨fun w e => ⟨e, fun c => absurd c hn⟩, fun e => Or.inl ⟨e, fun c => absurd c hn⟩⟩
  have other : ∀ x v, x ≠ k → (μ.set x v) k = μ k := by
    intro x v e
    unfold PMap.set
    rw [if_neg (Ne.symm e)]
  have keep' : μ' k = μ k → ¬ GetsOrSets k op →
      (∀ w, μ k = some w → μ' k = some w ∧ (GetsOrSets k op → r = .pair w true)) ∧
      (μ k = none → (μ' k = none ∧ (GetsOrSets k op → r = .panic)) ∨
        ∃ v, μ' k = some v ∧ GetsOrSets k op ∧ r = .pair v false) := by
    intro e0 hn
    rw [e0]
    exact ⟨fun w e => ⟨e, fun c => absurd c hn⟩, fun e => Or.inl ⟨e, fun c => absurd c hn⟩⟩
  cases op with
  | set x v =>
    have : x ≠ k := by rintro rfl; exact hs v rfl
    obtain ⟨-, e⟩ := h1 trivial
    exact keep' (by rw [e, other x v this]) (by simp [GetsOrSets])
  | trySet x v =>
    have : x ≠ k := by rintro rfl; exact ht v rfl
    have h1 := h1 trivial
    simp only [Legal] at h1
    refine keep' ?_ (by simp [GetsOrSets])
    cases e : μ x with
    | none => rw [e] at h1; rw [h1.2, other x v this]
    | some w => rw [e] at h1; rw [h1.2]
  | get x => exact keep (h1 trivial).1 (by simp [GetsOrSets])
  | tryGet x => exact keep (h1 trivial).1 (by simp [GetsOrSets])
  | has x => exact keep (h1 trivial).1 (by simp [GetsOrSets])
  | delete x =>
    have : x ≠ k := by rintro rfl; exact hd rfl
    obtain ⟨-, e⟩ := h1 trivial
    refine keep' ?_ (by simp [GetsOrSets])
    rw [e]; unfold PMap.erase; rw [if_neg (Ne.symm this)]
  | getOrSetFactory x =>
    have h1 := h1 trivial
    simp only [Legal] at h1
    by_cases hx : x = k
    · subst hx
      constructor
      · intro w e
        rw [e] at h1
        exact ⟨by rw [h1.2, e], fun _ => h1.1⟩
      · intro e
        rw [e] at h1
        rcases h1 with ⟨h1, h1'⟩ | ⟨v, h1, h1'⟩
        · exact Or.inl ⟨by rw [h1', e], fun _ => h1⟩
        · refine Or.inr ⟨v, ?_, rfl, h1⟩
          rw [h1']; unfold PMap.set; rw [if_pos rfl]
    · refine keep' ?_ hx
      cases e : μ x with
      | some w => rw [e] at h1; rw [h1.2]
      | none =>
        rw [e] at h1
        rcases h1 with ⟨-, h1⟩ | ⟨v, -, h1⟩
        · rw [h1]
        · rw [h1, other x v hx]
  | getOrSetDefault x d =>
    have h1 := h1 trivial
    simp only [Legal] at h1
    by_cases hx : x = k
    · subst hx
      constructor
      · intro w e
        rw [e] at h1
        exact ⟨by rw [h1.2, e], fun _ => h1.1⟩
      · intro e
        rw [e] at h1
        refine Or.inr ⟨d, ?_, rfl, h1.1⟩
        rw [h1.2]; unfold PMap.set; rw [if_pos rfl]
    · refine keep' ?_ hx
      cases e : μ x with
      | some w => rw [e] at h1; rw [h1.2]
      | none => rw [e] at h1; rw [h1.2, other x d hx]
  | iterateShards => exact absurd hall (by simp [Allowed, SingleKey, ReadsAll])
  | clear => exact absurd hall (by simp [Allowed, SingleKey, ReadsAll])
  | _ => exact keep (h2 trivial) (by simp [GetsOrSets])

/-- In a sequence of calls: either none has made a value, or one has made `v`, those before it panicked, and
those after it return `v` as found. -/
theorem run_once {k : K} {l : List (Nat × Op K V × Res K V)} {μ : PMap K V}
    (h : (mapSpec K V).Run PMap.empty (l.map Prod.snd) μ) (hk : ∀ x ∈ l, Keeps k x.2.1) :
    (μ k = none ∧ ∀ x ∈ l, GetsOrSets k x.2.1 → x.2.2 = .panic) ∨
    ∃ v l1 x l2, μ k = some v ∧ l = l1 ++ x :: l2 ∧ GetsOrSets k x.2.1 ∧ x.2.2 = .pair v false ∧
      (∀ y ∈ l1, GetsOrSets k y.2.1 → y.2.2 = .panic) ∧ ∀ y ∈ l2, GetsOrSets k y.2.1 → y.2.2 = .pair v true := by
  generalize hl : l.map Prod.snd = l' at h
  have h0 : ∃ (μ0 μ' : (mapSpec K V).St), μ0 = PMap.empty ∧ μ = μ' ∧ (mapSpec K V).Run μ0 l' μ' := ⟨_, _, rfl, rfl, h⟩
  clear h
  obtain ⟨μ0, μ', hμ, hμ', h⟩ := h0
  induction h generalizing l μ with
  | nil =>
    left
    have : l = [] := List.map_eq_nil_iff.1 hl
    subst this
    exact ⟨by rw [hμ', hμ]; rfl, fun x hx => by cases hx⟩
  | @snoc μ1 μ2 l' op r h hleg ih =>
    subst hμ'
    obtain ⟨lp, ll, rfl, e1, e2⟩ := List.map_eq_append_iff.1 hl
    obtain ⟨y, rfl⟩ : ∃ y, ll = [y] := by
      cases ll with
      | nil => simp at e2
      | cons y ys =>
        simp at e2
        exact ⟨y, by rw [e2.2]⟩
    have ey : y.2 = (op, r) := by simpa using e2
    have hy := hk y (by simp)
    rw [ey] at hy
    obtain ⟨g1, g2⟩ := legal_keeps hy hleg
    rcases ih (fun x hx => hk x (by simp [hx])) e1 rfl with ⟨i1, i2⟩ | ⟨v, l1, x, l2, i1, i2, i3, i4, i5, i6⟩
    · rcases g2 i1 with ⟨g3, g4⟩ | ⟨v, g3, g4, g5⟩
      · left
        refine ⟨g3, fun x hx hg => ?_⟩
        rcases List.mem_append.1 hx with hx | hx
        · exact i2 x hx hg
        · simp at hx; subst hx
          rw [ey] at hg ⊢
          exact g4 hg
      · right
        refine ⟨v, lp, y, [], g3, rfl, by rw [ey]; exact g4, by rw [ey]; exact g5, i2, fun z hz => by cases hz⟩
    · right
      obtain ⟨g3, g4⟩ := g1 v i1
      refine ⟨v, l1, x, l2 ++ [y], g3, by rw [i2]; simp, i3, i4, i5, ?_⟩
      intro z hz hg
      rcases List.mem_append.1 hz with hz | hz
      · exact i6 z hz hg
      · simp at hz; subst hz
        rw [ey] at hg ⊢
        exact g4 hg

theorem call_of_history {tr : List (Lab K V)} {t : Tid} {op : Op K V} {i : Nat}
    (h : (history tr)[i]? = some (.inv t op)) : .call t op ∈ tr := by
  have hm : Event.inv t op ∈ history tr := List.mem_of_getElem? h
  clear h
  induction tr with
  | nil => cases hm
  | cons l tr ih =>
    cases l with
    | call u op' =>
      rcases List.mem_cons.1 hm with e | e
      · injection e with e1 e2; subst e1 e2; simp
      · exact List.mem_cons_of_mem _ (ih e)
    | act u a ans => exact List.mem_cons_of_mem _ (ih hm)
    | ret u op' r =>
      rcases List.mem_cons.1 hm with e | e
      · cases e
      · exact List.mem_cons_of_mem _ (ih e)

/-! ## Factories -/

/-- Goroutine `t` has in its current call run the factory for `k`, which returned `v`. -/
def Ran (k : K) (tr : List (Lab K V)) (t : Tid) (v : V) : Prop :=
  ∃ l1 l2, tr = l1 ++ .act t (.factory k) (some v) :: l2 ∧ ∀ op r, .ret t op r ∉ l2

/-- Without having run the factory the program does not return `found = false` for a value. -/
def NoNew : P K V (Res K V) → Prop
  | .ret r => ∀ v, r ≠ .pair v false
  | .act (.factory _) k => NoNew (k none)
  | .act _ k => ∀ ans, NoNew (k ans)

theorem noNew_getOrSetFactory (c : Conf K) (k : K) : NoNew (getOrSetFactory (V := V) c k) := by
  have key : ∀ m : Option V, NoNew (match m with
    | some v => (pure (.pair v true) : P K V (Res K V))
    | none => do
      lock (shardOf c k)
      let items ← read (shardOf c k)
      match items.get? k with
      | some v => do
        step_ (.unlock (shardOf c k))
        return .pair v true
      | none => do
        let w ← callFactory k
        match w with
        | none => do
          step_ (.unlock (shardOf c k))
          return .panic
        | some v => do
          step_ (.write (shardOf c k) (·.put k v))
          step_ (.unlock (shardOf c k))
          return .pair v false) := by
    intro m
    cases m with
    | some v => intro w e; injection e with _ e; cases e
    | none =>
      intro _ _ items
      have : ∀ o : Option V, NoNew (match o with
        | some v => ((do
          step_ (.unlock (shardOf c k))
          return .pair v true) : P K V (Res K V))
        | none => do
          let w ← callFactory k
          match w with
          | none => do
            step_ (.unlock (shardOf c k))
            return .panic
          | some v => do
            step_ (.write (shardOf c k) (·.put k v))
            step_ (.unlock (shardOf c k))
            return .pair v false) := by
        intro o
        cases o with
        | some v => intro _ w e; injection e with _ e; cases e
        | none => intro _ w e; cases e
      exact this _
  intro _ items _
  exact key _

/-- Goroutine states in a call of `GetOrSetFactory` for `k` in which the factory has returned `v`. -/
def Storing (c : Conf K) (k : K) (v : V) (x : Thread (mach K V) (Op K V) (Res K V)) : Prop :=
  x = .run (.getOrSetFactory k) (storing c k v) ∨
  x = .run (.getOrSetFactory k) (.act (.unlock (shardOf c k)) fun _ => .ret (.pair v false)) ∨
  x = .run (.getOrSetFactory k) (.ret (.pair v false))

theorem ran_snoc {k : K} {tr : List (Lab K V)} {l : Lab K V} {t : Tid} {v : V} (h : Ran k (tr ++ [l]) t v) :
    l = .act t (.factory k) (some v) ∨ Ran k tr t v ∧ ∀ op r, l ≠ .ret t op r := by
  obtain ⟨l1, l2, e, hn⟩ := h
  rcases List.eq_nil_or_concat l2 with h2 | ⟨l2', y, h2⟩
  · subst h2
    left
    have := List.append_inj_right' e rfl
    injection this
  · rw [List.concat_eq_append] at h2
    subst h2
    right
    have e' : tr ++ [l] = (l1 ++ (Label.act t (.factory k) (some v) : Lab K V) :: l2') ++ [y] := by rw [e]; simp
    have h3 := List.append_inj_right' e' rfl
    have h4 := List.append_inj_left' e' rfl
    injection h3 with h3
    refine ⟨⟨l1, l2', h4, fun op r hm => hn op r (by simp [hm])⟩, fun op r hl => hn op r (by simp [← h3, hl])⟩

theorem ran_mono {k : K} {tr : List (Lab K V)} {l : Lab K V} {t : Tid} {v : V} (h : Ran k tr t v)
    (hl : ∀ op r, l ≠ .ret t op r) : Ran k (tr ++ [l]) t v := by
  obtain ⟨l1, l2, e, hn⟩ := h
  refine ⟨l1, l2 ++ [l], by rw [e]; simp, fun op r hm => ?_⟩
  rcases List.mem_append.1 hm with hm | hm
  · exact hn op r hm
  · simp at hm; exact hl op r hm.symm

/-- The goroutines are where the trace says: one that has run the factory is storing the value. -/
theorem storing_of_exec {c : Conf K} {k : K} {tr : List (Lab K V)} {s : Cfg K V}
    (he : Exec (body c) (Config.init fresh) tr s) (hP : Calls (fun _ op => Allowed op) tr) :
    (∀ t v, Ran k tr t v → Storing c k v (s.th t)) ∧
    (∀ t p, s.th t = .run (.getOrSetFactory k) p → NoNew p ∨ ∃ v, Ran k tr t v) := by
  induction he with
  | nil =>
    constructor
    · rintro t v ⟨l1, l2, e, -⟩
      have := congrArg List.length e
      simp at this
    · intro t p h; cases h
  | @snoc tr s s' l he hs ih =>
    obtain ⟨hP1, hP2⟩ := hP.of_snoc
    obtain ⟨ih1, ih2⟩ := ih hP1
    cases hs with
    | call u op hi =>
      constructor
      · intro t v hr
        rcases ran_snoc hr with e | ⟨e, -⟩
        · cases e
        · have := ih1 t v e
          by_cases h : t = u
          · subst h; rw [hi] at this
            rcases this with h | h | h <;> cases h
          · simp only [upd_other _ _ h]; exact this
      · intro t p h
        by_cases e : t = u
        · subst e
          simp only [upd_same] at h
          injection h with h1 h2
          subst h1 h2
          exact Or.inl (noNew_getOrSetFactory c k)
        · simp only [upd_other _ _ e] at h
          rcases ih2 t p h with h | ⟨v, h⟩
          · exact Or.inl h
          · exact Or.inr ⟨v, ran_mono h (fun _ _ e => by cases e)⟩
    | ret u op r hr =>
      constructor
      · intro t v h
        rcases ran_snoc h with e | ⟨e, e'⟩
        · cases e
        · by_cases h : t = u
          · subst h; exact absurd rfl (e' op r)
          · simp only [upd_other _ _ h]; exact ih1 t v e
      · intro t p h
        by_cases e : t = u
        · subst e; simp only [upd_same] at h; cases h
        · simp only [upd_other _ _ e] at h
          rcases ih2 t p h with h | ⟨v, h⟩
          · exact Or.inl h
          · refine Or.inr ⟨v, ran_mono h (fun _ _ e' => ?_)⟩
            injection e' with e'; exact e e'.symm
    | act u op a kk ans sh' hr hst =>
      constructor
      · intro t v h
        rcases ran_snoc h with e | ⟨e, -⟩
        · injection e with e1 e2 e3
          subst e1 e2
          have e3 := eq_of_heq e3
          subst e3
          obtain ⟨_, held, know, hrel⟩ := rel_of_exec he hP1
          have ht := hrel.th u
          rw [hr] at ht
          obtain ⟨-, s0, -, -, -, g1, g2, -⟩ := ht
          subst g1
          simp only [upd_same]
          exact Or.inl (by rw [← g2])
        · have := ih1 t v e
          by_cases h : t = u
          · subst h
            simp only [upd_same]
            rcases this with h | h | h
            · rw [hr] at h
              injection h with h1 h2
              unfold storing at h2
              injection h2 with h2 h3
              subst h1 h2
              have h3 := eq_of_heq h3
              subst h3
              exact Or.inr (Or.inl rfl)
            · rw [hr] at h
              injection h with h1 h2
              injection h2 with h2 h3
              subst h1 h2
              have h3 := eq_of_heq h3
              subst h3
              exact Or.inr (Or.inr rfl)
            · rw [hr] at h
              injection h with h1 h2
              cases h2
          · simp only [upd_other _ _ h]; exact this
      · intro t p h
        by_cases e : t = u
        · subst e
          simp only [upd_same] at h
          injection h with h1 h2
          subst h1
          rcases ih2 t _ hr with hn | ⟨v, hv⟩
          · cases a with
            | factory x =>
              have hk : x = k := by
                obtain ⟨_, held, know, hrel⟩ := rel_of_exec he hP1
                have ht := hrel.th t
                rw [hr] at ht
                obtain ⟨-, s0, -, -, -, g1, -⟩ := ht
                injection g1 with g1
                exact g1.symm
              subst hk
              have hkk : ∀ (o : Option V), kk o = p → NoNew p ∨ ∃ v, Ran x (tr ++ [.act t (.factory x) o]) t v := by
                intro o ho
                cases o with
                | none => rw [← ho]; exact Or.inl hn
                | some v => exact Or.inr ⟨v, tr, [], rfl, fun _ _ h => by cases h⟩
              exact hkk ans h2
            | lockBegin i => exact Or.inl (h2 ▸ hn ans)
            | lockWait i => exact Or.inl (h2 ▸ hn ans)
            | unlock i => exact Or.inl (h2 ▸ hn ans)
            | rlock i => exact Or.inl (h2 ▸ hn ans)
            | runlock i => exact Or.inl (h2 ▸ hn ans)
            | read i => exact Or.inl (h2 ▸ hn ans)
            | write i f => exact Or.inl (h2 ▸ hn ans)
            | callback => exact Or.inl (h2 ▸ hn ans)
            | edit => exact Or.inl (h2 ▸ hn ans)
            | order => exact Or.inl (h2 ▸ hn ans)
          · exact Or.inr ⟨v, ran_mono hv (fun _ _ e => by cases e)⟩
        · simp only [upd_other _ _ e] at h
          rcases ih2 t p h with h | ⟨v, h⟩
          · exact Or.inl h
          · exact Or.inr ⟨v, ran_mono h (fun _ _ e => by cases e)⟩

/-- A label of a factory run for `k` that returned a value. -/
def Made (k : K) (l : Lab K V) : Prop := ∃ t v, l = .act t (.factory k) (some v)

theorem keeps_of_exec {c : Conf K} {k : K} {tr : List (Lab K V)} {s : Cfg K V}
    (he : Exec (body c) (Config.init fresh) tr s) (hP : Calls (fun _ op => Keeps k op) tr) :
    ∀ t op p, s.th t = .run op p → Keeps k op := by
  refine Exec.invariant (fun s : Cfg K V => ∀ t op p, s.th t = .run op p → Keeps k op) ?_ ?_ ?_ ?_ he hP
  · intro t op p h; cases h
  · intro s t op hI hop hi u op' p h
    by_cases e : u = t
    · subst e; simp only [upd_same] at h; injection h with h1 h2; exact h1 ▸ hop
    · simp only [upd_other _ _ e] at h; exact hI u op' p h
  · intro s t op a kk ans sh' hI hr hs u op' p h
    by_cases e : u = t
    · subst e; simp only [upd_same] at h; injection h with h1 h2; exact h1 ▸ hI u op _ hr
    · simp only [upd_other _ _ e] at h; exact hI u op' p h
  · intro s t op r hI hr u op' p h
    by_cases e : u = t
    · subst e; simp only [upd_same] at h; cases h
    · simp only [upd_other _ _ e] at h; exact hI u op' p h

/-- At most one factory run for `k` returns a value; after it, `k` is present or about to be. -/
theorem made_once {c : Conf K} {k : K} {tr : List (Lab K V)} {s : Cfg K V}
    (he : Exec (body c) (Config.init fresh) tr s) (hP : Calls (fun _ op => Keeps k op) tr) :
    tr.Pairwise (fun a b => ¬ (Made k a ∧ Made k b)) ∧
    ∀ l ∈ tr, Made k l → absMap c s.sh.items k ≠ none ∨
      ∃ t op v, s.th t = .run op (storing c k v) := by
  induction he with
  | nil => exact ⟨List.Pairwise.nil, fun l h => by cases h⟩
  | @snoc tr s s' l he hs ih =>
    obtain ⟨hP1, hP2⟩ := hP.of_snoc
    obtain ⟨ih1, ih2⟩ := ih hP1
    have hA : Calls (fun _ op => Allowed op) tr := fun t op h => (hP1 t op h).1
    obtain ⟨a, held, know, hrel⟩ := rel_of_exec he hA
    have snoc : (Made k l → ∀ l' ∈ tr, ¬ Made k l') →
        (tr ++ [l]).Pairwise (fun a b => ¬ (Made k a ∧ Made k b)) := by
      intro h
      rw [List.pairwise_append]
      refine ⟨ih1, List.pairwise_singleton _ _, ?_⟩
      intro x hx y hy
      simp at hy
      subst hy
      rintro ⟨h1, h2⟩
      exact h h2 x hx h1
    cases hs with
    | call u op hi =>
      refine ⟨snoc (by rintro ⟨_, _, e⟩; cases e), ?_⟩
      intro l hl hm
      rcases List.mem_append.1 hl with hl | hl
      · rcases ih2 l hl hm with h | ⟨t, op', v, h⟩
        · exact Or.inl h
        · have : t ≠ u := by rintro rfl; rw [hi] at h; cases h
          exact Or.inr ⟨t, op', v, by simp only [upd_other _ _ this]; exact h⟩
      · simp at hl; subst hl; obtain ⟨_, _, e⟩ := hm; cases e
    | ret u op r hr =>
      refine ⟨snoc (by rintro ⟨_, _, e⟩; cases e), ?_⟩
      intro l hl hm
      rcases List.mem_append.1 hl with hl | hl
      · rcases ih2 l hl hm with h | ⟨t, op', v, h⟩
        · exact Or.inl h
        · have : t ≠ u := by rintro rfl; rw [hr] at h; injection h with _ h; cases h
          exact Or.inr ⟨t, op', v, by simp only [upd_other _ _ this]; exact h⟩
      · simp at hl; subst hl; obtain ⟨_, _, e⟩ := hm; cases e
    | act u op x kk ans sh' hr hst =>
      have ht := hrel.th u
      rw [hr] at ht
      obtain ⟨hop, s0, hs0, hg⟩ := ht
      have hkeep := keeps_of_exec he hP1 u op _ hr
      -- present keys stay
      have stay : absMap c s.sh.items k ≠ none → absMap c sh'.items k ≠ none := by
        intro hne
        cases hst with
        | write _ i f =>
          obtain ⟨e1, e2, s', e3, -⟩ := hg
          rw [hrel.kn u i e1] at e3
          obtain ⟨-, r, -, e7⟩ := e3
          have hl := e7 (absMap c s.sh.items) (absMap c (set1 s.sh.items i (f (s.sh.items i)))) (knows_abs c _ i)
            (by
              have := knows_abs c (set1 s.sh.items i (f (s.sh.items i))) i
              rw [set1_same] at this
              exact this)
            (by intro y hy; unfold absMap; rw [set1_other _ _ hy])
          cases hw : absMap c s.sh.items k with
          | none => exact absurd hw hne
          | some w =>
            show absMap c (set1 s.sh.items i (f (s.sh.items i))) k ≠ none
            rw [((legal_keeps hkeep hl).1 w hw).1]
            intro e; cases e
        | _ => exact hne
      -- a factory runs only if nobody made a value
      have fresh_ : Made k (.act u x ans : Lab K V) → ∀ l' ∈ tr, ¬ Made k l' := by
        rintro ⟨t, v, e⟩ l' hl' hm
        injection e with e1 e2 e3
        subst e1 e2
        obtain ⟨g1, g2, -⟩ := hg
        have g3 := hrel.kn u _ g1
        rcases ih2 l' hl' hm with h | ⟨t, op', v', h⟩
        · apply h
          unfold absMap
          rw [← g3]
          exact g2
        · have ht' := hrel.th t
          rw [h] at ht'
          obtain ⟨-, s1, -, g4, -⟩ := ht'
          have := hrel.L.unique (Or.inr g4) (Or.inr g1)
          subst this
          rw [hr] at h
          injection h with _ h
          unfold storing at h
          injection h with h
          cases h
      refine ⟨snoc fresh_, ?_⟩
      intro l hl hm
      rcases List.mem_append.1 hl with hl | hl
      · rcases ih2 l hl hm with h | ⟨t, op', v, h⟩
        · exact Or.inl (stay h)
        · by_cases e : t = u
          · subst e
            left
            rw [hr] at h
            injection h with h1 h2
            unfold storing at h2
            injection h2 with h2 h3
            subst h2
            cases hst with
            | write _ _ _ =>
              show absMap c (set1 s.sh.items (shardOf c k) _) k ≠ none
              rw [abs_put hrel.pl]
              unfold PMap.set
              rw [if_pos rfl]
              intro e; cases e
          · exact Or.inr ⟨t, op', v, by simp only [upd_other _ _ e]; exact h⟩
      · simp at hl
        subst hl
        obtain ⟨t, v, e⟩ := hm
        injection e with e1 e2 e3
        subst e1 e2
        have e3 := eq_of_heq e3
        subst e3
        obtain ⟨g1, g2, g3, g4, -⟩ := hg
        refine Or.inr ⟨u, op, v, ?_⟩
        simp only [upd_same]
        rw [← g4]

end Verif.Sharded
