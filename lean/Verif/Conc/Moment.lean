import Verif.Conc.Lin

/-!
# Calls, moments of calls, runs alone, and schedules
-/

namespace Verif.Conc

variable {M : Machine} {Op R : Type}

/-! ## Runs alone -/

/-- Run alone by goroutine `t` from `σ`, the program may return `r` and leave `σ'`. -/
inductive Big (M : Machine) (t : Tid) {R : Type} : Prog M.A M.Ans R → M.Sh → R → M.Sh → Prop where
  | ret (r : R) (σ : M.Sh) : Big M t (.ret r) σ r σ
  | act {a : M.A} {k : M.Ans a → Prog M.A M.Ans R} {σ σ' σ'' : M.Sh} {ans : M.Ans a} {r : R} :
      M.step t a σ ans σ' → Big M t (k ans) σ' r σ'' → Big M t (.act a k) σ r σ''

theorem Always.post {t : Tid} {post : R → M.Sh → Prop} {p : Prog M.A M.Ans R} {σ σ' : M.Sh} {r : R}
    (hb : Big M t p σ r σ') (h : Always M t post p σ) : post r σ' := by
  induction hb with
  | ret r σ => exact h
  | act hs _ ih => exact ih (h.2 _ _ hs)

theorem Always.ends {t : Tid} {post : R → M.Sh → Prop} : ∀ {p : Prog M.A M.Ans R} {σ : M.Sh},
    Always M t post p σ → ∃ r σ', Big M t p σ r σ'
  | .ret r, σ, _ => ⟨r, σ, .ret r σ⟩
  | .act _ _, _, h => by
    obtain ⟨ans, σ', hs⟩ := h.1
    obtain ⟨r, σ'', hb⟩ := Always.ends (h.2 ans σ' hs)
    exact ⟨r, σ'', .act hs hb⟩

/-! ## Parts of executions -/

theorem Exec.trans {body : Op → Prog M.A M.Ans R} {c0 c1 c2 : Config M Op R} {a b : List (Label M Op R)}
    (h1 : Exec body c0 a c1) (h2 : Exec body c1 b c2) : Exec body c0 (a ++ b) c2 := by
  induction h2 with
  | nil => rw [List.append_nil]; exact h1
  | snoc _ hs ih => rw [← List.append_assoc]; exact .snoc ih hs

theorem Exec.split {body : Op → Prog M.A M.Ans R} {c0 c2 : Config M Op R} (a b : List (Label M Op R))
    (h : Exec body c0 (a ++ b) c2) : ∃ c1, Exec body c0 a c1 ∧ Exec body c1 b c2 := by
  generalize hl : a ++ b = l at h
  induction h generalizing b with
  | nil =>
    rw [List.append_eq_nil_iff] at hl
    obtain ⟨rfl, rfl⟩ := hl
    exact ⟨_, .nil, .nil⟩
  | @snoc tr c c' l he hs ih =>
    rcases List.eq_nil_or_concat b with h | ⟨b', y, h⟩
    · subst h
      rw [List.append_nil] at hl
      subst hl
      exact ⟨_, .snoc he hs, .nil⟩
    · rw [List.concat_eq_append] at h
      subst h
      rw [← List.append_assoc] at hl
      have h3 := List.append_inj_right' hl rfl
      have h4 := List.append_inj_left' hl rfl
      injection h3 with h3
      subst h3
      obtain ⟨c1, g1, g2⟩ := ih b' h4
      exact ⟨c1, g1, .snoc g2 hs⟩

theorem Exec.single {body : Op → Prog M.A M.Ans R} {c c' : Config M Op R} {l : Label M Op R}
    (h : Exec body c [l] c') : Step body c l c' := by
  generalize hl : [l] = tr at h
  cases h with
  | nil => cases hl
  | @snoc tr c c' l' he hs =>
    have h3 := List.append_inj_right' (s₁ := []) hl rfl
    have h4 := List.append_inj_left' (s₁ := []) hl rfl
    injection h3 with h3
    subst h3 h4
    generalize hn : ([] : List (Label M Op R)) = tr at he
    cases he with
    | nil => exact hs
    | snoc _ _ => simp at hn

/-- `m` is a moment of the part of an execution that goes from `s1` to `s2`. -/
def During (body : Op → Prog M.A M.Ans R) (s1 : Config M Op R) (tr : List (Label M Op R)) (s2 m : Config M Op R) :
    Prop := ∃ a b, tr = a ++ b ∧ Exec body s1 a m ∧ Exec body m b s2

theorem During.first {body : Op → Prog M.A M.Ans R} {s1 s2 : Config M Op R} {tr : List (Label M Op R)}
    (h : Exec body s1 tr s2) : During body s1 tr s2 s1 := ⟨[], tr, rfl, .nil, h⟩

theorem During.last {body : Op → Prog M.A M.Ans R} {s1 s2 : Config M Op R} {tr : List (Label M Op R)}
    (h : Exec body s1 tr s2) : During body s1 tr s2 s2 := ⟨tr, [], by simp, h, .nil⟩

theorem During.snoc {body : Op → Prog M.A M.Ans R} {s1 s2 s3 m : Config M Op R} {tr : List (Label M Op R)}
    {l : Label M Op R} (h : During body s1 tr s2 m) (hs : Step body s2 l s3) : During body s1 (tr ++ [l]) s3 m := by
  obtain ⟨a, b, rfl, h1, h2⟩ := h
  exact ⟨a, b ++ [l], by simp, h1, .snoc h2 hs⟩

/-- What grows from step to step grows. -/
theorem During.grows {body : Op → Prog M.A M.Ans R} {s1 s2 : Config M Op R} {tr : List (Label M Op R)}
    {f : Config M Op R → Nat}
    (h : ∀ m l m', During body s1 tr s2 m → During body s1 tr s2 m' → Step body m l m' → f m ≤ f m') :
    ∀ m, During body s1 tr s2 m → f s1 ≤ f m ∧ f m ≤ f s2 := by
  have up : ∀ {tr' : List (Label M Op R)} {m : Config M Op R}, Exec body s1 tr' m →
      ∀ {b : List (Label M Op R)}, tr = tr' ++ b → Exec body m b s2 → f s1 ≤ f m := by
    intro tr' m h1
    induction h1 with
    | nil => intros; exact Nat.le_refl _
    | @snoc tr' c c' l h1 hs ih =>
      intro b e hb
      have hb' : Exec body c (l :: b) s2 := Exec.trans (.snoc .nil hs) hb
      refine Nat.le_trans (ih (b := l :: b) (by rw [e]; simp) hb') (h c l c' ?_ ?_ hs)
      · exact ⟨tr', l :: b, by rw [e]; simp, h1, hb'⟩
      · exact ⟨tr' ++ [l], b, e, .snoc h1 hs, hb⟩
  have down : ∀ {b : List (Label M Op R)} {m m' : Config M Op R}, Exec body m b m' →
      ∀ {a d : List (Label M Op R)}, tr = a ++ b ++ d → Exec body s1 a m → Exec body m' d s2 → f m ≤ f m' := by
    intro b m m' h1
    induction h1 with
    | nil => intros; exact Nat.le_refl _
    | @snoc tr' c c' l h1 hs ih =>
      intro a d e ha hd
      have hb' : Exec body c (l :: d) s2 := Exec.trans (.snoc .nil hs) hd
      refine Nat.le_trans (ih (a := a) (d := l :: d) (by rw [e]; simp) ha hb') (h c l c' ?_ ?_ hs)
      · exact ⟨a ++ tr', l :: d, by rw [e]; simp, ha.trans h1, hb'⟩
      · exact ⟨a ++ (tr' ++ [l]), d, e, ha.trans (.snoc h1 hs), hd⟩
  rintro m ⟨a, b, e, h1, h2⟩
  exact ⟨up h1 e h2, down h2 (d := []) (by rw [e]; simp) h1 .nil⟩

/-- What grows by at most one in each step takes all values in between. -/
theorem Exec.between {body : Op → Prog M.A M.Ans R} {s1 s2 : Config M Op R} {tr : List (Label M Op R)}
    (he : Exec body s1 tr s2) {f : Config M Op R → Nat}
    (h : ∀ m l m', During body s1 tr s2 m → During body s1 tr s2 m' → Step body m l m' → f m' ≤ f m + 1) {n : Nat}
    (h1 : f s1 ≤ n) (h2 : n ≤ f s2) : ∃ m, During body s1 tr s2 m ∧ f m = n := by
  have key : ∀ {b : List (Label M Op R)} {m : Config M Op R}, Exec body s1 b m → ∀ {d}, tr = b ++ d → Exec body m d s2 →
      n ≤ f m → ∃ m, During body s1 tr s2 m ∧ f m = n := by
    intro b m hb
    induction hb with
    | nil =>
      intro d e hd hn
      exact ⟨s1, ⟨[], d, e, .nil, hd⟩, by omega⟩
    | @snoc tr' c c' l hb hs ih =>
      intro d e hd hn
      have hd' : Exec body c (l :: d) s2 := Exec.trans (.snoc .nil hs) hd
      have m1 : During body s1 tr s2 c := ⟨tr', l :: d, by rw [e]; simp, hb, hd'⟩
      have m2 : During body s1 tr s2 c' := ⟨tr' ++ [l], d, e, .snoc hb hs, hd⟩
      by_cases c1 : n ≤ f c
      · exact ih (d := l :: d) (by rw [e]; simp) hd' c1
      · have := h c l c' m1 m2 hs
        exact ⟨c', m2, by omega⟩
  exact key he (d := []) (by simp) .nil h2

/-- What shrinks by at most one in each step takes all values in between. -/
theorem Exec.between' {body : Op → Prog M.A M.Ans R} {s1 s2 : Config M Op R} {tr : List (Label M Op R)}
    (he : Exec body s1 tr s2) {f : Config M Op R → Nat}
    (h : ∀ m l m', During body s1 tr s2 m → During body s1 tr s2 m' → Step body m l m' → f m ≤ f m' + 1) {n : Nat}
    (h1 : n ≤ f s1) (h2 : f s2 ≤ n) : ∃ m, During body s1 tr s2 m ∧ f m = n := by
  have key : ∀ {b : List (Label M Op R)} {m : Config M Op R}, Exec body s1 b m → ∀ {d}, tr = b ++ d → Exec body m d s2 →
      f m ≤ n → ∃ m, During body s1 tr s2 m ∧ f m = n := by
    intro b m hb
    induction hb with
    | nil =>
      intro d e hd hn
      exact ⟨s1, ⟨[], d, e, .nil, hd⟩, by omega⟩
    | @snoc tr' c c' l hb hs ih =>
      intro d e hd hn
      have hd' : Exec body c (l :: d) s2 := Exec.trans (.snoc .nil hs) hd
      have m1 : During body s1 tr s2 c := ⟨tr', l :: d, by rw [e]; simp, hb, hd'⟩
      have m2 : During body s1 tr s2 c' := ⟨tr' ++ [l], d, e, .snoc hb hs, hd⟩
      by_cases c1 : f c ≤ n
      · exact ih (d := l :: d) (by rw [e]; simp) hd' c1
      · have := h c l c' m1 m2 hs
        exact ⟨c', m2, by omega⟩
  exact key he (d := []) (by simp) .nil h2

/-- A complete call of `op` by goroutine `t` in an execution from `c0`: invoked in state `s0`, being in state
`s1` just after and in state `s2` just before it returns `r`; `tr` is what happens in between. -/
structure FullCall (body : Op → Prog M.A M.Ans R) (c0 : Config M Op R) (t : Tid) (op : Op) (r : R)
    (tr0 tr : List (Label M Op R)) (s0 s1 s2 : Config M Op R) : Prop where
  before : Exec body c0 tr0 s0
  call : Step body s0 (.call t op) s1
  inside : Exec body s1 tr s2
  none : ∀ op r, .ret t op r ∉ tr
  ret : s2.th t = .run op (.ret r)

/-! ## Calls return or are going on -/

theorem Exec.returned {body : Op → Prog M.A M.Ans R} {sh : M.Sh} {tr : List (Label M Op R)} {c : Config M Op R}
    (he : Exec body (Config.init sh) tr c) : ∀ (i : Nat) (t : Tid) (op : Op), (history tr)[i]? = some (.inv t op) →
    ((∃ p, c.th t = .run op p) ∧ ∀ (k : Nat) (e : Event Op R), i < k → (history tr)[k]? = some e → e.tid ≠ t) ∨
    ∃ j r, Returns (history tr) i j op r := by
  induction he with
  | nil => intro i t op h; cases h
  | @snoc tr c c' l he hs ih =>
    intro i t op hi
    rw [history_append] at hi ⊢
    have lift : ∀ (e : Event Op R) i j op r, Returns (history tr) i j op r → Returns (history tr ++ [e]) i j op r := by
      rintro e i j op r ⟨u, h1, h2, h3, h4⟩
      have b1 := (List.getElem?_eq_some_iff.1 h1).1
      have b2 := (List.getElem?_eq_some_iff.1 h2).1
      refine ⟨u, by rw [List.getElem?_append_left b1]; exact h1, by rw [List.getElem?_append_left b2]; exact h2, h3, ?_⟩
      intro k e' hk1 hk2 he'
      rw [List.getElem?_append_left (by omega)] at he'
      exact h4 k e' hk1 hk2 he'
    cases hs with
    | call u op' hidle =>
      simp only [history] at hi ⊢
      rcases getElem?_snoc hi with hi' | ⟨rfl, hi'⟩
      · rcases ih i t op hi' with ⟨⟨p, hp⟩, h2⟩ | ⟨j, r, h⟩
        · have hne : t ≠ u := by rintro rfl; rw [hidle] at hp; cases hp
          refine Or.inl ⟨⟨p, by simp only [upd_other _ _ hne]; exact hp⟩, ?_⟩
          intro k e hk he'
          rcases getElem?_snoc he' with he' | ⟨_, he'⟩
          · exact h2 k e hk he'
          · subst he'; exact Ne.symm hne
        · exact Or.inr ⟨j, r, lift _ _ _ _ _ h⟩
      · injection hi' with e1 e2
        subst e1 e2
        refine Or.inl ⟨⟨body op', by simp only [upd_same]⟩, ?_⟩
        intro k e hk he'
        have := (List.getElem?_eq_some_iff.1 he').1
        simp at this
        omega
    | act u op' a k ans sh' hr hst =>
      simp only [history, List.append_nil] at hi ⊢
      rcases ih i t op hi with ⟨⟨p, hp⟩, h2⟩ | h
      · refine Or.inl ⟨?_, h2⟩
        by_cases e : t = u
        · subst e
          rw [hr] at hp
          injection hp with h1 _
          subst h1
          exact ⟨k ans, by simp only [upd_same]⟩
        · exact ⟨p, by simp only [upd_other _ _ e]; exact hp⟩
      · exact Or.inr h
    | ret u op' r hr =>
      simp only [history] at hi ⊢
      rcases getElem?_snoc hi with hi' | ⟨_, hi'⟩
      · have hlt := (List.getElem?_eq_some_iff.1 hi').1
        rcases ih i t op hi' with ⟨⟨p, hp⟩, h2⟩ | ⟨j, r, h⟩
        · by_cases e : t = u
          · subst e
            rw [hr] at hp
            injection hp with h1 _
            subst h1
            refine Or.inr ⟨(history tr).length, r, t, ?_, by simp, hlt, ?_⟩
            · rw [List.getElem?_append_left hlt]; exact hi'
            · intro k e hk1 hk2 he'
              rw [List.getElem?_append_left hk2] at he'
              exact h2 k e hk1 he'
          · refine Or.inl ⟨⟨p, by simp only [upd_other _ _ e]; exact hp⟩, ?_⟩
            intro k e' hk he'
            rcases getElem?_snoc he' with he' | ⟨_, he'⟩
            · exact h2 k e' hk he'
            · subst he'; exact Ne.symm e
        · exact Or.inr ⟨j, r, lift _ _ _ _ _ h⟩
      · cases hi'

/-! ## Schedules, to exhibit executions -/

/-- What the scheduler tells a goroutine to do. -/
inductive Go (Op : Type) where
  | call (t : Tid) (op : Op)
  | act (t : Tid)
  | ret (t : Tid)

/-- Follow one instruction; `try_ t a σ` is some possible outcome of an action. -/
def follow (body : Op → Prog M.A M.Ans R) (try_ : Tid → (a : M.A) → M.Sh → Option (M.Ans a × M.Sh))
    (c : Config M Op R) : Go Op → Option (Label M Op R × Config M Op R)
  | .call t op => match c.th t with
    | .idle => some (.call t op, ⟨c.sh, upd c.th t (.run op (body op))⟩)
    | .run _ _ => none
  | .act t => match c.th t with
    | .run op (.act a k) => match try_ t a c.sh with
      | some (ans, sh') => some (.act t a ans, ⟨sh', upd c.th t (.run op (k ans))⟩)
      | none => none
    | _ => none
  | .ret t => match c.th t with
    | .run op (.ret r) => some (.ret t op r, ⟨c.sh, upd c.th t .idle⟩)
    | _ => none

/-- Follow instructions; what happened, and the states on the way. -/
def followAll (body : Op → Prog M.A M.Ans R) (try_ : Tid → (a : M.A) → M.Sh → Option (M.Ans a × M.Sh)) :
    List (Go Op) → Config M Op R → Option (List (Label M Op R) × List (Config M Op R) × Config M Op R)
  | [], c => some ([], [c], c)
  | g :: gs, c => match follow body try_ c g with
    | none => none
    | some (l, c') => match followAll body try_ gs c' with
      | none => none
      | some (ls, cs, c'') => some (l :: ls, c :: cs, c'')

theorem follow_step {body : Op → Prog M.A M.Ans R} {try_ : Tid → (a : M.A) → M.Sh → Option (M.Ans a × M.Sh)}
    (ht : ∀ t a σ ans σ', try_ t a σ = some (ans, σ') → M.step t a σ ans σ') {c c' : Config M Op R} {g : Go Op}
    {l : Label M Op R} (h : follow body try_ c g = some (l, c')) : Step body c l c' := by
  cases g with
  | call t op =>
    simp only [follow] at h
    cases hc : c.th t with
    | idle =>
      rw [hc] at h
      simp only [Option.some.injEq, Prod.mk.injEq] at h
      obtain ⟨rfl, rfl⟩ := h
      exact .call t op hc
    | run op' p => rw [hc] at h; cases h
  | act t =>
    simp only [follow] at h
    cases hc : c.th t with
    | idle => rw [hc] at h; cases h
    | run op p =>
      rw [hc] at h
      cases p with
      | ret r => cases h
      | act a k =>
        simp only at h
        cases ha : try_ t a c.sh with
        | none => rw [ha] at h; cases h
        | some x =>
          obtain ⟨ans, sh'⟩ := x
          rw [ha] at h
          simp only [Option.some.injEq, Prod.mk.injEq] at h
          obtain ⟨rfl, rfl⟩ := h
          exact .act t op a k ans sh' hc (ht t a c.sh ans sh' ha)
  | ret t =>
    simp only [follow] at h
    cases hc : c.th t with
    | idle => rw [hc] at h; cases h
    | run op p =>
      rw [hc] at h
      cases p with
      | act a k => cases h
      | ret r =>
        simp only [Option.some.injEq, Prod.mk.injEq] at h
        obtain ⟨rfl, rfl⟩ := h
        exact .ret t op r hc

theorem followAll_exec {body : Op → Prog M.A M.Ans R} {try_ : Tid → (a : M.A) → M.Sh → Option (M.Ans a × M.Sh)}
    (ht : ∀ t a σ ans σ', try_ t a σ = some (ans, σ') → M.step t a σ ans σ') {gs : List (Go Op)}
    {c c' : Config M Op R} {ls : List (Label M Op R)} {cs : List (Config M Op R)}
    (h : followAll body try_ gs c = some (ls, cs, c')) : Exec body c ls c' := by
  induction gs generalizing c ls cs with
  | nil =>
    simp only [followAll, Option.some.injEq, Prod.mk.injEq] at h
    obtain ⟨rfl, -, rfl⟩ := h
    exact .nil
  | cons g gs ih =>
    simp only [followAll] at h
    cases hf : follow body try_ c g with
    | none => rw [hf] at h; cases h
    | some x =>
      obtain ⟨l, c1⟩ := x
      rw [hf] at h
      simp only at h
      cases hg : followAll body try_ gs c1 with
      | none => rw [hg] at h; cases h
      | some y =>
        obtain ⟨ls', cs', c2⟩ := y
        rw [hg] at h
        simp only [Option.some.injEq, Prod.mk.injEq] at h
        obtain ⟨rfl, -, rfl⟩ := h
        have := Exec.trans (Exec.snoc .nil (follow_step ht hf)) (ih hg)
        exact this

/-- If labels determine outcomes, the moments of a scheduled part are the states on the way. -/
theorem followAll_during {body : Op → Prog M.A M.Ans R} {try_ : Tid → (a : M.A) → M.Sh → Option (M.Ans a × M.Sh)}
    (ht : ∀ t a σ ans σ', try_ t a σ = some (ans, σ') → M.step t a σ ans σ')
    (hdet : ∀ t a σ ans σ1 σ2, M.step t a σ ans σ1 → M.step t a σ ans σ2 → σ1 = σ2) {gs : List (Go Op)}
    {c c' m : Config M Op R} {ls : List (Label M Op R)} {cs : List (Config M Op R)}
    (h : followAll body try_ gs c = some (ls, cs, c')) (hm : During body c ls c' m) : m ∈ cs := by
  induction gs generalizing c ls cs with
  | nil =>
    simp only [followAll, Option.some.injEq, Prod.mk.injEq] at h
    obtain ⟨rfl, rfl, rfl⟩ := h
    obtain ⟨a, b, e, h1, -⟩ := hm
    have := List.append_eq_nil_iff.1 e.symm
    rw [this.1] at h1
    generalize hl : ([] : List (Label M Op R)) = l at h1
    cases h1 with
    | nil => simp
    | snoc _ _ => simp at hl
  | cons g gs ih =>
    simp only [followAll] at h
    cases hf : follow body try_ c g with
    | none => rw [hf] at h; cases h
    | some x =>
      obtain ⟨l, c1⟩ := x
      rw [hf] at h
      simp only at h
      cases hg : followAll body try_ gs c1 with
      | none => rw [hg] at h; cases h
      | some y =>
        obtain ⟨ls', cs', c2⟩ := y
        rw [hg] at h
        simp only [Option.some.injEq, Prod.mk.injEq] at h
        obtain ⟨rfl, rfl, rfl⟩ := h
        obtain ⟨a, b, e, h1, h2⟩ := hm
        cases a with
        | nil =>
          generalize hl : ([] : List (Label M Op R)) = l at h1
          cases h1 with
          | nil => simp
          | snoc _ _ => simp at hl
        | cons l0 a =>
          simp only [List.cons_append, List.cons.injEq] at e
          obtain ⟨rfl, rfl⟩ := e
          obtain ⟨c1', g1, g2⟩ := Exec.split [l] a h1
          have g3 := follow_step ht hf
          have : c1' = c1 := by
            have g1 := g1.single
            cases g1 with
            | call t op _ => cases g3; rfl
            | ret t op r _ => cases g3; rfl
            | act t op a k ans sh' hr hst =>
              cases g3 with
              | act _ op2 _ k2 _ sh2 hr2 hst2 =>
                rw [hr] at hr2
                injection hr2 with e1 e2
                injection e2 with e2 e3
                subst e1
                subst e3
                rw [hdet t a c.sh ans _ _ hst hst2]
          subst this
          exact List.mem_cons_of_mem _ (ih hg ⟨a, b, rfl, g2, h2⟩)

end Verif.Conc
