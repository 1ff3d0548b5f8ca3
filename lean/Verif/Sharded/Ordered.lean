import Verif.Conc.Before
import Verif.Sharded.RaceExact

/-!
# C122: accesses to the tables are ordered by the locks
-/

set_option linter.unusedSectionVars false

namespace Verif.Sharded

open Verif.Conc Verif.GoMap Verif.Sharded.Props

variable {K V : Type} [DecidableEq K] [Inhabited V]

/-! ## Specification -/

/-- What `sync.RWMutex` orders (Go memory model, "LockOnly"): an `Unlock` comes before every later return from `Lock` or
`RLock`, an `RUnlock` before every later return from `Lock`. -/
def Sync (tr : List (Label (mach K V) (Op K V) (Res K V))) (m n : Nat) : Prop :=
  m < n ∧ ∃ i t u,
    Does tr m t (.unlock i) ∧ (Does tr n u (.lockWait i) ∨ Does tr n u (.rlock i)) ∨
    Does tr m t (.runlock i) ∧ Does tr n u (.lockWait i)

/-- The step writes the table of shard `i`. -/
def Wrote (tr : List (Label (mach K V) (Op K V) (Res K V))) (n : Nat) (t : Tid) (i : Nat) : Prop :=
  ∃ f, Does tr n t (.write i f)

/-- The step reads or writes the table of shard `i`. -/
def Touches (tr : List (Label (mach K V) (Op K V) (Res K V))) (n : Nat) (t : Tid) (i : Nat) : Prop :=
  Does tr n t (.read i) ∨ Wrote tr n t i

/-- The step writes the table of shard `i` in a call of `Clear`. -/
def Clears (tr : List (Label (mach K V) (Op K V) (Res K V))) (n : Nat) (t : Tid) (i : Nat) : Prop :=
  Wrote tr n t i ∧ lastCall (tr.take n) t = some .clear

/-- The step reads the table of shard `i` in a call of a method that uses `RLock`, that is, not in `TrySet`. -/
def LooksIn (tr : List (Label (mach K V) (Op K V) (Res K V))) (n : Nat) (t : Tid) (i : Nat) : Prop :=
  Does tr n t (.read i) ∧ ∃ op, lastCall (tr.take n) t = some op ∧ ¬ RaceExact.Excl op

/-! ## The invariant -/

/-- The goroutine is in a call of a method that only uses `Lock`. -/
def LockOnly (last : Option (Op K V)) : Prop := ∃ op, last = some op ∧ RaceExact.Excl op

/-- A goroutine in a call: it is the last it has made, and obeys its rules. -/
structure InCall (last : Option (Op K V)) (op : Op K V) (h : Held) (p : P K V (Res K V)) : Prop where
  last : last = some op
  clear : op = .clear → ClearDisc h p
  other : op ≠ .clear → Disc .cov h p

/-- The lock of shard `i`; what `Clear` writes counts as reading, what methods read that only use `Lock` as
writing. -/
def guard (i : Nat) : Guard (mach K V) (Op K V) (Res K V) where
  enterW _ _ a _ := a = .lockWait i
  enterR _ _ a _ := a = .rlock i
  leaveW _ _ a _ := a = .unlock i
  leaveR _ _ a _ := a = .runlock i
  reads l t a _ := a = .read i ∧ ¬ LockOnly (lastCall l t) ∨ (∃ f, a = .write i f) ∧ lastCall l t = some .clear
  writes l t a _ := a = .read i ∧ LockOnly (lastCall l t) ∨ (∃ f, a = .write i f) ∧ lastCall l t ≠ some .clear

section
variable {h h' : Held} {a : Act K V} {i : Nat}

theorem nowW (hh : heldAfter h a = some h') (e : h' = .W i) : h = .W i ∨ a = .lockWait i := by
  subst e
  cases h <;> cases a <;> simp [heldAfter] at hh ⊢ <;> first | exact hh | exact hh.2

theorem nowR (hh : heldAfter h a = some h') (e : h' = .R i) : h = .R i ∨ a = .rlock i := by
  subst e
  cases h <;> cases a <;> simp [heldAfter] at hh ⊢ <;> first | exact hh | exact hh.2

theorem keepW (hh : heldAfter h a = some h') (e : h = .W i) : h' = .W i ∨ a = .unlock i := by
  subst e
  cases a <;> simp [heldAfter] at hh ⊢ <;> first | exact hh.symm | exact .inr hh.1.symm | exact hh.1.symm

theorem keepR (hh : heldAfter h a = some h') (e : h = .R i) : h' = .R i ∨ a = .runlock i := by
  subst e
  cases a <;> simp [heldAfter] at hh ⊢ <;> first | exact hh.symm | exact .inr hh.1.symm | exact hh.1.symm

end

theorem keeps {tr : List (Label (mach K V) (Op K V) (Res K V))} {held : Tid → Held} {i : Nat} {lock : Nat → RW}
    (L : LockInv lock held) {t : Tid} {a : Act K V} {ans : Ans a} {h' : Held} (hh : heldAfter (held t) a = some h')
    (hr : a = .read i → held t = .R i ∨ held t = .W i) (hx : a = .read i → LockOnly (lastCall tr t) → held t = .W i)
    (hw : ∀ f, a = .write i f → lastCall tr t = some .clear ∧ held t = .R i ∨
      lastCall tr t ≠ some .clear ∧ held t = .W i) :
    Conc.Keeps (guard i) tr (fun u => held u = .W i) (fun u => held u = .R i)
      (fun u => upd held t h' u = .W i) (fun u => upd held t h' u = .R i) t a ans where
  alone u v hu hv := L.unique (.inr hu) (.inr hv)
  apart u v hu hv := L.no_reader hu hv
  othersW u hu := by rw [upd_other _ _ hu]
  othersS u hu := by rw [upd_other _ _ hu]
  gotW := by
    rw [upd_same]
    intro e
    refine ⟨?_, nowW hh e⟩
    rintro (d | d)
    · cases d
      have h1 := heldAfter_unlock hh
      rw [h1.2] at e; cases e
    · cases d
      have h1 := heldAfter_runlock hh
      rw [h1.2] at e; cases e
  gotS := by
    rw [upd_same]
    intro e
    refine ⟨?_, nowR hh e⟩
    intro d
    cases d
    have h1 := heldAfter_unlock hh
    rw [h1.2] at e; cases e
  keepW e := by rw [upd_same]; exact keepW hh e
  keepS e := by rw [upd_same]; exact keepR hh e
  leaveW e := by cases e; exact (heldAfter_unlock hh).1
  leaveR e := by cases e; exact (heldAfter_runlock hh).1
  reads e := by
    rw [upd_same]
    rcases e with ⟨d, -⟩ | ⟨⟨f, d⟩, e⟩ <;> cases d
    · rcases hr rfl with e | e
      · exact .inr ⟨e, (keepR hh e).resolve_right nofun⟩
      · exact .inl ⟨e, (keepW hh e).resolve_right nofun⟩
    · rcases hw f rfl with e' | e'
      · exact .inr ⟨e'.2, (keepR hh e'.2).resolve_right nofun⟩
      · exact absurd e e'.1
  writes e := by
    rw [upd_same]
    obtain ⟨d, e⟩ | ⟨⟨f, d⟩, e⟩ := e <;> cases d
    · have e' := hx rfl e
      exact ⟨(keepW hh e').resolve_right nofun, .inl e'⟩
    rcases hw f rfl with e' | e'
    · exact absurd e'.1 e
    · exact ⟨(keepW hh e'.2).resolve_right nofun, .inl e'.2⟩

theorem trail {c : Conf K} {tr : List (Label (mach K V) (Op K V) (Res K V))} {s : Cfg K V}
    (he : Exec (body c) (Config.init fresh) tr s) :
    ∃ held, LockInv s.sh.lock held ∧ (∀ t, match s.th t with
      | .idle => held t = .no
      | .run op p => InCall (lastCall tr t) op (held t) p) ∧
      ∀ i, Trail (guard i) tr (fun u => held u = .W i) (fun u => held u = .R i) := by
  induction he with
  | nil => exact ⟨fun _ => .no, LockInv.start, fun t => rfl, fun i => by simpa using Trail.nil⟩
  | snoc he hs ih =>
    obtain ⟨held, L, H, T⟩ := ih
    cases hs with
    | call t op hi =>
      refine ⟨held, L, fun u => ?_, fun i => (T i).quiet (by intros; nofun)⟩
      rw [lastCall_call]
      by_cases hu : u = t
      · subst hu
        have := H u
        rw [hi] at this
        simp only [upd_same]
        rw [this, if_pos trivial]
        refine ⟨rfl, ?_, fun h => disc_body .cov c op (by decide) fun _ => h⟩
        rintro rfl
        exact clearDisc_clearLoop _ _
      · simp only [upd_other _ _ hu]
        rw [if_neg (Ne.symm hu)]
        exact H u
    | act t op a k ans sh' hr hst =>
      have ht := H t
      rw [hr] at ht
      have next : ∃ h', heldAfter (held t) a = some h' ∧ (op = .clear → ClearDisc h' (k ans)) ∧
          (op ≠ .clear → Disc .cov h' (k ans)) ∧ (∀ i, a = .read i → held t = .R i ∨ held t = .W i) ∧
          ∀ i f, a = .write i f → op = .clear ∧ held t = .R i ∨ op ≠ .clear ∧ held t = .W i := by
        by_cases e : op = .clear
        · obtain ⟨h', e1, e2, e3, e4⟩ := ht.clear e
          exact ⟨h', e1, fun _ => e4 ans, fun h => absurd e h, fun i h => absurd h (e3 i),
            fun i f h => .inl ⟨e, (e2 i f h).1⟩⟩
        · obtain ⟨h', e1, e2, e3⟩ := ht.other e
          refine ⟨h', e1, fun h => absurd h e, fun _ => e3 ans, ?_, ?_⟩
          · rintro i rfl; exact e2
          · rintro i f rfl; exact .inr ⟨e, e2⟩
      obtain ⟨h', e1, e2, e3, e4, e5⟩ := next
      refine ⟨upd held t h', L.step hst e1, fun u => ?_, fun i => (T i).step (keeps L e1 (e4 i) (fun h hx => ?_)
        fun f h => ?_)⟩
      · rw [lastCall_act]
        by_cases hu : u = t
        · subst hu
          simp only [upd_same]
          exact ⟨ht.last, e2, e3⟩
        · simp only [upd_other _ _ hu]; exact H u
      · obtain ⟨op', e, hx⟩ := hx
        rw [ht.last] at e
        cases e
        refine (e4 i h).resolve_left fun hR => (RaceExact.excl_out he t op _ hr hx).2 i ?_
        have := L.rd i t
        rw [hR, if_pos rfl] at this
        exact List.count_pos_iff.1 (by omega)
      · rw [ht.last]
        simpa using e5 i f h
    | ret t op r hr =>
      refine ⟨held, L, fun u => ?_, fun i => (T i).quiet (by intros; nofun)⟩
      rw [lastCall_ret]
      by_cases hu : u = t
      · subst hu
        have := H u
        rw [hr] at this
        simp only [upd_same]
        by_cases e : op = .clear
        · exact this.clear e
        · exact this.other e
      · simp only [upd_other _ _ hu]; exact H u

/-! ## C122 -/

/-- Who acts is in a call. -/
theorem called {c : Conf K} {tr : List (Label (mach K V) (Op K V) (Res K V))} {s : Cfg K V}
    (he : Exec (body c) (Config.init fresh) tr s) {n : Nat} {t : Tid} {a : Act K V} (h : Does tr n t a) :
    ∃ op, lastCall (tr.take n) t = some op := by
  induction he with
  | nil => have := h.bound; simp at this
  | snoc he hs ih =>
    rcases h.of_snoc with h | ⟨rfl, ans, rfl⟩
    · rw [take_snoc (Nat.le_of_lt h.bound)]
      exact ih h
    · rw [take_snoc (Nat.le_refl _), List.take_length]
      cases hs with
      | act _ op _ k _ _ hr _ =>
        obtain ⟨_, -, H, -⟩ := trail he
        have := H t
        rw [hr] at this
        exact ⟨op, this.last⟩

/-- Full C122 for the sharded map: of two accesses to the table of a shard, one of them writing, the earlier happens
before the later. -/
def C122_full_statement : Prop := ∀ (c : Conf Nat) (tr : List (Lab Nat Nat)) (s : Cfg Nat Nat),
  Exec (body c) (Config.init fresh) tr s → ∀ (i p q : Nat) (t u : Tid), p < q → Touches tr p t i → Touches tr q u i →
  Wrote tr p t i ∨ Wrote tr q u i → Before (Sync tr) tr p q

/-- Of two accesses to the table of a shard, one of them writing, the earlier happens before the later, unless one is a
write of `Clear` and the other a write of `Clear` or a read in a method that uses `RLock`. What is missing: `Clear`, for which it is false
(`C122_clear_unordered`). -/
theorem C122_sharded_partial (c : Conf K) (tr : List (Lab K V)) (s : Cfg K V)
    (he : Exec (body c) (Config.init fresh) tr s) (i p q : Nat) (t u : Tid)
    (hpq : p < q) (hp : Touches tr p t i) (hq : Touches tr q u i) (hw : Wrote tr p t i ∨ Wrote tr q u i) :
    Before (Sync tr) tr p q ∨ Clears tr p t i ∧ (LooksIn tr q u i ∨ Clears tr q u i) ∨
      LooksIn tr p t i ∧ Clears tr q u i := by
  obtain ⟨held, -, -, T⟩ := trail he
  have sort : ∀ {n v}, Does tr n v (.read i) → LooksIn tr n v i ∨ Doing tr (guard i).writes n v := by
    rintro n v h
    by_cases e : LockOnly (lastCall (tr.take n) v)
    · exact .inr ⟨_, h.imp fun _ h => ⟨.inl ⟨rfl, e⟩, h⟩⟩
    · obtain ⟨op, ho⟩ := called he h
      exact .inl ⟨h, op, ho, fun hx => e ⟨op, ho, hx⟩⟩
  have look : ∀ {n v}, Touches tr n v i → Doing tr (guard i).touches n v := by
    rintro n v (h | ⟨f, h⟩)
    · by_cases e : LockOnly (lastCall (tr.take n) v)
      · exact ⟨_, h.imp fun _ h => ⟨.inr (.inl ⟨rfl, e⟩), h⟩⟩
      · exact ⟨_, h.imp fun _ h => ⟨.inl (.inl ⟨rfl, e⟩), h⟩⟩
    · by_cases e : lastCall (tr.take n) v = some .clear
      · exact ⟨_, h.imp fun _ h => ⟨.inl (.inr ⟨⟨f, rfl⟩, e⟩), h⟩⟩
      · exact ⟨_, h.imp fun _ h => ⟨.inr (.inr ⟨⟨f, rfl⟩, e⟩), h⟩⟩
  have mark : ∀ {n v}, Wrote tr n v i → Clears tr n v i ∨ Doing tr (guard i).writes n v := by
    rintro n v ⟨f, h⟩
    by_cases e : lastCall (tr.take n) v = some .clear
    · exact .inl ⟨⟨f, h⟩, e⟩
    · exact .inr ⟨_, h.imp fun _ h => ⟨.inr ⟨⟨f, rfl⟩, e⟩, h⟩⟩
  have done : Doing tr (guard i).writes p t ∨ Doing tr (guard i).writes q u → Before (Sync tr) tr p q := by
    intro hw
    refine (T i).ordered ?_ ?_ hpq (look hp) (look hq) hw
    · rintro m n v w hmn ⟨_, _, d, h1⟩ ⟨_, _, e | e, h2⟩ <;> cases d <;> cases e
      · exact ⟨hmn, i, v, w, .inl ⟨h1.does, .inl h2.does⟩⟩
      · exact ⟨hmn, i, v, w, .inl ⟨h1.does, .inr h2.does⟩⟩
    · rintro m n v w hmn ⟨_, _, d, h1⟩ ⟨_, _, e, h2⟩
      cases d
      cases e
      exact ⟨hmn, i, v, w, .inr ⟨h1.does, h2.does⟩⟩
  have sides : ∀ {n v}, Touches tr n v i → LooksIn tr n v i ∨ Clears tr n v i ∨ Doing tr (guard i).writes n v := by
    rintro n v (h | h)
    · exact (sort h).imp_right .inr
    · exact .inr (mark h)
  rcases sides hp with h | h | h
  · rcases sides hq with h' | h' | h'
    · rcases hw with hw | hw <;> rcases mark hw with hw | hw
      · exact .inr (.inl ⟨hw, .inl h'⟩)
      · exact .inl (done (.inl hw))
      · exact .inr (.inr ⟨h, hw⟩)
      · exact .inl (done (.inr hw))
    · exact .inr (.inr ⟨h, h'⟩)
    · exact .inl (done (.inr h'))
  · rcases sides hq with h' | h' | h'
    · exact .inr (.inl ⟨h, .inl h'⟩)
    · exact .inr (.inl ⟨h, .inr h'⟩)
    · exact .inl (done (.inr h'))
  · exact .inl (done (.inl h))

/-- Nobody gives a lock back. -/
def noRelease (ls : List (Lab Nat Nat)) : Bool := ls.all fun l => match l with
  | .act _ (.unlock _) _ => false
  | .act _ (.runlock _) _ => false
  | _ => true

/-- Without synchronisation only what one goroutine does is ordered. -/
theorem before_alone {M : Machine} {Op R : Type} {sync : Nat → Nat → Prop} {tr : List (Label M Op R)}
    (hs : ∀ m n, ¬ sync m n) {m n : Nat} (h : Before sync tr m n) :
    ∃ l l', tr[m]? = some l ∧ tr[n]? = some l' ∧ l.tid = l'.tid := by
  induction h with
  | program _ h1 h2 h3 => exact ⟨_, _, h1, h2, h3⟩
  | sync h => exact absurd h (hs _ _)
  | trans _ _ h1 h2 =>
    obtain ⟨a, b, h3, h4, h5⟩ := h1
    obtain ⟨c, d, h6, h7, h8⟩ := h2
    rw [h4] at h6
    injection h6 with h6
    subst h6
    exact ⟨a, d, h3, h7, h5.trans h8⟩

/-- The full statement is false: `Clear` writes and `TryGet` reads, and nothing orders them. -/
theorem C122_clear_unordered : ¬ C122_full_statement := by
  intro h
  have hsome : (play two [.call 0 .clear, .call 1 (.tryGet 4), .act 0, .act 1, .act 0, .act 1]
    (Config.init fresh)).isSome = true := by decide +kernel
  obtain ⟨⟨ls, cs, s⟩, hs⟩ := Option.isSome_iff_exists.1 hsome
  have he := play_exec hs
  have hget : ls = ((play two [.call 0 .clear, .call 1 (.tryGet 4), .act 0, .act 1, .act 0, .act 1]
    (Config.init fresh)).get hsome).1 := by simp [hs]
  have hno : (play two [.call 0 .clear, .call 1 (.tryGet 4), .act 0, .act 1, .act 0, .act 1]
    (Config.init fresh)).map (fun x => noRelease x.1) = some true := by decide +kernel
  rw [hs, Option.map_some, Option.some.injEq] at hno
  have h4 : Does ls 4 0 (.write 0 fun _ => []) := by rw [hget]; exact ⟨(), rfl⟩
  have h5 : Does ls 5 1 (.read 0) := by rw [hget]; exact ⟨[], rfl⟩
  have hb := h two ls s he 0 4 5 0 1 (by decide) (.inr ⟨_, h4⟩) (.inl h5) (.inl ⟨_, h4⟩)
  have none : ∀ m n, ¬ Sync ls m n := by
    unfold noRelease at hno
    rw [List.all_eq_true] at hno
    rintro m n ⟨-, i, t, u, ⟨⟨_, hm⟩, -⟩ | ⟨⟨_, hm⟩, -⟩⟩
    · have := hno _ (List.mem_of_getElem? hm)
      cases this
    · have := hno _ (List.mem_of_getElem? hm)
      cases this
  obtain ⟨l, l', k1, k2, k3⟩ := before_alone none hb
  obtain ⟨_, h4⟩ := h4
  obtain ⟨_, h5⟩ := h5
  rw [h4] at k1
  rw [h5] at k2
  cases k1
  cases k2
  cases k3

/-! ## Exactly which methods -/

/-- There is an execution in which a call `op` and then a call `op'` access the same table, one of them to write it,
and the first access does not happen before the second. -/
def CanBeUnordered (c : Conf K) (op op' : Op K V) : Prop :=
  ∃ (tr : List (Lab K V)) (s : Cfg K V) (i p q : Nat) (t u : Tid), Exec (body c) (Config.init fresh) tr s ∧ p < q ∧
    Touches tr p t i ∧ Touches tr q u i ∧ (Wrote tr p t i ∨ Wrote tr q u i) ∧
    lastCall (tr.take p) t = some op ∧ lastCall (tr.take q) u = some op' ∧ ¬ Before (Sync tr) tr p q

/-- Two steps of different goroutines, after steps in which nobody has had a lock alone, are not ordered. -/
theorem calm_unordered {tr : List (Lab K V)} (hc : RaceExact.Calm tr) {t u : Tid} (htu : t ≠ u) {a b : Act K V}
    {x : Ans a} {y : Ans b} (ha : ∀ i, a ≠ .unlock i ∧ a ≠ .lockWait i) (hb : ∀ i, b ≠ .unlock i ∧ b ≠ .lockWait i) :
    ¬ Before (Sync (tr ++ [.act t a x] ++ [.act u b y])) (tr ++ [.act t a x] ++ [.act u b y])
      tr.length (tr.length + 1) := by
  intro h
  have none : ∀ m n, ¬ Sync (tr ++ [.act t a x] ++ [.act u b y]) m n := by
    have calm : RaceExact.Calm (tr ++ [.act t a x] ++ [.act u b y]) := by
      intro l hl
      rw [List.append_assoc] at hl
      rcases List.mem_append.1 hl with hl | hl
      · exact hc l hl
      · rcases List.mem_cons.1 hl with rfl | hl
        · intro _ _ _ e; cases e; exact ha
        · rw [List.mem_singleton.1 hl]
          intro _ _ _ e; cases e; exact hb
    rintro m n ⟨-, i, v, w, ⟨⟨_, hm⟩, -⟩ | ⟨-, ⟨_, hm⟩⟩⟩
    · exact (calm _ (List.mem_of_getElem? hm) _ _ _ rfl i).1 rfl
    · exact (calm _ (List.mem_of_getElem? hm) _ _ _ rfl i).2 rfl
  obtain ⟨l, l', k1, k2, k3⟩ := before_alone none h
  have e1 : (tr ++ [.act t a x] ++ [.act u b y])[tr.length]? = some (.act t a x : Lab K V) := by simp
  have e2 : (tr ++ [.act t a x] ++ [.act u b y])[tr.length + 1]? = some (.act u b y : Lab K V) := by simp
  rw [e1] at k1
  rw [e2] at k2
  cases k1
  cases k2
  exact htu k3

/-- From a state in which two calls are about to access a table. -/
theorem unordered_of {c : Conf K} {tr : List (Lab K V)} {s : Cfg K V} (he : Exec (body c) (Config.init fresh) tr s)
    (hc : RaceExact.Calm tr) {t u : Tid} (htu : t ≠ u) {i : Nat} {a b : Act K V} {op op' : Op K V}
    {k : Ans a → P K V (Res K V)} {k' : Ans b → P K V (Res K V)}
    (ht : s.th t = .run op (.act a k)) (hu : s.th u = .run op' (.act b k'))
    (ha : a = .read i ∨ a = .write i (fun _ => [])) (hb : b = .read i ∨ b = .write i (fun _ => []))
    (hw : a = .write i (fun _ => []) ∨ b = .write i (fun _ => [])) : CanBeUnordered c op op' := by
  have go : ∀ (t : Tid) (a : Act K V) (σ : Sh K V), a = .read i ∨ a = .write i (fun _ => []) →
      ∃ x σ', AStep t a σ x σ' := by
    rintro t a σ (rfl | rfl)
    · exact ⟨_, _, .read σ i⟩
    · exact ⟨_, _, .write σ i _⟩
  have calm : ∀ a : Act K V, a = .read i ∨ a = .write i (fun _ => []) → ∀ j, a ≠ .unlock j ∧ a ≠ .lockWait j := by
    rintro a (rfl | rfl) j <;> exact ⟨nofun, nofun⟩
  obtain ⟨x, σ1, s1⟩ := go t a s.sh ha
  have he1 := Exec.snoc he (Step.act (M := mach K V) t op a k x σ1 ht s1)
  obtain ⟨y, σ2, s2⟩ := go u b σ1 hb
  have hu1 : (⟨σ1, upd s.th t (.run op (k x))⟩ : Cfg K V).th u = .run op' (.act b k') := by
    show upd _ _ _ _ = _
    rw [upd_other _ _ (Ne.symm htu)]
    exact hu
  have he2 := Exec.snoc he1 (Step.act (M := mach K V) u op' b k' y σ2 hu1 s2)
  have d1 : Does (tr ++ [.act t a x] ++ [.act u b y]) tr.length t a := (Does.last tr t a x).snoc _
  have d2 : Does (tr ++ [.act t a x] ++ [.act u b y]) (tr.length + 1) u b := ⟨y, by simp⟩
  have touch : ∀ {tr : List (Lab K V)} {n v} {a : Act K V}, Does tr n v a → a = .read i ∨ a = .write i (fun _ => []) →
      Touches tr n v i := by
    rintro tr n v a d (rfl | rfl)
    · exact .inl d
    · exact .inr ⟨_, d⟩
  obtain ⟨_, -, H, -⟩ := trail he
  have l1 := H t
  rw [ht] at l1
  have l2 := H u
  rw [hu] at l2
  refine ⟨_, _, i, tr.length, tr.length + 1, t, u, he2, by omega, touch d1 ha, touch d2 hb, ?_, ?_, ?_,
    calm_unordered hc htu (calm a ha) (calm b hb)⟩
  · rcases hw with rfl | rfl
    · exact .inl ⟨_, d1⟩
    · exact .inr ⟨_, d2⟩
  · rw [List.append_assoc, List.take_left]
    exact l1.last
  · have : tr.length + 1 = (tr ++ [(.act t a x : Lab K V)]).length := by simp
    rw [this, List.take_left, lastCall_act]
    exact l2.last

/-- For every number of shards and every hash, accesses of two calls to a table, one of them writing, can be unordered if
and only if one call is `Clear` and the other one is not `Set`, `TrySet`, `Delete` or `IterateShards`. -/
theorem C122_sharded_exact (c : Conf K) (op op' : Op K V) :
    CanBeUnordered c op op' ↔ (op = .clear ∧ ¬ RaceExact.Excl op') ∨ (op' = .clear ∧ ¬ RaceExact.Excl op) := by
  constructor
  · rintro ⟨tr, s, i, p, q, t, u, he, hpq, h1, h2, h3, h4, h5, h6⟩
    have cl : ∀ {n v} {o : Op K V}, lastCall (tr.take n) v = some o → Clears tr n v i → o = .clear := by
      intro n v o e h
      rw [h.2] at e
      cases e
      rfl
    have lk : ∀ {n v} {o : Op K V}, lastCall (tr.take n) v = some o → LooksIn tr n v i → ¬ RaceExact.Excl o := by
      rintro n v o e ⟨-, o', e', hx⟩
      rw [e] at e'
      cases e'
      exact hx
    rcases C122_sharded_partial c tr s he i p q t u hpq h1 h2 h3 with h | ⟨h, h' | h'⟩ | ⟨h, h'⟩
    · exact absurd h h6
    · exact .inl ⟨cl h4 h, lk h5 h'⟩
    · exact .inl ⟨cl h4 h, by rw [cl h5 h']; exact fun h => h⟩
    · exact .inr ⟨cl h5 h', lk h4 h⟩
  · rintro (⟨rfl, h⟩ | ⟨rfl, h⟩)
    · obtain ⟨tr, s, i, b, k, k', he, hc, h1, h2, h3⟩ := RaceExact.race_state c op' h
      exact unordered_of he hc (by decide) h1 h2 (.inr rfl) h3 (.inl rfl)
    · obtain ⟨tr, s, i, b, k, k', he, hc, h1, h2, h3⟩ := RaceExact.race_state c op h
      exact unordered_of he hc (by decide) h2 h1 h3 (.inr rfl) (.inr rfl)

/-- `Len` after `Clear` and `Clear` after `Len` can be unordered; `TrySet` and `Clear` cannot. -/
example (c : Conf Nat) (k v : Nat) : CanBeUnordered c (.clear : Op Nat Nat) .len ∧
    CanBeUnordered c (.len : Op Nat Nat) .clear ∧ ¬ CanBeUnordered c (.clear : Op Nat Nat) (.trySet k v) := by
  rw [C122_sharded_exact, C122_sharded_exact, C122_sharded_exact]
  exact ⟨.inl ⟨rfl, fun h => h⟩, .inr ⟨rfl, fun h => h⟩,
    fun h => h.elim (fun h => h.2 trivial) (fun h => by cases h.1)⟩

/-- Two goroutines set the same key: the first writes at step 4, the second, who has waited for the lock, at step 11. -/
example : (play two (whole 0 (.set 4 1) 4 ++ whole 1 (.set 4 2) 4) (Config.init fresh)).map
    (fun x => x.1.map fun l => match l with | .act t (.write i _) _ => (t, i + 1) | l => (l.tid, 0)) =
    some [(0, 0), (0, 0), (0, 0), (0, 1), (0, 0), (0, 0), (1, 0), (1, 0), (1, 0), (1, 1), (1, 0), (1, 0)] := by
  decide +kernel

end Verif.Sharded
