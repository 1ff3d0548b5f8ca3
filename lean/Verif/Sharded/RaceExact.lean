import Verif.Sharded.ClearRace

/-!
# C36: which pairs of methods race, exactly

For every number of shards and every hash: `Clear` races with `Clear` and with each method that looks into a
shard under `RLock`; no other pair of methods races.
-/

set_option linter.unusedSectionVars false

namespace Verif.Sharded.RaceExact

open Verif.Conc Verif.GoMap

variable {K V : Type} [DecidableEq K] [Inhabited V]

/-- There is an execution, from the new map, after which a goroutine in a call `op` and another one in a call
`op'` are about to access the table of the same shard, one of them to write it. -/
def CanRace (c : Conf K) (op op' : Op K V) : Prop :=
  ∃ (tr : List (Lab K V)) (s : Cfg K V) (t u : Tid) (i : Nat) (a b : Act K V) (k : Ans a → P K V (Res K V))
    (k' : Ans b → P K V (Res K V)), Exec (body c) (Config.init fresh) tr s ∧ t ≠ u ∧
    s.th t = .run op (.act a k) ∧ s.th u = .run op' (.act b k') ∧ Accesses i a ∧ Accesses i b ∧
    ((∃ f, a = .write i f) ∨ ∃ f, b = .write i f)

/-- The methods that only use `Lock`, never `RLock`. -/
def Excl : Op K V → Prop
  | .set _ _ | .trySet _ _ | .delete _ | .iterateShards => True
  | _ => False

/-- A program without `RLock`. -/
def NoR {R : Type} : P K V R → Prop
  | .ret _ => True
  | .act a k => (∀ i, a ≠ .rlock i) ∧ ∀ ans, NoR (k ans)

theorem noR_iterateShards : ∀ (rem i : Nat), NoR (iterateShardsLoop (K := K) (V := V) i rem) := by
  intro rem
  induction rem with
  | zero => intro i; exact trivial
  | succ rem ih =>
    intro i
    refine ⟨(fun _ h => by cases h), fun _ => ⟨(fun _ h => by cases h), fun _ => ⟨(fun _ h => by cases h), fun f => ?_⟩⟩⟩
    cases f with
    | none => exact ⟨(fun _ h => by cases h), fun _ => trivial⟩
    | some f => exact ⟨(fun _ h => by cases h), fun _ => ⟨(fun _ h => by cases h), fun _ => ih _⟩⟩

theorem noR_body (c : Conf K) (op : Op K V) (h : Excl op) : NoR (body c op) := by
  cases op with
  | set k v =>
    exact ⟨(fun _ h => by cases h), fun _ => ⟨(fun _ h => by cases h), fun _ => ⟨(fun _ h => by cases h), fun _ =>
      ⟨(fun _ h => by cases h), fun _ => trivial⟩⟩⟩⟩
  | delete k =>
    exact ⟨(fun _ h => by cases h), fun _ => ⟨(fun _ h => by cases h), fun _ => ⟨(fun _ h => by cases h), fun _ =>
      ⟨(fun _ h => by cases h), fun _ => trivial⟩⟩⟩⟩
  | trySet k v =>
    refine ⟨(fun _ h => by cases h), fun _ => ⟨(fun _ h => by cases h), fun _ => ⟨(fun _ h => by cases h), fun m => ?_⟩⟩⟩
    show NoR (match Tab.get? m k with
      | some _ => Prog.act (.unlock (shardOf c k)) fun _ => .ret (.bool false)
      | none => Prog.act (.write (shardOf c k) (·.put k v)) fun _ =>
          Prog.act (.unlock (shardOf c k)) fun _ => (.ret (.bool true) : P K V (Res K V)))
    cases Tab.get? m k with
    | some _ => exact ⟨(fun _ h => by cases h), fun _ => trivial⟩
    | none => exact ⟨(fun _ h => by cases h), fun _ => ⟨(fun _ h => by cases h), fun _ => trivial⟩⟩
  | iterateShards => exact noR_iterateShards _ _
  | _ => exact absurd h (fun h => h)

/-- An idle goroutine is not inside any lock as a reader. -/
theorem idle_out {c : Conf K} {tr : List (Lab K V)} {s : Cfg K V} (he : Exec (body c) (Config.init fresh) tr s)
    {t : Tid} (h : s.th t = .idle) (i : Nat) : t ∉ (s.sh.lock i).rd := by
  obtain ⟨held, L, H⟩ := clearInv he
  have ht := H t
  rw [h] at ht
  have := L.rd i t
  rw [show held t = .no from ht] at this
  rw [← List.count_eq_zero]
  simpa using this

/-- A call that only uses `Lock` is not inside any lock as a reader. -/
theorem excl_out {c : Conf K} {tr : List (Lab K V)} {s : Cfg K V} (he : Exec (body c) (Config.init fresh) tr s) :
    ∀ t op p, s.th t = .run op p → Excl op → NoR p ∧ ∀ i, t ∉ (s.sh.lock i).rd := by
  induction he with
  | nil => intro t op p h; cases h
  | @snoc tr s s' l he hs ih =>
    cases hs with
    | call t op hi =>
      intro u op' p h hx
      by_cases hu : u = t
      · subst hu
        simp only [upd_same] at h
        cases h
        exact ⟨noR_body c op hx, idle_out he hi⟩
      · simp only [upd_other _ _ hu] at h
        exact ih u op' p h hx
    | ret t op r hr =>
      intro u op' p h hx
      by_cases hu : u = t
      · subst hu
        simp only [upd_same] at h
        cases h
      · simp only [upd_other _ _ hu] at h
        exact ih u op' p h hx
    | act t op a k ans sh' hr hst =>
      intro u op' p h hx
      have out : (∀ i, u ∉ (s.sh.lock i).rd) → (u = t → ∀ i, a ≠ .rlock i) → ∀ i, u ∉ (sh'.lock i).rd := by
        intro h1 h2 i
        cases hst with
        | rlock _ j hw =>
          have hne : u ≠ t := fun e => h2 e j rfl
          show u ∉ (set1 s.sh.lock j _ i).rd
          unfold set1
          split
          · intro hm
            rcases List.mem_cons.1 hm with hm | hm
            · exact hne hm
            · exact h1 j hm
          · exact h1 i
        | runlock _ j hm =>
          show u ∉ (set1 s.sh.lock j _ i).rd
          unfold set1
          split
          · exact fun hm => h1 j (List.mem_of_mem_erase hm)
          · exact h1 i
        | lockBegin _ j _ | lockWait _ j _ _ _ | unlock _ j _ _ =>
          show u ∉ (set1 s.sh.lock j _ i).rd
          unfold set1
          split
          · exact h1 j
          · exact h1 i
        | _ => exact h1 i
      by_cases hu : u = t
      · subst hu
        simp only [upd_same] at h
        cases h
        obtain ⟨⟨h1, h2⟩, h3⟩ := ih u op _ hr hx
        exact ⟨h2 ans, out h3 (fun _ => h1)⟩
      · simp only [upd_other _ _ hu] at h
        obtain ⟨h1, h2⟩ := ih u op' p h hx
        exact ⟨h1, out h2 (fun e => absurd e hu)⟩

/-! ## The executions that race -/

/-- The shard that a method looks into first. -/
def first (c : Conf K) : Op K V → Nat
  | .get k | .tryGet k | .getOrSetFactory k | .getOrSetDefault k _ | .has k => shardOf c k
  | _ => 0

/-- The shard of a key exists. -/
theorem shardOf_lt' (c : Conf K) (k : K) : shardOf c k < c.n := by
  unfold shardOf
  split
  · exact c.pos
  · rw [UInt64.toNat_mod]
    have : (UInt64.ofNat c.n).toNat = c.n := by
      rw [UInt64.toNat_ofNat']
      exact Nat.mod_eq_of_lt (by have := c.int; omega)
    rw [this]
    exact Nat.mod_lt _ c.pos

theorem first_lt (c : Conf K) (op : Op K V) : first c op < c.n := by
  cases op <;> first | exact shardOf_lt' c _ | exact c.pos

/-- The methods that use `RLock`, other than `Clear`, begin with `RLock` and a look into the shard. -/
theorem body_reader (c : Conf K) (op : Op K V) (h : ¬ Excl op) (hc : op ≠ .clear) :
    ∃ k, body c op = .act (.rlock (first c op)) (fun _ => .act (.read (first c op)) k) := by
  obtain ⟨n, hn⟩ : ∃ n, c.n = n + 1 := ⟨c.n - 1, by have := c.pos; omega⟩
  cases op with
  | set | trySet | delete | iterateShards => exact absurd trivial h
  | clear => exact absurd rfl hc
  | get | tryGet | getOrSetFactory | getOrSetDefault | has => exact ⟨_, rfl⟩
  | _ => simp only [body, len, empty, keys, values, entries, toMap, hn]; exact ⟨_, rfl⟩

/-- Only goroutine 0 is at work. -/
def solo (p : Thread (mach K V) (Op K V) (Res K V)) : Tid → Thread (mach K V) (Op K V) (Res K V) :=
  upd (fun _ => .idle) 0 p

theorem upd_twice {α : Type} (f : Tid → α) (t : Tid) (x y : α) : upd (upd f t x) t y = upd f t y := by
  funext u
  unfold upd
  split <;> rfl

theorem sh_ext {a b : Sh K V} (h1 : a.items = b.items) (h2 : a.lock = b.lock) : a = b := by
  cases a; cases b; cases h1; cases h2; rfl

/-- The new map with the given readers inside one lock. -/
def readers (i : Nat) (l : List Tid) : Sh K V := ⟨fun _ => [], set1 (fun _ => ⟨none, false, []⟩) i ⟨none, false, l⟩⟩

theorem readers_nil (i : Nat) : (readers i [] : Sh K V) = fresh := by
  unfold readers fresh
  congr 1
  funext j
  unfold set1
  split <;> rfl

theorem enter (t : Tid) (i : Nat) (l : List Tid) :
    AStep t (.rlock i) (readers i l : Sh K V) () (readers i (t :: l)) := by
  have := AStep.rlock (t := t) (readers i l : Sh K V) i (by simp [readers, set1])
  have e : ({ (readers i l : Sh K V) with
      lock := set1 (readers i l : Sh K V).lock i
        { (readers i l : Sh K V).lock i with rd := t :: ((readers i l : Sh K V).lock i).rd } } : Sh K V) =
      readers i (t :: l) := by
    refine sh_ext (funext fun j => ?_) (funext fun j => ?_) <;> by_cases h : j = i <;> simp [readers, set1, h]
  rw [e] at this
  exact this

theorem leave (t : Tid) (i : Nat) (l : List Tid) :
    AStep t (.runlock i) (readers i (t :: l) : Sh K V) () (readers i l) := by
  have := AStep.runlock (t := t) (readers i (t :: l) : Sh K V) i (by simp [readers, set1])
  have e : ({ (readers i (t :: l) : Sh K V) with
      lock := set1 (readers i (t :: l) : Sh K V).lock i
        { (readers i (t :: l) : Sh K V).lock i with rd := ((readers i (t :: l) : Sh K V).lock i).rd.erase t } } :
      Sh K V) = readers i l := by
    refine sh_ext (funext fun j => ?_) (funext fun j => ?_) <;> by_cases h : j = i <;> simp [readers, set1, h]
  rw [e] at this
  exact this

theorem wipe (t : Tid) (i : Nat) (l : List Tid) :
    AStep t (.write i (fun _ => [])) (readers i l : Sh K V) () (readers i l) := by
  have := AStep.write (t := t) (readers i l : Sh K V) i (fun _ => [])
  have e : ({ (readers i l : Sh K V) with items := set1 (readers i l : Sh K V).items i [] } : Sh K V) =
      readers i l := by
    refine sh_ext (funext fun j => ?_) (funext fun j => ?_) <;> by_cases h : j = i <;> simp [readers, set1, h]
  rw [e] at this
  exact this

/-- Nobody has the lock alone. -/
def Calm (tr : List (Lab K V)) : Prop :=
  ∀ l ∈ tr, ∀ t a ans, l = .act t a ans → ∀ i, a ≠ .unlock i ∧ a ≠ .lockWait i

/-- Some execution from the new map, in which nobody has a lock alone, ends in `s`. -/
def Reach (c : Conf K) (s : Cfg K V) : Prop := ∃ tr, Exec (body c) (Config.init fresh) tr s ∧ Calm tr

theorem Reach.act {c : Conf K} {σ σ' : Sh K V} {th : Tid → Thread (mach K V) (Op K V) (Res K V)} {a : Act K V}
    {k : Ans a → P K V (Res K V)} {ans : Ans a} {op : Op K V} (h : Reach c ⟨σ, th⟩) (t : Tid)
    (ht : th t = .run op (.act a k)) (hs : AStep t a σ ans σ') (ha : ∀ i, a ≠ .unlock i ∧ a ≠ .lockWait i) :
    Reach c ⟨σ', upd th t (.run op (k ans))⟩ := by
  obtain ⟨tr, he, hc⟩ := h
  refine ⟨_, .snoc he (Step.act (M := mach K V) (c := ⟨σ, th⟩) t op a k ans σ' ht hs), fun l hl => ?_⟩
  rcases List.mem_append.1 hl with hl | hl
  · exact hc l hl
  · rw [List.mem_singleton.1 hl]
    intro _ _ _ e
    cases e
    exact ha

theorem Reach.call {c : Conf K} {σ : Sh K V} {th : Tid → Thread (mach K V) (Op K V) (Res K V)}
    (h : Reach c ⟨σ, th⟩) (t : Tid) (op : Op K V) (ht : th t = .idle) :
    Reach c ⟨σ, upd th t (.run op (body c op))⟩ := by
  obtain ⟨tr, he, hc⟩ := h
  refine ⟨_, .snoc he (.call t op ht), fun l hl => ?_⟩
  rcases List.mem_append.1 hl with hl | hl
  · exact hc l hl
  · rw [List.mem_singleton.1 hl]
    nofun

/-- One round of `Clear`. -/
def round (i rem : Nat) : Unit → P K V (Res K V) :=
  fun _ => .act (.runlock i) (fun _ => clearLoop (i + 1) rem)

/-- `Clear` has entered the shard. -/
theorem clear_enters {c : Conf K} {i rem : Nat}
    (h : Reach c (⟨fresh, solo (.run .clear (clearLoop i (rem + 1)))⟩ : Cfg K V)) :
    Reach c (⟨readers i [0], solo (.run .clear (.act (.write i (fun _ => [])) (round i rem)))⟩ : Cfg K V) := by
  rw [← readers_nil i] at h
  have := h.act (a := .rlock i) (k := fun _ => .act (.write i (fun _ => [])) (round i rem)) 0 (upd_same _ _ _)
    (enter 0 i []) (fun _ => ⟨nofun, nofun⟩)
  unfold solo at this
  rw [upd_twice] at this
  exact this

/-- `Clear` alone on the new map, arrived at shard `i`. -/
theorem clear_reaches (c : Conf K) : ∀ (i rem : Nat), i + rem = c.n →
    Reach c (⟨fresh, solo (.run .clear (clearLoop i rem))⟩ : Cfg K V) := by
  intro i
  induction i with
  | zero =>
    intro rem h
    obtain rfl : rem = c.n := by omega
    exact Reach.call ⟨[], .nil, nofun⟩ 0 .clear rfl
  | succ i ih =>
    intro rem h
    have h1 := clear_enters (ih (rem + 1) (by omega))
    have h2 := h1.act 0 (upd_same _ _ _) (wipe 0 i [0]) (fun _ => ⟨nofun, nofun⟩)
    have h3 := h2.act (a := .runlock i) (k := fun _ => clearLoop (i + 1) rem) 0 (upd_same _ _ _) (leave 0 i [])
      (fun _ => ⟨nofun, nofun⟩)
    unfold solo at h3 ⊢
    rw [upd_twice, upd_twice, readers_nil] at h3
    exact h3

/-- `Clear` is about to empty shard `i`, and goroutine 1 has called a method. -/
theorem clear_at (c : Conf K) (op : Op K V) (i : Nat) (hi : i < c.n) :
    ∃ k, Reach c (⟨readers i [0], upd (solo (.run .clear (.act (.write i (fun _ => [])) k))) 1
      (.run op (body c op))⟩ : Cfg K V) :=
  ⟨_, (clear_enters (clear_reaches (V := V) c i (c.n - i - 1 + 1) (by omega))).call 1 op rfl⟩

/-- `Clear` and a method that uses `RLock` are about to access the same table. -/
theorem race_state (c : Conf K) (op : Op K V) (h : ¬ Excl op) :
    ∃ (tr : List (Lab K V)) (s : Cfg K V) (i : Nat) (b : Act K V) (k : Unit → P K V (Res K V))
      (k' : Ans b → P K V (Res K V)), Exec (body c) (Config.init fresh) tr s ∧ Calm tr ∧
      s.th 0 = .run .clear (.act (.write i (fun _ => [])) k) ∧ s.th 1 = .run op (.act b k') ∧
      (b = .read i ∨ b = .write i (fun _ => [])) := by
  obtain ⟨k, he⟩ := clear_at c op (first c op) (first_lt c op)
  by_cases hc : op = .clear
  · subst hc
    obtain ⟨n, hn⟩ : ∃ n, c.n = n + 1 := ⟨c.n - 1, by have := c.pos; omega⟩
    have hb : body c (.clear : Op K V) = .act (.rlock 0) (fun _ => .act (.write 0 (fun _ => [])) (round 0 n)) := by
      simp only [body, hn]; rfl
    rw [hb] at he
    obtain ⟨tr, he, hc⟩ := he.act 1 (upd_same _ _ _) (enter 1 0 [0]) (fun _ => ⟨nofun, nofun⟩)
    exact ⟨_, _, 0, .write 0 (fun _ => []), _, _, he, hc, rfl, rfl, .inr rfl⟩
  · obtain ⟨k', hb⟩ := body_reader c op h hc
    rw [hb] at he
    obtain ⟨tr, he, hc⟩ := he.act 1 (upd_same _ _ _) (enter 1 _ [0]) (fun _ => ⟨nofun, nofun⟩)
    exact ⟨_, _, first c op, .read _, _, _, he, hc, rfl, rfl, .inl rfl⟩

theorem races_clear (c : Conf K) (op : Op K V) (h : ¬ Excl op) : CanRace c .clear op := by
  obtain ⟨tr, s, i, b, k, k', he, -, h1, h2, h3⟩ := race_state c op h
  refine ⟨tr, s, 0, 1, i, .write i (fun _ => []), b, k, k', he, by decide, h1, h2, rfl, ?_, .inl ⟨_, rfl⟩⟩
  rcases h3 with rfl | rfl <;> rfl

theorem CanRace.symm {c : Conf K} {op op' : Op K V} (h : CanRace c op op') : CanRace c op' op := by
  obtain ⟨tr, s, t, u, i, a, b, k, k', he, hne, h1, h2, h3, h4, h5⟩ := h
  exact ⟨tr, s, u, t, i, b, a, k', k, he, hne.symm, h2, h1, h4, h3, h5.symm⟩

/-- For every number of shards and every hash, two calls can race if and only if one is `Clear` and the other is
not `Set`, `TrySet`, `Delete` or `IterateShards`. -/
theorem C36_exact (c : Conf K) (op op' : Op K V) :
    CanRace c op op' ↔ (op = .clear ∧ ¬ Excl op') ∨ (op' = .clear ∧ ¬ Excl op) := by
  constructor
  · have main : ∀ (op op' : Op K V) (tr : List (Lab K V)) (s : Cfg K V) (t u : Tid) (i : Nat)
        (f : Tab K V → Tab K V) (b : Act K V) (k : Unit → P K V (Res K V)) (k' : Ans b → P K V (Res K V)),
        Exec (body c) (Config.init fresh) tr s → t ≠ u → s.th t = .run op (.act (.write i f) k) →
        s.th u = .run op' (.act b k') → Accesses i b → op = .clear ∧ ¬ Excl op' := by
      intro op op' tr s t u i f b k k' he hne h1 h2 h3
      obtain ⟨e, -, -, hm, -⟩ := Props.C36_only_clear_races c tr s he t u i f b op op' k k' hne h1 h2 h3
      exact ⟨e, fun hx => (excl_out he u op' _ h2 hx).2 i hm⟩
    rintro ⟨tr, s, t, u, i, a, b, k, k', he, hne, h1, h2, h3, h4, ⟨f, rfl⟩ | ⟨f, rfl⟩⟩
    · exact Or.inl (main op op' tr s t u i f b k k' he hne h1 h2 h4)
    · exact Or.inr (main op' op tr s u t i f a k' k he hne.symm h2 h1 h3)
  · rintro (⟨rfl, h⟩ | ⟨rfl, h⟩)
    · exact races_clear c op' h
    · exact (races_clear c op h).symm

/-- `Clear` races with `Get` of any key, in a map with any number of shards, but not with `Set`. -/
example (c : Conf Nat) (k v : Nat) : CanRace c (.clear : Op Nat Nat) (.get k) ∧
    ¬ CanRace c (.clear : Op Nat Nat) (.set k v) ∧ ¬ CanRace c (.set k v : Op Nat Nat) (.get k) := by
  rw [C36_exact, C36_exact, C36_exact]
  exact ⟨Or.inl ⟨rfl, fun h => h⟩, fun h => h.elim (fun h => h.2 trivial) (fun h => by cases h.1),
    fun h => h.elim (fun h => by cases h.1) (fun h => by cases h.1)⟩

end Verif.Sharded.RaceExact
