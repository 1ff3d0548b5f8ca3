import Verif.Sharded.Progress
import Verif.Sharded.Moments

/-!
# Properties of `Sharded` (C33–C38, C67)
-/

set_option linter.unusedSectionVars false

namespace Verif.Sharded.Props

open Verif.Conc Verif.GoMap Verif.Sharded

variable {K V : Type} [DecidableEq K] [Inhabited V]

/-! ## Test data: two shards, even and odd keys -/

/-- Two shards; the hash of a number is the number. -/
def two : Conf Nat := ⟨2, by decide, by decide, fun k _ => UInt64.ofNat k, 0⟩

/-- One shard. -/
def one : Conf Nat := ⟨1, by decide, by decide, fun k _ => UInt64.ofNat k, 0⟩

/-- Some outcome of an action; factories return `7`. -/
def outcome (t : Tid) : (a : Act Nat Nat) → Sh Nat Nat → Option (Ans a × Sh Nat Nat)
  | .lockBegin i, σ => if (σ.lock i).wr = none then
      some ((), { σ with lock := set1 σ.lock i { σ.lock i with wr := some t, active := false } }) else none
  | .lockWait i, σ => if (σ.lock i).wr = some t ∧ (σ.lock i).active = false ∧ (σ.lock i).rd = [] then
      some ((), { σ with lock := set1 σ.lock i { σ.lock i with active := true } }) else none
  | .unlock i, σ => if (σ.lock i).wr = some t ∧ (σ.lock i).active = true then
      some ((), { σ with lock := set1 σ.lock i { σ.lock i with wr := none, active := false } }) else none
  | .rlock i, σ => if (σ.lock i).wr = none then
      some ((), { σ with lock := set1 σ.lock i { σ.lock i with rd := t :: (σ.lock i).rd } }) else none
  | .runlock i, σ => if t ∈ (σ.lock i).rd then
      some ((), { σ with lock := set1 σ.lock i { σ.lock i with rd := (σ.lock i).rd.erase t } }) else none
  | .read i, σ => some (σ.items i, σ)
  | .write i f, σ => some ((), { σ with items := set1 σ.items i (f (σ.items i)) })
  | .factory _, σ => some ((some 7 : Option Nat), σ)
  | .callback, σ => some (true, σ)
  | .edit, σ => some (none, σ)
  | .order, σ => some (Order.id, σ)

theorem outcome_step (t : Tid) (a : Act Nat Nat) (σ : Sh Nat Nat) (ans : Ans a) (σ' : Sh Nat Nat)
    (h : outcome t a σ = some (ans, σ')) : AStep t a σ ans σ' := by
  cases a with
  | lockBegin i =>
    simp only [outcome] at h; split at h
    · rename_i hc; injection h with h; injection h with h1 h2; subst h1 h2; exact .lockBegin _ i hc
    · cases h
  | lockWait i =>
    simp only [outcome] at h; split at h
    · rename_i hc; injection h with h; injection h with h1 h2; subst h1 h2; exact .lockWait _ i hc.1 hc.2.1 hc.2.2
    · cases h
  | unlock i =>
    simp only [outcome] at h; split at h
    · rename_i hc; injection h with h; injection h with h1 h2; subst h1 h2; exact .unlock _ i hc.1 hc.2
    · cases h
  | rlock i =>
    simp only [outcome] at h; split at h
    · rename_i hc; injection h with h; injection h with h1 h2; subst h1 h2; exact .rlock _ i hc
    · cases h
  | runlock i =>
    simp only [outcome] at h; split at h
    · rename_i hc; injection h with h; injection h with h1 h2; subst h1 h2; exact .runlock _ i hc
    · cases h
  | read i => injection h with h; injection h with h1 h2; subst h1 h2; exact .read _ i
  | write i f => injection h with h; injection h with h1 h2; subst h1 h2; exact .write _ i f
  | factory k => injection h with h; injection h with h1 h2; subst h1 h2; exact .factory _ k _
  | callback => injection h with h; injection h with h1 h2; subst h1 h2; exact .callback _ _
  | edit => injection h with h; injection h with h1 h2; subst h1 h2; exact .edit _ _
  | order => injection h with h; injection h with h1 h2; subst h1 h2; exact .order _ _

theorem step_det (t : Tid) (a : Act Nat Nat) (σ : Sh Nat Nat) (ans : Ans a) (σ1 σ2 : Sh Nat Nat)
    (h1 : AStep t a σ ans σ1) (h2 : AStep t a σ ans σ2) : σ1 = σ2 := by
  cases h1 <;> cases h2 <;> rfl

/-- Follow a schedule on a map with configuration `c`. -/
def play (c : Conf Nat) (gs : List (Conc.Go (Op Nat Nat))) (s : Cfg Nat Nat) :=
  followAll (M := mach Nat Nat) (R := Res Nat Nat) (body c) outcome gs s

/-- A goroutine makes a whole call of `n` steps. -/
def whole (t : Tid) (op : Op Nat Nat) (n : Nat) : List (Conc.Go (Op Nat Nat)) :=
  .call t op :: (List.replicate n (.act t) ++ [.ret t])

theorem play_exec {c : Conf Nat} {gs : List (Conc.Go (Op Nat Nat))} {s s' : Cfg Nat Nat} {ls : List (Lab Nat Nat)}
    {cs : List (Cfg Nat Nat)} (h : play c gs s = some (ls, cs, s')) : Exec (body c) s ls s' :=
  followAll_exec outcome_step h

theorem play_during {c : Conf Nat} {gs : List (Conc.Go (Op Nat Nat))} {s s' m : Cfg Nat Nat} {ls : List (Lab Nat Nat)}
    {cs : List (Cfg Nat Nat)} (h : play c gs s = some (ls, cs, s')) (hm : During (body c) s ls s' m) : m ∈ cs :=
  followAll_during outcome_step step_det h hm

/-- What a goroutine is about to return. -/
def about (s : Cfg Nat Nat) (t : Tid) : Option (Res Nat Nat) :=
  match s.th t with
  | .run _ (.ret r) => some r
  | _ => none

/-- The results returned in an execution. -/
def returned (ls : List (Lab Nat Nat)) : List (Tid × Res Nat Nat) :=
  ls.filterMap fun l => match l with
    | .ret t _ r => some (t, r)
    | _ => none

/-! ## C33 -/

/-- Calls made one after the other by goroutine `t`, with their results. -/
inductive OneByOne (c : Conf K) (t : Tid) : List (Op K V × Res K V) → Sh K V → Prop where
  | nil : OneByOne c t [] fresh
  | snoc {l : List (Op K V × Res K V)} {σ σ' : Sh K V} {op : Op K V} {r : Res K V} :
      OneByOne c t l σ → Big (mach K V) t (body c op) σ r σ' → OneByOne c t (l ++ [(op, r)]) σ'

/-- One map, all operations. -/
def oneMap (K V : Type) [DecidableEq K] [Inhabited V] : SeqSpec (Op K V) (Res K V) := ⟨PMap K V, PMap.empty, Legal⟩

/-- Used by one goroutine, the sharded map gives the results of one map, and every call returns. -/
theorem C33_sharded_sequential (c : Conf K) (t : Tid) (l : List (Op K V × Res K V)) (σ : Sh K V)
    (h : OneByOne c t l σ) (hop : ∀ x ∈ l, x.1 ≠ .iterateShards) :
    (∃ μ, (oneMap K V).Run PMap.empty l μ) ∧
    ∀ op : Op K V, op ≠ .iterateShards → ∃ r σ', Big (mach K V) t (body c op) σ r σ' := by
  have key : ∃ items, σ = ⟨items, free⟩ ∧ Placed c items ∧ (oneMap K V).Run PMap.empty l (absMap c items) := by
    induction h with
    | nil =>
      exact ⟨fun _ => [], rfl, ⟨fun _ => List.Pairwise.nil, fun i k v h => by cases h⟩, .nil _⟩
    | @snoc l σ σ' op r h hb ih =>
      obtain ⟨items, rfl, hp, hr⟩ := ih (fun x hx => hop x (by simp [hx]))
      obtain ⟨items', rfl, hp', hl⟩ := Always.post hb (alone_body c op (hop (op, r) (by simp)) items hp)
      exact ⟨items', rfl, hp', .snoc hr hl⟩
  obtain ⟨items, rfl, hp, hr⟩ := key
  exact ⟨⟨_, hr⟩, fun op ho => Always.ends (alone_body c op ho items hp)⟩

/-- `Run` of one map determines results: spelled out for a short history. -/
example : (oneMap Nat Nat).Run PMap.empty
    [(.set 4 1, .unit), (.trySet 4 2, .bool false), (.get 4, .val 1), (.len, .nat 1)] (PMap.empty.set 4 1) := by
  let μ : PMap Nat Nat := PMap.empty.set 4 1
  have h1 : (oneMap Nat Nat).Run PMap.empty [(.set 4 1, .unit)] μ := .snoc (l := []) (.nil _) ⟨rfl, rfl⟩
  have h2 : (oneMap Nat Nat).Run PMap.empty [(.set 4 1, .unit), (.trySet 4 2, .bool false)] μ :=
    .snoc (l := [_]) h1 ⟨rfl, rfl⟩
  have h3 : (oneMap Nat Nat).Run PMap.empty [(.set 4 1, .unit), (.trySet 4 2, .bool false), (.get 4, .val 1)] μ :=
    .snoc (l := [_, _]) h2 ⟨rfl, rfl⟩
  refine .snoc (l := [_, _, _]) h3 ?_
  · refine ⟨rfl, 1, rfl, [(4, 1)], ⟨by decide, fun k v => ?_⟩, rfl⟩
    show _ ↔ (if k = 4 then some 1 else none) = some v
    by_cases e : k = 4
    · subst e; simp [eq_comm]
    · simp [e]

/-- A history of this kind on two shards. -/
example : (play two (whole 0 (.set 4 1) 4 ++ whole 0 (.set 5 1) 4 ++ whole 0 (.trySet 4 2) 4 ++ whole 0 (.get 4) 3 ++
    whole 0 .len 6 ++ whole 0 .entries 8 ++ whole 0 .clear 6 ++ whole 0 .empty 6) (Config.init fresh)).map
      (fun x => returned x.1) =
    some [(0, .unit), (0, .unit), (0, .bool false), (0, .val 1), (0, .nat 2), (0, .entries [(4, 1), (5, 1)]),
      (0, .unit), (0, .bool true)] := by decide +kernel

/-! ## C34 -/

/-- Operations on single keys are linearizable, together with operations that only read (for which only
"they change nothing" is claimed). -/
theorem C34_sharded_linearizable (c : Conf K) (tr : List (Lab K V)) (s : Cfg K V)
    (he : Exec (body c) (Config.init fresh) tr s)
    (hop : Calls (fun _ op => SingleKey op ∨ ReadsAll op) tr) : Linearizable (mapSpec K V) (history tr) :=
  (sim c).linearizable he hop

/-- Two goroutines set and get the same key, interleaved. -/
def racing : List (Conc.Go (Op Nat Nat)) :=
  [.call 0 (.set 4 1), .act 0, .call 1 (.getOrSetFactory 4), .act 0, .act 0, .act 0, .act 1, .act 1, .ret 0,
    .call 0 (.delete 4), .act 1, .act 0, .act 0, .act 0, .act 0, .ret 1, .ret 0]

example : (play two racing (Config.init fresh)).map (fun x => returned x.1) =
    some [(0, .unit), (1, .pair 1 true), (0, .unit)] := by decide +kernel

/-! ## C35 -/

/-- If `k` is only written by `GetOrSet…` and never deleted:
1. the calls for `k` that return a value all return the same one, and at most one says `found = false`;
2. if all calls have returned and one returned a value, some call said `found = false`;
3. at most one run of a factory for `k` returns a value;
4. a call in which the factory ran and returned `v` returns `v` and `found = false`;
5. a call of `GetOrSetFactory` that says `found = false` has run its factory, and returns what that returned. -/
theorem C35_one_value (c : Conf K) (k : K) (tr : List (Lab K V)) (s : Cfg K V)
    (he : Exec (body c) (Config.init fresh) tr s) (hop : Calls (fun _ op => Keeps k op) tr) :
    (∃ v, ∀ i j op r, Returns (history tr) i j op r → GetsOrSets k op →
      r = .panic ∨ r = .pair v true ∨ r = .pair v false) ∧
    (∀ i j op v i' j' op' v', Returns (history tr) i j op (.pair v false) → GetsOrSets k op →
      Returns (history tr) i' j' op' (.pair v' false) → GetsOrSets k op' → i = i') ∧
    ((∀ t, s.th t = .idle) → ∀ i j op v, Returns (history tr) i j op (.pair v true) → GetsOrSets k op →
      ∃ i' j' op', Returns (history tr) i' j' op' (.pair v false) ∧ GetsOrSets k op') ∧
    tr.Pairwise (fun a b => ¬ (Made k a ∧ Made k b)) ∧
    (∀ l1 l2 l3 t v op r, tr = l1 ++ .act t (.factory k) (some v) :: l2 ++ .ret t op r :: l3 →
      (∀ op r, .ret t op r ∉ l2) → op = .getOrSetFactory k ∧ r = .pair v false) ∧
    (∀ l1 l2 t v, tr = l1 ++ .ret t (.getOrSetFactory k) (.pair v false) :: l2 → Ran k l1 t v) := by
  have hA : Calls (fun _ op => Allowed op) tr := fun t op h => (hop t op h).1
  obtain ⟨a, L, -, hb⟩ := (sim c).book he hA
  have hK : ∀ x ∈ L, Keeps k x.2.1 := by
    rintro ⟨i, op, r⟩ hx
    obtain ⟨t, ht⟩ := hb.inv i op r hx
    exact hop t op (call_of_history ht)
  have uniq : ∀ x ∈ L, ∀ y ∈ L, x.1 = y.1 → x = y := by
    intro x hx y hy e
    have := hb.nodup
    unfold List.Nodup at this
    rw [List.pairwise_map] at this
    obtain ⟨i, hi, rfl⟩ := List.mem_iff_getElem.1 hx
    obtain ⟨j, hj, rfl⟩ := List.mem_iff_getElem.1 hy
    rw [List.pairwise_iff_getElem] at this
    rcases Nat.lt_trichotomy i j with h | h | h
    · exact absurd e (this i j hi hj h)
    · subst h; rfl
    · exact absurd e.symm (this j i hj hi h)
  have cases_ := run_once hb.run hK
  have returned : ∀ i op r, (i, op, r) ∈ L → (∀ t, s.th t = .idle) → ∃ j, Returns (history tr) i j op r := by
    intro i op r hx hidle
    obtain ⟨t, ht⟩ := hb.inv i op r hx
    rcases he.returned i t op ht with ⟨⟨p, hp⟩, -⟩ | ⟨j, r', h⟩
    · rw [hidle t] at hp; cases hp
    · have := uniq _ (hb.all i j op r' h) _ hx rfl
      injection this with _ this
      injection this with _ this
      subst this
      exact ⟨j, h⟩
  refine ⟨?_, ?_, ?_, (made_once he hop).1, ?_, ?_⟩
  · rcases cases_ with ⟨-, h⟩ | ⟨v, l1, x, l2, -, hL, hx1, hx2, h1, h2⟩
    · exact ⟨default, fun i j op r hr hg => Or.inl (h _ (hb.all i j op r hr) hg)⟩
    · refine ⟨v, fun i j op r hr hg => ?_⟩
      have hm := hb.all i j op r hr
      rw [hL] at hm
      rcases List.mem_append.1 hm with hm | hm
      · exact Or.inl (h1 _ hm hg)
      · rcases List.mem_cons.1 hm with hm | hm
        · subst hm; exact Or.inr (Or.inr hx2)
        · exact Or.inr (Or.inl (h2 _ hm hg))
  · intro i j op v i' j' op' v' hr hg hr' hg'
    rcases cases_ with ⟨-, h⟩ | ⟨w, l1, x, l2, -, hL, hx1, hx2, h1, h2⟩
    · exact absurd (h _ (hb.all _ _ _ _ hr) hg) (by intro e; cases e)
    · have here : ∀ i j op v, Returns (history tr) i j op (.pair v false) → GetsOrSets k op → (i, op, .pair v false) = x := by
        intro i j op v hr hg
        have hm := hb.all i j op _ hr
        rw [hL] at hm
        rcases List.mem_append.1 hm with hm | hm
        · have := h1 _ hm hg; cases this
        · rcases List.mem_cons.1 hm with hm | hm
          · exact hm
          · have := h2 _ hm hg; cases this
      have e1 := here _ _ _ _ hr hg
      have e2 := here _ _ _ _ hr' hg'
      rw [← e2] at e1
      injection e1
  · intro hidle i j op v hr hg
    rcases cases_ with ⟨-, h⟩ | ⟨w, l1, x, l2, -, hL, hx1, hx2, h1, h2⟩
    · exact absurd (h _ (hb.all _ _ _ _ hr) hg) (by intro e; cases e)
    · have hw : w = v := by
        have hm := hb.all i j op _ hr
        rw [hL] at hm
        rcases List.mem_append.1 hm with hm | hm
        · have := h1 _ hm hg; cases this
        · rcases List.mem_cons.1 hm with hm | hm
          · subst hm; cases hx2
          · have := h2 _ hm hg; injection this with this; exact this.symm
      subst hw
      obtain ⟨i', op', r'⟩ := x
      simp only at hx2
      subst hx2
      obtain ⟨j', hj'⟩ := returned i' op' (.pair w false) (by rw [hL]; simp) hidle
      exact ⟨i', j', op', hj', hx1⟩
  · intro l1 l2 l3 t v op r e hn
    have e' : tr = (l1 ++ .act t (.factory k) (some v) :: l2) ++ (.ret t op r :: l3) := by rw [e]
    rw [e'] at he
    obtain ⟨s1, g1, g2⟩ := Exec.split _ _ he
    obtain ⟨s2, g3, -⟩ := Exec.split [.ret t op r] l3 g2
    have hA' : Calls (fun _ op => Allowed op) (l1 ++ .act t (.factory k) (some v) :: l2) :=
      fun u op hu => hA u op (by rw [e']; exact List.mem_append.2 (Or.inl hu))
    have hst := (storing_of_exec (k := k) g1 hA').1 t v ⟨l1, l2, rfl, hn⟩
    have g3 := g3.single
    cases g3 with
    | ret _ _ _ hr =>
      rcases hst with h | h | h
      · rw [hr] at h; injection h with _ h; cases h
      · rw [hr] at h; injection h with _ h; cases h
      · rw [hr] at h; injection h with h1 h2; injection h2 with h2; exact ⟨h1, h2⟩
  · intro l1 l2 t v e
    rw [e] at he
    obtain ⟨s1, g1, g2⟩ := Exec.split _ _ he
    obtain ⟨s2, g3, -⟩ := Exec.split [.ret t (.getOrSetFactory k) (.pair v false)] l2 g2
    have hA' : Calls (fun _ op => Allowed op) l1 :=
      fun u op hu => hA u op (by rw [e]; exact List.mem_append.2 (Or.inl hu))
    have hst := storing_of_exec (k := k) g1 hA'
    have g3 := g3.single
    cases g3 with
    | ret _ _ _ hr =>
      rcases hst.2 t _ hr with h | ⟨v', h⟩
      · exact absurd rfl (h v)
      · have h' := hst.1 t v' h
        rcases h' with h' | h' | h'
        · rw [hr] at h'; injection h' with _ h'; cases h'
        · rw [hr] at h'; injection h' with _ h'; cases h'
        · rw [hr] at h'; injection h' with h1 h2; injection h2 with h2; injection h2 with h2; subst h2; exact h

/-- Two goroutines both find the key absent; one makes the value, the other gets it. -/
def twoMakers : List (Conc.Go (Op Nat Nat)) :=
  [.call 0 (.getOrSetFactory 4), .call 1 (.getOrSetDefault 4 9)] ++ List.replicate 3 (.act 0) ++
    List.replicate 3 (.act 1) ++ List.replicate 6 (.act 0) ++ List.replicate 4 (.act 1) ++ [.ret 1, .ret 0]

example : (play two twoMakers (Config.init fresh)).map (fun x => returned x.1) =
    some [(1, .pair 7 true), (0, .pair 7 false)] := by decide +kernel

/-! ## C36 -/

/-- Without `Clear` there are no data races: who is about to write a table holds its lock alone, who is about
to read it holds it at least shared, and no two goroutines are about to access the same table, one writing.
What is missing: `Clear`, for which it is false (`C36_clear_races`). -/
theorem C36_race_free_partial (c : Conf K) (tr : List (Lab K V)) (s : Cfg K V)
    (he : Exec (body c) (Config.init fresh) tr s) (hop : Calls (fun _ op => op ≠ .clear) tr) :
    ¬ Race s ∧ ∀ t a, Next s t a →
      (∀ i f, a = .write i f → s.sh.lock i = ⟨some t, true, []⟩) ∧
      (∀ i, a = .read i → s.sh.lock i = ⟨some t, true, []⟩ ∨ t ∈ (s.sh.lock i).rd) := by
  have h : DiscInv .cov s := discInv (by decide) he (fun t op h _ => hop t op h)
  exact ⟨no_race_of_inv h, fun t a hn => covered_of_inv h hn⟩

/-- Full C36 (with `Clear`). -/
def C36_full_statement : Prop := ∀ (c : Conf Nat) (tr : List (Lab Nat Nat)) (s : Cfg Nat Nat),
  Exec (body c) (Config.init fresh) tr s → ¬ Race s

/-- `Clear` writes under `RLock`. -/
def clearing : List (Conc.Go (Op Nat Nat)) :=
  whole 0 (.set 4 1) 4 ++ [.call 0 .clear, .call 1 (.tryGet 4), .act 0, .act 1]

/-- The full statement is false: `Clear` and `TryGet` race. -/
theorem C36_clear_races : ¬ C36_full_statement := by
  intro h
  have hsome : (play two clearing (Config.init fresh)).isSome = true := by decide +kernel
  obtain ⟨⟨ls, cs, s⟩, hs⟩ := Option.isSome_iff_exists.1 hsome
  refine h two ls s (play_exec hs) ?_
  have hget : s = ((play two clearing (Config.init fresh)).get hsome).2.2 := by simp [hs]
  subst hget
  exact ⟨0, 1, 0, (fun _ => []), .read 0, by decide, ⟨_, _, rfl⟩, ⟨_, _, rfl⟩, rfl⟩

/-! ## C37 -/

/-- `Len` and `Empty`, complete calls:
1. `Len` is the sum of the numbers of entries in the shards, each at some moment of the call;
2. with one shard, or if nobody deletes during the call, or if nobody adds during the call, `Len` is the number of
   entries at one moment of the call;
3. if `Empty` says no, the map was not empty at some moment of the call;
4. if `Empty` says yes, each shard was empty at some moment of the call; with one shard, or if nobody deletes,
   the map was empty at some moment.
What is missing: one moment for several shards with both additions and deletions, for which it is false
(`C37_full_false`). -/
theorem C37_len_empty_partial (c : Conf K) (t : Tid) (r : Res K V) (tr0 tr : List (Lab K V)) (s0 s1 s2 : Cfg K V) :
    (GoodCall c t .len r tr0 tr s0 s1 s2 →
      (∃ ns : List Nat, ns.length = c.n ∧ r = .nat ns.sum ∧ ∀ (i : Nat) (n : Nat), ns[i]? = some n →
        ∃ m, During (body c) s1 tr s2 m ∧
          PMap.Size (fun k => if shardOf c k = i then absMap c m.sh.items k else none) n) ∧
      (c.n = 1 ∨ (∀ m, During (body c) s1 tr s2 m → NoDelete m) ∨ (∀ m, During (body c) s1 tr s2 m → NoAdd m) →
        ∃ n m, r = .nat n ∧ During (body c) s1 tr s2 m ∧ (absMap c m.sh.items).Size n)) ∧
    (GoodCall c t .empty r tr0 tr s0 s1 s2 →
      (r = .bool true ∨ r = .bool false ∧ ∃ m, During (body c) s1 tr s2 m ∧ absMap c m.sh.items ≠ PMap.empty) ∧
      (r = .bool true → ∀ k, ∃ m, During (body c) s1 tr s2 m ∧
        ∀ k', shardOf c k' = shardOf c k → absMap c m.sh.items k' = none) ∧
      (r = .bool true → c.n = 1 ∨ (∀ m, During (body c) s1 tr s2 m → NoDelete m) →
        ∃ m, During (body c) s1 tr s2 m ∧ absMap c m.sh.items = PMap.empty)) := by
  refine ⟨fun h => ⟨len_shards h, ?_⟩, fun h => ⟨empty_false h, ?_, ?_⟩⟩
  · rintro (h' | h' | h')
    · exact len_one h h'
    · exact len_growing h h'
    · exact len_shrinking h h'
  · rintro rfl; exact empty_shards h
  · rintro rfl (h' | h')
    · exact empty_one h h'
    · exact ⟨s1, .first h.inside, empty_growing h h'⟩

/-- Full C37 for `Empty` and `Len`. -/
def C37_full_statement : Prop := ∀ (c : Conf Nat) (t : Tid) (r : Res Nat Nat) (tr0 tr : List (Lab Nat Nat))
  (s0 s1 s2 : Cfg Nat Nat),
  (GoodCall c t .empty r tr0 tr s0 s1 s2 → r = .bool true →
    ∃ m, During (body c) s1 tr s2 m ∧ absMap c m.sh.items = PMap.empty) ∧
  (GoodCall c t .len r tr0 tr s0 s1 s2 →
    ∃ n m, r = .nat n ∧ During (body c) s1 tr s2 m ∧ (absMap c m.sh.items).Size n)

/-- Before the call: key 1 is set. -/
def prelude_ : List (Conc.Go (Op Nat Nat)) := whole 0 (.set 1 10) 4
/-- During the call of goroutine 1: it looks at shard 0; key 0 is set; key 1 is deleted; it looks at shard 1. -/
def during_ : List (Conc.Go (Op Nat Nat)) :=
  List.replicate 3 (.act 1) ++ whole 0 (.set 0 5) 4 ++ whole 0 (.delete 1) 4 ++ List.replicate 3 (.act 1)

/-- The calls in a trace are allowed and goroutine 1 does not return. -/
def fine (ls : List (Lab Nat Nat)) : Bool := ls.all fun l => match l with
  | .call _ (.set _ _) => true
  | .call _ (.delete _) => true
  | .call _ _ => false
  | .ret t _ _ => t != 1
  | _ => true

theorem fine_calls {ls : List (Lab Nat Nat)} (h : fine ls = true) :
    Calls (fun _ op => Allowed op) ls ∧ ∀ op r, .ret 1 op r ∉ ls := by
  unfold fine at h
  rw [List.all_eq_true] at h
  constructor
  · intro t op hm
    have := h _ hm
    cases op <;> first | exact Or.inl trivial | (exfalso; simp at this)
  · intro op r hm
    have := h _ hm
    simp at this

/-- In the state, key 0 or key 1 is there. -/
def inhabited_ (m : Cfg Nat Nat) : Bool := (absMap two m.sh.items 0).isSome || (absMap two m.sh.items 1).isSome

theorem shown_call (gs : List (Conc.Go (Op Nat Nat))) (op : Op Nat Nat) (r : Res Nat Nat)
    (h : ((play two prelude_ (Config.init fresh)).bind fun x =>
      (play two [.call 1 op] x.2.2).bind fun y => (play two gs y.2.2).map fun z =>
        (fine x.1 && fine z.1 && z.2.1.all inhabited_, y.2.2.th 1, z.2.2.th 1)) =
        some (true, .run op (body two op), .run op (.ret r))) :
    ∃ tr0 tr s0 s1 s2, FullCall (body two) (Config.init fresh) 1 op r tr0 tr s0 s1 s2 ∧
      Calls (fun _ op => Allowed op) tr0 ∧ Calls (fun _ op => Allowed op) tr ∧
      ∀ m, During (body two) s1 tr s2 m → inhabited_ m = true := by
  cases hx : play two prelude_ (Config.init fresh) with
  | none => rw [hx] at h; cases h
  | some x =>
    rw [hx, Option.bind_some] at h
    cases hy : play two [.call 1 op] x.2.2 with
    | none => rw [hy] at h; cases h
    | some y =>
      rw [hy, Option.bind_some] at h
      cases hz : play two gs y.2.2 with
      | none => rw [hz] at h; cases h
      | some z =>
        rw [hz, Option.map_some, Option.some.injEq] at h
        injection h with h1 h2
        injection h2 with h2 h3
        simp only [Bool.and_eq_true] at h1
        obtain ⟨tr0, cs0, s0⟩ := x
        obtain ⟨tr1, cs1, s1⟩ := y
        obtain ⟨tr, cs, s2⟩ := z
        have c1 := fine_calls h1.1.1
        have c2 := fine_calls h1.1.2
        have hcall : Step (body two) s0 (.call 1 op) s1 := by
          unfold play at hy
          simp only [followAll] at hy
          cases hf : follow (M := mach Nat Nat) (R := Res Nat Nat) (body two) outcome s0 (.call 1 op) with
          | none => rw [hf] at hy; cases hy
          | some w =>
            rw [hf] at hy
            simp only [Option.some.injEq, Prod.mk.injEq] at hy
            obtain ⟨l, s⟩ := w
            obtain ⟨-, -, rfl⟩ := hy
            have := follow_step outcome_step hf
            simp only [follow] at hf
            split at hf
            · simp only [Option.some.injEq, Prod.mk.injEq] at hf
              obtain ⟨rfl, -⟩ := hf
              exact this
            · cases hf
        refine ⟨tr0, tr, s0, s1, s2, ⟨play_exec hx, hcall, play_exec hz, c2.2, h3⟩, c1.1, c2.1, ?_⟩
        intro m hm
        exact List.all_eq_true.1 h1.2 m (play_during hz hm)

theorem bad_call (gs : List (Conc.Go (Op Nat Nat))) (op : Op Nat Nat) (r : Res Nat Nat) (hop : Allowed op)
    (h : ((play two prelude_ (Config.init fresh)).bind fun x =>
      (play two [.call 1 op] x.2.2).bind fun y => (play two gs y.2.2).map fun z =>
        (fine x.1 && fine z.1 && z.2.1.all inhabited_, y.2.2.th 1, z.2.2.th 1)) =
        some (true, .run op (body two op), .run op (.ret r))) :
    ∃ tr0 tr s0 s1 s2, GoodCall two 1 op r tr0 tr s0 s1 s2 ∧
      ∀ m, During (body two) s1 tr s2 m → inhabited_ m = true := by
  obtain ⟨tr0, tr, s0, s1, s2, h1, h2, h3, h4⟩ := shown_call gs op r h
  exact ⟨tr0, tr, s0, s1, s2, ⟨h1, h2, hop, h3⟩, h4⟩

theorem not_empty_of_inhabited {m : Cfg Nat Nat} (h : inhabited_ m = true) : absMap two m.sh.items ≠ PMap.empty := by
  intro e
  unfold inhabited_ at h
  rw [e] at h
  simp [PMap.empty] at h

/-- `Empty` can say yes although the map never was empty during the call, and `Len` can be 0. -/
theorem C37_full_false : ¬ C37_full_statement := by
  intro h
  obtain ⟨tr0, tr, s0, s1, s2, hc, hm⟩ := bad_call during_ .empty (.bool true) (Or.inr trivial) (by rfl)
  obtain ⟨m, hd, e⟩ := (h two 1 _ tr0 tr s0 s1 s2).1 hc rfl
  exact not_empty_of_inhabited (hm m hd) e

/-- The same for `Len`: it returns 0 although there always was an entry. -/
theorem C37_len_false : ∃ (tr0 tr : List (Lab Nat Nat)) (s0 s1 s2 : Cfg Nat Nat), GoodCall two 1 .len (.nat 0) tr0 tr s0 s1 s2 ∧
    ∀ m, During (body two) s1 tr s2 m → ¬ (absMap two m.sh.items).Size 0 := by
  obtain ⟨tr0, tr, s0, s1, s2, hc, hm⟩ := bad_call during_ .len (.nat 0) (Or.inr trivial) (by rfl)
  refine ⟨tr0, tr, s0, s1, s2, hc, fun m hd => ?_⟩
  rintro ⟨l, hl, h0⟩
  have : l = [] := List.length_eq_zero_iff.1 h0
  subst this
  refine not_empty_of_inhabited (hm m hd) (funext fun k => ?_)
  cases hk : absMap two m.sh.items k with
  | none => rfl
  | some v => exact absurd ((hl.mem k v).2 hk) (by simp)

/-! ## C38 -/

/-- No deadlock: in every reachable state in which some call is unfinished some unfinished call can go on; there is
no infinite sequence of steps without new calls; hence when nothing can go on all calls are finished. -/
theorem C38_no_deadlock (c : Conf K) (tr : List (Lab K V)) (s : Cfg K V)
    (he : Exec (body c) (Config.init fresh) tr s) :
    ((∃ t, s.th t ≠ .idle) → ∃ s', InnerStep (body c) s s') ∧
    (∀ f : Nat → Cfg K V, f 0 = s → ¬ ∀ n, InnerStep (body c) (f n) (f (n + 1))) ∧
    ((∀ s', ¬ InnerStep (body c) s s') → ∀ t, s.th t = .idle) := by
  have h : DiscInv .any s := discInv (by decide) he (fun t op _ e => by cases e)
  have h1 : (∃ t, s.th t ≠ .idle) → ∃ s', InnerStep (body c) s s' := by
    rintro ⟨t, ht⟩
    exact unstuck_of_inv h ht
  refine ⟨h1, fun f h0 => he.no_infinite f h0, fun hn t => ?_⟩
  cases hs : s.th t with
  | idle => rfl
  | run op p =>
    obtain ⟨s', hs'⟩ := h1 ⟨t, by rw [hs]; intro e; cases e⟩
    exact absurd hs' (hn s')

/-- Here goroutine 1 has to wait for goroutine 0, which can go on. -/
example : (play two [.call 0 (.set 4 1), .act 0, .call 1 (.set 6 1), .act 1] (Config.init fresh)).isNone = true ∧
    (play two [.call 0 (.set 4 1), .act 0, .call 1 (.set 6 1), .act 0] (Config.init fresh)).isSome = true := by
  decide +kernel

/-! ## C67 -/

/-- `Entries` during updates: each key at most once, only entries that were there at a moment of the call, and
all entries that were there throughout. -/
theorem C67_entries_weakly_consistent (c : Conf K) (t : Tid) (r : Res K V) (tr0 tr : List (Lab K V))
    (s0 s1 s2 : Cfg K V) (h : GoodCall c t .entries r tr0 tr s0 s1 s2) :
    ∃ l, r = .entries l ∧ (l.map Prod.fst).Nodup ∧
      (∀ k v, (k, v) ∈ l → ∃ m, During (body c) s1 tr s2 m ∧ absMap c m.sh.items k = some v) ∧
      ∀ k v, (∀ m, During (body c) s1 tr s2 m → absMap c m.sh.items k = some v) → (k, v) ∈ l :=
  entries_moments h

/-- `Entries` misses both: key 1 is deleted after key 0 was set, and is looked for last. -/
example : ∃ (tr0 tr : List (Lab Nat Nat)) (s0 s1 s2 : Cfg Nat Nat),
    GoodCall two 1 .entries (.entries []) tr0 tr s0 s1 s2 := by
  obtain ⟨tr0, tr, s0, s1, s2, hc, -⟩ := bad_call
    (List.replicate 4 (.act 1) ++ whole 0 (.set 0 5) 4 ++ whole 0 (.delete 1) 4 ++ List.replicate 4 (.act 1))
    .entries (.entries []) (Or.inr trivial) (by rfl)
  exact ⟨tr0, tr, s0, s1, s2, hc⟩

/-- `Entries` sees key 1, which is there throughout, and key 3, which is set meanwhile; not key 0. -/
example : ∃ (tr0 tr : List (Lab Nat Nat)) (s0 s1 s2 : Cfg Nat Nat),
    GoodCall two 1 .entries (.entries [(1, 10), (3, 6)]) tr0 tr s0 s1 s2 := by
  obtain ⟨tr0, tr, s0, s1, s2, hc, -⟩ := bad_call
    (List.replicate 4 (.act 1) ++ whole 0 (.set 0 5) 4 ++ whole 0 (.set 3 6) 4 ++ List.replicate 4 (.act 1))
    .entries (.entries [(1, 10), (3, 6)]) (Or.inr trivial) (by rfl)
  exact ⟨tr0, tr, s0, s1, s2, hc⟩

end Verif.Sharded.Props
