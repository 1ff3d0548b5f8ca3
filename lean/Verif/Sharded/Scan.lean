import Verif.Conc.Moment
import Verif.Sharded.Once

/-!
# Operations that go through the shards one after the other
-/

set_option linter.unusedSectionVars false
set_option linter.unusedVariables false

namespace Verif.Sharded

open Verif.Conc Verif.GoMap

variable {K V : Type} [DecidableEq K] [Inhabited V]

/-- The program reads shard after shard, from the one numbered by the length of `xs`, the tables already
read, and returns a result that is as `Q` says for all tables read. -/
def Scan (Q : List (Tab K V) → Res K V → Prop) : List (Tab K V) → P K V (Res K V) → Prop
  | xs, .ret r => Q xs r
  | xs, .act (.read i) k => i = xs.length ∧ ∀ m, Scan Q (xs ++ [m]) (k m)
  | xs, .act _ k => ∀ ans, Scan Q xs (k ans)

/-- Each table in `xs` was at some moment the table of its shard. -/
def Seen (c : Conf K) (s1 : Cfg K V) (tr : List (Lab K V)) (s2 : Cfg K V) (xs : List (Tab K V)) : Prop :=
  ∀ (i : Nat) (x : Tab K V), xs[i]? = some x → ∃ m, During (body c) s1 tr s2 m ∧ m.sh.items i = x

/-- What a call that scans has read were tables of the shards at moments of the call. -/
theorem scan_seen {c : Conf K} {t : Tid} {op : Op K V} {Q : List (Tab K V) → Res K V → Prop} {s1 s2 : Cfg K V}
    {tr : List (Lab K V)} (he : Exec (body c) s1 tr s2) (hn : ∀ op r, .ret t op r ∉ tr)
    (h1 : ∃ p, s1.th t = .run op p ∧ Scan Q [] p) :
    ∃ xs p, s2.th t = .run op p ∧ Scan Q xs p ∧ Seen c s1 tr s2 xs := by
  induction he with
  | nil =>
    obtain ⟨p, e1, e2⟩ := h1
    exact ⟨[], p, e1, e2, fun i x h => by cases h⟩
  | @snoc tr s s' l he hs ih =>
    obtain ⟨xs, p, e1, e2, e3⟩ := ih (fun op r h => hn op r (by simp [h]))
    have keep : Seen c s1 (tr ++ [l]) s' xs := by
      intro i x hx
      obtain ⟨m, hm, e⟩ := e3 i x hx
      exact ⟨m, hm.snoc hs, e⟩
    have last : During (body c) s1 (tr ++ [l]) s' s := (During.last he).snoc hs
    cases hs with
    | call u op' hi =>
      have : t ≠ u := by rintro rfl; rw [hi] at e1; cases e1
      exact ⟨xs, p, by simp only [upd_other _ _ this]; exact e1, e2, keep⟩
    | ret u op' r hr =>
      have : t ≠ u := by rintro rfl; exact hn op' r (by simp)
      exact ⟨xs, p, by simp only [upd_other _ _ this]; exact e1, e2, keep⟩
    | act u op' a k ans sh' hr hst =>
      by_cases e : t = u
      · subst e
        rw [hr] at e1
        injection e1 with h1 h2
        subst h1 h2
        have other : Scan Q xs (k ans) → ∃ xs p, (Config.mk sh' (upd s.th t (.run op' (k ans)))).th t = .run op' p ∧
            Scan Q xs p ∧ Seen c s1 (tr ++ [.act t a ans]) ⟨sh', upd s.th t (.run op' (k ans))⟩ xs :=
          fun h => ⟨xs, k ans, by simp only [upd_same], h, keep⟩
        cases a with
        | read i =>
          cases hst with
          | read _ _ =>
            obtain ⟨f1, f2⟩ := e2
            refine ⟨xs ++ [s.sh.items i], _, by simp only [upd_same], f2 _, ?_⟩
            intro j x hx
            rcases getElem?_snoc hx with hx' | ⟨rfl, hx'⟩
            · exact keep j x hx'
            · exact ⟨s, last, by rw [← f1]; exact hx'⟩
        | lockBegin i => exact other (e2 ans)
        | lockWait i => exact other (e2 ans)
        | unlock i => exact other (e2 ans)
        | rlock i => exact other (e2 ans)
        | runlock i => exact other (e2 ans)
        | write i f => exact other (e2 ans)
        | factory x => exact other (e2 ans)
        | callback => exact other (e2 ans)
        | edit => exact other (e2 ans)
        | order => exact other (e2 ans)
      · exact ⟨xs, p, by simp only [upd_other _ _ e]; exact e1, e2, keep⟩

/-! ## The loops -/

theorem scan_lenLoop (n : Nat) : ∀ (rem : Nat) (xs : List (Tab K V)), xs.length + rem = n →
    Scan (fun ys r => ys.length = n ∧ r = .nat (ys.map List.length).sum) xs
      (lenLoop xs.length rem (xs.map List.length).sum) := by
  intro rem
  induction rem with
  | zero => intro xs h; exact ⟨h, rfl⟩
  | succ rem ih =>
    intro xs h _
    refine ⟨rfl, fun m _ => ?_⟩
    have := ih (xs ++ [m]) (by simp; omega)
    simp only [List.length_append, List.length_cons, List.length_nil, List.map_append, List.map_cons, List.map_nil,
      List.sum_append, List.sum_cons, List.sum_nil, Nat.add_zero, Nat.zero_add] at this
    exact this

theorem scan_emptyLoop (n : Nat) : ∀ (rem : Nat) (xs : List (Tab K V)), xs.length + rem = n → (∀ x ∈ xs, x = []) →
    Scan (fun ys r => (r = .bool true ∧ ys.length = n ∧ ∀ x ∈ ys, x = []) ∨ (r = .bool false ∧ ∃ x ∈ ys, x ≠ [])) xs
      (emptyLoop xs.length rem) := by
  intro rem
  induction rem with
  | zero => intro xs h hx; exact Or.inl ⟨rfl, h, hx⟩
  | succ rem ih =>
    intro xs h hx _
    refine ⟨rfl, fun m _ => ?_⟩
    show Scan _ _ (if m.length > 0 then (pure (.bool false) : P K V (Res K V)) else emptyLoop (xs.length + 1) rem)
    split
    · rename_i hm
      refine Or.inr ⟨rfl, m, by simp, ?_⟩
      rintro rfl; simp at hm
    · rename_i hm
      have hm : m = [] := List.length_eq_zero_iff.1 (by omega)
      have := ih (xs ++ [m]) (by simp; omega) (by
        intro x h; rcases List.mem_append.1 h with h | h
        · exact hx x h
        · simp at h; rw [h, hm])
      simp only [List.length_append, List.length_cons, List.length_nil, Nat.zero_add] at this
      exact this

/-- Lists that go through tables in some orders. -/
def Through (xs vs : List (Tab K V)) : Prop := vs.length = xs.length ∧
  ∀ (i : Nat) (x v : Tab K V), xs[i]? = some x → vs[i]? = some v → v.Perm x

theorem scan_collectLoop {α : Type} (n : Nat) (add : α → List (K × V) → α) (init : α) (f : α → Res K V) : ∀ (rem : Nat)
    (xs vs : List (Tab K V)), xs.length + rem = n → Through xs vs →
    Scan (fun ys r => ys.length = n ∧ ∃ ws, Through ys ws ∧ r = f (ws.foldl add init)) xs
      (collectLoop add xs.length rem (vs.foldl add init) >>= fun a => pure (f a)) := by
  intro rem
  induction rem with
  | zero => intro xs vs h hv; exact ⟨h, vs, hv, rfl⟩
  | succ rem ih =>
    intro xs vs h hv _
    refine ⟨rfl, fun m o _ => ?_⟩
    have := ih (xs ++ [m]) (vs ++ [o.visit m]) (by simp; omega) (by
      refine ⟨by simp [hv.1], fun i x v hx hv' => ?_⟩
      rcases getElem?_snoc hx with h1 | ⟨rfl, rfl⟩
      · rcases getElem?_snoc hv' with h2 | ⟨e, _⟩
        · exact hv.2 i x v h1 h2
        · have := (List.getElem?_eq_some_iff.1 h1).1
          rw [hv.1] at e; omega
      · rcases getElem?_snoc hv' with h2 | ⟨e, rfl⟩
        · have := (List.getElem?_eq_some_iff.1 h2).1
          rw [hv.1] at this; omega
        · exact o.perm _)
    rw [List.foldl_append] at this
    simp only [List.length_append, List.length_cons, List.length_nil, Nat.zero_add] at this
    exact this

/-! ## How tables change -/

/-- The changes of tables, with the number of the shard, that a call of the operation makes. -/
def WriteOf (c : Conf K) : Op K V → Nat → (Tab K V → Tab K V) → Prop
  | .set k v, i, f | .trySet k v, i, f | .getOrSetDefault k v, i, f => i = shardOf c k ∧ f = (·.put k v)
  | .getOrSetFactory k, i, f => i = shardOf c k ∧ ∃ v, f = (·.put k v)
  | .delete k, i, f => i = shardOf c k ∧ f = (·.del k)
  | .clear, _, f => f = fun _ => []
  | .iterateShards, _, f => ∀ m, m.WF → (f m).WF
  | _, _, _ => False

/-- All changes in the program are such. -/
def Writes (W : Nat → (Tab K V → Tab K V) → Prop) {R : Type} : P K V R → Prop
  | .ret _ => True
  | .act (.write i f) k => W i f ∧ Writes W (k ())
  | .act _ k => ∀ ans, Writes W (k ans)

theorem writes_of_ro {W : Nat → (Tab K V → Tab K V) → Prop} {R : Type} : ∀ {h : Held} {p : P K V R}, Disc .ro h p → Writes W p
  | _, .ret r, _ => trivial
  | _, .act (.lockBegin i) k, ⟨_, _, _, h⟩ => fun ans => writes_of_ro (h ans)
  | _, .act (.lockWait i) k, ⟨_, _, _, h⟩ => fun ans => writes_of_ro (h ans)
  | _, .act (.unlock i) k, ⟨_, _, _, h⟩ => fun ans => writes_of_ro (h ans)
  | _, .act (.rlock i) k, ⟨_, _, _, h⟩ => fun ans => writes_of_ro (h ans)
  | _, .act (.runlock i) k, ⟨_, _, _, h⟩ => fun ans => writes_of_ro (h ans)
  | _, .act (.read i) k, ⟨_, _, _, h⟩ => fun ans => writes_of_ro (h ans)
  | _, .act (.write i f) k, ⟨_, _, h, _⟩ => absurd h (by simp [Covered])
  | _, .act (.factory x) k, ⟨_, _, h, _⟩ => absurd h (by simp [Covered])
  | _, .act .callback k, ⟨_, _, _, h⟩ => fun ans => writes_of_ro (h ans)
  | _, .act .edit k, ⟨_, _, _, h⟩ => fun ans => writes_of_ro (h ans)
  | _, .act .order k, ⟨_, _, _, h⟩ => fun ans => writes_of_ro (h ans)

theorem writes_clearLoop (c : Conf K) : ∀ (rem i : Nat), Writes (WriteOf c (.clear : Op K V)) (clearLoop (K := K) (V := V) i rem)
  | 0, _ => trivial
  | rem + 1, i => fun _ => ⟨rfl, fun _ => writes_clearLoop c rem (i + 1)⟩

theorem writes_iterateShardsLoop (c : Conf K) (rem : Nat) : ∀ i : Nat,
    Writes (WriteOf c (.iterateShards : Op K V)) (iterateShardsLoop (K := K) (V := V) i rem) := by
  induction rem with
  | zero => intro i; trivial
  | succ rem ih =>
    intro i _ _ f
    cases f with
    | none => exact fun _ => trivial
    | some f => exact ⟨f.2, fun _ => ih (i + 1)⟩

theorem writes_tryGetCore {W : Nat → (Tab K V → Tab K V) → Prop} {R : Type} {c : Conf K} {k : K} {f : Option V → P K V R}
    (h : ∀ o, Writes W (f o)) : Writes W (tryGetCore c k >>= f) := fun _ m _ => h (m.get? k)

theorem writes_body (c : Conf K) (op : Op K V) : Writes (WriteOf c op) (body c op) := by
  cases op with
  | set k v => exact fun _ _ => ⟨⟨rfl, rfl⟩, fun _ => trivial⟩
  | trySet k v =>
    intro _ _ m
    show Writes _ (match m.get? k with
      | some _ => ((do step_ (.unlock (shardOf c k)); return .bool false) : P K V (Res K V))
      | none => do step_ (.write (shardOf c k) (·.put k v)); step_ (.unlock (shardOf c k)); return .bool true)
    cases m.get? k with
    | none => exact ⟨⟨rfl, rfl⟩, fun _ => trivial⟩
    | some w => exact fun _ => trivial
  | get k =>
    refine writes_tryGetCore fun o => ?_
    cases o <;> trivial
  | tryGet k =>
    refine writes_tryGetCore fun o => ?_
    cases o <;> trivial
  | getOrSetFactory k =>
    refine writes_tryGetCore fun o => ?_
    cases o with
    | some v => trivial
    | none =>
      intro _ _ m
      have key : ∀ o : Option V, Writes (WriteOf c (.getOrSetFactory k)) (match o with
        | some v => ((do
          step_ (.unlock (shardOf c k))
          return .pair v true) : P K V (Res K V))
        | none => do
          let w ← callFactory k
          match w with
          | none => do
            step_ (.unlock (shardOf c k))
            return .panic
          | some v => do
            step_ (.write (shardOf c k) (·.put k v))
            step_ (.unlock (shardOf c k))
            return .pair v false) := by
        intro o
        cases o with
        | some v => exact fun _ => trivial
        | none =>
          have : ∀ w : Option V, Writes (WriteOf c (.getOrSetFactory k)) (match w with
            | none => ((do
              step_ (.unlock (shardOf c k))
              return .panic) : P K V (Res K V))
            | some v => do
              step_ (.write (shardOf c k) (·.put k v))
              step_ (.unlock (shardOf c k))
              return .pair v false) := by
            intro w
            cases w with
            | none => exact fun _ => trivial
            | some v => exact ⟨⟨rfl, v, rfl⟩, fun _ => trivial⟩
          exact this
      exact key _
  | getOrSetDefault k d =>
    refine writes_tryGetCore fun o => ?_
    cases o with
    | some v => trivial
    | none =>
      intro _ _ m
      show Writes _ (match m.get? k with
        | some v => ((do step_ (.unlock (shardOf c k)); return .pair v true) : P K V (Res K V))
        | none => do step_ (.write (shardOf c k) (·.put k d)); step_ (.unlock (shardOf c k)); return .pair d false)
      cases m.get? k with
      | none => exact ⟨⟨rfl, rfl⟩, fun _ => trivial⟩
      | some w => exact fun _ => trivial
  | delete k => exact fun _ _ => ⟨⟨rfl, rfl⟩, fun _ => trivial⟩
  | has k => exact fun _ _ _ => trivial
  | iterateShards => exact writes_iterateShardsLoop _ _ _
  | clear => exact writes_clearLoop _ _ _
  | len => exact writes_of_ro (disc_lenLoop _ _ _)
  | empty => exact writes_of_ro (disc_emptyLoop _ _)
  | iterate => exact writes_of_ro (disc_iterateLoop _ _ _)
  | iterateShardsReadOnly => exact writes_of_ro (disc_readOnlyLoop _ _)
  | keys => exact writes_of_ro (Disc.bind (fun _ => disc_ret) (discTo_self.2 (disc_collectLoop _ _ _ _)))
  | values => exact writes_of_ro (Disc.bind (fun _ => disc_ret) (discTo_self.2 (disc_collectLoop _ _ _ _)))
  | entries => exact writes_of_ro (Disc.bind (fun _ => disc_ret) (discTo_self.2 (disc_collectLoop _ _ _ _)))
  | toMap => exact writes_of_ro (Disc.bind (fun _ => disc_ret) (discTo_self.2 (disc_collectLoop _ _ _ _)))

/-- Goroutines only have changes of their operation ahead. -/
theorem writes_of_exec {c : Conf K} {tr : List (Lab K V)} {s : Cfg K V}
    (he : Exec (body c) (Config.init fresh) tr s) : ∀ t op p, s.th t = .run op p → Writes (WriteOf c op) p := by
  refine Exec.invariant (P := fun _ _ => True) (fun s : Cfg K V => ∀ t op p, s.th t = .run op p → Writes (WriteOf c op) p)
    ?_ ?_ ?_ ?_ he (fun _ _ _ => trivial)
  · intro t op p h; cases h
  · intro s t op hI _ hi u op' p h
    by_cases e : u = t
    · subst e; simp only [upd_same] at h; injection h with h1 h2; subst h1 h2; exact writes_body c _
    · simp only [upd_other _ _ e] at h; exact hI u op' p h
  · intro s t op a kk ans sh' hI hr hs u op' p h
    by_cases e : u = t
    · subst e
      simp only [upd_same] at h
      injection h with h1 h2
      subst h1 h2
      have := hI u op _ hr
      cases a with
      | write i f => exact this.2
      | lockBegin i => exact this ans
      | lockWait i => exact this ans
      | unlock i => exact this ans
      | rlock i => exact this ans
      | runlock i => exact this ans
      | read i => exact this ans
      | factory x => exact this ans
      | callback => exact this ans
      | edit => exact this ans
      | order => exact this ans
    · simp only [upd_other _ _ e] at h; exact hI u op' p h
  · intro s t op r hI hr u op' p h
    by_cases e : u = t
    · subst e; simp only [upd_same] at h; cases h
    · simp only [upd_other _ _ e] at h; exact hI u op' p h

/-! ## Sizes -/

/-- Sum of the sizes of the tables. -/
def total (n : Nat) (items : Nat → Tab K V) : Nat := ((List.range n).map fun i => (items i).length).sum

theorem size_total {c : Conf K} {items : Nat → Tab K V} (h : Placed c items) : (absMap c items).Size (total c.n items) := by
  refine ⟨_, lists_shards h items (fun _ => List.Perm.refl _), ?_⟩
  rw [List.length_flatMap]
  rfl

theorem sum_le {l : List Nat} {f g : Nat → Nat} (h : ∀ i ∈ l, f i ≤ g i) : (l.map f).sum ≤ (l.map g).sum := by
  induction l with
  | nil => simp
  | cons x l ih =>
    simp only [List.map_cons, List.sum_cons]
    have := h x (by simp)
    have := ih (fun i hi => h i (by simp [hi]))
    omega

theorem total_set1 (n : Nat) (items : Nat → Tab K V) (i : Nat) (m : Tab K V) (d : Nat) :
    ((items i).length ≤ m.length ∧ m.length ≤ (items i).length + d →
      total n items ≤ total n (set1 items i m) ∧ total n (set1 items i m) ≤ total n items + d) ∧
    (m.length ≤ (items i).length ∧ (items i).length ≤ m.length + d →
      total n (set1 items i m) ≤ total n items ∧ total n items ≤ total n (set1 items i m) + d) := by
  have key : ∀ l : List Nat, l.Nodup →
      (i ∉ l ∧ (l.map fun j => (set1 items i m j).length).sum = (l.map fun j => (items j).length).sum) ∨
      (i ∈ l ∧ (l.map fun j => (set1 items i m j).length).sum + (items i).length =
        (l.map fun j => (items j).length).sum + m.length) := by
    intro l
    induction l with
    | nil => intro _; left; simp
    | cons x l ih =>
      intro hn
      rw [List.nodup_cons] at hn
      simp only [List.map_cons, List.sum_cons, List.mem_cons]
      by_cases e : x = i
      · subst e
        rw [set1_same]
        rcases ih hn.2 with ⟨_, h⟩ | ⟨h, _⟩
        · right; exact ⟨Or.inl rfl, by omega⟩
        · exact absurd h hn.1
      · rw [set1_other _ _ e]
        rcases ih hn.2 with ⟨h1, h⟩ | ⟨h1, h⟩
        · left; exact ⟨by rintro (h | h); exact e h.symm; exact h1 h, by omega⟩
        · right; exact ⟨Or.inr h1, by omega⟩
  unfold total
  rcases key (List.range n) List.nodup_range with ⟨_, h⟩ | ⟨_, h⟩
  · rw [h]
    constructor <;> intro _ <;> constructor <;> omega
  · constructor <;> intro h' <;> constructor <;> omega

theorem put_length (m : Tab K V) (k : K) (v : V) : m.length ≤ (m.put k v).length ∧ (m.put k v).length ≤ m.length + 1 := by
  unfold Tab.put
  split
  · rw [List.length_map]; omega
  · rw [List.length_append]; simp

theorem del_length {m : Tab K V} (h : m.WF) (k : K) : (m.del k).length ≤ m.length ∧ m.length ≤ (m.del k).length + 1 := by
  unfold Tab.del
  refine ⟨List.length_filter_le _ _, ?_⟩
  induction m with
  | nil => simp
  | cons e m ih =>
    have h' := List.pairwise_cons.1 h
    by_cases c : (e.1 == k) = true
    · have hall : m.filter (fun e => !(e.1 == k)) = m := by
        rw [List.filter_eq_self]
        intro x hx
        have := h'.1 x hx
        have e1 : e.1 = k := by simpa using c
        rw [e1] at this
        have : ¬ k = x.1 := by simpa using this
        simp
        exact fun h => this h.symm
      rw [List.filter_cons_of_neg (by simp [c]), hall]
      simp
    · rw [List.filter_cons_of_pos (by simp [c])]
      simp only [List.length_cons]
      have := ih h'.2
      omega

/-- No goroutine is in a `Delete`. -/
def NoDelete (s : Cfg K V) : Prop := ∀ t k p, s.th t ≠ .run (.delete k) p

/-- The operation changes no table. -/
def ReadOnly : Op K V → Prop
  | .set _ _ | .trySet _ _ | .getOrSetDefault _ _ | .getOrSetFactory _ | .delete _ | .clear | .iterateShards => False
  | _ => True

/-- No goroutine is in an operation that can add entries. -/
def NoAdd (s : Cfg K V) : Prop := ∀ t op p, s.th t = .run op p → (∃ k, op = .delete k) ∨ ReadOnly op

theorem allowed_of_exec {c : Conf K} {tr : List (Lab K V)} {s : Cfg K V} (he : Exec (body c) (Config.init fresh) tr s)
    (hP : Calls (fun _ op => Allowed op) tr) {t : Tid} {op : Op K V} {p : P K V (Res K V)} (h : s.th t = .run op p) :
    Allowed op := by
  obtain ⟨a, held, know, hrel⟩ := rel_of_exec he hP
  have := hrel.th t
  rw [h] at this
  exact this.1

/-- A step while nobody deletes. -/
theorem step_grows {c : Conf K} {tr : List (Lab K V)} {s s' : Cfg K V} {l : Lab K V}
    (he : Exec (body c) (Config.init fresh) tr s) (hP : Calls (fun _ op => Allowed op) tr) (hs : Step (body c) s l s')
    (hd : NoDelete s) : (∀ i, (s.sh.items i).length ≤ (s'.sh.items i).length) ∧
      total c.n s.sh.items ≤ total c.n s'.sh.items ∧ total c.n s'.sh.items ≤ total c.n s.sh.items + 1 := by
  have same : s'.sh.items = s.sh.items → (∀ i, (s.sh.items i).length ≤ (s'.sh.items i).length) ∧
      total c.n s.sh.items ≤ total c.n s'.sh.items ∧ total c.n s'.sh.items ≤ total c.n s.sh.items + 1 := by
    intro e; rw [e]; exact ⟨fun _ => Nat.le_refl _, Nat.le_refl _, Nat.le_succ _⟩
  cases hs with
  | call t op _ => exact same rfl
  | ret t op r _ => exact same rfl
  | act t op a k ans sh' hr hst =>
    cases hst with
    | write _ i f =>
      have hw := (writes_of_exec he t op _ hr).1
      have hal := allowed_of_exec he hP hr
      have hf : ∃ k v, f = (·.put k v) := by
        cases op with
        | set => exact ⟨_, _, hw.2⟩
        | trySet => exact ⟨_, _, hw.2⟩
        | getOrSetFactory => exact ⟨_, hw.2⟩
        | getOrSetDefault => exact ⟨_, _, hw.2⟩
        | delete x => exact absurd hr (hd t x _)
        | clear => exact absurd hal (by simp [Allowed, SingleKey, ReadsAll])
        | iterateShards => exact absurd hal (by simp [Allowed, SingleKey, ReadsAll])
        | _ => exact absurd hw (by simp [WriteOf])
      obtain ⟨x, v, rfl⟩ := hf
      have hl := put_length (s.sh.items i) x v
      refine ⟨fun j => ?_, (total_set1 c.n s.sh.items i _ 1).1 hl⟩
      show _ ≤ (set1 s.sh.items i _ j).length
      by_cases e : j = i
      · subst e; rw [set1_same]; exact hl.1
      · rw [set1_other _ _ e]; exact Nat.le_refl _
    | _ => exact same rfl

/-- A step while nobody adds. -/
theorem step_shrinks {c : Conf K} {tr : List (Lab K V)} {s s' : Cfg K V} {l : Lab K V}
    (he : Exec (body c) (Config.init fresh) tr s) (hP : Calls (fun _ op => Allowed op) tr) (hs : Step (body c) s l s')
    (hd : NoAdd s) : (∀ i, (s'.sh.items i).length ≤ (s.sh.items i).length) ∧
      total c.n s'.sh.items ≤ total c.n s.sh.items ∧ total c.n s.sh.items ≤ total c.n s'.sh.items + 1 := by
  have same : s'.sh.items = s.sh.items → (∀ i, (s'.sh.items i).length ≤ (s.sh.items i).length) ∧
      total c.n s'.sh.items ≤ total c.n s.sh.items ∧ total c.n s.sh.items ≤ total c.n s'.sh.items + 1 := by
    intro e; rw [e]; exact ⟨fun _ => Nat.le_refl _, Nat.le_refl _, Nat.le_succ _⟩
  cases hs with
  | call t op _ => exact same rfl
  | ret t op r _ => exact same rfl
  | act t op a k ans sh' hr hst =>
    cases hst with
    | write _ i f =>
      have hw := (writes_of_exec he t op _ hr).1
      have hf : ∃ k, f = (·.del k) := by
        rcases hd t op _ hr with ⟨x, rfl⟩ | h
        · exact ⟨x, hw.2⟩
        · cases op <;> first | exact h.elim | exact hw.elim
      obtain ⟨x, rfl⟩ := hf
      obtain ⟨a, held, know, hrel⟩ := rel_of_exec he hP
      have hl := del_length (hrel.pl.wf i) x
      refine ⟨fun j => ?_, (total_set1 c.n s.sh.items i _ 1).2 hl⟩
      show (set1 s.sh.items i _ j).length ≤ _
      by_cases e : j = i
      · subst e; rw [set1_same]; exact hl.1
      · rw [set1_other _ _ e]; exact Nat.le_refl _
    | _ => exact same rfl

end Verif.Sharded
