import Verif.Sharded.Alone
import Verif.Conc.Moment
import Verif.GoMap.Props

/-!
# C102: a sharded map over any key type

Here `==` on keys need not be reflexive (floats, and structs and interfaces that hold them). The runtime's hash, which
`NewSharded` uses, gives a NaN another value at each call; keys that are `==` have the same hash.
-/

set_option linter.unusedSectionVars false

namespace Verif.Sharded

open Verif.Conc Verif.GoMap

variable {K V : Type} [BEq K] [Inhabited V]

/-- `GetOrSetFactory` (ds/xmap/sharded.go:88-101), which calls the hash twice: in `TryGet`, and after it. -/
def getOrSetFactory2 (c c' : Conf K) (k : K) : P K V (Res K V) := do
  match ← tryGetCore c k with
  | some v => return .pair v true
  | none => do
    let i := shardOf c' k
    lock i
    let items ← read i
    match items.get? k with
    | some v => do
      step_ (.unlock i)
      return .pair v true
    | none => do
      let w ← callFactory k
      match w with
      | none => do
        step_ (.unlock i)
        return .panic
      | some v => do
        step_ (.write i (·.put k v))
        step_ (.unlock i)
        return .pair v false

/-- `GetOrSetDefault` (ds/xmap/sharded.go:103-115), in the same way. -/
def getOrSetDefault2 (c c' : Conf K) (k : K) (d : V) : P K V (Res K V) := do
  match ← tryGetCore c k with
  | some v => return .pair v true
  | none => do
    let i := shardOf c' k
    lock i
    let items ← read i
    match items.get? k with
    | some v => do
      step_ (.unlock i)
      return .pair v true
    | none => do
      step_ (.write i (·.put k d))
      step_ (.unlock i)
      return .pair d false

/-- The methods, when the hash answers as in `c` the first time it is called and as in `c'` the second time. -/
def body2 (c c' : Conf K) : Op K V → P K V (Res K V)
  | .getOrSetFactory k => getOrSetFactory2 c c' k
  | .getOrSetDefault k d => getOrSetDefault2 c c' k d
  | op => body c op

theorem body2_self (c : Conf K) (op : Op K V) : body2 c c op = body c op := by cases op <;> rfl

/-- The same map but for the hashes of keys that are not `==` to anything: `c` and `c0` have as many shards, and the
hash in `c` of a key is that in `c0` of every key `==` to it. -/
def Agrees (c0 c : Conf K) : Prop := c.n = c0.n ∧ ∀ k k', (k == k') = true → c.hash k c.seed = c0.hash k' c0.seed

/-- Calls made one after the other by goroutine `t`, with their results; the hash may change in between. -/
inductive OneByOne2 (c0 : Conf K) (t : Tid) : List (Op K V × Res K V) → Sh K V → Prop where
  | nil : OneByOne2 c0 t [] fresh
  | snoc {l : List (Op K V × Res K V)} {σ σ' : Sh K V} {op : Op K V} {r : Res K V} (c c' : Conf K) :
      OneByOne2 c0 t l σ → Agrees c0 c → Agrees c0 c' → Big (mach K V) t (body2 c c' op) σ r σ' →
      OneByOne2 c0 t (l ++ [(op, r)]) σ'

/-- What the methods do on one Go map, seen as the list of its entries in any order. -/
def TabLegal (m : Tab K V) : Op K V → Res K V → Tab K V → Prop
  | .set k v, r, m' => r = .unit ∧ m'.Perm (m.put k v)
  | .trySet k v, r, m' => match m.get? k with
    | some _ => r = .bool false ∧ m'.Perm m
    | none => r = .bool true ∧ m'.Perm (m.put k v)
  | .get k, r, m' => m'.Perm m ∧ match m.get? k with
    | some v => r = .val v
    | none => r = .panic
  | .tryGet k, r, m' => m'.Perm m ∧ match m.get? k with
    | some v => r = .pair v true
    | none => r = .pair default false
  | .getOrSetFactory k, r, m' => match m.get? k with
    | some v => r = .pair v true ∧ m'.Perm m
    | none => (r = .panic ∧ m'.Perm m) ∨ ∃ v, r = .pair v false ∧ m'.Perm (m.put k v)
  | .getOrSetDefault k d, r, m' => match m.get? k with
    | some v => r = .pair v true ∧ m'.Perm m
    | none => r = .pair d false ∧ m'.Perm (m.put k d)
  | .len, r, m' => m'.Perm m ∧ r = .nat m.length
  | .empty, r, m' => m'.Perm m ∧ r = .bool m.isEmpty
  | .has k, r, m' => m'.Perm m ∧ r = .bool (m.get? k).isSome
  | .delete k, r, m' => r = .unit ∧ m'.Perm (m.del k)
  | .iterate, r, m' => m'.Perm m ∧ ∃ l l' b, r = .visited l b ∧ (l ++ l').Perm m ∧ (b = true → l' = [])
  | .iterateShards, _, _ => True
  | .iterateShardsReadOnly, r, m' => m'.Perm m ∧ (r = .unit ∨ r = .panic)
  | .keys, r, m' => m'.Perm m ∧ ∃ l, r = .keys l ∧ l.Perm (m.map Prod.fst)
  | .values, r, m' => m'.Perm m ∧ ∃ l, r = .values l ∧ l.Perm (m.map Prod.snd)
  | .entries, r, m' => m'.Perm m ∧ ∃ l, r = .entries l ∧ l.Perm m
  | .toMap, r, m' => m'.Perm m ∧ ∃ l, r = .tab l ∧ l.Perm m
  | .clear, r, m' => r = .unit ∧ m' = []

/-- One Go map. -/
def oneTab (K V : Type) [BEq K] [Inhabited V] : SeqSpec (Op K V) (Res K V) := ⟨Tab K V, [], TabLegal⟩

/-! ## Tables -/

section
variable [PartialEquivBEq K]

/-- No entry has a key `==` to `k`. -/
def Lacks (m : Tab K V) (k : K) : Prop := ∀ e ∈ m, (e.1 == k) = false

theorem lacks_of_irrefl {k : K} (h : (k == k) = false) (m : Tab K V) : Lacks m k := by
  intro e _
  cases he : e.1 == k with
  | false => rfl
  | true =>
    have := PartialEquivBEq.trans (PartialEquivBEq.symm he) he
    rw [h] at this
    cases this

theorem get?_none_of_lacks {m : Tab K V} {k : K} (h : Lacks m k) : m.get? k = none := by
  unfold Tab.get?
  rw [Option.map_eq_none_iff, List.find?_eq_none]
  intro e he
  simp [h e he]

theorem put_of_lacks {m : Tab K V} {k : K} (h : Lacks m k) (v : V) : m.put k v = m ++ [(k, v)] := by
  unfold Tab.put
  rw [if_neg]
  simp only [List.any_eq_true, not_exists, not_and, Bool.not_eq_true]
  exact h

theorem del_of_lacks {m : Tab K V} {k : K} (h : Lacks m k) : m.del k = m := by
  unfold Tab.del
  rw [List.filter_eq_self]
  intro e he
  simp [h e he]

theorem any_perm {m m' : Tab K V} (h : m.Perm m') (p : K × V → Bool) : m.any p = m'.any p := by
  rw [Bool.eq_iff_iff]
  simp only [List.any_eq_true]
  constructor
  · rintro ⟨x, hx, hp⟩; exact ⟨x, h.mem_iff.1 hx, hp⟩
  · rintro ⟨x, hx, hp⟩; exact ⟨x, h.mem_iff.2 hx, hp⟩

theorem put_perm {m m' : Tab K V} (h : m.Perm m') (k : K) (v : V) : (m.put k v).Perm (m'.put k v) := by
  unfold Tab.put
  rw [any_perm h]
  split
  · exact h.map _
  · exact h.append_right _

theorem del_perm {m m' : Tab K V} (h : m.Perm m') (k : K) : (m.del k).Perm (m'.del k) := h.filter _

theorem wf_perm {m m' : Tab K V} (h : m.Perm m') (hw : m.WF) : m'.WF := by
  refine (h.pairwise_iff ?_).1 hw
  intro a b hab
  cases hb : b.1 == a.1 with
  | false => rfl
  | true => rw [PartialEquivBEq.symm hb] at hab; cases hab

theorem get?_iff {m : Tab K V} (hw : m.WF) (k : K) (v : V) : m.get? k = some v ↔ ∃ e ∈ m, (e.1 == k) = true ∧ e.2 = v := by
  induction m with
  | nil => simp [Tab.get?]
  | cons x m ih =>
    have hw' := List.pairwise_cons.1 hw
    unfold Tab.get?
    rw [List.find?_cons]
    cases hx : x.1 == k with
    | true =>
      simp only [Option.map_some, Option.some.injEq]
      constructor
      · intro e; exact ⟨x, by simp, hx, e⟩
      · rintro ⟨e, he, h1, rfl⟩
        rcases List.mem_cons.1 he with rfl | he
        · rfl
        · have := hw'.1 e he
          rw [PartialEquivBEq.trans hx (PartialEquivBEq.symm h1)] at this
          cases this
    | false =>
      have := ih hw'.2
      unfold Tab.get? at this
      simp only
      rw [this]
      constructor
      · rintro ⟨e, he, h⟩; exact ⟨e, by simp [he], h⟩
      · rintro ⟨e, he, h⟩
        rcases List.mem_cons.1 he with rfl | he
        · rw [hx] at h; cases h.1
        · exact ⟨e, he, h⟩

theorem get?_perm {m m' : Tab K V} (h : m.Perm m') (hw : m.WF) (k : K) : m.get? k = m'.get? k := by
  refine opt_ext fun v => ?_
  rw [get?_iff hw, get?_iff (wf_perm h hw)]
  constructor
  · rintro ⟨e, he, h1⟩; exact ⟨e, h.mem_iff.1 he, h1⟩
  · rintro ⟨e, he, h1⟩; exact ⟨e, h.mem_iff.2 he, h1⟩

theorem get?_append {A B : Tab K V} {k : K} (h : Lacks B k) : (A ++ B).get? k = A.get? k := by
  have hB : B.find? (fun e => e.1 == k) = none := by
    rw [List.find?_eq_none]
    intro e he
    simp [h e he]
  unfold Tab.get?
  rw [List.find?_append, hB, Option.or_none]

theorem put_append {A B : Tab K V} {k : K} (h : Lacks B k) (v : V) : ((A ++ B).put k v).Perm (A.put k v ++ B) := by
  have hB : B.any (fun e => e.1 == k) = false := by
    rw [List.any_eq_false]
    intro e he
    simp [h e he]
  unfold Tab.put
  rw [List.any_append, hB, Bool.or_false]
  split
  · rw [List.map_append]
    have : B.map (fun e => if e.1 == k then (k, v) else e) = B := by
      conv => rhs; rw [← List.map_id B]
      refine List.map_congr_left fun e he => ?_
      rw [h e he]; rfl
    rw [this]
  · rw [List.append_assoc, List.append_assoc]
    exact (List.perm_append_comm).append_left _

theorem del_append {A B : Tab K V} {k : K} (h : Lacks B k) : (A ++ B).del k = A.del k ++ B := by
  have : (A ++ B).del k = A.del k ++ B.del k := List.filter_append ..
  rw [this, del_of_lacks h]

theorem foldl_put_wf : ∀ (es acc : Tab K V), (acc ++ es).WF → es.foldl (fun acc e => acc.put e.1 e.2) acc = acc ++ es
  | [], acc, _ => by simp
  | e :: es, acc, h => by
    have : Lacks acc e.1 := fun a ha => (List.pairwise_append.1 h).2.2 a ha e (by simp)
    rw [List.foldl_cons, put_of_lacks this, foldl_put_wf es _ (by rw [List.append_assoc]; exact h), List.append_assoc]
    rfl

/-! ## Shards -/

/-- All entries, shard by shard. -/
def flat (n : Nat) (items : Nat → Tab K V) : Tab K V := (List.range n).flatMap items

/-- The tables are maps, and entries whose key is `==` to itself are in the shard of the key. -/
structure Placed2 (c0 : Conf K) (items : Nat → Tab K V) : Prop where
  wf : ∀ i, (items i).WF
  place : ∀ i, ∀ e ∈ items i, (e.1 == e.1) = true → shardOf c0 e.1 = i

theorem refl_left {a b : K} (h : (a == b) = true) : (a == a) = true := PartialEquivBEq.trans h (PartialEquivBEq.symm h)
theorem refl_right {a b : K} (h : (a == b) = true) : (b == b) = true := PartialEquivBEq.trans (PartialEquivBEq.symm h) h

theorem shardOf_agrees {c0 c : Conf K} (h : Agrees c0 c) {k k' : K} (hk : (k == k') = true) : shardOf c k = shardOf c0 k' := by
  unfold shardOf
  rw [h.1, h.2 k k' hk]

theorem agrees_self {c0 c : Conf K} (h : Agrees c0 c) {k k' : K} (hk : (k == k') = true) : shardOf c0 k = shardOf c0 k' := by
  rw [← shardOf_agrees h (refl_left hk), shardOf_agrees h hk]

theorem lacks_elsewhere {c0 c : Conf K} (h : Agrees c0 c) {items : Nat → Tab K V} (hp : Placed2 c0 items) (k : K) {j : Nat}
    (hj : j ≠ shardOf c k) : Lacks (items j) k := by
  intro e he
  cases hk : e.1 == k with
  | false => rfl
  | true =>
    have h1 := hp.place j e he (refl_left hk)
    rw [agrees_self h hk, ← shardOf_agrees h (refl_right hk)] at h1
    exact absurd h1.symm hj

theorem flat_wf {c0 c : Conf K} (h : Agrees c0 c) {items : Nat → Tab K V} (hp : Placed2 c0 items) (n : Nat) :
    (flat n items).WF := by
  unfold flat Tab.WF
  rw [List.pairwise_flatMap]
  refine ⟨fun i _ => hp.wf i, (List.pairwise_lt_range (n := n)).imp ?_⟩
  intro i j hij a ha b hb
  cases hk : a.1 == b.1 with
  | false => rfl
  | true =>
    have h1 := hp.place i a ha (refl_left hk)
    have h2 := hp.place j b hb (refl_right hk)
    have := agrees_self h hk
    omega

theorem flat_perm (n : Nat) {vs items : Nat → Tab K V} (h : ∀ j, (vs j).Perm (items j)) :
    (flat n vs).Perm (flat n items) := by
  unfold flat
  induction List.range n with
  | nil => exact List.Perm.refl _
  | cons i l ih => rw [List.flatMap_cons, List.flatMap_cons]; exact (h i).append ih

/-- The entries of one shard, and the others. -/
def others (n i : Nat) (items : Nat → Tab K V) : Tab K V := ((List.range n).erase i).flatMap items

theorem flat_split {n i : Nat} (hi : i < n) (items : Nat → Tab K V) (x : Tab K V) :
    (flat n (set1 items i x)).Perm (x ++ others n i items) := by
  have h1 : (List.range n).Perm (i :: (List.range n).erase i) := List.perm_cons_erase (List.mem_range.2 hi)
  have h2 := h1.flatMap_right (set1 items i x)
  rw [List.flatMap_cons, set1_same] at h2
  have h3 : ((List.range n).erase i).flatMap (set1 items i x) = others n i items := by
    refine flatMap_congr fun j hj => set1_other _ _ ?_
    rintro rfl
    exact (List.Nodup.not_mem_erase List.nodup_range) hj
  rw [h3] at h2
  exact h2

theorem flat_split_self {n i : Nat} (hi : i < n) (items : Nat → Tab K V) :
    (flat n items).Perm (items i ++ others n i items) := by
  have := flat_split hi items (items i)
  rw [set1_self] at this
  exact this

theorem lacks_others {c0 c : Conf K} (h : Agrees c0 c) {items : Nat → Tab K V} (hp : Placed2 c0 items) (k : K) (n : Nat) :
    Lacks (others n (shardOf c k) items) k := by
  intro e he
  obtain ⟨j, hj, he⟩ := List.mem_flatMap.1 he
  refine lacks_elsewhere h hp k ?_ e he
  rintro rfl
  exact (List.Nodup.not_mem_erase List.nodup_range) hj

/-- What a method sees of the whole in the shard of its key, and does to it. -/
theorem shard_view {c0 c : Conf K} (h : Agrees c0 c) {items : Nat → Tab K V} (hp : Placed2 c0 items) (k : K) :
    (items (shardOf c k)).get? k = (flat c0.n items).get? k ∧
    (∀ v, Placed2 c0 (set1 items (shardOf c k) ((items (shardOf c k)).put k v)) ∧
      (flat c0.n (set1 items (shardOf c k) ((items (shardOf c k)).put k v))).Perm ((flat c0.n items).put k v)) ∧
    Placed2 c0 (set1 items (shardOf c k) ((items (shardOf c k)).del k)) ∧
      (flat c0.n (set1 items (shardOf c k) ((items (shardOf c k)).del k))).Perm ((flat c0.n items).del k) := by
  have hi : shardOf c k < c0.n := by rw [← h.1]; exact shardOf_lt c k
  have hl := lacks_others h hp k c0.n
  have hs := flat_split_self hi items
  have hset : ∀ m : Tab K V, m.WF → (∀ e ∈ m, e ∈ items (shardOf c k) ∨ e.1 = k) →
      Placed2 c0 (set1 items (shardOf c k) m) := by
    intro m hm he
    constructor
    · intro j
      by_cases e : j = shardOf c k
      · subst e; rw [set1_same]; exact hm
      · rw [set1_other _ _ e]; exact hp.wf j
    · intro j e hj hr
      by_cases ej : j = shardOf c k
      · subst ej
        rw [set1_same] at hj
        rcases he e hj with he | he
        · exact hp.place _ e he hr
        · rw [he] at hr ⊢; exact (shardOf_agrees h hr).symm
      · rw [set1_other _ _ ej] at hj; exact hp.place j e hj hr
  refine ⟨?_, fun v => ⟨hset _ ?_ ?_, ?_⟩, hset _ ?_ ?_, ?_⟩
  · rw [get?_perm hs (flat_wf h hp _), get?_append hl]
  · exact WF.put (hp.wf _) k v
  · intro e he
    unfold Tab.put at he
    split at he
    · obtain ⟨e', h1, rfl⟩ := List.mem_map.1 he
      split
      · exact Or.inr rfl
      · exact Or.inl h1
    · rcases List.mem_append.1 he with he | he
      · exact Or.inl he
      · simp at he; exact Or.inr (by rw [he])
  · exact (flat_split hi items _).trans ((put_append hl v).symm.trans (put_perm hs.symm k v))
  · exact WF.del (hp.wf _) k
  · intro e he; exact Or.inl ((List.mem_filter.1 he).1)
  · refine (flat_split hi items _).trans ?_
    rw [← del_append hl]
    exact del_perm hs.symm k

/-! ## Every method -/

/-- Every method called alone on free shards returns, leaves the locks free, and does what it does on one map. -/
theorem alone_body2 {t : Tid} {c0 c c' : Conf K} (hc : Agrees c0 c) (hc' : Agrees c0 c') (op : Op K V)
    (hop : op ≠ .iterateShards) (items : Nat → Tab K V) (h : Placed2 c0 items) :
    Alone t (fun r σ' => ∃ items', σ' = ⟨items', free⟩ ∧ Placed2 c0 items' ∧
      TabLegal (flat c0.n items) op r (flat c0.n items')) (body2 c c' op) ⟨items, free⟩ := by
  have range : List.range' 0 c.n = List.range c0.n := by rw [hc.1]; exact List.range_eq_range'.symm
  have same : ∀ k, (items (shardOf c k)).get? k = (flat c0.n items).get? k := fun k => (shard_view hc h k).1
  have same' : ∀ k, (items (shardOf c' k)).get? k = (flat c0.n items).get? k := fun k => (shard_view hc' h k).1
  have put : ∀ k v, _ := fun k v => (shard_view hc h k).2.1 v
  have put' : ∀ k v, _ := fun k v => (shard_view hc' h k).2.1 v
  have rfl' : (flat c0.n items).Perm (flat c0.n items) := List.Perm.refl _
  cases op with
  | set k v =>
    exact alone_lock (alone_write (alone_unlock (alone_ret ⟨_, rfl, (put k v).1, rfl, (put k v).2⟩)))
  | trySet k v =>
    refine alone_lock (alone_read ?_)
    rw [same]
    cases hm : (flat c0.n items).get? k with
    | some w => exact alone_unlock (alone_ret ⟨_, rfl, h, by simp only [TabLegal, hm]; exact ⟨trivial, rfl'⟩⟩)
    | none =>
      refine alone_write (alone_unlock (alone_ret ⟨_, rfl, (put k v).1, ?_⟩))
      simp only [TabLegal, hm]
      exact ⟨trivial, (put k v).2⟩
  | get k =>
    refine alone_tryGetCore ?_
    rw [same]
    cases hm : (flat c0.n items).get? k with
    | some w => exact alone_ret ⟨_, rfl, h, rfl', by rw [hm]⟩
    | none => exact alone_ret ⟨_, rfl, h, rfl', by rw [hm]⟩
  | tryGet k =>
    refine alone_tryGetCore ?_
    rw [same]
    cases hm : (flat c0.n items).get? k with
    | some w => exact alone_ret ⟨_, rfl, h, rfl', by rw [hm]⟩
    | none => exact alone_ret ⟨_, rfl, h, rfl', by rw [hm]⟩
  | getOrSetFactory k =>
    refine alone_tryGetCore ?_
    rw [same]
    cases hm : (flat c0.n items).get? k with
    | some w => exact alone_ret ⟨_, rfl, h, by simp only [TabLegal, hm]; exact ⟨trivial, rfl'⟩⟩
    | none =>
      refine alone_lock (alone_read ?_)
      rw [same', hm]
      refine alone_factory fun w => ?_
      cases w with
      | none =>
        refine alone_unlock (alone_ret ⟨_, rfl, h, ?_⟩)
        simp only [TabLegal, hm]
        exact Or.inl ⟨trivial, rfl'⟩
      | some v =>
        refine alone_write (alone_unlock (alone_ret ⟨_, rfl, (put' k v).1, ?_⟩))
        simp only [TabLegal, hm]
        exact Or.inr ⟨v, rfl, (put' k v).2⟩
  | getOrSetDefault k d =>
    refine alone_tryGetCore ?_
    rw [same]
    cases hm : (flat c0.n items).get? k with
    | some w => exact alone_ret ⟨_, rfl, h, by simp only [TabLegal, hm]; exact ⟨trivial, rfl'⟩⟩
    | none =>
      refine alone_lock (alone_read ?_)
      rw [same', hm]
      refine alone_write (alone_unlock (alone_ret ⟨_, rfl, (put' k d).1, ?_⟩))
      simp only [TabLegal, hm]
      exact ⟨trivial, (put' k d).2⟩
  | len =>
    refine alone_lenLoop items c.n 0 0 ⟨_, rfl, h, rfl', ?_⟩
    rw [Nat.zero_add, range]; rfl
  | empty =>
    refine alone_emptyLoop items c.n 0 ⟨_, rfl, h, rfl', ?_⟩
    rw [range]
    change _ = Res.bool (flat c0.n items).isEmpty
    unfold flat
    cases (List.range c0.n).flatMap items <;> simp
  | has k =>
    exact alone_rlock (alone_read (alone_runlock (alone_ret ⟨_, rfl, h, rfl', by rw [same]⟩)))
  | delete k =>
    exact alone_lock (alone_write (alone_unlock (alone_ret
      ⟨_, rfl, (shard_view hc h k).2.2.1, rfl, (shard_view hc h k).2.2.2⟩)))
  | iterate =>
    refine alone_iterateLoop items c.n 0 [] ?_
    intro vs l l' b hv hl hb
    refine ⟨_, rfl, h, rfl', l, l', b, by rw [List.nil_append], ?_, hb⟩
    rw [← hl, range]
    exact flat_perm _ hv
  | iterateShards => exact absurd rfl hop
  | iterateShardsReadOnly =>
    exact alone_readOnlyLoop items c.n 0 ⟨_, rfl, h, rfl', Or.inl rfl⟩ ⟨_, rfl, h, rfl', Or.inr rfl⟩
  | keys =>
    refine alone_collectLoop items _ c.n 0 [] ?_
    intro vs hv
    refine alone_ret ⟨_, rfl, h, rfl', _, rfl, ?_⟩
    rw [foldl_flatMap_snoc, List.nil_append, range]
    exact (flat_perm _ hv).map _
  | values =>
    refine alone_collectLoop items _ c.n 0 [] ?_
    intro vs hv
    refine alone_ret ⟨_, rfl, h, rfl', _, rfl, ?_⟩
    rw [foldl_flatMap_snoc, List.nil_append, range]
    exact (flat_perm _ hv).map _
  | entries =>
    refine alone_collectLoop items _ c.n 0 [] ?_
    intro vs hv
    refine alone_ret ⟨_, rfl, h, rfl', _, rfl, ?_⟩
    rw [foldl_flatMap_snoc (fun e : K × V => (e.1, e.2)), List.nil_append, range]
    have := flat_perm c0.n hv
    simpa [flat, List.flatMap] using this
  | toMap =>
    refine alone_collectLoop items _ c.n 0 [] ?_
    intro vs hv
    refine alone_ret ⟨_, rfl, h, rfl', _, rfl, ?_⟩
    have hp := flat_perm c0.n hv
    rw [range, ← List.foldl_flatten]
    have e : ((List.range c0.n).map vs).flatten = flat c0.n vs := rfl
    rw [e, foldl_put_wf]
    · rw [List.nil_append]; exact hp
    · rw [List.nil_append]; exact wf_perm hp.symm (flat_wf hc h _)
  | clear =>
    refine alone_clearLoop c.n 0 items ⟨_, rfl, ?_, rfl, ?_⟩
    · constructor
      · intro i
        split
        · exact List.Pairwise.nil
        · exact h.wf i
      · intro i e he hr
        split at he
        · simp at he
        · exact h.place i e he hr
    · unfold flat
      rw [List.flatMap_eq_nil_iff]
      intro i hi
      rw [if_pos ⟨by omega, by have := List.mem_range.1 hi; rw [hc.1]; omega⟩]

/-- **C102.** Whatever `==` on keys is, as long as it is symmetric and transitive, and whatever the hash answers for
keys that are not `==` to themselves: called one after the other, the methods of a sharded map return, with the results
of one Go map. (`IterateShards`, which hands the tables themselves to the caller, is left out.) -/
theorem C102_one_map (c0 : Conf K) (t : Tid) (l : List (Op K V × Res K V)) (σ : Sh K V) (h : OneByOne2 c0 t l σ)
    (hops : ∀ e ∈ l, e.1 ≠ .iterateShards) :
    (∃ m : Tab K V, SeqSpec.Run (oneTab K V) [] l m) ∧ ∀ (c c' : Conf K), Agrees c0 c → Agrees c0 c' → ∀ op, op ≠ .iterateShards →
      ∃ r σ', Big (mach K V) t (body2 c c' op) σ r σ' := by
  have key : (∃ items, σ = ⟨items, free⟩ ∧ Placed2 c0 items ∧ SeqSpec.Run (oneTab K V) [] l (flat c0.n items : Tab K V)) := by
    induction h with
    | nil =>
      refine ⟨_, rfl, ⟨fun _ => List.Pairwise.nil, fun _ e he => by simp at he⟩, ?_⟩
      have : flat c0.n (fun _ => ([] : Tab K V)) = [] := by
        unfold flat; rw [List.flatMap_eq_nil_iff]; intros; rfl
      rw [this]
      exact .nil _
    | snoc c c' _ hc hc' hb ih =>
      obtain ⟨items, rfl, hp, hr⟩ := ih (fun e he => hops e (by simp [he]))
      obtain ⟨items', rfl, hp', hl⟩ := Always.post hb (alone_body2 hc hc' _ (hops (_, _) (List.mem_append_right _ (List.mem_singleton.2 rfl))) items hp)
      exact ⟨items', rfl, hp', .snoc hr hl⟩
  obtain ⟨items, rfl, hp, hr⟩ := key
  exact ⟨⟨_, hr⟩, fun c c' hc hc' op hop => Always.ends (alone_body2 (t := t) hc hc' op hop items hp)⟩

theorem run_snoc {O R : Type} {S : SeqSpec O R} {l : List (O × R)} {op : O} {r : R} {m m2 : S.St}
    (h : SeqSpec.Run S m (l ++ [(op, r)]) m2) : ∃ m1, SeqSpec.Run S m l m1 ∧ S.legal m1 op r m2 := by
  generalize e : l ++ [(op, r)] = l' at h
  cases h with
  | nil => simp at e
  | snoc h1 h2 =>
    obtain ⟨rfl, e2⟩ := List.append_inj' e rfl
    simp only [List.cons.injEq, Prod.mk.injEq, and_true] at e2
    obtain ⟨rfl, rfl⟩ := e2
    exact ⟨_, h1, h2⟩

/-- **C102, lost keys.** A key that is not `==` to itself is never found: `Get` panics, `TryGet` and `Has` say no,
`TrySet` and `GetOrSetDefault` add. -/
theorem C102_lost (c0 : Conf K) (t : Tid) (l : List (Op K V × Res K V)) (σ : Sh K V) (op : Op K V) (r : Res K V)
    (h : OneByOne2 c0 t (l ++ [(op, r)]) σ) (hops : ∀ e ∈ l, e.1 ≠ .iterateShards) (k : K) (hk : (k == k) = false) :
    (op = .get k → r = .panic) ∧ (op = .tryGet k → r = .pair default false) ∧ (op = .has k → r = .bool false) ∧
    (∀ v, op = .trySet k v → r = .bool true) ∧ (∀ d, op = .getOrSetDefault k d → r = .pair d false) := by
  have hn : ∀ m : Tab K V, m.get? k = none := fun m => get?_none_of_lacks (lacks_of_irrefl hk m)
  have run : op ≠ .iterateShards → ∃ m1 m2 : Tab K V, TabLegal m1 op r m2 := by
    intro ho
    obtain ⟨⟨m, hm⟩, -⟩ := C102_one_map c0 t _ σ h (by
      intro e he
      rcases List.mem_append.1 he with he | he
      · exact hops e he
      · simp at he; rw [he]; exact ho)
    obtain ⟨m1, -, hl⟩ := run_snoc hm
    exact ⟨m1, m, hl⟩
  refine ⟨?_, ?_, ?_, fun v => ?_, fun d => ?_⟩ <;> intro e <;>
    obtain ⟨m1, m2, hl⟩ := run (by rw [e]; intro c; cases c) <;> subst e <;>
    simp only [TabLegal, hn, Option.isSome_none] at hl
  · exact hl.2
  · exact hl.2
  · exact hl.2
  · exact hl.1
  · exact hl.1

/-- **C102, counted keys.** Every `Set` of a key that is not `==` to itself makes `Len` larger by one, and `Delete` of it
changes nothing. -/
theorem C102_counted (c0 : Conf K) (t : Tid) (l : List (Op K V × Res K V)) (σ : Sh K V) (op : Op K V) (r1 r2 r3 : Res K V)
    (h : OneByOne2 c0 t (l ++ [(.len, r1)] ++ [(op, r2)] ++ [(.len, r3)]) σ) (hops : ∀ e ∈ l, e.1 ≠ .iterateShards)
    (k : K) (hk : (k == k) = false) :
    (∀ v, op = .set k v → ∃ x, r1 = .nat x ∧ r3 = .nat (x + 1)) ∧
    (op = .delete k → ∃ x, r1 = .nat x ∧ r3 = .nat x) := by
  have run : op ≠ .iterateShards → ∃ m1 m2 m3 m4 : Tab K V, TabLegal m1 .len r1 m2 ∧ TabLegal m2 op r2 m3 ∧
      TabLegal m3 .len r3 m4 := by
    intro ho
    obtain ⟨⟨m, hm⟩, -⟩ := C102_one_map c0 t _ σ h (by
      intro e he
      simp only [List.mem_append, List.mem_singleton] at he
      rcases he with ((he | he) | he) | he
      · exact hops e he
      · rw [he]; intro c; cases c
      · rw [he]; exact ho
      · rw [he]; intro c; cases c)
    obtain ⟨m3, hm, h3⟩ := run_snoc hm
    obtain ⟨m2, hm, h2⟩ := run_snoc hm
    obtain ⟨m1, hm, h1⟩ := run_snoc hm
    exact ⟨m1, m2, m3, m, h1, h2, h3⟩
  constructor
  · intro v e
    obtain ⟨m1, m2, m3, m4, ⟨h1, e1⟩, h2, h3, e3⟩ := run (by rw [e]; intro c; cases c)
    subst e
    refine ⟨m1.length, e1, ?_⟩
    rw [e3, h2.2.length_eq, put_of_lacks (lacks_of_irrefl hk m2), List.length_append, h1.length_eq]
    rfl
  · intro e
    obtain ⟨m1, m2, m3, m4, ⟨h1, e1⟩, h2, h3, e3⟩ := run (by rw [e]; intro c; cases c)
    subst e
    refine ⟨m1.length, e1, ?_⟩
    rw [e3, h2.2.length_eq, del_of_lacks (lacks_of_irrefl hk m2), h1.length_eq]

end

/-! ## Two NaNs in two shards -/

/-- Two shards; the hash of NaN is `x`. -/
def nanConf (x : UInt64) : Conf Flt := ⟨2, by decide, by decide, fun k _ => match k with | .num n => UInt64.ofNat n.toNat | .nan => x, 0⟩

theorem nanConf_agrees (x : UInt64) : Agrees (nanConf 0) (nanConf x) := by
  refine ⟨rfl, ?_⟩
  intro k k' h
  cases k with
  | nan => cases k' <;> cases h
  | num a =>
    cases k' with
    | nan => cases h
    | num b =>
      have : a = b := by simpa using (show (a == b) = true from h)
      subst this; rfl

theorem OneByOne2.more {l : List (Op Flt Nat × Res Flt Nat)} {σ : Sh Flt Nat} (h : OneByOne2 (nanConf 0) 0 l σ)
    (hops : ∀ e ∈ l, e.1 ≠ .iterateShards) (x y : UInt64) (op : Op Flt Nat) (hop : op ≠ .iterateShards) :
    ∃ r σ', OneByOne2 (nanConf 0) 0 (l ++ [(op, r)]) σ' := by
  obtain ⟨r, σ', hb⟩ := (C102_one_map _ _ _ _ h hops).2 _ _ (nanConf_agrees x) (nanConf_agrees y) op hop
  exact ⟨r, σ', .snoc _ _ h (nanConf_agrees x) (nanConf_agrees y) hb⟩

/-- NaN is stored in shard 0 and again in shard 1; the length goes up by one each time. -/
example : shardOf (nanConf 0) .nan = 0 ∧ shardOf (nanConf 1) .nan = 1 ∧
    ∃ r1 r2 r3 r4 r5 σ, OneByOne2 (nanConf 0) 0
      [(.len, r1), (.set .nan 5, r2), (.len, r3), (.set .nan 6, r4), (.len, r5)] σ ∧
      ∃ x, r1 = .nat x ∧ r3 = .nat (x + 1) ∧ r5 = .nat (x + 2) := by
  refine ⟨rfl, by decide, ?_⟩
  obtain ⟨r1, σ1, h1⟩ := OneByOne2.more .nil (by simp) 0 0 .len (fun c => by cases c)
  obtain ⟨r2, σ2, h2⟩ := h1.more (by simp) 0 0 (.set .nan 5) (fun c => by cases c)
  obtain ⟨r3, σ3, h3⟩ := h2.more (by simp) 0 0 .len (fun c => by cases c)
  obtain ⟨r4, σ4, h4⟩ := h3.more (by simp) 1 1 (.set .nan 6) (fun c => by cases c)
  obtain ⟨r5, σ5, h5⟩ := h4.more (by simp) 0 0 .len (fun c => by cases c)
  refine ⟨r1, r2, r3, r4, r5, σ5, h5, ?_⟩
  obtain ⟨x, e1, e2⟩ := (C102_counted _ _ [] _ (.set .nan 5) r1 r2 r3 h3 (by simp) .nan rfl).1 5 rfl
  obtain ⟨y, e3, e4⟩ := (C102_counted _ _ [(.len, r1), (.set .nan 5, r2)] _ (.set .nan 6) r3 r4 r5 h5 (by simp) .nan rfl).1 6 rfl
  rw [e2] at e3
  injection e3 with e3
  exact ⟨x, e1, e2, by rw [e4, ← e3]⟩

end Verif.Sharded
