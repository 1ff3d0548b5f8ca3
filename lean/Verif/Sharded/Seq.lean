import Verif.Sharded.Alone

/-!
# The sharded map used by one goroutine
-/

set_option linter.unusedSectionVars false

namespace Verif.Sharded

open Verif.Conc Verif.GoMap

section
variable {K V : Type} [DecidableEq K]

/-! ## Shards represent a map -/

/-- Each table is well-formed and holds only keys of its shard. -/
structure Placed (c : Conf K) (items : Nat → Tab K V) : Prop where
  wf : ∀ i, (items i).WF
  place : ∀ i k v, (k, v) ∈ items i → shardOf c k = i

/-- The map that the shards represent. -/
def absMap (c : Conf K) (items : Nat → Tab K V) : PMap K V := fun k => (items (shardOf c k)).get? k

theorem placed_set1 {c : Conf K} {items : Nat → Tab K V} (h : Placed c items) (i : Nat) (m : Tab K V) (hm : m.WF)
    (hp : ∀ k v, (k, v) ∈ m → shardOf c k = i) : Placed c (set1 items i m) where
  wf j := by
    by_cases e : j = i
    · subst e; rw [set1_same]; exact hm
    · rw [set1_other _ _ e]; exact h.wf j
  place j k v hk := by
    by_cases e : j = i
    · subst e; rw [set1_same] at hk; exact hp k v hk
    · rw [set1_other _ _ e] at hk; exact h.place j k v hk

theorem placed_put {c : Conf K} {items : Nat → Tab K V} (h : Placed c items) (k : K) (v : V) :
    Placed c (set1 items (shardOf c k) ((items (shardOf c k)).put k v)) := by
  refine placed_set1 h _ _ (WF.put (h.wf _) k v) ?_
  intro x w hx
  rcases (mem_put k v (x, w)).1 hx with e | ⟨e, -⟩
  · injection e with e1 e2; rw [e1]
  · exact h.place _ x w e

theorem placed_del {c : Conf K} {items : Nat → Tab K V} (h : Placed c items) (k : K) :
    Placed c (set1 items (shardOf c k) ((items (shardOf c k)).del k)) := by
  refine placed_set1 h _ _ (WF.del (h.wf _) k) ?_
  intro x w hx
  exact h.place _ x w ((mem_del k (x, w)).1 hx).1

theorem abs_put {c : Conf K} {items : Nat → Tab K V} (h : Placed c items) (k : K) (v : V) :
    absMap c (set1 items (shardOf c k) ((items (shardOf c k)).put k v)) = (absMap c items).set k v := by
  funext x
  unfold absMap PMap.set
  by_cases e : shardOf c x = shardOf c k
  · simp only [e, set1_same, get?_put (h.wf _)]
  · rw [set1_other _ _ e, if_neg]
    rintro rfl; exact e rfl

theorem abs_del {c : Conf K} {items : Nat → Tab K V} (h : Placed c items) (k : K) :
    absMap c (set1 items (shardOf c k) ((items (shardOf c k)).del k)) = (absMap c items).erase k := by
  funext x
  unfold absMap PMap.erase
  by_cases e : shardOf c x = shardOf c k
  · simp only [e, set1_same, get?_del (h.wf _)]
  · rw [set1_other _ _ e, if_neg]
    rintro rfl; exact e rfl

/-- Going through all shards in any orders lists the map. -/
theorem lists_shards {c : Conf K} {items : Nat → Tab K V} (h : Placed c items) (vs : Nat → Tab K V)
    (hv : ∀ i, (vs i).Perm (items i)) :
    (absMap c items).Lists ((List.range c.n).flatMap vs) where
  nodup := by
    rw [List.map_flatMap]
    unfold List.Nodup
    rw [List.pairwise_flatMap]
    constructor
    · intro i _
      exact (Lists.perm_of (lists (h.wf i)) (hv i)).nodup
    · refine List.Pairwise.imp ?_ (List.pairwise_lt_range (n := c.n))
      intro i j hij x hx y hy
      obtain ⟨⟨kx, vx⟩, hx', rfl⟩ := List.mem_map.1 hx
      obtain ⟨⟨ky, vy⟩, hy', rfl⟩ := List.mem_map.1 hy
      have h1 := h.place i kx vx (((hv i).mem_iff).1 hx')
      have h2 := h.place j ky vy (((hv j).mem_iff).1 hy')
      simp only
      rintro rfl
      omega
  mem k v := by
    rw [List.mem_flatMap]
    constructor
    · rintro ⟨i, -, hi⟩
      have hi' := ((hv i).mem_iff).1 hi
      unfold absMap
      rw [h.place i k v hi', get?_eq_some (h.wf i)]
      exact hi'
    · intro hm
      unfold absMap at hm
      rw [get?_eq_some (h.wf _)] at hm
      exact ⟨shardOf c k, List.mem_range.2 (shardOf_lt c k), ((hv _).mem_iff).2 hm⟩

variable [Inhabited V] {t : Tid}

/-! ## Every method -/

theorem foldl_put (es : List (K × V)) (hnd : (es.map Prod.fst).Nodup) : ∀ (acc : Tab K V), acc.WF →
    (∀ e ∈ es, ∀ a ∈ acc, a.1 ≠ e.1) →
    (es.foldl (fun acc e => acc.put e.1 e.2) acc).WF ∧
    ∀ x, x ∈ es.foldl (fun acc e => acc.put e.1 e.2) acc ↔ x ∈ acc ∨ x ∈ es := by
  induction es with
  | nil => intro acc h _; exact ⟨h, fun x => by simp⟩
  | cons e es ih =>
    intro acc h hdis
    simp only [List.map_cons, List.nodup_cons] at hnd
    obtain ⟨h1, h2⟩ := ih hnd.2 (acc.put e.1 e.2) (WF.put h _ _) (by
      intro x hx a ha
      rcases (mem_put e.1 e.2 a).1 ha with c | ⟨c, -⟩
      · rw [c]; intro c'
        exact hnd.1 (List.mem_map.2 ⟨x, hx, c'.symm⟩)
      · exact hdis x (by simp [hx]) a c)
    refine ⟨h1, fun x => ?_⟩
    rw [List.foldl_cons, h2, mem_put]
    have : (e.1, e.2) = e := rfl
    rw [this, List.mem_cons]
    constructor
    · rintro ((c | c) | c)
      · exact Or.inr (Or.inl c)
      · exact Or.inl c.1
      · exact Or.inr (Or.inr c)
    · rintro (c | c | c)
      · exact Or.inl (Or.inr ⟨c, hdis e (by simp) x c⟩)
      · exact Or.inl (Or.inl c)
      · exact Or.inr c

/-- Every method called alone on free shards returns, leaves the locks free, and does what it does on one
map. -/
theorem alone_body (c : Conf K) (op : Op K V) (hop : op ≠ .iterateShards) (items : Nat → Tab K V)
    (h : Placed c items) :
    Alone t (fun r σ' => ∃ items', σ' = ⟨items', free⟩ ∧ Placed c items' ∧
      Legal (absMap c items) op r (absMap c items')) (body c op) ⟨items, free⟩ := by
  have range : List.range' 0 c.n = List.range c.n := List.range_eq_range'.symm
  have same : ∀ k, (items (shardOf c k)).get? k = absMap c items k := fun _ => rfl
  cases op with
  | set k v =>
    exact alone_lock (alone_write (alone_unlock (alone_ret ⟨_, rfl, placed_put h k v, rfl, abs_put h k v⟩)))
  | trySet k v =>
    refine alone_lock (alone_read ?_)
    rw [same]
    cases hm : absMap c items k with
    | some w => exact alone_unlock (alone_ret ⟨_, rfl, h, by simp only [Legal, hm]; exact ⟨trivial, trivial⟩⟩)
    | none =>
      refine alone_write (alone_unlock (alone_ret ⟨_, rfl, placed_put h k v, ?_⟩))
      simp only [Legal, hm]
      exact ⟨trivial, abs_put h k v⟩
  | get k =>
    refine alone_tryGetCore ?_
    rw [same]
    cases hm : absMap c items k with
    | some w => exact alone_ret ⟨_, rfl, h, rfl, by rw [hm]⟩
    | none => exact alone_ret ⟨_, rfl, h, rfl, by rw [hm]⟩
  | tryGet k =>
    refine alone_tryGetCore ?_
    rw [same]
    cases hm : absMap c items k with
    | some w => exact alone_ret ⟨_, rfl, h, rfl, by rw [hm]⟩
    | none => exact alone_ret ⟨_, rfl, h, rfl, by rw [hm]⟩
  | getOrSetFactory k =>
    refine alone_tryGetCore ?_
    rw [same]
    cases hm : absMap c items k with
    | some w => exact alone_ret ⟨_, rfl, h, by simp only [Legal, hm]; exact ⟨trivial, trivial⟩⟩
    | none =>
      refine alone_lock (alone_read ?_)
      rw [same, hm]
      refine alone_factory fun w => ?_
      cases w with
      | none =>
        refine alone_unlock (alone_ret ⟨_, rfl, h, ?_⟩)
        simp only [Legal, hm]
        exact Or.inl ⟨trivial, trivial⟩
      | some v =>
        refine alone_write (alone_unlock (alone_ret ⟨_, rfl, placed_put h k v, ?_⟩))
        simp only [Legal, hm]
        exact Or.inr ⟨v, rfl, abs_put h k v⟩
  | getOrSetDefault k d =>
    refine alone_tryGetCore ?_
    rw [same]
    cases hm : absMap c items k with
    | some w => exact alone_ret ⟨_, rfl, h, by simp only [Legal, hm]; exact ⟨trivial, trivial⟩⟩
    | none =>
      refine alone_lock (alone_read ?_)
      rw [same, hm]
      refine alone_write (alone_unlock (alone_ret ⟨_, rfl, placed_put h k d, ?_⟩))
      simp only [Legal, hm]
      exact ⟨trivial, abs_put h k d⟩
  | len =>
    refine alone_lenLoop items c.n 0 0 ⟨_, rfl, h, rfl, _, rfl, ?_⟩
    rw [Nat.zero_add, range]
    exact ⟨_, lists_shards h items (fun _ => List.Perm.refl _), rfl⟩
  | empty =>
    refine alone_emptyLoop items c.n 0 ⟨_, rfl, h, rfl, _, rfl, ?_⟩
    have hl := lists_shards h items (fun _ => List.Perm.refl _)
    rw [range, decide_eq_true_eq]
    constructor
    · intro e
      rw [e] at hl
      funext k
      cases hm : absMap c items k with
      | none => rfl
      | some v => exact absurd ((hl.mem k v).2 hm) (by simp)
    · intro e
      rw [e] at hl
      rw [List.eq_nil_iff_forall_not_mem]
      rintro ⟨k, v⟩ hk
      have := (hl.mem k v).1 hk
      cases this
  | has k =>
    exact alone_rlock (alone_read (alone_runlock (alone_ret ⟨_, rfl, h, rfl, rfl⟩)))
  | delete k =>
    exact alone_lock (alone_write (alone_unlock (alone_ret ⟨_, rfl, placed_del h k, rfl, abs_del h k⟩)))
  | iterate =>
    refine alone_iterateLoop items c.n 0 [] ?_
    intro vs l l' b hv hl hb
    refine ⟨_, rfl, h, rfl, l, l', b, by rw [List.nil_append], ?_, hb⟩
    rw [← hl, range]
    exact lists_shards h vs hv
  | iterateShards => exact absurd rfl hop
  | iterateShardsReadOnly =>
    exact alone_readOnlyLoop items c.n 0 ⟨_, rfl, h, rfl, Or.inl rfl⟩ ⟨_, rfl, h, rfl, Or.inr rfl⟩
  | keys =>
    refine alone_collectLoop items _ c.n 0 [] ?_
    intro vs hv
    refine alone_ret ⟨_, rfl, h, rfl, (List.range c.n).flatMap vs, ?_, lists_shards h vs hv⟩
    rw [foldl_flatMap_snoc, List.nil_append, range]; rfl
  | values =>
    refine alone_collectLoop items _ c.n 0 [] ?_
    intro vs hv
    refine alone_ret ⟨_, rfl, h, rfl, (List.range c.n).flatMap vs, ?_, lists_shards h vs hv⟩
    rw [foldl_flatMap_snoc, List.nil_append, range]; rfl
  | entries =>
    refine alone_collectLoop items _ c.n 0 [] ?_
    intro vs hv
    refine alone_ret ⟨_, rfl, h, rfl, (List.range c.n).flatMap vs, ?_, lists_shards h vs hv⟩
    rw [foldl_flatMap_snoc (fun e : K × V => (e.1, e.2)), List.nil_append, range]
    simp [List.flatMap]
  | toMap =>
    refine alone_collectLoop items _ c.n 0 [] ?_
    intro vs hv
    have hl := lists_shards h vs hv
    obtain ⟨h1, h2⟩ := foldl_put _ hl.nodup [] List.Pairwise.nil (fun _ _ _ ha => by simp at ha)
    refine alone_ret ⟨_, rfl, h, rfl, _, rfl, ?_⟩
    rw [range, ← List.foldl_flatten]
    refine ⟨h1, fun k => opt_ext fun v => ?_⟩
    have : ((List.range c.n).map vs).flatten = (List.range c.n).flatMap vs := rfl
    rw [this, get?_eq_some h1, h2, hl.mem]
    simp
  | clear =>
    refine alone_clearLoop c.n 0 items ⟨_, rfl, ?_, rfl, ?_⟩
    · constructor
      · intro i
        split
        · exact List.Pairwise.nil
        · exact h.wf i
      · intro i k v hk
        split at hk
        · simp at hk
        · exact h.place i k v hk
    · funext k
      unfold absMap
      simp only
      rw [if_pos ⟨by omega, by have := shardOf_lt c k; omega⟩]
      rfl

end

end Verif.Sharded
