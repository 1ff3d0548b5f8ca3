import Verif.GoMap.Lemmas
import Verif.Sharded.Spec

/-!
# Methods of a sharded map run by one goroutine, step by step

For any `==` on keys.
-/

set_option linter.unusedSectionVars false

namespace Verif.Sharded

open Verif.Conc Verif.GoMap

theorem shardOf_lt {K : Type} (c : Conf K) (k : K) : shardOf c k < c.n := by
  unfold shardOf
  have hp := c.pos
  have hi := c.int
  split
  · exact hp
  · rw [UInt64.toNat_mod]
    have : (UInt64.ofNat c.n).toNat = c.n := by
      rw [UInt64.toNat_ofNat']; exact Nat.mod_eq_of_lt (by omega)
    rw [this]
    exact Nat.mod_lt _ hp

section
variable {K V : Type} [BEq K]

/-- All locks free. -/
def free : Nat → RW := fun _ => ⟨none, false, []⟩

theorem set1_same {α : Type} (f : Nat → α) (i : Nat) (x : α) : set1 f i x i = x := if_pos rfl
theorem set1_other {α : Type} (f : Nat → α) {i j : Nat} (x : α) (h : j ≠ i) : set1 f i x j = f j := if_neg h
theorem set1_set1 {α : Type} (f : Nat → α) (i : Nat) (x y : α) : set1 (set1 f i x) i y = set1 f i y := by
  funext j; unfold set1; split <;> rfl
theorem set1_self {α : Type} (f : Nat → α) (i : Nat) : set1 f i (f i) = f := by
  funext j; unfold set1; split
  · rename_i h; rw [h]
  · rfl
theorem set1_free (i : Nat) : set1 free i ⟨none, false, []⟩ = free := set1_self free i

variable {t : Tid} {R : Type} {post : R → Sh K V → Prop}

/-- Shorthand: run alone on the shards. -/
abbrev Alone (t : Tid) {R : Type} (post : R → Sh K V → Prop) (p : P K V R) (σ : Sh K V) : Prop :=
  Always (mach K V) t post p σ

theorem alone_read {i : Nat} {items : Nat → Tab K V} {l : Nat → RW} {f : Tab K V → P K V R}
    (h : Alone t post (f (items i)) ⟨items, l⟩) : Alone t post (read i >>= f) ⟨items, l⟩ := by
  refine ⟨⟨_, _, .read _ i⟩, ?_⟩
  intro ans σ' hs
  cases hs
  exact h

theorem alone_order {items : Nat → Tab K V} {l : Nat → RW} {f : Order K V → P K V R}
    (h : ∀ o, Alone t post (f o) ⟨items, l⟩) : Alone t post (rangeOrder >>= f) ⟨items, l⟩ := by
  refine ⟨⟨_, _, .order _ Order.id⟩, ?_⟩
  intro ans σ' hs
  cases hs
  exact h _

theorem alone_fn {items : Nat → Tab K V} {l : Nat → RW} {f : Bool → P K V R}
    (h : ∀ b, Alone t post (f b) ⟨items, l⟩) : Alone t post (callFn >>= f) ⟨items, l⟩ := by
  refine ⟨⟨_, _, .callback _ true⟩, ?_⟩
  intro ans σ' hs
  cases hs
  exact h _

theorem alone_factory {k : K} {items : Nat → Tab K V} {l : Nat → RW} {f : Option V → P K V R}
    (h : ∀ v, Alone t post (f v) ⟨items, l⟩) : Alone t post (callFactory k >>= f) ⟨items, l⟩ := by
  refine ⟨⟨_, _, .factory _ k none⟩, ?_⟩
  intro ans σ' hs
  cases hs
  exact h _

theorem alone_edit {items : Nat → Tab K V} {l : Nat → RW}
    {f : Option {f : Tab K V → Tab K V // ∀ m, m.WF → (f m).WF} → P K V R}
    (h : ∀ g, Alone t post (f g) ⟨items, l⟩) : Alone t post (callEdit >>= f) ⟨items, l⟩ := by
  refine ⟨⟨_, _, .edit _ none⟩, ?_⟩
  intro ans σ' hs
  cases hs
  exact h _

theorem alone_write {i : Nat} {g : Tab K V → Tab K V} {items : Nat → Tab K V} {l : Nat → RW} {f : Unit → P K V R}
    (h : Alone t post (f ()) ⟨set1 items i (g (items i)), l⟩) : Alone t post (step_ (.write i g) >>= f) ⟨items, l⟩ := by
  refine ⟨⟨_, _, .write _ i g⟩, ?_⟩
  intro ans σ' hs
  cases hs
  exact h

theorem alone_rlock {i : Nat} {items : Nat → Tab K V} {f : Unit → P K V R}
    (h : Alone t post (f ()) ⟨items, set1 free i ⟨none, false, [t]⟩⟩) :
    Alone t post (step_ (.rlock i) >>= f) ⟨items, free⟩ := by
  refine ⟨⟨_, _, .rlock _ i rfl⟩, ?_⟩
  intro ans σ' hs
  cases hs
  exact h

theorem alone_runlock {i : Nat} {items : Nat → Tab K V} {f : Unit → P K V R}
    (h : Alone t post (f ()) ⟨items, free⟩) :
    Alone t post (step_ (.runlock i) >>= f) ⟨items, set1 free i ⟨none, false, [t]⟩⟩ := by
  refine ⟨⟨_, _, .runlock _ i (by simp [set1_same])⟩, ?_⟩
  intro ans σ' hs
  cases hs
  simp only [set1_same, set1_set1, List.erase_cons_head, set1_free]
  exact h

theorem alone_lock {i : Nat} {items : Nat → Tab K V} {f : Unit → P K V R}
    (h : Alone t post (f ()) ⟨items, set1 free i ⟨some t, true, []⟩⟩) :
    Alone t post (lock i >>= f) ⟨items, free⟩ := by
  refine ⟨⟨_, _, .lockBegin _ i rfl⟩, ?_⟩
  intro ans σ' hs
  cases hs
  refine ⟨⟨_, _, .lockWait _ i (by simp [set1_same]) (by simp [set1_same]) (by simp [set1_same, free])⟩, ?_⟩
  intro ans σ' hs
  cases hs
  simp only [set1_same, set1_set1]
  exact h

theorem alone_unlock {i : Nat} {items : Nat → Tab K V} {f : Unit → P K V R}
    (h : Alone t post (f ()) ⟨items, free⟩) :
    Alone t post (step_ (.unlock i) >>= f) ⟨items, set1 free i ⟨some t, true, []⟩⟩ := by
  refine ⟨⟨_, _, .unlock _ i (by simp [set1_same]) (by simp [set1_same])⟩, ?_⟩
  intro ans σ' hs
  cases hs
  simp only [set1_same, set1_set1, set1_free]
  exact h

theorem alone_ret {r : R} {σ : Sh K V} (h : post r σ) : Alone t post (pure r) σ := h

variable [Inhabited V]

/-! ## The loops -/

theorem flatMap_congr {α β : Type} {l : List α} {f g : α → List β} (h : ∀ x ∈ l, f x = g x) :
    l.flatMap f = l.flatMap g := by
  unfold List.flatMap
  rw [List.map_congr_left h]

theorem alone_tryGetCore {c : Conf K} {k : K} {items : Nat → Tab K V} {f : Option V → P K V R}
    (h : Alone t post (f ((items (shardOf c k)).get? k)) ⟨items, free⟩) :
    Alone t post (tryGetCore c k >>= f) ⟨items, free⟩ := by
  have h2 : Alone t post ((step_ (.runlock (shardOf c k)) >>= fun _ =>
      (pure ((items (shardOf c k)).get? k) : P K V (Option V)) >>= f)) ⟨items, set1 free (shardOf c k) ⟨none, false, [t]⟩⟩ :=
    alone_runlock h
  have h1 := alone_read (f := fun m => step_ (.runlock (shardOf c k)) >>= fun _ =>
      (pure (m.get? k) : P K V (Option V)) >>= f) h2
  exact alone_rlock (f := fun _ => read (shardOf c k) >>= fun m => step_ (.runlock (shardOf c k)) >>= fun _ =>
      (pure (m.get? k) : P K V (Option V)) >>= f) h1

theorem alone_lenLoop (items : Nat → Tab K V) : ∀ (rem i count : Nat)
    {post : Res K V → Sh K V → Prop},
    post (.nat (count + ((List.range' i rem).flatMap items).length)) ⟨items, free⟩ →
    Alone t post (lenLoop i rem count) ⟨items, free⟩ := by
  intro rem
  induction rem with
  | zero => intro i count post h; exact alone_ret (by simpa using h)
  | succ rem ih =>
    intro i count post h
    refine alone_rlock (alone_read (alone_runlock (ih (i + 1) _ ?_)))
    rw [List.range'_succ, List.flatMap_cons, List.length_append] at h
    rw [Nat.add_assoc]; exact h

theorem alone_emptyLoop (items : Nat → Tab K V) : ∀ (rem i : Nat) {post : Res K V → Sh K V → Prop},
    post (.bool (decide ((List.range' i rem).flatMap items = []))) ⟨items, free⟩ →
    Alone t post (emptyLoop i rem) ⟨items, free⟩ := by
  intro rem
  induction rem with
  | zero => intro i post h; exact alone_ret (by simpa using h)
  | succ rem ih =>
    intro i post h
    refine alone_rlock (alone_read (alone_runlock ?_))
    rw [List.range'_succ, List.flatMap_cons] at h
    split
    · rename_i hl
      have : (decide (items i ++ (List.range' (i + 1) rem).flatMap items = [])) = false := by
        rw [decide_eq_false_iff_not]
        intro e
        rw [List.append_eq_nil_iff] at e
        rw [e.1] at hl; simp at hl
      rw [this] at h
      exact alone_ret h
    · rename_i hl
      refine ih (i + 1) ?_
      have : items i = [] := List.length_eq_zero_iff.1 (by omega)
      rw [this, List.nil_append] at h
      exact h

theorem alone_visitAll {items : Nat → Tab K V} {l : Nat → RW} {f : List (K × V) × Bool → P K V R} :
    ∀ (es done : List (K × V)),
    (∀ l1 l2 b, es = l1 ++ l2 → (b = true → l2 = []) → Alone t post (f (done ++ l1, b)) ⟨items, l⟩) →
    Alone t post (visitAll es done >>= f) ⟨items, l⟩ := by
  intro es
  induction es with
  | nil =>
    intro done h
    have := h [] [] true rfl (fun _ => rfl)
    rw [List.append_nil] at this
    exact this
  | cons e es ih =>
    intro done h
    have key : ∀ b : Bool, Alone t post
        ((if b then visitAll es (done ++ [e]) else pure (done ++ [e], false)) >>= f) ⟨items, l⟩ := by
      intro b
      cases b with
      | false => exact h [e] es false rfl (fun c => by cases c)
      | true =>
        refine ih (done ++ [e]) ?_
        intro l1 l2 b e1 e2
        rw [List.append_assoc]
        exact h (e :: l1) l2 b (by rw [e1]; rfl) e2
    exact alone_fn key

theorem alone_iterateLoop (items : Nat → Tab K V) : ∀ (rem i : Nat) (acc : List (K × V))
    {post : Res K V → Sh K V → Prop},
    (∀ (vs : Nat → Tab K V) l l' b, (∀ j, (vs j).Perm (items j)) → (List.range' i rem).flatMap vs = l ++ l' →
      (b = true → l' = []) → post (.visited (acc ++ l) b) ⟨items, free⟩) →
    Alone t post (iterateLoop i rem acc) ⟨items, free⟩ := by
  intro rem
  induction rem with
  | zero =>
    intro i acc post h
    have := h items [] [] true (fun _ => List.Perm.refl _) rfl (fun _ => rfl)
    exact alone_ret (by simpa using this)
  | succ rem ih =>
    intro i acc post h
    refine alone_rlock (alone_read (alone_order fun o => alone_visitAll _ _ ?_))
    intro l1 l2 b e1 e2
    refine alone_runlock ?_
    have e2' := e2
    cases b with
    | true =>
      have := e2' rfl
      subst this
      rw [List.append_nil] at e1
      refine ih (i + 1) _ ?_
      intro vs l l' b hv hl hb
      have := h (set1 vs i (o.visit (items i))) (l1 ++ l) l' b ?_ ?_ hb
      · rw [List.append_assoc]; exact this
      · intro j
        by_cases c : j = i
        · subst c; rw [set1_same]; exact o.perm _
        · rw [set1_other _ _ c]; exact hv j
      · rw [List.range'_succ, List.flatMap_cons, set1_same, e1, List.append_assoc, ← hl]
        congr 1
        apply flatMap_congr
        intro j hj
        rw [set1_other]
        have := (List.mem_range'_1.1 hj).1
        omega
    | false =>
      refine alone_ret ?_
      refine h (set1 items i (o.visit (items i))) l1 (l2 ++ (List.range' (i + 1) rem).flatMap items) false ?_ ?_
        (fun c => by cases c)
      · intro j
        by_cases c : j = i
        · subst c; rw [set1_same]; exact o.perm _
        · rw [set1_other _ _ c]
      · rw [List.range'_succ, List.flatMap_cons, set1_same, e1, List.append_assoc]
        congr 1
        congr 1
        apply flatMap_congr
        intro j hj
        rw [set1_other]
        have := (List.mem_range'_1.1 hj).1
        omega

theorem alone_readOnlyLoop (items : Nat → Tab K V) : ∀ (rem i : Nat) {post : Res K V → Sh K V → Prop},
    post .unit ⟨items, free⟩ → post .panic ⟨items, free⟩ →
    Alone t post (iterateShardsReadOnlyLoop i rem) ⟨items, free⟩ := by
  intro rem
  induction rem with
  | zero => intro i post h _; exact h
  | succ rem ih =>
    intro i post h h'
    refine alone_rlock (alone_read (alone_fn fun b => alone_runlock ?_))
    cases b with
    | true => exact ih (i + 1) h h'
    | false => exact h'

theorem alone_collectLoop {α : Type} (items : Nat → Tab K V) (add : α → List (K × V) → α) {f : α → P K V R} :
    ∀ (rem i : Nat) (acc : α),
    (∀ (vs : Nat → Tab K V), (∀ j, (vs j).Perm (items j)) →
      Alone t post (f (((List.range' i rem).map vs).foldl add acc)) ⟨items, free⟩) →
    Alone t post (collectLoop add i rem acc >>= f) ⟨items, free⟩ := by
  intro rem
  induction rem with
  | zero =>
    intro i acc h
    exact h items (fun _ => List.Perm.refl _)
  | succ rem ih =>
    intro i acc h
    refine alone_rlock (f := fun _ => (do
      let items ← read i
      let o ← rangeOrder
      step_ (.runlock i)
      collectLoop add (i + 1) rem (add acc (o.visit items))) >>= f) ?_
    refine alone_read (f := fun m => (do
      let o ← rangeOrder
      step_ (.runlock i)
      collectLoop add (i + 1) rem (add acc (o.visit m))) >>= f) ?_
    refine alone_order (f := fun o => (do
      step_ (.runlock i)
      collectLoop add (i + 1) rem (add acc (o.visit (items i)))) >>= f) (fun o => ?_)
    refine alone_runlock (f := fun _ => (collectLoop add (i + 1) rem (add acc (o.visit (items i)))) >>= f) ?_
    refine ih (i + 1) _ ?_
    intro vs hv
    have := h (set1 vs i (o.visit (items i))) ?_
    · rw [List.range'_succ, List.map_cons, List.foldl_cons, set1_same] at this
      rw [List.map_congr_left (g := vs)] at this
      · exact this
      · intro j hj
        rw [set1_other]
        have := (List.mem_range'_1.1 hj).1
        omega
    · intro j
      by_cases c : j = i
      · subst c; rw [set1_same]; exact o.perm _
      · rw [set1_other _ _ c]; exact hv j

theorem alone_clearLoop : ∀ (rem i : Nat) (items : Nat → Tab K V) {post : Res K V → Sh K V → Prop},
    post .unit ⟨fun j => if i ≤ j ∧ j < i + rem then [] else items j, free⟩ →
    Alone t post (clearLoop i rem) ⟨items, free⟩ := by
  intro rem
  induction rem with
  | zero =>
    intro i items post h
    have : (fun j => if i ≤ j ∧ j < i + 0 then [] else items j) = items := by
      funext j; rw [if_neg (by omega)]
    rw [this] at h
    exact h
  | succ rem ih =>
    intro i items post h
    refine alone_rlock (alone_write (alone_runlock (ih (i + 1) _ ?_)))
    have : (fun j => if i ≤ j ∧ j < i + (rem + 1) then [] else items j) =
        (fun j => if i + 1 ≤ j ∧ j < i + 1 + rem then [] else set1 items i [] j) := by
      funext j
      by_cases c : j = i
      · subst c; rw [if_pos (by omega), if_neg (by omega), set1_same]
      · rw [set1_other _ _ c]
        by_cases c' : i + 1 ≤ j ∧ j < i + 1 + rem
        · rw [if_pos (by omega), if_pos c']
        · rw [if_neg (by omega), if_neg c']
    rw [this] at h
    exact h

theorem foldl_flatMap_snoc {α β : Type} (g : α → β) (ls : List (List α)) (acc : List β) :
    ls.foldl (fun acc es => es.foldl (fun acc e => acc ++ [g e]) acc) acc = acc ++ (ls.flatten).map g := by
  induction ls generalizing acc with
  | nil => simp
  | cons l ls ih => rw [List.foldl_cons, foldl_snoc, ih]; simp

end

end Verif.Sharded
