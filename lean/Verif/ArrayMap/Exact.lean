import Verif.ArrayMap.Props

/-!
# When exactly `ArrayMap` is right (C27, C28)

`C27_arrayMap_partial` and `C28_len_at_partial` name histories on which it is right. Here: lookups are right all along
a history if and only if it is one of those of C27; `Len` and `At` are right all along a history if and only if it sets
no key that is present and deletes no key that an earlier `Delete` has moved (more histories than those of
`C28_len_at_partial`).
-/

namespace Verif.ArrayMap

open Verif.GoMap

section
variable {K V : Type} [DecidableEq K] [Inhabited V]
set_option linter.unusedSectionVars false

/-- What `TryGet` reports of every key is right. -/
def Answers (p : ArrayMap K V) (m : PMap K V) : Prop :=
  ∀ k, tryGet p k = .ok (match m k with | some v => (v, true) | none => (default, false))

/-- `Len` and `At` list the map. -/
def Enumerates (p : ArrayMap K V) (m : PMap K V) : Prop :=
  ∃ l : List (K × V), m.Lists l ∧ len p = l.length ∧ ∀ i : Nat, i < l.length → ∃ e, l[i]? = some e ∧ at_ p i = .ok e

/-! ## C27 -/

theorem head_of_live {p : ArrayMap K V} {m : PMap K V} {st : List K} (h : Rep p m st) {k : K} (hk : m k ≠ none) :
    ∃ k', st.head? = some k' := by
  cases hp : p.pos.get? k with
  | none => exact absurd (h.dead k hp) hk
  | some i =>
    obtain ⟨n, -, v, hn, -⟩ := h.live k i hp
    rw [h.stack]
    cases hr : (p.kv.map Prod.fst).reverse with
    | nil =>
      rw [List.reverse_eq_nil_iff, List.map_eq_nil_iff] at hr
      rw [hr] at hn
      cases hn
    | cons x xs => exact ⟨x, rfl⟩

/-- **C27**, exactly: the lookups are those of a mathematical map after every part of the history if and only if each
`Delete` in it is of an absent key or undoes the latest `Set` not yet undone. -/
theorem C27_exact (ops : List (Op K V × Order K Int)) :
    (∀ a b, ops = a ++ b → Answers (runAll new a).2 (specAll (PMap.empty : PMap K V) (a.map (·.1))).2) ↔
      Lifo (PMap.empty : PMap K V) [] (ops.map (·.1)) := by
  have key : ∀ (ops : List (Op K V × Order K Int)) (p : ArrayMap K V) (m : PMap K V) (st : List K), Rep p m st →
      ((∀ a b, ops = a ++ b → Answers (runAll p a).2 (specAll m (a.map (·.1))).2) ↔ Lifo m st (ops.map (·.1))) := by
    intro ops
    induction ops with
    | nil =>
      intro p m st h
      refine ⟨fun _ => trivial, fun _ a b e => ?_⟩
      obtain ⟨rfl, rfl⟩ := List.append_eq_nil_iff.1 e.symm
      exact rep_tryGet h
    | cons x ops ih =>
      intro p m st h
      obtain ⟨op, o⟩ := x
      constructor
      · intro hall
        -- the first step is a good one
        have hgood : Lifo m st [op] := by
          cases op with
          | delete k =>
            cases hm : m k with
            | none => simp [Lifo, hm]
            | some v =>
              obtain ⟨k', hk'⟩ := head_of_live h (k := k) (by rw [hm]; nofun)
              by_cases c : k = k'
              · subst c; simp [Lifo, hm, hk']
              · exfalso
                obtain ⟨p', h1, h2⟩ := C27_delete_damages p m st h k k' (by rw [hm]; nofun) hk' c
                have h3 := hall [(.delete k, o)] ops rfl k'
                simp only [runAll, run, h1] at h3
                rw [h2] at h3
                cases h3
          | set k v => trivial
          | has k => trivial
          | tryGet k => trivial
          | get k => trivial
          | clear => trivial
        obtain ⟨-, h2, -⟩ := run_spec h op [] hgood o
        have h3 := (ih _ _ _ h2).1 fun a b e => hall ((op, o) :: a) b (by rw [e]; rfl)
        cases op with
        | delete k =>
          simp only [Lifo, nextStack, List.map_cons, spec] at hgood h3 ⊢
          cases hm : m k with
          | none =>
            rw [hm] at h3
            rw [(rep_delete_absent h k hm).2] at h3
            exact h3
          | some v => rw [hm] at hgood h3; exact ⟨hgood.1, h3⟩
        | set k v => exact h3
        | has k => exact h3
        | tryGet k => exact h3
        | get k => exact h3
        | clear => exact h3
      · intro hl a b e
        cases a with
        | nil => exact rep_tryGet h
        | cons y a =>
          rw [List.cons_append] at e
          injection e with e1 e2
          subst e1
          obtain ⟨-, h2, h3⟩ := run_spec h op (ops.map Prod.fst) hl o
          exact (ih _ _ _ h2).2 h3 a b e2
  exact key ops new PMap.empty [] rep_new

/-! ## C28 -/

/-- The keys by slot, after the one at the place of `k` has been overwritten with the last. -/
def fillGap (ks : List K) (k : K) : List K := match ks.getLast? with
  | none => ks
  | some last => ks.dropLast.map fun x => if x = k then last else x

/-- The histories in which every `Set` is of an absent key, and no `Delete` is of a key that an earlier `Delete` has
moved to fill the gap it made. `ks` are the keys by slot, `moved` those that have been moved. -/
def Kept (ks moved : List K) : List (Op K V) → Prop
  | [] => True
  | .set k _ :: ops => k ∉ ks ∧ Kept (ks ++ [k]) moved ops
  | .delete k :: ops =>
    if k ∈ ks then k ∉ moved ∧ Kept (fillGap ks k) (if ks.getLast? = some k then moved else ks.getLast?.toList ++ moved) ops
    else Kept ks moved ops
  | .clear :: ops => Kept [] [] ops
  | .has _ :: ops => Kept ks moved ops
  | .tryGet _ :: ops => Kept ks moved ops
  | .get _ :: ops => Kept ks moved ops

/-- The receiver lists `m` in its slots; the recorded slot is right for the keys not in `moved` and wrong for those. -/
structure Slots (p : ArrayMap K V) (m : PMap K V) (ks moved : List K) : Prop where
  wf : (p.pos.getD []).WF
  nil : p.pos = none → p.kv = []
  keys : ks = p.kv.map Prod.fst
  lists : m.Lists p.kv
  dead : ∀ k, k ∉ ks → p.pos.get? k = none
  live : ∀ k (n : Nat), ks[n]? = some k → ∃ i : Nat, p.pos.get? k = some ((i : Nat) : Int) ∧ (i = n ↔ k ∉ moved)
  sub : ∀ k ∈ moved, k ∈ ks

theorem slots_enumerates {p : ArrayMap K V} {m : PMap K V} {ks moved : List K} (h : Slots p m ks moved) :
    Enumerates p m :=
  ⟨p.kv, h.lists, rfl, fun i hi => ⟨_, List.getElem?_eq_getElem hi, goGet_nat (List.getElem?_eq_getElem hi)⟩⟩

/-- Whatever list enumerates, it is the one in the slots. -/
theorem enumerates_kv {p : ArrayMap K V} {m : PMap K V} (h : Enumerates p m) : m.Lists p.kv := by
  obtain ⟨l, h1, h2, h3⟩ := h
  have h2 : p.kv.length = l.length := by unfold len at h2; exact_mod_cast h2
  have : p.kv = l := by
    apply List.ext_getElem h2
    intro i a b
    obtain ⟨e, e1, e2⟩ := h3 i b
    unfold at_ at e2
    rw [goGet_nat (List.getElem?_eq_getElem a)] at e2
    injection e2 with e2
    rw [List.getElem?_eq_getElem b] at e1
    injection e1 with e1
    rw [e2, e1]
  rw [this]; exact h1

theorem slots_mem {p : ArrayMap K V} {m : PMap K V} {ks moved : List K} (h : Slots p m ks moved) (k : K) :
    k ∈ ks ↔ m k ≠ none := by
  rw [h.keys, List.mem_map]
  constructor
  · rintro ⟨⟨k', v⟩, h1, rfl⟩
    rw [(h.lists.mem _ _).1 h1]; nofun
  · intro hk
    cases hm : m k with
    | none => exact absurd hm hk
    | some v => exact ⟨(k, v), (h.lists.mem _ _).2 hm, rfl⟩

/-- What `Delete` does, by the slot recorded. -/
theorem delete_cases (t : Tab K Int) (kv : List (K × V)) (k k' : K) (v' : V) (n : Nat) (hn : t.get? k = some (n : Int)) :
    (n = kv.length → delete ⟨some t, kv ++ [(k', v')]⟩ k = .ok (true, ⟨some (t.del k), kv⟩)) ∧
    (n < kv.length → delete ⟨some t, kv ++ [(k', v')]⟩ k =
      .ok (true, ⟨some ((t.put k' (kv.length : Int)).del k), kv.set n (k', v')⟩)) ∧
    (kv.length < n → ∃ e, delete ⟨some t, kv ++ [(k', v')]⟩ k = .error e) := by
  have hp : MapVar.get? (some t) k = some (n : Int) := hn
  have hlast : (((kv ++ [(k', v')]).length : Int) - 1) = ((kv.length : Nat) : Int) := by simp
  refine ⟨?_, ?_, ?_⟩
  · rintro rfl
    unfold delete
    simp only [hp, hlast]
    rw [if_neg (by simp)]
    have hs : goSlice (kv ++ [(k', v')]) 0 (kv.length : Int) = .ok kv := by
      unfold goSlice
      rw [if_pos (by simp only [List.length_append, List.length_singleton]; omega)]
      simp
    simp only [pure, Except.pure, bind, Except.bind, hs]
    rfl
  · intro hlt
    unfold delete
    simp only [hp, hlast]
    rw [if_pos (by omega)]
    have g1 : goGet (kv ++ [(k', v')]) ((kv.length : Nat) : Int) = .ok (k', v') := goGet_nat (by simp)
    have g2 : goSet (kv ++ [(k', v')]) (n : Int) (k', v') = .ok ((kv ++ [(k', v')]).set n (k', v')) :=
      goSet_nat (by simp; omega)
    have g3 : goGet ((kv ++ [(k', v')]).set n (k', v')) (n : Int) = .ok (k', v') :=
      goGet_nat (by rw [List.getElem?_set]; simp; omega)
    have g4 : goSlice ((kv ++ [(k', v')]).set n (k', v')) 0 ((kv.length : Nat) : Int) = .ok (kv.set n (k', v')) := by
      unfold goSlice
      rw [if_pos (by simp only [List.length_set, List.length_append, List.length_singleton]; omega),
        List.set_append_left _ _ hlt]
      simp
    simp only [g1, g2, g3, MapVar.put, pure, Except.pure, bind, Except.bind, g4]
    rfl
  · intro hlt
    unfold delete
    simp only [hp, hlast]
    rw [if_pos (by omega)]
    have g1 : goGet (kv ++ [(k', v')]) ((kv.length : Nat) : Int) = .ok (k', v') := goGet_nat (by simp)
    have g2 : ∃ e, goSet (kv ++ [(k', v')]) (n : Int) (k', v') = .error e := by
      unfold goSet
      rw [if_neg (by simp only [List.length_append, List.length_singleton]; omega)]
      exact ⟨_, rfl⟩
    obtain ⟨e, g2⟩ := g2
    refine ⟨e, ?_⟩
    simp only [g1, g2, bind, Except.bind]

theorem slots_new : Slots (new : ArrayMap K V) PMap.empty [] [] where
  wf := List.Pairwise.nil
  nil _ := rfl
  keys := rfl
  lists := ⟨List.nodup_nil, fun k v => by simp [new, PMap.empty]⟩
  dead _ _ := rfl
  live k n h := by cases h
  sub k h := by cases h

theorem slots_clear (p : ArrayMap K V) (o : Order K Int) : Slots (clear o p) (PMap.empty : PMap K V) [] [] := by
  obtain ⟨pos, kv⟩ := p
  cases pos with
  | none => exact slots_new
  | some t =>
    have : clear o (⟨some t, kv⟩ : ArrayMap K V) = ⟨some [], []⟩ := by
      unfold clear
      rw [clear_some, List.filter_eq_nil_iff.2 (by simp)]
    rw [this]
    exact ⟨List.Pairwise.nil, fun _ => rfl, rfl, ⟨List.nodup_nil, fun k v => by simp [PMap.empty]⟩, fun _ _ => rfl,
      fun k n h => by (cases h), fun k h => by (cases h)⟩

theorem set_eq (p : ArrayMap K V) (k : K) (v : V) :
    set p k v = .ok ⟨some ((p.pos.getD []).put k (p.kv.length : Int)), p.kv ++ [(k, v)]⟩ := by
  obtain ⟨pos, kv⟩ := p
  cases pos <;> rfl

theorem slots_set {p : ArrayMap K V} {m : PMap K V} {ks moved : List K} (h : Slots p m ks moved) (k : K) (v : V)
    (hk : k ∉ ks) : Slots (⟨some ((p.pos.getD []).put k (p.kv.length : Int)), p.kv ++ [(k, v)]⟩ : ArrayMap K V)
      (m.set k v) (ks ++ [k]) moved := by
  have hm : m k = none := by
    have := slots_mem h k
    cases e : m k with
    | none => rfl
    | some w => exact absurd (this.2 (by rw [e]; nofun)) hk
  have hlen : p.kv.length = ks.length := by rw [h.keys, List.length_map]
  have hget : ∀ x, MapVar.get? (some ((p.pos.getD []).put k (p.kv.length : Int))) x =
      if x = k then some (p.kv.length : Int) else p.pos.get? x := fun x => get?_put h.wf ..
  refine ⟨WF.put h.wf _ _, nofun, by simp [h.keys], ⟨?_, ?_⟩, ?_, ?_, ?_⟩
  · have := h.lists.nodup
    rw [h.keys] at hk
    simp only [List.map_append, List.map_cons, List.map_nil, List.nodup_append]
    refine ⟨this, by simp, ?_⟩
    intro a ha b hb e
    simp at hb
    subst hb
    exact hk (e ▸ ha)
  · intro x w
    simp only [List.mem_append, List.mem_singleton, Prod.mk.injEq, PMap.set, h.lists.mem]
    by_cases c : x = k
    · subst c; simp [hm, eq_comm]
    · simp [c]
  · intro x hx
    rw [List.mem_append, not_or] at hx
    rw [hget, if_neg (by simpa using hx.2)]
    exact h.dead x hx.1
  · intro x n hx
    by_cases c : n < ks.length
    · rw [List.getElem?_append_left c] at hx
      obtain ⟨i, h1, h2⟩ := h.live x n hx
      refine ⟨i, ?_, h2⟩
      rw [hget, if_neg]
      · exact h1
      · rintro rfl; exact hk (List.mem_of_getElem? hx)
    · have hn : n = ks.length := by
        have := (List.getElem?_eq_some_iff.1 hx).1
        simp at this; omega
      subst hn
      simp at hx
      subst hx
      exact ⟨p.kv.length, by rw [hget, if_pos rfl], by simp [hlen]; exact fun c => hk (h.sub _ c)⟩
  · intro x hx; exact List.mem_append_left _ (h.sub x hx)

/-- Split off the last slot. -/
theorem slots_last {p : ArrayMap K V} {m : PMap K V} {ks moved : List K} (h : Slots p m ks moved) {k : K}
    (hk : k ∈ ks) : ∃ t kv k' v', p = ⟨some t, kv ++ [(k', v')]⟩ := by
  obtain ⟨pos, kv⟩ := p
  have hne : kv ≠ [] := by
    rintro rfl
    rw [h.keys] at hk
    cases hk
  cases pos with
  | none => exact absurd (h.nil rfl) hne
  | some t =>
    refine ⟨t, kv.dropLast, (kv.getLast hne).1, (kv.getLast hne).2, ?_⟩
    rw [List.dropLast_concat_getLast hne]

theorem nodup_inj {l : List K} (hn : l.Nodup) {i j : Nat} {k : K} (hi : l[i]? = some k) (hj : l[j]? = some k) :
    i = j := by
  obtain ⟨a, rfl⟩ := List.getElem?_eq_some_iff.1 hi
  obtain ⟨b, e⟩ := List.getElem?_eq_some_iff.1 hj
  rcases Nat.lt_trichotomy i j with c | c | c
  · exact absurd e.symm (List.pairwise_iff_getElem.1 hn i j a b c)
  · exact c
  · exact absurd e (List.pairwise_iff_getElem.1 hn j i b a c)

theorem set_eq_map {l : List K} (hn : l.Nodup) {n : Nat} {k k' : K} (hk : l[n]? = some k) :
    l.set n k' = l.map fun x => if x = k then k' else x := by
  apply List.ext_getElem (by simp)
  intro i h1 h2
  have h3 : i < l.length := by simpa using h1
  obtain ⟨hl, hx⟩ := List.getElem?_eq_some_iff.1 hk
  rw [List.getElem_set, List.getElem_map]
  by_cases c : n = i
  · subst c; simp [hx]
  · rw [if_neg c, if_neg]
    intro e
    exact c (nodup_inj hn hk (List.getElem?_eq_some_iff.2 ⟨h3, e⟩))

theorem slots_delete {p : ArrayMap K V} {m : PMap K V} {ks moved : List K} (h : Slots p m ks moved) {k : K}
    (hk : k ∈ ks) (hm : k ∉ moved) : ∃ p', delete p k = .ok (true, p') ∧ Slots p' (m.erase k) (fillGap ks k)
      (if ks.getLast? = some k then moved else ks.getLast?.toList ++ moved) := by
  obtain ⟨t, kv, k', v', rfl⟩ := slots_last h hk
  obtain ⟨n, hn⟩ := List.getElem?_of_mem hk
  obtain ⟨i, hi, hin⟩ := h.live k n hn
  obtain rfl := hin.2 hm
  have hkeys : ks = kv.map Prod.fst ++ [k'] := by rw [h.keys]; simp
  subst hkeys
  have hwf : t.WF := h.wf
  have hnd : (kv.map Prod.fst ++ [k']).Nodup := by
    have := h.lists.nodup
    simpa using this
  have hnd' := (List.nodup_append.1 hnd).1
  have hk' : k' ∉ kv.map Prod.fst := fun c => (List.nodup_append.1 hnd).2.2 k' c k' (by simp) rfl
  obtain ⟨d1, d2, -⟩ := delete_cases t kv k k' v' i hi
  have hlt := (List.getElem?_eq_some_iff.1 hn).1
  simp only [List.length_append, List.length_map, List.length_singleton] at hlt
  have hlast : (kv.map Prod.fst ++ [k']).getLast? = some k' := by simp
  rw [hlast]
  by_cases c : i = kv.length
  · -- the last slot
    subst c
    have hkk : k' = k := by
      rw [List.getElem?_append_right (by simp)] at hn
      simpa using hn
    subst hkk
    refine ⟨_, d1 rfl, ?_⟩
    have hfill : fillGap (kv.map Prod.fst ++ [k']) k' = kv.map Prod.fst := by
      unfold fillGap
      rw [hlast]
      simp only [List.dropLast_concat]
      exact (List.map_congr_left fun x _ => by split <;> simp [*]).trans (List.map_id _)
    rw [hfill, if_pos rfl]
    refine ⟨WF.del hwf k', nofun, rfl, ⟨hnd', ?_⟩, ?_, ?_, ?_⟩
    · intro x w
      have := h.lists.mem x w
      simp only [List.mem_append, List.mem_singleton, Prod.mk.injEq] at this
      unfold PMap.erase
      split
      · rename_i e; subst e
        simp only [reduceCtorEq, iff_false]
        exact fun c => hk' (List.mem_map.2 ⟨_, c, rfl⟩)
      · rename_i e; rw [← this]; simp [e]
    · intro x hx
      show (t.del k').get? x = none
      rw [get?_del hwf]
      split
      · rfl
      · rename_i e; exact h.dead x (by simp only [List.mem_append, List.mem_singleton, e, or_false]; exact hx)
    · intro x n hx
      have hl := (List.getElem?_eq_some_iff.1 hx).1
      obtain ⟨j, h1, h2⟩ := h.live x n (by rw [List.getElem?_append_left hl]; exact hx)
      refine ⟨j, ?_, h2⟩
      show (t.del k').get? x = _
      rw [get?_del hwf, if_neg]
      · exact h1
      · rintro rfl; exact hk' (List.mem_of_getElem? hx)
    · intro x hx
      have := h.sub x hx
      simp only [List.mem_append, List.mem_singleton] at this
      rcases this with c | rfl
      · exact c
      · exact absurd hx hm
  · -- another slot
    have hlt' : i < kv.length := by omega
    rw [List.getElem?_append_left (by simpa using hlt')] at hn
    have hne : k' ≠ k := by rintro rfl; exact hk' (List.mem_of_getElem? hn)
    refine ⟨_, d2 hlt', ?_⟩
    have hset : (kv.set i (k', v')).map Prod.fst = (kv.map Prod.fst).map fun x => if x = k then k' else x := by
      rw [List.map_set]; exact set_eq_map hnd' hn
    have hfill : fillGap (kv.map Prod.fst ++ [k']) k = (kv.set i (k', v')).map Prod.fst := by
      unfold fillGap
      rw [hlast, hset]
      simp
    rw [hfill, if_neg (by simpa using hne)]
    have hkeys' : (kv.set i (k', v')).map Prod.fst = (kv.map Prod.fst).set i k' := by rw [List.map_set]
    have hget : ∀ x, MapVar.get? (some ((t.put k' (kv.length : Int)).del k)) x =
        if x = k then none else if x = k' then some (kv.length : Int) else t.get? x := by
      intro x
      show ((t.put k' (kv.length : Int)).del k).get? x = _
      rw [get?_del (WF.put hwf _ _), get?_put hwf]
    have hmemk : ∀ x, x ∈ (kv.set i (k', v')).map Prod.fst ↔ x ≠ k ∧ x ∈ kv.map Prod.fst ++ [k'] := by
      intro x
      rw [hset, List.mem_map]
      constructor
      · rintro ⟨y, hy, rfl⟩
        split
        · exact ⟨hne, by simp⟩
        · rename_i e; exact ⟨e, List.mem_append_left _ hy⟩
      · rintro ⟨hx, hy⟩
        rcases List.mem_append.1 hy with hy | hy
        · exact ⟨x, hy, if_neg hx⟩
        · simp at hy
          subst hy
          exact ⟨k, List.mem_of_getElem? hn, if_pos rfl⟩
    refine ⟨WF.del (WF.put hwf _ _) k, nofun, rfl, ⟨?_, ?_⟩, ?_, ?_, ?_⟩
    · -- each key once
      show ((kv.set i (k', v')).map Prod.fst).Nodup
      rw [hset]
      refine List.pairwise_map.2 (List.Pairwise.imp_of_mem ?_ hnd')
      intro x y hx hy hxy e
      split at e <;> split at e
      · rename_i a b; exact hxy (a.trans b.symm)
      · subst e; exact hk' hy
      · subst e; exact hk' hx
      · exact hxy e
    · intro x w
      have h0 := h.lists.mem x w
      show (x, w) ∈ kv.set i (k', v') ↔ _
      obtain ⟨hl, hki⟩ := List.getElem?_eq_some_iff.1 hn
      rw [List.getElem_map] at hki
      unfold PMap.erase
      split
      · rename_i e; subst e
        simp only [reduceCtorEq, iff_false]
        intro c
        exact ((hmemk x).1 (List.mem_map.2 ⟨_, c, rfl⟩)).1 rfl
      · rename_i e
        rw [← h0]
        simp only [List.mem_append, List.mem_singleton]
        constructor
        · intro c
          rcases List.mem_or_eq_of_mem_set c with c | c
          · exact .inl c
          · exact .inr c
        · rintro (c | c)
          · obtain ⟨j, hj⟩ := List.getElem?_of_mem c
            have : i ≠ j := by
              rintro rfl
              rw [List.getElem?_eq_getElem hlt'] at hj
              injection hj with hj
              rw [hj] at hki
              exact e hki
            exact List.mem_of_getElem? (i := j) (by rw [List.getElem?_set, if_neg this]; exact hj)
          · rw [c]; exact List.mem_set hlt' _
    · intro x hx
      rw [hmemk] at hx
      rw [hget]
      by_cases c1 : x = k
      · rw [if_pos c1]
      · have : x ∉ kv.map Prod.fst ++ [k'] := fun c => hx ⟨c1, c⟩
        rw [if_neg c1, if_neg]
        · exact h.dead x this
        · rintro rfl; simp at this
    · intro x n hx
      rw [hkeys', List.getElem?_set] at hx
      split at hx
      · rename_i e; subst e
        simp [hlt'] at hx
        subst hx
        refine ⟨kv.length, by rw [hget, if_neg hne, if_pos rfl], ?_⟩
        simp; omega
      · rename_i e
        have hl := (List.getElem?_eq_some_iff.1 hx).1
        obtain ⟨j, h1, h2⟩ := h.live x n (by rw [List.getElem?_append_left hl]; exact hx)
        have hxk : x ≠ k := by
          rintro rfl
          exact e (nodup_inj hnd' hn hx)
        have hxk' : x ≠ k' := by rintro rfl; exact hk' (List.mem_of_getElem? hx)
        refine ⟨j, by rw [hget, if_neg hxk, if_neg hxk']; exact h1, ?_⟩
        rw [h2]
        simp [hxk']
    · intro x hx
      rw [hmemk]
      simp only [Option.toList_some, List.singleton_append, List.mem_cons] at hx
      rcases hx with rfl | hx
      · exact ⟨hne, by simp⟩
      · exact ⟨by rintro rfl; exact hm hx, h.sub x hx⟩

/-- Deleting a key that has been moved leaves it in a slot. -/
theorem slots_delete_moved {p : ArrayMap K V} {m : PMap K V} {ks moved : List K} (h : Slots p m ks moved) {k : K}
    (hm : k ∈ moved) (o : Order K Int) : k ∈ (run p o (.delete k)).2.kv.map Prod.fst := by
  have hk := h.sub k hm
  obtain ⟨t, kv, k', v', rfl⟩ := slots_last h hk
  obtain ⟨n, hn⟩ := List.getElem?_of_mem hk
  obtain ⟨i, hi, hin⟩ := h.live k n hn
  have hne : i ≠ n := fun c => (hin.1 c) hm
  have hkeys : ks = kv.map Prod.fst ++ [k'] := by rw [h.keys]; simp
  subst hkeys
  obtain ⟨d1, d2, d3⟩ := delete_cases t kv k k' v' i hi
  have hlt := (List.getElem?_eq_some_iff.1 hn).1
  simp only [List.length_append, List.length_map, List.length_singleton] at hlt
  rcases Nat.lt_trichotomy i kv.length with c | c | c
  · simp only [run, d2 c]
    rw [List.map_set]
    by_cases cn : n < kv.length
    · rw [List.getElem?_append_left (by simpa using cn)] at hn
      exact List.mem_of_getElem? (i := n) (by rw [List.getElem?_set, if_neg hne]; exact hn)
    · have : n = (kv.map Prod.fst).length := by simp; omega
      rw [this, List.getElem?_append_right (Nat.le_refl _)] at hn
      simp at hn
      rw [hn]
      exact List.mem_set (by simpa using c) _
  · simp only [run, d1 c]
    rw [List.getElem?_append_left (by simp; omega)] at hn
    exact List.mem_of_getElem? hn
  · obtain ⟨e, he⟩ := d3 c
    simp only [run, he]
    simpa using hk

/-- What `Kept` goes on with after an operation. -/
def nextSlots (ks moved : List K) : Op K V → List K × List K
  | .set k _ => (ks ++ [k], moved)
  | .delete k => if k ∈ ks then (fillGap ks k, if ks.getLast? = some k then moved else ks.getLast?.toList ++ moved)
    else (ks, moved)
  | .clear => ([], [])
  | _ => (ks, moved)

/-- What `Kept` asks of an operation. -/
def Allowed (ks moved : List K) : Op K V → Prop
  | .set k _ => k ∉ ks
  | .delete k => k ∈ ks → k ∉ moved
  | _ => True

theorem kept_cons (ks moved : List K) (op : Op K V) (ops : List (Op K V)) :
    Kept ks moved (op :: ops) ↔ Allowed ks moved op ∧ Kept (nextSlots ks moved op).1 (nextSlots ks moved op).2 ops := by
  cases op with
  | delete k =>
    simp only [Kept, Allowed, nextSlots]
    by_cases c : k ∈ ks <;> simp [c]
  | set k v => simp [Kept, Allowed, nextSlots]
  | has k => simp [Kept, Allowed, nextSlots]
  | tryGet k => simp [Kept, Allowed, nextSlots]
  | get k => simp [Kept, Allowed, nextSlots]
  | clear => simp [Kept, Allowed, nextSlots]

theorem erase_absent {m : PMap K V} {k : K} (h : m k = none) : m.erase k = m := by
  funext x
  unfold PMap.erase
  split
  · rename_i e; rw [e, h]
  · rfl

/-- One operation: it is allowed if and only if the map is listed afterwards. -/
theorem slots_step {p : ArrayMap K V} {m : PMap K V} {ks moved : List K} (h : Slots p m ks moved) (op : Op K V)
    (o : Order K Int) :
    (Allowed ks moved op → Slots (run p o op).2 (spec m op).2 (nextSlots ks moved op).1 (nextSlots ks moved op).2) ∧
    (Enumerates (run p o op).2 (spec m op).2 → Allowed ks moved op) := by
  have same : (run p o op).2 = p → (spec m op).2 = m → nextSlots ks moved op = (ks, moved) → Allowed ks moved op →
      (Allowed ks moved op → Slots (run p o op).2 (spec m op).2 (nextSlots ks moved op).1 (nextSlots ks moved op).2) ∧
      (Enumerates (run p o op).2 (spec m op).2 → Allowed ks moved op) := by
    intro h1 h2 h3 h4
    rw [h1, h2, h3]
    exact ⟨fun _ => h, fun _ => h4⟩
  cases op with
  | set k v =>
    simp only [run, set_eq, spec, nextSlots, Allowed]
    refine ⟨slots_set h k v, fun he hk => ?_⟩
    have hl := (enumerates_kv he).nodup
    simp only [List.map_append, List.map_cons, List.map_nil, List.nodup_append] at hl
    rw [h.keys] at hk
    exact hl.2.2 k hk k (by simp) rfl
  | delete k =>
    by_cases hk : k ∈ ks
    · constructor
      · intro ha
        obtain ⟨p', h1, h2⟩ := slots_delete h hk (ha hk)
        simp only [run, h1, spec, nextSlots, if_pos hk]
        exact h2
      · intro he _ hm
        have h1 := slots_delete_moved h hm o
        obtain ⟨⟨x, w⟩, hx, rfl⟩ := List.mem_map.1 h1
        have := ((enumerates_kv he).mem x w).1 hx
        simp [spec, PMap.erase] at this
    · have hd := h.dead k hk
      refine same ?_ (erase_absent (by
        have := slots_mem h k
        cases e : m k with
        | none => rfl
        | some w => exact absurd (this.2 (by rw [e]; nofun)) hk)) (by simp [nextSlots, hk]) (fun c => absurd c hk)
      simp [run, delete, hd]
  | has k => exact same rfl rfl rfl trivial
  | tryGet k => exact same (by simp only [run]; split <;> rfl) rfl rfl trivial
  | get k => exact same (by simp only [run]; split <;> rfl) rfl rfl trivial
  | clear => exact ⟨fun _ => slots_clear p o, fun _ => trivial⟩

/-- **C28**, exactly: `Len` and `At` list the mathematical map after every part of the history if and only if no `Set`
in it is of a key that is present and no `Delete` of a key that an earlier `Delete` has moved. -/
theorem C28_exact (ops : List (Op K V × Order K Int)) :
    (∀ a b, ops = a ++ b → Enumerates (runAll new a).2 (specAll (PMap.empty : PMap K V) (a.map (·.1))).2) ↔
      Kept (V := V) [] [] (ops.map (·.1)) := by
  have key : ∀ (ops : List (Op K V × Order K Int)) (p : ArrayMap K V) (m : PMap K V) (ks moved : List K),
      Slots p m ks moved →
      ((∀ a b, ops = a ++ b → Enumerates (runAll p a).2 (specAll m (a.map (·.1))).2) ↔
        Kept ks moved (ops.map (·.1))) := by
    intro ops
    induction ops with
    | nil =>
      intro p m ks moved h
      refine ⟨fun _ => trivial, fun _ a b e => ?_⟩
      obtain ⟨rfl, rfl⟩ := List.append_eq_nil_iff.1 e.symm
      exact slots_enumerates h
    | cons x ops ih =>
      intro p m ks moved h
      obtain ⟨op, o⟩ := x
      obtain ⟨h1, h2⟩ := slots_step h op o
      rw [List.map_cons, kept_cons]
      constructor
      · intro hall
        have ha := h2 (hall [(op, o)] ops rfl)
        exact ⟨ha, (ih _ _ _ _ (h1 ha)).1 fun a b e => hall ((op, o) :: a) b (by rw [e]; rfl)⟩
      · rintro ⟨ha, hk⟩ a b e
        cases a with
        | nil => exact slots_enumerates h
        | cons y a =>
          rw [List.cons_append] at e
          injection e with e1 e2
          subst e1
          exact (ih _ _ _ _ (h1 ha)).2 hk a b e2
  exact key ops new PMap.empty [] [] slots_new

end

/-! ## Examples -/

/-- Deletions in any order, as long as no moved key is deleted; the last one moves 4. -/
example : Kept (V := Nat) [] [] [.set 1 10, .set 2 20, .set 3 30, .delete 1, .set 4 40, .has 3, .delete 2] := by
  simp [Kept, fillGap]
/-- Here 3 has been moved. -/
example : ¬ Kept (V := Nat) [] [] [.set 1 10, .set 2 20, .set 3 30, .delete 1, .set 4 40, .delete 3] := by
  simp [Kept, fillGap]
example : (runAll (K := Nat) (V := Nat) new [(.set 1 10, .id), (.set 2 20, .id), (.set 3 30, .id), (.delete 1, .id),
    (.set 4 40, .id), (.delete 2, .id)]).2.kv = [(3, 30), (4, 40)] := by decide +kernel

end Verif.ArrayMap
