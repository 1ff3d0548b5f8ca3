import Verif.Src.ShardProg
import Verif.Src.SortLoops
import Verif.Sharded.Props

/-!
# C155: ds/xmap/sharded.go from the text, used by one goroutine
-/

set_option linter.unusedSectionVars false

namespace Verif.Src.Shard

open Verif.GoMap Verif.Sharded Verif.Sharded.Props Verif.Src.XMap
open Verif.Src.Sort (forOf nth)

theorem put_put {E : Type} (m : Mem E) (a i : Nat) (v w : Val E) : (m.put a i v).put a i w = m.put a i w := by
  unfold Mem.put
  congr 1
  apply List.ext_getElem?
  intro j
  simp only [List.getElem?_modify]
  cases m.arrs[j]? with
  | none => rfl
  | some l => by_cases h : a = j <;> simp [h]

theorem put_self {E : Type} {m : Mem E} {a i : Nat} {w : Val E} (h : m.cell a i = some w) : m.put a i w = m := by
  unfold Mem.put
  have : m.arrs.modify a (fun l => l.set i w) = m.arrs := by
    apply List.ext_getElem?
    intro j
    simp only [List.getElem?_modify]
    cases hj : m.arrs[j]? with
    | none => rfl
    | some l =>
      by_cases e : a = j
      · subst e
        simp only [Mem.cell, hj] at h
        simp only [if_true, Option.map_some, Option.map_eq_map, Option.some.injEq]
        apply List.ext_getElem?
        intro q
        rw [List.getElem?_set]
        split
        · rename_i e; subst e
          split
          · exact h.symm
          · rename_i hq
            rw [List.getElem?_eq_none (by omega)]
        · rfl
      · simp [e]
  rw [this]

section
variable {K V : Type} [BEq K] {p : Par K V} {m : Mem (K ⊕ V)} {a i id : Nat}

/-- A `Shard`: its map and its lock. -/
def shardV (id : Nat) (w : Bool) (r : Int) : Val (K ⊕ V) := .struct "Shard" [("writer", .bool w), ("readers", .num .int r), ("items", .map id)]

theorem lock_src (h : m.cell a i = some (shardV id false 0)) (n : Nat) :
    calls (ctx p) (n + 1) "Shard.Lock" [.ptr a i []] m = pure ([], m.put a i (shardV id true 0)) := by
  rw [calls]
  go_run [Shard_Lock_fn, h, shardV]

theorem unlock_src (h : m.cell a i = some (shardV id true 0)) (n : Nat) :
    calls (ctx p) (n + 1) "Shard.Unlock" [.ptr a i []] m = pure ([], m.put a i (shardV id false 0)) := by
  rw [calls]
  go_run [Shard_Unlock_fn, h, shardV]

theorem rlock_src (h : m.cell a i = some (shardV id false 0)) (n : Nat) :
    calls (ctx p) (n + 1) "Shard.RLock" [.ptr a i []] m = pure ([], m.put a i (shardV id false 1)) := by
  rw [calls]
  go_run [Shard_RLock_fn, h, shardV]
  rfl

theorem runlock_src (h : m.cell a i = some (shardV id false 1)) (n : Nat) :
    calls (ctx p) (n + 1) "Shard.RUnlock" [.ptr a i []] m = pure ([], m.put a i (shardV id false 0)) := by
  rw [calls]
  go_run [Shard_RUnlock_fn, h, shardV]

/-- A `Sharded`. -/
def shardedV (a o n cap : Nat) (s : UInt64) : Val (K ⊕ V) :=
  .struct "Sharded" [("shards", .slice a o n cap), ("hasher", .fn "hasher"), ("seed", .num .u64 s.toNat)]

/-- The shards in memory, with free locks. -/
structure Holds (p : Par K V) (c : Conf K) (m : Mem (K ⊕ V)) (a o : Nat) (ids : Nat → Nat) (items : Nat → Tab K V) : Prop where
  cells : ∀ i, i < c.n → m.cell a (o + i) = some (shardV (ids i) false 0)
  maps : ∀ i, i < c.n → m.maps[ids i]? = some (obj p.toMap (vE p.toMap.zeroV) kE vE (items i))
  inj : ∀ i j, i < c.n → j < c.n → ids i = ids j → i = j

variable {c : Conf K} {o cap : Nat}

theorem elemAddr_nat {E : Type} {a o l cp j : Nat} {kd : Kind} (h : j < l) :
    elemAddr (.slice a o l cp : Val E) (.num kd j) = pure (.ptr a (o + j) []) := by
  simp only [elemAddr, show (0 : Int) ≤ j ∧ (j : Int) < l by omega, and_self, if_true, Int.toNat_natCast]

theorem getShard_src (hp : p.hash = c.hash) (k : K) (n : Nat) :
    calls (ctx p) (n + 1) "Sharded.GetShard" [shardedV a o c.n cap c.seed, kE k] m = pure ([.ptr a (o + shardOf c k) []], m) := by
  have hlt := shardOf_lt c k
  have hi := c.int
  have hpos := c.pos
  rw [calls]
  by_cases h1 : c.n = 1
  · have e : elemAddr (.slice a o 1 cap : Val (K ⊕ V)) (.num .lit 0) = pure (.ptr a (o + shardOf c k) []) := by
      have := elemAddr_nat (E := K ⊕ V) (a := a) (o := o) (cp := cap) (kd := .lit) hlt
      rw [h1] at this
      rw [← this]
      simp [shardOf, h1]
    go_run [Sharded_GetShard_fn, shardedV, h1, e]
  · have hw : wrap .u64 (c.n : Int) = c.n := by
      show (c.n : Int) % 2 ^ 64 = c.n
      omega
    have h0 : ¬ (c.n : Int) = 0 := by omega
    have hm : wrap .u64 (((c.hash k c.seed).toNat : Int).tmod c.n) = (shardOf c k : Nat) := by
      have h2 : (UInt64.ofNat c.n).toNat = c.n := by
        rw [UInt64.toNat_ofNat']; exact Nat.mod_eq_of_lt (by omega)
      have h3 : shardOf c k = (c.hash k c.seed).toNat % c.n := by
        rw [shardOf, if_neg h1, UInt64.toNat_mod, h2]
      rw [h3, Int.tmod_eq_emod_of_nonneg (by omega)]
      show _ % 2 ^ 64 = _
      rw [h3] at hlt
      rw [← Int.natCast_emod]
      omega
    go_run [Sharded_GetShard_fn, shardedV, h1, hp, hw, h0, hm, elemAddr_nat hlt]

/-! ## The methods on one key -/

variable {ids : Nat → Nat} {items : Nat → Tab K V}

theorem put_cell {w : Val (K ⊕ V)} (h : m.cell a i = some w) (v : Val (K ⊕ V)) : (m.put a i v).cell a i = some v := cell_put_same h v

theorem put_setMap (v : Val (K ⊕ V)) (ob : MapObj (K ⊕ V)) : (m.put a i v).setMap id ob = (m.setMap id ob).put a i v := rfl

/-- Another table for one shard. -/
theorem Holds.set (h : Holds p c m a o ids items) {s : Nat} (hs : s < c.n) (t : Tab K V) :
    Holds p c (m.setMap (ids s) (obj p.toMap (vE p.toMap.zeroV) kE vE t)) a o ids (set1 items s t) where
  cells j hj := h.cells j hj
  maps j hj := by
    by_cases e : j = s
    · subst e
      rw [set1_same]
      exact setMap_here (List.getElem?_eq_some_iff.mp (h.maps j hj)).1 _
    · rw [set1_other _ _ e, setMap_other (fun e' => e (h.inj _ _ hj hs e'))]
      exact h.maps j hj
  inj := h.inj

/-- Memory with the lock of the shard taken. -/
theorem Holds.back (h : m.cell a i = some (shardV id false 0)) (v : Val (K ⊕ V)) : (m.put a i v).put a i (shardV id false 0) = m := by
  rw [put_put, put_self h]

theorem Holds.back_map (h : m.cell a i = some (shardV id false 0)) (v : Val (K ⊕ V)) {d : Nat} (ob : MapObj (K ⊕ V)) :
    ((m.put a i v).setMap d ob).put a i (shardV id false 0) = m.setMap d ob := by
  rw [put_setMap, put_put, put_self (m := m.setMap d ob) h]

theorem set_src (h : Holds p c m a o ids items) (hp : p.hash = c.hash) (k : K) (v : V) (n : Nat) :
    calls (ctx p) (n + 2) "Sharded.Set" [shardedV a o c.n cap c.seed, kE k, vE v] m =
      pure ([], m.setMap (ids (shardOf c k)) (obj p.toMap (vE p.toMap.zeroV) kE vE ((items (shardOf c k)).put k v))) := by
  have hs := shardOf_lt c k
  have hc := h.cells _ hs
  have e1 := getShard_src (m := m) (a := a) (o := o) (cap := cap) hp k n
  have e2 := lock_src (p := p) hc n
  have hc2 := put_cell hc (shardV (ids (shardOf c k)) true 0)
  have hm2 : (m.put a (o + shardOf c k) (shardV (ids (shardOf c k)) true 0)).maps[ids (shardOf c k)]? = _ := h.maps _ hs
  have e3 := fun env => store_map keyed_kE (fun _ => rfl) hm2 env k v
  have hc3 := fun ob => (setMap_cell (m.put a (o + shardOf c k) (shardV (ids (shardOf c k)) true 0)) (ids (shardOf c k)) ob a (o + shardOf c k)).trans hc2
  have e4 := fun ob => unlock_src (p := p) (hc3 ob) n
  have hb := fun ob => Holds.back_map hc (shardV (ids (shardOf c k)) true 0) (d := ids (shardOf c k)) ob
  rw [calls]
  simp only [shardedV, shardV, kE, vE] at *
  go_run [Sharded_Set_fn, ↓e1, hc, ↓e2, hc2, ↓e3, hc3, ↓e4, ↓hb]

theorem tryGet_src (h : Holds p c m a o ids items) (hp : p.hash = c.hash) (k : K) (n : Nat) :
    calls (ctx p) (n + 2) "Sharded.TryGet" [shardedV a o c.n cap c.seed, kE k] m =
      pure ([vE (((items (shardOf c k)).get? k).getD p.toMap.zeroV), .bool ((items (shardOf c k)).get? k).isSome], m) := by
  have hs := shardOf_lt c k
  have hc := h.cells _ hs
  have e1 := getShard_src (m := m) (a := a) (o := o) (cap := cap) hp k n
  have e2 := rlock_src (p := p) hc n
  have hc2 := put_cell hc (shardV (ids (shardOf c k)) false 1)
  have hm2 : (m.put a (o + shardOf c k) (shardV (ids (shardOf c k)) false 1)).maps[ids (shardOf c k)]? = _ := h.maps _ hs
  have e3 := lookup_map keyed_kE hm2 k
  have e4 := runlock_src (p := p) hc2 n
  have hb := Holds.back hc (shardV (ids (shardOf c k)) false 1)
  rw [calls]
  simp only [shardedV, shardV, kE, vE] at *
  cases hg : (items (shardOf c k)).get? k with
  | none =>
    rw [hg] at e3
    go_run [Sharded_TryGet_fn, ↓e1, hc, ↓e2, hc2, ↓e3, ↓e4, ↓hb, Option.getD_none]
  | some w =>
    rw [hg] at e3
    go_run [Sharded_TryGet_fn, ↓e1, hc, ↓e2, hc2, ↓e3, ↓e4, ↓hb, Option.getD_some]

theorem has_src (h : Holds p c m a o ids items) (hp : p.hash = c.hash) (k : K) (n : Nat) :
    calls (ctx p) (n + 2) "Sharded.Has" [shardedV a o c.n cap c.seed, kE k] m =
      pure ([.bool ((items (shardOf c k)).get? k).isSome], m) := by
  have hs := shardOf_lt c k
  have hc := h.cells _ hs
  have e1 := getShard_src (m := m) (a := a) (o := o) (cap := cap) hp k n
  have e2 := rlock_src (p := p) hc n
  have hc2 := put_cell hc (shardV (ids (shardOf c k)) false 1)
  have hm2 : (m.put a (o + shardOf c k) (shardV (ids (shardOf c k)) false 1)).maps[ids (shardOf c k)]? = _ := h.maps _ hs
  have e3 := lookup_map keyed_kE hm2 k
  have e4 := runlock_src (p := p) hc2 n
  have hb := Holds.back hc (shardV (ids (shardOf c k)) false 1)
  rw [calls]
  simp only [shardedV, shardV, kE, vE] at *
  cases hg : (items (shardOf c k)).get? k with
  | none =>
    rw [hg] at e3
    go_run [Sharded_Has_fn, ↓e1, hc, ↓e2, hc2, ↓e3, ↓e4, ↓hb]
  | some w =>
    rw [hg] at e3
    go_run [Sharded_Has_fn, ↓e1, hc, ↓e2, hc2, ↓e3, ↓e4, ↓hb]

theorem get_src (h : Holds p c m a o ids items) (hp : p.hash = c.hash) (k : K) (n : Nat) :
    calls (ctx p) (n + 3) "Sharded.Get" [shardedV a o c.n cap c.seed, kE k] m =
      match (items (shardOf c k)).get? k with
      | some v => pure ([vE v], m)
      | none => panic (p.toMap.sprint [.str "key not found: ", kE k]) := by
  have e := tryGet_src (cap := cap) h hp k n
  rw [calls]
  simp only [shardedV, kE, vE] at *
  cases hg : (items (shardOf c k)).get? k with
  | none =>
    rw [hg] at e
    simp only [Option.isSome_none] at e
    go_run [Sharded_Get_fn, ↓e]
  | some w =>
    rw [hg] at e
    simp only [Option.isSome_some] at e
    go_run [Sharded_Get_fn, ↓e, Option.getD_some]

theorem trySet_src (h : Holds p c m a o ids items) (hp : p.hash = c.hash) (k : K) (v : V) (n : Nat) :
    calls (ctx p) (n + 2) "Sharded.TrySet" [shardedV a o c.n cap c.seed, kE k, vE v] m =
      match (items (shardOf c k)).get? k with
      | some _ => pure ([.bool false], m)
      | none => pure ([.bool true],
        m.setMap (ids (shardOf c k)) (obj p.toMap (vE p.toMap.zeroV) kE vE ((items (shardOf c k)).put k v))) := by
  have hs := shardOf_lt c k
  have hc := h.cells _ hs
  have e1 := getShard_src (m := m) (a := a) (o := o) (cap := cap) hp k n
  have e2 := lock_src (p := p) hc n
  have hc2 := put_cell hc (shardV (ids (shardOf c k)) true 0)
  have hm2 : (m.put a (o + shardOf c k) (shardV (ids (shardOf c k)) true 0)).maps[ids (shardOf c k)]? = _ := h.maps _ hs
  have el := lookup_map keyed_kE hm2 k
  have e3 := fun env => store_map keyed_kE (fun _ => rfl) hm2 env k v
  have hc3 := fun ob => (setMap_cell (m.put a (o + shardOf c k) (shardV (ids (shardOf c k)) true 0)) (ids (shardOf c k)) ob a (o + shardOf c k)).trans hc2
  have e4 := fun ob => unlock_src (p := p) (hc3 ob) n
  have e5 := unlock_src (p := p) hc2 n
  have hb := fun ob => Holds.back_map hc (shardV (ids (shardOf c k)) true 0) (d := ids (shardOf c k)) ob
  have hb2 := Holds.back hc (shardV (ids (shardOf c k)) true 0)
  rw [calls]
  simp only [shardedV, shardV, kE, vE] at *
  cases hg : (items (shardOf c k)).get? k with
  | none =>
    rw [hg] at el
    go_run [Sharded_TrySet_fn, ↓e1, hc, ↓e2, hc2, ↓el, ↓e3, hc3, ↓e4, ↓hb, Bool.not_false]
  | some w =>
    rw [hg] at el
    go_run [Sharded_TrySet_fn, ↓e1, hc, ↓e2, hc2, ↓el, ↓e5, ↓hb2, Bool.not_true]

theorem delete_src (h : Holds p c m a o ids items) (hp : p.hash = c.hash) (k : K) (n : Nat) :
    calls (ctx p) (n + 2) "Sharded.Delete" [shardedV a o c.n cap c.seed, kE k] m =
      pure ([], m.setMap (ids (shardOf c k)) (obj p.toMap (vE p.toMap.zeroV) kE vE ((items (shardOf c k)).del k))) := by
  have hs := shardOf_lt c k
  have hc := h.cells _ hs
  have e1 := getShard_src (m := m) (a := a) (o := o) (cap := cap) hp k n
  have e2 := lock_src (p := p) hc n
  have hc2 := put_cell hc (shardV (ids (shardOf c k)) true 0)
  have hm2 : (m.put a (o + shardOf c k) (shardV (ids (shardOf c k)) true 0)).maps[ids (shardOf c k)]? = _ := h.maps _ hs
  have e3 := delete_map keyed_kE hm2 k
  have hc3 := fun ob => (setMap_cell (m.put a (o + shardOf c k) (shardV (ids (shardOf c k)) true 0)) (ids (shardOf c k)) ob a (o + shardOf c k)).trans hc2
  have e4 := fun ob => unlock_src (p := p) (hc3 ob) n
  have hb := fun ob => Holds.back_map hc (shardV (ids (shardOf c k)) true 0) (d := ids (shardOf c k)) ob
  rw [calls]
  simp only [shardedV, shardV, kE, vE] at *
  go_run [Sharded_Delete_fn, ↓e1, hc, ↓e2, hc2, ↓e3, hc3, ↓e4, ↓hb]

/-! ## The methods on all shards -/

/-- How many entries the shards from `j` on have. -/
def countFrom (items : Nat → Tab K V) (j d : Nat) : Nat := ((List.range' j d).map fun i => (items i).length).sum

theorem len_obj {id : Nat} {t : Tab K V} (h : m.maps[id]? = some (obj p.toMap (vE p.toMap.zeroV) kE vE t)) : len m (.map id) = pure (.num .int t.length) := by
  simp only [len, h, obj, enc, List.length_map]

theorem len_loop (h : Holds p c m a o ids items) (n d : Nat) : ∀ j q, j + d = c.n → q + countFrom items j d < 2 ^ 63 →
    forOf (ctx p) (calls (ctx p) (n + 1)) (nth Sharded_Len_fn.body 1) [("i", .num .int (j : Nat)), ("count", .num .int (q : Nat)), ("m", shardedV a o c.n cap c.seed)] m =
      pure (.next, [("i", .num .int c.n), ("count", .num .int ((q + countFrom items j d : Nat) : Int)), ("m", shardedV a o c.n cap c.seed)], m) := by
  have hi := c.int
  induction d with
  | zero =>
    intro j q hj hq
    obtain rfl : j = c.n := hj
    simp only [forOf, nth, Sharded_Len_fn, shardedV]
    rw [rounds_eq]
    go_run [countFrom]
    rfl
  | succ d ih =>
    intro j q hj hq
    have hjn : j < c.n := by omega
    have hs : countFrom items j (d + 1) = (items j).length + countFrom items (j + 1) d := by
      simp [countFrom, List.range'_succ]
    rw [hs] at hq ⊢
    have hc := h.cells _ hjn
    have e2 := rlock_src (p := p) hc n
    have hc2 := put_cell hc (shardV (ids j) false 1)
    have hm2 : (m.put a (o + j) (shardV (ids j) false 1)).maps[ids j]? = _ := h.maps _ hjn
    have e3 := len_obj hm2
    have e4 := runlock_src (p := p) hc2 n
    have hb := Holds.back hc (shardV (ids j) false 1)
    have := ih (j + 1) (q + (items j).length) (by omega) (by omega)
    simp only [forOf, nth, Sharded_Len_fn, shardedV, shardV] at *
    rw [rounds_eq]
    go_run [elemAddr_nat hjn, hc, ↓e2, hc2, ↓e3, ↓e4, ↓hb]
    rw [show (j : Int) + 1 = ((j + 1 : Nat) : Int) by omega, show (q : Int) + ((items j).length : Int) = ((q + (items j).length : Nat) : Int) by omega,
      this, Nat.add_assoc]

theorem len_src (h : Holds p c m a o ids items) (hn : countFrom items 0 c.n < 2 ^ 63) (n : Nat) :
    calls (ctx p) (n + 2) "Sharded.Len" [shardedV a o c.n cap c.seed] m = pure ([.num .int (countFrom items 0 c.n)], m) := by
  have := len_loop (cap := cap) h n c.n 0 0 (by omega) (by omega)
  rw [calls]
  simp only [forOf, nth, Sharded_Len_fn, shardedV] at *
  simp only [Nat.zero_add, Int.cast_ofNat_Int] at this
  go_run [Sharded_Len_fn, ↓this]

theorem empty_loop (h : Holds p c m a o ids items) (hn : ∀ i, i < c.n → (items i).length < 2 ^ 63) (n d : Nat) : ∀ j, j + d = c.n →
    ∃ env, forOf (ctx p) (calls (ctx p) (n + 1)) (nth Sharded_Empty_fn.body 0) [("i", .num .int (j : Nat)), ("m", shardedV a o c.n cap c.seed)] m =
      pure (if countFrom items j d = 0 then .next else .ret [.bool false], [("i", env), ("m", shardedV a o c.n cap c.seed)], m) := by
  have hi := c.int
  induction d with
  | zero =>
    intro j hj
    obtain rfl : j = c.n := hj
    refine ⟨.num .int c.n, ?_⟩
    rw [if_pos (by rfl)]
    simp only [forOf, nth, Sharded_Empty_fn, shardedV]
    rw [rounds_eq]
    go_run []
  | succ d ih =>
    intro j hj
    have hjn : j < c.n := by omega
    have hs : countFrom items j (d + 1) = (items j).length + countFrom items (j + 1) d := by
      simp [countFrom, List.range'_succ]
    rw [hs]
    have hl := hn j hjn
    have hc := h.cells _ hjn
    have e2 := rlock_src (p := p) hc n
    have hc2 := put_cell hc (shardV (ids j) false 1)
    have hm2 : (m.put a (o + j) (shardV (ids j) false 1)).maps[ids j]? = _ := h.maps _ hjn
    have e3 := len_obj hm2
    have e4 := runlock_src (p := p) hc2 n
    have hb := Holds.back hc (shardV (ids j) false 1)
    obtain ⟨env, this⟩ := ih (j + 1) (by omega)
    simp only [forOf, nth, Sharded_Empty_fn, shardedV, shardV] at *
    by_cases h0 : (items j).length = 0
    · refine ⟨env, ?_⟩
      rw [rounds_eq]
      rw [h0] at e3
      go_run [elemAddr_nat hjn, hc, ↓e2, hc2, ↓e3, ↓e4, ↓hb]
      rw [show (j : Int) + 1 = ((j + 1 : Nat) : Int) by omega, this]
      simp only [h0, Nat.zero_add]
    · refine ⟨.num .int j, ?_⟩
      rw [rounds_eq, if_neg (by omega)]
      have h1 : (0 : Int) < (items j).length := by omega
      go_run [elemAddr_nat hjn, hc, ↓e2, hc2, ↓e3, ↓e4, ↓hb, h1]

theorem empty_src (h : Holds p c m a o ids items) (hn : ∀ i, i < c.n → (items i).length < 2 ^ 63) (n : Nat) :
    calls (ctx p) (n + 2) "Sharded.Empty" [shardedV a o c.n cap c.seed] m = pure ([.bool (decide (countFrom items 0 c.n = 0))], m) := by
  obtain ⟨env, this⟩ := empty_loop (cap := cap) h hn n c.n 0 (by omega)
  rw [calls]
  simp only [forOf, nth, Sharded_Empty_fn, shardedV, Int.cast_ofNat_Int] at *
  by_cases h0 : countFrom items 0 c.n = 0
  · rw [if_pos h0] at this
    go_run [Sharded_Empty_fn, ↓this, h0]
  · rw [if_neg h0] at this
    go_run [Sharded_Empty_fn, ↓this, h0]

end

/-! ## C155 -/

section
variable {K V : Type} [DecidableEq K] [Inhabited V]

/-- The function and the arguments of a call; the methods whose text is here. -/
def fnOf : Op K V → Option (String × List (Val (K ⊕ V)))
  | .set k v => some ("Sharded.Set", [kE k, vE v])
  | .trySet k v => some ("Sharded.TrySet", [kE k, vE v])
  | .get k => some ("Sharded.Get", [kE k])
  | .tryGet k => some ("Sharded.TryGet", [kE k])
  | .len => some ("Sharded.Len", [])
  | .empty => some ("Sharded.Empty", [])
  | .has k => some ("Sharded.Has", [kE k])
  | .delete k => some ("Sharded.Delete", [kE k])
  | _ => none

/-- Results as values. -/
def resV : Res K V → Option (List (Val (K ⊕ V)))
  | .unit => some []
  | .bool b => some [.bool b]
  | .val v => some [vE v]
  | .pair v b => some [vE v, .bool b]
  | .nat n => some [.num .int n]
  | _ => none

/-- The computation `x`, begun in memory `m`, gives the result `r` and memory `m'`. A computation that panics gives no memory; the only one here is
`Get`, which panics after `TryGet` has returned with memory `m` (`tryGet_src`). -/
def Gives (x : R (List (Val (K ⊕ V)) × Mem (K ⊕ V))) (m : Mem (K ⊕ V)) : Res K V → Mem (K ⊕ V) → Prop
  | .panic, m' => m' = m ∧ ∃ e, x = Src.panic e
  | r, m' => ∃ vs, resV r = some vs ∧ x = pure (vs, m')

theorem Gives.inj {x : R (List (Val (K ⊕ V)) × Mem (K ⊕ V))} {m m1 m2 : Mem (K ⊕ V)} {r1 r2 : Res K V} (h1 : Gives x m r1 m1) (h2 : Gives x m r2 m2) :
    r1 = r2 ∧ m1 = m2 := by
  have no : ∀ {e : String} {y : List (Val (K ⊕ V)) × Mem (K ⊕ V)}, (Src.panic e : R _) ≠ pure y := by
    intro e y h; cases h
  cases r1 <;> cases r2 <;> simp only [Gives, resV, reduceCtorEq, false_and, exists_false] at h1 h2
  all_goals first
    | exact ⟨rfl, h1.1.trans h2.1.symm⟩
    | (obtain ⟨vs, e1, rfl⟩ := h1
       first
         | (obtain ⟨ws, e2, e3⟩ := h2
            cases e1; cases e2; cases e3
            exact ⟨rfl, rfl⟩)
         | (obtain ⟨-, e, e3⟩ := h2
            cases e3)
         | (obtain ⟨ws, e2, e3⟩ := h2
            cases e1; cases e2; cases e3))
    | (obtain ⟨-, e, rfl⟩ := h1
       obtain ⟨ws, e2, e3⟩ := h2
       cases e3)

variable {p : Par K V} {c : Conf K} {m : Mem (K ⊕ V)} {a o cap : Nat} {ids : Nat → Nat} {items : Nat → Tab K V}

theorem count_lists (h : Placed c items) : (absMap c items).Size (countFrom items 0 c.n) := by
  refine ⟨_, lists_shards h items (fun _ => List.Perm.refl _), ?_⟩
  rw [List.length_flatMap, List.range_eq_range']
  rfl

theorem count_zero (h : Placed c items) : countFrom items 0 c.n = 0 ↔ absMap c items = PMap.empty := by
  have hl := lists_shards h items (fun _ => List.Perm.refl _)
  have hn : ((List.range c.n).flatMap items).length = countFrom items 0 c.n := by
    rw [List.length_flatMap, List.range_eq_range']
    rfl
  rw [← hn, List.length_eq_zero_iff]
  constructor
  · intro e
    rw [e] at hl
    funext k
    cases hm : absMap c items k with
    | none => rfl
    | some v => exact absurd ((hl.mem k v).2 hm) (by simp)
  · intro e
    rw [e] at hl
    rw [List.eq_nil_iff_forall_not_mem]
    rintro ⟨k, v⟩ hk
    cases (hl.mem k v).1 hk

theorem count_after (s : Nat) (t : Tab K V) (d : Nat) : ∀ j, s < j → countFrom (set1 items s t) j d = countFrom items j d := by
  induction d with
  | zero => intro j _; rfl
  | succ d ih =>
    intro j hj
    have := ih (j + 1) (by omega)
    simp only [countFrom, List.range'_succ, List.map_cons, List.sum_cons] at this ⊢
    rw [this, set1_other _ _ (by omega : j ≠ s)]

theorem count_set1 {s : Nat} {t : Tab K V} (ht : t.length ≤ (items s).length + 1) (d : Nat) : ∀ j,
    countFrom (set1 items s t) j d ≤ countFrom items j d + 1 := by
  induction d with
  | zero => intro j; exact Nat.zero_le _
  | succ d ih =>
    intro j
    by_cases e : j = s
    · subst e
      have := count_after (items := items) j t d (j + 1) (by omega)
      simp only [countFrom, List.range'_succ, List.map_cons, List.sum_cons] at this ⊢
      rw [this, set1_same]
      omega
    · have := ih (j + 1)
      simp only [countFrom, List.range'_succ, List.map_cons, List.sum_cons] at this ⊢
      rw [set1_other _ _ e]
      omega

theorem count_each (d : Nat) : ∀ j i, j ≤ i → i < j + d → (items i).length ≤ countFrom items j d := by
  induction d with
  | zero => intro j i h1 h2; omega
  | succ d ih =>
    intro j i h1 h2
    have := ih (j + 1) i
    simp only [countFrom, List.range'_succ, List.map_cons, List.sum_cons] at this ⊢
    by_cases e : i = j
    · subst e; omega
    · have := this (by omega) (by omega); omega

theorem count_none (d : Nat) : ∀ j, countFrom (fun _ => ([] : Tab K V)) j d = 0 := by
  induction d with
  | zero => intro j; rfl
  | succ d ih =>
    intro j
    have := ih (j + 1)
    simp only [countFrom, List.range'_succ, List.map_cons, List.sum_cons] at this ⊢
    rw [this]
    rfl

theorem put_len (t : Tab K V) (k : K) (v : V) : (t.put k v).length ≤ t.length + 1 := by
  unfold Tab.put
  split
  · rw [List.length_map]; omega
  · rw [List.length_append]; simp

theorem del_len (t : Tab K V) (k : K) : (t.del k).length ≤ t.length + 1 := by
  unfold Tab.del
  exact Nat.le_succ_of_le (List.length_filter_le ..)

/-- One call from the text does what it does on one map, and leaves the locks free. -/
theorem call_src (h : Holds p c m a o ids items) (hp : p.hash = c.hash) (hz : p.toMap.zeroV = default) (hpl : Placed c items)
    (hn : countFrom items 0 c.n < 2 ^ 63) {op : Op K V} {f : String} {as : List (Val (K ⊕ V))} (hf : fnOf op = some (f, as)) (n : Nat) :
    ∃ r m' items', Gives (calls (ctx p) (n + 3) f (shardedV a o c.n cap c.seed :: as) m) m r m' ∧ Holds p c m' a o ids items' ∧ Placed c items' ∧
      Legal (absMap c items) op r (absMap c items') ∧ countFrom items' 0 c.n ≤ countFrom items 0 c.n + 1 := by
  have each : ∀ i, i < c.n → (items i).length < 2 ^ 63 := fun i hi => Nat.lt_of_le_of_lt (count_each _ _ _ (Nat.zero_le _) (by omega)) hn
  have same : ∀ k, (items (shardOf c k)).get? k = absMap c items k := fun _ => rfl
  cases op <;> simp only [fnOf, Option.some.injEq, Prod.mk.injEq, reduceCtorEq] at hf
  all_goals obtain ⟨rfl, rfl⟩ := hf
  case set k v =>
    exact ⟨.unit, _, _, ⟨_, rfl, set_src h hp k v (n + 1)⟩, h.set (shardOf_lt c k) _, placed_put hpl k v, ⟨rfl, abs_put hpl k v⟩,
      count_set1 (put_len _ _ _) _ _⟩
  case delete k =>
    exact ⟨.unit, _, _, ⟨_, rfl, delete_src h hp k (n + 1)⟩, h.set (shardOf_lt c k) _, placed_del hpl k, ⟨rfl, abs_del hpl k⟩,
      count_set1 (del_len _ _) _ _⟩
  case has k =>
    exact ⟨.bool _, _, _, ⟨_, rfl, has_src h hp k (n + 1)⟩, h, hpl, ⟨rfl, rfl⟩, Nat.le_succ _⟩
  case len =>
    exact ⟨.nat _, _, _, ⟨_, rfl, len_src h hn (n + 1)⟩, h, hpl, ⟨rfl, _, rfl, count_lists hpl⟩, Nat.le_succ _⟩
  case empty =>
    exact ⟨.bool _, _, _, ⟨_, rfl, empty_src h each (n + 1)⟩, h, hpl, ⟨rfl, _, rfl, by rw [decide_eq_true_eq]; exact count_zero hpl⟩, Nat.le_succ _⟩
  case tryGet k =>
    refine ⟨.pair _ _, _, _, ⟨_, rfl, tryGet_src h hp k (n + 1)⟩, h, hpl, ⟨rfl, ?_⟩, Nat.le_succ _⟩
    rw [same, hz]
    cases absMap c items k <;> rfl
  case get k =>
    have e := get_src (cap := cap) h hp k n
    rw [same] at e
    cases hm : absMap c items k with
    | none =>
      rw [hm] at e
      exact ⟨.panic, m, items, ⟨rfl, _, e⟩, h, hpl, ⟨rfl, by rw [hm]⟩, Nat.le_succ _⟩
    | some v =>
      rw [hm] at e
      exact ⟨.val v, m, items, ⟨_, rfl, e⟩, h, hpl, ⟨rfl, by rw [hm]⟩, Nat.le_succ _⟩
  case trySet k v =>
    have e := trySet_src (cap := cap) h hp k v (n + 1)
    rw [same] at e
    cases hm : absMap c items k with
    | none =>
      rw [hm] at e
      refine ⟨.bool true, _, _, ⟨_, rfl, e⟩, h.set (shardOf_lt c k) _, placed_put hpl k v, ?_, count_set1 (put_len _ _ _) _ _⟩
      simp only [Legal, hm]
      exact ⟨trivial, abs_put hpl k v⟩
    | some w =>
      rw [hm] at e
      refine ⟨.bool false, m, items, ⟨_, rfl, e⟩, h, hpl, ?_, Nat.le_succ _⟩
      simp only [Legal, hm]
      exact ⟨trivial, trivial⟩

/-- Calls of the methods on the struct `s`, one after the other, with their results. -/
inductive Hist (p : Par K V) (s : Val (K ⊕ V)) (n : Nat) (m : Mem (K ⊕ V)) : List (Op K V × Res K V) → Mem (K ⊕ V) → Prop
  | nil : Hist p s n m [] m
  | snoc {l : List (Op K V × Res K V)} {m1 m2 : Mem (K ⊕ V)} {op : Op K V} {r : Res K V} {f : String} {as : List (Val (K ⊕ V))} :
      Hist p s n m l m1 → fnOf op = some (f, as) → Gives (calls (ctx p) (n + 3) f (s :: as) m1) m1 r m2 → Hist p s n m (l ++ [(op, r)]) m2

theorem hist_inv (h : Holds p c m a o ids fun _ => []) (hp : p.hash = c.hash) (hz : p.toMap.zeroV = default) {n : Nat}
    {l : List (Op K V × Res K V)} {m' : Mem (K ⊕ V)} (hl : l.length < 2 ^ 63) (hc : Hist p (shardedV a o c.n cap c.seed) n m l m') :
    ∃ items, Holds p c m' a o ids items ∧ Placed c items ∧ (oneMap K V).Run PMap.empty l (absMap c items) ∧
      countFrom items 0 c.n ≤ l.length := by
  induction hc with
  | nil => exact ⟨fun _ => [], h, ⟨fun _ => List.Pairwise.nil, fun i k v h => by cases h⟩, .nil _, by
      rw [count_none]
      exact Nat.zero_le _⟩
  | @snoc l m1 m2 op r f as h1 hf hg ih =>
    rw [List.length_append, List.length_singleton] at hl
    obtain ⟨items, hh, hpl, hr, hn⟩ := ih (by omega)
    obtain ⟨r', m2', items', hg', hh', hpl', hL, hn'⟩ := call_src (cap := cap) hh hp hz hpl (by omega) hf n
    obtain ⟨rfl, rfl⟩ := hg.inj hg'
    exact ⟨items', hh', hpl', .snoc hr hL, by rw [List.length_append, List.length_singleton]; omega⟩

/-- **C155.** A `Sharded` whose shards are empty, used by one goroutine through the text of `Set`, `TrySet`, `Get`, `TryGet`, `Len`, `Empty`, `Has` and
`Delete`: the results are those of one map, every lock is free afterwards, and every further call returns, or panics if it is `Get` of a key
that is not there. -/
theorem C155_text_history (h : Holds p c m a o ids fun _ => []) (hp : p.hash = c.hash) (hz : p.toMap.zeroV = default) (n : Nat)
    {l : List (Op K V × Res K V)} {m' : Mem (K ⊕ V)} (hl : l.length < 2 ^ 63) (hc : Hist p (shardedV a o c.n cap c.seed) n m l m') :
    ∃ items, Holds p c m' a o ids items ∧ (oneMap K V).Run PMap.empty l (absMap c items) ∧
      ∀ (op : Op K V) (f : String) (as : List (Val (K ⊕ V))), fnOf op = some (f, as) →
        ∃ r m2, Gives (calls (ctx p) (n + 3) f (shardedV a o c.n cap c.seed :: as) m') m' r m2 := by
  obtain ⟨items, hh, hpl, hr, hn⟩ := hist_inv h hp hz hl hc
  refine ⟨items, hh, hr, fun op f as hf => ?_⟩
  obtain ⟨r, m2, -, hg, -⟩ := call_src (cap := cap) hh hp hz hpl (by omega) hf n
  exact ⟨r, m2, hg⟩

theorem legal_det {μ μ1 μ2 : PMap K V} {op : Op K V} {r1 r2 : Res K V} (hf : (fnOf op).isSome) (h1 : Legal μ op r1 μ1) (h2 : Legal μ op r2 μ2) :
    r1 = r2 ∧ μ1 = μ2 := by
  cases op <;> simp only [fnOf, Option.isSome_none, Bool.false_eq_true] at hf <;> simp only [Legal] at h1 h2
  case set | delete => exact ⟨h1.1.trans h2.1.symm, h1.2.trans h2.2.symm⟩
  case has => exact ⟨h1.2.trans h2.2.symm, h1.1.trans h2.1.symm⟩
  case trySet k v =>
    cases hm : μ k <;> rw [hm] at h1 h2 <;> exact ⟨h1.1.trans h2.1.symm, h1.2.trans h2.2.symm⟩
  case get k | tryGet k =>
    cases hm : μ k <;> rw [hm] at h1 h2 <;> exact ⟨h1.2.trans h2.2.symm, h1.1.trans h2.1.symm⟩
  case len =>
    obtain ⟨rfl, n1, rfl, s1⟩ := h1
    obtain ⟨rfl, n2, rfl, s2⟩ := h2
    exact ⟨by rw [Size.unique s1 s2], rfl⟩
  case empty =>
    obtain ⟨rfl, b1, rfl, s1⟩ := h1
    obtain ⟨rfl, b2, rfl, s2⟩ := h2
    exact ⟨by rw [Bool.eq_iff_iff.mpr (s1.trans s2.symm)], rfl⟩

/-- **C155.** And every history of one map is one of the text. -/
theorem C155_text_all (h : Holds p c m a o ids fun _ => []) (hp : p.hash = c.hash) (hz : p.toMap.zeroV = default) (n : Nat)
    {l : List (Op K V × Res K V)} {μ : (oneMap K V).St} (hl : l.length < 2 ^ 63) (hf : ∀ x ∈ l, (fnOf x.1).isSome) (hr : (oneMap K V).Run PMap.empty l μ) :
    ∃ m', Hist p (shardedV a o c.n cap c.seed) n m l m' := by
  have key : ∃ m', Hist p (shardedV a o c.n cap c.seed) n m l m' ∧ ∃ items, Holds p c m' a o ids items ∧ Placed c items ∧ μ = absMap c items ∧
      countFrom items 0 c.n ≤ l.length := by
    induction hr with
    | nil =>
      exact ⟨m, .nil, fun _ => [], h, ⟨fun _ => List.Pairwise.nil, fun i k v h => by cases h⟩, rfl, by rw [count_none]; exact Nat.zero_le _⟩
    | @snoc μ1 μ2 l op r h1 hL ih =>
      rw [List.length_append, List.length_singleton] at hl
      obtain ⟨m1, hh, items, hH, hpl, rfl, hn⟩ := ih (by omega) (fun x hx => hf x (by simp [hx]))
      have hf' := hf (op, r) (by simp)
      obtain ⟨⟨f, as⟩, hf1⟩ := Option.isSome_iff_exists.mp hf'
      obtain ⟨r', m2, items', hg, hH', hpl', hL', hn'⟩ := call_src (cap := cap) hH hp hz hpl (by omega) hf1 n
      obtain ⟨rfl, rfl⟩ := legal_det hf' hL hL'
      exact ⟨m2, .snoc hh hf1 hg, items', hH', hpl', rfl, by rw [List.length_append, List.length_singleton]; omega⟩
  obtain ⟨m', hh, -⟩ := key
  exact ⟨m', hh⟩

end

/-! ## A case that meets the hypotheses -/

/-- Numbers as keys and values. -/
def par : Par Nat Nat where
  toMap := { zeroK := 0, zeroV := 0, grow := fun _ n => n, order := fun _ es => es, sprint := fun _ => "key not found", hash := fun _ => 0, equal := fun a b => a == b }
  hash k s := UInt64.ofNat k + s

/-- Three shards. -/
def conf : Conf Nat := ⟨3, by decide, by decide, fun k s => UInt64.ofNat k + s, 5⟩

/-- Memory with three shards, in cells 1 to 3 of an array of four, and their maps. -/
def mem3 : Mem (Nat ⊕ Nat) where
  arrs := [[.nil, shardV 2 false 0, shardV 0 false 0, shardV 1 false 0]]
  maps := List.replicate 3 (obj par.toMap (vE 0) (kE : Nat → Val (Nat ⊕ Nat)) (vE : Nat → Val (Nat ⊕ Nat)) [])

theorem holds3 : Holds par conf mem3 0 1 (fun i => [2, 0, 1].getD i 0) fun _ => [] where
  cells i hi := by
    match i, hi with
    | 0, _ | 1, _ | 2, _ => rfl
  maps i hi := by
    match i, hi with
    | 0, _ | 1, _ | 2, _ => rfl
  inj i j hi hj := by
    match i, hi, j, hj with
    | 0, _, 0, _ | 0, _, 1, _ | 0, _, 2, _ | 1, _, 0, _ | 1, _, 1, _ | 1, _, 2, _ | 2, _, 0, _ | 2, _, 1, _ | 2, _, 2, _ => simp

/-- The struct. -/
abbrev sh3 : Val (Nat ⊕ Nat) := shardedV 0 1 3 3 5

/-- A history: two keys of one shard. -/
example : ∃ m', Hist par sh3 0 mem3
    [(.set 1 10, .unit), (.trySet 4 40, .bool true), (.trySet 4 41, .bool false), (.get 4, .val 40), (.delete 1, .unit), (.get 1, .panic),
      (.tryGet 1, .pair 0 false), (.has 4, .bool true)] m' := by
  refine C155_text_all (c := conf) holds3 rfl rfl 0 (by decide) ?_ (μ := ((PMap.empty.set 1 10).set 4 40).erase 1) ?_
  · simp [fnOf]
  let μ1 : PMap Nat Nat := PMap.empty.set 1 10
  let μ2 : PMap Nat Nat := μ1.set 4 40
  let μ3 : PMap Nat Nat := μ2.erase 1
  have h1 : (oneMap Nat Nat).Run PMap.empty [(.set 1 10, .unit)] μ1 :=
    .snoc (l := []) (.nil _) ⟨rfl, rfl⟩
  have h2 : (oneMap Nat Nat).Run PMap.empty [(.set 1 10, .unit), (.trySet 4 40, .bool true)] μ2 :=
    .snoc (l := [_]) h1 ⟨rfl, rfl⟩
  have h3 : (oneMap Nat Nat).Run PMap.empty [(.set 1 10, .unit), (.trySet 4 40, .bool true), (.trySet 4 41, .bool false)] μ2 :=
    .snoc (l := [_, _]) h2 ⟨rfl, rfl⟩
  have h4 : (oneMap Nat Nat).Run PMap.empty [(.set 1 10, .unit), (.trySet 4 40, .bool true), (.trySet 4 41, .bool false), (.get 4, .val 40)] μ2 :=
    .snoc (l := [_, _, _]) h3 ⟨rfl, rfl⟩
  have h5 : (oneMap Nat Nat).Run PMap.empty [(.set 1 10, .unit), (.trySet 4 40, .bool true), (.trySet 4 41, .bool false), (.get 4, .val 40), (.delete 1, .unit)] μ3 :=
    .snoc (l := [_, _, _, _]) h4 ⟨rfl, rfl⟩
  have h6 : (oneMap Nat Nat).Run PMap.empty [(.set 1 10, .unit), (.trySet 4 40, .bool true), (.trySet 4 41, .bool false), (.get 4, .val 40), (.delete 1, .unit), (.get 1, .panic)] μ3 :=
    .snoc (l := [_, _, _, _, _]) h5 ⟨rfl, rfl⟩
  have h7 : (oneMap Nat Nat).Run PMap.empty [(.set 1 10, .unit), (.trySet 4 40, .bool true), (.trySet 4 41, .bool false), (.get 4, .val 40), (.delete 1, .unit), (.get 1, .panic), (.tryGet 1, .pair 0 false)] μ3 :=
    .snoc (l := [_, _, _, _, _, _]) h6 ⟨rfl, rfl⟩
  exact .snoc (l := [_, _, _, _, _, _, _]) h7 ⟨rfl, rfl⟩

/-- The keys 1 and 4 are in one shard, 2 is in another. -/
example : shardOf conf 1 = 0 ∧ shardOf conf 4 = 0 ∧ shardOf conf 2 = 1 := by decide

/-- A lock that is taken cannot be had. -/
example : calls (ctx par) 3 "Shard.RLock" [.ptr 0 0 []] (⟨[[shardV 7 true 0]], []⟩ : Mem (Nat ⊕ Nat)) = panic "deadlock" := by
  have hc : (⟨[[shardV 7 true 0]], []⟩ : Mem (Nat ⊕ Nat)).cell 0 0 = some (shardV 7 true 0) := rfl
  rw [calls]
  simp only [shardV] at *
  go_run [Shard_RLock_fn, hc]

end Verif.Src.Shard
