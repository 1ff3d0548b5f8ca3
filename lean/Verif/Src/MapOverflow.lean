import Verif.Src.MapExamples
import Verif.CustomMap.Overflow

/-!
# C154: `Custom` with an overflow table, from the text

The table's values are slices in memory. `Over` says that the maps and the slices of a `Custom` are those of the model.
-/

set_option linter.unusedSectionVars false

namespace Verif.Src

variable {E A : Type} {X : Ctx E} {C : Calls E} {k v : String} {s : Val E} {body : List Stmt} {env : Env E} {m : Mem E}

/-- What comes after the body in a round of `range`. -/
@[go_eval]
def turnEnd (X : Ctx E) (C : Calls E) (k v : String) (s : Val E) (n : Int) (body : List Stmt) (i : Int) (outer : Env E) (x : Flow E × Env E × Mem E) :
    R (Flow E × Env E × Mem E) :=
  match x.1 with
  | .brk => pure (.next, leave outer x.2.1, x.2.2)
  | .ret vs => pure (.ret vs, leave outer x.2.1, x.2.2)
  | _ => turns X C k v s n body (i + 1) (leave outer (leave outer x.2.1)) x.2.2

theorem turns_step {i n : Int} (h : i < n) (hv : v ≠ "_") {w : Val E} (hw : index m s (.num .int i) = pure w) {env' : Env E} {m' : Mem E}
    (hd : declares X env m [k, v] [.num .int i, w] = pure (env', m')) :
    turns X C k v s n body i env m = (do
      let x ← execs X C body env' m'
      turnEnd X C k v s n body i env x) := by
  rw [turns, loop, if_pos h]
  simp only [hv, if_false, hw, pure_bind, hd, bind_assoc]
  congr 1
  funext ⟨f, env2, m2⟩
  cases f
  all_goals simp only [round, turnEnd, pure_bind, turns, hv, if_false]

theorem leave_append (a b : Env E) : leave b (a ++ b) = b := by
  unfold leave
  rw [List.length_append, Nat.add_sub_cancel, List.drop_left]

theorem leave_self (b : Env E) : leave b b = b := leave_append [] b

/-- Rounds that do nothing. -/
theorem turns_skip {f : A → Val E} {l : List A} (hs : Items f m s l) (hv : v ≠ "_") (pre : Int → A → Env E)
    (hd : ∀ j x, declares X env m [k, v] [.num .int j, f x] = pure (pre j x ++ env, m)) {q : A → Bool}
    (hno : ∀ j x, q x = false → execs X C body (pre j x ++ env) m = pure (.next, pre j x ++ env, m))
    {j : Nat} (hj : j ≤ l.length) (hq : ∀ x ∈ l.take j, q x = false) :
    turns X C k v s l.length body 0 env m = turns X C k v s l.length body j env m := by
  induction j with
  | zero => rfl
  | succ j ih =>
    have hx : l[j] ∈ l.take (j + 1) := List.mem_take_iff_getElem.mpr ⟨j, by omega, rfl⟩
    have hw := hs.index (i := (j : Int)) (k := .int) (by omega) (by omega)
    rw [ih (by omega) (fun x h => hq x (List.take_subset_take_left l (by omega) h)),
      turns_next (by omega) hv hw (hd _ _) (hno _ _ (hq _ hx)), leave_append, leave_self]
    rfl

/-- A search that finds nothing. -/
theorem turns_none {f : A → Val E} {l : List A} (hs : Items f m s l) (hv : v ≠ "_") (q : A → Bool) (hq : l.findIdx? q = none)
    (pre : Int → A → Env E) (hd : ∀ j x, declares X env m [k, v] [.num .int j, f x] = pure (pre j x ++ env, m))
    (hno : ∀ j x, q x = false → execs X C body (pre j x ++ env) m = pure (.next, pre j x ++ env, m)) :
    turns X C k v s l.length body 0 env m = pure (.next, env, m) := by
  rw [turns_skip hs hv pre hd hno (Nat.le_refl _) (fun x hx => List.findIdx?_eq_none_iff.mp hq x (List.mem_of_mem_take hx)),
    turns_done _ _ _ _ _ _ (Int.le_refl _)]

/-- A search that finds something. -/
theorem turns_hit {f : A → Val E} {l : List A} (hs : Items f m s l) (hv : v ≠ "_") (q : A → Bool) {j : Nat} (hq : l.findIdx? q = some j)
    {x : A} (hx : l[j]? = some x)
    (pre : Int → A → Env E) (hd : ∀ j x, declares X env m [k, v] [.num .int j, f x] = pure (pre j x ++ env, m))
    (hno : ∀ j x, q x = false → execs X C body (pre j x ++ env) m = pure (.next, pre j x ++ env, m)) :
    turns X C k v s l.length body 0 env m = (do
      let y ← execs X C body (pre j x ++ env) m
      turnEnd X C k v s l.length body j env y) := by
  obtain ⟨h1, h2, h3⟩ := List.findIdx?_eq_some_iff_getElem.mp hq
  have hw := hs.index (i := (j : Int)) (k := .int) (by omega) (by omega)
  obtain rfl : x = l[(j : Int).toNat] := by
    have := List.getElem?_eq_getElem h1
    rw [hx] at this
    exact Option.some.inj this
  rw [turns_skip hs hv pre hd hno (Nat.le_of_lt h1) (fun x hx => by
      obtain ⟨i, hi, rfl⟩ := List.mem_take_iff_getElem.mp hx
      simpa using h3 i (by omega)),
    turns_step (by omega) hv hw (hd _ _)]

end Verif.Src

namespace Verif.Src.XMap

open Verif.GoMap

variable {K V : Type} [BEq K] [Inhabited V] {p : Par K V} {m : Mem (K ⊕ V)} {id io : Nat} {t : Tab UInt64 (K × V)}
  {z : Tab UInt64 (Val (K ⊕ V) × List (K × V))} {N : Nat}

/-- The struct `Custom` with an overflow table. -/
def custO (id io : Nat) : Val (K ⊕ V) :=
  .struct "Custom" [("main", .map id), ("ovf", .map io), ("hash", .fn "hasher"), ("equal", .fn "comparator")]

/-- The overflow table of the model. -/
def ovfOf (z : Tab UInt64 (Val (K ⊕ V) × List (K × V))) : Tab UInt64 (List (K × V)) := z.map fun e => (e.1, e.2.2)

theorem ovfOf_get (h : UInt64) : (ovfOf z).get? h = (z.get? h).map (·.2) := by
  simp only [ovfOf, Tab.get?, List.find?_map]
  rw [show ((fun e : UInt64 × List (K × V) => e.1 == h) ∘ fun e : UInt64 × Val (K ⊕ V) × List (K × V) => (e.1, e.2.2)) = fun e => e.1 == h from rfl]
  cases z.find? (fun e => e.1 == h) <;> rfl

theorem ovfOf_put (h : UInt64) (x : Val (K ⊕ V) × List (K × V)) : ovfOf (z.put h x) = (ovfOf z).put h x.2 := by
  simp only [ovfOf, Tab.put, List.any_map]
  rw [show ((fun e : UInt64 × List (K × V) => e.1 == h) ∘ fun e : UInt64 × Val (K ⊕ V) × List (K × V) => (e.1, e.2.2)) = fun e => e.1 == h from rfl]
  split
  · simp only [List.map_map]
    apply List.map_congr_left
    intro e _
    simp only [Function.comp]
    split <;> rfl
  · simp

/-- The slices are in different arrays. -/
def Sep (v w : Val (K ⊕ V)) : Prop := ∀ a o l c, v = .slice a o l c → Apart a w

theorem Sep.symm {v w : Val (K ⊕ V)} (h : Sep v w) : Sep w v := fun _ _ _ _ hw _ _ _ _ hv e => h _ _ _ _ hv _ _ _ _ hw e.symm

/-- The maps and slices in memory: `t` and `z`; no slice has more than `N` entries. -/
structure Over (p : Par K V) (m : Mem (K ⊕ V)) (id io : Nat) (t : Tab UInt64 (K × V)) (z : Tab UInt64 (Val (K ⊕ V) × List (K × V))) (N : Nat) : Prop where
  main : m.maps[id]? = some (mainObj p t)
  ovf : m.maps[io]? = some (obj p .nil hashV (·.1) z)
  ne : id ≠ io
  wf : z.WF
  items : ∀ h x, z.get? h = some x → Items entryV m x.1 x.2
  apart : ∀ h h' x x', z.get? h = some x → z.get? h' = some x' → h ≠ h' → Sep x.1 x'.1
  short : ∀ h x, z.get? h = some x → x.2.length ≤ N

theorem Over.look (h : Over p m id io t z N) (x : UInt64) : lookupMap m (.map io) (.num .u64 x.toNat) =
    match z.get? x with
    | some y => pure [y.1, .bool true]
    | none => pure [.nil, .bool false] := by
  have := lookup_map keyed_hash h.ovf x
  simp only [hashV] at this
  rw [this]
  cases z.get? x <;> rfl

theorem overGet_src (h : Over p m id io t z N) (hz : p.zeroV = default) (k : K) (n : Nat) :
    calls (ctx p) (n + 1) "Custom.Get" [custO id io, kE k] m =
      pure ([vE (CustomMap.get p.hash p.equal ⟨t, some (ovfOf z)⟩ k).1, .bool (CustomMap.get p.hash p.equal ⟨t, some (ovfOf z)⟩ k).2], m) := by
  have e := look_main h.main (p.hash k)
  have e0 := h.look (p.hash k)
  unfold CustomMap.get
  simp only [MapVar.get?, Option.getD_some, ovfOf_get]
  rw [calls]
  cases hg : t.get? (p.hash k) with
  | none =>
    simp only [hg, entryV, Option.getD_none] at e
    go_run [Custom_Get_fn, custO, ↓e, Bool.not_false, hz]
  | some x =>
    simp only [hg, entryV, Option.getD_some] at e
    cases he : p.equal x.1 k with
    | true => go_run [Custom_Get_fn, custO, ↓e, Bool.not_true, he]
    | false =>
      cases ho : z.get? (p.hash k) with
      | none =>
        rw [ho] at e0
        go_run [Custom_Get_fn, custO, ↓e, Bool.not_true, he, ↓e0, Bool.not_false]
      | some y =>
        obtain ⟨s, l⟩ := y
        have hs := h.items _ _ ho
        rw [ho] at e0
        simp only at e0 hs
        go_run [Custom_Get_fn, custO, ↓e, Bool.not_true, he, ↓e0, hs.settle, hs.fetch, ↓hs.mapOf, hs.len]
        simp only [Option.map_some]
        have hf : l.find? (fun e => p.equal e.1 k) = (l.findIdx? fun e => p.equal e.1 k).bind fun j => l[j]? := List.find?_eq_bind_findIdx?_getElem?
        rw [hf]
        cases hq : l.findIdx? (fun e => p.equal e.1 k) with
        | none =>
          rw [turns_none hs (by decide) (fun e => p.equal e.1 k) hq (fun _ e => [("entry", entryV e)])]
          · go_run []
            rfl
          · intro j e
            go_run [entryV]
          · intro j e he
            go_run [entryV, he]
        | some j =>
          obtain ⟨h1, h2, -⟩ := List.findIdx?_eq_some_iff_getElem.mp hq
          have hj := List.getElem?_eq_getElem h1
          rw [turns_hit hs (by decide) (fun e => p.equal e.1 k) hq hj (fun _ e => [("entry", entryV e)])]
          · go_run [Option.bind_some, hj, entryV, h2]
          · intro j e
            go_run [entryV]
          · intro j e he
            go_run [entryV, he]

/-! ## What the methods leave -/

/-- Another entry of `main`. -/
theorem Over.setMain (h : Over p m id io t z N) (t' : Tab UInt64 (K × V)) : Over p (m.setMap id (mainObj p t')) id io t' z N where
  main := setMap_here (List.getElem?_eq_some_iff.mp h.main).1 _
  ovf := (setMap_other (Ne.symm h.ne) _).trans h.ovf
  ne := h.ne
  wf := h.wf
  items y w hw := (h.items y w hw).mono fun _ _ _ _ _ => rfl
  apart := h.apart
  short := h.short

theorem Over.more (h : Over p m id io t z N) {N' : Nat} (hN : N ≤ N') : Over p m id io t z N' :=
  ⟨h.main, h.ovf, h.ne, h.wf, h.items, h.apart, fun y w hw => Nat.le_trans (h.short y w hw) hN⟩

/-- Another slice for the hash `x`, in the array of the old one or in a new one. -/
theorem Over.change (h : Over p m id io t z N) {x : UInt64} {s : Val (K ⊕ V)} (ho : ∀ y w, z.get? y = some w → y ≠ x → Sep w.1 s)
    {m' : Mem (K ⊕ V)} (hm : m'.maps[id]? = m.maps[id]?) {s' : Val (K ⊕ V)} {l' : List (K × V)}
    (hM : m'.maps[io]? = some (obj p .nil hashV (·.1) (z.put x (s', l')))) (hs : Items entryV m' s' l')
    (hf : ∀ q, q < m.arrs.length → Apart q s → m'.arrs[q]? = m.arrs[q]? ∧ Apart q s') {N' : Nat} (hN : N ≤ N') (hl : l'.length ≤ N') :
    Over p m' id io t (z.put x (s', l')) N' := by
  have key : ∀ y w, z.get? y = some w → y ≠ x → Sep w.1 s' ∧ Items entryV m' w.1 w.2 := fun y w hw hne =>
    ⟨fun a o k c hv => (hf a ((h.items y w hw).old a o k c hv) (ho y w hw hne a o k c hv)).2,
      (h.items y w hw).mono fun a o k c hv => (hf a ((h.items y w hw).old a o k c hv) (ho y w hw hne a o k c hv)).1⟩
  refine ⟨hm.trans h.main, hM, h.ne, WF.put h.wf _ _, ?_, ?_, ?_⟩
  · intro y w hw
    rw [get?_put h.wf] at hw
    split at hw
    · cases hw
      exact hs
    · rename_i hne
      exact (key y w hw hne).2
  · intro y y' w w' hw hw' hne
    rw [get?_put h.wf] at hw hw'
    split at hw <;> split at hw'
    · rename_i h1 h2
      exact absurd (h1.trans h2.symm) hne
    · rename_i h1 h2
      cases hw
      exact (key y' w' hw' h2).1.symm
    · rename_i h1 h2
      cases hw'
      exact (key y w hw h1).1
    · exact h.apart _ _ _ _ hw hw' hne
  · intro y w hw
    rw [get?_put h.wf] at hw
    split at hw
    · cases hw
      exact hl
    · exact Nat.le_trans (h.short _ _ hw) hN

/-- The map is the same if only the entries of a slice change. -/
theorem obj_put_same (h : z.WF) {x : UInt64} {s : Val (K ⊕ V)} {l : List (K × V)} (ho : z.get? x = some (s, l)) (l' : List (K × V)) :
    obj p .nil hashV (·.1) (z.put x (s, l')) = obj p .nil hashV (·.1) z := by
  simp only [obj, enc]
  congr 1
  unfold Tab.put
  have hm := (get?_eq_some h x (s, l)).mp ho
  rw [if_pos (List.any_eq_true.mpr ⟨_, hm, by simp⟩), List.map_map]
  apply List.map_congr_left
  intro y hy
  simp only [Function.comp]
  split
  · rename_i hk
    have hk := eq_of_beq hk
    obtain ⟨y1, y2⟩ := y
    simp only at hk
    subst hk
    have := (get?_eq_some h y1 y2).mpr hy
    rw [ho] at this
    injection this with this
    rw [← this]
  · rfl

/-! ## Set -/

theorem overSet_src (h : Over p m id io t z N) (k : K) (v : V) (n : Nat) :
    ∃ m' t' z', calls (ctx p) (n + 2) "Custom.Set" [custO id io, kE k, vE v] m =
        pure ([.bool (CustomMap.set p.hash p.equal ⟨t, some (ovfOf z)⟩ k v).1], m') ∧
      (CustomMap.set p.hash p.equal ⟨t, some (ovfOf z)⟩ k v).2 = ⟨t', some (ovfOf z')⟩ ∧ Over p m' id io t' z' (N + 1) := by
  have e := look_main h.main (p.hash k)
  have e0 := h.look (p.hash k)
  have ep := fun env => store_map keyed_hash (fit_entry _) h.main env (p.hash k) (k, v)
  have en := fun m => newEntry_src (p := p) m (k, v) n
  simp only [hashV, entryV] at ep
  simp only [entryV] at en
  simp only [CustomMap.set, CustomMap.setBody, CustomMap.writeBack, MapVar.get?, Option.getD_some, ovfOf_get, Option.isNone_some, Bool.false_eq_true, if_false]
  rw [calls]
  cases hg : t.get? (p.hash k) with
  | none =>
    simp only [hg, entryV, Option.getD_none] at e
    refine ⟨_, t.put (p.hash k) (k, v), z, ?_, rfl, (h.setMain _).more (Nat.le_succ _)⟩
    go_run [Custom_Set_fn, custO, ↓e, Bool.not_false, ↓en, ep]
    rfl
  | some x =>
    simp only [hg, entryV, Option.getD_some] at e
    cases he : p.equal x.1 k with
    | true =>
      refine ⟨_, t.put (p.hash k) (k, v), z, ?_, by simp only [he, if_true], (h.setMain _).more (Nat.le_succ _)⟩
      go_run [Custom_Set_fn, custO, ↓e, Bool.not_true, he, ↓en, ep]
      rfl
    | false =>
      simp only [he, Bool.false_eq_true, if_false]
      cases ho : z.get? (p.hash k) with
      | none =>
        rw [ho] at e0
        simp only [Option.map_none]
        have hM : (m.alloc [entryV (k, v)]).maps[io]? = some (obj p .nil hashV (·.1) z) := h.ovf
        have es := fun env => store_map keyed_hash (fun y : Val (K ⊕ V) × List (K × V) => by cases y.1 <;> rfl) hM env (p.hash k)
          ((.slice m.arrs.length 0 1 1, [(k, v)]) : Val (K ⊕ V) × List (K × V))
        simp only [hashV, entryV] at es
        refine ⟨_, t, z.put (p.hash k) (.slice m.arrs.length 0 1 1, [(k, v)]), ?_, by rw [ovfOf_put],
          h.change (s := .nil) (fun _ _ _ _ _ _ _ _ _ _ _ _ _ hv => by cases hv)
            (m' := (m.alloc [entryV (k, v)]).setMap io (obj p .nil hashV (·.1) (z.put (p.hash k) (.slice m.arrs.length 0 1 1, [(k, v)]))))
            (setMap_other h.ne _) (setMap_here (List.getElem?_eq_some_iff.mp hM).1 _) ?_ ?_ (Nat.le_succ _) (by simp)⟩
        · go_run [Custom_Set_fn, custO, ↓e, Bool.not_true, he, ↓e0, Bool.not_false, ↓en, es]
          rfl
        · exact .some (l := [(k, v)]) (alloc_new _ _) (by simp) (by simp) (by simp)
        · intro q hq _
          exact ⟨alloc_arrs hq _, fun a o l c hv => by cases hv; omega⟩
      | some y =>
        obtain ⟨s, l⟩ := y
        have hs := h.items _ _ ho
        have hap : ∀ y w, z.get? y = some w → y ≠ p.hash k → Sep w.1 s := fun y w hw hne => h.apart _ _ _ _ hw ho hne
        rw [ho] at e0
        simp only at e0 hs
        simp only [Option.map_some]
        cases hq : l.findIdx? (fun e => p.equal e.1 k) with
        | none =>
          obtain ⟨s', m1, ea, hs1, -, hm1, hf1⟩ := hs.append (ctx p) (k, v)
          simp only [entryV] at ea
          have hM : m1.maps[io]? = some (obj p .nil hashV (·.1) z) := by rw [hm1]; exact h.ovf
          have hsl : ∃ a o l c, s' = .slice a o l c := by
            revert hs1
            generalize hw : l ++ [(k, v)] = w
            intro hs1
            cases hs1 with
            | nil => simp at hw
            | some => exact ⟨_, _, _, _, rfl⟩
          have es := fun env => store_map keyed_hash (fun y : Val (K ⊕ V) × List (K × V) => by cases y.1 <;> rfl) hM env (p.hash k)
            ((s', l ++ [(k, v)]) : Val (K ⊕ V) × List (K × V))
          simp only [hashV, entryV] at es
          refine ⟨_, t, z.put (p.hash k) (s', l ++ [(k, v)]), ?_, by rw [ovfOf_put],
            h.change hap (m' := m1.setMap io (obj p .nil hashV (·.1) (z.put (p.hash k) (s', l ++ [(k, v)]))))
              ((setMap_other h.ne _).trans (by rw [hm1])) (setMap_here (List.getElem?_eq_some_iff.mp hM).1 _)
              (hs1.mono fun _ _ _ _ _ => rfl) hf1 (Nat.le_succ _) (by simpa using h.short _ _ ho)⟩
          go_run [Custom_Set_fn, custO, ↓e, Bool.not_true, he, ↓e0, hs.settle, hs.fetch, ↓hs.mapOf, hs.len]
          rw [turns_none hs (by decide) (fun e => p.equal e.1 k) hq (fun j e => [("entry", entryV e), ("i", .num .int j)])]
          · go_run [↓en, ea, es, hs.fetch, hs.settle, hs1.settle]
          · intro j e
            go_run [entryV]
          · intro j e he
            go_run [entryV, he]
        | some j =>
          obtain ⟨h1, h2, -⟩ := List.findIdx?_eq_some_iff_getElem.mp hq
          have hj := List.getElem?_eq_getElem h1
          have es := fun env => hs.store fit_entry env (i := (j : Int)) (k := .int) (by omega) (by simpa using h1) (k, v)
          simp only [entryV, Int.toNat_natCast] at es
          refine ⟨_, t, z.put (p.hash k) (s, l.set j (k, v)), ?_, by rw [ovfOf_put],
            h.change hap (m' := setAt m s j (entryV (k, v))) (by rw [setAt_maps'])
              (by rw [setAt_maps', obj_put_same h.wf ho]; exact h.ovf) (hs.set h1 _) (fun q _ hq => ⟨Slice.setAt_arrs hq, hq⟩) (Nat.le_succ _)
              (by simpa using Nat.le_succ_of_le (h.short _ _ ho))⟩
          go_run [Custom_Set_fn, custO, ↓e, Bool.not_true, he, ↓e0, hs.settle, hs.fetch, ↓hs.mapOf, hs.len]
          rw [turns_hit hs (by decide) (fun e => p.equal e.1 k) hq hj (fun j e => [("entry", entryV e), ("i", .num .int j)])]
          · go_run [entryV, h2, ↓en, es, hs.fetch, hs.settle, ↓hs.mapOf, ↓hs.boxNo]
          · intro j e
            go_run [entryV]
          · intro j e he
            go_run [entryV, he]

/-! ## Delete -/

theorem unordDelete_src {s : Val (K ⊕ V)} {l : List (K × V)} (h : Items entryV m s l) {j : Nat} (hj : j < l.length) (hl : (l.length : Int) < 9223372036854775808) (n : Nat) :
    ∃ s' m', calls (ctx p) (n + 1) "xslice.UnorderedDelete" [s, .num .int j] m = pure ([s'], m') ∧ Items entryV m' s' (CustomMap.unorderedDelete l j) ∧
      m'.maps = m.maps ∧ ∀ q, Apart q s → m'.arrs[q]? = m.arrs[q]? ∧ Apart q s' := by
  have hn : wholeOf s = none := by cases h <;> rfl
  have eu : CustomMap.unorderedDelete l j = (l.set j l[l.length - 1]).take (l.length - 1) := by
    simp only [CustomMap.unorderedDelete, List.getLast?_eq_getElem?, List.getElem?_eq_getElem (show l.length - 1 < l.length by omega)]
    rw [List.dropLast_eq_take, List.length_set]
  rw [eu]
  by_cases hlast : j = l.length - 1
  · obtain ⟨w, er, hw, hap⟩ := h.reslice (n := (l.length : Int) - 1) (by omega) (by omega)
    have e1 : ((l.length : Int) - 1).toNat = l.length - 1 := by omega
    rw [e1] at hw
    refine ⟨w, m, ?_, ?_, rfl, fun q hq => ⟨rfl, hap q hq⟩⟩
    · rw [calls]
      go_run [UnorderedDelete_fn, h.len, h.fetch, h.settle, er, hw.settle, ↓hn]
    · subst hlast
      rw [List.set_getElem_self]
      exact hw
  · have e1 : ((l.length : Int) - 1).toNat = l.length - 1 := by omega
    have i1 := h.index (i := (j : Int)) (k := .int) (by omega) (by simpa using hj)
    have i2 := h.index (i := (l.length : Int) - 1) (k := .int) (by omega) (by omega)
    have s1 := fun env => h.store fit_entry env (i := (j : Int)) (k := .int) (by omega) (by simpa using hj) l[((l.length : Int) - 1).toNat]
    have h1 := h.set hj l[((l.length : Int) - 1).toNat]
    have s2 := fun env => h1.store fit_entry env (i := (l.length : Int) - 1) (k := .int) (by omega) (by simp; omega) l[(j : Int).toNat]
    have h2 := h1.set (i := l.length - 1) (by simp; omega) l[(j : Int).toNat]
    obtain ⟨w, er, hw, hap⟩ := h2.reslice (n := (l.length : Int) - 1) (by omega) (by simp; omega)
    simp only [e1, Int.toNat_natCast] at i1 i2 s1 s2 h2 hw
    refine ⟨w, setAt (setAt m s j (entryV l[l.length - 1])) s (l.length - 1) (entryV l[j]), ?_, ?_, by rw [setAt_maps', setAt_maps'], fun q hq => ⟨(Slice.setAt_arrs hq).trans (Slice.setAt_arrs hq), hap q hq⟩⟩
    · rw [calls]
      go_run [UnorderedDelete_fn, h.len, h.fetch, h.settle, i1, i2, s1, s2, er, hw.settle, ↓hn, h2.len, h2.fetch, ↓h.mapOf, ↓h.boxNo]
    · rw [List.take_set_of_le (Nat.le_refl _)] at hw
      exact hw

theorem unordDelete_length (l : List (K × V)) (j : Nat) : (CustomMap.unorderedDelete l j).length ≤ l.length := by
  unfold CustomMap.unorderedDelete
  split <;> simp

theorem overDelete_src (h : Over p m id io t z N) (hN : (N : Int) < 9223372036854775808) (k : K) (n : Nat) :
    ∃ m' t' z', calls (ctx p) (n + 2) "Custom.Delete" [custO id io, kE k] m =
        pure ([.bool (CustomMap.delete p.hash p.equal ⟨t, some (ovfOf z)⟩ k).1], m') ∧
      (CustomMap.delete p.hash p.equal ⟨t, some (ovfOf z)⟩ k).2 = ⟨t', some (ovfOf z')⟩ ∧ Over p m' id io t' z' N := by
  have e := look_main h.main (p.hash k)
  have e0 := h.look (p.hash k)
  have ed := delete_map keyed_hash h.main (p.hash k)
  simp only [hashV] at ed
  simp only [CustomMap.delete, CustomMap.deleteBody, CustomMap.writeBack, MapVar.get?, Option.getD_some, ovfOf_get, Option.isNone_some, Bool.false_eq_true, if_false]
  rw [calls]
  cases hg : t.get? (p.hash k) with
  | none =>
    simp only [hg, entryV, Option.getD_none] at e
    refine ⟨m, t, z, ?_, rfl, h⟩
    go_run [Custom_Delete_fn, custO, ↓e, Bool.not_false]
  | some x =>
    simp only [hg, entryV, Option.getD_some] at e
    cases he : p.equal x.1 k with
    | true =>
      refine ⟨_, t.del (p.hash k), z, ?_, by simp only [he, if_true], h.setMain _⟩
      go_run [Custom_Delete_fn, custO, ↓e, Bool.not_true, he, ↓ed]
    | false =>
      simp only [he, Bool.false_eq_true, if_false]
      cases ho : z.get? (p.hash k) with
      | none =>
        rw [ho] at e0
        refine ⟨m, t, z, ?_, rfl, h⟩
        go_run [Custom_Delete_fn, custO, ↓e, Bool.not_true, he, ↓e0, Bool.not_false]
      | some y =>
        obtain ⟨s, l⟩ := y
        have hs := h.items _ _ ho
        have hap : ∀ y w, z.get? y = some w → y ≠ p.hash k → Sep w.1 s := fun y w hw hne => h.apart _ _ _ _ hw ho hne
        rw [ho] at e0
        simp only at e0 hs
        simp only [Option.map_some]
        cases hq : l.findIdx? (fun e => p.equal e.1 k) with
        | none =>
          refine ⟨m, t, z, ?_, rfl, h⟩
          go_run [Custom_Delete_fn, custO, ↓e, Bool.not_true, he, ↓e0, hs.settle, hs.fetch, ↓hs.mapOf, hs.len]
          rw [turns_none hs (by decide) (fun e => p.equal e.1 k) hq (fun j e => [("entry", entryV e), ("i", .num .int j)])]
          · go_run []
          · intro j e
            go_run [entryV]
          · intro j e he
            go_run [entryV, he]
        | some j =>
          obtain ⟨h1, h2, -⟩ := List.findIdx?_eq_some_iff_getElem.mp hq
          have hj := List.getElem?_eq_getElem h1
          have hsh := h.short _ _ ho
          simp only at hsh
          obtain ⟨s', m1, ea, hs1, hm1, hf1⟩ := unordDelete_src (p := p) hs h1 (by omega) n
          have hM : m1.maps[io]? = some (obj p .nil hashV (·.1) z) := by rw [hm1]; exact h.ovf
          have es := fun env => store_map keyed_hash (fun y : Val (K ⊕ V) × List (K × V) => by cases y.1 <;> rfl) hM env (p.hash k)
            ((s', CustomMap.unorderedDelete l j) : Val (K ⊕ V) × List (K × V))
          simp only [hashV] at es
          refine ⟨_, t, z.put (p.hash k) (s', CustomMap.unorderedDelete l j), ?_, by rw [ovfOf_put],
            h.change hap (m' := m1.setMap io (obj p .nil hashV (·.1) (z.put (p.hash k) (s', CustomMap.unorderedDelete l j))))
              ((setMap_other h.ne _).trans (by rw [hm1])) (setMap_here (List.getElem?_eq_some_iff.mp hM).1 _)
              (hs1.mono fun _ _ _ _ _ => rfl) (fun q _ hq => hf1 q hq) (Nat.le_refl _) (Nat.le_trans (unordDelete_length _ _) hsh)⟩
          go_run [Custom_Delete_fn, custO, ↓e, Bool.not_true, he, ↓e0, hs.settle, hs.fetch, ↓hs.mapOf, hs.len]
          rw [turns_hit hs (by decide) (fun e => p.equal e.1 k) hq hj (fun j e => [("entry", entryV e), ("i", .num .int j)])]
          · go_run [entryV, h2, ↓ea, es, hs.fetch, hs.settle, ↓hs.mapOf, ↓hs.boxNo, hs1.settle, hs1.fetch]
          · intro j e
            go_run [entryV]
          · intro j e he
            go_run [entryV, he]

/-! ## Histories -/

theorem C154_text_call (h : Over p m id io t z N) (hN : (N : Int) < 9223372036854775808) (hz : p.zeroV = default) (n : Nat) (op : CustomMap.Op K V) :
    ∃ m' t' z', callCust p (n + 2) (custO id io) op m = pure (resCust (CustomMap.run p.hash p.equal ⟨t, some (ovfOf z)⟩ op).1, m') ∧
      (CustomMap.run p.hash p.equal ⟨t, some (ovfOf z)⟩ op).2 = ⟨t', some (ovfOf z')⟩ ∧ Over p m' id io t' z' (N + 1) := by
  cases op with
  | set k v => exact overSet_src h k v n
  | get k => exact ⟨m, t, z, overGet_src h hz k (n + 1), rfl, h.more (Nat.le_succ _)⟩
  | delete k =>
    obtain ⟨m', t', z', e1, e2, h'⟩ := overDelete_src h hN k n
    exact ⟨m', t', z', e1, e2, h'.more (Nat.le_succ _)⟩

/-- **C154, from the text.** Calls of the methods of `Custom`, as the text has them, on a struct with an overflow table give the results of
the model. -/
theorem C154_text_history (hz : p.zeroV = default) (n : Nat) : ∀ (ops : List (CustomMap.Op K V)) {m : Mem (K ⊕ V)} {t : Tab UInt64 (K × V)}
    {z : Tab UInt64 (Val (K ⊕ V) × List (K × V))} {N : Nat}, Over p m id io t z N → ((N + ops.length : Nat) : Int) ≤ 9223372036854775808 →
    ∃ m', historyCust p (n + 2) (custO id io) ops m = pure ((CustomMap.runAll p.hash p.equal ⟨t, some (ovfOf z)⟩ ops).map resCust, m') := by
  intro ops
  induction ops with
  | nil => intro m t z N _ _; exact ⟨m, rfl⟩
  | cons op ops ih =>
    intro m t z N h hN
    simp only [List.length_cons] at hN
    obtain ⟨m1, t1, z1, e1, er, h1⟩ := C154_text_call h (by omega) hz n op
    obtain ⟨m2, e2⟩ := ih h1 (by omega)
    refine ⟨m2, ?_⟩
    simp only [historyCust, e1, pure_bind, e2, CustomMap.runAll, er, List.map_cons]

/-- Two empty maps. -/
theorem over_empty (hm : m.maps[id]? = some (mainObj p [])) (ho : m.maps[io]? = some (ovfObj p [])) (hne : id ≠ io) :
    Over p m id io [] [] 0 where
  main := hm
  ovf := ho
  ne := hne
  wf := List.Pairwise.nil
  items _ _ h := by cases h
  apart _ _ _ _ h := by cases h
  short _ _ h := by cases h

/-- **C154, from the text.** On a struct whose two maps are there and empty, every history in which no `Delete` takes the first of several live
keys with its hash gives what the specification says. -/
theorem C154_text (hz : p.zeroV = default) (n : Nat) (g : CustomMap.Good p.hash p.equal) (hm : m.maps[id]? = some (mainObj p []))
    (ho : m.maps[io]? = some (ovfObj p [])) (hne : id ≠ io) (ops : List (CustomMap.Op K V)) (hl : (ops.length : Int) ≤ 9223372036854775808)
    (hf : CustomMap.Overflow.FineAll p.hash p.equal CustomMap.Overflow.Spec.empty ops) :
    ∃ m', historyCust p (n + 2) (custO id io) ops m =
      pure ((CustomMap.Overflow.steps p.hash p.equal CustomMap.Overflow.Spec.empty ops).map resCust, m') := by
  obtain ⟨m', e⟩ := C154_text_history hz n ops (over_empty hm ho hne) (by simpa using hl)
  rw [show ovfOf ([] : Tab UInt64 (Val (K ⊕ V) × List (K × V))) = [] from rfl, CustomMap.Overflow.C154_exact g ops hf] at e
  exact ⟨m', e⟩

/-- **C154, from the text: what goes wrong.** A `Delete` that takes the first of two live keys with its hash loses the other. -/
theorem C154_text_loses (hz : p.zeroV = default) (n : Nat) (hm : m.maps[id]? = some (mainObj p []))
    (ho : m.maps[io]? = some (ovfObj p [])) (hne : id ≠ io) (x y : K) (v w : V) (hh : p.hash y = p.hash x) (hxx : p.equal x x = true)
    (hxy : p.equal x y = false) :
    ∃ m', historyCust p (n + 2) (custO id io) [.set x v, .set y w, .delete x, .get y] m =
      pure ([[.bool true], [.bool true], [.bool true], [vE default, .bool false]], m') := by
  obtain ⟨m', e⟩ := C154_text_history hz n [.set x v, .set y w, .delete x, .get y] (over_empty (p := p) hm ho hne) (by simp)
  refine ⟨m', e.trans ?_⟩
  have k1 : CustomMap.runAll p.hash p.equal ⟨[], some (ovfOf ([] : Tab UInt64 (Val (K ⊕ V) × List (K × V))))⟩ [.set x v, .set y w, .delete x, .get y] =
      [.flag true, .flag true, .flag true, .got default false] := by
    simp [CustomMap.runAll, CustomMap.run, CustomMap.set, CustomMap.setBody, CustomMap.writeBack, CustomMap.get, CustomMap.delete,
      CustomMap.deleteBody, MapVar.get?, ovfOf, Tab.get?, Tab.put, Tab.del, hh, hxx, hxy]
  rw [k1]
  rfl

/-- Memory with two empty maps. -/
def mem2 : Mem (Nat ⊕ Nat) := ⟨[], [mainObj par [], ovfObj par []]⟩

/-- Three keys with the hash 3. -/
example : ∃ m', historyCust par 2 (custO 0 1) [.set 3 30, .set 13 40, .set 23 50, .set 13 41, .get 13, .delete 13, .get 23, .get 13] mem2 =
    pure ([[.bool true], [.bool true], [.bool true], [.bool false], [vE 41, .bool true], [.bool true], [vE 50, .bool true], [vE 30, .bool false]], m') :=
  C154_text (p := par) rfl 0 ⟨by simp [par], by simp [par], by simp [par], fun a b h => by simp [par] at h; rw [h]⟩ rfl rfl (by decide)
    [.set 3 30, .set 13 40, .set 23 50, .set 13 41, .get 13, .delete 13, .get 23, .get 13] (by decide)
    (by simp [CustomMap.Overflow.FineAll, CustomMap.Overflow.Fine, CustomMap.Overflow.step, CustomMap.Overflow.Spec.empty, par, PMap.empty])

example : ∃ m', historyCust par 2 (custO 0 1) [.set 3 30, .set 13 40, .delete 3, .get 13] mem2 =
    pure ([[.bool true], [.bool true], [.bool true], [vE 0, .bool false]], m') :=
  C154_text_loses (p := par) rfl 0 rfl rfl (by decide) 3 13 30 40 rfl rfl rfl

end Verif.Src.XMap
