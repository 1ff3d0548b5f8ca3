import Verif.Src.MapBase
import Verif.ArrayMap.Props

/-!
# ds/xmap/arraymap.go: what the text does

C152: each method of `ArrayMap`, from the text, by the semantics of Src/Sem.lean, does in memory what the model of ArrayMap/Model.lean
does.
-/

set_option linter.unusedSectionVars false

namespace Verif.Src.XMap

open Verif.GoMap Verif.ArrayMap

variable {K V : Type} [BEq K] [Inhabited V] {p : Par K V}

/-- The struct `ArrayMap`. -/
def arrV (pv kv : Val (K ⊕ V)) : Val (K ⊕ V) := .struct "ArrayMap" [("_", .struct "xtd.NoCopy" []), ("pos", pv), ("kv", kv)]

/-- The entry map of positions. -/
abbrev posObj (p : Par K V) (t : Tab K Int) : MapObj (K ⊕ V) := obj p (.num .int 0) kE intV t

/-- The struct in cell `(a, i)`, whose fields are `pv` and `kv`, is the model's `q`; it is not in the array of `kv`. -/
structure Holds (p : Par K V) (m : Mem (K ⊕ V)) (a i : Nat) (pv kv : Val (K ⊕ V)) (q : ArrayMap K V) : Prop where
  cell : m.cell a i = some (arrV pv kv)
  map : IsMap p (.num .int 0) kE intV m pv q.pos
  items : Items entryV m kv q.kv
  apart : Apart a kv

/-- From `m` to `m'` the fields of the struct in `(a, i)` go from `pv` and `kv` to `pv'` and `kv'`; nothing else changes but their map and
array. -/
structure Keeps (a i : Nat) (m : Mem (K ⊕ V)) (pv kv : Val (K ⊕ V)) (m' : Mem (K ⊕ V)) (pv' kv' : Val (K ⊕ V)) : Prop where
  len : m.arrs.length ≤ m'.arrs.length
  mapLen : m.maps.length ≤ m'.maps.length
  arrs : ∀ b, b < m.arrs.length → b ≠ a → Apart b kv → m'.arrs[b]? = m.arrs[b]? ∧ Apart b kv'
  cells : ∀ j, j ≠ i → m'.cell a j = m.cell a j
  maps : ∀ d, d < m.maps.length → pv ≠ .map d → m'.maps[d]? = m.maps[d]? ∧ pv' ≠ .map d

theorem Keeps.refl (a i : Nat) (m : Mem (K ⊕ V)) (pv kv : Val (K ⊕ V)) : Keeps a i m pv kv m pv kv :=
  ⟨Nat.le_refl _, Nat.le_refl _, fun _ _ _ h => ⟨rfl, h⟩, fun _ _ => rfl, fun _ _ h => ⟨rfl, h⟩⟩

theorem Keeps.trans {a i : Nat} {m m1 m2 : Mem (K ⊕ V)} {pv kv pv1 kv1 pv2 kv2 : Val (K ⊕ V)} (h : Keeps a i m pv kv m1 pv1 kv1)
    (h' : Keeps a i m1 pv1 kv1 m2 pv2 kv2) : Keeps a i m pv kv m2 pv2 kv2 where
  len := Nat.le_trans h.len h'.len
  mapLen := Nat.le_trans h.mapLen h'.mapLen
  arrs b hb ha hp := by
    obtain ⟨e1, p1⟩ := h.arrs b hb ha hp
    obtain ⟨e2, p2⟩ := h'.arrs b (Nat.lt_of_lt_of_le hb h.len) ha p1
    exact ⟨e2.trans e1, p2⟩
  cells j hj := (h'.cells j hj).trans (h.cells j hj)
  maps d hd hp := by
    obtain ⟨e1, p1⟩ := h.maps d hd hp
    obtain ⟨e2, p2⟩ := h'.maps d (Nat.lt_of_lt_of_le hd h.mapLen) p1
    exact ⟨e2.trans e1, p2⟩

theorem goGet_bad {α : Type} {l : List α} {i : Int} (h : ¬ (0 ≤ i ∧ i < l.length)) : goGet l i = .error "index out of range" := by
  unfold goGet
  split
  · rw [List.getElem?_eq_none (by omega)]
  · rfl

variable {m : Mem (K ⊕ V)} {a i : Nat} {pv kv : Val (K ⊕ V)} {q : ArrayMap K V}

/-- Another struct in the cell. -/
theorem Keeps.put (w : Val (K ⊕ V)) : Keeps a i m pv kv (m.put a i w) pv kv where
  len := by simp
  mapLen := Nat.le_refl _
  arrs b _ hb h := ⟨put_arrs hb _, h⟩
  cells j hj := cell_put_other (fun h => hj h.2) _
  maps _ _ h := ⟨rfl, h⟩

theorem cell_lt {E : Type} {m : Mem E} {a i : Nat} {v : Val E} (h : m.cell a i = some v) : a < m.arrs.length := by
  unfold Mem.cell at h
  cases e : m.arrs[a]? with
  | none => rw [e] at h; cases h
  | some l => exact (List.getElem?_eq_some_iff.mp e).1

/-- `v, ok := p.pos[k]`. -/
theorem Holds.look (h : Holds p m a i pv kv q) (k : K) :
    ∃ z, lookupMap m pv (.elem (.inl k)) = pure [(match q.pos.get? k with | some i => .num .int i | none => z), .bool (q.pos.get? k).isSome] ∧
      settle z = z ∧ fetch m z = pure z := by
  have hp := h.map
  cases e : q.pos with
  | none =>
    rw [e] at hp
    cases hp
    exact ⟨_, lookup_nil (p := p) keyed_kE k, rfl, rfl⟩
  | some t =>
    rw [e] at hp
    obtain ⟨id, rfl, hm⟩ := hp
    refine ⟨.num .int 0, ?_, rfl, rfl⟩
    rw [lookup_map keyed_kE hm k]
    show _ = pure [(match t.get? k with | some i => _ | none => _), Val.bool (t.get? k).isSome]
    cases t.get? k <;> rfl

theorem has_src (h : Holds p m a i pv kv q) (t : Nat) (k : K) :
    calls (ctx p) (t + 1) "ArrayMap.Has" [.ptr a i [], .elem (.inl k)] m = pure ([.bool (has q k)], m) := by
  obtain ⟨z, e, -⟩ := h.look k
  rw [calls]
  go_run [ArrayMap_Has_fn, h.cell, arrV, e]
  rfl

theorem tryGet_src (h : Holds p m a i pv kv q) (hz : p.zeroV = default) (t : Nat) (k : K) :
    calls (ctx p) (t + 2) "ArrayMap.TryGet" [.ptr a i [], .elem (.inl k)] m =
      match tryGet q k with
      | .ok (v, b) => pure ([.elem (.inr v), .bool b], m)
      | .error e => panic e := by
  obtain ⟨z, e, hs, hf⟩ := h.look k
  rw [calls]
  unfold tryGet
  cases hk : q.pos.get? k with
  | none =>
    simp only
    have ez : ∀ m, calls (ctx p) (t + 1) "generics.ZeroOf" [] m = pure ([.elem (.inr (default : V))], m) := by
      intro m
      rw [calls]
      go_run [ZeroOf_fn, hz]
    go_run [ArrayMap_TryGet_fn, h.cell, arrV, e, hk, hs, hf, ↓ez]
  | some j =>
    by_cases hj : 0 ≤ j ∧ j < q.kv.length
    · have hj' : j.toNat < q.kv.length := by omega
      simp only [goGet_at hj.1 hj', Except.map]
      go_run [ArrayMap_TryGet_fn, h.cell, arrV, e, hk, h.items.index hj.1 hj', entryV]
    · simp only [goGet_bad hj, Except.map]
      go_run [ArrayMap_TryGet_fn, h.cell, arrV, e, hk, h.items.index_bad hj]

theorem get_src (h : Holds p m a i pv kv q) (hz : p.zeroV = default) (t : Nat) (k : K) :
    calls (ctx p) (t + 3) "ArrayMap.Get" [.ptr a i [], .elem (.inl k)] m =
      match tryGet q k with
      | .ok (v, true) => pure ([.elem (.inr v)], m)
      | .ok (_, false) => panic (p.sprint [.str "key not found: ", .elem (.inl k)])
      | .error e => panic e := by
  have e := tryGet_src h hz t k
  rw [calls]
  cases hg : tryGet q k with
  | error s =>
    rw [hg] at e
    go_run [ArrayMap_Get_fn, h.cell, arrV, ↓e]
  | ok r =>
    obtain ⟨v, b⟩ := r
    rw [hg] at e
    cases b
    · go_run [ArrayMap_Get_fn, h.cell, arrV, ↓e, Bool.not_false]
    · go_run [ArrayMap_Get_fn, h.cell, arrV, ↓e, Bool.not_true]

theorem laze_src (h : Holds p m a i pv kv q) (t : Nat) :
    ∃ m' id s, calls (ctx p) (t + 1) "ArrayMap.lazeInit" [.ptr a i []] m = pure ([], m') ∧ Holds p m' a i (.map id) kv ⟨some s, q.kv⟩ ∧
      Keeps a i m pv kv m' (.map id) kv ∧ lazeInit q = ⟨some s, q.kv⟩ := by
  have hp := h.map
  rw [calls]
  cases e : q.pos with
  | none =>
    rw [e] at hp
    cases hp
    refine ⟨(m.newMap (posObj p [])).put a i (arrV (.map m.maps.length) kv), m.maps.length, [], ?_, ⟨?_, ?_, ?_, h.apart⟩, ?_, ?_⟩
    · go_run [ArrayMap_lazeInit_fn, h.cell, arrV, newMap_cell]
      rfl
    · exact cell_put_same (m := m.newMap (posObj p [])) h.cell _
    · exact ⟨_, rfl, newMap_here _ _⟩
    · exact Items.put (h.items.mono (m' := m.newMap (posObj p [])) (fun _ _ _ _ _ => rfl)) h.apart
    · refine ⟨by simp, by simp, fun b _ hb hk => ⟨put_arrs (m := m.newMap (posObj p [])) hb _, hk⟩, fun j hj => cell_put_other (m := m.newMap (posObj p [])) (fun h => hj h.2) _, fun d hd _ => ⟨newMap_other hd _, ?_⟩⟩
      intro hh
      cases hh
      omega
    · simp [lazeInit, e]
  | some s =>
    rw [e] at hp
    obtain ⟨id, rfl, hm⟩ := hp
    refine ⟨m, id, s, ?_, ⟨h.cell, ⟨id, rfl, hm⟩, h.items, h.apart⟩, .refl _ _ _ _ _, ?_⟩
    · go_run [ArrayMap_lazeInit_fn, h.cell, arrV]
    · cases q
      simp only at e
      subst e
      rfl

theorem set_src (h : Holds p m a i pv kv q) (t : Nat) (k : K) (v : V) :
    ∃ m' pv' kv' q', calls (ctx p) (t + 2) "ArrayMap.Set" [.ptr a i [], .elem (.inl k), .elem (.inr v)] m = pure ([], m') ∧
      ArrayMap.set q k v = .ok q' ∧ Holds p m' a i pv' kv' q' ∧ Keeps a i m pv kv m' pv' kv' := by
  obtain ⟨m1, id, s, e1, h1, k1, el⟩ := laze_src h t
  obtain ⟨kv', m2, e2, hi, hlen, hmaps, hk⟩ := h1.items.append (ctx p) (k, v)
  have ha := cell_lt h1.cell
  have ka := hk a ha h1.apart
  have hc2 : m2.cell a i = some (arrV (.map id) kv) := by
    rw [cell_of_arrs ka.1]; exact h1.cell
  obtain ⟨id', hid, hm⟩ := h1.map
  cases hid
  have hm2 : (m2.put a i (arrV (.map id) kv')).maps[id]? = some (posObj p s) := by
    rw [put_maps, hmaps]; exact hm
  have e3 := fun env => store_map (p := p) (fk := kE) (fv := intV) (z := .num .int 0) (K := K) (V := V) keyed_kE (fun _ => rfl) hm2 env k q.kv.length
  refine ⟨(m2.put a i (arrV (.map id) kv')).setMap id (posObj p (s.put k q.kv.length)), .map id, kv', ⟨some (s.put k q.kv.length), q.kv ++ [(k, v)]⟩, ?_, ?_, ⟨?_, ?_, ?_, ka.2⟩, ?_⟩
  · simp only [entryV] at e2
    simp only [intV, arrV] at e3
    rw [calls]
    have hlen1 := h1.items.len
    go_run [ArrayMap_Set_fn, h.cell, arrV, ↓e1, h1.cell, hlen1, ↓e2, hc2, hi.fit, cell_put_same hc2, e3]
  · simp only [ArrayMap.set, el, MapVar.put]
    rfl
  · rw [setMap_cell]
    exact cell_put_same hc2 _
  · exact ⟨id, rfl, setMap_here (List.getElem?_eq_some_iff.mp hm2).1 _⟩
  · exact (hi.put ka.2).mono (fun _ _ _ _ _ => rfl)
  · refine k1.trans (Keeps.trans ?_ ?_ (m1 := m2) (pv1 := .map id) (kv1 := kv'))
    · refine ⟨hlen, by rw [hmaps]; exact Nat.le_refl _, fun b hb _ hp => hk b hb hp, fun j _ => cell_of_arrs ka.1 j, fun d _ hd => ⟨by rw [hmaps], hd⟩⟩
    · refine ⟨by simp, by simp, fun b _ hb hp => ⟨put_arrs hb _, hp⟩, fun j hj => cell_put_other (fun h => hj h.2) _, fun d _ hd => ⟨?_, hd⟩⟩
      exact setMap_other (fun e => hd (by rw [e])) _

/-- A slot of the entries is written. -/
theorem Holds.setAt (h : Holds p m a i pv kv q) {j : Nat} (hj : j < q.kv.length) (e : K × V) :
    Holds p (Src.setAt m kv j (entryV e)) a i pv kv ⟨q.pos, q.kv.set j e⟩ ∧ Keeps a i m pv kv (Src.setAt m kv j (entryV e)) pv kv := by
  have hc : ∀ j', (Src.setAt m kv j (entryV e)).cell a j' = m.cell a j' := fun j' => cell_of_arrs (Slice.setAt_arrs h.apart) j'
  refine ⟨⟨(hc i).trans h.cell, ?_, h.items.set hj e, h.apart⟩, ⟨?_, ?_, fun b _ _ hp => ⟨Slice.setAt_arrs hp, hp⟩, fun j' _ => hc j', fun d _ hd => ⟨by rw [setAt_maps'], hd⟩⟩⟩
  · have hp := h.map
    cases q with
    | mk pos l =>
      cases pos with
      | none => exact hp
      | some s => obtain ⟨id, e1, e2⟩ := hp; exact ⟨id, e1, by rw [setAt_maps']; exact e2⟩
  · unfold Src.setAt
    split <;> simp
  · rw [setAt_maps']; exact Nat.le_refl _

/-- The map of positions is changed. -/
theorem Holds.setMap {id : Nat} (h : Holds p m a i (.map id) kv q) (s : Tab K Int) :
    Holds p (m.setMap id (posObj p s)) a i (.map id) kv ⟨some s, q.kv⟩ ∧ Keeps a i m (.map id) kv (m.setMap id (posObj p s)) (.map id) kv := by
  have hid : id < m.maps.length := by
    have hp := h.map
    cases q with
    | mk pos l =>
      cases pos with
      | none => cases hp
      | some s => obtain ⟨id', e1, e2⟩ := hp; cases e1; exact (List.getElem?_eq_some_iff.mp e2).1
  refine ⟨⟨h.cell, ⟨id, rfl, setMap_here hid _⟩, h.items.mono (fun _ _ _ _ _ => rfl), h.apart⟩, ⟨Nat.le_refl _, by simp, fun b _ _ hp => ⟨rfl, hp⟩, fun _ _ => rfl, fun d _ hd => ⟨setMap_other (fun e => hd (by rw [e])) _, hd⟩⟩⟩

/-- The slice of entries is another. -/
theorem Holds.setKv (h : Holds p m a i pv kv q) {kv' : Val (K ⊕ V)} {l : List (K × V)} (hi : Items entryV m kv' l) (hp : ∀ b, Apart b kv → Apart b kv') :
    Holds p (m.put a i (arrV pv kv')) a i pv kv' ⟨q.pos, l⟩ ∧ Keeps a i m pv kv (m.put a i (arrV pv kv')) pv kv' := by
  refine ⟨⟨cell_put_same h.cell _, ?_, hi.put (hp a h.apart), hp a h.apart⟩, ⟨by simp, Nat.le_refl _, fun b _ hb hh => ⟨put_arrs hb _, hp b hh⟩, fun j hj => cell_put_other (fun h => hj h.2) _, fun _ _ hd => ⟨rfl, hd⟩⟩⟩
  have hm := h.map
  cases q with
  | mk pos l =>
    cases pos with
    | none => exact hm
    | some s => exact hm

theorem delete_src (h : Holds p m a i pv kv q) (hl : (q.kv.length : Int) < 9223372036854775808) (t : Nat) (k : K) :
    match ArrayMap.delete q k with
    | .ok (b, q') => ∃ m' pv' kv', calls (ctx p) (t + 1) "ArrayMap.Delete" [.ptr a i [], .elem (.inl k)] m = pure ([.bool b], m') ∧
        Holds p m' a i pv' kv' q' ∧ Keeps a i m pv kv m' pv' kv'
    | .error e => calls (ctx p) (t + 1) "ArrayMap.Delete" [.ptr a i [], .elem (.inl k)] m = panic e := by
  obtain ⟨z, e, hs, hf⟩ := h.look k
  rw [calls]
  cases hk : q.pos.get? k with
  | none =>
    have em : ArrayMap.delete q k = .ok (false, q) := by simp only [ArrayMap.delete, hk]
    rw [em]
    refine ⟨m, pv, kv, ?_, h, .refl _ _ _ _ _⟩
    go_run [ArrayMap_Delete_fn, h.cell, arrV, e, hk, hs, hf, Bool.not_false]
  | some j =>
    have hp := h.map
    cases hq : q.pos with
    | none => rw [hq] at hk; cases hk
    | some s =>
      rw [hq] at hp
      obtain ⟨id, rfl, hm⟩ := hp
      by_cases hj : j = (q.kv.length : Int) - 1
      · have hd := delete_map (p := p) (fk := kE) (fv := intV) (z := .num .int 0) (K := K) (V := V) keyed_kE hm k
        obtain ⟨h2, k2⟩ := h.setMap (s.del k)
        by_cases h0 : (q.kv.length : Int) - 1 < 0
        · have eb := h.items.reslice_bad h0
          have em : ArrayMap.delete q k = .error "slice bounds out of range" := by
            simp only [ArrayMap.delete, hk, hj, ne_eq, not_true_eq_false, if_false, goSlice, pure_bind,
              show ¬ (0 ≤ (q.kv.length : Int) - 1) by omega, false_and, and_false]
            rfl
          rw [em]
          go_run [ArrayMap_Delete_fn, h.cell, arrV, e, hk, hj, Bool.not_true, h.items.len, ↓hd, setMap_cell, h2.items.len, eb]
        · obtain ⟨w, ew, hi, hp⟩ := h2.items.reslice (n := (q.kv.length : Int) - 1) (by omega) (by simp only; omega)
          obtain ⟨h3, k3⟩ := h2.setKv hi hp
          have em : ArrayMap.delete q k = .ok (true, ⟨some (s.del k), q.kv.take ((q.kv.length : Int) - 1).toNat⟩) := by
            simp only [ArrayMap.delete, hk, hj, ne_eq, not_true_eq_false, if_false, goSlice, pure_bind]
            rw [if_pos (by omega), hq]
            rfl
          rw [em]
          refine ⟨_, _, _, ?_, h3, k2.trans k3⟩
          go_run [ArrayMap_Delete_fn, h.cell, arrV, e, hk, hj, Bool.not_true, h.items.len, ↓hd, setMap_cell, h2.items.len, ew, hi.fit]
      · by_cases h0 : (q.kv.length : Int) - 1 < 0
        · have eb := h.items.index_bad (i := (q.kv.length : Int) - 1) (k := .int) (by omega)
          have em : ArrayMap.delete q k = .error "index out of range" := by
            simp only [ArrayMap.delete, hk, hj, ne_eq, not_false_eq_true, if_true, goGet_bad (l := q.kv) (i := (q.kv.length : Int) - 1) (by omega)]
            rfl
          rw [em]
          go_run [ArrayMap_Delete_fn, h.cell, arrV, e, hk, Bool.not_true, h.items.len, eb]
        · have hl' : ((q.kv.length : Int) - 1).toNat < q.kv.length := by omega
          have ei := h.items.index (k := .int) (show 0 ≤ (q.kv.length : Int) - 1 by omega) hl'
          by_cases hb : 0 ≤ j ∧ j < q.kv.length
          · have hb' : j.toNat < q.kv.length := by omega
            obtain ⟨x, hx⟩ : ∃ x, x = q.kv[((q.kv.length : Int) - 1).toNat] := ⟨_, rfl⟩
            rw [← hx] at ei
            obtain ⟨h1, k1⟩ := h.setAt hb' x
            have es := fun env => h.items.store fit_entry env (k := .int) hb.1 hb' x
            have ej := h1.items.index (k := .int) hb.1 (by simpa using hb')
            simp only [List.getElem_set_self] at ej
            have hm1 : (Src.setAt m kv j.toNat (entryV x)).maps[id]? = some (posObj p s) := by rw [setAt_maps']; exact hm
            have ep := fun env => store_map (p := p) (fk := kE) (fv := intV) (z := .num .int 0) (K := K) (V := V) keyed_kE (fun _ => rfl) hm1 env x.1 ((q.kv.length : Int) - 1)
            obtain ⟨h2, k2⟩ := h1.setMap (s.put x.1 ((q.kv.length : Int) - 1))
            have hm2 : ((Src.setAt m kv j.toNat (entryV x)).setMap id (posObj p (s.put x.1 ((q.kv.length : Int) - 1)))).maps[id]? = some (posObj p (s.put x.1 ((q.kv.length : Int) - 1))) :=
              setMap_here (List.getElem?_eq_some_iff.mp hm1).1 _
            have hd := delete_map (p := p) (fk := kE) (fv := intV) (z := .num .int 0) (K := K) (V := V) keyed_kE hm2 k
            obtain ⟨h3, k3⟩ := h2.setMap ((s.put x.1 ((q.kv.length : Int) - 1)).del k)
            obtain ⟨w, ew, hi, hp⟩ := h3.items.reslice (n := (q.kv.length : Int) - 1) (by omega) (by simp; omega)
            obtain ⟨h4, k4⟩ := h3.setKv hi hp
            have em : ArrayMap.delete q k = .ok (true, ⟨some ((s.put x.1 ((q.kv.length : Int) - 1)).del k), (q.kv.set j.toNat x).take ((q.kv.length : Int) - 1).toNat⟩) := by
              have eg : goGet q.kv ((q.kv.length : Int) - 1) = .ok x := by rw [hx]; exact goGet_at (by omega) hl'
              have es : goSet q.kv j x = .ok (q.kv.set j.toNat x) := goSet_ok hb.1 hb'
              have eg2 : goGet (q.kv.set j.toNat x) j = .ok x := by
                rw [goGet_at hb.1 (by simpa using hb')]
                simp
              have esl : goSlice (q.kv.set j.toNat x) 0 ((q.kv.length : Int) - 1) = .ok ((q.kv.set j.toNat x).take ((q.kv.length : Int) - 1).toNat) := by
                unfold goSlice
                rw [if_pos (by simp; omega)]
                simp
              simp only [ArrayMap.delete, hk, hj, ne_eq, not_false_eq_true, if_true, eg]
              simp only [bind, Except.bind, es, eg2, hq, MapVar.put, pure, Except.pure, esl]
              rfl
            rw [em]
            refine ⟨_, _, _, ?_, h4, ((k1.trans k2).trans k3).trans k4⟩
            simp only [intV] at ep
            have c1 := h1.cell
            have l3 := h3.items.len
            simp only [arrV, entryV] at *
            go_run [ArrayMap_Delete_fn, h.cell, arrV, e, hk, Bool.not_true, h.items.len, ei, es, c1, ej, ep, setMap_cell, ↓hd, l3, ew, hi.fit]
          · have eb := fun env w => h.items.store_bad env (k := .int) hb w
            have em : ArrayMap.delete q k = .error "index out of range" := by
              simp only [ArrayMap.delete, hk, hj, ne_eq, not_false_eq_true, if_true, goGet_at (l := q.kv) (show 0 ≤ (q.kv.length : Int) - 1 by omega) hl', goSet, show ¬ (0 ≤ j ∧ j.toNat < q.kv.length) by omega]
              rfl
            rw [em]
            go_run [ArrayMap_Delete_fn, h.cell, arrV, e, hk, Bool.not_true, h.items.len, ei, eb]

end Verif.Src.XMap
