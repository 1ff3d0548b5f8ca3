import Verif.Src.MapOps
import Verif.CustomMap.Props

/-!
# C152 (Custom): histories of calls, from the text

The methods of `Custom` have value receivers: the caller's struct is copied, its maps are not. From the text it follows that the overflow
map that `Set` makes is lost, which the model of CustomMap/Model.lean says with `writeBack`.
-/

set_option linter.unusedSectionVars false

namespace Verif.Src.XMap

open Verif.GoMap

variable {K V : Type} [BEq K] [Inhabited V] {p : Par K V} {m : Mem (K ⊕ V)} {id : Nat} {t : Tab UInt64 (K × V)}

/-- The struct `Custom` as `NewCustom` makes it: `ovf` is nil. -/
def custV (id : Nat) : Val (K ⊕ V) := .struct "Custom" [("main", .map id), ("ovf", .nil), ("hash", .fn "hasher"), ("equal", .fn "comparator")]

/-- The object of the map `main`. -/
abbrev mainObj (p : Par K V) (t : Tab UInt64 (K × V)) : MapObj (K ⊕ V) := obj p (entryV (p.zeroK, p.zeroV)) hashV entryV t

theorem newCustom_src (m : Mem (K ⊕ V)) (n : Nat) :
    calls (ctx p) (n + 1) "NewCustom" [.fn "hasher", .fn "comparator"] m = pure ([custV m.maps.length], m.newMap (mainObj p [])) := by
  rw [calls]
  go_run [NewCustom_fn, custV]
  rfl

theorem look_main (h : m.maps[id]? = some (mainObj p t)) (x : UInt64) :
    lookupMap m (.map id) (.num .u64 x.toNat) = pure [entryV ((t.get? x).getD (p.zeroK, p.zeroV)), .bool (t.get? x).isSome] := by
  have := lookup_map keyed_hash h x
  simp only [hashV] at this
  rw [this]
  cases t.get? x <;> rfl

theorem look_ovf (p : Par K V) (m : Mem (K ⊕ V)) (x : UInt64) : lookupMap m .nil (.num .u64 x.toNat) = pure [.fn "zero value", .bool false] :=
  lookup_nil (p := p) keyed_hash x

theorem custGet_src (h : m.maps[id]? = some (mainObj p t)) (hz : p.zeroV = default) (k : K) (n : Nat) :
    calls (ctx p) (n + 1) "Custom.Get" [custV id, kE k] m =
      pure ([vE (CustomMap.get p.hash p.equal ⟨t, none⟩ k).1, .bool (CustomMap.get p.hash p.equal ⟨t, none⟩ k).2], m) := by
  have e := look_main h (p.hash k)
  have e0 := look_ovf p m (p.hash k)
  rw [CustomMap.get_eq rfl, calls]
  cases hg : t.get? (p.hash k) with
  | none =>
    simp only [hg, entryV, Option.getD_none] at e
    go_run [Custom_Get_fn, custV, ↓e, Bool.not_false, hz]
  | some x =>
    simp only [hg, entryV, Option.getD_some] at e
    cases he : p.equal x.1 k with
    | true => go_run [Custom_Get_fn, custV, ↓e, Bool.not_true, he]
    | false => go_run [Custom_Get_fn, custV, ↓e, Bool.not_true, he, ↓e0, Bool.not_false]

/-- What there was before is as it was, but for the map `id`. -/
structure Only (id : Nat) (m m' : Mem (K ⊕ V)) : Prop where
  arrs : ∀ b, b < m.arrs.length → m'.arrs[b]? = m.arrs[b]?
  len : m.arrs.length ≤ m'.arrs.length
  maps : ∀ d, d < m.maps.length → d ≠ id → m'.maps[d]? = m.maps[d]?
  mapLen : m.maps.length ≤ m'.maps.length

theorem Only.refl (id : Nat) (m : Mem (K ⊕ V)) : Only id m m := ⟨fun _ _ => rfl, Nat.le_refl _, fun _ _ _ => rfl, Nat.le_refl _⟩

theorem Only.trans {id : Nat} {m m1 m2 : Mem (K ⊕ V)} (h : Only id m m1) (h' : Only id m1 m2) : Only id m m2 where
  arrs b hb := (h'.arrs b (Nat.lt_of_lt_of_le hb h.len)).trans (h.arrs b hb)
  len := Nat.le_trans h.len h'.len
  maps d hd hne := (h'.maps d (Nat.lt_of_lt_of_le hd h.mapLen) hne).trans (h.maps d hd hne)
  mapLen := Nat.le_trans h.mapLen h'.mapLen

theorem Only.setMap (id : Nat) (m : Mem (K ⊕ V)) (o : MapObj (K ⊕ V)) : Only id m (m.setMap id o) :=
  ⟨fun _ _ => rfl, Nat.le_refl _, fun _ _ h => setMap_other h _, by simp⟩

theorem custDelete_src (h : m.maps[id]? = some (mainObj p t)) (k : K) (n : Nat) :
    ∃ m' t', calls (ctx p) (n + 1) "Custom.Delete" [custV id, kE k] m = pure ([.bool (CustomMap.delete p.hash p.equal ⟨t, none⟩ k).1], m') ∧
      (CustomMap.delete p.hash p.equal ⟨t, none⟩ k).2 = ⟨t', none⟩ ∧ m'.maps[id]? = some (mainObj p t') ∧ Only id m m' := by
  have e := look_main h (p.hash k)
  have e0 := look_ovf p m (p.hash k)
  have ed := delete_map keyed_hash h (p.hash k)
  have hid := (List.getElem?_eq_some_iff.mp h).1
  simp only [hashV] at ed
  rw [CustomMap.delete_eq rfl, calls]
  cases hg : t.get? (p.hash k) with
  | none =>
    simp only [hg, entryV, Option.getD_none] at e
    refine ⟨m, t, ?_, rfl, h, .refl _ _⟩
    go_run [Custom_Delete_fn, custV, ↓e, Bool.not_false]
  | some x =>
    simp only [hg, entryV, Option.getD_some] at e
    cases he : p.equal x.1 k with
    | true =>
      refine ⟨m.setMap id (mainObj p (t.del (p.hash k))), t.del (p.hash k), ?_, by simp only [he, if_true], setMap_here hid _, .setMap _ _ _⟩
      go_run [Custom_Delete_fn, custV, ↓e, Bool.not_true, he, ↓ed]
    | false =>
      refine ⟨m, t, ?_, by simp only [he, Bool.false_eq_true, if_false], h, .refl _ _⟩
      go_run [Custom_Delete_fn, custV, ↓e, Bool.not_true, he, ↓e0, Bool.not_false]

/-- The object of an overflow map. -/
abbrev ovfObj (p : Par K V) (es : List (Val (K ⊕ V) × Val (K ⊕ V))) : MapObj (K ⊕ V) := ⟨.nil, keyEq (ctx p), es⟩

theorem custSet_src (h : m.maps[id]? = some (mainObj p t)) (k : K) (v : V) (n : Nat) :
    ∃ m' t', calls (ctx p) (n + 2) "Custom.Set" [custV id, kE k, vE v] m = pure ([.bool (CustomMap.set p.hash p.equal ⟨t, none⟩ k v).1], m') ∧
      (CustomMap.set p.hash p.equal ⟨t, none⟩ k v).2 = ⟨t', none⟩ ∧ m'.maps[id]? = some (mainObj p t') ∧ Only id m m' := by
  have e := look_main h (p.hash k)
  have e0 := look_ovf p m (p.hash k)
  have ep := fun env => store_map keyed_hash (fit_entry _) h env (p.hash k) (k, v)
  have hid := (List.getElem?_eq_some_iff.mp h).1
  have en := fun m => newEntry_src (p := p) m (k, v) n
  simp only [hashV, entryV] at ep
  simp only [entryV] at en
  rw [CustomMap.set_eq rfl, calls]
  cases hg : t.get? (p.hash k) with
  | none =>
    simp only [hg, entryV, Option.getD_none] at e
    refine ⟨m.setMap id (mainObj p (t.put (p.hash k) (k, v))), t.put (p.hash k) (k, v), ?_, rfl, setMap_here hid _, .setMap _ _ _⟩
    go_run [Custom_Set_fn, custV, ↓e, Bool.not_false, ↓en, ep]
    rfl
  | some x =>
    simp only [hg, entryV, Option.getD_some] at e
    cases he : p.equal x.1 k with
    | true =>
      refine ⟨m.setMap id (mainObj p (t.put (p.hash k) (k, v))), t.put (p.hash k) (k, v), ?_, by simp only [he, if_true], setMap_here hid _, .setMap _ _ _⟩
      go_run [Custom_Set_fn, custV, ↓e, Bool.not_true, he, ↓en, ep]
      rfl
    | false =>
      refine ⟨((m.newMap (ovfObj p [])).alloc [entryV (k, v)]).setMap m.maps.length (ovfObj p [(hashV (p.hash k), .slice m.arrs.length 0 1 1)]), t, ?_,
        by simp only [he, Bool.false_eq_true, if_false], ?_, ?_⟩
      · have hM : ((m.newMap (ovfObj p [])).alloc [entryV (k, v)]).maps[m.maps.length]? =
            some (obj p .nil hashV (fun _ : Unit => .slice (m.newMap (ovfObj p [])).arrs.length 0 1 1) []) := newMap_here m _
        have es := fun env => store_map keyed_hash (fun _ => rfl) hM env (p.hash k) ()
        simp only [hashV, entryV] at es
        go_run [Custom_Set_fn, custV, ↓e, Bool.not_true, he, ↓e0, Bool.not_false, ↓en, es]
        rfl
      · rw [setMap_other (by omega)]
        exact (newMap_other hid _).trans h
      · refine ⟨fun b hb => alloc_arrs hb _, by simp, fun d hd _ => ?_, by show m.maps.length ≤ (((m.newMap (ovfObj p []))).setMap _ _).maps.length; simp⟩
        rw [setMap_other (by omega)]
        exact newMap_other hd _

/-! ## Histories -/

/-- The call of a method on the struct `r`. -/
def callCust (p : Par K V) (n : Nat) (r : Val (K ⊕ V)) : CustomMap.Op K V → Mem (K ⊕ V) → R (List (Val (K ⊕ V)) × Mem (K ⊕ V))
  | .set k v => calls (ctx p) n "Custom.Set" [r, kE k, vE v]
  | .get k => calls (ctx p) n "Custom.Get" [r, kE k]
  | .delete k => calls (ctx p) n "Custom.Delete" [r, kE k]

/-- Calls one after the other, on the same struct: what a method assigns to its fields is not seen. -/
def historyCust (p : Par K V) (n : Nat) (r : Val (K ⊕ V)) : List (CustomMap.Op K V) → Mem (K ⊕ V) → R (List (List (Val (K ⊕ V))) × Mem (K ⊕ V))
  | [], m => pure ([], m)
  | op :: ops, m => do
    let (vs, m) ← callCust p n r op m
    let (rs, m) ← historyCust p n r ops m
    pure (vs :: rs, m)

/-- The values that stand for a result. -/
def resCust : CustomMap.Res V → List (Val (K ⊕ V))
  | .flag b => [.bool b]
  | .got v ok => [vE v, .bool ok]

theorem C152_custom_call (h : m.maps[id]? = some (mainObj p t)) (hz : p.zeroV = default) (n : Nat) (op : CustomMap.Op K V) :
    ∃ m' t', callCust p (n + 2) (custV id) op m = pure (resCust (CustomMap.run p.hash p.equal ⟨t, none⟩ op).1, m') ∧
      (CustomMap.run p.hash p.equal ⟨t, none⟩ op).2 = ⟨t', none⟩ ∧ m'.maps[id]? = some (mainObj p t') ∧ Only id m m' := by
  cases op with
  | set k v => exact custSet_src h k v n
  | get k => exact ⟨m, t, custGet_src h hz k (n + 1), rfl, h, .refl _ _⟩
  | delete k => exact custDelete_src h k (n + 1)

/-- **C152 (Custom).** A sequence of calls of the methods of `Custom`, from the text, on the struct that `NewCustom` made, gives the results of
the model: also those in which the overflow map is lost. -/
theorem C152_custom_history (hz : p.zeroV = default) (n : Nat) : ∀ (ops : List (CustomMap.Op K V)) {m : Mem (K ⊕ V)} {t : Tab UInt64 (K × V)},
    m.maps[id]? = some (mainObj p t) →
    ∃ m', historyCust p (n + 2) (custV id) ops m = pure ((CustomMap.runAll p.hash p.equal ⟨t, none⟩ ops).map resCust, m') ∧ Only id m m' := by
  intro ops
  induction ops with
  | nil => intro m t _; exact ⟨m, rfl, .refl _ _⟩
  | cons op ops ih =>
    intro m t h
    obtain ⟨m1, t1, e1, er, h1, o1⟩ := C152_custom_call h hz n op
    obtain ⟨m2, e2, o2⟩ := ih h1
    refine ⟨m2, ?_, o1.trans o2⟩
    simp only [historyCust, e1, pure_bind, e2, CustomMap.runAll, er, List.map_cons]

/-- **C152 (Custom), C29 and C30 of the text.** From `NewCustom`, the calls of a history in which no key has the hash of another live key return
what a mathematical map gives. -/
theorem C152_custom_text (hz : p.zeroV = default) (n : Nat) (m : Mem (K ⊕ V)) (g : CustomMap.Good p.hash p.equal) (ops : List (CustomMap.Op K V))
    (hno : CustomMap.NoClash p.hash p.equal (PMap.empty : PMap K V) ops) :
    ∃ r m1 m2, calls (ctx p) (n + 1) "NewCustom" [.fn "hasher", .fn "comparator"] m = pure ([r], m1) ∧
      historyCust p (n + 2) r ops m1 = pure ((CustomMap.specAll p.equal PMap.empty ops).map resCust, m2) := by
  obtain ⟨m2, e, -⟩ := C152_custom_history (p := p) hz n ops (newMap_here m (mainObj p []))
  have key := CustomMap.C29_C30_partial g ops hno
  rw [CustomMap.new] at key
  rw [key] at e
  exact ⟨_, _, m2, newCustom_src m n, e⟩

/-- **C152 (Custom), what goes wrong.** A key whose hash is that of another live key is lost, though `Set` says that it was added; `Get` returns
the value of the other key, with `false`. -/
theorem C152_custom_loses (hz : p.zeroV = default) (n : Nat) (m : Mem (K ⊕ V)) (k x : K) (v w : V)
    (hh : p.hash x = p.hash k) (he : p.equal x k = false) :
    ∃ r m1 m2, calls (ctx p) (n + 1) "NewCustom" [.fn "hasher", .fn "comparator"] m = pure ([r], m1) ∧
      historyCust p (n + 2) r [.set x w, .set k v, .get k, .delete k] m1 =
        pure ([[.bool true], [.bool true], [vE w, .bool false], [.bool false]], m2) := by
  obtain ⟨m2, e, -⟩ := C152_custom_history (p := p) hz n [.set x w, .set k v, .get k, .delete k] (newMap_here m (mainObj p []))
  refine ⟨_, _, m2, newCustom_src m n, e.trans ?_⟩
  have k1 : (CustomMap.runAll p.hash p.equal ⟨[], none⟩ [.set x w, .set k v, .get k, .delete k]) = [.flag true, .flag true, .got w false, .flag false] := by
    simp [CustomMap.runAll, CustomMap.run, CustomMap.set_eq, CustomMap.get_eq, CustomMap.delete_eq, Tab.get?, Tab.put, hh, he]
  rw [k1]
  rfl

end Verif.Src.XMap
