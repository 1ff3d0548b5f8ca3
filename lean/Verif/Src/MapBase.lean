import Verif.Src.Items
import Verif.Src.MapProg
import Verif.GoMap.Model

/-!
# Maps of the semantics and maps of the model

`obj z fk fv t`: the map object whose entries are those of the model's `t`, keys and values coded by `fk` and `fv`.
-/

set_option linter.unusedSectionVars false

namespace Verif.Src.XMap

open Verif.GoMap

variable {K V : Type} [BEq K]

/-- A key as a value. -/
abbrev kE (k : K) : Val (K ⊕ V) := .elem (.inl k)
/-- A value of the map as a value. -/
abbrev vE (v : V) : Val (K ⊕ V) := .elem (.inr v)
/-- `Entry[K, V]`. -/
def entryV (e : K × V) : Val (K ⊕ V) := .struct "Entry" [("Key", kE e.1), ("Value", vE e.2)]
/-- `int`. -/
def intV (i : Int) : Val (K ⊕ V) := .num .int i
/-- `uint64`. -/
def hashV (h : UInt64) : Val (K ⊕ V) := .num .u64 h.toNat
/-- `struct{}`. -/
def unitV (_ : Unit) : Val (K ⊕ V) := .struct "struct{}" []

variable {A B : Type} [BEq A]

/-- The entries of a table as values. -/
def enc (fk : A → Val (K ⊕ V)) (fv : B → Val (K ⊕ V)) (t : Tab A B) : List (Val (K ⊕ V) × Val (K ⊕ V)) := t.map fun e => (fk e.1, fv e.2)

/-- A map with the entries of the table. -/
def obj (p : Par K V) (z : Val (K ⊕ V)) (fk : A → Val (K ⊕ V)) (fv : B → Val (K ⊕ V)) (t : Tab A B) : MapObj (K ⊕ V) :=
  ⟨z, keyEq (ctx p), enc fk fv t⟩

/-- The codes of keys can be keys, and are `==` as the keys are. -/
structure Keyed (p : Par K V) (fk : A → Val (K ⊕ V)) : Prop where
  eq : ∀ a b, keyEq (ctx p) (fk a) (fk b) = (a == b)
  isKey : ∀ a, isKey (fk a) = true

variable {p : Par K V} {z : Val (K ⊕ V)} {fk : A → Val (K ⊕ V)} {fv : B → Val (K ⊕ V)} {t : Tab A B}

theorem keyed_kE : Keyed p (kE : K → Val (K ⊕ V)) where
  eq a b := by
    show (some (a == b) == some true) = (a == b)
    cases a == b <;> rfl
  isKey _ := rfl

theorem keyed_hash : Keyed p (hashV : UInt64 → Val (K ⊕ V)) where
  eq a b := by
    show decide ((a.toNat : Int) = b.toNat) = (a == b)
    by_cases h : a = b
    · subst h; simp
    · have h' : a.toNat ≠ b.toNat := fun e => h (UInt64.toNat_inj.mp e)
      have : ¬ ((a.toNat : Int) = b.toNat) := by omega
      simp only [this, decide_false]
      exact (beq_eq_false_iff_ne.mpr h).symm
  isKey _ := rfl

theorem obj_get (hk : Keyed p fk) (k : A) : (obj p z fk fv t).get (fk k) = (t.get? k).map fv := by
  simp only [MapObj.get, obj, enc, Tab.get?, List.find?_map]
  have : ((fun e : Val (K ⊕ V) × Val (K ⊕ V) => keyEq (ctx p) e.1 (fk k)) ∘ fun e : A × B => (fk e.1, fv e.2)) = fun e => e.1 == k := by
    funext e
    simp only [Function.comp, hk.eq]
  rw [this]
  cases t.find? fun e => e.1 == k <;> rfl

theorem obj_put (hk : Keyed p fk) (hv : ∀ v, fit z (fv v) = fv v) (k : A) (v : B) :
    (obj p z fk fv t).put (fk k) (fv v) = obj p z fk fv (t.put k v) := by
  simp only [MapObj.put, obj, enc, Tab.put, List.any_map, hv]
  have : ((fun e : Val (K ⊕ V) × Val (K ⊕ V) => keyEq (ctx p) e.1 (fk k)) ∘ fun e : A × B => (fk e.1, fv e.2)) = fun e => e.1 == k := by
    funext e
    simp only [Function.comp, hk.eq]
  rw [this]
  congr 1
  split
  · simp only [List.map_map]
    apply List.map_congr_left
    intro e _
    simp only [Function.comp, hk.eq]
    split <;> rfl
  · simp

theorem obj_del (hk : Keyed p fk) (k : A) : (obj p z fk fv t).del (fk k) = obj p z fk fv (t.del k) := by
  simp only [MapObj.del, obj, enc, Tab.del, List.filter_map]
  congr 2
  congr 1
  funext e
  simp only [Function.comp, hk.eq]

/-- `w` is the map `x`: a map object, or nil. -/
def IsMap (p : Par K V) (z : Val (K ⊕ V)) (fk : A → Val (K ⊕ V)) (fv : B → Val (K ⊕ V)) (m : Mem (K ⊕ V)) (w : Val (K ⊕ V)) : MapVar A B → Prop
  | none => w = .nil
  | some t => ∃ id, w = .map id ∧ m.maps[id]? = some (obj p z fk fv t)

theorem lookup_map {id : Nat} {m : Mem (K ⊕ V)} (hk : Keyed p fk) (h : m.maps[id]? = some (obj p z fk fv t)) (k : A) :
    lookupMap m (.map id) (fk k) = (match t.get? k with | some v => pure [fv v, .bool true] | none => pure [z, .bool false]) := by
  simp only [lookupMap, h, hk.isKey, if_true, obj_get hk]
  cases t.get? k <;> rfl

theorem lookup_nil {m : Mem (K ⊕ V)} (hk : Keyed p fk) (k : A) : lookupMap m .nil (fk k) = pure [.fn "zero value", .bool false] := by
  simp only [lookupMap, hk.isKey, if_true]

theorem delete_map {id : Nat} {m : Mem (K ⊕ V)} (hk : Keyed p fk) (h : m.maps[id]? = some (obj p z fk fv t)) (k : A) :
    deleteMap m (.map id) (fk k) = pure (m.setMap id (obj p z fk fv (t.del k))) := by
  simp only [deleteMap, h, hk.isKey, if_true, obj_del hk]

theorem store_map {id : Nat} {m : Mem (K ⊕ V)} (hk : Keyed p fk) (hv : ∀ v, fit z (fv v) = fv v)
    (h : m.maps[id]? = some (obj p z fk fv t)) (env : Env (K ⊕ V)) (k : A) (v : B) :
    store env m (fv v) (.elem (.map id) (fk k)) = pure (env, m.setMap id (obj p z fk fv (t.put k v))) := by
  have : store env m (fv v) (.elem (.map id) (fk k)) = (do let m ← assignMap m id (fk k) (fv v); pure (env, m)) := by
    unfold store; rfl
  rw [this]
  simp only [assignMap, h, hk.isKey, if_true, obj_put hk hv, pure_bind]

/-! ## Memory with another map -/

theorem setMap_here {m : Mem (K ⊕ V)} {id : Nat} (h : id < m.maps.length) (o' : MapObj (K ⊕ V)) :
    (m.setMap id o').maps[id]? = some o' := by
  simp [Mem.setMap, h]

theorem setMap_other {m : Mem (K ⊕ V)} {id d : Nat} (h : d ≠ id) (o : MapObj (K ⊕ V)) : (m.setMap id o).maps[d]? = m.maps[d]? := by
  simp [Mem.setMap, Ne.symm h]

@[simp] theorem setMap_arrs (m : Mem (K ⊕ V)) (id : Nat) (o : MapObj (K ⊕ V)) : (m.setMap id o).arrs = m.arrs := rfl
@[simp] theorem setMap_cell (m : Mem (K ⊕ V)) (id : Nat) (o : MapObj (K ⊕ V)) (a i : Nat) : (m.setMap id o).cell a i = m.cell a i := rfl
@[simp] theorem setMap_length (m : Mem (K ⊕ V)) (id : Nat) (o : MapObj (K ⊕ V)) : (m.setMap id o).maps.length = m.maps.length := by simp [Mem.setMap]
@[simp] theorem newMap_arrs (m : Mem (K ⊕ V)) (o : MapObj (K ⊕ V)) : (m.newMap o).arrs = m.arrs := rfl
@[simp] theorem newMap_cell (m : Mem (K ⊕ V)) (o : MapObj (K ⊕ V)) (a i : Nat) : (m.newMap o).cell a i = m.cell a i := rfl
@[simp] theorem newMap_length (m : Mem (K ⊕ V)) (o : MapObj (K ⊕ V)) : (m.newMap o).maps.length = m.maps.length + 1 := by simp [Mem.newMap]
@[simp] theorem put_maps (m : Mem (K ⊕ V)) (a i : Nat) (v : Val (K ⊕ V)) : (m.put a i v).maps = m.maps := rfl

theorem newMap_here (m : Mem (K ⊕ V)) (o : MapObj (K ⊕ V)) : (m.newMap o).maps[m.maps.length]? = some o := by
  simp [Mem.newMap]

theorem newMap_other {m : Mem (K ⊕ V)} {d : Nat} (h : d < m.maps.length) (o : MapObj (K ⊕ V)) : (m.newMap o).maps[d]? = m.maps[d]? := by
  simp [Mem.newMap, List.getElem?_append_left h]

theorem setAt_maps' (m : Mem (K ⊕ V)) (b : Val (K ⊕ V)) (j : Nat) (w : Val (K ⊕ V)) : (setAt m b j w).maps = m.maps := by
  unfold setAt; split <;> rfl

theorem fit_entry (w : Val (K ⊕ V)) (e : K × V) : fit w (entryV e) = entryV e := by cases w <;> rfl

end Verif.Src.XMap
